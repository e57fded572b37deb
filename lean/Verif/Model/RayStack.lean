import Verif.Np
import Mathlib.Analysis.SpecialFunctions.Exp
import Mathlib.Analysis.SpecialFunctions.Trigonometric.Basic

/-!
# Model of `rayflare/ray_tracing/rt.py`: following one ray through a stack (`single_ray_stack`, `traverse`) and
collecting the rays (`parallel_inner`, `rt_structure.calculate`)

What happens when the ray meets a surface (`single_interface_check` / `single_cell_check`: geometry and random
decisions) is an arbitrary `Outcome`; those functions are modelled separately.
-/

namespace Rayflare.Model

open Rayflare.Np

/-- Result of a surface interaction, rt.py 1708-1749: `res == 0`, `1`, `2`, with the new global polar angle, or the
absorption per interface layer. -/
inductive Outcome
  | reflect (θ : ℝ)
  | transmit (θ : ℝ)
  | absorb (A : List ℝ)

/-- Arguments of `single_ray_stack` at one wavelength: `widths` and `alphas` include the incidence and the transmission medium (whose
widths are 0, rt.py 836-838), `zpos` are the depths, `thresh` is `I_thresh`. -/
structure Stack where
  widths : List ℝ
  alphas : List ℝ
  zpos : List ℝ
  thresh : ℝ

/-- Number of surfaces: one less than the number of media. -/
def Stack.nSurf (S : Stack) : ℕ := S.widths.length - 1

/-- `np.cumsum(widths)[i]`, a Python index (−1 is the last one); `i` is always in range where this is used. -/
def Stack.cum (S : Stack) (i : ℤ) : ℝ := (pyGet (cumsum S.widths) i).getD 0

/-- `depth_indices[m]`, rt.py 1648-1652, as the list of positions at which the mask is true. -/
noncomputable def Stack.layerIdx (S : Stack) (m : ℕ) : List ℕ :=
  (List.range S.zpos.length).filter fun k =>
    decide (S.zpos.getD k 0 < S.cum m) && decide (S.zpos.getD k 0 ≥ S.cum ((m : ℤ) - 1))

/-- `depths[m]`, rt.py 1653. -/
noncomputable def Stack.depths (S : Stack) (m : ℕ) : List ℝ :=
  (S.layerIdx m).map fun k => S.zpos.getD k 0 - S.cum ((m : ℤ) - 1)

/-- The variables of the loop of `single_ray_stack`. `θ = none` is Python's `None`. `aInt`, `aIdx` are
`A_interface_array` (empty for the initial 0) and `A_interface_index`. -/
structure Ray where
  I : ℝ
  profile : ℕ → ℝ
  A : ℕ → ℝ
  mat : ℤ
  surf : ℤ
  dir : ℤ
  θ : Option ℝ
  stop : Bool
  aInt : List ℝ
  aIdx : ℤ
  nPasses : ℕ

/-- `traverse`, rt.py 1856-1875: returns `(DA, stop, I_back, theta)`; `up` is `direction == -1`. -/
noncomputable def traverse (width θ α I : ℝ) (positions : List ℝ) (thresh : ℝ) (up : Bool) :
    List ℝ × Bool × ℝ × Option ℝ :=
  let ratio := α / |Real.cos θ|
  let DAu := positions.map fun z => I * ratio * Real.exp (-ratio * z)
  let Iback := I * Real.exp (-ratio * width)
  let stop := decide (Iback < thresh)
  let DAu := if up then DAu.reverse else DAu
  let intgr := trapz DAu positions
  let DA := DAu.map fun x => if intgr > 0 then (I - Iback) * x / intgr else 0
  (DA, stop, Iback, if stop then none else some θ)

/-- `profile[depth_indices[m]] = profile[depth_indices[m]] + DA`, rt.py 1755-1757. -/
def addAt (idx : List ℕ) (DA : List ℝ) (p : ℕ → ℝ) : ℕ → ℝ :=
  fun k => if k ∈ idx then p k + DA.getD (idx.idxOf k) 0 else p k

/-- Before the loop, rt.py 1583-1620 (geometry left out): starting medium and direction. -/
def Stack.start (matI dirI : ℤ) : Ray :=
  { I := 1, profile := fun _ => 0, A := fun _ => 0, mat := matI
    surf := if dirI = 1 then matI else matI - 1
    dir := dirI, θ := none, stop := false, aInt := [], aIdx := 0, nPasses := 0 }

/-- The surface interaction, rt.py 1708-1727. -/
noncomputable def Ray.interact (s : Ray) : Outcome → Ray
  | .reflect θ => { s with dir := -s.dir, surf := s.surf + -s.dir, θ := some θ }
  | .transmit θ => { s with surf := s.surf + s.dir, mat := s.mat + s.dir, θ := some θ }
  | .absorb A =>
    { s with stop := true, aInt := A.map (fun a => s.I * a / A.sum), aIdx := s.surf + 1, θ := none, I := 0 }

/-- Has the ray left the stack? rt.py 1729-1733. -/
def Stack.checkEnd (S : Stack) (s : Ray) : Ray :=
  if s.dir = 1 ∧ s.mat = (S.widths.length : ℤ) - 1 then { s with stop := true }
  else if s.dir = -1 ∧ s.mat = 0 then { s with stop := true }
  else s

/-- The pass through the bulk layer, rt.py 1737-1759, for resolved index `m`. -/
noncomputable def Stack.pass (S : Stack) (s : Ray) (m : ℕ) : Ray :=
  let r := traverse (S.widths.getD m 0) (s.θ.getD 0) (S.alphas.getD m 0) s.I (S.depths m) S.thresh (decide (s.dir = -1))
  { s with
    I := r.2.2.1
    stop := r.2.1
    θ := r.2.2.2
    A := fun k => if k = m then s.A k + s.I - r.2.2.1 else s.A k
    profile := addAt (S.layerIdx m) r.1 s.profile
    nPasses := s.nPasses + 1 }

/-- One iteration of `while not stop`, rt.py 1658-1759, given the outcome at the surface.  `none` is an IndexError of
`surfaces[surf_index]`, `nks[mat_index]`, `nks[mat_index ± 1]` or `widths[mat_index]`.  A finished ray stays as it is. -/
noncomputable def Stack.step (S : Stack) (s : Ray) (o : Outcome) : Option Ray :=
  if s.stop then some s else
  (pyIndex S.nSurf s.surf).bind fun _ =>
  (pyIndex S.widths.length s.mat).bind fun _ =>
  (pyIndex S.widths.length (if s.dir = 1 then s.mat + 1 else s.mat - 1)).bind fun _ =>
  let s := S.checkEnd (s.interact o)
  if s.stop then some s else (pyIndex S.widths.length s.mat).map (S.pass s)

/-- The loop, for a given sequence of outcomes. -/
noncomputable def Stack.trace (S : Stack) (s : Ray) : List Outcome → Option Ray
  | [] => some s
  | o :: os => (S.step s o).bind fun s => S.trace s os

/-! ## Collecting the rays -/

/-- Does a finished ray count as reflected: `non_abs & (theta <= pi/2)`, rt.py 970-976. -/
noncomputable def Ray.isRefl (s : Ray) : Bool := match s.θ with | none => false | some t => decide (t ≤ Real.pi / 2)

/-- … as transmitted: `non_abs & (theta > pi/2)`, rt.py 977-979. -/
noncomputable def Ray.isTrns (s : Ray) : Bool := match s.θ with | none => false | some t => decide (t > Real.pi / 2)

/-- Mean over all rays. -/
noncomputable def rayMean (rays : List Ray) (f : Ray → ℝ) : ℝ := (rays.map fun s => f s / rays.length).sum

/-- `R`, rt.py 981-983. -/
noncomputable def resR (rays : List Ray) : ℝ := rayMean rays fun s => if s.isRefl then s.I else 0
/-- `T`, rt.py 982-984. -/
noncomputable def resT (rays : List Ray) : ℝ := rayMean rays fun s => if s.isTrns then s.I else 0
/-- `R0`, rt.py 986-992. -/
noncomputable def resR0 (rays : List Ray) : ℝ := rayMean rays fun s => if s.isRefl && decide (s.nPasses = 0) then s.I else 0
/-- `A_layer`, rt.py 1187 (accumulated in `parallel_inner`); `A_per_layer` returned is `A_layer[:, 1:-1]` (line 999). -/
noncomputable def resA (rays : List Ray) (m : ℕ) : ℝ := rayMean rays fun s => s.A m
/-- `A_in_interfaces[j][l]`, rt.py 1197-1210: sum of the arrays of the rays absorbed in interface `j`, over the number of rays. -/
noncomputable def resAint (rays : List Ray) (j l : ℕ) : ℝ :=
  rayMean rays fun s => if s.aIdx = (j : ℤ) + 1 then s.aInt.getD l 0 else 0
/-- `profile`, rt.py 1183 and 994, 1000 without the conversion factor 1e-3. -/
noncomputable def resProfile (rays : List Ray) (k : ℕ) : ℝ :=
  let p := rayMean rays fun s => s.profile k
  if p < 0 then 0 else p

end Rayflare.Model
