import Verif.Model.TMM
import Mathlib.Analysis.SpecialFunctions.Trigonometric.Arctan

/-!
# Model of `rayflare/rigorous_coupled_wave_analysis/rcwa.py`

The solvers (S4, Inkstone) are parameters.  `RCWA_wl` and `RCWA_wl_inkstone` are line by line the same apart from the names of the solver calls;
one model stands for both.
-/

namespace Rayflare.Model

open Rayflare.Np Real

/-! ## Polarisation -/

/-- Arguments of `process_pol`: a string, or a pair of amplitudes. -/
inductive PolArg
  | str (s : List Char)
  | pair (s p : ℝ)

/-- Results of `process_pol`. -/
inductive PolOut
  | amps (s p : ℝ)
  | str (s : List Char)

/-- `len(input_pol)`. -/
def PolArg.len : PolArg → ℕ
  | .str s => s.length
  | .pair _ _ => 2

/-- `process_pol`, rcwa.py 42-58; `none` is the ValueError.  A two-character string is returned unchanged by the first branch; `in "sp"` is the substring test. -/
noncomputable def processPol (a : PolArg) : Option PolOut :=
  if a.len = 2 then
    match a with
    | .str s => some (.str s)
    | .pair s p => some (.amps s p)
  else
    match a with
    | .str s =>
      if s <:+: ['s', 'p'] then some (.amps (if s = ['s'] then 1 else 0) (if s = ['p'] then 1 else 0))
      else if s = ['u'] then some (.amps (√2 / 2) (√2 / 2))
      else none
    | .pair _ _ => none

/-! ## Power fluxes -/

/-- `rcwa_rt`, rcwa.py 685-694: `R`, `T` and the incident flux.  `flux l` is the pair (forward, backward) the solver returns for `"layer_l"`, at the top of
that layer; layer 1 is the incidence medium, layer `n` the transmission medium.  Simplification: only the real parts of the fluxes are kept. -/
noncomputable def rcwaRT (flux : ℕ → ℝ × ℝ) (n : ℕ) : ℝ × ℝ × ℝ :=
  (-(flux 1).2 / (flux 1).1, (flux n).1 / (flux 1).1, (flux 1).1)

/-- `rcwa_absorption_per_layer`, rcwa.py 887-898. -/
noncomputable def rcwaAbsorption (flux : ℕ → ℝ × ℝ) (n : ℕ) (incpf : ℝ) : List ℝ :=
  (((List.range (n - 2)).map fun i => i + 2).map fun layer =>
    ((flux layer).1 + (flux layer).2) - ((flux (layer + 1)).1 + (flux (layer + 1)).2)).map fun x => (if x > 0 then x else 0) / incpf

/-! ## Diffraction orders -/

/-- What is fixed for one wavelength: wavelength, permittivity of the incidence medium (real: rcwa.py 183), the reciprocal lattice vectors (without the factor 2π), and the polar angle
`np.real(np.arccos(ft_z / |ft|))` in the transmission medium as a function of the in-plane frequencies (rcwa.py 408, 414 / 595, 601; a parameter because the transmission medium may absorb). -/
structure RcwaCell where
  wl : ℝ
  eps : ℝ
  f1 : ℝ × ℝ
  f2 : ℝ × ℝ
  polarT : ℝ → ℝ → ℝ

/-- Solver output for one angle of incidence: transmission, absorption per layer, and for each diffraction order of the basis set its power in reflection and transmission. -/
structure RcwaSol where
  T : ℝ
  A : List ℝ
  orders : List ((ℤ × ℤ) × ℝ × ℝ)

/-- `fr_x`, `fr_y`, rcwa.py 397-405 / 584-592. -/
noncomputable def rcwaFreq (cell : RcwaCell) (θ φ : ℝ) (g : ℤ × ℤ) : ℝ × ℝ :=
  (√cell.eps / cell.wl * Real.sin θ * Real.sin φ + g.1 * cell.f1.1 + g.2 * cell.f2.1,
   √cell.eps / cell.wl * Real.sin θ * Real.cos φ + g.1 * cell.f1.2 + g.2 * cell.f2.2)

/-- `np.nan_to_num(np.arctan(fr_x / fr_y))`, rcwa.py 410 / 597: division by zero gives ±inf (arctan ±π/2) or nan (0). -/
noncomputable def rcwaArctan (f : ℝ × ℝ) : ℝ :=
  if f.2 = 0 then (if f.1 = 0 then 0 else if 0 < f.1 then π / 2 else -(π / 2)) else arctan (f.1 / f.2)

/-- `phi_rt`, rcwa.py 410-411 / 597-598. -/
noncomputable def rcwaPhi (s : ℝ) (f : ℝ × ℝ) : ℝ := foldPhi (rcwaArctan f) s

/-- `np.real(np.arccos(fr_z / np.sqrt(fr_x**2 + fr_y**2 + fr_z**2)))`, rcwa.py 407, 413 / 594, 600, for real permittivity: `fr_z` is imaginary for evanescent orders, and the real part of the
arccosine of an imaginary number is π/2. -/
noncomputable def polarOf (eps wl : ℝ) (f : ℝ × ℝ) : ℝ :=
  if f.1 ^ 2 + f.2 ^ 2 ≤ eps / wl ^ 2 then arccos (√(eps / wl ^ 2 - f.1 ^ 2 - f.2 ^ 2) / √(eps / wl ^ 2)) else π / 2

/-- `theta_r` before the side is taken into account, rcwa.py 413. -/
noncomputable def rcwaThetaR (cell : RcwaCell) (f : ℝ × ℝ) : ℝ := polarOf cell.eps cell.wl f

/-- `theta_t` before the side is taken into account, rcwa.py 414. -/
noncomputable def rcwaThetaT (cell : RcwaCell) (f : ℝ × ℝ) : ℝ := π - cell.polarT f.1 f.2

/-- `if side == -1: theta = np.pi - theta`, rcwa.py 419-421 / 606-608. -/
noncomputable def rcwaSide (front : Bool) (θ : ℝ) : ℝ := if front then θ else π - θ

/-- Removal of non-propagating orders and of tiny or negative powers, rcwa.py 416-417 and 423-427 / 603-604 and 610-614 (`np.abs` acts on the boolean array). -/
noncomputable def rcwaClean (θ p : ℝ) : ℝ :=
  let q := if θ = π / 2 then 0 else p
  if q < 1e-16 then 0 else q

/-- `x[x == 0] = 1e-10`, rcwa.py 432-434 / 619-621. -/
noncomputable def nudge (x : ℝ) : ℝ := if x = 0 then 1e-10 else x

/-- Cleaned reflected powers of all orders. -/
noncomputable def rcwaRPowers (cell : RcwaCell) (θ φ : ℝ) (sol : RcwaSol) : List ℝ :=
  sol.orders.map fun o => rcwaClean (rcwaThetaR cell (rcwaFreq cell θ φ o.1)) o.2.1

/-- `R[in_bin[i1]]`, rcwa.py 394 / 581. -/
def rcwaR (sol : RcwaSol) : ℝ := 1 - sol.T - sol.A.sum

/-- Matrices by row and column. -/
abbrev Mat := ℕ → ℕ → ℝ

/-- One pass of the loops over orders, rcwa.py 439-447 / 626-634 resp. 449-453 / 636-640: `mat_RT[bini, dst] = mat_RT[bini, src] + p` with `bini` computed from the polar angle and azimuth, unless
`p` is zero.  The code has `dst = in_bin[i1]` and `src = i1`. -/
noncomputable def rcwaPut (g : Grid) (dst src : ℕ) (mat : Mat) (e : ℝ × ℝ × ℝ) : Option Mat :=
  if e.2.2 = 0 then some mat
  else (tmmBin g (thetaBin g (nudge e.1)) (nudge e.2.1)).map fun b =>
    fun r c => if r = b ∧ c = dst then mat b src + e.2.2 else mat r c

/-- The reflected orders as (polar angle, azimuth, power), rcwa.py 429-430: powers are rescaled so that they add up to `R`. -/
noncomputable def rcwaReflected (s : ℝ) (front : Bool) (cell : RcwaCell) (θ φ : ℝ) (sol : RcwaSol) : List (ℝ × ℝ × ℝ) :=
  let rsum := (rcwaRPowers cell θ φ sol).sum
  sol.orders.map fun o =>
    let f := rcwaFreq cell θ φ o.1
    (rcwaSide front (rcwaThetaR cell f), rcwaPhi s f, rcwaR sol / rsum * rcwaClean (rcwaThetaR cell f) o.2.1)

/-- The transmitted orders as (polar angle, azimuth, power). -/
noncomputable def rcwaTransmitted (s : ℝ) (front : Bool) (cell : RcwaCell) (θ φ : ℝ) (sol : RcwaSol) : List (ℝ × ℝ × ℝ) :=
  sol.orders.map fun o =>
    let f := rcwaFreq cell θ φ o.1
    (rcwaSide front (rcwaThetaT cell f), rcwaPhi s f, rcwaClean (rcwaThetaT cell f) o.2.2)

/-- One angle of incidence, rcwa.py 375-453 / 557-640. `none` is an IndexError, or the NaN entries that result when all reflected powers were removed (0/0 in line 430 / 617). -/
noncomputable def rcwaAngle (g : Grid) (s : ℝ) (front : Bool) (cell : RcwaCell) (dst src : ℕ) (θ φ : ℝ) (sol : RcwaSol) (mat : Mat) : Option Mat :=
  if (rcwaRPowers cell θ φ sol).sum = 0 then none
  else (rcwaReflected s front cell θ φ sol ++ rcwaTransmitted s front cell θ φ sol).foldlM (rcwaPut g dst src) mat

/-- `in_bin[i1]` as an index of the columns, rcwa.py 357-370 / 538-551. The angles of incidence are the rows of the upper half of the angle vector (rcwa.py 227-229). -/
noncomputable def rcwaInBin (g : Grid) (front : Bool) (i1 : ℕ) (row : Row) : Option ℕ :=
  if front then some i1
  else (overallBin g.phiIntv g.col0 (thetaBin g (π - row.theta)) row.phi).bind fun b => pyIndex g.half (b - g.half)

/-- One pass of the loop over the angles of incidence. -/
noncomputable def rcwaStep (g : Grid) (s : ℝ) (front : Bool) (cell : RcwaCell) (sol : ℕ → RcwaSol) (mat : Mat) (i1 : ℕ) : Option Mat :=
  g.angleVector[i1]?.bind fun row =>
  (rcwaInBin g front i1 row).bind fun dst =>
  rcwaAngle g s front cell dst i1 row.theta row.phi (sol i1) mat

/-- `mat_RT` of `RCWA_wl` and `RCWA_wl_inkstone`, rcwa.py 317-498 / 501-678, all angles. `sol i1` is the solver output for angle of incidence number `i1`.
The conversion of the angles to degrees and back is left out. -/
noncomputable def rcwaMatrix (g : Grid) (s : ℝ) (front : Bool) (cell : RcwaCell) (sol : ℕ → RcwaSol) : Option Mat :=
  (List.range g.half).foldlM (rcwaStep g s front cell sol) (fun _ _ => 0)

/-- Column of `A_layer.T` written for angle number `i1`, rcwa.py 381, 490-491 / 563, 669-670: flipped back for rear incidence. -/
def rcwaAbs (front : Bool) (sol : RcwaSol) : List ℝ := if front then sol.A else sol.A.reverse

/-! ## Stacks for rear incidence -/

/-- What the solver is given for each finite layer: the layer whose material and width are used, and the layer whose shapes are drawn (rcwa.py 137-152, 169-188): `layers` is
reversed for rear incidence, `geom_list` is built from `structure`. -/
def rcwaLayers {L : Type*} (structure_ : List L) (front : Bool) : List (L × L) :=
  let layers := if front then structure_ else structure_.reverse
  List.zip layers structure_

end Rayflare.Model
