import Mathlib.Data.Matrix.Mul
import Mathlib.Analysis.SpecialFunctions.Exp
import Mathlib.Analysis.SpecialFunctions.Trigonometric.Basic
import Verif.Np

/-!
# Model of `rayflare/matrix_formalism/multiply_matrices.py`, lines 146-647

Wavelengths are the elements of a finite type `ω`, incidence bins those of a finite type `ι`
(`Fin n_a_in` in the code), the layers of the front / rear surface those of `κ₀`, `κ₁`.
Structures with a single bulk are modelled here (the code's loop variable `i1` is then always 0);
several bulk layers are modelled in `Model/MultiBulk.lean` and `Model/MultiBulkProf.lean`.
Arrays of powers per wavelength and bin are functions `ω → ι → ℝ`; lists that grow by one element per pass
stay lists.
-/

namespace Rayflare.Model

open Matrix

/-! ## Bulk absorption -/

/-- `make_D`, lines 146-158, at one wavelength with absorption coefficient `α`: the diagonal matrix
`np.diag(np.exp(-alphas * thick / abs(np.cos(thetas))))`. -/
noncomputable def makeD {ι : Type*} [DecidableEq ι] (α thick : ℝ) (θ : ι → ℝ) : Matrix ι ι ℝ :=
  Matrix.diagonal fun j => Real.exp (-α * thick / |Real.cos (θ j)|)

/-! ## Loading the stored matrices -/

/-- Which side light is incident from (the strings `"front"`, `"rear"`). -/
inductive Side | front | rear
  deriving DecidableEq

/-- The three matrices of one surface, one side and one wavelength: lists `R`, `T`, `A` filled by
`load_redistribution_matrices`. -/
structure Mats (ι κ : Type*) where
  R : Matrix ι ι ℝ
  T : Matrix ι ι ℝ
  A : Matrix κ ι ℝ

/-- `load_redistribution_matrices`, lines 238-260: cutting the stored matrix `fullmat` (with
`2 * n_a_in` rows) into the reflected and the transmitted block.  Front: `R = fullmat[:n_a_in]`,
`T = fullmat[n_a_in:]`; rear the other way round.  (The 2-D and 3-D branches do the same per wavelength.) -/
def loadMats {h : ℕ} {κ : Type*} (side : Side) (fullmat : Matrix (Fin (h + h)) (Fin h) ℝ)
    (absmat : Matrix κ (Fin h) ℝ) : Mats (Fin h) κ :=
  match side with
  | .front => { R := fun r j => fullmat (Fin.castAdd h r) j
                T := fun r j => fullmat (Fin.natAdd h r) j
                A := absmat }
  | .rear => { R := fun r j => fullmat (Fin.natAdd h r) j
               T := fun r j => fullmat (Fin.castAdd h r) j
               A := absmat }

/-! ## Bulk profile -/

/-- `norm = np.divide(per_bin, denom, where=denom != 0)`, lines 185-188, one wavelength and one bin.
`junk` is the content of the uninitialised output entry. -/
noncomputable def profNorm (v1 v2 α θ d junk : ℝ) : ℝ :=
  let denom := 1 - Real.exp (-α * d / |Real.cos θ|)
  Np.divideWhere (decide (denom ≠ 0)) junk (v1 - v2) denom

/-- `result[i1, :]`, lines 190-196, at depth `z`: the sum over bins of
`alpha * norm / abscos * exp(-alpha * z / abscos)`. -/
noncomputable def profRaw {ι : Type*} [Fintype ι] (v1 v2 : ι → ℝ) (α : ℝ) (θ : ι → ℝ) (d : ℝ)
    (junk : ι → ℝ) (z : ℝ) : ℝ :=
  ∑ j, α * profNorm (v1 j) (v2 j) α (θ j) d (junk j) / |Real.cos (θ j)|
    * Real.exp (-α * z / |Real.cos (θ j)|)

/-- `bulk_profile_calc`, lines 183-207, one wavelength.  `junk` and `junk'` are the contents of the
uninitialised outputs of the two `np.divide(..., where=...)` calls. (Uninitialised entries are assumed to be
finite numbers.) -/
noncomputable def bulkProfileCalc {ι : Type*} [Fintype ι] (v1 v2 : ι → ℝ) (α : ℝ) (θ : ι → ℝ) (d : ℝ)
    (depths : List ℝ) (A : ℝ) (junk : ι → ℝ) (junk' : ℝ) : List ℝ :=
  let result := depths.map (profRaw v1 v2 α θ d junk)
  let check := Np.trapz result depths
  let scale := Np.divideWhere (decide (check ≠ 0)) junk' A check
  result.map (fun x => scale * x)

/-! ## Interface profiles -/

/-- `scale = ((np.sum(Af, 1) * v) / If).fillna(0)` and `np.sum(scale * Pf, 1)`, lines 412-419, 437-444 and
499-505, at one wavelength and depth: `A` is the absorption matrix, `I` the stored integrated
absorption, `P` the stored profile.  `0/0 = NaN` is replaced by `fillna(0)`; `x/0 = inf` for `x ≠ 0` is modelled by the
arbitrary value `inf j`. -/
noncomputable def interfaceProf {ι κ : Type*} [Fintype ι] [Fintype κ] (A : Matrix κ ι ℝ) (I P v : ι → ℝ)
    (inf : ι → ℝ) : ℝ :=
  ∑ j, (let num := (∑ l, A l j) * v j
        if I j = 0 then (if num = 0 then 0 else inf j) else num / I j) * P j

/-! ## The pass loop -/

/-- Everything `matrix_multiplication` has in hand when the pass loop starts (lines 310-392). -/
structure Sys (ω ι κ₀ κ₁ : Type*) where
  /-- launch vector `v0` (`make_v0` repeats it for every wavelength) -/
  v0 : ω → ι → ℝ
  /-- `up2down`, `down2up`: ray format changes, same for all wavelengths -/
  up2down : Matrix ι ι ℝ
  down2up : Matrix ι ι ℝ
  /-- bulk absorption coefficient, thickness, polar angles of the incidence bins -/
  α : ω → ℝ
  thick : ℝ
  θ : ι → ℝ
  /-- `Rf[0], Tf[0], Af[0]` -/
  front0 : ω → Mats ι κ₀
  /-- `Rf[1], Tf[1], Af[1]` -/
  front1 : ω → Mats ι κ₁
  /-- `Rb[0], Tb[0], Ab[0]` -/
  rear0 : ω → Mats ι κ₀
  /-- `options["I_thresh"]` -/
  thresh : ℝ

/-- The variables of the loop: `vf_1` and the per-pass lists `vr`, `vt`, `a[0]`, `a[1]`, `A`, and
`A_prof` (empty in the branch without profiles). -/
structure LoopState (ω ι κ₀ κ₁ : Type*) where
  vf1 : ω → ι → ℝ
  vr : List (ω → ι → ℝ)
  vt : List (ω → ι → ℝ)
  a0 : List (ω → κ₀ → ℝ)
  a1 : List (ω → κ₁ → ℝ)
  A : List (ω → ℝ)
  Aprof : List (ω → List ℝ)

section loop
variable {ω ι κ₀ κ₁ : Type*} [Fintype ι] [DecidableEq ι]

/-- `dot_wl(mat, vec)`, lines 161-173 (3-D matrix, i.e. one per wavelength; a 2-D matrix is the
constant family).  The output of the code has `mat.shape[1]` columns, so for the 2-D absorption matrix of an ideal surface (one row of zeros, ideal_cases.py 74 and 153) the zero is repeated
once per bin instead of once per layer; the sums taken later are zero either way. -/
def dotWl {ρ : Type*} (M : ω → Matrix ρ ι ℝ) (v : ω → ι → ℝ) : ω → ρ → ℝ := fun w => M w *ᵥ v w

/-- `dot_wl_u2d(mat, vec)`, lines 176-180: the same matrix for every wavelength. -/
def dotWlU2d {ρ : Type*} (M : Matrix ρ ι ℝ) (v : ω → ι → ℝ) : ω → ρ → ℝ := fun w => M *ᵥ v w

/-- `np.sum(v, axis=1)`: power per wavelength. -/
def power (v : ω → ι → ℝ) : ω → ℝ := fun w => ∑ j, v w j

/-- `D` of line 360. -/
noncomputable def Sys.D (S : Sys ω ι κ₀ κ₁) : ω → Matrix ι ι ℝ := fun w => makeD (S.α w) S.thick S.θ

/-- Lines 400-409 (and 531-535): first interaction with the front surface. -/
def Sys.init (S : Sys ω ι κ₀ κ₁) : LoopState ω ι κ₀ κ₁ where
  vf1 := dotWl (fun w => (S.front0 w).T) S.v0
  vr := [dotWl (fun w => (S.front0 w).R) S.v0]
  vt := []
  a0 := [dotWl (fun w => (S.front0 w).A) S.v0]
  a1 := []
  A := []
  Aprof := []

/-- `append_per_pass_info`, lines 279-291. -/
def Sys.appendPerPassInfo (S : Sys ω ι κ₀ κ₁) (vf2 vb1 : ω → ι → ℝ) (s : LoopState ω ι κ₀ κ₁) :
    LoopState ω ι κ₀ κ₁ :=
  { s with
    vr := s.vr ++ [dotWl (fun w => (S.rear0 w).T) vf2]
    vt := s.vt ++ [dotWl (fun w => (S.front1 w).T) vb1]
    a1 := s.a1 ++ [dotWl (fun w => (S.front1 w).A) vb1]
    a0 := s.a0 ++ [dotWl (fun w => (S.rear0 w).A) vf2] }

/-- Body of the loop without profiles, lines 544-558. -/
noncomputable def Sys.step (S : Sys ω ι κ₀ κ₁) (s : LoopState ω ι κ₀ κ₁) : LoopState ω ι κ₀ κ₁ :=
  let vf1 := dotWlU2d S.down2up s.vf1
  let vb1 := dotWl S.D vf1
  let A1 : ω → ℝ := fun w => power vf1 w - power vb1 w
  let vb2 := dotWl (fun w => (S.front1 w).R) vb1
  let vf2 := dotWl S.D vb2
  let vf2 := dotWlU2d S.up2down vf2
  let vf1 := dotWl (fun w => (S.rear0 w).R) vf2
  let A2 : ω → ℝ := fun w => power vb2 w - power vf2 w
  S.appendPerPassInfo vf2 vb1 { s with vf1 := vf1, A := s.A ++ [A1] ++ [A2] }

/-- What the profile branch needs in addition: `options.bulk_profile`, `depths_bulk`, and the
contents of uninitialised memory met by the `k`-th call of `bulk_profile_calc`. -/
structure ProfOpts (ω ι : Type*) where
  bulkProfile : Bool
  depths : List ℝ
  junk : ℕ → ω → ι → ℝ
  junk' : ℕ → ω → ℝ

/-- Body of the loop with profiles, lines 430-517.  The interface profiles `a_prof` do not feed back into the
loop; they are modelled by `interfaceProf`. -/
noncomputable def Sys.stepProf (S : Sys ω ι κ₀ κ₁) (o : ProfOpts ω ι) (s : LoopState ω ι κ₀ κ₁) :
    LoopState ω ι κ₀ κ₁ :=
  let vf1 := dotWlU2d S.down2up s.vf1
  let vb1 := dotWl S.D vf1
  let A1 : ω → ℝ := fun w => power vf1 w - power vb1 w
  let k := s.Aprof.length
  let p1 : List (ω → List ℝ) := if o.bulkProfile then
      [fun w => bulkProfileCalc (vf1 w) (vb1 w) (S.α w) S.θ S.thick o.depths (A1 w) (o.junk k w) (o.junk' k w)]
    else []
  let vb2 := dotWl (fun w => (S.front1 w).R) vb1
  let vf2 := dotWl S.D vb2
  let A2 : ω → ℝ := fun w => power vb2 w - power vf2 w
  let p2 : List (ω → List ℝ) := if o.bulkProfile then
      [fun w => (bulkProfileCalc (vb2 w) (vf2 w) (S.α w) S.θ S.thick o.depths (A2 w)
        (o.junk (k + 1) w) (o.junk' (k + 1) w)).reverse]
    else []
  let vf2 := dotWlU2d S.up2down vf2
  let vf1 := dotWl (fun w => (S.rear0 w).R) vf2
  S.appendPerPassInfo vf2 vb1 { s with vf1 := vf1, A := s.A ++ [A1] ++ [A2], Aprof := s.Aprof ++ p1 ++ p2 }

/-- `not np.any(power > options["I_thresh"])`, lines 429 and 543: the loop is left when *no* wavelength is above the
threshold. -/
def Sys.Done (S : Sys ω ι κ₀ κ₁) (s : LoopState ω ι κ₀ κ₁) : Prop := ∀ w, power s.vf1 w ≤ S.thresh

/-- `while not done: body`, started in `s`, is left after exactly `k` passes in state `t`. -/
def LoopExits (done : LoopState ω ι κ₀ κ₁ → Prop) (body : LoopState ω ι κ₀ κ₁ → LoopState ω ι κ₀ κ₁)
    (s : LoopState ω ι κ₀ κ₁) (k : ℕ) (t : LoopState ω ι κ₀ κ₁) : Prop :=
  t = body^[k] s ∧ done t ∧ ∀ i < k, ¬ done (body^[i] s)

/-- The loop of the branch without profiles (lines 531-560). -/
def Sys.Exits (S : Sys ω ι κ₀ κ₁) (k : ℕ) (t : LoopState ω ι κ₀ κ₁) : Prop :=
  LoopExits S.Done S.step S.init k t

/-- The loop of the profile branch (lines 400-525). -/
def Sys.ExitsProf (S : Sys ω ι κ₀ κ₁) (o : ProfOpts ω ι) (k : ℕ) (t : LoopState ω ι κ₀ κ₁) : Prop :=
  LoopExits S.Done (S.stepProf o) S.init k t

/-! ### Returned totals, lines 562-630 -/

/-- `R = np.sum(vr, (0, 2))`, lines 570-575. -/
def LoopState.R (s : LoopState ω ι κ₀ κ₁) (w : ω) : ℝ := (s.vr.map (fun v => ∑ j, v w j)).sum

/-- `T = np.sum(vt, (0, 2))`, lines 586-591. -/
def LoopState.T (s : LoopState ω ι κ₀ κ₁) (w : ω) : ℝ := (s.vt.map (fun v => ∑ j, v w j)).sum

/-- `A_bulk = np.sum(A, 0)`, lines 579-584. -/
def LoopState.Abulk (s : LoopState ω ι κ₀ κ₁) (w : ω) : ℝ := (s.A.map (fun v => v w)).sum

/-- `A_interface[0] = np.sum(a[0], (0, 2))`, lines 608-616. -/
def LoopState.Aint0 [Fintype κ₀] (s : LoopState ω ι κ₀ κ₁) (w : ω) : ℝ :=
  (s.a0.map (fun v => ∑ l, v w l)).sum

/-- `A_interface[1]`, lines 608-616. -/
def LoopState.Aint1 [Fintype κ₁] (s : LoopState ω ι κ₀ κ₁) (w : ω) : ℝ :=
  (s.a1.map (fun v => ∑ l, v w l)).sum

/-- `bulk_profile = np.sum(A_prof, 0)`, line 630, at one wavelength: sum of lists of `n` samples
(`n = len(depths_bulk)`). -/
def LoopState.bulkProf (s : LoopState ω ι κ₀ κ₁) (n : ℕ) (w : ω) : List ℝ :=
  s.Aprof.foldl (fun acc p => List.zipWith (· + ·) acc (p w)) (List.replicate n 0)

/-- The names of the variables in the returned dataset `RAT`, lines 577-647 (`i2 > 1` iff at least one
pass was made). -/
def ratVariables (profBranch : Bool) (passes : ℕ) : List String :=
  if 0 < passes then
    if profBranch then ["R", "A_bulk", "A_interface", "T"] else ["R", "A_bulk", "T"]
  else ["R"]

end loop

end Rayflare.Model
