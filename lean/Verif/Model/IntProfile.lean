import Verif.Model.MatMul
import Verif.Model.Absorption

/-!
# Model of the interface profiles collected by `matrix_multiplication` (multiply_matrices.py 393-525 and 617-633) and read by `make_absorption_function` (utilities.py 71-73)
-/

namespace Rayflare.Model

open Matrix

/-- What was stored in `<name><side>profmat.nc` for one surface and one side (`If`, `Pf` or `Ib`, `Pb`): integrated absorption per bin and profile per depth sample and bin. `inf` stands for the values of quotients `x / 0` with `x ≠ 0`. -/
structure StoredProf (ω ι ζ : Type*) where
  I : ω → ι → ℝ
  P : ω → ζ → ι → ℝ
  inf : ω → ι → ℝ

/-- Stored profiles of the two surfaces, lines 262-275: `none` if `prof_layers` of the surface is `None` (`I = []`). Front and rear files of a surface exist together. -/
structure IntProfs (ω ι ζ₀ ζ₁ : Type*) where
  front0 : Option (StoredProf ω ι ζ₀)
  rear0 : Option (StoredProf ω ι ζ₀)
  front1 : Option (StoredProf ω ι ζ₁)

/-- `a_prof[0]`, `a_prof[1]`, line 393: one array (wavelength, depth) per interaction. -/
structure AProf (ω ζ₀ ζ₁ : Type*) where
  p0 : List (ω → ζ₀ → ℝ)
  p1 : List (ω → ζ₁ → ℝ)

section
variable {ω ι κ₀ κ₁ ζ₀ ζ₁ : Type*} [Fintype ι] [DecidableEq ι] [Fintype κ₀] [Fintype κ₁]

/-- `if len(I) > 0: scale = ...; a_prof.append(np.sum(scale * P, 1))`, lines 411-419, 435-444, 498-505. -/
noncomputable def profOf {κ ζ : Type*} [Fintype κ] (A : ω → Matrix κ ι ℝ) (q : Option (StoredProf ω ι ζ)) (v : ω → ι → ℝ) : List (ω → ζ → ℝ) :=
  match q with
  | none => []
  | some q => [fun w z => interfaceProf (A w) (q.I w) (q.P w z) (v w) (q.inf w)]

/-- `vb_1`, lines 430-433: what arrives at the rear surface when `vf_1` sets out. -/
noncomputable def Sys.arriveRear (S : Sys ω ι κ₀ κ₁) (vf1 : ω → ι → ℝ) : ω → ι → ℝ := dotWl S.D (dotWlU2d S.down2up vf1)

/-- `vf_2`, lines 464-496: what then arrives at the front surface from below. -/
noncomputable def Sys.arriveFront (S : Sys ω ι κ₀ κ₁) (vf1 : ω → ι → ℝ) : ω → ι → ℝ :=
  dotWlU2d S.up2down (dotWl S.D (dotWl (fun w => (S.front1 w).R) (S.arriveRear vf1)))

/-- Before the loop, lines 400-419. -/
noncomputable def Sys.initInt (S : Sys ω ι κ₀ κ₁) (q : IntProfs ω ι ζ₀ ζ₁) : LoopState ω ι κ₀ κ₁ × AProf ω ζ₀ ζ₁ :=
  (S.init, ⟨profOf (fun w => (S.front0 w).A) q.front0 S.v0, []⟩)

/-- One pass, lines 430-517, with the interface profiles. -/
noncomputable def Sys.stepInt (S : Sys ω ι κ₀ κ₁) (o : ProfOpts ω ι) (q : IntProfs ω ι ζ₀ ζ₁) (s : LoopState ω ι κ₀ κ₁ × AProf ω ζ₀ ζ₁) : LoopState ω ι κ₀ κ₁ × AProf ω ζ₀ ζ₁ :=
  (S.stepProf o s.1, ⟨s.2.p0 ++ profOf (fun w => (S.rear0 w).A) q.rear0 (S.arriveFront s.1.vf1), s.2.p1 ++ profOf (fun w => (S.front1 w).A) q.front1 (S.arriveRear s.1.vf1)⟩)

/-- `item[item < 0] = 0` and `np.sum(item, 0)`, lines 619-623. -/
noncomputable def sumPasses {ζ : Type*} (items : List (ω → ζ → ℝ)) (w : ω) (z : ζ) : ℝ := (items.map fun p => if p w z < 0 then 0 else p w z).sum

/-- The returned list `profile`, lines 617-628: only surfaces with `len(item) > 0`; each entry with the number of its surface (`name="A_profile" + str(j1)`). -/
noncomputable def AProf.returned {ζ : Type*} (s : AProf ω ζ ζ) : List (ℕ × (ω → ζ → ℝ)) :=
  (if 0 < s.p0.length then [(0, sumPasses s.p0)] else []) ++ (if 0 < s.p1.length then [(1, sumPasses s.p1)] else [])

/-- `profile_front = result[2][0]`, `profile_back = result[2][1]`, utilities.py 71-73, from the list `result[2]`; `none` is IndexError. -/
def readProfiles {β : Type*} (profile : List β) : Option (β × β) := profile[0]?.bind fun f => profile[1]?.map fun b => (f, b)

end

end Rayflare.Model
