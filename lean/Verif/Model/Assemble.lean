import Verif.Model.MatMul
import Verif.Model.Launch

/-!
# Model of the set-up part of `matrix_multiplication` (multiply_matrices.py 310-376)
-/

namespace Rayflare.Model

/-- Inputs of `matrix_multiplication`: the options, the bulk (absorption coefficient per wavelength and
thickness) and, for each wavelength, the stored `RT` and `A` matrices of the front surface (both
sides) and the rear surface (front side). `h` is `n_a_in`. -/
structure RatInput (ω κ₀ κ₁ : Type*) (h : ℕ) where
  α : ω → ℝ
  thick : ℝ
  thresh : ℝ
  front0 : ω → Matrix (Fin (h + h)) (Fin h) ℝ × Matrix κ₀ (Fin h) ℝ
  front1 : ω → Matrix (Fin (h + h)) (Fin h) ℝ × Matrix κ₁ (Fin h) ℝ
  rear0 : ω → Matrix (Fin (h + h)) (Fin h) ℝ × Matrix κ₀ (Fin h) ℝ

/-- Lines 315-376: build the angular grid, the launch vector, the format changes, `D`, and cut the
stored matrices.  `none` is an exception raised while making the launch vector. -/
noncomputable def assemble {ω κ₀ κ₁ : Type*} (n : ℕ) (s c : ℝ) (sp : Spacing) (thIn : ℝ) (phiIn : PhiIn)
    (inp : RatInput ω κ₀ κ₁ (makeAngleVector n s c sp).half) :
    Option (Sys ω (Fin (makeAngleVector n s c sp).half) κ₀ κ₁) :=
  let g := makeAngleVector n s c sp
  (makeV0Row g thIn (launchPhi phiIn s)).map fun v =>
    { v0 := fun _ j => v.getD j 0
      up2down := fun r j => upToDown g s r j
      down2up := fun r j => downToUp g s r j
      α := inp.α
      thick := inp.thick
      θ := fun j => (g.angleVector[(j : ℕ)]?).elim 0 Row.theta
      front0 := fun w => loadMats .front (inp.front0 w).1 (inp.front0 w).2
      front1 := fun w => loadMats .front (inp.front1 w).1 (inp.front1 w).2
      rear0 := fun w => loadMats .rear (inp.rear0 w).1 (inp.rear0 w).2
      thresh := inp.thresh }

end Rayflare.Model
