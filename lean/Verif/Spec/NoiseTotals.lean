import Verif.Spec.Noise

/-!
# Specification: results that are close, with the layers of each surface taken together
-/

namespace Rayflare.Spec

open Rayflare.Model

variable {ω ω' ι κ₀ κ₁ κ₀' κ₁' : Type*} [Fintype ι] [Fintype κ₀] [Fintype κ₁] [Fintype κ₀'] [Fintype κ₁']

/-- Reflection and transmission (into every direction and in total), the total absorption in each surface and the absorption in the bulk layer differ by at most `B`. -/
def TotalsWithin (B : ℝ) (t : LoopState ω ι κ₀ κ₁) (w : ω) (t' : LoopState ω' ι κ₀' κ₁') (w' : ω') : Prop :=
  (∀ j, |recR t w j - recR t' w' j| ≤ B) ∧ (∀ j, |recT t w j - recT t' w' j| ≤ B) ∧ |t.Aint0 w - t'.Aint0 w'| ≤ B ∧ |t.Aint1 w - t'.Aint1 w'| ≤ B ∧
  |t.R w - t'.R w'| ≤ B ∧ |t.T w - t'.T w'| ≤ B ∧ |t.Abulk w - t'.Abulk w'| ≤ B

end Rayflare.Spec
