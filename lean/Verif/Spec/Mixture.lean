import Verif.Spec.Compare

/-!
# Specification: light from several directions at once
-/

namespace Rayflare.Spec

open Rayflare.Model

variable {ω ω' ι κ₀ κ₁ : Type*}

/-- The wavelength `w` of the first calculation and `w'` of the second have the same surfaces, bulk layer and angular grid; the incident light may differ (and so may the other wavelengths and `I_thresh`). -/
structure SameStructure (S : Sys ω ι κ₀ κ₁) (w : ω) (S' : Sys ω' ι κ₀ κ₁) (w' : ω') : Prop where
  u2d : S'.up2down = S.up2down
  d2u : S'.down2up = S.down2up
  θ : S'.θ = S.θ
  α : S'.α w' = S.α w
  thick : S'.thick = S.thick
  f0 : S'.front0 w' = S.front0 w
  f1 : S'.front1 w' = S.front1 w
  r0 : S'.rear0 w' = S.rear0 w

/-- Light `v` is made up of the fractions `p a` of the lights `v' a`. -/
structure MixtureOf {A : Type*} [Fintype A] (p : A → ℝ) (v : ι → ℝ) (v' : A → ι → ℝ) : Prop where
  nonneg : ∀ a, 0 ≤ p a
  total : ∑ a, p a = 1
  eq : ∀ j, v j = ∑ a, p a * v' a j

end Rayflare.Spec
