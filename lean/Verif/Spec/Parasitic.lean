import Verif.Spec.System

/-!
# Specification: surfaces that absorb more
-/

namespace Rayflare.Spec

open Rayflare.Model

variable {ω ι κ κ' κ₀ κ₁ κ₀' κ₁' : Type*}

/-- From every direction of incidence, the surface `M'` sends at most as much light into every direction as `M` (the rest is absorbed). -/
def AbsorbsMore (M' : Mats ι κ') (M : Mats ι κ) : Prop := (∀ r j, 0 ≤ M'.R r j ∧ M'.R r j ≤ M.R r j) ∧ ∀ r j, 0 ≤ M'.T r j ∧ M'.T r j ≤ M.T r j

/-- The same grid, illumination, bulk layer and threshold, but with surfaces that absorb more. -/
structure MoreParasitic (S' : Sys ω ι κ₀' κ₁') (S : Sys ω ι κ₀ κ₁) : Prop where
  v0 : S'.v0 = S.v0
  u2d : S'.up2down = S.up2down
  d2u : S'.down2up = S.down2up
  α : S'.α = S.α
  thick : S'.thick = S.thick
  θ : S'.θ = S.θ
  thresh : S'.thresh = S.thresh
  front0 : ∀ w, AbsorbsMore (S'.front0 w) (S.front0 w)
  front1 : ∀ w, AbsorbsMore (S'.front1 w) (S.front1 w)
  rear0 : ∀ w, AbsorbsMore (S'.rear0 w) (S.rear0 w)

end Rayflare.Spec
