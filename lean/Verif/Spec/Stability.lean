import Verif.Spec.Compare

/-!
# Specification: how far apart two sets of stored matrices are
-/

namespace Rayflare.Spec

open Rayflare.Model

variable {ω ω' ι κ κ₀ κ₁ : Type*} [Fintype ι] [Fintype κ] [Fintype κ₀] [Fintype κ₁]

/-- The fraction of the light incident in direction `j` that the two surfaces send to different places (directions on either side, layers). -/
def surfaceGap (M M' : Mats ι κ) (j : ι) : ℝ := ∑ r, |M.R r j - M'.R r j| + ∑ r, |M.T r j - M'.T r j| + ∑ l, |M.A l j - M'.A l j|

/-- Two calculations with the same angular grid and incident light, whose stored matrices differ by at most `η` for every incident direction. -/
structure CloseSurfaces (S : Sys ω ι κ₀ κ₁) (w : ω) (S' : Sys ω' ι κ₀ κ₁) (w' : ω') (η : ℝ) : Prop where
  v0 : S'.v0 w' = S.v0 w
  u2d : S'.up2down = S.up2down
  d2u : S'.down2up = S.down2up
  θ : S'.θ = S.θ
  f0 : ∀ j, surfaceGap (S.front0 w) (S'.front0 w') j ≤ η
  f1 : ∀ j, surfaceGap (S.front1 w) (S'.front1 w') j ≤ η
  r0 : ∀ j, surfaceGap (S.rear0 w) (S'.rear0 w') j ≤ η

end Rayflare.Spec
