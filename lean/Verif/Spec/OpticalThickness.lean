import Verif.Spec.Compare
import Verif.Np

/-!
# Specification: bulk layers of the same optical thickness
-/

namespace Rayflare.Spec

open Rayflare.Model

variable {ω ι κ₀ κ₁ : Type*}

/-- The same surfaces, grid, incident light and `I_thresh`, and at every wavelength the same product of absorption coefficient and thickness. -/
structure SameOpticalThickness (S S' : Sys ω ι κ₀ κ₁) : Prop where
  surfaces : ∀ w, SameSurfaces S w S' w
  thresh : S'.thresh = S.thresh
  depth : ∀ w, S'.α w * S'.thick = S.α w * S.thick

/-- Everything that is recorded in every pass, except for the profile of the bulk layer, is the same. -/
def SameRecords (t t' : LoopState ω ι κ₀ κ₁) : Prop :=
  t'.vf1 = t.vf1 ∧ t'.vr = t.vr ∧ t'.vt = t.vt ∧ t'.a0 = t.a0 ∧ t'.a1 = t.a1 ∧ t'.A = t.A

/-- Lengths measured in another unit: the thickness is `c` times as large, the absorption coefficient `c` times smaller. -/
noncomputable def inUnits (S : Sys ω ι κ₀ κ₁) (c : ℝ) : Sys ω ι κ₀ κ₁ := { S with α := fun w => S.α w / c, thick := c * S.thick }

end Rayflare.Spec
