import Verif.Spec.Steady
import Verif.Spec.Planar

/-!
# Specification: where light is absorbed in the bulk layer (law of Beer and Lambert)
-/

namespace Rayflare.Spec

open Rayflare.Model Matrix

variable {ω ι κ₀ κ₁ : Type*} [Fintype ι] [DecidableEq ι] [Fintype κ₀] [Fintype κ₁]

/-- Net power that goes down through the plane at depth `z`: light on its way down has travelled `z / |cos θ|` from the front surface, light on its way up `(d - z) / |cos θ|` from the rear surface. -/
noncomputable def Flows.flux (f : Flows ι) (S : Sys ω ι κ₀ κ₁) (w : ω) (z : ℝ) : ℝ :=
  ∑ j, (S.down2up *ᵥ f.down0) j * Real.exp (-S.α w * z / |Real.cos (S.θ j)|) - ∑ j, f.up1 j * Real.exp (-S.α w * (S.thick - z) / |Real.cos (S.θ j)|)

/-- Power absorbed per unit of length at depth `z`: what the flux loses (`C190_density`). -/
noncomputable def Flows.density (f : Flows ι) (S : Sys ω ι κ₀ κ₁) (w : ω) (z : ℝ) : ℝ :=
  ∑ j, S.α w / |Real.cos (S.θ j)| * ((S.down2up *ᵥ f.down0) j * Real.exp (-S.α w * z / |Real.cos (S.θ j)|))
    + ∑ j, S.α w / |Real.cos (S.θ j)| * (f.up1 j * Real.exp (-S.α w * (S.thick - z) / |Real.cos (S.θ j)|))

/-- Textbook absorption density at depth `z` of an incoherent slab of thickness `d`: light transmitted by the front surface that makes `N` round trips on average goes down, what the rear surface reflects goes up; `k` is the
loss per unit of depth. -/
noncomputable def Slab.density {κ₀ κ₁ : Type*} (sl : Slab κ₀ κ₁) (k d N z : ℝ) : ℝ :=
  sl.front.trns * N * (k * Real.exp (-k * z) + sl.pass * sl.rear.refl * (k * Real.exp (-k * (d - z))))

end Rayflare.Spec
