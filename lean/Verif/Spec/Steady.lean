import Verif.Spec.System

/-!
# Specification: the steady state of the light in a structure

The exact answer which the matrix multiplication approximates: constant illumination, power flows in the bulk layer that do not change any more.
-/

namespace Rayflare.Spec

open Rayflare.Model Matrix

variable {ω ι κ₀ κ₁ : Type*} [Fintype ι] [DecidableEq ι] [Fintype κ₀] [Fintype κ₁]

/-- Power per direction in the bulk layer: going down just below the front surface, arriving at the rear surface, going up just above the rear surface, arriving at the front surface. -/
structure Flows (ι : Type*) where
  down0 : ι → ℝ
  down1 : ι → ℝ
  up1 : ι → ℝ
  up0 : ι → ℝ

/-- The flows do not change: what goes down below the front surface is what it lets in plus what it reflects back; between the surfaces light is attenuated; what goes up from the rear surface is what it reflects. -/
structure IsSteady (S : Sys ω ι κ₀ κ₁) (w : ω) (f : Flows ι) : Prop where
  nonneg : ∀ j, 0 ≤ f.down0 j
  front : f.down0 = (S.front0 w).T *ᵥ S.v0 w + (S.rear0 w).R *ᵥ f.up0
  down : f.down1 = S.D w *ᵥ (S.down2up *ᵥ f.down0)
  rear : f.up1 = (S.front1 w).R *ᵥ f.down1
  up : f.up0 = S.up2down *ᵥ (S.D w *ᵥ f.up1)

/-- Reflected into each direction: at once, or after light has been in the bulk layer. -/
def Flows.refl (f : Flows ι) (S : Sys ω ι κ₀ κ₁) (w : ω) : ι → ℝ := (S.front0 w).R *ᵥ S.v0 w + (S.rear0 w).T *ᵥ f.up0

/-- Transmitted into each direction. -/
def Flows.trns (f : Flows ι) (S : Sys ω ι κ₀ κ₁) (w : ω) : ι → ℝ := (S.front1 w).T *ᵥ f.down1

/-- Absorbed in the bulk layer. -/
def Flows.bulk (f : Flows ι) : ℝ := (∑ j, f.down0 j - ∑ j, f.down1 j) + (∑ j, f.up1 j - ∑ j, f.up0 j)

/-- Absorbed in each layer of the front surface. -/
def Flows.abs0 (f : Flows ι) (S : Sys ω ι κ₀ κ₁) (w : ω) : κ₀ → ℝ := (S.front0 w).A *ᵥ S.v0 w + (S.rear0 w).A *ᵥ f.up0

/-- Absorbed in each layer of the rear surface. -/
def Flows.abs1 (f : Flows ι) (S : Sys ω ι κ₀ κ₁) (w : ω) : κ₁ → ℝ := (S.front1 w).A *ᵥ f.down1

end Rayflare.Spec
