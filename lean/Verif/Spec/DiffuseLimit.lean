import Verif.Spec.Cone
import Verif.Spec.Diffuse

/-!
# Specification vocabulary: light trapping by a diffuse reflector, as integrals over the angle (C189)
-/

namespace Rayflare.Spec

open Rayflare.Model Real

/-- A slab with a diffuse reflector at the rear: the front surface seen from outside, the part of the refracted light that arrives at the rear, and for every polar angle the fraction that survives one passage and the front surface seen from inside. -/
structure DiffuseCont (κ : Type*) where
  front : Face κ
  first : ℝ
  pass : ℝ → ℝ
  back : ℝ → Face κ

namespace DiffuseCont
variable {κ : Type*} (d : DiffuseCont κ) (mean : (ℝ → ℝ) → ℝ)

/-- What is left of the light leaving the reflector when it is back there; `mean` is the average over the polar angles of the reflected light. -/
def round : ℝ := mean fun θ => d.pass θ ^ 2 * (d.back θ).refl

/-- Light leaving the reflector, all round trips together, per unit of light let in by the front surface. -/
noncomputable def sent : ℝ := d.first / (1 - d.round mean)

/-- Reflectance. -/
noncomputable def R : ℝ := d.front.refl + d.front.trns * d.sent mean * mean fun θ => d.pass θ * (d.back θ).trns

/-- Absorptance of the slab: first passage; passages up; passages down. -/
noncomputable def bulk : ℝ :=
  d.front.trns * (1 - d.first) + d.front.trns * d.sent mean * mean fun θ => (1 - d.pass θ) + d.pass θ * (d.back θ).refl * (1 - d.pass θ)

/-- Absorptance of a layer of the front surface. -/
noncomputable def abs0 (l : κ) : ℝ := d.front.abs l + d.front.trns * d.sent mean * mean fun θ => d.pass θ * (d.back θ).abs l

end DiffuseCont

/-- Mean of a function of the polar angle with the weight `cos θ dθ`, that is, for equally much light per polar angle times `cos θ`, whatever the solid angle. -/
noncomputable def cosMean (f : ℝ → ℝ) : ℝ := ∫ θ in (0 : ℝ)..(π / 2), cos θ * f θ

end Rayflare.Spec
