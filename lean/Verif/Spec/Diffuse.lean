import Verif.Spec.Planar

/-!
# Specification: the light-trapping formula for an absorbing slab with a flat front surface and an ideal diffuse reflector at the rear

The reflector sends a share of all light arriving there, from whatever direction, into each ring of polar angles.  Incoherent sum over all passes.
-/

namespace Rayflare.Spec

/-- A slab with a diffuse reflector: number of rings, the front surface seen from outside, the part of the refracted light that arrives at the rear, and for each ring the fraction that survives one passage, the share of the reflected light, and the
front surface seen from inside. -/
structure DiffuseSlab (κ : Type*) where
  rings : ℕ
  front : Face κ
  first : ℝ
  pass : ℕ → ℝ
  share : ℕ → ℝ
  back : ℕ → Face κ

namespace DiffuseSlab
variable {κ : Type*} (d : DiffuseSlab κ)

/-- Average over the reflected light. -/
def mean (f : ℕ → ℝ) : ℝ := ∑ i ∈ Finset.range d.rings, d.share i * f i

/-- What is left of the light leaving the reflector when it is back there. -/
def round : ℝ := d.mean fun i => d.pass i ^ 2 * (d.back i).refl

/-- Light leaving the reflector, all round trips together, per unit of light let in by the front surface. -/
noncomputable def sent : ℝ := d.first / (1 - d.round)

/-- Reflectance. -/
noncomputable def R : ℝ := d.front.refl + d.front.trns * d.sent * d.mean fun i => d.pass i * (d.back i).trns

/-- Absorptance of the slab: first passage; passages up; passages down. -/
noncomputable def bulk : ℝ :=
  d.front.trns * (1 - d.first) + d.front.trns * d.sent * d.mean fun i => (1 - d.pass i) + d.pass i * (d.back i).refl * (1 - d.pass i)

/-- Absorptance of a layer of the front surface. -/
noncomputable def abs0 (l : κ) : ℝ := d.front.abs l + d.front.trns * d.sent * d.mean fun i => d.pass i * (d.back i).abs l

end DiffuseSlab

end Rayflare.Spec
