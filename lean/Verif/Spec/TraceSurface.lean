import Verif.Spec.RTMatrix
import Verif.Spec.Geometry
import Verif.Model.TraceSurface

/-! # Specification vocabulary for rays traced on a triangulated surface -/

namespace Rayflare.Spec

open Real Rayflare.Model

/-- A ray counted by `RT`, how its interaction with the surface ended, and what was drawn on the way. -/
structure TracedRay where
  ray : RTRay
  res : SicRes
  ws : List Draw

/-- The medium in which the ray ends: `1` above the surface, `-1` below it; `none` if it is absorbed. -/
def endsIn : SicRes → Option ℤ
  | .out _ _ _ _ _ _ side => some side
  | .absorbed _ _ _ _ _ _ => none
  | .gaveUp _ _ _ _ side => some side
  | .lost _ _ _ side => some side

/-- The direction in which the ray travels at the end. -/
def finalDir : SicRes → V3
  | .out _ _ _ d _ _ _ => d
  | .absorbed _ _ d _ _ _ => d
  | .gaveUp _ _ d _ _ => d
  | .lost _ _ d _ => d

/-- The height at which the ray is at the end (`none`: past everything). -/
def finalHeight : SicRes → Option ℝ
  | .out _ _ r _ _ _ _ => some r.z
  | .absorbed _ r _ _ _ _ => some r.z
  | .gaveUp _ r _ _ _ => some r.z
  | .lost _ _ _ _ => none

/-- The ray has slipped past the surface: it is in the medium above, still going down, and not above the lowest point of the surface; or the mirror image. -/
def Slipped (t : TracedRay) : Prop :=
  (endsIn t.res = some 1 ∧ (finalDir t.res).z < 0 ∧ ((finalHeight t.res = none) ∨ ∃ w ∈ t.ws, ∃ z, finalHeight t.res = some z ∧ z ≤ w.zmin)) ∨
  (endsIn t.res = some (-1) ∧ 0 < (finalDir t.res).z ∧ ((finalHeight t.res = none) ∨ ∃ w ∈ t.ws, ∃ z, finalHeight t.res = some z ∧ w.zmax ≤ z))

/-- The ray ends exactly parallel to the surface. -/
def Horizontal (t : TracedRay) : Prop := (finalDir t.res).z = 0

/-- The unit vector with polar angle `θ` (from the upward vertical) and azimuth `φ`. -/
noncomputable def unitVec (θ φ : ℝ) : V3 := ⟨sin θ * cos φ, sin θ * sin φ, cos θ⟩

end Rayflare.Spec
