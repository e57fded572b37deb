import Verif.Model.Intersect

/-! # Specification vocabulary: restarting a ray that missed the surface -/

namespace Rayflare.Spec

open Rayflare.Model

/-- The point `r` lies over the unit cell, above the surface for a ray that goes down, below it for a ray that does not. -/
def OnItsSide (Lx Ly : ℝ) (w : Draw) (d r : V3) : Prop :=
  (0 ≤ r.x ∧ r.x ≤ Lx ∧ 0 ≤ r.y ∧ r.y ≤ Ly) ∧ (d.z < 0 → w.zmax < r.z) ∧ (0 ≤ d.z → r.z < w.zmin)

end Rayflare.Spec
