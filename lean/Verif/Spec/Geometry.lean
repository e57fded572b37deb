import Verif.Model.Intersect

/-! # Specification vocabulary for rays and triangulated surfaces -/

namespace Rayflare.Spec

open Rayflare.Model

/-- The point lies in the triangle, with barycentric tolerance `ε`. -/
def InTri (ε : ℝ) (τ : Tri) (p : V3) : Prop :=
  ∃ u v : ℝ, -ε ≤ u ∧ -ε ≤ v ∧ u + v ≤ 1 ∧ p = τ.P0 + u • (τ.P1 - τ.P0) + v • (τ.P2 - τ.P0)

/-- The direction is parallel to the plane of the triangle. -/
def Parallel (τ : Tri) (d : V3) : Prop := V3.dot d (V3.cross (τ.P1 - τ.P0) (τ.P2 - τ.P0)) = 0

/-- In the unit cell, seen from above. -/
def InCell (Lx Ly : ℝ) (p : V3) : Prop := 0 ≤ p.x ∧ p.x ≤ Lx ∧ 0 ≤ p.y ∧ p.y ≤ Ly

/-- On its way inside: in the unit cell, and if on its boundary not moving out of it. -/
def InCellInward (Lx Ly : ℝ) (p d : V3) : Prop :=
  InCell Lx Ly p ∧ (0 < d.x → p.x < Lx) ∧ (d.x < 0 → 0 < p.x) ∧ (0 < d.y → p.y < Ly) ∧ (d.y < 0 → 0 < p.y)

/-- The ray starts on the side it travels from: above the surface (`side = 1`) going down, or below it going up. -/
def ComesFrom (side : ℤ) (d : V3) : Prop := side = 1 ∧ d.z < 0 ∨ side = -1 ∧ 0 < d.z

/-- A decision at a facet leaves the ray in its medium or takes it to the other one. -/
def SideOk (w : Draw) : Prop := ∀ θ d N side, (w.dec θ d N side).2.1 = side ∨ (w.dec θ d N side).2.1 = -side

end Rayflare.Spec
