import Verif.Spec.Geometry

/-!
# The next facet in the way of a ray on a periodic surface (C181)
-/

namespace Rayflare.Spec

open Rayflare.Model

/-- A point seen from the unit cell `(m, n)` of the periodic continuation. -/
def fromCell (Lx Ly : ℝ) (m n : ℤ) (p : V3) : V3 := ⟨p.x - m * Lx, p.y - n * Ly, p.z⟩

/-- In the interior of the unit cell, further from its border than the tolerance of the intersection test (2e-10 of the period). -/
def WellInside (Lx Ly : ℝ) (p : V3) : Prop :=
  2 / 10 ^ 10 * Lx < p.x ∧ p.x < Lx - 2 / 10 ^ 10 * Lx ∧ 2 / 10 ^ 10 * Ly < p.y ∧ p.y < Ly - 2 / 10 ^ 10 * Ly

/-- The ray from `r` in direction `d` meets a facet of the periodically continued surface at parameter `t > 0`, in some unit cell `(m, n)` (away from its border); facets parallel to the ray do not count. -/
def MeetsIn (Lx Ly : ℝ) (tris : List Tri) (r d : V3) (t : ℝ) (m n : ℤ) : Prop :=
  0 < t ∧ WellInside Lx Ly (fromCell Lx Ly m n (r + t • d)) ∧ ∃ τ ∈ tris, ¬ Parallel τ d ∧ InTri 0 τ (fromCell Lx Ly m n (r + t • d))

/-- In any unit cell. -/
def MeetsAt (Lx Ly : ℝ) (tris : List Tri) (r d : V3) (t : ℝ) : Prop := ∃ m n : ℤ, MeetsIn Lx Ly tris r d t m n

/-- `p`, with facet normal `N`, is (up to whole periods) the first point at which the ray meets the periodically continued surface: it lies on the ray and in a facet (within the tolerance of the test), and no facet is met earlier. -/
def FirstFacet (Lx Ly : ℝ) (tris : List Tri) (r d p N : V3) : Prop :=
  ∃ t, 0 < t ∧ (∃ m n : ℤ, p = fromCell Lx Ly m n (r + t • d)) ∧ (∃ τ ∈ tris, InTri (1 / 10 ^ 10) τ p ∧ N = τ.N) ∧ ∀ t', MeetsAt Lx Ly tris r d t' → t ≤ t'

/-- The surface of one unit cell lies over this cell, at heights from `lo` to `hi`. -/
def OverCell (Lx Ly lo hi : ℝ) (tris : List Tri) : Prop :=
  ∀ τ ∈ tris, ∀ p, p = τ.P0 ∨ p = τ.P1 ∨ p = τ.P2 → InCell Lx Ly p ∧ lo ≤ p.z ∧ p.z ≤ hi

/-- Strictly inside the unit cell, seen from above. -/
def StrictlyInside (Lx Ly : ℝ) (p : V3) : Prop := 0 < p.x ∧ p.x < Lx ∧ 0 < p.y ∧ p.y < Ly

/-- The ray passes exactly over no corner of the unit cells. -/
def MissesCorners (Lx Ly : ℝ) (r d : V3) : Prop := ∀ t : ℝ, 0 < t → ∀ m n : ℤ, ¬ ((r + t • d).x = m * Lx ∧ (r + t • d).y = n * Ly)

/-- The surface as it is now, in every iteration (no random heights). -/
def Unchanged (tris : List Tri) (lo hi : ℝ) (ws : List Draw) : Prop := ∀ w ∈ ws, w.tris = tris ∧ w.zmin = lo ∧ w.zmax = hi

/-- Up to parameter `t` the ray has passed over no more than two unit cells: the one in which it starts, and the next. -/
def WithinTwoCells (Lx Ly : ℝ) (r d : V3) (t : ℝ) : Prop :=
  ∃ t0, 0 ≤ t0 ∧ t0 ≤ t ∧ (∀ u, 0 ≤ u → u ≤ t0 → InCell Lx Ly (r + u • d)) ∧ ∃ m n : ℤ, ∀ u, t0 ≤ u → u ≤ t → InCell Lx Ly (fromCell Lx Ly m n (r + u • d))

/-- A state of the loop of `single_interface_check` right after a facet was met (and the ray was not absorbed there): it can be reached, a local angle is known, and no neighbouring cell was tried yet. -/
def LeavesFacet (Lx Ly : ℝ) (s : Sic) : Prop :=
  (∃ d0 r side n ws, sicRun Lx Ly d0 ws (sicStart r d0 side n) = .inl s) ∧ s.θ ≠ none ∧ s.checked = false

end Rayflare.Spec
