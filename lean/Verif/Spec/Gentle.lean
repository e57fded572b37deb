import Verif.Spec.Geometry
import Verif.Spec.Reverse

/-!
# Specification: textures that are the graph of a height function
-/

namespace Rayflare.Spec

open Rayflare.Model

/-- Horizontal length of a vector. -/
noncomputable def horiz (v : V3) : ℝ := Real.sqrt (v.x ^ 2 + v.y ^ 2)

/-- The facets cover the unit cell with the graph of a height function `h`, which repeats from cell to cell and rises or falls by at most `s` per unit of horizontal distance.  No facet is vertical, and the normals
point up.  `ℓ` bounds the size of the facets. -/
structure HeightMap (Lx Ly s ℓ : ℝ) (h : ℝ → ℝ → ℝ) (tris : List Tri) : Prop where
  repeatX : ∀ x y, h (x + Lx) y = h x y
  repeatY : ∀ x y, h x (y + Ly) = h x y
  slope : ∀ x y x' y', |h x y - h x' y'| ≤ s * Real.sqrt ((x - x') ^ 2 + (y - y') ^ 2)
  on : ∀ τ ∈ tris, ∀ p, InTri 0 τ p → p.z = h p.x p.y
  up : ∀ τ ∈ tris, 0 < τ.crossP.z
  covers : ∀ x y, 0 ≤ x → x ≤ Lx → 0 ≤ y → y ≤ Ly → ∃ τ ∈ tris, InTri 0 τ ⟨x, y, h x y⟩
  size : ∀ τ ∈ tris, horiz (τ.P1 - τ.P0) + horiz (τ.P2 - τ.P0) ≤ ℓ

/-- Around `(x, y)` the facets of the surface, continued periodically, lie in one plane up to the distance `δ` (facets taken with the tolerance of 1e-10 of the package). -/
def PlaneAround (Lx Ly δ x y : ℝ) (tris : List Tri) : Prop :=
  ∃ a b c : ℝ, ∀ τ ∈ tris, ∀ i j : ℤ, ∀ q, InTri (1 / 10 ^ 10) τ q → (q.x + i * Lx - x) ^ 2 + (q.y + j * Ly - y) ^ 2 ≤ δ ^ 2 → q.z = a * (q.x + i * Lx) + b * (q.y + j * Ly) + c

/-- Either the facets are small enough for the offset of 1e-9 with which rays leave facets to be larger than the tolerance of 1e-10 (relative to the size of the facet) with which they are met, or the ray arrives far enough from the edges between facets:
further than about 1e-10 times the size of the facets. -/
def Resolved (Lx Ly s ℓ x y : ℝ) (tris : List Tri) : Prop :=
  2 / 5 * s * ℓ * (1 + s ^ 2) ≤ 1 - 3 * s ^ 2 ∨
  0 < Lx ∧ 0 < Ly ∧ ∃ δ, 0 ≤ δ ∧ 2 * s * (1 / 10 ^ 10 * ℓ) * (1 + s ^ 2) ≤ δ * (1 - 3 * s ^ 2) ∧ PlaneAround Lx Ly δ x y tris

/-- The same for regular pyramids of base `L` and slope `t`: they are small, or the ray arrives far enough from the edges of their bases and from the edges between their sides (about 1e-9 times the base). -/
def PyramidsResolved (t L x y : ℝ) : Prop :=
  4 / 5 * t * L * (1 + t ^ 2) ≤ 1 - 3 * t ^ 2 ∨
  ∀ i : ℤ, L / (5 * 10 ^ 8) < (1 - 3 * t ^ 2) * |x - L * i| ∧ L / (5 * 10 ^ 8) < (1 - 3 * t ^ 2) * |y - L * i| ∧
    L / (5 * 10 ^ 8) < (1 - 3 * t ^ 2) * |x - y - L * i| ∧ L / (5 * 10 ^ 8) < (1 - 3 * t ^ 2) * |x + y - L * i|

/-- The ray has been reported as reflected (0) or transmitted (1), with the polar angle `ot`, after `n` meetings with facets. -/
def Leaves (o : Sic ⊕ SicRes) (res : ℕ) (ot : ℝ) (n : ℕ) (side : ℤ) : Prop :=
  ∃ r d θ, o = .inr (.out res ot r d θ n side)

/-- Inclination of a facet. -/
noncomputable def inclination (τ : Tri) : ℝ := Real.arccos τ.N.z

/-- Straight down. -/
def straightDown : V3 := ⟨0, 0, -1⟩

end Rayflare.Spec
