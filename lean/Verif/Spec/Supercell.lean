import Verif.Spec.NextFacet

/-!
# A texture described by a larger unit cell (C182)
-/

namespace Rayflare.Spec

open Rayflare.Model

/-- A facet moved by a whole number of periods. -/
noncomputable def shiftFacet (Lx Ly : ℝ) (i j : ℕ) (τ : Tri) : Tri :=
  ⟨⟨τ.P0.x + i * Lx, τ.P0.y + j * Ly, τ.P0.z⟩, ⟨τ.P1.x + i * Lx, τ.P1.y + j * Ly, τ.P1.z⟩, ⟨τ.P2.x + i * Lx, τ.P2.y + j * Ly, τ.P2.z⟩⟩

/-- The same texture with `k` times `l` unit cells as its unit cell. -/
noncomputable def tiled (k l : ℕ) (Lx Ly : ℝ) (tris : List Tri) : List Tri :=
  (List.range k).flatMap fun i => (List.range l).flatMap fun j => tris.map (shiftFacet Lx Ly i j)

/-- Not near a border of a unit cell, by the tolerance for `k` times `l` cells (2e-10 of their size). -/
def FarFromBorders (k l : ℕ) (Lx Ly : ℝ) (p : V3) : Prop :=
  2 / 10 ^ 10 * (k * Lx) < p.x ∧ p.x < Lx - 2 / 10 ^ 10 * (k * Lx) ∧ 2 / 10 ^ 10 * (l * Ly) < p.y ∧ p.y < Ly - 2 / 10 ^ 10 * (l * Ly)

/-- Nothing hinges on a tolerance: wherever the ray passes a facet of the continued surface within the tolerance of the intersection test, it passes through it, and not near a border of a unit cell. -/
def GeneralPosition (k l : ℕ) (Lx Ly : ℝ) (tris : List Tri) (r d : V3) : Prop :=
  ∀ t : ℝ, 0 < t → ∀ m n : ℤ, ∀ τ ∈ tris, InTri (1 / 10 ^ 10) τ (fromCell Lx Ly m n (r + t • d)) →
    ¬ Parallel τ d ∧ InTri 0 τ (fromCell Lx Ly m n (r + t • d)) ∧ FarFromBorders k l Lx Ly (fromCell Lx Ly m n (r + t • d))

/-- The next facet met from state `s` on is met at `p` and has the normal `N`. -/
def MeetsNext (Lx Ly : ℝ) (d0 : V3) (ws : List Draw) (s : Sic) (p N : V3) : Prop :=
  ∃ ws1 w ws2 s' θ, ws = ws1 ++ w :: ws2 ∧ sicRun Lx Ly d0 ws1 s = .inl s' ∧ s'.nInt = s.nInt ∧ checkIntersect s'.r s'.d w.tris = some (p, θ, N)

/-- The interaction ends in state `s`: no further facet is met, direction, medium and number of facets met stay the same. -/
def EndsAs (Lx Ly : ℝ) (d0 : V3) (ws : List Draw) (s : Sic) : Prop :=
  ∃ l ot r', sicRun Lx Ly d0 ws s = .inr (.out l ot r' s.d s.θ s.nInt s.side)

/-- All facets at this point have the same normal. -/
def OneNormal (tris : List Tri) (p : V3) : Prop := ∀ τ ∈ tris, ∀ τ' ∈ tris, InTri (1 / 10 ^ 10) τ p → InTri (1 / 10 ^ 10) τ' p → τ.N = τ'.N

end Rayflare.Spec
