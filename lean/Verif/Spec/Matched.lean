import Verif.Spec.TraceStack
import Verif.Spec.Gentle
import Mathlib.Algebra.BigOperators.Group.Finset.Basic

/-! # Specification: textures between media with the same refractive index -/

namespace Rayflare.Spec

open Rayflare.Model Rayflare.Np

/-- Lambert-Beer: what is left, after the first `k` bulk layers, of light that travels at the angle `θ` to the normal. -/
noncomputable def leftAfter (S : Stack) (θ : ℝ) (k : ℕ) : ℝ :=
  Real.exp (-(∑ i ∈ Finset.Ico 1 (k + 1), S.alphas.getD i 0 * S.widths.getD i 0) / Real.cos θ)

/-- All media have the refractive index `n`, and no surface has a coating. -/
structure IndexMatched (c : RTStack) (n : ℂ) : Prop where
  periodic : c.periodic = true
  cells : c.cells.length = c.S.nSurf
  tabs : c.tabs = List.replicate c.S.nSurf none
  nks : c.nks = List.replicate c.S.widths.length n
  re : 0 < n.re
  media : 2 ≤ c.S.widths.length

/-- When the ray meets the surface, it is a height map on which light at the angle `θ` to the vertical falls more steeply than it rises anywhere (`2/5 s ℓ`: room for the tolerances of the intersection test); the random numbers are between 0 and 1. -/
def SteepMeeting (θ : ℝ) (cell : Cell) (m : Meeting) : Prop :=
  ∃ (s ℓ : ℝ) (h : ℝ → ℝ → ℝ) (tris : List Tri), 0 ≤ s ∧ HeightMap cell.Lx cell.Ly s ℓ h tris ∧ s * Real.sin θ < Real.cos θ ∧ s * Real.sin θ + 2 / 5 * s * ℓ ≤ Real.cos θ ∧
    ∀ w ∈ m.ws, w.tris = tris ∧ 0 < w.rnd ∧ w.rnd < 1

/-- No surface is missed a hundred times in a row (after which the ray is given up and counted as reflected). -/
def NeverGivenUp (c : RTStack) (s : StackRay) (ms : List Meeting) : Prop :=
  ∀ ms1 m, ms1 ++ [m] <+: ms → ∀ s1, c.run ms1 s = .next s1 → ∀ cell tab ni nj, pyGet c.cells s1.ray.surf = some cell → pyGet c.tabs s1.ray.surf = some tab →
    pyGet c.nks (if s1.ray.dir = 1 then s1.ray.mat else s1.ray.mat - 1) = some ni → pyGet c.nks (if s1.ray.dir = 1 then s1.ray.mat + 1 else s1.ray.mat) = some nj →
    ∀ ot r d k sd, c.meet cell tab ni nj m s1 ≠ some (.gaveUp ot r d k sd)

/-- The surfaces lie one below the other: surface `i` consists of the facets `tris i`, which form a height map between the heights `lo i` and `hi i`, and `hi (i + 1)` is below `lo i` (with room for the tolerances of the intersection test and the offset of 1e-9). -/
structure StackedMaps (c : RTStack) (tris : ℕ → List Tri) (lo hi : ℕ → ℝ) : Prop where
  map : ∀ i cell, c.cells[i]? = some cell → 0 < cell.Lx ∧ 0 < cell.Ly ∧ ∃ (s ℓ : ℝ) (h : ℝ → ℝ → ℝ), 0 ≤ s ∧ 2 / 5 * s * ℓ ≤ 1 ∧ HeightMap cell.Lx cell.Ly s ℓ h (tris i) ∧ ∀ x y, lo i ≤ h x y ∧ h x y ≤ hi i
  apart : ∀ i, hi (i + 1) + 1 / 100 < lo i

/-- One meeting with every surface, with enough random numbers (between 0 and 1) for three iterations each. -/
def OneMeetingEach (c : RTStack) (tris : ℕ → List Tri) (ms : List Meeting) : Prop :=
  ms.length = c.S.nSurf ∧ ∀ (i : ℕ) m, ms[i]? = some m → 3 ≤ m.ws.length ∧ ∀ w ∈ m.ws, w.tris = tris i ∧ 0 < w.rnd ∧ w.rnd < 1

end Rayflare.Spec
