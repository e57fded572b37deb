import Verif.Spec.NextFacet

/-!
# Light steeper than the slopes of a texture (C183)
-/

namespace Rayflare.Spec

open Rayflare.Model

/-- The periodically continued surface is the graph of `f`: a point in a facet, seen from any unit cell, is at height `f x y`. -/
def GraphOf (Lx Ly : ℝ) (tris : List Tri) (f : ℝ → ℝ → ℝ) : Prop :=
  ∀ τ ∈ tris, ∀ (m n : ℤ) (p : V3), InTri 0 τ (fromCell Lx Ly m n p) → p.z = f p.x p.y

/-- The height changes by at most `s` times the distance, measured along the axis in which it is larger. -/
def SlopeAtMost (s : ℝ) (f : ℝ → ℝ → ℝ) : Prop := ∀ x y x' y', |f x y - f x' y'| ≤ s * max |x - x'| |y - y'|

/-- The direction is steeper than the slope `s`. -/
def SteeperThan (s : ℝ) (d : V3) : Prop := s * max |d.x| |d.y| < |d.z|

end Rayflare.Spec
