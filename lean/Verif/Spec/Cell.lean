import Verif.Model.Fresnel

/-!
# Vocabulary for the unit cell of a texture
-/

namespace Rayflare.Spec

open Rayflare.Model

/-- The points extend exactly over the rectangle with corner `(x0, y0)` and sides `Lx`, `Ly`: none is outside, and each of the four sides is reached. -/
structure Extent (pts : List V3) (x0 y0 Lx Ly : ℝ) : Prop where
  inside : ∀ p ∈ pts, x0 ≤ p.x ∧ p.x ≤ x0 + Lx ∧ y0 ≤ p.y ∧ p.y ≤ y0 + Ly
  left : ∃ p ∈ pts, p.x = x0
  right : ∃ p ∈ pts, p.x = x0 + Lx
  front : ∃ p ∈ pts, p.y = y0
  rear : ∃ p ∈ pts, p.y = y0 + Ly

end Rayflare.Spec
