import Mathlib.Analysis.SpecialFunctions.Trigonometric.Basic
import Mathlib.Analysis.Convex.Hull
import Verif.Model.RcwaOptions

/-!
# Specification: the regions shapes stand for, and what the drawing functions of S4 and Inkstone do

From the documentation (docs/Examples/rcwa_examples.ipynb): angles are in degrees, counter-clockwise; half-widths are in the x and y direction for an unrotated shape; the vertices of a polygon are relative to its centre.
-/

namespace Rayflare.Spec

open Rayflare.Model

/-- Rotation by `a` degrees, counter-clockwise. -/
noncomputable def rot (a : ℝ) (p : ℝ × ℝ) : ℝ × ℝ :=
  (Real.cos (a * Real.pi / 180) * p.1 - Real.sin (a * Real.pi / 180) * p.2, Real.sin (a * Real.pi / 180) * p.1 + Real.cos (a * Real.pi / 180) * p.2)

/-- A set turned by `a` degrees about the origin and moved by `c`. -/
noncomputable def placed (c : ℝ × ℝ) (a : ℝ) (s : Set (ℝ × ℝ)) : Set (ℝ × ℝ) := (fun p => rot a p + c) '' s

/-- Disk about the origin. -/
def disk (r : ℝ) : Set (ℝ × ℝ) := {p | p.1 ^ 2 + p.2 ^ 2 ≤ r ^ 2}

/-- Ellipse about the origin with the half-axes `h`. -/
def ellipse (h : ℝ × ℝ) : Set (ℝ × ℝ) := {p | (p.1 / h.1) ^ 2 + (p.2 / h.2) ^ 2 ≤ 1}

/-- Rectangle about the origin with the half-widths `h`. -/
def rectangle (h : ℝ × ℝ) : Set (ℝ × ℝ) := {p | |p.1| ≤ h.1 ∧ |p.2| ≤ h.2}

variable (inside : List (ℝ × ℝ) → Set (ℝ × ℝ))

/-- The region a shape stands for.  `inside v` is the inside of the polygon with vertices `v`. -/
noncomputable def regionOf : GeomShape → Set (ℝ × ℝ)
  | .circle c r => placed c 0 (disk r)
  | .ellipse c a h => placed c a (ellipse h)
  | .rectangle c a h => placed c a (rectangle h)
  | .polygon c a v => placed (c.getD 0) (a.getD 0) (inside v)

/-- What S4 draws, according to its documentation. -/
noncomputable def s4Region : S4Region → Set (ℝ × ℝ)
  | .circle c r => placed c 0 (disk r)
  | .ellipse c a h => placed c a (ellipse h)
  | .rectangle c a h => placed c a (rectangle h)
  | .polygon c a v => placed c a (inside v)

/-- What Inkstone draws: it takes full side lengths for rectangles, half-axes for ellipses, and the vertices themselves for polygons. -/
noncomputable def inkRegion : InkPattern → Set (ℝ × ℝ)
  | .disk r c => placed c 0 (disk r)
  | .ellipse h c a => placed c a (ellipse h)
  | .rectangle d c a => placed c a (rectangle (d.1 / 2, d.2 / 2))
  | .polygon v => inside v

/-- The inside of a polygon moves with its vertices. -/
def MovesWith : Prop := ∀ v c, inside (v.map fun p => (p.1 + c.1, p.2 + c.2)) = placed c 0 (inside v)

end Rayflare.Spec
