import Verif.Spec.StackBranching

/-!
# Specification: the same surfaces at other distances
-/

namespace Rayflare.Spec

open Rayflare.Np Rayflare.Model

/-- A point moved up by `δ`. -/
noncomputable def raiseV (δ : ℝ) (v : V3) : V3 := ⟨v.x, v.y, v.z + δ⟩

/-- A facet moved up by `δ`. -/
noncomputable def raiseTri (δ : ℝ) (τ : Tri) : Tri := ⟨raiseV δ τ.P0, raiseV δ τ.P1, raiseV δ τ.P2⟩

/-- The unit cell moved up by `δ`. -/
noncomputable def raiseCell (δ : ℝ) (c : Cell) : Cell := { c with zmin := c.zmin + δ, zmax := c.zmax + δ, zcov := c.zcov + δ }

/-- The surface as it is during one iteration moved up by `δ`, with the same random numbers. -/
noncomputable def raiseIter (δ : ℝ) (w : IterDraw) : IterDraw := { w with tris := w.tris.map (raiseTri δ), zmin := w.zmin + δ, zmax := w.zmax + δ }

/-- All surfaces moved up, surface `k` by `δ k`. -/
noncomputable def raiseVisit (δ : ℤ → ℝ) (V : Visit) : Visit := ⟨V.u, V.v, fun k j => raiseIter (δ k) (V.geo k j)⟩

/-- Two structures with the same surfaces, materials, tables and options, except that surface `k` is `δ k` higher in the second one (the first surface is where it was), and thickness and absorption coefficient of each layer are different, but not their product. -/
structure SameButThickness (δ : ℤ → ℝ) (c c' : RTStack) : Prop where
  nks : c'.nks = c.nks
  tabs : c'.tabs = c.tabs
  asin : c'.asin = c.asin
  pol : c'.pol = c.pol
  periodic : c'.periodic = c.periodic
  randomize : c'.randomize = c.randomize
  thresh : c'.S.thresh = c.S.thresh
  layers : c'.S.widths.length = c.S.widths.length
  cells : ∀ k, pyGet c'.cells k = (pyGet c.cells k).map (raiseCell (δ k))
  first : δ 0 = 0
  product : ∀ i, c'.S.alphas.getD i 0 * c'.S.widths.getD i 0 = c.S.alphas.getD i 0 * c.S.widths.getD i 0

/-- The rays are alike in all that is recorded of them, except the depth profile (which has other depths). -/
def AlikeRays (s s' : Ray) : Prop := { s with profile := fun _ => 0 } = { s' with profile := fun _ => 0 }

/-- Tracing has come to the same end: the rays are alike and travel in the same direction, or both are still at a surface. -/
def AlikeEnds : StackRes → StackRes → Prop
  | .next s, .next s' => AlikeRays s.ray s'.ray ∧ s.d = s'.d
  | .indexError, .indexError => True
  | .running, .running => True
  | _, _ => False

end Rayflare.Spec
