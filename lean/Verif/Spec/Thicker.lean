import Verif.Spec.FlatLayers

/-!
# Specification: a planar structure with thicker layers
-/

namespace Rayflare.Spec

open Rayflare.Model

/-- `F'` is the stack `F` with layers that let less light through; the surfaces are the same. -/
structure Darker (F F' : FlatStack) : Prop where
  m : F'.m = F.m
  surfaces : ∀ j, j < F.m → F'.above j = F.above j ∧ F'.below j = F.below j
  pass : ∀ i, 1 ≤ i → i < F.m → F'.pass i ≤ F.pass i

/-- The ray-tracing structure `c'` is the structure `c` with some layers thicker (or with a larger absorption coefficient); refractive indices and coatings are the same. -/
structure Thicker (c c' : RTStack) (m : ℕ) : Prop where
  asin : c'.asin = c.asin
  pol : c'.pol = c.pol
  width : ∀ i, 1 ≤ i → i < m → c.S.widths.getD i 0 ≤ c'.S.widths.getD i 0
  alpha : ∀ i, 1 ≤ i → i < m → c.S.alphas.getD i 0 ≤ c'.S.alphas.getD i 0

/-- Layer `i` is the same in both structures. -/
def SameLayer (c c' : RTStack) (i : ℕ) : Prop := c'.S.widths.getD i 0 = c.S.widths.getD i 0 ∧ c'.S.alphas.getD i 0 = c.S.alphas.getD i 0

end Rayflare.Spec
