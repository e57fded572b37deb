import Verif.Spec.FlatLayers

/-!
# Specification: a planar structure turned over
-/

namespace Rayflare.Spec

open Rayflare.Model

/-- `F'` is the stack `F` turned over: the last surface comes first and is seen from the other side, the layers follow in the opposite order. -/
structure Turned (F F' : FlatStack) : Prop where
  m : F'.m = F.m
  above : ∀ j, j < F.m → F'.above j = F.below (F.m - 1 - j)
  below : ∀ j, j + 1 < F.m → F'.below j = F.above (F.m - 1 - j)
  pass : ∀ i, 1 ≤ i → i < F.m → F'.pass i = F.pass (F.m - i)

/-- The part that a surface transmits is the same from above and from below (along the same path). -/
def Reciprocal (F : FlatStack) : Prop := ∀ j, j < F.m → (F.above j).trns = (F.below j).trns

/-- No surface and no layer absorbs. -/
def Lossless (F : FlatStack) : Prop :=
  (∀ j, j < F.m → (F.above j).refl + (F.above j).trns = 1 ∧ (F.below j).refl + (F.below j).trns = 1) ∧ ∀ i, 1 ≤ i → i < F.m → F.pass i = 1

/-- The ray-tracing structure `c'` is the structure `c` turned over: the layers (refractive index, thickness, absorption coefficient) and the coatings follow in the opposite order, and what was the upper side of a coating is the lower side.  The light comes along the path on which it left. -/
structure TurnedOver (c c' : RTStack) (m : ℕ) (tabs tabs' : ℕ → Option Table) (nk nk' : ℕ → ℂ) (θ θ' : ℕ → ℝ) : Prop where
  asin : c'.asin = c.asin
  pol : c'.pol = c.pol
  tab : ∀ j, j < m → tabs' j = (tabs (m - 1 - j)).map fun t side => t (-side)
  nk : ∀ i, i ≤ m → nk' i = nk (m - i)
  angle : ∀ i, i ≤ m → θ' i = θ (m - i)
  width : ∀ i, 1 ≤ i → i < m → c'.S.widths.getD i 0 = c.S.widths.getD (m - i) 0
  alpha : ∀ i, 1 ≤ i → i < m → c'.S.alphas.getD i 0 = c.S.alphas.getD (m - i) 0

/-- A stack in ray tracing of `m` flat surfaces without coatings, one below the other, with periodic boundary conditions, and layers with real refractive indices `nr i` (and absorption coefficients of their own).  Light travels at the angle `θ i` to the vertical in medium `i`, by Snell's law, and gets out of the last
surface. -/
structure BareLayers (c : RTStack) (m : ℕ) (cells : ℕ → Cell) (nr θ : ℕ → ℝ) : Prop where
  periodic : c.periodic = true
  surfaces : 1 ≤ m
  media : c.S.widths.length = m + 1
  cellsEq : ∀ j, j < m → c.cells[j]? = some (cells j)
  tabsEq : ∀ j, j < m → c.tabs[j]? = some none
  tabsNone : ∀ tab ∈ c.tabs, tab = none
  nksEq : ∀ i, i ≤ m → c.nks[i]? = some (nr i : ℂ)
  pos : ∀ i, i ≤ m → 0 < nr i
  size : ∀ j, j < m → 0 < (cells j).Lx ∧ 0 < (cells j).Ly ∧ (cells j).zmin ≤ (cells j).zmax
  apart : ∀ j, j + 1 < m → (cells (j + 1)).zcov + 1 / 10 ^ 9 < (cells j).zcov
  width : ∀ i, 0 ≤ c.S.widths.getD i 0
  alpha : ∀ i, 0 ≤ c.S.alphas.getD i 0
  thresh : 0 ≤ c.S.thresh
  arcsin : ∀ z, IsArcsin z (c.asin z)
  angle : ∀ i, i ≤ m → 0 ≤ θ i ∧ θ i < Real.pi / 2
  snell : ∀ i, i ≤ m → nr i * Real.sin (θ i) = nr 0 * Real.sin (θ 0)

end Rayflare.Spec
