import Verif.Spec.Turned

/-!
# Specification: a layer given as two layers of the same material
-/

namespace Rayflare.Spec

open Rayflare.Model

/-- `F'` is the stack `F` with an additional surface inside layer `k` (between the surfaces `k - 1` and `k`), which lets all light through. -/
structure SplitAt (F F' : FlatStack) (k : ℕ) : Prop where
  m : F'.m = F.m + 1
  layer : 1 ≤ k ∧ k < F.m
  before : ∀ j, j < k → F'.above j = F.above j ∧ F'.below j = F.below j
  here : F'.above k = ⟨0, 1, fun _ => 0⟩ ∧ F'.below k = ⟨0, 1, fun _ => 0⟩
  after : ∀ j, k ≤ j → j < F.m → F'.above (j + 1) = F.above j ∧ F'.below (j + 1) = F.below j
  passBefore : ∀ i, i < k → F'.pass i = F.pass i
  passHere : F'.pass k * F'.pass (k + 1) = F.pass k
  passAfter : ∀ i, k < i → i < F.m → F'.pass (i + 1) = F.pass i

/-- What a quantity is in the structure with layer `k` given as the two layers `k` and `k + 1`: later layers and surfaces have other numbers, and the absorptances of the two parts are added. -/
def Quantity.split (k : ℕ) : Quantity → List Quantity
  | .R => [.R]
  | .T => [.T]
  | .A i => if i < k then [.A i] else if i = k then [.A k, .A (k + 1)] else [.A (i + 1)]
  | .Aint j l => [.Aint (if j < k then j else j + 1) l]

/-- The ray-tracing structure `c'` is the structure `c` with layer `k` given as two layers of the same material, without a coating between them. -/
structure SplitLayer (c c' : RTStack) (m k : ℕ) (tabs tabs' : ℕ → Option Table) (nk nk' : ℕ → ℂ) (θ θ' : ℕ → ℝ) : Prop where
  arcsin : ∀ z, IsArcsin z (c.asin z)
  asin : c'.asin = c.asin
  pol : c'.pol = c.pol
  layer : 1 ≤ k ∧ k < m
  tabBefore : ∀ j, j < k → tabs' j = tabs j
  tabHere : tabs' k = none
  tabAfter : ∀ j, k ≤ j → j < m → tabs' (j + 1) = tabs j
  nkBefore : ∀ i, i ≤ k → nk' i = nk i
  nkAfter : ∀ i, k ≤ i → i ≤ m → nk' (i + 1) = nk i
  angleBefore : ∀ i, i ≤ k → θ' i = θ i
  angleAfter : ∀ i, k ≤ i → i ≤ m → θ' (i + 1) = θ i
  widthBefore : ∀ i, i < k → c'.S.widths.getD i 0 = c.S.widths.getD i 0
  widthHere : c'.S.widths.getD k 0 + c'.S.widths.getD (k + 1) 0 = c.S.widths.getD k 0
  widthAfter : ∀ i, k < i → i < m → c'.S.widths.getD (i + 1) 0 = c.S.widths.getD i 0
  alphaBefore : ∀ i, i ≤ k → c'.S.alphas.getD i 0 = c.S.alphas.getD i 0
  alphaAfter : ∀ i, k ≤ i → i < m → c'.S.alphas.getD (i + 1) 0 = c.S.alphas.getD i 0

end Rayflare.Spec
