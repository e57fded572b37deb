import Verif.Spec.Angles

/-! # Specification vocabulary for redistribution matrices -/

namespace Rayflare.Spec

/-- Column `j` of the `h`-row matrix `M` is the unit vector at row `r`. -/
def UnitColumn (h : ℕ) (M : ℕ → ℕ → ℝ) (j r : ℕ) : Prop :=
  r < h ∧ ∀ r' < h, M r' j = if r' = r then 1 else 0

/-- The matrix preserves the total of every vector (of length `h`). -/
def PreservesPower (h : ℕ) (M : ℕ → ℕ → ℝ) : Prop :=
  ∀ v : ℕ → ℝ, ∑ r ∈ Finset.range h, ∑ j ∈ Finset.range h, M r j * v j = ∑ j ∈ Finset.range h, v j

/-- The matrix maps non-negative vectors to non-negative vectors. -/
def PreservesNonneg (h : ℕ) (M : ℕ → ℕ → ℝ) : Prop :=
  ∀ v : ℕ → ℝ, (∀ j < h, 0 ≤ v j) → ∀ r < h, 0 ≤ ∑ j ∈ Finset.range h, M r j * v j

end Rayflare.Spec
