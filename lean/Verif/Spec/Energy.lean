import Mathlib.Data.Matrix.Mul
import Mathlib.Data.Real.Basic

/-! # Specification vocabulary: energy bookkeeping at an interface -/

namespace Rayflare.Spec

variable {ι κ : Type*} [Fintype ι] [Fintype κ]

/-- For light incident in any bin, the fractions reflected (into all bins), transmitted (into all
bins) and absorbed (in all layers) add up to one. -/
def Conserves (R T : Matrix ι ι ℝ) (A : Matrix κ ι ℝ) : Prop :=
  ∀ j, ∑ r, R r j + ∑ r, T r j + ∑ l, A l j = 1

/-- All fractions are non-negative. -/
def Fractions (R T : Matrix ι ι ℝ) (A : Matrix κ ι ℝ) : Prop :=
  (∀ r j, 0 ≤ R r j) ∧ (∀ r j, 0 ≤ T r j) ∧ ∀ l j, 0 ≤ A l j

/-- A relabelling of directions: every column sums to one. -/
def Relabels (M : Matrix ι ι ℝ) : Prop := ∀ j, ∑ r, M r j = 1

end Rayflare.Spec
