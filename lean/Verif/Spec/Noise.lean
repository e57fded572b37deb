import Verif.Spec.Stability
import Mathlib.MeasureTheory.Measure.Real

/-!
# Specification: stored matrices with statistical errors, and results that are close
-/

namespace Rayflare.Spec

open Rayflare.Model MeasureTheory

variable {Ω ω ω' ι κ κ₀ κ₁ : Type*} [Fintype ι] [MeasurableSpace Ω]

/-- Every entry of the random matrices `M` of a surface differs by `ε` or more from that of `M₀` with probability at most `δ`. -/
def NoisyEntries (P : Measure Ω) (M : Ω → Mats ι κ) (M₀ : Mats ι κ) (ε δ : ℝ) : Prop :=
  (∀ r j, P.real {x | ε ≤ |(M x).R r j - M₀.R r j|} ≤ δ) ∧ (∀ r j, P.real {x | ε ≤ |(M x).T r j - M₀.T r j|} ≤ δ) ∧ ∀ l j, P.real {x | ε ≤ |(M x).A l j - M₀.A l j|} ≤ δ

/-- Reflection and transmission (into every direction and in total), absorption in every layer of the surfaces and in the bulk layer differ by at most `B`. -/
def ResultsWithin (B : ℝ) (t : LoopState ω ι κ₀ κ₁) (w : ω) (t' : LoopState ω' ι κ₀ κ₁) (w' : ω') : Prop :=
  (∀ j, |recR t w j - recR t' w' j| ≤ B) ∧ (∀ j, |recT t w j - recT t' w' j| ≤ B) ∧ (∀ l, |recA0 t w l - recA0 t' w' l| ≤ B) ∧ (∀ l, |recA1 t w l - recA1 t' w' l| ≤ B) ∧
  |t.R w - t'.R w'| ≤ B ∧ |t.T w - t'.T w'| ≤ B ∧ |t.Abulk w - t'.Abulk w'| ≤ B

end Rayflare.Spec
