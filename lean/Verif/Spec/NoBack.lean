import Verif.Model.TMM

/-!
# Specification for C179: `no_back_reflection`
-/

namespace Rayflare.Spec

open Rayflare.Model

/-- The answer of the solver for a structure of layers that absorb the fractions `layers`, one per layer of the structure, when the fraction `R` is reflected and the fraction `through` of the light gets through the last layer.
Without `no_back_reflection` what gets through is the transmission `T` of the solver.  With it, the `OptiStack` (Solcore) hands the solver one more, absorbing, medium behind the layers,
for which `build_coh_list` (tmm.py 745-746) adds one more entry: this medium absorbs `through - T`.  `first` and `last` are what the solver lists for the outer media. -/
structure Answers (noBack : Bool) (R : ℝ) (layers : List ℝ) (through : ℝ) (o : Solved) : Prop where
  refl : o.R = R
  listed : ∃ first last, o.A = first :: (layers ++ (if noBack then [through - o.T] else [])) ++ [last]
  trans : noBack = false → o.T = through
  nonneg : (∀ a ∈ layers, 0 ≤ a) ∧ 0 ≤ o.T ∧ o.T ≤ through
  total : R + layers.sum + through = 1

/-- What should be reported: one entry per layer, and as transmitted what gets through the layers. -/
def reportedRight (R : ℝ) (layers : List ℝ) (through : ℝ) : Calc := ⟨R, through, layers.sum, layers⟩

end Rayflare.Spec
