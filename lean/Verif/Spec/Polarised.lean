import Verif.Model.TraceStack

/-!
# Specification: the same calculation for another polarisation
-/

namespace Rayflare.Spec

open Rayflare.Model

/-- The same structure and options, except `pol`. -/
def withPol (c : RTStack) (pol : Pol) : RTStack := { c with pol := pol }

/-- A result for unpolarised light differs by at most `ε` from the mean of the results for s- and p-polarised light. -/
def NearMean (X : Pol → ℝ) (ε : ℝ) : Prop := |X .u - (X .s + X .p) / 2| ≤ ε

/-- By how much a transparent plate with surfaces of reflectance `(a + b) / 2` transmits less than the mean of two plates with surfaces of reflectance `a` and `b`. -/
noncomputable def plateDeficit (a b : ℝ) : ℝ := (a - b) ^ 2 / ((1 + a) * (1 + b) * (2 + a + b))

end Rayflare.Spec
