import Verif.Model.PolChoice

/-!
# What polarisations mean (C184)
-/

namespace Rayflare.Spec

open Rayflare.Model

/-- The shares of s and p polarised light for the documented values 's', 'p', 'u' of the option `pol`; other strings are to be refused. -/
noncomputable def sharesOf (t : List Char) : Option (ℝ × ℝ) :=
  if t = ['s'] then some (1, 0) else if t = ['p'] then some (0, 1) else if t = ['u'] then some (1 / 2, 1 / 2) else none

/-- What is to be reported for light with these shares, if `Rs` and `Rp` are the results for s and p polarised light. -/
noncomputable def mixOf (Rs Rp : ℝ) (w : ℝ × ℝ) : ℝ := w.1 * Rs + w.2 * Rp

/-- The solver knows the polarisations "s" and "p" only and raises an exception for others. -/
def SolverFor (solve : List Char → Option ℝ) (Rs Rp : ℝ) : Prop :=
  solve ['s'] = some Rs ∧ solve ['p'] = some Rp ∧ ∀ t, t ≠ ['s'] → t ≠ ['p'] → solve t = none

end Rayflare.Spec
