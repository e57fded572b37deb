import Verif.Model.TMM
import Verif.Spec.FlatTrace
import Verif.Props.Fresnel

/-!
# Specification: flat surfaces in the matrix method and in ray tracing
-/

namespace Rayflare.Spec

open Rayflare.Model

/-- The results of the solver for a bare surface are those of the textbook, for light that goes from a transparent medium with refractive index `a` into one with `b`: Fresnel's reflectance at the angle given by Snell's law, total reflection beyond the critical angle, and nothing is absorbed. -/
structure FresnelRes (pol : Pol) (a b : ℝ) (res : TmmRes) : Prop where
  refl : ∀ θ θ' : ℝ, |θ| < Real.pi / 2 → |θ'| < Real.pi / 2 → a * Real.sin θ = b * Real.sin θ' → res.R θ = textbookR a b θ θ' pol
  trns : ∀ θ θ' : ℝ, |θ| < Real.pi / 2 → |θ'| < Real.pi / 2 → a * Real.sin θ = b * Real.sin θ' → res.T θ = 1 - textbookR a b θ θ' pol
  total : ∀ θ : ℝ, b < a * Real.sin θ → res.R θ = 1 ∧ res.T θ = 0

/-- The lookup table of a coated surface, for light that comes from one side (`1`: above, `-1`: below), holds the solver results `res` at tabulated angles no further than `δ` from the angle asked for; `nL` layers. -/
def TableOf (δ : ℝ) (tab : Table) (side : ℤ) (res : TmmRes) (nL : ℕ) : Prop :=
  ∀ θ, 0 ≤ θ → θ ≤ Real.pi / 2 → ∃ θ', |θ' - θ| ≤ δ ∧ (tab side θ).1 = res.R θ' ∧ (tab side θ).2.1 = res.T θ' ∧ ∀ l < nL, (tab side θ).2.2.getD l 0 = res.A θ' l

end Rayflare.Spec
