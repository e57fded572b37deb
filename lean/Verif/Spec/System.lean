import Verif.Spec.Energy
import Verif.Model.MatMul

/-! # Specification vocabulary: a bulk between two interfaces -/

namespace Rayflare.Spec

open Rayflare.Model

variable {ω ι κ₀ κ₁ : Type*} [Fintype ι] [Fintype κ₀] [Fintype κ₁]

/-- All input numbers are physically meaningful (non-negative). -/
structure NonnegData (S : Sys ω ι κ₀ κ₁) : Prop where
  v0 : ∀ w j, 0 ≤ S.v0 w j
  u2d : ∀ r j, 0 ≤ S.up2down r j
  d2u : ∀ r j, 0 ≤ S.down2up r j
  α : ∀ w, 0 ≤ S.α w
  thick : 0 ≤ S.thick
  f0 : ∀ w, Fractions (S.front0 w).R (S.front0 w).T (S.front0 w).A
  f1 : ∀ w, Fractions (S.front1 w).R (S.front1 w).T (S.front1 w).A
  r0 : ∀ w, Fractions (S.rear0 w).R (S.rear0 w).T (S.rear0 w).A

/-- Every interface conserves energy at every wavelength, and changing the ray format moves power
between bins without changing the total. -/
structure EnergyConserving (S : Sys ω ι κ₀ κ₁) : Prop where
  u2d : Relabels S.up2down
  d2u : Relabels S.down2up
  f0 : ∀ w, Conserves (S.front0 w).R (S.front0 w).T (S.front0 w).A
  f1 : ∀ w, Conserves (S.front1 w).R (S.front1 w).T (S.front1 w).A
  r0 : ∀ w, Conserves (S.rear0 w).R (S.rear0 w).T (S.rear0 w).A

end Rayflare.Spec
