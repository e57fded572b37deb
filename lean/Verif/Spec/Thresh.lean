import Verif.Spec.FlatLayers

/-!
# Specification: the threshold `I_thresh` in ray tracing
-/

namespace Rayflare.Spec

open Rayflare.Model

/-- The same calculation with another `I_thresh`. -/
def withThresh (c : RTStack) (t : ℝ) : RTStack := { c with S := { c.S with thresh := t } }

/-- What a ray contributes to one of the returned fractions. -/
noncomputable def Quantity.ofRay : Quantity → Ray → ℝ
  | R, s => if s.isRefl then s.I else 0
  | T, s => if s.isTrns then s.I else 0
  | A i, s => s.A i
  | Aint j l, s => if s.aIdx = (j : ℤ) + 1 then s.aInt.getD l 0 else 0

/-- All the light of a ray that is accounted for: reflected, transmitted, absorbed in one of the `W` media or at a surface. -/
noncomputable def accounted (W : ℕ) (s : Ray) : ℝ := Quantity.R.ofRay s + Quantity.T.ofRay s + ∑ m ∈ Finset.range W, s.A m + s.aInt.sum

end Rayflare.Spec
