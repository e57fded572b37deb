import Verif.Model.RcwaWavelengths

/-!
# What is expected of the wavelengths of an `rcwa_structure` (C180)
-/

namespace Rayflare.Spec

open Rayflare.Model

/-- Every wavelength is calculated with the optical constants at this wavelength. -/
def ownConstants (wl : List ℝ) : List (ℝ × ℝ) := wl.map fun x => (x, x)

/-- No array that was used as `options["wavelength"]`, for the constructor (`r0`) or for `calculate`, is changed in place afterwards. -/
def NeverInPlace (r0 : ℕ) (ops : List WlOp) : Prop :=
  ∀ pre r v post, ops = pre ++ WlOp.write r v :: post → r ≠ r0 ∧ WlOp.calculate r ∉ pre

/-- Every array the user fills holds `n` wavelengths. -/
def AlwaysNumber (n : ℕ) (ops : List WlOp) : Prop := ∀ r v, WlOp.write r v ∈ ops → v.length = n

end Rayflare.Spec
