import Verif.Spec.Compare
import Mathlib.Data.Real.Basic

/-!
# Specification: lists of wavelengths
-/

namespace Rayflare.Spec

open Rayflare.Model

variable {ω ω' ι κ₀ κ₁ : Type*}

/-- Increasing or decreasing, without repetitions. -/
def StrictlyOrdered (l : List ℝ) : Prop := l.Pairwise (· < ·) ∨ l.Pairwise (· > ·)

/-- The second calculation is the first one with its wavelengths in another order or given several times: its wavelength `w'` is the wavelength `σ w'` of the first, every wavelength of the first occurs, and everything else is the same. -/
structure Relisted (S : Sys ω ι κ₀ κ₁) (S' : Sys ω' ι κ₀ κ₁) (σ : ω' → ω) : Prop where
  covers : Function.Surjective σ
  surfaces : ∀ w', SameSurfaces S (σ w') S' w'
  α : ∀ w', S'.α w' = S.α (σ w')
  thick : S'.thick = S.thick
  thresh : S'.thresh = S.thresh

/-- The second calculation returns the results of the first, pass by pass, listed in the new order. -/
structure SameResults (t : LoopState ω ι κ₀ κ₁) (t' : LoopState ω' ι κ₀ κ₁) (σ : ω' → ω) : Prop where
  reflected : ∀ w', t'.vr.map (· w') = t.vr.map (· (σ w'))
  transmitted : ∀ w', t'.vt.map (· w') = t.vt.map (· (σ w'))
  front : ∀ w', t'.a0.map (· w') = t.a0.map (· (σ w'))
  rear : ∀ w', t'.a1.map (· w') = t.a1.map (· (σ w'))
  bulk : ∀ w', t'.A.map (· w') = t.A.map (· (σ w'))
  profile : ∀ w', t'.Aprof.map (· w') = t.Aprof.map (· (σ w'))

end Rayflare.Spec
