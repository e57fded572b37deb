import Verif.Model.RayStack

/-! # Specification vocabulary for ray tracing through a stack -/

namespace Rayflare.Spec

open Rayflare.Model

/-- A start that makes physical sense: travelling down from any medium but the last, or up from any but the first. -/
def ValidStart (S : Stack) (matI dirI : ℤ) : Prop :=
  (dirI = 1 ∧ 0 ≤ matI ∧ matI < S.nSurf) ∨ (dirI = -1 ∧ 1 ≤ matI ∧ matI ≤ S.nSurf)

/-- No gain anywhere. -/
structure Passive (S : Stack) : Prop where
  widths : ∀ w ∈ S.widths, 0 ≤ w
  alphas : ∀ a ∈ S.alphas, 0 ≤ a
  thresh : 0 ≤ S.thresh

/-- What a surface interaction may return: any angle that is not exactly horizontal, or an absorption per layer with
non-negative entries and positive total. -/
def Possible : Outcome → Prop
  | .reflect θ => Real.cos θ ≠ 0
  | .transmit θ => Real.cos θ ≠ 0
  | .absorb A => (∀ a ∈ A, 0 ≤ a) ∧ 0 < A.sum

/-- The ray has been followed to its end from the given start, through some sequence of possible outcomes. -/
def FinishedFrom (S : Stack) (matI dirI : ℤ) (s : Ray) : Prop :=
  ∃ os : List Outcome, (∀ o ∈ os, Possible o) ∧ S.trace (Stack.start matI dirI) os = some s ∧ s.stop = true

/-- The reported polar angle says which way the ray is travelling: above the horizontal (at most 90°) iff it is
travelling up after the interaction. -/
def AngleTells (s : Ray) : Outcome → Prop
  | .reflect θ => θ ≤ Real.pi / 2 ↔ -s.dir = -1
  | .transmit θ => θ ≤ Real.pi / 2 ↔ s.dir = -1
  | .absorb _ => True

/-- … at every interaction along a trace. -/
def AnglesTell (S : Stack) (s : Ray) : List Outcome → Prop
  | [] => True
  | o :: os => AngleTells s o ∧ ∀ s', S.step s o = some s' → AnglesTell S s' os

/-- The depth samples lying in medium `m`: from the total thickness of the media above it up to (not including) its lower
boundary. -/
noncomputable def layerSamples (S : Stack) (m : ℕ) : List ℕ :=
  (List.range S.zpos.length).filter fun k =>
    decide ((S.widths.take m).sum ≤ S.zpos.getD k 0 ∧ S.zpos.getD k 0 < (S.widths.take (m + 1)).sum)

/-- Trapezoidal integral over medium `m` of a function given at the depth samples. -/
noncomputable def layerIntegral (S : Stack) (m : ℕ) (f : ℕ → ℝ) : ℝ :=
  Np.trapz ((layerSamples S m).map f) ((layerSamples S m).map fun k => S.zpos.getD k 0)

end Rayflare.Spec
