import Verif.Model.TraceStack
import Verif.Spec.TraceSurface
import Verif.Spec.Ray

/-! # Specification vocabulary for rays traced through a stack of textured surfaces -/

namespace Rayflare.Spec

open Rayflare.Model

/-- A stack that makes physical sense: passive media, one surface between any two neighbouring media, positive refractive indices, and lookup tables (`nl k` layers at
surface `k`) in which every entry conserves energy. -/
structure PhysicalStack (c : RTStack) (nl : ℕ → ℕ) : Prop where
  passive : Passive c.S
  cells : c.cells.length = c.S.nSurf
  tabs : c.tabs.length = c.S.nSurf
  nks : c.nks.length = c.S.widths.length
  re : ∀ n ∈ c.nks, 0 < n.re
  im : ∀ n ∈ c.nks, 0 ≤ n.im
  table : ∀ k tab, c.tabs[k]? = some (some tab) → ∀ side θ,
    (tab side θ).2.2.length = nl k ∧ (∀ a ∈ (tab side θ).2.2, 0 ≤ a) ∧ (tab side θ).1 + (tab side θ).2.1 + (tab side θ).2.2.sum = 1

/-- Random numbers are below one (`random()` is in [0, 1)). -/
def DrawsBelowOne (ms : List Meeting) : Prop := ∀ m ∈ ms, ∀ w ∈ m.ws, w.rnd < 1

/-- After no surface is the ray exactly parallel to the layers. -/
def NeverLevel (c : RTStack) (s : StackRay) (ms : List Meeting) : Prop :=
  ∀ ms1, ms1 <+: ms → ∀ s1, c.run ms1 s = .next s1 → s1.d.z ≠ 0

/-- Up in the upper medium, or down in the lower one. -/
def MovesAway (side : ℤ) (d : V3) : Prop := side = 1 ∧ 0 < d.z ∨ side = -1 ∧ d.z < 0

/-- The ray has slipped past the surface: it is in the medium above, still going down, and not above the lowest point of the surface (or beyond all bounds); or the mirror image. -/
def SlippedPast (m : Meeting) (res : SicRes) : Prop :=
  (endsIn res = some 1 ∧ (finalDir res).z < 0 ∧ (finalHeight res = none ∨ ∃ w ∈ m.ws, ∃ z, finalHeight res = some z ∧ z ≤ w.zmin)) ∨
  (endsIn res = some (-1) ∧ 0 < (finalDir res).z ∧ (finalHeight res = none ∨ ∃ w ∈ m.ws, ∃ z, finalHeight res = some z ∧ w.zmax ≤ z))

/-- A ray launched at angles `θ`, `φ` towards the point `(x, y)`, in medium `matI`, with direction index `dirI`, and traced to its end. -/
def TracedThrough (c : RTStack) (matI dirI : ℤ) (h θ φ : ℝ) (s : StackRay) : Prop :=
  ∃ x y ms, DrawsBelowOne ms ∧ NeverLevel c (c.start x y matI dirI (rA0 h θ φ)) ms ∧
    c.run ms (c.start x y matI dirI (rA0 h θ φ)) = .next s ∧ s.ray.stop = true

end Rayflare.Spec
