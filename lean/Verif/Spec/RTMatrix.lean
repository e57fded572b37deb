import Verif.Spec.Angles
import Verif.Model.RTMatrix

/-! # Specification vocabulary for ray-traced redistribution matrices -/

namespace Rayflare.Spec

open Real Rayflare.Model

/-- The direction `(θ, φ)`, its azimuth taken modulo the symmetry angle `s`, lies in bin number `r` of the grid. -/
def DirInBin (n : ℕ) (c s : ℝ) (sp : Spacing) (r : ℕ) (θ φ : ℝ) : Prop :=
  ∃ (i k : ℕ) (q : ℤ), i < 2 * n ∧ k < ringSize n c i ∧ r = ringStart n c i + k ∧ InBin n c s sp i k θ (φ + q * s)

/-- Polar angle as seen from the front of the interface: for rear incidence the interface is traced upside down. -/
noncomputable def seen (front : Bool) (θ : ℝ) : ℝ := if front then θ else π - θ

/-- Column `j` of the matrix is the incidence bin of this ray: bin `j` of the upper hemisphere for front incidence, of the lower one
for rear incidence. -/
def IncidentIn (n : ℕ) (c s : ℝ) (sp : Spacing) (front : Bool) (j : ℕ) (r : RTRay) : Prop :=
  j < ringStart n c n ∧ DirInBin n c s sp ((if front then 0 else ringStart n c n) + j) (seen front r.θin) r.φin

/-- The direction `(θ, φ)` with a polar angle that is not negative. -/
noncomputable def upright (θ φ : ℝ) : ℝ × ℝ := if θ < 0 then (-θ, φ + π) else (θ, φ)

/-- It is the same direction. -/
theorem upright_same (θ φ : ℝ) : let u := upright θ φ
    sin u.1 * cos u.2 = sin θ * cos φ ∧ sin u.1 * sin u.2 = sin θ * sin φ ∧ cos u.1 = cos θ := by
  unfold upright
  split_ifs <;> simp

/-- The ray leaves into bin `i`. -/
def LeavesIn (n : ℕ) (c s : ℝ) (sp : Spacing) (front : Bool) (i : ℕ) (r : RTRay) : Prop :=
  match r.out with
  | .leaves θ φ => DirInBin n c s sp i (seen front (upright θ φ).1) (upright θ φ).2
  | .absorbed _ _ => False

/-- The ray is absorbed. -/
def IsAbsorbed (r : RTRay) : Prop := match r.out with | .leaves _ _ => False | .absorbed _ _ => True

/-- The ray is absorbed and met the absorbing layers at a local angle in ring `l` of the grid. -/
def AbsorbedAt (n : ℕ) (sp : Spacing) (l : ℕ) (r : RTRay) : Prop :=
  match r.out with
  | .leaves _ _ => False
  | .absorbed _ θl => polarEdge n sp l < |θl| ∧ |θl| ≤ polarEdge n sp (l + 1)

/-- The azimuth is not on the edge of the symmetry element. -/
def OffEdge (s φ : ℝ) : Prop := ∀ q : ℤ, φ ≠ q * s

/-- A ray `RT` may trace: it comes down, not along an edge of the symmetry element, and either leaves in some direction or (with a lookup
table) is absorbed in the interface layers. -/
structure RayOk (s : ℝ) (tmm : Bool) (nLayers : ℕ) (r : RTRay) : Prop where
  pos : 0 < r.θin
  lt : r.θin < π / 2
  edge : OffEdge s r.φin
  out : match r.out with
    | .leaves θ _ => |θ| ≤ π
    | .absorbed A θl => tmm = true ∧ |θl| ≤ π / 2 ∧ (∀ l, 0 ≤ A l) ∧ 0 < ((List.range nLayers).map A).sum

/-- The outgoing direction is neither exactly vertical (as seen from the front: straight up) nor on an edge of the symmetry element. -/
def OutOffEdge (s : ℝ) (front : Bool) (r : RTRay) : Prop :=
  match r.out with
  | .leaves θ φ => 0 < seen front (upright θ φ).1 ∧ OffEdge s (upright θ φ).2
  | .absorbed _ _ => True

end Rayflare.Spec
