import Verif.Model.Angles
import Mathlib.Algebra.BigOperators.Group.Finset.Basic

/-!
# Specification of the angular grid

Only the *input type* `Spacing` and the *output record* types `Grid`, `Row` of the model are used.
-/

namespace Rayflare.Spec

open Real Rayflare.Model

/-- Number of azimuth bins of ring `i` out of `2n`: `ceil(c * r)` where `r = 1, ..., n, n, ..., 1` is
the distance of the ring from the nearest pole. -/
noncomputable def ringSize (n : ℕ) (c : ℝ) (i : ℕ) : ℕ := ⌈c * ((min (i + 1) (2 * n - i) : ℕ) : ℝ)⌉₊

/-- Number of bins in the rings before ring `i`. -/
noncomputable def ringStart (n : ℕ) (c : ℝ) (i : ℕ) : ℕ := ∑ j ∈ Finset.range i, ringSize n c j

/-- Polar edges: equally spaced in `sin θ` on the upper hemisphere (and mirrored), or equally
spaced in `θ`. -/
noncomputable def polarEdge (n : ℕ) : Spacing → ℕ → ℝ
  | .sin, i => if i ≤ n then arcsin ((i : ℝ) / n) else π - arcsin (((2 * n - i : ℕ) : ℝ) / n)
  | .linear, i => (i : ℝ) * π / (2 * n)

/-- Azimuth edge `k` of ring `i`. -/
noncomputable def azimuthEdge (n : ℕ) (c s : ℝ) (i k : ℕ) : ℝ := (k : ℝ) * s / (ringSize n c i : ℝ)

/-- Bin `(i,k)` contains the direction, with right-closed intervals. -/
def InBin (n : ℕ) (c s : ℝ) (sp : Spacing) (i k : ℕ) (theta phi : ℝ) : Prop :=
  polarEdge n sp i < theta ∧ theta ≤ polarEdge n sp (i + 1) ∧
  azimuthEdge n c s i k < phi ∧ phi ≤ azimuthEdge n c s i (k + 1)

/-- Bin `(i,k)` contains the direction, with left-closed intervals. -/
def InBinL (n : ℕ) (c s : ℝ) (sp : Spacing) (i k : ℕ) (theta phi : ℝ) : Prop :=
  polarEdge n sp i ≤ theta ∧ theta < polarEdge n sp (i + 1) ∧
  azimuthEdge n c s i k ≤ phi ∧ phi < azimuthEdge n c s i (k + 1)

end Rayflare.Spec
