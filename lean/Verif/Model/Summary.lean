import Verif.Model.Angles
import Mathlib.Algebra.BigOperators.Group.Finset.Basic

/-!
# Model of `theta_summary` and `theta_summary_A` (rayflare/angles.py 78-194)

xarray's `groupby(label).map(f)` is modelled as: one output entry per distinct label value (sorted, as
`np.unique`), obtained by applying `f` to the slice of all positions with that label.
-/

namespace Rayflare.Model

open Rayflare.Np

/-- Positions with coordinate value `t`. -/
noncomputable def group (labels : List ℝ) (t : ℝ) : Finset ℕ :=
  (Finset.range labels.length).filter (fun i => labels.getD i 0 = t)

/-- `np.mean` over a group of positions. -/
noncomputable def groupMean (G : Finset ℕ) (f : ℕ → ℝ) : ℝ := (∑ i ∈ G, f i) / (G.card : ℝ)

/-- `weighted_mean` (angles.py 139-143): mean times number of members. -/
noncomputable def weightedMean (G : Finset ℕ) (f : ℕ → ℝ) : ℝ := groupMean G f * (G.card : ℝ)

/-- One entry of `theta_summary` (angles.py 113-117): mean over the incidence group, then weighted mean over the
outgoing group. -/
noncomputable def summaryEntry (labelsOut labelsIn : List ℝ) (M : ℕ → ℕ → ℝ) (tOut tIn : ℝ) : ℝ :=
  weightedMean (group labelsOut tOut) (fun r => groupMean (group labelsIn tIn) (fun j => M r j))

/-- The coordinate labels `theta_in`, `theta_out` (angles.py 93-111). -/
noncomputable def summaryLabels (g : Grid) (nRows nCols : ℕ) (front : Bool) : List ℝ × List ℝ :=
  let th := g.angleVector.map Row.theta
  (th.take nRows, if front then th.take nCols else th.drop nCols)

/-- `theta_summary(out_mat, angle_vector, n_theta_bins, front_or_rear)` (angles.py 78-136): the matrix
(list of rows) and the two coordinate axes `theta_out`, `theta_in` attached to it. -/
noncomputable def thetaSummary (g : Grid) (nRows nCols nBins : ℕ) (front : Bool) (M : ℕ → ℕ → ℝ) :
    List (List ℝ) × List ℝ × List ℝ :=
  let (lo, li) := summaryLabels g nRows nCols front
  let data := (unique lo).map (fun tO => (unique li).map (fun tI => summaryEntry lo li M tO tI))
  let thetaAll := unique (g.angleVector.map Row.theta)
  (data, thetaAll, if front then thetaAll.take (unique li).length else thetaAll.drop nBins)

/-- `theta_summary_A` (angles.py 177-194): row `l`, summed over the incidence group. -/
noncomputable def thetaSummaryA (g : Grid) (nCols : ℕ) (A : ℕ → ℕ → ℝ) (l : ℕ) : List ℝ :=
  let li := (g.angleVector.map Row.theta).take nCols
  (unique li).map (fun tI => ∑ j ∈ group li tI, A l j)

end Rayflare.Model
