import Verif.Spec.RTCalculate
import Mathlib.MeasureTheory.Integral.IntervalIntegral.Basic
import Mathlib.MeasureTheory.Integral.Prod
import Mathlib.Topology.EMetricSpace.BoundedVariation

/-!
# Specification for the points at which rays are launched (C146, C147)
-/

namespace Rayflare.Spec

open Rayflare.Model

/-- The average of `f` over the points at which the rays of one wavelength are launched. -/
noncomputable def launchMean (a : CalcArgs) (ux uy : ℕ → ℝ) (f : ℝ → ℝ → ℝ) : ℝ :=
  (∑ _j ∈ Finset.range a.nReps, ∑ i ∈ Finset.range a.nx, ∑ k ∈ Finset.range a.ny, f ((a.xs ux).getD i 0) ((a.ys uy).getD k 0)) / (a.nReps * a.nx * a.ny : ℕ)

/-- The average of `f` over a rectangle (its sides may have length zero). -/
noncomputable def rectMean (limx limy : ℝ × ℝ) (f : ℝ → ℝ → ℝ) : ℝ :=
  ∫ s in (0 : ℝ)..1, ∫ t in (0 : ℝ)..1, f (limx.1 + (limx.2 - limx.1) * s) (limy.1 + (limy.2 - limy.1) * t)

/-- The rectangle in which rays are launched: the options `x_limits` and `y_limits`, or what the code takes if they are missing. -/
noncomputable def windowX (a : CalcArgs) : ℝ × ℝ := calcLimits a.xlim a.xmin a.xmax
/-- The same in `y`. -/
noncomputable def windowY (a : CalcArgs) : ℝ × ℝ := calcLimits a.ylim a.ymin a.ymax

/-- The two random numbers for the coordinates of a point are distributed uniformly over the unit square. -/
def UniformPair {Ω : Type*} [MeasurableSpace Ω] (P : MeasureTheory.Measure Ω) (u v : Ω → ℝ) : Prop :=
  AEMeasurable (fun ω => (u ω, v ω)) P ∧
    P.map (fun ω => (u ω, v ω)) = (MeasureTheory.volume.restrict (Set.Ioc (0 : ℝ) 1)).prod (MeasureTheory.volume.restrict (Set.Ioc (0 : ℝ) 1))

end Rayflare.Spec
