import Verif.Model.Intersect
import Mathlib.Analysis.SpecialFunctions.Trigonometric.Inverse

/-!
# Model of `RTSurface.find_area` (rayflare/ray_tracing/rt.py 1450-1462)
-/

namespace Rayflare.Model

/-- `cos_theta` of one facet, rt.py 1452: the scalar product of the two edges at the second corner (not divided by their lengths). -/
noncomputable def Tri.cosTheta (τ : Tri) : ℝ := V3.dot (τ.P0 - τ.P1) (τ.P2 - τ.P1)

open Classical in
/-- One term of the sum, rt.py 1454-1461; `none` is NaN: `np.arccos` of a number outside [-1, 1]. -/
noncomputable def Tri.areaTerm (τ : Tri) : Option ℝ :=
  if |τ.cosTheta| ≤ 1 then some (1 / 2 * V3.norm (τ.P0 - τ.P1) * V3.norm (τ.P2 - τ.P1) * Real.sin (Real.arccos τ.cosTheta)) else none

/-- `self.area`, rt.py 1455-1462; `none` is NaN. -/
noncomputable def findArea (tris : List Tri) (Lx Ly : ℝ) : Option ℝ :=
  (tris.mapM Tri.areaTerm).map fun l => l.sum / (Lx * Ly)

end Rayflare.Model
