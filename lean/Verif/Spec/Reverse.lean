import Verif.Model.Intersect

/-!
# Specification: light paths run backwards
-/

namespace Rayflare.Spec

open Rayflare.Model

/-- The angle of refraction NumPy computes for a ray that comes from `side` of a surface between media `nAbove` and `nBelow` (`np.arcsin((n1 / n2) * np.sin(theta))` in `calc_R`, called with `abs(theta)`). -/
noncomputable def refractionAngle (asin : ℂ → ℂ) (nAbove nBelow : ℝ) (side : ℤ) (θ : ℝ) : ℂ :=
  asin ((if side = 1 then (nAbove : ℂ) else nBelow) / (if side = 1 then (nBelow : ℂ) else nAbove) * Complex.sin ((|θ| : ℝ) : ℂ))

/-- What a ray in direction `d` on `side` does at a facet with normal `N` (pointing up), for the random number `rnd`: new direction and side. -/
noncomputable def atFacet (asin : ℂ → ℂ) (nAbove nBelow : ℝ) (pol : Pol) (d : V3) (side : ℤ) (N : V3) (rnd : ℝ) : V3 × ℤ :=
  let o := fresnelDec nAbove nBelow (refractionAngle asin nAbove nBelow) pol rnd (localTheta N d) d ((side : ℝ) • N) side
  (o.1, o.2.1)

/-- The ray runs towards the facet. -/
def Meets (d : V3) (side : ℤ) (N : V3) : Prop := V3.norm N = 1 ∧ (side : ℝ) * V3.dot d N < 0

/-- A ray in direction `d` on `side` that meets facets with the normals in `L`, one after the other, with the random numbers in `L`, leaves in direction `d'` on `side'`. -/
inductive LightPath (asin : ℂ → ℂ) (nAbove nBelow : ℝ) (pol : Pol) : V3 × ℤ → List (V3 × ℝ) → V3 × ℤ → Prop
  | nil (p) : LightPath asin nAbove nBelow pol p [] p
  | cons {d side N rnd L q} : Meets d side N → LightPath asin nAbove nBelow pol (atFacet asin nAbove nBelow pol d side N rnd) L q → LightPath asin nAbove nBelow pol (d, side) ((N, rnd) :: L) q

/-- Probability that a ray incident at `θ` on a facet, from a medium of index `n0` towards one of index `n1`, is transmitted. -/
noncomputable def transmittance (asin : ℂ → ℂ) (n0 n1 : ℝ) (pol : Pol) (θ : ℝ) : ℝ :=
  1 - decideR n0 n1 θ (asin ((n0 : ℂ) / n1 * Complex.sin ((|θ| : ℝ) : ℂ))) pol

end Rayflare.Spec
