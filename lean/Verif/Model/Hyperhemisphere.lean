import Verif.Model.Surface
import Mathlib.Data.Sign.Basic

/-!
# Model of `hyperhemisphere` (rayflare/textures/standard_rt_textures.py 105-337)

The convex hulls (`scipy.spatial.ConvexHull`) are parameters: lists of index triples.
-/

namespace Rayflare.Model

open Rayflare.Np Real

/-- The golden spiral, lines 139-153: point `i` of `N` before those below `z = 0` are removed. -/
noncomputable def spiralPoint (N : ℕ) (radius h : ℝ) (i : ℕ) : V3 :=
  let phi := (1 + sqrt 5) / 2
  let dz := 2 / (N : ℝ)
  let z := i * dz - 1 + dz / 2
  let r := sqrt (1 - z * z)
  let az := i * (2 * π / phi)
  ⟨radius * (r * cos az), radius * (r * sin az), radius * z + h⟩

open Classical in
/-- Lines 155-157: points with `Z >= 0`. -/
noncomputable def spiralPoints (N : ℕ) (radius h : ℝ) : List V3 := ((List.range N).map (spiralPoint N radius h)).filter fun p => decide (0 ≤ p.z)

open Classical in
/-- `n_points`, lines 163-173: half the number of points (rounded down) whose distance from the axis is within 0.01 of that of the rim. If `h**2 > radius**2` then `r_cross` is NaN and all comparisons are false. -/
noncomputable def rimCount (radius h : ℝ) (pts : List V3) : ℕ :=
  if h ^ 2 ≤ radius ^ 2 then
    (pts.countP fun p => decide (sqrt (p.x ^ 2 + p.y ^ 2) < sqrt (radius ^ 2 - h ^ 2) + 1 / 100) && decide (sqrt (p.x ^ 2 + p.y ^ 2) > sqrt (radius ^ 2 - h ^ 2) - 1 / 100)) / 2
  else 0

/-- The added points on the rim, lines 176-179. -/
noncomputable def rimPoints (radius h : ℝ) (n : ℕ) : List V3 :=
  (linspace 0 (2 * π) n).map fun φ => ⟨sqrt (radius ^ 2 - h ^ 2) * cos φ, sqrt (radius ^ 2 - h ^ 2) * sin φ, 0⟩

/-- All points of the front surface, lines 181-185. -/
noncomputable def hyperPoints (N : ℕ) (radius h : ℝ) : List V3 :=
  let pts := spiralPoints N radius h
  rimPoints radius h (rimCount radius h pts) ++ pts

/-- One facet: a row of `simplices` with the corresponding rows of `P_0s`, `P_1s`, `P_2s`. -/
structure HFacet where
  s : ℕ × ℕ × ℕ
  tri : Tri

/-- Lines 198-204 and 207-213: facets from the hull. -/
noncomputable def hullFacets (points : List V3) (hull : List (ℕ × ℕ × ℕ)) : List HFacet :=
  hull.map fun s => ⟨s, ⟨points.getD s.1 0, points.getD s.2.1 0, points.getD s.2.2 0⟩⟩

open Classical in
/-- `bottom_planar`, lines 216-231: normal closer to the vertical than `arccos 0.9` and all corners below `0.1 * radius`. -/
noncomputable def bottomPlanar (radius : ℝ) (f : HFacet) : Bool :=
  decide (|f.tri.N.z| > 9 / 10) && (decide (f.tri.P0.z < 1 / 10 * radius) && decide (f.tri.P1.z < 1 / 10 * radius) && decide (f.tri.P2.z < 1 / 10 * radius))

open Classical in
/-- `top_planar`, lines 233-243. -/
noncomputable def topPlanar (radius : ℝ) (f : HFacet) : Bool :=
  decide (|f.tri.N.z| > 9 / 10) && (decide (f.tri.P0.z > -(1 / 10) * radius) && decide (f.tri.P1.z > -(1 / 10) * radius) && decide (f.tri.P2.z > -(1 / 10) * radius))

/-- `switch_points`, lines 120-129. -/
def HFacet.switch (f : HFacet) : HFacet := ⟨(f.s.1, f.s.2.2, f.s.2.1), ⟨f.tri.P0, f.tri.P2, f.tri.P1⟩⟩

/-- Middle of a facet, lines 262-269. -/
noncomputable def Tri.mid (τ : Tri) : V3 := (1 / 3 : ℝ) • (τ.P0 + τ.P1 + τ.P2)

open Classical in
/-- One pass of the loop in `switch_xy`, lines 131-139, for direction `dir` (1 or -1) and coordinate `c`; `m` is the middle of the facet. -/
noncomputable def switchXY (dir : ℝ) (c : V3 → ℝ) (m : V3) (f : HFacet) : HFacet :=
  if SignType.sign (c f.tri.crossP) ≠ SignType.sign (dir * c m) then f.switch else f

open Classical in
/-- Orientation of a front facet, lines 289-318. `inLoop`: the index of the facet is less than the number of facets of the rear surface (`len(X_norm_back)`, line 134, is used for both surfaces). -/
noncomputable def orientFront (h : ℝ) (inLoop : Bool) (f : HFacet) : HFacet :=
  let m := f.tri.mid
  let f1 := if inLoop then switchXY 1 V3.x m f else f
  let f2 := if inLoop then switchXY 1 V3.y m f1 else f1
  let N := f2.tri.crossP
  let f3 := if m.z > 103 / 100 * h ∧ N.z < 0 then f2.switch else f2
  if m.z < 97 / 100 * h ∧ N.z > 0 then f3.switch else f3

open Classical in
/-- Orientation of a rear facet, lines 289-297 and 320-336. -/
noncomputable def orientRear (h : ℝ) (f : HFacet) : HFacet :=
  let m := f.tri.mid
  let f1 := switchXY (-1) V3.x m f
  let f2 := switchXY (-1) V3.y m f1
  let N := f2.tri.crossP
  let f3 := if m.z > -(97 / 100) * h ∧ N.z > 0 then f2.switch else f2
  if m.z < -(103 / 100) * h ∧ N.z < 0 then f3.switch else f3

/-- The facets of the front surface: hull, removal of the flat face, orientation. `none` is IndexError (fewer front than rear facets, line 135). -/
noncomputable def hyperFront (N : ℕ) (radius h : ℝ) (hull hullBack : List (ℕ × ℕ × ℕ)) : Option (List HFacet) :=
  let front := (hullFacets (hyperPoints N radius h) hull).filter fun f => !bottomPlanar radius f
  let nBack := ((hullFacets (mirrorPoints (hyperPoints N radius h)) hullBack).filter fun f => !topPlanar radius f).length
  if front.length < nBack then none else some (front.mapIdx fun i f => orientFront h (decide (i < nBack)) f)

/-- The facets of the rear surface. -/
noncomputable def hyperRear (N : ℕ) (radius h : ℝ) (hullBack : List (ℕ × ℕ × ℕ)) : List HFacet :=
  ((hullFacets (mirrorPoints (hyperPoints N radius h)) hullBack).filter fun f => !topPlanar radius f).map (orientRear h)

end Rayflare.Model
