import Verif.Model.Intersect
import Mathlib.Analysis.SpecialFunctions.Trigonometric.Basic
import Mathlib.Analysis.SpecialFunctions.Trigonometric.Inverse

/-!
# Model of `RTSurface` (rt.py 1356-1492) and of the textures (`rayflare/textures`)

The triangulation (`scipy.spatial.Delaunay`) is a parameter: a list of index triples.
-/

namespace Rayflare.Model

open Rayflare.Np Real

/-! ## `RTSurface` -/

/-- The state of an `RTSurface`. `isInt` records whether the array `Points` has an integer dtype (all coordinates given as Python integers), `random` whether there is a `height_distribution`. -/
structure Surface where
  isInt : Bool
  random : Bool
  points : List V3
  original : List V3
  heightInd : ℕ
  simplices : List (ℕ × ℕ × ℕ)
  tris : List Tri
  N : List V3
  Lx : ℝ
  Ly : ℝ
  zmin : ℝ
  zmax : ℝ
  zcov : ℝ

/-- Item assignment into an array: integer arrays truncate towards zero. -/
noncomputable def storeAs (isInt : Bool) (x : ℝ) : ℝ := if isInt then (if 0 ≤ x then ((⌊x⌋ : ℤ) : ℝ) else ((⌈x⌉ : ℤ) : ℝ)) else x

/-- `P_0s`, `P_1s`, `P_2s`, rt.py 1385-1387, 1466-1468, 1486-1488. -/
noncomputable def trisOf (points : List V3) (simplices : List (ℕ × ℕ × ℕ)) : List Tri :=
  simplices.map fun s => ⟨points.getD s.1 0, points.getD s.2.1 0, points.getD s.2.2 0⟩

/-- Python `min` of a non-empty list. -/
noncomputable def pyMin (l : List ℝ) : ℝ := l.foldl min (l.headD 0)

/-- Python `max` of a non-empty list. -/
noncomputable def pyMax (l : List ℝ) : ℝ := l.foldl max (l.headD 0)

/-- The guess for `zcov`, rt.py 1411-1421: the height of the first point with minimal x and minimal y; `none` is IndexError. -/
noncomputable def zcovGuess (points : List V3) : Option ℝ :=
  (points.find? fun p => decide (p.x = pyMin (points.map V3.x)) && decide (p.y = pyMin (points.map V3.y))).map V3.z

/-- `__init__`, rt.py 1359-1421. `cov` is `coverage_height`, `hi` is `height_ind`, `random` says whether a `height_distribution` is given. -/
noncomputable def mkSurface (isInt random : Bool) (points : List V3) (simplices : List (ℕ × ℕ × ℕ)) (hi : ℕ) (cov : Option ℝ) : Option Surface :=
  let tris := trisOf points simplices
  (match cov with | some c => some c | none => zcovGuess points).map fun zc =>
  ⟨isInt, random, points, points, hi, simplices, tris, tris.map Tri.N,
    |pyMin (points.map V3.x) - pyMax (points.map V3.x)|, |pyMin (points.map V3.y) - pyMax (points.map V3.y)|,
    pyMin (points.map V3.z), pyMax (points.map V3.z), zc⟩

/-- `shift`, rt.py 1464-1473: `original_Points` and the normals `N` are not touched. -/
noncomputable def Surface.shift (s : Surface) (dz : ℝ) : Surface :=
  let pts := s.points.map fun p => { p with z := storeAs s.isInt (p.z - dz) }
  { s with points := pts, tris := trisOf pts s.simplices, zmin := pyMin (pts.map V3.z), zmax := pyMax (pts.map V3.z), zcov := s.zcov - dz }

/-- `refresh`, rt.py 1475-1492; `h` is the height drawn, if there is a height distribution. -/
noncomputable def Surface.refresh (s : Surface) (h : ℝ) : Surface :=
  if s.random = false then s else
  let scaling := |h / ((s.original.getD s.heightInd 0).z - s.zcov)|
  let pts := List.zipWith (fun (p o : V3) => { p with z := storeAs s.isInt (scaling * (o.z - s.zcov) + s.zcov) }) s.points s.original
  let tris := trisOf pts s.simplices
  { s with points := pts, tris := tris, N := tris.map Tri.N, zmin := pyMin (pts.map V3.z), zmax := pyMax (pts.map V3.z) }

/-! ## Textures: points -/

/-- `planar_surface`, standard_rt_textures.py 56-72. -/
def planarPoints (L : ℝ) : List V3 := [⟨0, 0, 0⟩, ⟨L, L, 0⟩, ⟨L, 0, 0⟩, ⟨0, L, 0⟩]

/-- The height of `regular_pyramids`, standard_rt_textures.py 27-36, without a height distribution. The angle in degrees. -/
noncomputable def pyramidHeight (deg L : ℝ) : ℝ := L * Real.tan (deg * π / 180) / 2

/-- `regular_pyramids`, standard_rt_textures.py 38-47: points of the front surface. -/
noncomputable def pyramidPoints (h L : ℝ) (upright : Bool) : List V3 :=
  [⟨0, 0, 0⟩, ⟨L / 2, L / 2, if upright then h else -h⟩, ⟨L, 0, 0⟩, ⟨0, L, 0⟩, ⟨L, L, 0⟩]

/-- `Points_ri`: `-z`, standard_rt_textures.py 50, 99, define_textures.py 24. -/
def mirrorPoints (pts : List V3) : List V3 := pts.map fun p => ⟨p.x, p.y, -p.z⟩

/-- `regular_pyramids`, standard_rt_textures.py 32-53: the rear surface is made without the keyword arguments, so without height distribution. `drawn` is the height drawn if there is a distribution. -/
noncomputable def pyramidTexture (deg L : ℝ) (upright : Bool) (drawn : Option ℝ) (simplices simplices' : List (ℕ × ℕ × ℕ)) (cov : Option ℝ) : Option Surface × Option Surface :=
  let h := drawn.getD (pyramidHeight deg L)
  let pts := pyramidPoints h L upright
  (mkSurface false drawn.isSome pts simplices 1 cov, mkSurface false false (mirrorPoints pts) simplices' 1 none)

/-- Direction of V-grooves; other strings leave `x` unbound. -/
inductive GrooveDir
  | alongX
  | alongY

/-- `V_grooves`, standard_rt_textures.py 85-96. -/
noncomputable def groovePoints (deg width : ℝ) : GrooveDir → List V3
  | .alongY =>
    let h := width * Real.tan (deg * π / 180) / 2
    [⟨0, 0, 0⟩, ⟨width, 0, 0⟩, ⟨0, width, 0⟩, ⟨width, width, 0⟩, ⟨width / 2, 0, h⟩, ⟨width / 2, 1, h⟩]
  | .alongX =>
    let h := width * Real.tan (deg * π / 180) / 2
    [⟨0, 0, 0⟩, ⟨0, width, 0⟩, ⟨width, 0, 0⟩, ⟨width, width, 0⟩, ⟨0, width / 2, h⟩, ⟨1, width / 2, h⟩]

/-- `np.meshgrid(x, y)`, both arrays flattened and paired: y is the slow coordinate. -/
def meshPairs (x y : List ℝ) : List (ℝ × ℝ) := y.flatMap fun b => x.map fun a => (a, b)

/-- `z_points.flatten()` for an array of shape `(n0, n1)`. -/
def flatten2 (n0 n1 : ℕ) (z : ℕ → ℕ → ℝ) : List ℝ := (List.range n0).flatMap fun i => (List.range n1).map fun j => z i j

/-- `heights_texture`, define_textures.py 30-50, with `xyz_texture` line 20: points of the front surface. -/
noncomputable def heightsPoints (n0 n1 : ℕ) (z : ℕ → ℕ → ℝ) (xw yw : ℝ) : List V3 :=
  List.zipWith (fun (p : ℝ × ℝ) h => ⟨p.1, p.2, h⟩) (meshPairs (linspace 0 xw n0) (linspace 0 yw n1)) (flatten2 n0 n1 z)

/-- `xyz_texture`, define_textures.py 12-27: front and rear surface, with the same keyword arguments. -/
noncomputable def xyzTexture (pts : List V3) (simplices simplices' : List (ℕ × ℕ × ℕ)) (hi hi' : ℕ) (random : Bool) (cov : Option ℝ) : Option Surface × Option Surface :=
  (mkSurface false random pts simplices hi cov, mkSurface false random (mirrorPoints pts) simplices' hi' cov)

/-- One of the four assignments that set boundary heights to zero, standard_rt_textures.py 425-429 and 479-483. -/
noncomputable def zeroWhere (c : V3 → ℝ) (v : ℝ) (pts : List V3) : List V3 := pts.map fun p => if c p = v then { p with z := 0 } else p

/-- All four, in order. -/
noncomputable def zeroEdges (size : ℝ) (pts : List V3) : List V3 :=
  zeroWhere V3.y size (zeroWhere V3.x size (zeroWhere V3.y 0 (zeroWhere V3.x 0 pts)))

/-- `corners`, standard_rt_textures.py 383 and 474. -/
def roughCorners (size : ℝ) : List V3 := [⟨0, 0, 0⟩, ⟨0, size, 0⟩, ⟨size, size, 0⟩, ⟨size, 0, 0⟩]

/-- The coordinates used on a regular grid, standard_rt_textures.py 371-376 and 456-463. -/
noncomputable def roughGrid (size : ℝ) (n : ℕ) : List (ℝ × ℝ) := meshPairs (linspace 0 size n) (linspace 0 size n)

/-- One quadrant of `rough_pyramids` with heights and noise, standard_rt_textures.py 396-414. -/
noncomputable def roughQuadrant (tanα noiseHeight sign : ℝ) (dist : ℝ × ℝ → ℝ) (noise : ℕ → ℝ) (cs : List (ℝ × ℝ)) : List V3 :=
  cs.zipIdx.map fun c => ⟨c.1.1, c.1.2, sign * (dist c.1 * tanα + noiseHeight * noise c.2)⟩

/-- `rough_pyramids`, standard_rt_textures.py 387-429, from given coordinates (regular or random), with the four lists of random numbers. -/
noncomputable def roughPyramids (size tanα noiseHeight : ℝ) (upright regular : Bool) (coords : List (ℝ × ℝ)) (noise : ℕ → ℕ → ℝ) : List V3 :=
  let top := coords.filter fun c => decide (c.1 ≤ c.2)
  let bottom := coords.filter fun c => decide (c.1 > c.2)
  let left := top.filter fun c => decide (c.2 ≤ -c.1 + size)
  let top := top.filter fun c => decide (c.2 > -c.1 + size)
  let right := bottom.filter fun c => decide (c.2 > -c.1 + size)
  let bottom := bottom.filter fun c => decide (c.2 ≤ -c.1 + size)
  let sign : ℝ := if upright then 1 else -1
  let all := roughQuadrant tanα noiseHeight sign (fun c => c.2) (noise 0) bottom ++
    roughQuadrant tanα noiseHeight sign (fun c => size - c.2) (noise 1) top ++
    roughQuadrant tanα noiseHeight sign (fun c => size - c.1) (noise 2) right ++
    roughQuadrant tanα noiseHeight sign (fun c => c.1) (noise 3) left
  zeroEdges size (if regular then all else all ++ roughCorners size)

/-- `rough_planar_surface`, standard_rt_textures.py 455-483, from given coordinates. -/
noncomputable def roughPlanar (size noiseHeight : ℝ) (regular : Bool) (coords : List (ℝ × ℝ)) (noise : ℕ → ℝ) : List V3 :=
  let pts : List V3 := coords.zipIdx.map fun c => ⟨c.1.1, c.1.2, noiseHeight * noise c.2⟩
  zeroEdges size (if regular then pts else pts ++ roughCorners size)

/-- The height given to one grid point by `hemisphere_surface`, standard_rt_textures.py 527-547; `none`: the point is left out. `rnd` is a random number. -/
noncomputable def hemisphereHeight (size radius offset stretch noiseHeight rnd : ℝ) (c : ℝ × ℝ) : Option ℝ :=
  if c.1 ^ 2 + c.2 ^ 2 < radius ^ 2 - offset ^ 2 then
    some (stretch * (radius * Real.cos (Real.arcsin (√(c.1 ^ 2 + c.2 ^ 2) / radius)) - offset))
  else if c.1 = -size / 2 ∨ c.1 = size / 2 ∨ c.2 = -size / 2 ∨ c.2 = size / 2 then some 0
  else if noiseHeight > 0 then some (0 + noiseHeight * rnd)
  else none

/-- `hemisphere_surface`, standard_rt_textures.py 490-580: all points of the front surface. `circle` are the angles of the points added on the rim (5 per grid point and side). `none` is the ValueError. -/
noncomputable def hemispherePoints (size : ℝ) (n : ℕ) (radius offset stretch noiseHeight : ℝ) (upright : Bool) (rnd : ℕ → ℝ) : Option (List V3) :=
  if offset < 0 then none else
  let x := linspace (-size / 2) (size / 2) n
  let grid := (meshPairs x x).zipIdx.filterMap fun c => (hemisphereHeight size radius offset stretch noiseHeight (rnd c.2) c.1).map fun h => (⟨c.1.1, c.1.2, h⟩ : V3)
  let grid := grid.filter fun p => decide (p.z ≥ 0)
  let r0 := √(radius ^ 2 - offset ^ 2)
  let all := if noiseHeight = 0 then grid ++ (linspace 0 (2 * π) (5 * n)).map fun a => (⟨r0 * Real.cos a, r0 * Real.sin a, 0⟩ : V3) else grid
  some (all.map fun p => ⟨p.x + size / 2, p.y + size / 2, if upright then p.z else -p.z⟩)

end Rayflare.Model
