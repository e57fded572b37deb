import Verif.Model.TraceSurface

/-!
# Model of `rayflare/ray_tracing/rt.py`: `single_ray_stack` with the geometry

Model/RayStack follows the bookkeeping of a ray for any outcome at each surface.  Here the outcomes come from `single_interface_check` and
`single_cell_check`.  Not modelled: the counter `n_interactions` and the returned azimuth and local angle.
-/

namespace Rayflare.Model

open Rayflare.Np

/-- What one iteration of the loop at a surface draws: the triangles as they are now, and the random numbers for a new start and for the decision. -/
structure IterDraw where
  tris : List Tri
  zmin : ℝ
  zmax : ℝ
  rx : ℝ
  ry : ℝ
  rnd : ℝ

/-- A lookup table at one wavelength: `(R, T, A_per_layer)` for the side and the absolute value of the local angle. -/
abbrev Table := ℤ → ℝ → ℝ × ℝ × List ℝ

/-- `theta_t = np.arcsin((n1 / n2) * np.sin(theta))` of `calc_R`, rt.py 1496, for a ray in the upper (`side = 1`) or lower medium; `asin` is `np.arcsin`. -/
noncomputable def refrAngle (asin : ℂ → ℂ) (ni nj : ℂ) : ℤ → ℝ → ℂ := fun side θ =>
  asin ((if side = 1 then ni else nj) / (if side = 1 then nj else ni) * Complex.sin ((|θ| : ℝ) : ℂ))

/-- The decision at a facet between media `ni` (above) and `nj`: `Fr_or_TMM` and `lookuptable` of `tmm_kwargs_list[surf_index]`, rt.py 1705 and 1951, 2083-2087. -/
noncomputable def IterDraw.draw (asin : ℂ → ℂ) (pol : Pol) (tab : Option Table) (ni nj : ℂ) (w : IterDraw) : Draw :=
  { tris := w.tris, zmin := w.zmin, zmax := w.zmax, rx := w.rx, ry := w.ry
    dec := match tab with
      | none => fresnelDec ni nj (refrAngle asin ni nj) pol w.rnd
      | some tab => tmmDec ni nj tab w.rnd }

/-- Arguments of `single_ray_stack` at one wavelength, rt.py 1546-1562: besides those of `Stack`, the surfaces, the refractive indices of the media, the lookup tables of the
surfaces, `np.arcsin`, and the options. -/
structure RTStack where
  S : Stack
  cells : List Cell
  nks : List ℂ
  tabs : List (Option Table)
  asin : ℂ → ℂ
  pol : Pol
  randomize : Bool
  periodic : Bool

/-- What is drawn when the ray meets one surface: the two random numbers of `randomize`, and one draw per iteration. -/
structure Meeting where
  u : ℝ
  v : ℝ
  ws : List IterDraw

/-- Variables of the loop of `single_ray_stack`: those of `Ray`, `r_a` (`none`: infinite or NaN coordinates) and `d`. -/
structure StackRay where
  ray : Ray
  r : Option V3
  d : V3

/-- Before the loop, rt.py 1583-1639. -/
noncomputable def RTStack.start (c : RTStack) (x y : ℝ) (matI dirI : ℤ) (ra0 : V3) : StackRay :=
  { ray := Stack.start matI dirI, r := some (c.S.startPos x y matI dirI ra0), d := startDir x y dirI ra0 }

/-- `r_a` and `d` after the randomisation, rt.py 1662-1676. -/
noncomputable def RTStack.randomised (c : RTStack) (cell : Cell) (m : Meeting) (s : StackRay) : Option V3 × V3 :=
  if c.randomize ∧ 0 < s.ray.nPasses then (some (randStart cell s.d s.ray.dir m.u m.v), randDir s.d s.ray.dir) else (s.r, s.d)

/-- The shift by whole periods, rt.py 1678-1685; for a horizontal ray the division by `d[2]` gives infinity or NaN and `//` NaN. -/
noncomputable def wrapOpt (r : Option V3) (d : V3) (cell : Cell) : Option V3 :=
  if d.z = 0 then none else r.map fun r => wrapRay r d cell.Lx cell.Ly cell.zcov

/-- The first iteration at a surface when the coordinates are NaN: no triangle is found (comparisons with NaN fail), and the ray is started anew above or below the
surface, rt.py 1975-2001. -/
noncomputable def sicStartNaN (Lx Ly : ℝ) (w : Draw) (d : V3) (side : ℤ) : Sic :=
  { sicStart (relaunch Lx Ly w d) d side 0 with misses := 1 }

/-- `single_surface[periodic](...)`, rt.py 1687-1706: how the ray leaves the surface; `none`: still in the loop after these draws. -/
noncomputable def RTStack.meet (c : RTStack) (cell : Cell) (tab : Option Table) (ni nj : ℂ) (m : Meeting) (s : StackRay) : Option SicRes :=
  let rd := c.randomised cell m s
  let d := rd.2
  let ws := m.ws.map fun w => w.draw c.asin c.pol tab ni nj
  if c.periodic then
    match wrapOpt rd.1 d cell with
    | some r => (sicRun cell.Lx cell.Ly d ws (sicStart r d s.ray.dir 0)).getRight?
    | none => match ws with
      | [] => none
      | w :: ws => (sicRun cell.Lx cell.Ly d ws (sicStartNaN cell.Lx cell.Ly w d s.ray.dir)).getRight?
  else
    match rd.1 with
    | some r => (sccRun d ws { r := r, d := d, side := s.ray.dir, nInt := 0, θ := 0 }).getRight?
    | none => match ws with
      | [] => none
      | _ :: _ => some (.lost (finalRes d d) (polar d) d s.ray.dir)

/-- `res` and `theta`, rt.py 1708-1727. -/
def SicRes.outcome : SicRes → Outcome
  | .out res ot _ _ _ _ _ => if res = 0 then .reflect ot else .transmit ot
  | .absorbed A _ _ _ _ _ => .absorb A
  | .gaveUp ot _ _ _ _ => .reflect ot
  | .lost res ot _ _ => if res = 0 then .reflect ot else .transmit ot

/-- `r_a` as returned. -/
def SicRes.pos : SicRes → Option V3
  | .out _ _ r _ _ _ _ => some r
  | .absorbed _ r _ _ _ _ => some r
  | .gaveUp _ r _ _ _ => some r
  | .lost _ _ _ _ => none

/-- `d` as returned. -/
def SicRes.dir : SicRes → V3
  | .out _ _ _ d _ _ _ => d
  | .absorbed _ _ d _ _ _ => d
  | .gaveUp _ _ d _ _ => d
  | .lost _ _ d _ => d

/-- After an iteration of `while not stop`: the new state, an `IndexError`, or not yet finished. -/
inductive StackRes
  | next (s : StackRay)
  | indexError
  | running

/-- The bookkeeping after the surface, rt.py 1708-1759. -/
noncomputable def RTStack.advance (c : RTStack) (s : StackRay) : Option SicRes → StackRes
  | none => .running
  | some res => match c.S.step s.ray res.outcome with
    | none => .indexError
    | some ray => .next { ray := ray, r := res.pos, d := res.dir }

/-- One iteration of `while not stop`, rt.py 1658-1759: surface, media (lines 1687-1693), interaction, bookkeeping.  A finished ray stays as it is. -/
noncomputable def RTStack.step (c : RTStack) (m : Meeting) (s : StackRay) : StackRes :=
  if s.ray.stop then .next s else
  match pyGet c.cells s.ray.surf, pyGet c.tabs s.ray.surf, pyGet c.nks (if s.ray.dir = 1 then s.ray.mat else s.ray.mat - 1),
      pyGet c.nks (if s.ray.dir = 1 then s.ray.mat + 1 else s.ray.mat) with
  | some cell, some tab, some ni, some nj => c.advance s (c.meet cell tab ni nj m s)
  | _, _, _, _ => .indexError

/-- The loop, for a given sequence of meetings. -/
noncomputable def RTStack.run (c : RTStack) : List Meeting → StackRay → StackRes
  | [], s => .next s
  | m :: ms, s => match c.step m s with
    | .next s => c.run ms s
    | e => e

end Rayflare.Model
