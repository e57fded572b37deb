import Verif.Model.Angles
import Verif.Model.RayStack

/-!
# Model of `rayflare/ray_tracing/rt.py`: redistribution matrices from ray tracing (`RT`, `RT_wl`, `single_ray_interface`)
-/

namespace Rayflare.Model

open Rayflare.Np Real

/-! ## One ray -/

/-- Variables of the loop of `single_ray_interface`, rt.py 1779-1853 (geometry left out). `out` is the returned `theta`/`surface_A`. -/
structure Sri where
  dir : ℤ
  mat : ℤ
  surf : ℤ
  stop : Bool
  nInt : ℕ
  out : Option Outcome

/-- Before the loop, rt.py 1782-1786. -/
def sriStart : Sri := { dir := 1, mat := 0, surf := 0, stop := false, nInt := 0, out := none }

/-- One iteration, rt.py 1797-1851, given the outcome at the surface. `none` is an IndexError of `surfaces[surf_index]` or of
`nks[mat_index]`, `nks[mat_index + 1]`; there are `nSurf` surfaces and `nSurf + 1` media. -/
def sriStep (nSurf : ℕ) (s : Sri) (o : Outcome) : Option Sri :=
  if s.stop then some s else
  (pyIndex nSurf s.surf).bind fun _ =>
  (pyIndex (nSurf + 1) s.mat).bind fun _ =>
  (pyIndex (nSurf + 1) (s.mat + 1)).map fun _ =>
  let s1 := match o with
    | .reflect _ => { s with dir := -s.dir, surf := s.surf + -s.dir, out := some o, nInt := s.nInt + 1 }
    | .transmit _ => { s with surf := s.surf + s.dir, mat := s.mat + s.dir, out := some o, nInt := s.nInt + 1 }
    | .absorb _ => { s with stop := true, out := some o, nInt := s.nInt + 1 }
  if s1.dir = 1 ∧ s1.mat = 1 then { s1 with stop := true }
  else if s1.dir = -1 ∧ s1.mat = 0 then { s1 with stop := true }
  else s1

/-- The loop for a given sequence of outcomes. -/
def sriRun (nSurf : ℕ) (s : Sri) : List Outcome → Option Sri
  | [] => some s
  | o :: os => (sriStep nSurf s o).bind fun s => sriRun nSurf s os

/-! ## Launching -/

/-- `n_angles`, rt.py 86 (and `n_reps = int(np.ceil(n_rays / (nx * ny)))` in `rt_structure.calculate`, rt.py 919). -/
noncomputable def nAngles (nRays nx ny : ℕ) : ℕ := ⌈(nRays : ℝ) / ((nx : ℝ) * ny)⌉₊

/-- `np.tile(l, n_reps)`. -/
def tile {α : Type*} (l : List α) (reps : ℕ) : List α := (List.replicate reps l).flatten

/-- The launched directions `zip(thetas_in, phis_in)` without random angles, rt.py 149-157. -/
noncomputable def launched (g : Grid) (nAng : ℕ) : List (ℝ × ℝ) :=
  let anglesIn := g.angleVector.take (g.angleVector.length / 2)
  let nReps := ⌈(nAng : ℝ) / (anglesIn.length : ℝ)⌉₊
  (tile (anglesIn.map fun r => (r.theta, r.phi)) nReps).take nAng

/-! ## Counting -/

/-- What a traced ray reports, rt.py 309-331: it leaves in direction `(th_o, phi_o)`, or it is absorbed with absorption `A` per layer at local angle
`θloc` (`th_o = 10`, `phi_o = 0`, rt.py 1838-1842 and 2098-2100).  `A` is indexed by layer. -/
inductive RTOut
  | leaves (θ φ : ℝ)
  | absorbed (A : ℕ → ℝ) (θloc : ℝ)

/-- A traced ray: launch direction and result. -/
structure RTRay where
  θin : ℝ
  φin : ℝ
  out : RTOut

/-- The rays of `RT_wl`, rt.py 298-331: each launched direction at `nx * ny` positions; `res l1 l2` is what happens to the ray. -/
def traced (dirs : List (ℝ × ℝ)) (nPos : ℕ) (res : ℕ → ℕ → RTOut) : List RTRay :=
  dirs.zipIdx.flatMap fun p => (List.range nPos).map fun l2 => { θin := p.1.1, φin := p.1.2, out := res p.2 l2 }

/-- The arguments of `RT_wl` that matter for the counting: grid, symmetry angle, `Fr_or_TMM > 0`, `side == 1`, number of absorbing layers. -/
structure RTArgs where
  g : Grid
  phiSym : ℝ
  tmm : Bool
  front : Bool
  nLayers : ℕ

/-- `theta_out`, rt.py 324-327 and 341. -/
noncomputable def RTArgs.thetaOut (a : RTArgs) (o : RTOut) : ℝ :=
  let t := match o with | .leaves θ _ => if θ < 0 then -θ else θ | .absorbed _ _ => 10
  if a.front then t else if t < π + 1 / 10 then π - t else t

/-- `phi_out`, rt.py 324-328 and 333. -/
noncomputable def RTArgs.phiOut (a : RTArgs) (o : RTOut) : ℝ :=
  foldPhi (match o with | .leaves θ φ => if θ < 0 then φ + π else φ | .absorbed _ _ => 0) a.phiSym

/-- `thetas_in`, rt.py 338. -/
noncomputable def RTArgs.thetaIn (a : RTArgs) (θ : ℝ) : ℝ := if a.front then θ else π - θ

/-- `theta_intv`, rt.py 349-350. -/
noncomputable def RTArgs.thetaIntv (a : RTArgs) : List ℝ := if a.tmm then a.g.thetaIntv ++ [11] else a.g.thetaIntv

/-- `phi_intv`, rt.py 351. -/
noncomputable def RTArgs.phiIntv (a : RTArgs) : List (List ℝ) := if a.tmm then a.g.phiIntv ++ [[0]] else a.g.phiIntv

/-- `np.digitize(x, theta_intv, right=True) - 1`, rt.py 354-357 and 388. -/
noncomputable def RTArgs.tbin (a : RTArgs) (x : ℝ) : ℤ := (digitizeRight x a.thetaIntv : ℤ) - 1

/-- `bin_in`, `bin_out`, rt.py 360-381: `overall_bin` applied ring by ring. -/
noncomputable def RTArgs.bin (a : RTArgs) (θ φ : ℝ) : Option ℤ := overallBin a.phiIntv a.g.col0 (a.tbin θ) φ

/-- `int(len(angle_vector) / 2)`. -/
def RTArgs.half (a : RTArgs) : ℕ := a.g.angleVector.length / 2

/-- What the counting loop does with one ray: column, row (`none`: absorbed), absorption per layer, local-angle bin. -/
structure RTRec where
  col : ℕ
  row : Option ℕ
  A : ℕ → ℝ
  loc : ℕ

/-- The indices used for one ray in rt.py 401-413.  `none` is an IndexError. -/
noncomputable def RTArgs.record (a : RTArgs) (r : RTRay) : Option RTRec :=
  (a.bin (a.thetaIn r.θin) (foldPhi r.φin a.phiSym)).bind fun bIn =>
  (a.bin (a.thetaOut r.out) (a.phiOut r.out)).bind fun bOut =>
  (pyIndex a.half (bIn - if a.front then 0 else (a.half : ℤ))).bind fun col =>
  if a.tbin (a.thetaOut r.out) ≤ (a.g.thetaIntv.length : ℤ) - 1 - 1 then
    (pyIndex a.g.angleVector.length bOut).map fun row => { col := col, row := some row, A := fun _ => 0, loc := 0 }
  else
    match r.out with
    | .absorbed A θl => (pyIndex ((a.thetaIntv.length - 1) / 2) (a.tbin |θl|)).map fun l => { col := col, row := none, A := A, loc := l }
    | .leaves _ _ => (pyIndex ((a.thetaIntv.length - 1) / 2) (a.tbin 10)).map fun l => { col := col, row := none, A := fun _ => 0, loc := l }

/-- `n_rays_in_bin`, `n_rays_in_bin_abs`, `out_mat`, `A_mat`, `local_angle_mat`. -/
structure RTAcc where
  nRays : ℕ → ℝ
  nAbs : ℕ → ℝ
  out : ℕ → ℕ → ℝ
  A : ℕ → ℕ → ℝ
  loc : ℕ → ℕ → ℝ

/-- All zero, rt.py 383-392. -/
def RTAcc.zero : RTAcc := ⟨fun _ => 0, fun _ => 0, fun _ _ => 0, fun _ _ => 0, fun _ _ => 0⟩

/-- The body of the counting loop, rt.py 401-413. -/
noncomputable def RTAcc.add (s : RTAcc) (r : RTRec) : RTAcc :=
  let s := { s with nRays := fun j => if j = r.col then s.nRays j + 1 else s.nRays j }
  match r.row with
  | some row => { s with out := fun i j => if i = row ∧ j = r.col then s.out i j + 1 else s.out i j }
  | none =>
    { s with
      nAbs := fun j => if j = r.col then s.nAbs j + 1 else s.nAbs j
      A := fun l j => if j = r.col then s.A l j + r.A l else s.A l j
      loc := fun l j => if l = r.loc ∧ j = r.col then s.loc l j + 1 else s.loc l j }

/-- The matrices returned by `RT_wl` and the integral used for profiles. -/
structure RTMat where
  out : ℕ → ℕ → ℝ
  A : ℕ → ℕ → ℝ
  intgr : ℕ → ℝ
  loc : ℕ → ℕ → ℝ

/-- Contents of the uninitialised memory of the three `np.divide(..., where=...)` without `out=`. -/
structure RTJunk where
  out : ℕ → ℕ → ℝ
  frac : ℕ → ℝ
  scale : ℕ → ℝ

/-- The normalisation, rt.py 416-452.  (NaN to zero: no NaN arises from real junk.) -/
noncomputable def RTAcc.normalise (a : RTArgs) (u : RTJunk) (s : RTAcc) : RTMat :=
  let sumA := fun j => ((List.range a.nLayers).map fun l => s.A l j).sum
  let frac := fun j => divideWhere (decide (s.nRays j ≠ 0)) (u.frac j) (s.nAbs j) (s.nRays j)
  let scale := fun j => divideWhere (decide (sumA j ≠ 0)) (u.scale j) (frac j) (sumA j)
  let sumLoc := fun j => ((List.range ((a.thetaIntv.length - 1) / 2)).map fun l => s.loc l j).sum
  { out := fun i j => divideWhere (decide (s.nRays j ≠ 0)) (u.out i j) (s.out i j) (s.nRays j)
    A := fun l j => scale j * s.A l j
    intgr := fun j => if s.nAbs j ≠ 0 then sumA j / s.nAbs j else 0
    loc := fun l j => if sumLoc j ≠ 0 then s.loc l j / sumLoc j else 0 }

/-- `RT_wl`, rt.py 268-479, without the profiles. -/
noncomputable def rtMatrix (a : RTArgs) (u : RTJunk) (rays : List RTRay) : Option RTMat :=
  (rays.mapM a.record).map fun recs => (recs.foldl RTAcc.add RTAcc.zero).normalise a u

end Rayflare.Model
