import Verif.Model.Fresnel
import Verif.Np

/-!
# Model of `rayflare/ray_tracing/rt.py`: meeting a triangulated surface (`check_intersect`, `exit_side`, periodic wrapping,
`single_interface_check`, `single_cell_check`)
-/

namespace Rayflare.Model

open Rayflare.Np

/-- One triangle of an `RTSurface`: rows of `P_0s`, `P_1s`, `P_2s`, rt.py 1385-1387. -/
structure Tri where
  P0 : V3
  P1 : V3
  P2 : V3

/-- A row of `crossP`, rt.py 1388. -/
noncomputable def Tri.crossP (τ : Tri) : V3 := V3.cross (τ.P1 - τ.P0) (τ.P2 - τ.P0)

/-- A row of `N`, rt.py 1389. -/
noncomputable def Tri.N (τ : Tri) : V3 := (1 / V3.norm τ.crossP) • τ.crossP

/-- `np.sum(D * tri.crossP, axis=1)` with `D = -d`, rt.py 2228-2229; `pref` is its inverse. -/
noncomputable def Tri.det (τ : Tri) (d : V3) : ℝ := V3.dot (-d) τ.crossP

/-- `t`, rt.py 2231. -/
noncomputable def Tri.t (τ : Tri) (r d : V3) : ℝ := 1 / τ.det d * V3.dot τ.crossP (r - τ.P0)

/-- `u`, rt.py 2232. -/
noncomputable def Tri.u (τ : Tri) (r d : V3) : ℝ := 1 / τ.det d * V3.dot (V3.cross (τ.P2 - τ.P0) (-d)) (r - τ.P0)

/-- `v`, rt.py 2233. -/
noncomputable def Tri.v (τ : Tri) (r d : V3) : ℝ := 1 / τ.det d * V3.dot (V3.cross (-d) (τ.P1 - τ.P0)) (r - τ.P0)

open Classical in
/-- `which_intersect`, rt.py 2235-2237.  For a ray parallel to the triangle `pref` is infinite, `u` and `v` are infinite or NaN and the
comparison fails. -/
noncomputable def Tri.hit (τ : Tri) (r d : V3) : Bool :=
  decide (τ.det d ≠ 0 ∧ τ.u r d + τ.v r d ≤ 1 ∧ (-(1 / 10 ^ 10) ≤ τ.u r d ∧ -(1 / 10 ^ 10) ≤ τ.v r d) ∧ 0 < τ.t r d)

/-- `check_intersect`, rt.py 2225-2255: the intersection, local angle and facet normal; `none` is `False`. -/
noncomputable def checkIntersect (r d : V3) (tris : List Tri) : Option (V3 × ℝ × V3) :=
  let hits := tris.filter (fun τ => τ.hit r d)
  let ts := hits.map (fun τ => τ.t r d)
  match hits[argmin ts]? with
  | none => none
  | some τ => some (r + τ.t r d • d, localTheta τ.N d, τ.N)

/-! ## Unit cell -/

/-- One plane of `exit_side`: `t`, or `none` for `inf`, rt.py 1528-1534.  `denom == 0` is replaced by `1e-12`. -/
noncomputable def planeT (num denom : ℝ) : Option ℝ :=
  let denom := if denom = 0 then 1 / 10 ^ 12 else denom
  let t := num / denom
  if t > 0 then some t else none

/-- The four values of `t` in `exit_side`, rt.py 1522-1534: top, right, bottom, left. -/
noncomputable def exitTs (r d : V3) (Lx Ly : ℝ) : List (Option ℝ) :=
  [planeT (-(Ly - r.y)) (-d.y), planeT (-(Lx - r.x)) (-d.x), planeT (0 - r.y) d.y, planeT (0 - r.x) d.x]

/-- `a ≤ b` for values where `none` is infinity. -/
noncomputable def leInf : Option ℝ → Option ℝ → Bool
  | _, none => true
  | none, some _ => false
  | some a, some b => decide (a ≤ b)

/-- `exit_side`, rt.py 1521-1537: the side with the smallest `t` (the first one), and that `t`. -/
noncomputable def exitSide (r d : V3) (Lx Ly : ℝ) : ℕ × Option ℝ :=
  let ts := exitTs r d Lx Ly
  let i := ts.findIdx (fun x => ts.all (fun y => leInf x y))
  (i, ts.getD i none)

/-- `translation`, rt.py 1956: top, right, bottom, left. -/
noncomputable def translation (Lx Ly : ℝ) : ℕ → V3
  | 0 => ⟨0, -Ly, 0⟩
  | 1 => ⟨-Lx, 0, 0⟩
  | 2 => ⟨0, Ly, 0⟩
  | _ => ⟨Lx, 0, 0⟩

/-- The shift by whole periods before a periodic surface is tested, rt.py 1676-1683 and 1799-1804. -/
noncomputable def wrapRay (r d : V3) (Lx Ly zcov : ℝ) : V3 :=
  ⟨r.x - Lx * ((⌊(r.x + d.x * (zcov - r.z) / d.z) / Lx⌋ : ℤ) : ℝ),
   r.y - Ly * ((⌊(r.y + d.y * (zcov - r.z) / d.z) / Ly⌋ : ℤ) : ℝ), r.z⟩

/-- `r % L`, applied only when outside [0, L], rt.py 2016-2023 and 2043-2050. -/
noncomputable def backInto (x L : ℝ) : ℝ := if x > L ∨ x < 0 then x - L * ((⌊x / L⌋ : ℤ) : ℝ) else x

/-! ## The surface interaction -/

/-- What one iteration of the loop draws: the surface as it is now (it may have been refreshed), the random numbers, and the decision made at a
facet: a function of `n0, n1` (given as: is the ray in the upper medium), local angle, direction, normal and side. -/
structure Draw where
  tris : List Tri
  zmin : ℝ
  zmax : ℝ
  rx : ℝ
  ry : ℝ
  dec : ℝ → V3 → V3 → ℤ → V3 × ℤ × Option (List ℝ)

/-- A Fresnel decision with media above/below and a random number (the `n0`, `n1` of rt.py 2075-2081); `arc side θ` is the angle of refraction NumPy
returns, which depends on the side through `n0 / n1`. -/
noncomputable def fresnelDec (nAbove nBelow : ℂ) (arc : ℤ → ℝ → ℂ) (pol : Pol) (rnd : ℝ) : ℝ → V3 → V3 → ℤ → V3 × ℤ × Option (List ℝ) :=
  fun θ d N side =>
    let n0 := if side = 1 then nAbove else nBelow
    let n1 := if side = 1 then nBelow else nAbove
    let o := decideFresnel n0 n1 θ (arc side θ) d N side pol rnd
    (o.1, o.2, none)

/-- Variables of the loop of `single_interface_check`, rt.py 1952-1960. `θ = none`: the local `theta` is not yet assigned. -/
structure Sic where
  r : V3
  d : V3
  side : ℤ
  checked : Bool
  misses : ℕ
  i1 : ℕ
  nInt : ℕ
  θ : Option ℝ

/-- Return values of `single_interface_check` (res, polar angle or absorption, position, direction, local angle, side).  The azimuth `o_p` is left out.
`lost` marks that `exit_side` found no side (`t = inf`), after which the coordinates are infinite or NaN: the next iteration meets no facet (comparisons with NaN
fail), the height is past the surface, and the loop returns a label and the polar angle of the direction `d`. -/
inductive SicRes
  | out (res : ℕ) (ot : ℝ) (r d : V3) (θ : Option ℝ) (nInt : ℕ) (side : ℤ)
  | absorbed (A : List ℝ) (r d : V3) (θ : ℝ) (nInt : ℕ) (side : ℤ)
  | gaveUp (ot : ℝ) (r d : V3) (nInt : ℕ) (side : ℤ)
  | lost (res : ℕ) (ot : ℝ) (d : V3) (side : ℤ)

/-- `np.real(acos(d[2] / np.linalg.norm(d)))`. -/
noncomputable def polar (d : V3) : ℝ := Real.arccos (d.z / V3.norm d)

/-- `np.sign`. -/
noncomputable def npSign (x : ℝ) : ℤ := if 0 < x then 1 else if x < 0 then -1 else 0

/-- `final_res`, rt.py 2034-2040 and 2152-2158. -/
noncomputable def finalRes (d0 d : V3) : ℕ := if npSign d0.z = npSign d.z then 1 else 0

/-- The random new starting point after a first miss, rt.py 1982-1998: above the surface for a ray going down, else below it. -/
noncomputable def relaunch (Lx Ly : ℝ) (w : Draw) (d : V3) : V3 :=
  if d.z < 0 then ⟨w.rx * Lx, w.ry * Ly, w.zmax + 1 / 100⟩ else ⟨w.rx * Lx, w.ry * Ly, w.zmin - 1 / 100⟩

/-- One iteration of the loop of `single_interface_check`, rt.py 1962-2111. -/
noncomputable def sicStep (Lx Ly : ℝ) (d0 : V3) (w : Draw) (s : Sic) : Sic ⊕ SicRes :=
  let i1 := s.i1 + 1
  match checkIntersect s.r s.d w.tris with
  | none =>
    if !s.checked then
      if i1 > 1 then
        .inl { s with r := s.r + translation Lx Ly (exitSide s.r s.d Lx Ly).1, checked := true, i1 := i1 }
      else if s.misses < 100 then
        .inl { s with
          r := relaunch Lx Ly w s.d
          misses := s.misses + 1, i1 := 0 }
      else
        let d : V3 := ⟨s.d.x, s.d.y, -s.d.z⟩
        .inr (.gaveUp (polar d) s.r d s.nInt s.side)
    else if (s.side = 1 ∧ s.d.z < 0 ∧ s.r.z > w.zmin) ∨ (s.side = -1 ∧ s.d.z > 0 ∧ s.r.z < w.zmax) then
      let r : V3 := ⟨backInto s.r.x Lx, backInto s.r.y Ly, s.r.z⟩
      let e := exitSide r s.d Lx Ly
      match e.2 with
      | none => .inr (.lost (finalRes d0 s.d) (polar s.d) s.d s.side)
      | some t => .inl { s with r := r + t • s.d + translation Lx Ly e.1, checked := true, i1 := i1 }
    else
      .inr (.out (finalRes d0 s.d) (polar s.d) ⟨backInto s.r.x Lx, backInto s.r.y Ly, s.r.z⟩ s.d s.θ s.nInt s.side)
  | some (p, θ, Nf) =>
    let N := (s.side : ℝ) • Nf
    match w.dec θ s.d N s.side with
    | (d, side, A) =>
      let r := p + (1 / 10 ^ 9 : ℝ) • d
      match A with
      | some A => .inr (.absorbed A r d θ (s.nInt + 1) side)
      | none => .inl { s with r := r, d := d, side := side, checked := false, i1 := i1, nInt := s.nInt + 1, θ := some θ }

/-- `single_interface_check`, rt.py 1935-1960: the state before the loop. -/
noncomputable def sicStart (r d : V3) (side : ℤ) (nInt : ℕ) : Sic :=
  { r := r, d := d, side := side, checked := false, misses := 0, i1 := 0, nInt := nInt, θ := none }

/-- The loop run on a sequence of draws, for as long as they last: still running, or returned. -/
noncomputable def sicRun (Lx Ly : ℝ) (d0 : V3) : List Draw → Sic → Sic ⊕ SicRes
  | [], s => .inl s
  | w :: ws, s => match sicStep Lx Ly d0 w s with
    | .inl s' => sicRun Lx Ly d0 ws s'
    | .inr r => .inr r

/-- Variables of the loop of `single_cell_check` (the non-periodic surface), rt.py 2131-2140; `theta = 0` before the first facet. -/
structure Scc where
  r : V3
  d : V3
  side : ℤ
  nInt : ℕ
  θ : ℝ

/-- One iteration of the loop of `single_cell_check`, rt.py 2142-2222. -/
noncomputable def sccStep (d0 : V3) (w : Draw) (s : Scc) : Scc ⊕ SicRes :=
  match checkIntersect s.r s.d w.tris with
  | none => .inr (.out (finalRes d0 s.d) (polar s.d) s.r s.d (some s.θ) s.nInt s.side)
  | some (p, θ, Nf) =>
    let N := (s.side : ℝ) • Nf
    match w.dec θ s.d N s.side with
    | (d, side, A) =>
      let r := p + (1 / 10 ^ 9 : ℝ) • d
      match A with
      | some A => .inr (.absorbed A r d θ (s.nInt + 1) side)
      | none => .inl { r := r, d := d, side := side, nInt := s.nInt + 1, θ := θ }

/-- The loop of `single_cell_check` on a sequence of draws. -/
noncomputable def sccRun (d0 : V3) : List Draw → Scc → Scc ⊕ SicRes
  | [], s => .inl s
  | w :: ws, s => match sccStep d0 w s with
    | .inl s' => sccRun d0 ws s'
    | .inr r => .inr r

end Rayflare.Model
