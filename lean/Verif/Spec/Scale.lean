import Verif.Model.TraceSurface

/-!
# Specification: a texture of the same shape and another size
-/

namespace Rayflare.Spec

open Rayflare.Model

/-- All lengths multiplied by `k`. -/
noncomputable def scaleTri (k : ℝ) (τ : Tri) : Tri := ⟨k • τ.P0, k • τ.P1, k • τ.P2⟩

/-- The unit cell and the launch height multiplied by `k`. -/
noncomputable def scaleCell (k : ℝ) (c : Texture) : Texture := { Lx := k * c.Lx, Ly := k * c.Ly, zcov := k * c.zcov, h := k * c.h }

/-- The same random numbers on the surface multiplied by `k`. -/
noncomputable def scaleDraw (k : ℝ) (w : Draw) : Draw := { w with tris := w.tris.map (scaleTri k), zmin := k * w.zmin, zmax := k * w.zmax }

/-- The same result, at a position multiplied by `k`. -/
noncomputable def scaleRes (k : ℝ) : SicRes → SicRes
  | .out res ot r d θ n side => .out res ot (k • r) d θ n side
  | .absorbed A r d θ n side => .absorbed A (k • r) d θ n side
  | .gaveUp ot r d n side => .gaveUp ot (k • r) d n side
  | .lost res ot d side => .lost res ot d side

/-! ## Ray tracing with other fixed lengths

The code contains three fixed lengths: a ray leaves a facet with an offset of 1e-9, a ray that missed is started anew 0.01 above or below the surface, and rays are launched 1e-8 above the given height.  Here they are parameters. -/

/-- A new start `lift` above or below the surface. -/
noncomputable def relaunchFrom (lift Lx Ly : ℝ) (w : Draw) (d : V3) : V3 :=
  if d.z < 0 then ⟨w.rx * Lx, w.ry * Ly, w.zmax + lift⟩ else ⟨w.rx * Lx, w.ry * Ly, w.zmin - lift⟩

/-- One iteration at the surface, with the offset `off`. -/
noncomputable def sicStepWith (off lift Lx Ly : ℝ) (d0 : V3) (w : Draw) (s : Sic) : Sic ⊕ SicRes :=
  let i1 := s.i1 + 1
  match checkIntersect s.r s.d w.tris with
  | none =>
    if !s.checked then
      if i1 > 1 then
        .inl { s with r := s.r + translation Lx Ly (exitSide s.r s.d Lx Ly).1, checked := true, i1 := i1 }
      else if s.misses < 100 then
        .inl { s with
          r := relaunchFrom lift Lx Ly w s.d
          misses := s.misses + 1, i1 := 0 }
      else
        let d : V3 := ⟨s.d.x, s.d.y, -s.d.z⟩
        .inr (.gaveUp (polar d) s.r d s.nInt s.side)
    else if (s.side = 1 ∧ s.d.z < 0 ∧ s.r.z > w.zmin) ∨ (s.side = -1 ∧ s.d.z > 0 ∧ s.r.z < w.zmax) then
      let r : V3 := ⟨backInto s.r.x Lx, backInto s.r.y Ly, s.r.z⟩
      let e := exitSide r s.d Lx Ly
      match e.2 with
      | none => .inr (.lost (finalRes d0 s.d) (polar s.d) s.d s.side)
      | some t => .inl { s with r := r + t • s.d + translation Lx Ly e.1, checked := true, i1 := i1 }
    else
      .inr (.out (finalRes d0 s.d) (polar s.d) ⟨backInto s.r.x Lx, backInto s.r.y Ly, s.r.z⟩ s.d s.θ s.nInt s.side)
  | some (p, θ, Nf) =>
    let N := (s.side : ℝ) • Nf
    match w.dec θ s.d N s.side with
    | (d, side, A) =>
      let r := p + off • d
      match A with
      | some A => .inr (.absorbed A r d θ (s.nInt + 1) side)
      | none => .inl { s with r := r, d := d, side := side, checked := false, i1 := i1, nInt := s.nInt + 1, θ := some θ }

noncomputable def sicRunWith (off lift Lx Ly : ℝ) (d0 : V3) : List Draw → Sic → Sic ⊕ SicRes
  | [], s => .inl s
  | w :: ws, s => match sicStepWith off lift Lx Ly d0 w s with
    | .inl s' => sicRunWith off lift Lx Ly d0 ws s'
    | .inr r => .inr r

/-- The direction and distance from which the light comes, for rays launched `up` above the height `h`. -/
noncomputable def launchFrom (up h θ φ : ℝ) : V3 :=
  let r := |(h + up) / Real.cos θ|
  ⟨r * Real.sin θ * Real.cos φ, r * Real.sin θ * Real.sin φ, r * Real.cos θ⟩

/-- A ray launched from `(θ, φ)` at `(x, y)`, with the fixed lengths `off`, `lift` and `up`. -/
noncomputable def traceWith3 (off lift up : ℝ) (c : Texture) (θ φ x y : ℝ) (ws : List Draw) : Option SicRes :=
  let ra0 := launchFrom up c.h θ φ
  let d := launchD x y ra0
  let r := wrapRay (launchA x y ra0) d c.Lx c.Ly c.zcov
  match sicRunWith off lift c.Lx c.Ly d ws (sicStart r d 1 0) with
  | .inl _ => none
  | .inr res => some res

/-- A ridge along x over a cell of `L × L`, with sides inclined by 45°. -/
noncomputable def ridge (L : ℝ) : List Tri :=
  [⟨⟨0, 0, 0⟩, ⟨L, 0, 0⟩, ⟨0, L / 2, L / 2⟩⟩, ⟨⟨L, 0, 0⟩, ⟨L, L / 2, L / 2⟩, ⟨0, L / 2, L / 2⟩⟩,
   ⟨⟨0, L / 2, L / 2⟩, ⟨L, L / 2, L / 2⟩, ⟨0, L, 0⟩⟩, ⟨⟨L, L / 2, L / 2⟩, ⟨L, L, 0⟩, ⟨0, L, 0⟩⟩]

end Rayflare.Spec
