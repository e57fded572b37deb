import Verif.Model.TraceSurface

/-!
# Specification: a surface, the light and what happens to a ray, turned by a quarter turn about the vertical
-/

namespace Rayflare.Spec

open Rayflare.Model

/-- A direction turned by 90° (from x to y). -/
def turn (v : V3) : V3 := ⟨-v.y, v.x, v.z⟩

/-- A point turned by 90°, the unit cell `[0, Lx] × [0, Ly]` becoming `[0, Ly] × [0, Lx]`. -/
def turnPt (Ly : ℝ) (p : V3) : V3 := ⟨Ly - p.y, p.x, p.z⟩

/-- A facet turned by 90°; its corners may be listed from another one on. -/
def TurnedTri (Ly : ℝ) (τ τ' : Tri) : Prop :=
  (τ'.P0 = turnPt Ly τ.P0 ∧ τ'.P1 = turnPt Ly τ.P1 ∧ τ'.P2 = turnPt Ly τ.P2) ∨
  (τ'.P0 = turnPt Ly τ.P1 ∧ τ'.P1 = turnPt Ly τ.P2 ∧ τ'.P2 = turnPt Ly τ.P0) ∨
  (τ'.P0 = turnPt Ly τ.P2 ∧ τ'.P1 = turnPt Ly τ.P0 ∧ τ'.P2 = turnPt Ly τ.P1)

/-- A surface turned by 90°: the same facets, in any order. -/
def TurnedSurface (Ly : ℝ) (tris tris' : List Tri) : Prop :=
  (∀ τ ∈ tris, ∃ τ' ∈ tris', TurnedTri Ly τ τ') ∧ (∀ τ' ∈ tris', ∃ τ ∈ tris, TurnedTri Ly τ τ')

/-- The decision at a facet is one of those of the package. -/
def Optical (dec : ℝ → V3 → V3 → ℤ → V3 × ℤ × Option (List ℝ)) : Prop :=
  (∃ nAbove nBelow arc pol rnd, dec = fresnelDec nAbove nBelow arc pol rnd) ∨ (∃ nAbove nBelow tab rnd, dec = tmmDec nAbove nBelow tab rnd)

/-- One iteration on the turned surface: the same random number at the facet, and the random position for a ray that missed turned with the surface. -/
structure TurnedDraw (Ly : ℝ) (w w' : Draw) : Prop where
  tris : TurnedSurface Ly w.tris w'.tris
  zmin : w'.zmin = w.zmin
  zmax : w'.zmax = w.zmax
  rx : w'.rx = 1 - w.ry
  ry : w'.ry = w.rx
  dec : w'.dec = w.dec ∧ Optical w.dec

/-- What happens to a ray, turned. -/
def turnRes (Ly : ℝ) : SicRes → SicRes
  | .out res ot r d θ n side => .out res ot (turnPt Ly r) (turn d) θ n side
  | .absorbed A r d θ n side => .absorbed A (turnPt Ly r) (turn d) θ n side
  | .gaveUp ot r d n side => .gaveUp ot (turnPt Ly r) (turn d) n side
  | .lost res ot d side => .lost res ot (turn d) side

/-! ## Rays that pass no edge -/

/-- The line of the ray passes inside or outside the facet, not through its edges (within the tolerance of 1e-10 of the package). -/
def Clear (τ : Tri) (r d : V3) : Prop :=
  τ.det d ≠ 0 → ∀ x, x = τ.u r d ∨ x = τ.v r d ∨ x = 1 - τ.u r d - τ.v r d → 0 < x ∨ x < -(1 / 10 ^ 10)

/-- The ray leaves the unit cell through one side, not through a corner. -/
def OneExit (r d : V3) (Lx Ly : ℝ) : Prop :=
  ∃ i < 4, ∃ t, (exitTs r d Lx Ly)[i]? = some (some t) ∧ ∀ j ≠ i, ∀ t', (exitTs r d Lx Ly)[j]? = some (some t') → t < t'

/-- Nothing is ambiguous in one iteration: no edge is met, facets met at the same place have the same normal, the ray leaves the cell through one side, and is not exactly on the edge of a cell. -/
structure Unambiguous (Lx Ly : ℝ) (w : Draw) (s : Sic) : Prop where
  edges : ∀ τ ∈ w.tris, Clear τ s.r s.d
  nearest : ∀ τ ∈ w.tris, ∀ τ' ∈ w.tris, τ.hit s.r s.d = true → τ'.hit s.r s.d = true → τ.t s.r s.d = τ'.t s.r s.d → τ.N = τ'.N
  leave : checkIntersect s.r s.d w.tris = none → s.checked = false → s.i1 ≠ 0 → OneExit s.r s.d Lx Ly
  inside : checkIntersect s.r s.d w.tris = none → s.checked = true → ∀ n : ℤ, s.r.y ≠ n * Ly
  pass : checkIntersect s.r s.d w.tris = none → s.checked = true → (s.side = 1 ∧ s.d.z < 0 ∧ s.r.z > w.zmin) ∨ (s.side = -1 ∧ s.d.z > 0 ∧ s.r.z < w.zmax) →
    OneExit ⟨backInto s.r.x Lx, backInto s.r.y Ly, s.r.z⟩ s.d Lx Ly

/-- Nothing is ambiguous until the ray is finished. -/
def UnambiguousRun (Lx Ly : ℝ) (d0 : V3) : List Draw → Sic → Prop
  | [], _ => True
  | w :: ws, s => Unambiguous Lx Ly w s ∧ match sicStep Lx Ly d0 w s with
    | .inl s' => UnambiguousRun Lx Ly d0 ws s'
    | .inr _ => True

/-- The state of the ray when `single_interface_check` starts, for light from `(θ, φ)` aimed at `(x, y)`. -/
noncomputable def launchState (c : Texture) (θ φ x y : ℝ) : Sic :=
  sicStart (wrapRay (launchA x y (rA0 c.h θ φ)) (launchD x y (rA0 c.h θ φ)) c.Lx c.Ly c.zcov) (launchD x y (rA0 c.h θ φ)) 1 0

/-- The ray is not aimed exactly at an edge of a unit cell, and nothing is ambiguous on its way. -/
def UnambiguousRay (c : Texture) (θ φ x y : ℝ) (ws : List Draw) : Prop :=
  (∀ n : ℤ, (launchA x y (rA0 c.h θ φ)).y + (launchD x y (rA0 c.h θ φ)).y * (c.zcov - (launchA x y (rA0 c.h θ φ)).z) / (launchD x y (rA0 c.h θ φ)).z ≠ n * c.Ly) ∧
  UnambiguousRun c.Lx c.Ly (launchD x y (rA0 c.h θ φ)) ws (launchState c θ φ x y)

/-- The surface turned by 90°. -/
def turnCell (c : Texture) : Texture := { Lx := c.Ly, Ly := c.Lx, zcov := c.zcov, h := c.h }

/-- A traced ray: where the light comes from, the point it is aimed at, what is drawn on its way, and the result. -/
structure Shot where
  θ : ℝ
  φ : ℝ
  x : ℝ
  y : ℝ
  ws : List Draw
  res : SicRes

/-- What `RT` sees of it. -/
noncomputable def Shot.ray (s : Shot) : RTRay := { θin := s.θ, φin := s.φ, out := s.res.rayOut }

/-- The result is that of tracing the ray on the surface. -/
def Shot.traced (c : Texture) (s : Shot) : Prop := traceInterface c s.θ s.φ s.x s.y s.ws = some s.res

/-- Light from an azimuth larger by 90°, aimed at the turned point, with the turned draws. -/
structure TurnedShot (Ly : ℝ) (s s' : Shot) : Prop where
  θ : s'.θ = s.θ
  φ : s'.φ = s.φ + Real.pi / 2
  x : s'.x = Ly - s.y
  y : s'.y = s.x
  ws : List.Forall₂ (TurnedDraw Ly) s.ws s'.ws

end Rayflare.Spec
