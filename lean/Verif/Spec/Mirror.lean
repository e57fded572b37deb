import Verif.Spec.Turn
import Verif.Spec.TraceStack

/-!
# Specification: mirror images, and whole stacks turned or mirrored
-/

namespace Rayflare.Spec

open Rayflare.Model Rayflare.Np

/-- A point or direction mirrored in the vertical plane `x = y`: the unit cell `[0, Lx] × [0, Ly]` becomes `[0, Ly] × [0, Lx]`. -/
def swapXY (v : V3) : V3 := ⟨v.y, v.x, v.z⟩

/-- The mirror image of a facet.  Its corners are listed the other way round, so that the normal points to the same side of the surface, and from any one on. -/
def MirroredTri (τ τ' : Tri) : Prop :=
  (τ'.P0 = swapXY τ.P0 ∧ τ'.P1 = swapXY τ.P2 ∧ τ'.P2 = swapXY τ.P1) ∨
  (τ'.P0 = swapXY τ.P2 ∧ τ'.P1 = swapXY τ.P1 ∧ τ'.P2 = swapXY τ.P0) ∨
  (τ'.P0 = swapXY τ.P1 ∧ τ'.P1 = swapXY τ.P0 ∧ τ'.P2 = swapXY τ.P2)

/-- The mirror image of a surface: the mirror images of the facets, in any order. -/
def MirroredSurface (tris tris' : List Tri) : Prop :=
  (∀ τ ∈ tris, ∃ τ' ∈ tris', MirroredTri τ τ') ∧ (∀ τ' ∈ tris', ∃ τ ∈ tris, MirroredTri τ τ')

/-- One iteration on the mirror image: the same random number at the facet, and the mirrored random position for a ray that missed. -/
structure MirroredDraw (w w' : Draw) : Prop where
  tris : MirroredSurface w.tris w'.tris
  zmin : w'.zmin = w.zmin
  zmax : w'.zmax = w.zmax
  rx : w'.rx = w.ry
  ry : w'.ry = w.rx
  dec : w'.dec = w.dec ∧ Optical w.dec

/-- What happens to a ray, mirrored. -/
def mirrorRes : SicRes → SicRes
  | .out res ot r d θ n side => .out res ot (swapXY r) (swapXY d) θ n side
  | .absorbed A r d θ n side => .absorbed A (swapXY r) (swapXY d) θ n side
  | .gaveUp ot r d n side => .gaveUp ot (swapXY r) (swapXY d) n side
  | .lost res ot d side => .lost res ot (swapXY d) side

/-! ## Whole stacks -/

/-- Every surface of the structure turned by 90° or mirrored: the sides of the unit cells change places. -/
def swapCells (c : RTStack) : RTStack := { c with cells := c.cells.map fun cell => { cell with Lx := cell.Ly, Ly := cell.Lx } }

/-- What is drawn at a surface turned by 90°: the same random numbers at the facets, and the random positions turned with the surface. -/
structure TurnedIter (Ly : ℝ) (w w' : IterDraw) : Prop where
  tris : TurnedSurface Ly w.tris w'.tris
  zmin : w'.zmin = w.zmin
  zmax : w'.zmax = w.zmax
  rx : w'.rx = 1 - w.ry
  ry : w'.ry = w.rx
  rnd : w'.rnd = w.rnd

structure TurnedMeeting (Ly : ℝ) (m m' : Meeting) : Prop where
  u : m'.u = 1 - m.v
  v : m'.v = m.u
  ws : List.Forall₂ (TurnedIter Ly) m.ws m'.ws

/-- What is drawn at the mirror image of a surface. -/
structure MirroredIter (w w' : IterDraw) : Prop where
  tris : MirroredSurface w.tris w'.tris
  zmin : w'.zmin = w.zmin
  zmax : w'.zmax = w.zmax
  rx : w'.rx = w.ry
  ry : w'.ry = w.rx
  rnd : w'.rnd = w.rnd

structure MirroredMeeting (m m' : Meeting) : Prop where
  u : m'.u = m.v
  v : m'.v = m.u
  ws : List.Forall₂ MirroredIter m.ws m'.ws

/-- Nothing is ambiguous when the ray meets this surface: it is not exactly parallel to the layers, not aimed exactly at an edge of a unit cell, and meets no edge of a facet. -/
def UnambiguousMeeting (c : RTStack) (cell : Cell) (tab : Option Table) (ni nj : ℂ) (m : Meeting) (s : StackRay) : Prop :=
  (c.randomised cell m s).2.z ≠ 0 ∧ ∃ r, (c.randomised cell m s).1 = some r ∧
    (∀ n : ℤ, r.y + (c.randomised cell m s).2.y * (cell.zcov - r.z) / (c.randomised cell m s).2.z ≠ n * cell.Ly) ∧
    UnambiguousRun cell.Lx cell.Ly (c.randomised cell m s).2 (m.ws.map fun w => w.draw c.asin c.pol tab ni nj)
      (sicStart (wrapRay r (c.randomised cell m s).2 cell.Lx cell.Ly cell.zcov) (c.randomised cell m s).2 s.ray.dir 0)

/-- Nothing is ambiguous until the ray is finished. -/
def UnambiguousStack (c : RTStack) : List Meeting → StackRay → Prop
  | [], _ => True
  | m :: ms, s =>
    (s.ray.stop = false → ∀ cell tab ni nj, pyGet c.cells s.ray.surf = some cell → pyGet c.tabs s.ray.surf = some tab →
      pyGet c.nks (if s.ray.dir = 1 then s.ray.mat else s.ray.mat - 1) = some ni → pyGet c.nks (if s.ray.dir = 1 then s.ray.mat + 1 else s.ray.mat) = some nj →
      UnambiguousMeeting c cell tab ni nj m s) ∧
    match c.step m s with
    | .next s' => UnambiguousStack c ms s'
    | _ => True

/-- The state of a ray in a stack with position and direction moved; what has been recorded of it is the same. -/
def moveRay (pt dir : V3 → V3) (s : StackRay) : StackRay := { ray := s.ray, r := s.r.map pt, d := dir s.d }

/-- The result of tracing with position and direction moved. -/
def moveStackRes (pt dir : V3 → V3) : StackRes → StackRes
  | .next s => .next (moveRay pt dir s)
  | .indexError => .indexError
  | .running => .running

end Rayflare.Spec
