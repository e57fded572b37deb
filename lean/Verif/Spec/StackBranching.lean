import Verif.Spec.Branching
import Verif.Spec.TraceStack

/-!
# Specification: following all branches of a ray through a stack of textured surfaces
-/

namespace Rayflare.Spec

open Rayflare.Np Rayflare.Model

/-- What can happen at a facet of a surface without or with a lookup table.  The Fresnel reflectance is capped at one. -/
noncomputable def facetLaw (asin : ℂ → ℂ) (pol : Pol) (tab : Option Table) (ni nj : ℂ) : FacetLaw := match tab with
  | none => fun θ d N side =>
    let n0 := if side = 1 then ni else nj
    let n1 := if side = 1 then nj else ni
    let R := min 1 (decideR n0 n1 θ (asin (n0 / n1 * Complex.sin ((|θ| : ℝ) : ℂ))) pol)
    [(R, normalise (reflectDir d N), side, none), (1 - R, normalise (refractDir (n0.re / n1.re) d N), -side, none)]
  | some tab => tmmLaw ni nj tab

/-- Mean over all branches at a surface that is not repeated periodically. -/
noncomputable def branchesCell (d0 : V3) (law : FacetLaw) (g : Option SicRes → ℝ) : List Draw → Scc → ℝ
  | [], _ => g none
  | w :: ws, s => match checkIntersect s.r s.d w.tris with
    | none => g (some (.out (finalRes d0 s.d) (polar s.d) s.r s.d (some s.θ) s.nInt s.side))
    | some (p, θ, N) => ((law θ s.d ((s.side : ℝ) • N) s.side).map fun b => b.1 * match b.2 with
      | (d, side, some A) => g (some (.absorbed A (p + (1 / 10 ^ 9 : ℝ) • d) d θ (s.nInt + 1) side))
      | (d, side, none) => branchesCell d0 law g ws { r := p + (1 / 10 ^ 9 : ℝ) • d, d := d, side := side, nInt := s.nInt + 1, θ := θ }).sum

/-- Where the ray meets a surface for the `i`-th time: the two random numbers for its position there, and, depending on the surface it meets, the surface as it is at each iteration. -/
structure Visit where
  u : ℝ
  v : ℝ
  geo : ℤ → ℕ → IterDraw

/-- The surfaces of the first `n` iterations. -/
def Visit.surfaces (V : Visit) (n : ℕ) (k : ℤ) : List IterDraw := List.ofFn fun i : Fin n => V.geo k i

/-- Mean over all branches at one surface of the stack: as `RTStack.meet`, but going on in each possible way at each facet. -/
noncomputable def branchesMeet (c : RTStack) (cell : Cell) (tab : Option Table) (ni nj : ℂ) (g : Option SicRes → ℝ) (m : Meeting) (s : StackRay) : ℝ :=
  let rd := c.randomised cell m s
  let d := rd.2
  let law := facetLaw c.asin c.pol tab ni nj
  let ws := m.ws.map fun w => w.draw c.asin c.pol tab ni nj
  if c.periodic then
    match wrapOpt rd.1 d cell with
    | some r => branches cell.Lx cell.Ly d law g ws (sicStart r d s.ray.dir 0)
    | none => match ws with
      | [] => g none
      | w :: ws => branches cell.Lx cell.Ly d law g ws (sicStartNaN cell.Lx cell.Ly w d s.ray.dir)
  else
    match rd.1 with
    | some r => branchesCell d law g ws { r := r, d := d, side := s.ray.dir, nInt := 0, θ := 0 }
    | none => match ws with
      | [] => g none
      | _ :: _ => g (some (.lost (finalRes d d) (polar d) d s.ray.dir))

/-- Mean over all branches of a ray through the stack, for the first `K` surfaces it meets (`n` iterations at each). -/
noncomputable def branchesStack (c : RTStack) (n : ℕ) (g : StackRes → ℝ) : ℕ → (ℕ → Visit) → StackRay → ℝ
  | 0, _, s => g (.next s)
  | K + 1, V, s =>
    if s.ray.stop then g (.next s) else
    match pyGet c.cells s.ray.surf, pyGet c.tabs s.ray.surf, pyGet c.nks (if s.ray.dir = 1 then s.ray.mat else s.ray.mat - 1),
        pyGet c.nks (if s.ray.dir = 1 then s.ray.mat + 1 else s.ray.mat) with
    | some cell, some tab, some ni, some nj =>
      branchesMeet c cell tab ni nj (fun o => match c.advance s o with
        | .next s' => branchesStack c n g K (fun i => V (i + 1)) s'
        | e => g e) ⟨(V 0).u, (V 0).v, (V 0).surfaces n s.ray.surf⟩ s
    | _, _, _, _ => g .indexError

end Rayflare.Spec
