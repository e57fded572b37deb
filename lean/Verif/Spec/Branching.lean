import Verif.Model.TraceSurface

/-!
# Specification: following all branches of a ray with their probabilities, instead of drawing random numbers
-/

namespace Rayflare.Spec

open Rayflare.Model

/-- What can happen at a facet (as a function of local angle, direction, normal and side): new direction, new side, absorption per layer if absorbed; each with its probability. -/
abbrev FacetLaw := ℝ → V3 → V3 → ℤ → List (ℝ × (V3 × ℤ × Option (List ℝ)))

/-- Bare interface between two media: reflection with the reflectance, refraction with one minus it. -/
noncomputable def fresnelLaw (nAbove nBelow : ℂ) (arc : ℤ → ℝ → ℂ) (pol : Pol) : FacetLaw := fun θ d N side =>
  let n0 := if side = 1 then nAbove else nBelow
  let n1 := if side = 1 then nBelow else nAbove
  let R := decideR n0 n1 θ (arc side θ) pol
  [(R, normalise (reflectDir d N), side, none), (1 - R, normalise (refractDir (n0.re / n1.re) d N), -side, none)]

/-- Coated interface with tabulated `tab side |θ| = (R, T, A_per_layer)`: reflection with `R`, transmission with `T`, absorption with the rest. -/
noncomputable def tmmLaw (nAbove nBelow : ℂ) (tab : ℤ → ℝ → ℝ × ℝ × List ℝ) : FacetLaw := fun θ d N side =>
  let n0 := if side = 1 then nAbove else nBelow
  let n1 := if side = 1 then nBelow else nAbove
  let e := tab side |θ|
  [(e.1, normalise (reflectDir d N), side, none), (e.2.1, normalise (refractDirC (n0 / n1) d N), -side, none), (1 - e.1 - e.2.1, d, side, some e.2.2)]

/-- Mean of `g` over all branches: at a facet the ray goes on in each possible way, weighted with the probability of that way; between facets it travels as in
`single_interface_check`.  `g none` counts for rays still travelling when the list of (possibly refreshed) surfaces is used up. -/
noncomputable def branches (Lx Ly : ℝ) (d0 : V3) (law : FacetLaw) (g : Option SicRes → ℝ) : List Draw → Sic → ℝ
  | [], _ => g none
  | w :: ws, s => match checkIntersect s.r s.d w.tris with
    | none => match sicStep Lx Ly d0 w s with
      | .inl s' => branches Lx Ly d0 law g ws s'
      | .inr res => g (some res)
    | some (p, θ, N) => ((law θ s.d ((s.side : ℝ) • N) s.side).map fun b => b.1 * match b.2 with
      | (d, side, some A) => g (some (.absorbed A (p + (1 / 10 ^ 9 : ℝ) • d) d θ (s.nInt + 1) side))
      | (d, side, none) => branches Lx Ly d0 law g ws
          { s with r := p + (1 / 10 ^ 9 : ℝ) • d, d := d, side := side, checked := false, i1 := s.i1 + 1, nInt := s.nInt + 1, θ := some θ }).sum

/-- The same for a ray launched from `(θ, φ)` at `(x, y)` on a texture (started as in `single_ray_interface`, rt.py 1779-1853). -/
noncomputable def branchesInterface (c : Texture) (law : FacetLaw) (g : Option SicRes → ℝ) (θ φ x y : ℝ) (ws : List Draw) : ℝ :=
  let ra0 := rA0 c.h θ φ
  let d := launchD x y ra0
  branches c.Lx c.Ly d law g ws (sicStart (wrapRay (launchA x y ra0) d c.Lx c.Ly c.zcov) d 1 0)

end Rayflare.Spec
