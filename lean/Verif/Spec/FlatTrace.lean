import Verif.Spec.StackBranching
import Verif.Spec.Geometry
import Verif.Spec.Planar

/-!
# Specification: a slab between two flat surfaces, for ray tracing
-/

namespace Rayflare.Spec

open Rayflare.Np Rayflare.Model

/-- A flat surface at height `z` that covers the unit cell: horizontal triangles with corners counter-clockwise seen from above. -/
structure FlatSurface (tris : List Tri) (Lx Ly z : ℝ) : Prop where
  level : ∀ τ ∈ tris, τ.P0.z = z ∧ τ.P1.z = z ∧ τ.P2.z = z
  up : ∀ τ ∈ tris, 0 < τ.crossP.z
  cover : ∀ p : V3, InCell Lx Ly p → p.z = z → ∃ τ ∈ tris, InTri 0 τ p

/-- What a facet does with light at the angle `θ` to its normal (reflected, transmitted, absorbed in the layers of the coating): for a bare surface what the Fresnel equations say, for a coated one what its table says. `ni` is the medium above the surface, `nj` the one below; `side = 1`: light
from above. -/
noncomputable def faceOf (asin : ℂ → ℂ) (pol : Pol) (tab : Option Table) (ni nj : ℂ) (side : ℤ) (θ : ℝ) : Face ℕ := match tab with
  | none =>
    let n0 := if side = 1 then ni else nj
    let n1 := if side = 1 then nj else ni
    let R := min 1 (decideR n0 n1 θ (asin (n0 / n1 * Complex.sin (θ : ℂ))) pol)
    ⟨R, 1 - R, fun _ => 0⟩
  | some tab => ⟨(tab side θ).1, (tab side θ).2.1, fun l => (tab side θ).2.2.getD l 0⟩

/-- Sine of the angle of refraction (at least 1: nothing is transmitted); for coated surfaces the code uses the complex refractive indices. `n0` is the medium the light comes from. -/
noncomputable def sinRefr (coated : Bool) (n0 n1 : ℂ) (θ : ℝ) : ℝ := if coated then ‖n0 / n1‖ * Real.sin θ else n0.re / n1.re * Real.sin θ

/-- Angle of refraction: Snell's law with the real parts of the refractive indices; for coated surfaces the direction of the real part of the refracted vector (the same as Snell's law if the refractive indices are real, `refrOf_real`). -/
noncomputable def refrOf (coated : Bool) (n0 n1 : ℂ) (θ : ℝ) : ℝ :=
  if coated then Real.arctan (|(n0 / n1).re| * Real.sin θ / Real.sqrt (1 - (‖n0 / n1‖ * Real.sin θ) ^ 2)) else Real.arcsin (n0.re / n1.re * Real.sin θ)

/-- A slab in ray tracing: three media (refractive indices `n0`, `n1`, `n2`) with two surfaces between them, `cell0` with lookup table `t0` and, further down, `cell1` with `t1`; periodic boundary conditions. -/
structure RTSlab (c : RTStack) (cell0 cell1 : Cell) (t0 t1 : Option Table) (n0 n1 n2 : ℂ) : Prop where
  periodic : c.periodic = true
  three : c.S.widths.length = 3
  cells : c.cells = [cell0, cell1]
  tabs : c.tabs = [t0, t1]
  nks : c.nks = [n0, n1, n2]
  size0 : 0 < cell0.Lx ∧ 0 < cell0.Ly ∧ cell0.zmin ≤ cell0.zmax
  size1 : 0 < cell1.Lx ∧ 0 < cell1.Ly ∧ cell1.zmin ≤ cell1.zmax
  apart : cell1.zcov + 1 / 10 ^ 9 < cell0.zcov
  re : 0 < n0.re ∧ 0 < n1.re ∧ 0 < n2.re
  width : 0 ≤ c.S.widths.getD 1 0
  alpha : 0 ≤ c.S.alphas.getD 1 0
  thresh : 0 ≤ c.S.thresh

/-- Both surfaces are flat, whenever the ray meets them. -/
def AllFlat (cell0 cell1 : Cell) (V : ℕ → Visit) : Prop :=
  ∀ i j, FlatSurface ((V i).geo 0 j).tris cell0.Lx cell0.Ly cell0.zcov ∧ FlatSurface ((V i).geo 1 j).tris cell1.Lx cell1.Ly cell1.zcov

/-- Tables in which every entry conserves energy. -/
def SumToOne (tab : Option Table) : Prop := ∀ t, tab = some t → ∀ side θ,
  0 ≤ (t side θ).1 ∧ 0 ≤ (t side θ).2.1 ∧ (∀ a ∈ (t side θ).2.2, 0 ≤ a) ∧ (t side θ).1 + (t side θ).2.1 + (t side θ).2.2.sum = 1

/-- The textbook slab for light that comes from above at the angle `θ`: inside it travels at the angle of refraction. -/
noncomputable def slabOf (c : RTStack) (t0 t1 : Option Table) (n0 n1 n2 : ℂ) (θ : ℝ) : Slab ℕ ℕ :=
  let θ1 := refrOf t0.isSome n0 n1 θ
  { front := faceOf c.asin c.pol t0 n0 n1 1 θ
    rear := faceOf c.asin c.pol t1 n1 n2 1 θ1
    back := faceOf c.asin c.pol t0 n0 n1 (-1) θ1
    pass := Real.exp (-(c.S.alphas.getD 1 0 * c.S.widths.getD 1 0 / Real.cos θ1)) }

end Rayflare.Spec
