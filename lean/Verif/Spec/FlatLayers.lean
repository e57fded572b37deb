import Verif.Spec.FlatTrace

/-!
# Specification: light in a stack of any number of flat surfaces

Incoherent: fractions of the light are added up along all paths.
-/

namespace Rayflare.Spec

open Rayflare.Model

/-- `m` flat surfaces, numbered from the top, as seen by light from above and from below, and the fraction of the light that survives a passage through layer `i` (between surfaces `i - 1` and `i`). -/
structure FlatStack where
  m : ℕ
  above : ℕ → Face ℕ
  below : ℕ → Face ℕ
  pass : ℕ → ℝ

/-- What may be asked about the light: the fraction reflected, transmitted, absorbed in layer `i`, or absorbed in layer `l` of the coating of surface `j`. -/
inductive Quantity
  | R
  | T
  | A (i : ℕ)
  | Aint (j l : ℕ)

namespace Quantity

/-- Does light that leaves upwards count? -/
def onReflect : Quantity → ℝ
  | R => 1
  | _ => 0

/-- Does light that leaves downwards count? -/
def onTransmit : Quantity → ℝ
  | T => 1
  | _ => 0

/-- Does light absorbed in layer `i` count? -/
def inLayer : Quantity → ℕ → ℝ
  | A i', i => if i = i' then 1 else 0
  | _, _ => 0

/-- The fraction that counts of the light that meets surface `j` and is absorbed there. -/
def atSurface : Quantity → ℕ → Face ℕ → ℝ
  | Aint j' l, j, f => if j = j' then f.abs l else 0
  | _, _, _ => 0

/-- The number `rt_structure.calculate` returns for the quantity. -/
noncomputable def result : Quantity → List Ray → ℝ
  | R, rays => resR rays
  | T, rays => resT rays
  | A i, rays => resA rays i
  | Aint j l, rays => resAint rays j l

end Quantity

namespace FlatStack
variable (F : FlatStack) (q : Quantity)

/-- Light that sets out upwards in medium `i`: it leaves, or part of it is absorbed in the layer and the rest meets the surface above. -/
noncomputable def upwards (xU : ℕ → ℝ) (i : ℕ) : ℝ := if i = 0 then q.onReflect else (1 - F.pass i) * q.inLayer i + F.pass i * xU (i - 1)

/-- Light that sets out downwards in medium `i`. -/
noncomputable def downwards (xD : ℕ → ℝ) (i : ℕ) : ℝ := if i = F.m then q.onTransmit else (1 - F.pass i) * q.inLayer i + F.pass i * xD i

/-- The balance of light in the stack.  `xD j` (`xU j`) is the fraction that finally counts of the light that meets surface `j` from above (from below).  `xD 0` is the answer for light that comes from above. -/
structure Balance (xD xU : ℕ → ℝ) : Prop where
  above : ∀ j, j < F.m → xD j = (F.above j).refl * F.upwards q xU j + (F.above j).trns * F.downwards q xD (j + 1) + q.atSurface j (F.above j)
  below : ∀ j, j + 1 < F.m → xU j = (F.below j).refl * F.downwards q xD (j + 1) + (F.below j).trns * F.upwards q xU j + q.atSurface j (F.below j)
  rangeD : ∀ j, 0 ≤ xD j ∧ xD j ≤ 1
  rangeU : ∀ j, 0 ≤ xU j ∧ xU j ≤ 1

/-- Fraction of the light that meets surface `j` from above (first component) or from below (second component) and has neither left nor been absorbed at a surface within `K` surfaces, if nothing is absorbed in the layers. -/
noncomputable def inside : ℕ → (ℕ → ℝ) × (ℕ → ℝ)
  | 0 => (fun j => if j < F.m then 1 else 0, fun j => if j + 1 < F.m then 1 else 0)
  | K + 1 =>
    (fun j => if j < F.m then (F.above j).refl * (if j = 0 then 0 else (inside K).2 (j - 1)) + (F.above j).trns * (inside K).1 (j + 1) else 0,
     fun j => if j + 1 < F.m then (F.below j).refl * (inside K).1 (j + 1) + (F.below j).trns * (if j = 0 then 0 else (inside K).2 (j - 1)) else 0)

end FlatStack

/-- The flat stack that ray tracing deals with: at surface `j`, between media with refractive indices `nk j` and `nk (j + 1)`, Fresnel's equations or a lookup table; `θ i` is the angle to the vertical in medium `i`. -/
noncomputable def flatStackOf (c : RTStack) (m : ℕ) (tabs : ℕ → Option Table) (nk : ℕ → ℂ) (θ : ℕ → ℝ) : FlatStack where
  m := m
  above j := faceOf c.asin c.pol (tabs j) (nk j) (nk (j + 1)) 1 (θ j)
  below j := faceOf c.asin c.pol (tabs j) (nk j) (nk (j + 1)) (-1) (θ (j + 1))
  pass i := Real.exp (-(c.S.alphas.getD i 0 * c.S.widths.getD i 0 / Real.cos (θ i)))

/-- A stack in ray tracing whose first `m` surfaces are flat, one below the other, with periodic boundary conditions.  Light travels at the angles `θ i` in medium `i`: they are related by refraction at each surface, downwards and upwards.  The surface number `m - 1` is the last one, or no light gets through it
(total reflection); in this case nothing is said about what lies below. -/
structure FlatLayers (c : RTStack) (m : ℕ) (cells : ℕ → Cell) (tabs : ℕ → Option Table) (nk : ℕ → ℂ) (θ : ℕ → ℝ) : Prop where
  periodic : c.periodic = true
  surfaces : 1 ≤ m
  media : m + 1 ≤ c.S.widths.length
  cellsEq : ∀ j, j < m → c.cells[j]? = some (cells j)
  tabsEq : ∀ j, j < m → c.tabs[j]? = some (tabs j)
  nksEq : ∀ i, i ≤ m → c.nks[i]? = some (nk i)
  re : ∀ i, i ≤ m → 0 < (nk i).re
  size : ∀ j, j < m → 0 < (cells j).Lx ∧ 0 < (cells j).Ly ∧ (cells j).zmin ≤ (cells j).zmax
  apart : ∀ j, j + 1 < m → (cells (j + 1)).zcov + 1 / 10 ^ 9 < (cells j).zcov
  width : ∀ i, 0 ≤ c.S.widths.getD i 0
  alpha : ∀ i, 0 ≤ c.S.alphas.getD i 0
  thresh : 0 ≤ c.S.thresh
  conserve : ∀ tab ∈ c.tabs, SumToOne tab
  angle : ∀ i, i < m → 0 ≤ θ i ∧ θ i < Real.pi / 2
  down : ∀ j, j + 1 < m → sinRefr (tabs j).isSome (nk j) (nk (j + 1)) (θ j) < 1 ∧ refrOf (tabs j).isSome (nk j) (nk (j + 1)) (θ j) = θ (j + 1)
  up : ∀ j, j + 1 < m → ((flatStackOf c m tabs nk θ).below j).trns = 0 ∨
    sinRefr (tabs j).isSome (nk (j + 1)) (nk j) (θ (j + 1)) < 1 ∧ (0 < j → refrOf (tabs j).isSome (nk (j + 1)) (nk j) (θ (j + 1)) = θ j)
  last : ((flatStackOf c m tabs nk θ).above (m - 1)).trns = 0 ∨ c.S.widths.length = m + 1 ∧ sinRefr (tabs (m - 1)).isSome (nk (m - 1)) (nk m) (θ (m - 1)) < 1

/-- All these surfaces are flat, whenever the ray meets them. -/
def AllFlatTo (m : ℕ) (cells : ℕ → Cell) (V : ℕ → Visit) : Prop :=
  ∀ i j k, j < m → FlatSurface ((V i).geo j k).tris (cells j).Lx (cells j).Ly (cells j).zcov

end Rayflare.Spec
