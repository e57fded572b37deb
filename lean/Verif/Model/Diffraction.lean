import Verif.Np
import Mathlib.Analysis.SpecialFunctions.Trigonometric.Basic

/-!
# Model of `rayflare/analytic/diffraction.py`
-/

namespace Rayflare.Model

open Rayflare.Np Real

/-- `np.dot` of two plane vectors. -/
def dot2 (a b : ℝ × ℝ) : ℝ := a.1 * b.1 + a.2 * b.2

/-- `np.dot(R, a)` with `R = [[0, -1], [1, 0]]`, diffraction.py 151. -/
def rot2 (a : ℝ × ℝ) : ℝ × ℝ := (-a.2, a.1)

/-- `b1`, diffraction.py 153: `reciprocal a1 a2`; `b2`, line 154: `reciprocal a2 a1`. -/
noncomputable def reciprocal (a b : ℝ × ℝ) : ℝ × ℝ :=
  (2 * π * (rot2 b).1 / dot2 a (rot2 b), 2 * π * (rot2 b).2 / dot2 a (rot2 b))

/-- `kxy` of one diffraction order, diffraction.py 156-164. -/
noncomputable def orderK (size : (ℝ × ℝ) × (ℝ × ℝ)) (o : ℤ × ℤ) : ℝ :=
  let b1 := reciprocal size.1 size.2
  let b2 := reciprocal size.2 size.1
  √((o.1 * b1.1 + o.2 * b2.1) ^ 2 + (o.1 * b1.2 + o.2 * b2.2) ^ 2)

/-- Result of `group_diffraction_orders`. `perOrder w i` is the power of group `i` at wavelength `w`. -/
structure Grouped where
  kxy : List ℝ
  reps : List ℕ
  perOrder : ℕ → ℕ → ℝ
  degeneracy : List ℕ

/-- `group_diffraction_orders`, diffraction.py 125-190, with powers.  `rnd` is `np.round(., 10)`; `power w j` is `per_order[w, j]`. -/
noncomputable def groupOrders (rnd : ℝ → ℝ) (size : (ℝ × ℝ) × (ℝ × ℝ)) (basis : List (ℤ × ℤ)) (power : ℕ → ℕ → ℝ) : Grouped :=
  let ks := basis.map fun o => rnd (orderK size o)
  let u := unique ks
  let indices := ks.map fun k => u.idxOf k
  { kxy := u
    reps := u.map fun k => ks.count k
    perOrder := indices.zipIdx.foldl (fun up p => fun w i => if i = p.1 then up w i + power w p.2 else up w i) (fun _ _ => 0)
    degeneracy := (List.range u.length).map fun i =>
      (unique ((indices.zipIdx.filter fun p => p.1 = i).map fun p => rnd (power 0 p.2))).length }

end Rayflare.Model
