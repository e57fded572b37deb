import Verif.Np
import Mathlib.Data.Real.Basic
import Mathlib.Algebra.Order.Floor.Semiring
import Mathlib.Algebra.Order.Archimedean.Real.Basic

/-!
# Model of `make_absorption_function` (utilities.py 16-265)

One row (one wavelength) of the arrays is modelled; the code treats all rows alike. Lengths are in the units the code uses at that point (nm in interfaces, m or μm in bulk layers).
-/

namespace Rayflare.Model

open Rayflare.Np

/-- `layer_start`, utilities.py 87, 108-110, 193-199: `np.insert(np.cumsum(np.insert(widths, 0, 0)), 0, 0)`. -/
def layerStart (widths : List ℝ) : List ℝ := 0 :: cumsum (0 :: widths)

/-- `layer_end`, utilities.py 88, 111, 201-203. -/
def layerEnd (widths : List ℝ) : List ℝ := cumsum (0 :: widths)

open Classical in
/-- `np.logical_and(positions >= start, positions < end)`, utilities.py 97-99, 119-121, 206-209, 235-238. -/
noncomputable def between (a b z : ℝ) : Bool := decide (a ≤ z) && decide (z < b)

/-- `cur[:, mask] = vals` for as many values as there are places. -/
def scatter : List ℝ → List Bool → List ℝ → List ℝ
  | _ :: cs, true :: ms, v :: vs => v :: scatter cs ms vs
  | c :: cs, false :: ms, vs => c :: scatter cs ms vs
  | cs, _, _ => cs

/-- `cur[:, mask] = vals`: a single column is broadcast, any other wrong number of columns is a ValueError. -/
def assignMask (cur : List ℝ) (mask : List Bool) (vals : List ℝ) : Option (List ℝ) :=
  if vals.length = mask.count true then some (scatter cur mask vals)
  else if vals.length = 1 then some (scatter cur mask (List.replicate (mask.count true) (vals.headD 0)))
  else none

/-- One pass of the loop over `prof_layers`, utilities.py 96-107, 118-129, 205-219: state is the array and `index_offset`; `none` is IndexError or ValueError. -/
noncomputable def fillStep (positions widths stored : List ℝ) (st : List ℝ × ℕ) (l : ℕ) : Option (List ℝ × ℕ) :=
  (layerStart widths)[l]?.bind fun a =>
  (layerEnd widths)[l]?.bind fun b =>
  let mask := positions.map (between a b)
  let n := mask.count true
  (assignMask st.1 mask (((stored.drop st.2).take n).map fun v => 10 ^ 9 * v)).map fun cur => (cur, st.2 + n)

/-- The whole loop, starting from zeros, utilities.py 90-107. `prof = none` is `prof_layers is None`. -/
noncomputable def fillProfile (positions widths : List ℝ) (prof : Option (List ℕ)) (stored : List ℝ) : Option (List ℝ) :=
  match prof with
  | none => some (positions.map fun _ => 0)
  | some ls => (ls.foldlM (fillStep positions widths stored) (positions.map fun _ => (0 : ℝ), 0)).map Prod.fst

/-- The part of the structure that is used: `structure[0]`, `structure[1]`, `structure[2]`. Widths in m. -/
structure Sandwich where
  front : List ℝ
  frontProf : Option (List ℕ)
  bulk : ℝ
  back : List ℝ
  backProf : Option (List ℕ)

/-- `np.arange(0, w - 1e-12, d)`, utilities.py 82-84. -/
noncomputable def posGrid (w d : ℝ) : List ℝ := arange (w - 1 / 10 ^ 12) d

/-- The matrix-method branch of `make_absorption_function`, utilities.py 69-149: positions (m) and absorption (m⁻¹) at one wavelength. Without a bulk profile the one-dimensional array of zeros cannot be stacked beside
the two-dimensional ones (ValueError, `none`). -/
noncomputable def absorptionMatrix (s : Sandwich) (dInt dBulk : ℝ) (bulkProfile : Bool) (storedFront storedBulk storedBack : List ℝ) : Option (List ℝ × List ℝ) :=
  let wf := s.front.map fun w => w * 10 ^ 9
  let wb := s.back.map fun w => w * 10 ^ 9
  let pf := posGrid wf.sum (dInt * 10 ^ 9)
  let pbulk := posGrid (s.bulk * 10 ^ 6) (dBulk * 10 ^ 6)
  let pb := posGrid wb.sum (dInt * 10 ^ 9)
  (fillProfile pf wf s.frontProf storedFront).bind fun f =>
  (fillProfile pb wb s.backProf storedBack).bind fun b =>
  if bulkProfile = false then none else
  some (pf.map (fun z => z / 10 ^ 9) ++ pbulk.map (fun z => z / 10 ^ 6 + wf.sum / 10 ^ 9) ++ pb.map (fun z => z / 10 ^ 9 + wf.sum / 10 ^ 9 + s.bulk * 10 ^ 6 / 10 ^ 6),
    f ++ storedBulk.take pbulk.length ++ b)

/-- The depths at which `TMM` stores the profile of the layers `prof` of an interface, in the order of the columns: tmm.py 166-185 (`dist`); the same code is in rcwa.py 157-176. -/
noncomputable def storedDepths (widths : List ℝ) (d : ℝ) (prof : List ℕ) : Option (List ℝ) :=
  (prof.mapM fun l => (layerStart widths)[l]?.bind fun a => (layerEnd widths)[l]?.map fun b => (arange widths.sum d).filter (between a b)).map List.flatten

/-- The depths at which ray tracing stores the profile of the layers `prof`, rt.py 1332-1337 with `assign_coords` 1284-1286 (and 1108-1126 for `rt_structure`): each layer is sampled from its own top. The columns of
different layers are joined on the union of their depths, so they are in order of depth whatever the order of `prof`. Simplification: `prof` without repetitions. -/
noncomputable def storedDepthsRT (widths : List ℝ) (d : ℝ) (prof : List ℕ) : List ℝ :=
  (prof.mergeSort (fun a b => decide (a ≤ b))).flatMap fun l => (arange (widths.getD (l - 1) 0) d).map fun z => z + (widths.take (l - 1)).sum

/-! ## Ray-traced stacks (`rt_structure`) -/

/-- The bulk layer `i` in the output for an `rt_structure` with TMM interfaces, utilities.py 228-254. `widths` in m, `top` is `cumulative_width`; result: positions (m), absorption. `none`: `np.min` of an empty array. -/
noncomputable def bulkSegment (widths : List ℝ) (d : ℝ) (stored : List ℝ) (offset i : ℕ) (top : ℝ) : Option (List ℝ × List ℝ × ℕ) :=
  let grid := (arange (widths.sum * 10 ^ 6) (d * 10 ^ 6)).map fun z => z / 10 ^ 6
  (layerStart widths)[i + 1]?.bind fun a =>
  (layerEnd widths)[i + 1]?.bind fun b =>
  let here := grid.filter (between a b)
  let n := here.length
  match here with
  | [] => none
  | z0 :: _ => some (here.map (fun z => z - z0 + top), ((stored.drop offset).take n).map (fun v => 10 ^ 9 * v), offset + n)

end Rayflare.Model
