import Verif.Model.TmmDepths

/-!
# Model of `make_absorption_function` for `tmm_structure` and `rcwa_structure` objects, and of `tmm_structure.set_widths`
(rayflare/utilities.py 46-55 and 260-265; transfer_matrix_method/tmm.py 382-398, 723-730; rigorous_coupled_wave_analysis/rcwa.py 1051, 1188-1200, 1539-1548)

One wavelength. Widths of the layers in nm, `width` in m.
-/

namespace Rayflare.Model

open Rayflare.Np

/-- A `tmm_structure`: the widths in its `layer_stack` (nm) and the attribute `width` (m). An `rcwa_structure` has the same two attributes. -/
structure PlanarStack where
  widths : List ℝ
  width : ℝ

/-- `__init__`, tmm.py 396-398; `update_oc`, rcwa.py 1050-1051. -/
noncomputable def PlanarStack.new (widths : List ℝ) : PlanarStack := ⟨widths, widths.sum / 10 ^ 9⟩

/-- `set_widths`, tmm.py 728-730, rcwa.py 1539-1548: the attribute `width` is not touched. -/
def PlanarStack.setWidths (s : PlanarStack) (w : List ℝ) : PlanarStack := { s with widths := w }

/-- `result["profile"]` of `calculate_profile`: the absorption density `A z` (per nm) at the depths of `calcDist`. `layers = none` for all layers (always so for an `rcwa_structure`). `d` is `depth_spacing` in m. -/
noncomputable def PlanarStack.profile (s : PlanarStack) (A : ℝ → ℝ) (d : ℝ) (layers : Option (List ℕ)) : Option (List ℝ) :=
  (calcDist s.widths (d * 10 ^ 9) layers).map fun dist => dist.map A

/-- `positions`, utilities.py 262 (m). -/
noncomputable def PlanarStack.positions (s : PlanarStack) (d : ℝ) : List ℝ := (arange (s.width * 10 ^ 6) (d * 10 ^ 6)).map fun x => x / 10 ^ 6

/-- Sample points (m) and values (per m) of the returned function, utilities.py 262-265; `none` is the ValueError of `interp1d` for lists of different length. -/
noncomputable def PlanarStack.absorptionFn (s : PlanarStack) (d : ℝ) (profile : List ℝ) : Option (List (ℝ × ℝ)) :=
  if (s.positions d).length = profile.length then some ((s.positions d).zip (profile.map fun v => 10 ^ 9 * v)) else none

end Rayflare.Model
