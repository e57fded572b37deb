import Verif.Model.Absorption

/-!
# Model of the depths of RCWA profiles (rayflare/rigorous_coupled_wave_analysis/rcwa.py 120-176, 571-589 and 668-672)

Widths and depths in nm, layers numbered from 1 in the order of the list of layers. The absorption density the solver gives for the stack in hand at depth `z` below its first layer is a parameter `A z`
(`rcwa_position_resolved` in the layer and at the depth in it found by `find_in_structure_with_inf`).
-/

namespace Rayflare.Model

open Rayflare.Np

/-- `prof_layers` for rear incidence, rcwa.py 132-133: `np.sort(len(layers) - np.array(prof_layers) + 1)`. -/
def rcwaRearLayers (n : ℕ) (prof : List ℕ) : List ℕ := (prof.map fun p => n - p + 1).mergeSort (fun a b => decide (a ≤ b))

/-- `dist` for front incidence, rcwa.py 157-173. -/
noncomputable def rcwaFrontDist (widths : List ℝ) (d : ℝ) (prof : List ℕ) : Option (List ℝ) := storedDepths widths d prof

/-- `dist` for rear incidence, rcwa.py 126-133, 149-173: the depths in the reversed stack. -/
noncomputable def rcwaRearDist (widths : List ℝ) (d : ℝ) (prof : List ℕ) : Option (List ℝ) := storedDepths widths.reverse d (rcwaRearLayers widths.length prof)

/-- The column of `mat_prof` for one angle of incidence, front, rcwa.py 574-587. -/
noncomputable def rcwaFrontProfile (A : ℝ → ℝ) (widths : List ℝ) (d : ℝ) (prof : List ℕ) : Option (List ℝ) :=
  (rcwaFrontDist widths d prof).map fun dist => dist.map A

/-- The same for rear incidence, rcwa.py 574-587 and `np.flip(mat_prof, 0)` 672; here `A` belongs to the reversed stack. -/
noncomputable def rcwaRearProfile (A : ℝ → ℝ) (widths : List ℝ) (d : ℝ) (prof : List ℕ) : Option (List ℝ) :=
  (rcwaRearDist widths d prof).map fun dist => (dist.map A).reverse

/-- The profile dataset of `RCWA` for front incidence, as (coordinate `z`, value) in storage order: rcwa.py 281-289. -/
noncomputable def rcwaFrontLabelled (A : ℝ → ℝ) (widths : List ℝ) (d : ℝ) (prof : List ℕ) : Option (List (ℝ × ℝ)) :=
  (rcwaFrontDist widths d prof).bind fun dist => (rcwaFrontProfile A widths d prof).map fun p => dist.zip p

/-- The same for rear incidence: the values have been flipped (line 672), the coordinate has not. -/
noncomputable def rcwaRearLabelled (A : ℝ → ℝ) (widths : List ℝ) (d : ℝ) (prof : List ℕ) : Option (List (ℝ × ℝ)) :=
  (rcwaRearDist widths d prof).bind fun dist => (rcwaRearProfile A widths d prof).map fun p => dist.zip p

/-- `rcwa_position_resolved`, rcwa.py 876-884; `flux z` is the sum of forward and backward power flux at depth `z` of the layer. -/
noncomputable def positionResolved (flux : ℝ → ℝ) (depth incpf : ℝ) : ℝ :=
  (flux (depth - 1e-9) - flux (depth + 1e-9)) / (2 * 1e-9 * incpf)

end Rayflare.Model
