import Verif.Model.Absorption

/-!
# Model of the depths at which TMM profiles are evaluated
(rayflare/transfer_matrix_method/tmm.py 166-191, 270-303 and 420-455)

Widths and depths in nm. The positions themselves (`dist`) are `storedDepths` of `Model/Absorption`: the code of tmm.py 430-455 is the same as that of 166-185.
-/

namespace Rayflare.Model

open Rayflare.Np

/-- `layers` of `tmm_structure.calculate`, tmm.py 423-424: all layers if none are given. -/
def profileLayers (n : ℕ) (layers : Option (List ℕ)) : List ℕ := layers.getD ((List.range n).map (· + 1))

/-- `dist` of `tmm_structure.calculate`, tmm.py 426-455; `none` is IndexError. -/
noncomputable def calcDist (widths : List ℝ) (d : ℝ) (layers : Option (List ℕ)) : Option (List ℝ) :=
  storedDepths widths d (profileLayers widths.length layers)

/-- `dist = (z_limit - dist)[::-1]` for rear incidence, tmm.py 187-188. -/
noncomputable def rearDist (widths : List ℝ) (dist : List ℝ) : List ℝ := (dist.map fun z => widths.sum - z).reverse

open Classical in
/-- `tmm.find_in_structure_with_inf` (external): number of the layer (from 1; one more than the number of layers is the substrate) and depth in it. For a position on the boundary of two layers
`first` says whether the first of the two is chosen. -/
noncomputable def locate (first : Bool) : List ℝ → ℝ → ℕ × ℝ
  | [], z => (1, z)
  | w :: ws, z => if z < w ∨ (first = true ∧ z = w) then (1, z) else
      let p := locate first ws (z - w)
      (p.1 + 1, p.2)

/-- `res["profile"]` for front incidence, tmm.py 265-276: the solver's absorption density `A layer depth` at `dist`. -/
noncomputable def frontProfile (first : Bool) (A : ℕ → ℝ → ℝ) (widths dist : List ℝ) : List ℝ :=
  dist.map fun z => A (locate first widths z).1 (locate first widths z).2

/-- Rear incidence, tmm.py 187-203, 265-276 and 286-290: the reversed stack is evaluated at `rearDist` and the result is flipped. -/
noncomputable def rearProfile (first : Bool) (A : ℕ → ℝ → ℝ) (widths dist : List ℝ) : List ℝ :=
  ((rearDist widths dist).map fun z => A (locate first widths.reverse z).1 (locate first widths.reverse z).2).reverse

/-- What the profile dataset of `TMM` contains for front incidence, as (coordinate `z`, value) in storage order: tmm.py 109-126, 234-240, 298-299 (`coords={..., "z": dist}`). -/
noncomputable def frontLabelled (first : Bool) (A : ℕ → ℝ → ℝ) (widths dist : List ℝ) : List (ℝ × ℝ) := dist.zip (frontProfile first A widths dist)

/-- The same for rear incidence: the coordinate is the `dist` of line 188, the values have been flipped (line 290) and the coordinate has not. -/
noncomputable def rearLabelled (first : Bool) (A : ℕ → ℝ → ℝ) (widths dist : List ℝ) : List (ℝ × ℝ) := (rearDist widths dist).zip (rearProfile first A widths dist)

end Rayflare.Model
