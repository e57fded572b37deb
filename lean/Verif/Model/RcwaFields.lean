import Verif.Model.RCWA

/-!
# Model of further parts of rcwa.py: response to polarisation, materials of shapes, depth of field requests
-/

namespace Rayflare.Model

open Rayflare.Np Real

/-! ## Polarisation -/

/-- A power flux as a function of real s and p amplitudes of the incident wave. Fields are linear in the amplitudes, so a power flux is a quadratic form (solver parameter). -/
structure PowerForm where
  ss : ℝ
  pp : ℝ
  sp : ℝ

/-- The flux for amplitudes `s`, `p`. -/
def PowerForm.eval (f : PowerForm) (s p : ℝ) : ℝ := f.ss * s ^ 2 + f.pp * p ^ 2 + f.sp * s * p

/-- The part of `RCWA_structure_wl` (rcwa.py 1583-1598) and `RCWA_structure_wl_inkstone` (1604-1622) that returns `R` and `T`: one excitation with the amplitudes of `process_pol`, then `rcwa_rt`. The
same excitation is used for redistribution matrices (378, 562). `none`: exception, or string amplitudes handed to the solver. -/
noncomputable def rcwaPolRT (fwd bwd : ℕ → PowerForm) (n : ℕ) (pol : PolArg) : Option (ℝ × ℝ) :=
  match processPol pol with
  | some (.amps s p) =>
    let r := rcwaRT (fun l => ((fwd l).eval s p, (bwd l).eval s p)) n
    some (r.1, r.2.1)
  | _ => none

/-! ## Materials of shapes -/

/-- The material a shape is drawn with: `shape["mat"]` has been replaced by `str(mat)` (`necessary_materials`, rcwa.py 859-873); `shape_mats.index(...)` finds the first of the names `[str(x) for x in shape_mats]`
(996; 764 / 840), and the permittivity at that position of `shapes_oc` (1027-1036, 738-739 / 814-815) is used. `mats` is `list(set(...))`, in whatever order. `none` is ValueError. -/
def shapeMaterial {M S : Type*} [DecidableEq S] (str : M → S) (mats : List M) (m : M) : Option M :=
  let i := (mats.map str).idxOf (str m)
  mats[i]?

/-! ## Depth of field requests -/

/-- `np.cumsum([0] + self.widths[1:-1] + [0])[layer_index - 1] + depth`, rcwa.py 1282, 1358, 1443. `w` are the widths of the finite layers. `none` is IndexError. -/
noncomputable def layerZ (w : List ℝ) (layer : ℕ) (depth : ℝ) : Option ℝ := (pyGet (cumsum ([0] ++ w ++ [0])) ((layer : ℤ) - 1)).map (· + depth)

/-- `z` used by `get_fourier_epsilon` with S4, rcwa.py 1281-1285. -/
noncomputable def epsilonZ (w : List ℝ) (layer : ℕ) : Option ℝ := if layer > 0 then layerZ w layer (1 / 10 ^ 10) else some (-1)

/-- `z` used by `get_fields` with S4, rcwa.py 1357-1358 and 1386. For layer 0 `depth_S4` is unbound: `none`. -/
noncomputable def fieldsZ (w : List ℝ) (layer : ℕ) (depth : ℝ) : Option ℝ := if layer > 0 then layerZ w layer depth else none

/-- `z` used by `get_fields_unit_cell`, rcwa.py 1442-1445. -/
noncomputable def unitCellZ (w : List ℝ) (layer : ℕ) (depth : ℝ) : Option ℝ := if layer > 0 then layerZ w layer depth else some depth

/-- The solver's layer "layer_k" is the one with index `k - 1` (`initialise_S`, rcwa.py 825-834). `none`: there is no such layer. -/
def layerOfName (k : ℕ) : Option ℕ := if k = 0 then none else some (k - 1)

/-- The layer whose fields `get_fields_z_integral` integrates: rcwa.py 1508. -/
def zIntegralLayer (layer : ℕ) : Option ℕ := layerOfName layer

/-- The layer whose fields `get_fields` (1391) and `get_fourier_epsilon` (1301) ask Inkstone for. -/
def inkstoneLayer (layer : ℕ) : Option ℕ := layerOfName (layer + 1)

end Rayflare.Model
