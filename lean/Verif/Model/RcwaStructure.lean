import Mathlib.Data.Real.Basic
import Mathlib.Data.List.Basic

/-!
# Model of the class `rcwa_structure` (rcwa.py 933-1565): state and histories

Numerical results are abstract: `solve` stands for what `Parallel(...)(RCWA_structure_wl ...)` computes from the arguments it is given, `prof` for `RCWA_wl_prof`.  What is
modelled is which arguments these functions are given after an arbitrary sequence of method calls, and which dictionary objects are returned and changed.
-/

namespace Rayflare.Model

/-- Everything the solver is given: layer widths, shapes, unit cell, the wavelengths the stored optical constants belong to, and the options (wavelengths and the rest). -/
structure RSConfig (G Z O : Type*) where
  widths : List ℝ
  geom : G
  size : Z
  ocWl : List ℝ
  wl : List ℝ
  opt : O

/-- A result dictionary: R, T, A (`rat`) and possibly "profile". -/
structure RSDict (ρ π : Type*) where
  rat : ρ
  profile : Option π

/-- An `rcwa_structure` object, together with all dictionaries created so far. `origW` are the widths in `list_for_OS`, `ratA` is `rat_output_A` (absent before the first calculation), `results` the
number of the dictionary `self.results`. -/
structure RSObj (G Z ρ π : Type*) where
  origW : List ℝ
  widths : List ℝ
  geom : G
  size : Z
  curWl : List ℝ
  ratA : Option ρ
  results : Option ℕ
  heap : List (RSDict ρ π)

/-- Method calls. `calculate` and `profile` carry the wavelengths and the rest of the options. -/
inductive RSOp (G Z O : Type*)
  | calculate (wl : List ℝ) (opt : O)
  | profile (wl : List ℝ) (opt : O)
  | setWidths (w : List ℝ)
  | setSize (z : Z)
  | editGeom (f : G → G)

variable {G Z O ρ π : Type*}

/-- `__init__`, rcwa.py 953-1021: the optical constants and widths are set by `update_oc`. -/
def rsInit (origW : List ℝ) (geom : G) (size : Z) (wl : List ℝ) : RSObj G Z ρ π := ⟨origW, origW, geom, size, wl, none, none, []⟩

/-- `update_oc`, rcwa.py 1023-1054: also overwrites `self.widths` (line 1050). -/
def rsUpdate (s : RSObj G Z ρ π) (wl : List ℝ) : RSObj G Z ρ π := { s with widths := s.origW, curWl := wl }

/-- The arguments handed to the solver. -/
def rsConfig (s : RSObj G Z ρ π) (wl : List ℝ) (opt : O) : RSConfig G Z O := ⟨s.widths, s.geom, s.size, s.curWl, wl, opt⟩

/-- The comparison of wavelengths of rcwa.py 1105-1107 / 1179-1182. Simplification: arrays of different length count as different (current NumPy raises an exception unless one of the lengths is 1), and the array is a value, not a reference; both are modelled in RcwaWavelengths.lean (C180). -/
def rsSync (s : RSObj G Z ρ π) (wl : List ℝ) [Decidable (wl = s.curWl)] : RSObj G Z ρ π := if wl = s.curWl then s else rsUpdate s wl

/-- The rest of `calculate`, rcwa.py 1109-1161: a new dictionary. -/
def rsRun (solve : RSConfig G Z O → ρ) (s : RSObj G Z ρ π) (wl : List ℝ) (opt : O) : RSObj G Z ρ π :=
  let r := solve (rsConfig s wl opt)
  { s with ratA := some r, results := some s.heap.length, heap := s.heap ++ [⟨r, none⟩] }

open Classical in
/-- `calculate`, rcwa.py 1078-1161. -/
noncomputable def rsCalc (solve : RSConfig G Z O → ρ) (s : RSObj G Z ρ π) (wl : List ℝ) (opt : O) : RSObj G Z ρ π := rsRun solve (rsSync s wl) wl opt

open Classical in
/-- The first part of `calculate_profile`, rcwa.py 1179-1186. -/
noncomputable def rsPrepare (solve : RSConfig G Z O → ρ) (s : RSObj G Z ρ π) (wl : List ℝ) (opt : O) : RSObj G Z ρ π :=
  let s1 := if wl = s.curWl then s else rsCalc solve (rsUpdate s wl) wl opt
  match s1.ratA with
  | none => rsCalc solve s1 wl opt
  | some _ => s1

/-- `calculate_profile`, rcwa.py 1163-1233: the profile is put into `self.results`, which is returned. `none` cannot happen (`prof` needs `rat_output_A`). -/
noncomputable def rsProf (solve : RSConfig G Z O → ρ) (prof : ρ → RSConfig G Z O → π) (s : RSObj G Z ρ π) (wl : List ℝ) (opt : O) : RSObj G Z ρ π :=
  let s1 := rsPrepare solve s wl opt
  match s1.ratA, s1.results with
  | some a, some id => { s1 with heap := s1.heap.modify id fun d => { d with profile := some (prof a (rsConfig s1 wl opt)) } }
  | _, _ => s1

/-- One method call. `set_widths` 1539-1548, `set_size` 1550-1555, `edit_geom_list` 1557-1565. -/
noncomputable def rsStep (solve : RSConfig G Z O → ρ) (prof : ρ → RSConfig G Z O → π) (s : RSObj G Z ρ π) : RSOp G Z O → RSObj G Z ρ π
  | .calculate wl opt => rsCalc solve s wl opt
  | .profile wl opt => rsProf solve prof s wl opt
  | .setWidths w => { s with widths := w }
  | .setSize z => { s with size := z }
  | .editGeom f => { s with geom := f s.geom }

/-- A sequence of method calls. -/
noncomputable def rsHistory (solve : RSConfig G Z O → ρ) (prof : ρ → RSConfig G Z O → π) (s : RSObj G Z ρ π) (ops : List (RSOp G Z O)) : RSObj G Z ρ π :=
  ops.foldl (rsStep solve prof) s

/-- The dictionary returned by the last `calculate` or `calculate_profile`: `self.results`. -/
def rsReturned (s : RSObj G Z ρ π) : Option (RSDict ρ π) := s.results.bind fun id => s.heap[id]?

/-! ## Polygons in Inkstone -/

/-- The vertices drawn for one polygon at successive wavelengths, `initialise_S_inkstone` (rcwa.py 780-793) called with the same `geom_list` each time: a tuple of vertices is copied into a new list, a list
is changed in place, so that its contents are the starting point of the next call. One coordinate pair per vertex. -/
def inkstonePolygons (isTuple : Bool) (center : ℝ × ℝ) (vertices : List (ℝ × ℝ)) : ℕ → List (List (ℝ × ℝ))
  | 0 => []
  | n + 1 =>
    let drawn := vertices.map fun v => (v.1 + center.1, v.2 + center.2)
    drawn :: inkstonePolygons isTuple center (if isTuple then vertices else drawn) n

end Rayflare.Model
