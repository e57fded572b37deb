import Mathlib.Data.Real.Basic
import Mathlib.Data.List.Basic
import Mathlib.Logic.Function.Basic

/-!
# Model of how `rcwa_structure` keeps track of the wavelengths (rcwa.py 1023-1054, 1103-1132)

Arrays are objects of the user that can be changed in place, so the memory is explicit: an array is a number (its address), `mem` gives what it holds.
-/

namespace Rayflare.Model

open Classical in
/-- `np.all(a == b)` for two one-dimensional arrays, as used in rcwa.py 1105 and 1179. Arrays of equal length are compared entry by entry; an array of length 1 is compared with every entry of the other one
(broadcasting). For other lengths NumPy 1.25 and later raise ValueError (`strict`, result `none`); earlier versions return False with a warning. -/
noncomputable def npAllEq (strict : Bool) (a b : List ℝ) : Option Bool :=
  if a.length = b.length then some (decide (a = b))
  else if a.length = 1 ∨ b.length = 1 then some (decide (∀ x ∈ a, ∀ y ∈ b, x = y))
  else if strict then none else some false

/-- What of an `rcwa_structure` matters here: the memory, the array `self.current_wavelengths` (the user's own array, not a copy: rcwa.py 1054), and the wavelengths for which the rows of `self.layers_oc` and `self.shapes_oc`
were computed. -/
structure WlObj where
  mem : ℕ → List ℝ
  cur : ℕ
  oc : List ℝ

/-- `__init__`, rcwa.py 956-957 and 990, with `options["wavelength"]` the array `r`. -/
def wlInit (mem : ℕ → List ℝ) (r : ℕ) : WlObj := ⟨mem, r, mem r⟩

/-- `update_oc`, rcwa.py 1023-1054. Simplification: only which wavelengths the optical constants belong to. -/
def wlUpdate (s : WlObj) (r : ℕ) : WlObj := { s with cur := r, oc := s.mem r }

/-- The loop over the wavelengths, rcwa.py 1114-1132 and `np.stack`, 1134-1136: for each wavelength asked for, that wavelength and the one the optical constants `layers_oc[i1]`, `shapes_oc[i1]` belong to. `none`: IndexError if there are
more wavelengths than rows, ValueError from `np.stack` if there are no wavelengths. -/
def wlRun (wl oc : List ℝ) : Option (List (ℝ × ℝ)) :=
  if wl = [] then none else if wl.length ≤ oc.length then some (wl.zip oc) else none

open Classical in
/-- `calculate`, rcwa.py 1102-1136, with `options["wavelength"]` the array `r`: the object afterwards, and what is calculated (`none`: an exception). -/
noncomputable def wlCalc (strict : Bool) (s : WlObj) (r : ℕ) : WlObj × Option (List (ℝ × ℝ)) :=
  match npAllEq strict (s.mem r) (s.mem s.cur) with
  | none => (s, none)
  | some true => (s, wlRun (s.mem r) s.oc)
  | some false => (wlUpdate s r, wlRun (s.mem r) (wlUpdate s r).oc)

/-- What the user does: fill an array (a new one, or change one in place), or call `calculate` with an array as `options["wavelength"]`. -/
inductive WlOp
  | write (r : ℕ) (values : List ℝ)
  | calculate (r : ℕ)

/-- One such step. An exception in `calculate` is taken to be caught by the user. -/
noncomputable def wlStep (strict : Bool) (s : WlObj) : WlOp → WlObj
  | .write r v => { s with mem := Function.update s.mem r v }
  | .calculate r => (wlCalc strict s r).1

/-- A sequence of such steps. -/
noncomputable def wlHistory (strict : Bool) (s : WlObj) (ops : List WlOp) : WlObj := ops.foldl (wlStep strict) s

end Rayflare.Model
