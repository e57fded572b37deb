import Verif.Model.RcwaStructure

/-!
# Vocabulary for C88-C90: what the user asked for

These functions look only at the sequence of method calls.
-/

namespace Rayflare.Spec

open Rayflare.Model

variable {G Z O : Type*}

/-- The layer widths the user expects: those of the last `set_widths`, or those given at construction. -/
def lastWidths (w0 : List ℝ) (ops : List (RSOp G Z O)) : List ℝ :=
  ops.foldl (fun w op => match op with | .setWidths w' => w' | _ => w) w0

/-- The unit cell of the last `set_size`, or the one given at construction. -/
def lastSize (z0 : Z) (ops : List (RSOp G Z O)) : Z :=
  ops.foldl (fun z op => match op with | .setSize z' => z' | _ => z) z0

/-- The shapes after all edits. -/
def lastGeom (g0 : G) (ops : List (RSOp G Z O)) : G :=
  ops.foldl (fun g op => match op with | .editGeom f => f g | _ => g) g0

/-- The wavelengths a method call uses, if any. -/
def opWl : RSOp G Z O → Option (List ℝ)
  | .calculate wl _ => some wl
  | .profile wl _ => some wl
  | _ => none

/-- The wavelengths of the last calculation, or those given at construction. -/
def lastWl (wl0 : List ℝ) (ops : List (RSOp G Z O)) : List ℝ :=
  ops.foldl (fun wl op => (opWl op).getD wl) wl0

/-- The method call is a calculation. -/
def IsCalculation (op : RSOp G Z O) : Prop := ∃ wl, opWl op = some wl

/-- The method call asks for a profile. -/
def IsProfile : RSOp G Z O → Prop
  | .profile _ _ => True
  | _ => False

end Rayflare.Spec
