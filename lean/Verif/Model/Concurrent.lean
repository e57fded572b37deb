import Verif.Model.Files

/-!
# Model of several runs of `process_structure` in one project folder at the same time

Each process goes through the calculations of its structure in order (process_structure.py 74-266, `allSteps` in `Model/Files`).  For each calculation it
first looks at the disk (utilities.py 268-303, lookup_table.py 60-66, rt.py 109-113), computes, and then saves its files one after the other.  Between any two of
these actions the other processes may do anything.

Simplifications: looking whether the files are there, loading them and reading the lookup table is one action; so is saving one file (a file seen half written is
`Content.torn`, see C75).
-/

namespace Rayflare.Model

variable {γ σ : Type*}

/-- A process in the middle of `process_structure`: what remains to be calculated, and the files of the present calculation that remain to be saved. -/
structure Proc (γ σ : Type*) where
  overwrite : Bool
  todo : List (Step γ σ)
  pending : List (Str × γ)

/-- A process at the start of `process_structure`, process_structure.py 21-72. -/
def Proc.start (overwrite : Bool) (l : List (Iface γ σ)) : Proc γ σ := ⟨overwrite, allSteps l, []⟩

/-- `process_structure` has returned. -/
def Proc.finished (p : Proc γ σ) : Prop := p.todo = [] ∧ p.pending = []

/-- One action of a process on the disk: look and compute (utilities.py 268-303), or save one file (rt.py 244-260, tmm.py 344-366, rcwa.py 262-308,
ideal_cases.py 77-79 and 158-160, lookup_table.py 204). -/
inductive Acts (hasProf : γ → Bool) (structpath : Str) : FS γ → Proc γ σ → FS γ → Proc γ σ → Prop
  | look {fs ow s ss w} (seed : σ) (h : Step.saves hasProf structpath ow fs seed s = some w) :
      Acts hasProf structpath fs ⟨ow, s :: ss, []⟩ fs ⟨ow, ss, w⟩
  | save {fs ow ss e w} : Acts hasProf structpath fs ⟨ow, ss, e :: w⟩ (fs.write e.1 (.whole e.2)) ⟨ow, ss, w⟩

/-- The disk and the processes, numbered by `ι`. -/
structure World (ι γ σ : Type*) where
  fs : FS γ
  procs : ι → Proc γ σ

/-- Some process acts. -/
def World.Next {ι : Type*} [DecidableEq ι] (hasProf : γ → Bool) (structpath : Str) (a b : World ι γ σ) : Prop :=
  ∃ n p', Acts hasProf structpath a.fs (a.procs n) b.fs p' ∧ b.procs = Function.update a.procs n p'

end Rayflare.Model
