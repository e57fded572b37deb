import Verif.Model.MatMul
import Mathlib.Logic.Function.Basic
import Mathlib.Data.List.Basic

/-!
# Model of the stored results: `utilities.py` 268-351, `process_structure.py` 21-266, the saving parts of
`rt.py`, `tmm.py`, `rcwa.py`, `ideal_cases.py`, `lookup_table.py`, and the loads of `multiply_matrices.py` 210-276

Strings are lists of characters.  What the physics code computes is an abstract content type `γ`; ray tracing is random, so every
calculation takes a `seed`.
-/

namespace Rayflare.Model

/-- Python strings. -/
abbrev Str := List Char

/-- `os.path.join(a, b)` (POSIX): an absolute `b` replaces `a`; otherwise joined with exactly one separator added
if needed. -/
def pathJoin (a b : Str) : Str :=
  if b.head? = some '/' then b
  else if a = [] ∨ a.getLast? = some '/' then a ++ b
  else a ++ '/' :: b

/-- The strings `"front"` / `"rear"`. -/
def Side.str : Side → Str
  | .front => "front".toList
  | .rear => "rear".toList

/-- The three kinds of stored results. -/
inductive Kind | RT | A | prof
  deriving DecidableEq

/-- File name endings, utilities.py 272-278 and multiply_matrices.py 228-265. -/
def Kind.str : Kind → Str
  | .RT => "RT.npz".toList
  | .A => "A.npz".toList
  | .prof => "profmat.nc".toList

/-- `os.path.join(structpath, surf_name + front_or_rear + "RT.npz")` etc.; the same expression is used for
saving (utilities.py 272-278) and for loading (multiply_matrices.py 228-265). -/
def matPath (structpath name : Str) (side : Side) (k : Kind) : Str :=
  pathJoin structpath (name ++ side.str ++ k.str)

/-- Path of a TMM lookup table: lookup_table.py 60, rt.py 110. -/
def lutPath (structpath name : Str) : Str := pathJoin structpath (name ++ ".nc".toList)

/-- Content of a file: completely written, or cut off by a crash while being written. -/
inductive Content (γ : Type*)
  | whole (x : γ)
  | torn

/-- File system: `none` = no such file (`os.path.isfile` false). -/
abbrev FS (γ : Type*) := Str → Option (Content γ)

/-- Replace the content of a file. -/
def FS.write {γ : Type*} (fs : FS γ) (p : Str) (c : Content γ) : FS γ :=
  fun q => if q = p then some c else fs q

/-- Write a list of files, in order. -/
def FS.writes {γ : Type*} (fs : FS γ) (l : List (Str × γ)) : FS γ :=
  l.foldl (fun fs e => fs.write e.1 (.whole e.2)) fs

/-- `load_npz`, `xr.load_dataset`, `xr.open_dataset`: `none` is an exception (missing or unreadable file). -/
def FS.load {γ : Type*} (fs : FS γ) (p : Str) : Option γ :=
  match fs p with
  | some (.whole x) => some x
  | _ => none

/-- Return value of `get_matrices_or_paths`. -/
inductive MatsOrPaths (γ : Type*)
  | existing (mats : List γ)
  | paths (ps : List Str)
  | loadError

/-- The files belonging to one surface and side: RT, A and, if a profile was requested, profmat. -/
def requiredKinds (prof : Bool) : List Kind := if prof then [.RT, .A, .prof] else [.RT, .A]

/-- The corresponding paths, in saving order. -/
def requiredPaths (structpath name : Str) (side : Side) (prof : Bool) : List Str :=
  (requiredKinds prof).map (matPath structpath name side)

/-- `get_matrices_or_paths`, utilities.py 268-303.  `prof` says whether `prof_layers is not None`. -/
def getMatricesOrPaths {γ : Type*} (fs : FS γ) (structpath name : Str) (side : Side) (prof overwrite : Bool) :
    MatsOrPaths γ :=
  let pRT := matPath structpath name side .RT
  let pA := matPath structpath name side .A
  let pP := matPath structpath name side .prof
  if (fs pRT).isSome && (fs pA).isSome && !overwrite then
    match fs.load pRT, fs.load pA with
    | some full, some a =>
      if prof then
        if (fs pP).isSome then
          match fs.load pP with
          | some p => .existing [full, a, p]
          | none => .loadError
        else .paths [pRT, pA, pP]
      else .existing [full, a]
    | _, _ => .loadError
  else
    if prof then .paths [pRT, pA, pP] else .paths [pRT, pA]

/-- `Interface.method`, structure.py 82. -/
inductive Method | RT_Fresnel | RT_TMM | RCWA | TMM | Mirror | Lambertian
  deriving DecidableEq

/-- An interface of the structure together with what the physics code would compute for it.
`compute side seed lut k` is the array of kind `k`; `lut` is the content of the lookup table that was read
(`RT_TMM` only). -/
structure Iface (γ σ : Type*) where
  name : Str
  method : Method
  /-- `prof_layers is not None` -/
  prof : Bool
  lut : γ
  compute : Side → σ → Option γ → Kind → γ

section process
variable {γ σ : Type*}

/-- One calculation of `process_structure` that may save files. -/
inductive Step (γ σ : Type*)
  | table (i : Iface γ σ)
  | mats (i : Iface γ σ) (side : Side)

/-- Which sides are computed: `which_sides`, process_structure.py 116-121; ideal interfaces only ever get
`"front"` (lines 123-163). -/
def sidesOf (i : Iface γ σ) (isLast : Bool) : List Side :=
  match i.method with
  | .Mirror | .Lambertian => [.front]
  | _ => if isLast then [.front] else [.front, .rear]

/-- Whether the calculation of interface `i` is asked for a profile: `prof_layers` is passed on for TMM (184), RT_TMM
(212) and RCWA (261), `None` for RT_Fresnel (238), nothing for ideal interfaces. -/
def Iface.calcProf (i : Iface γ σ) : Bool :=
  match i.method with
  | .TMM | .RT_TMM | .RCWA => i.prof
  | _ => false

/-- The second loop of `process_structure` (lines 108-266) over the interfaces, in order; bulk layers do not touch files. -/
def matSteps : List (Iface γ σ) → List (Step γ σ)
  | [] => []
  | i :: rest => (sidesOf i rest.isEmpty).map (Step.mats i) ++ matSteps rest

/-- The first loop (lines 74-106): lookup tables of the RT_TMM interfaces. -/
def tableSteps (l : List (Iface γ σ)) : List (Step γ σ) :=
  (l.filter (fun i => decide (i.method = .RT_TMM))).map Step.table

/-- `process_structure`: all calculations in order. -/
def allSteps (l : List (Iface γ σ)) : List (Step γ σ) := tableSteps l ++ matSteps l

/-- The files a step saves, in saving order (RT, A, profmat: rt.py 244-260, tmm.py 344-366, rcwa.py 262-308,
ideal_cases.py 77-79, 158-160; lookup_table.py 204), or `none` if it raises.  The empty list means that existing results are
reused.  `hasProf` tells whether a stored lookup table contains the profile coefficients `Aprof`; computing a profile from
a table without them raises (rt.py 1314). -/
def Step.saves (hasProf : γ → Bool) (structpath : Str) (overwrite : Bool) (fs : FS γ) (seed : σ) : Step γ σ → Option (List (Str × γ))
  | .table i =>
    -- lookup_table.py 60-66, 204
    if (fs (lutPath structpath i.name)).isSome && !overwrite then
      (fs.load (lutPath structpath i.name)).map fun _ => []
    else some [(lutPath structpath i.name, i.lut)]
  | .mats i side =>
    match getMatricesOrPaths fs structpath i.name side i.calcProf overwrite with
    | .existing _ => some []
    | .loadError => none
    | .paths ps =>
      let kinds := requiredKinds i.calcProf
      if i.method = .RT_TMM then
        -- rt.py 109-113: the lookup table is read from disk
        (fs.load (lutPath structpath i.name)).bind fun L =>
          if i.calcProf && !hasProf L then none
          else some (ps.zip (kinds.map (i.compute side seed (some L))))
      else some (ps.zip (kinds.map (i.compute side seed none)))

/-- `Runs hp sp ow steps fs fs'`: the steps are carried out without exception and without crash. -/
inductive Runs (hasProf : γ → Bool) (structpath : Str) (overwrite : Bool) : List (Step γ σ) → FS γ → FS γ → Prop
  | nil (fs) : Runs hasProf structpath overwrite [] fs fs
  | cons {s ss fs w fs'} (seed : σ) (h : Step.saves hasProf structpath overwrite fs seed s = some w)
      (ht : Runs hasProf structpath overwrite ss (fs.writes w) fs') : Runs hasProf structpath overwrite (s :: ss) fs fs'

/-- `Crashes hp sp ow steps fs fs'`: the process is killed somewhere between two saves (or before the first, or after the
last); `fs'` is what is left on disk. -/
inductive Crashes (hasProf : γ → Bool) (structpath : Str) (overwrite : Bool) : List (Step γ σ) → FS γ → FS γ → Prop
  | stop (ss fs) : Crashes hasProf structpath overwrite ss fs fs
  | mid {s ss fs w w'} (seed : σ) (h : Step.saves hasProf structpath overwrite fs seed s = some w) (hw : w' <+: w) :
      Crashes hasProf structpath overwrite (s :: ss) fs (fs.writes w')
  | next {s ss fs w fs'} (seed : σ) (h : Step.saves hasProf structpath overwrite fs seed s = some w)
      (ht : Crashes hasProf structpath overwrite ss (fs.writes w) fs') : Crashes hasProf structpath overwrite (s :: ss) fs fs'

/-- `CutOff hp sp ow steps fs p fs'`: the process is killed while it is writing the file `p`; the earlier files are saved, `p` is cut off. -/
inductive CutOff (hasProf : γ → Bool) (structpath : Str) (overwrite : Bool) : List (Step γ σ) → FS γ → Str → FS γ → Prop
  | here {s ss fs w w' p x} (seed : σ) (h : Step.saves hasProf structpath overwrite fs seed s = some w) (hw : w' ++ [(p, x)] <+: w) :
      CutOff hasProf structpath overwrite (s :: ss) fs p ((fs.writes w').write p .torn)
  | next {s ss fs w p fs'} (seed : σ) (h : Step.saves hasProf structpath overwrite fs seed s = some w)
      (ht : CutOff hasProf structpath overwrite ss (fs.writes w) p fs') : CutOff hasProf structpath overwrite (s :: ss) fs p fs'

/-- The paths `calculate_RAT` opens (multiply_matrices.py 220-270): for the front all interfaces, for the rear all but
the last; the profile file whenever `prof_layers is not None`. -/
def ratLoads (structpath : Str) : List (Iface γ σ) → List Str
  | [] => []
  | i :: rest =>
    requiredPaths structpath i.name .front i.prof
      ++ (if rest.isEmpty then [] else requiredPaths structpath i.name .rear i.prof)
      ++ ratLoads structpath rest

end process

/-! ## `get_savepath` and `get_wavelength` -/

/-- `save_location` argument. -/
inductive SaveLoc
  | current
  | default
  | path (p : Str)

/-- Set of existing directories. -/
abbrev Dirs := Str → Prop

/-- `if not os.path.isdir(p): os.mkdir(p)` on a set `ex` of existing directories; `parent p` is the directory
containing `p`, and `mkdir` raises (`none`) unless that exists. -/
def mkdirIfMissing (parent : Str → Str) (ex : Str → Bool) (p : Str) : Option (Str → Bool) :=
  if ex p then some ex else if ex (parent p) then some (fun q => decide (q = p) || ex q) else none

/-- The folder in which the project folder is created: utilities.py 321-334. -/
def baseDir (cwd home : Str) : SaveLoc → Str
  | .current => cwd
  | .default => pathJoin home "RayFlare_results".toList
  | .path p => p

/-- Creation of the save location, utilities.py 328-334 (not for `"current"`). -/
def makeBase (ex : Str → Bool) (parent : Str → Str) (cwd home : Str) : SaveLoc → Option (Str → Bool)
  | .current => some ex
  | .default => mkdirIfMissing parent ex (baseDir cwd home .default)
  | .path p => mkdirIfMissing parent ex (baseDir cwd home (.path p))

/-- `get_savepath`, utilities.py 306-339.  `ex` tells which directories exist, `cwd` and `home` are
`os.getcwd()` and `expanduser("~")`.  Returns the path and the new set of directories.  (The joins of lines 327 are associated to
the left: `os.path.join(os.path.join(home, "RayFlare_results"), project_name)`, which is the same path.) -/
def getSavepath (ex : Str → Bool) (parent : Str → Str) (cwd home : Str) (loc : SaveLoc) (project : Str) :
    Option (Str × (Str → Bool)) :=
  let sp := pathJoin (baseDir cwd home loc) project
  (makeBase ex parent cwd home loc).bind fun ex => (mkdirIfMissing parent ex sp).map fun ex => (sp, ex)

/-- `get_wavelength`, utilities.py 342-351, on an options dictionary. -/
def getWavelength {V : Type*} (o : Str → Option V) : Str → Option V :=
  match o "wavelengths".toList with
  | some v => fun k => if k = "wavelength".toList then some v else o k
  | none => o

end Rayflare.Model
