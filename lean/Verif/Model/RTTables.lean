import Verif.Np
import Mathlib.Data.Nat.Digits.Defs

/-!
# Model of the TMM lookup tables of an `rt_structure`
(rayflare/ray_tracing/rt.py 482-567, 795-813, 849-868 and 1039-1064; rayflare/transfer_matrix_method/lookup_table.py 57-62)

`M` is the type of materials, `L` of layers, `Tab` of tables. Strings are lists of characters. Files are in one folder (`savepath`), a map from names to contents.
-/

namespace Rayflare.Model

/-- The attributes of `text[0]` that matter here; `none`: the attribute is missing. -/
structure Tex (L : Type*) where
  name : List Char
  layers : Option (List L)
  coh : Option (List Bool)
  prof : Option (List ℕ)

/-- Arguments of one call of `make_TMM_lookuptable`, rt.py 553-565. -/
structure TabJob (M L : Type*) where
  layers : List L
  inc : M
  trn : M
  coherent : Bool
  coh : Option (List Bool)
  name : List Char
  prof : Option (List ℕ)

/-- `"{}".format(i)` for a natural number. -/
def decimal (i : ℕ) : List Char := if i = 0 then ['0'] else (Nat.digits 10 i).reverse.map Nat.digitChar

/-- `name + "int_{}".format(i1)`, rt.py 529 and 1051. -/
def tableName (name : List Char) (i : ℕ) : List Char := name ++ ['i', 'n', 't', '_'] ++ decimal i

section
variable {M L Tab : Type*}

/-- One pass of the loop over the textures, rt.py 498-539, as far as it concerns the calls; `n` is `len(textures)`. `none` is IndexError. -/
def jobStep (n : ℕ) (mats : List M) (inc trn : M) (acc : List (TabJob M L)) (p : Tex L × ℕ) : Option (List (TabJob M L)) :=
  match p.1.layers with
  | none => some acc
  | some ls =>
    (if p.2 > 0 then mats[p.2 - 1]? else some inc).bind fun a =>
    (if p.2 < n - 1 then mats[p.2]? else some trn).bind fun b =>
    some (acc ++ [{ layers := ls, inc := a, trn := b, coherent := p.1.coh.isNone, coh := p.1.coh, name := tableName p.1.name p.2, prof := p.1.prof }])

/-- The calls of `make_TMM_lookuptable` made by `make_lookuptable_rt_structure`, rt.py 498-565. -/
def tableJobs (texs : List (Tex L)) (mats : List M) (inc trn : M) : Option (List (TabJob M L)) :=
  texs.zipIdx.foldlM (jobStep texs.length mats inc trn) []

/-- `make_TMM_lookuptable`, lookup_table.py 57-62: an existing file is kept unless `overwrite`; `solve` stands for the calculation. -/
def makeTable (solve : TabJob M L → Tab) (overwrite : Bool) (fs : List Char → Option Tab) (j : TabJob M L) : List Char → Option Tab :=
  if (fs j.name).isSome && !overwrite then fs else Function.update fs j.name (some (solve j))

/-- `tmm_or_fresnel`, rt.py 530 and 536. -/
def tmmFlags (texs : List (Tex L)) : List Bool := texs.map fun t => t.layers.isSome

/-- `n_layers`, rt.py 531 and 537. -/
def nLayersList (texs : List (Tex L)) : List ℕ := texs.map fun t => match t.layers with
  | some ls => ls.length
  | none => 0

/-- `prof_layers_list`, rt.py 520-527 and 538: `hasattr(text[0], "prof_layers")` holds only for textures with layers. -/
def profLayersList (texs : List (Tex L)) : List (Option (List ℕ)) := texs.map fun t => match t.layers with
  | some _ => t.prof
  | none => none

/-- Building the structure: all tables are made; the folder afterwards. -/
def buildTables (solve : TabJob M L → Tab) (overwrite : Bool) (fs : List Char → Option Tab) (texs : List (Tex L)) (mats : List M) (inc trn : M) : Option (List Char → Option Tab) :=
  (tableJobs texs mats inc trn).map fun js => js.foldl (makeTable solve overwrite) fs

/-- One entry of `additional_tmm_args`, rt.py 1046-1062: with layers the table of that name is opened (`none`: FileNotFoundError), without layers there is none. -/
def openTable (fs : List Char → Option Tab) (flags : List Bool) (names : List (List Char)) (i : ℕ) : Option (Option Tab) :=
  flags[i]?.bind fun f => if f then (names[i]?.bind fun nm => fs (tableName nm i)).map some else some none

end

end Rayflare.Model
