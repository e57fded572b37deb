import Verif.Model.RCWA
import Verif.Model.RcwaFields

/-!
# Model of further parts of rcwa.py: options of the solver, absorption per diffraction order, shapes handed to S4 and Inkstone, `edit_geom_list`
-/

namespace Rayflare.Model

/-! ## Absorption per order -/

/-- `rcwa_absorption_per_layer_order`, rcwa.py 901-914: one list per layer, one entry per diffraction order.  `byOrder l` are the (forward, backward) fluxes per order at the top of `"layer_l"`.  Simplification: real parts only. `zipWith`
stands for the difference of two arrays; both have one entry per order of the basis set. -/
noncomputable def rcwaAbsorptionOrder (byOrder : ℕ → List (ℝ × ℝ)) (n : ℕ) (incpf : ℝ) : List (List ℝ) :=
  ((List.range (n - 2)).map fun i => i + 2).map fun layer =>
    List.zipWith (fun top bottom => (top - bottom) / incpf) ((byOrder layer).map fun f => f.1 + f.2) ((byOrder (layer + 1)).map fun f => f.1 + f.2)

/-! ## Solver options -/

/-- The options S4 is given, by name (rcwa.py 800-811); `K` is the type of the ten names, a Python dictionary is a partial function. -/
abbrev OptDict (K V : Type*) := K → Option V

/-- `S4_options.update(user_options)` on the dictionary of defaults, rcwa.py 1002-1016; an absent entry "S4_options" is the empty dictionary. -/
def mergedOptions {K V : Type*} (defaults : K → V) (given : Option (OptDict K V)) : OptDict K V := fun k => some ((given.bind fun d => d k).getD (defaults k))

open Classical in
/-- `S.SetOptions(...)`, rcwa.py 800-811: reads all ten entries; `none` is KeyError. -/
noncomputable def readOptions {K V : Type*} (d : OptDict K V) : Option (K → V) := if h : ∀ k, (d k).isSome then some fun k => (d k).get (h k) else none

/-- What a solver object reports: the basis set and, after excitation, power fluxes per layer and per layer and order. `n` is `len(widths)`. -/
structure RcwaSim (Ord : Type*) where
  basis : List Ord
  flux : ℕ → ℝ × ℝ
  byOrder : ℕ → List (ℝ × ℝ)

/-- `options["RCWA_method"].lower()`; other values raise an exception in `calculate` (dictionary look-up, 1116) and in `make_S` (1074). -/
inductive RcwaMethod | s4 | inkstone

/-- The options that matter here. -/
structure RcwaOpt (K V : Type*) where
  method : RcwaMethod
  s4 : Option (OptDict K V)
  perOrder : Bool

/-- `self.user_options` after construction, rcwa.py 1000-1021 (`None` for Inkstone). -/
def userOptions {K V : Type*} (defaults : K → V) (o : RcwaOpt K V) : Option (OptDict K V) :=
  match o.method with
  | .s4 => some (mergedOptions defaults o.s4)
  | .inkstone => none

/-- `make_S`, rcwa.py 1056-1076: the solver object used for `get_fields`, `get_fourier_epsilon`, `save_layer_postscript` and for the basis set in `calculate`. S4 gets `options["S4_options"]` as it is. `none` is KeyError. -/
noncomputable def makeS {K V S : Type*} (newS4 : (K → V) → S) (newInk : S) (o : RcwaOpt K V) : Option S :=
  match o.method with
  | .s4 => o.s4.bind fun d => (readOptions d).map newS4
  | .inkstone => some newInk

/-- Result of `calculate` at one wavelength: R, T, absorption per layer and, if asked for, absorption per layer and order with the basis set. -/
structure RcwaResult (Ord : Type*) where
  R : ℝ
  T : ℝ
  A : List ℝ
  orders : Option (List (List ℝ) × List Ord)

/-- `calculate` for one wavelength, rcwa.py 1078-1161 with `RCWA_structure_wl` (1568-1601) and `RCWA_structure_wl_inkstone` (1604-1625).  `user` is `self.user_options`; `n` is `len(widths)`. `none` is an exception: `None` handed to S4, a missing
option, or `item[3]` of the three values returned for Inkstone (1140). -/
noncomputable def rcwaCalculate {K V Ord : Type*} (newS4 : (K → V) → RcwaSim Ord) (newInk : RcwaSim Ord) (n : ℕ) (user : Option (OptDict K V)) (o : RcwaOpt K V) : Option (RcwaResult Ord) :=
  match o.method with
  | .s4 =>
    (user.bind readOptions).bind fun opts =>
    let S := newS4 opts
    let rt := rcwaRT S.flux n
    let A := rcwaAbsorption S.flux n rt.2.2
    if o.perOrder then (makeS newS4 newInk o).map fun S' => ⟨rt.1, rt.2.1, A, some (rcwaAbsorptionOrder S.byOrder n rt.2.2, S'.basis)⟩
    else some ⟨rt.1, rt.2.1, A, none⟩
  | .inkstone =>
    let rt := rcwaRT newInk.flux n
    if o.perOrder then none else some ⟨rt.1, rt.2.1, rcwaAbsorption newInk.flux n rt.2.2, none⟩

/-! ## Shapes -/

/-- A shape in `geometry`. Angles are in degrees. For polygons the entries "center" and "angle" may be missing. -/
inductive GeomShape
  | circle (center : ℝ × ℝ) (radius : ℝ)
  | ellipse (center : ℝ × ℝ) (angle : ℝ) (halfwidths : ℝ × ℝ)
  | rectangle (center : ℝ × ℝ) (angle : ℝ) (halfwidths : ℝ × ℝ)
  | polygon (center : Option (ℝ × ℝ)) (angle : Option ℝ) (vertices : List (ℝ × ℝ))

/-- Calls of S4 that draw a region: `SetRegionCircle`, `SetRegionEllipse`, `SetRegionRectangle`, `SetRegionPolygon`, with their arguments in order. -/
inductive S4Region
  | circle (center : ℝ × ℝ) (radius : ℝ)
  | ellipse (center : ℝ × ℝ) (angle : ℝ) (halfwidths : ℝ × ℝ)
  | rectangle (center : ℝ × ℝ) (angle : ℝ) (halfwidths : ℝ × ℝ)
  | polygon (center : ℝ × ℝ) (angle : ℝ) (vertices : List (ℝ × ℝ))

/-- Calls of Inkstone: `AddPatternDisk`, `AddPatternEllipse`, `AddPatternRectangle`, `AddPatternPolygon`, with their arguments in order. -/
inductive InkPattern
  | disk (radius : ℝ) (center : ℝ × ℝ)
  | ellipse (halfLengths : ℝ × ℝ) (center : ℝ × ℝ) (angle : ℝ)
  | rectangle (sides : ℝ × ℝ) (center : ℝ × ℝ) (angle : ℝ)
  | polygon (vertices : List (ℝ × ℝ))

/-- `initialise_S`, rcwa.py 841-854. `none` is KeyError. -/
def drawS4 : GeomShape → Option S4Region
  | .circle c r => some (.circle c r)
  | .ellipse c a h => some (.ellipse c a h)
  | .rectangle c a h => some (.rectangle c a h)
  | .polygon (some c) (some a) v => some (.polygon c a v)
  | .polygon _ _ _ => none

/-- `initialise_S_inkstone`, rcwa.py 765-793, for vertices given as a tuple (lists are changed in place, see `inkstonePolygons`). A polygon with "angle" is drawn, with a warning, without rotation. -/
def drawInkstone : GeomShape → InkPattern
  | .circle c r => .disk r c
  | .ellipse c a h => .ellipse h c a
  | .rectangle c a h => .rectangle (h.1 * 2, h.2 * 2) c a
  | .polygon none _ v => .polygon v
  | .polygon (some c) _ v => .polygon (v.map fun p => (p.1 + c.1, p.2 + c.2))

/-! ## Changing shapes -/

/-- `necessary_materials`, rcwa.py 859-873, as far as materials are concerned: `list(set(...))` of all materials of all shapes (`order` puts a duplicate-free list in the order of the set). A material given as a list is not hashable: `none` is TypeError. -/
def necessaryMaterials {M : Type*} [DecidableEq M] (isList : M → Bool) (order : List M → List M) (geom : List (List M)) : Option (List M) :=
  if geom.flatten.any isList then none else some (order geom.flatten.dedup)

/-- The names of the materials of the shapes of all layers: `geom_list_str`, rcwa.py 860-871. -/
def geomNames {M S : Type*} (str : M → S) (geom : List (List M)) : List (List S) := geom.map fun g => g.map str

/-- `edit_geom_list(layer_index, geom_index, {"mat": m})`, rcwa.py 1557-1565 (`update` of the dictionary; `str` is applied when the shape is drawn, 764 / 840). `none` is IndexError. Simplification: non-negative indices. -/
def editMaterial {S : Type*} (names : List (List S)) (layer shape : ℕ) (new : S) : Option (List (List S)) :=
  (names[layer]?).bind fun g => if shape < g.length then some (names.set layer (g.set shape new)) else none

/-- The material used to draw shape `shape` of layer `layer`, rcwa.py 764 / 840 with 738-739 / 814-815 and 996, 1027-1036.  `none`: no such shape, or ValueError from `shape_mats.index`. -/
def drawnMaterial {M S : Type*} [DecidableEq S] (str : M → S) (mats : List M) (names : List (List S)) (layer shape : ℕ) : Option M :=
  (names[layer]?).bind fun g => (g[shape]?).bind fun s => mats[(mats.map str).idxOf s]?

end Rayflare.Model
