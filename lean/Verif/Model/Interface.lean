import Verif.Model.Files
import Mathlib.Data.Real.Basic

/-!
# Model of `Interface` (structure.py 71-105) and of the arguments `process_structure` passes on (process_structure.py 64-266)
-/

namespace Rayflare.Model

/-- An element of `layers`: a solcore `Layer` (width in m, material) or a list `[width in nm, data ...]` of raw optical data. -/
inductive LayerArg (M D : Type)
  | layer (width : ℝ) (material : M)
  | raw (widthNm : ℝ) (data : List D)

/-- An `Interface`; `materials` contains materials or lists of raw data. -/
structure IfaceObj (M D : Type) where
  method : Method
  layers : Option (List (LayerArg M D))
  prof : Option (List ℕ)
  widths : List ℝ
  materials : List (M ⊕ List D)

/-- `valid_methods`, structure.py 82-86; `none` is ValueError. -/
def methodOf (s : String) : Option Method :=
  if s = "RT_Fresnel" then some .RT_Fresnel
  else if s = "RT_TMM" then some .RT_TMM
  else if s = "RCWA" then some .RCWA
  else if s = "TMM" then some .TMM
  else if s = "Mirror" then some .Mirror
  else if s = "Lambertian" then some .Lambertian
  else none

/-- One pass of the loop over layers, structure.py 98-105; `element[1:3]` of a raw layer is its first two data. -/
noncomputable def addLayer {M D : Type} (st : List ℝ × List (M ⊕ List D)) : LayerArg M D → List ℝ × List (M ⊕ List D)
  | .layer w m => (st.1 ++ [w], st.2 ++ [.inl m])
  | .raw w d => (st.1 ++ [w * (1 / 10 ^ 9)], st.2 ++ [.inr (d.take 2)])

/-- `Interface.__init__`, structure.py 72-105. -/
noncomputable def mkInterface {M D : Type} (method : String) (layers : Option (List (LayerArg M D))) (prof : Option (List ℕ)) : Option (IfaceObj M D) :=
  (methodOf method).map fun m =>
    let st := (layers.getD []).foldl addLayer ([], [])
    ⟨m, layers, prof, st.1, st.2⟩

/-- An element of a `Structure`. -/
inductive Elem (I M : Type)
  | iface (i : I)
  | bulk (width : ℝ) (material : M)

/-- `struct.material`: only bulk layers have one; `none` is AttributeError. -/
def Elem.material {I M : Type} : Elem I M → Option M
  | .iface _ => none
  | .bulk _ m => some m

/-- `incidence`, process_structure.py 80-83 and 111-114, for position `k`; `SC[i1 - 1].material`. -/
def incidenceAt {I M : Type} (inc : M) (sc : List (Elem I M)) (k : ℕ) : Option M :=
  if k = 0 then some inc else sc[k - 1]?.bind Elem.material

/-- `substrate`, process_structure.py 85-88 and 116-121. -/
def substrateAt {I M : Type} (trans : M) (sc : List (Elem I M)) (k : ℕ) : Option M :=
  if k = sc.length - 1 then some trans else sc[k + 1]?.bind Elem.material

/-- `which_sides`, process_structure.py 116-121. -/
def whichSides {I M : Type} (sc : List (Elem I M)) (k : ℕ) : List Side := if k = sc.length - 1 then [.front] else [.front, .rear]

/-- The arguments of the calculations for one interface: interface, medium above, medium below, sides, and for each side `only_incidence_angle` (`determine_only_incidence`, process_structure.py 43-49). -/
structure Job (I M : Type) where
  iface : I
  above : M
  below : M
  sides : List (Side × Bool)

/-- One pass of the second loop of `process_structure`, lines 108-266. Bulk layers are skipped. -/
def jobAt {I M : Type} (inc trans : M) (onlyInc : Bool) (sc : List (Elem I M)) (k : ℕ) : Elem I M → Option (List (Job I M))
  | .bulk _ _ => some []
  | .iface i => (incidenceAt inc sc k).bind fun a => (substrateAt trans sc k).map fun b =>
      [⟨i, a, b, (whichSides sc k).map fun s => (s, decide (s = .front) && decide (k = 0) && onlyInc)⟩]

/-- The second loop of `process_structure`. -/
def jobs {I M : Type} (inc trans : M) (onlyInc : Bool) (sc : List (Elem I M)) : Option (List (Job I M)) :=
  (sc.zipIdx.mapM fun e => jobAt inc trans onlyInc sc e.2 e.1).map List.flatten

end Rayflare.Model
