import Verif.Model.Launch

/-!
# Model of `rayflare/transfer_matrix_method/tmm.py` and `lookup_table.py`

The transfer-matrix solver itself (`solcore.absorption_calculator.tmm_core_vec`) is a parameter.
-/

namespace Rayflare.Model

open Rayflare.Np Real

/-! ## Redistribution matrices, `TMM` -/

/-- Solver results for one wavelength as functions of the angle of incidence: the data of `allres` (tmm.py 264-314), after clipping and averaging over
polarisations. -/
structure TmmRes where
  R : ℝ → ℝ
  T : ℝ → ℝ
  A : ℝ → ℕ → ℝ

/-- `theta_lookup`, tmm.py 324 and 332. -/
noncomputable def tmmLookup (g : Grid) (front : Bool) (j : ℕ) : Option ℝ :=
  let ths := (g.angleVector.take g.half).map Row.theta
  if front then ths[j]? else ths.reverse[j]?

/-- Row `j` of the incident half of `angle_vector`, tmm.py 320-321 and 328-329. -/
def tmmRow (g : Grid) (front : Bool) (j : ℕ) : Option Row := g.angleVector[if front then j else g.half + j]?

/-- `phis_out`, tmm.py 323, 331 and 335. -/
noncomputable def tmmPhiOut (phiSym phi : ℝ) : ℝ :=
  let p := foldPhi (phi + π) phiSym
  if p = 0 then 1e-10 else p

/-- `theta_t`, tmm.py 85-94. `none` is NaN: `np.arcsin` outside [-1, 1].  `ratio` is `inc.n(wl) / trns.n(wl)`. -/
noncomputable def tmmThetaT (front : Bool) (ratio T θ : ℝ) : Option ℝ :=
  let quadrant := if front then π else 0
  if |ratio * Real.sin θ| ≤ 1 then some |-arcsin (ratio * Real.sin θ) + quadrant|
  else if T > 1e-8 then some |π / 2 - 1e-5 - quadrant|
  else none

/-- `bin_out_r`, `bin_out_t` as indices of `RT_mat`, tmm.py 78-80 and 99-103: the ring number is given. -/
noncomputable def tmmBin (g : Grid) (ring : ℤ) (phi : ℝ) : Option ℕ :=
  (overallBin g.phiIntv g.col0 ring phi).bind (pyIndex (2 * g.half))

/-- Column `j` of `RT_mat` for one wavelength (tmm.py 60-112); assignments, not additions. `none` is an IndexError. -/
noncomputable def tmmColumn (g : Grid) (phiSym : ℝ) (front : Bool) (ratio : ℝ) (res : TmmRes) (j : ℕ) : Option (ℕ → ℝ) :=
  (tmmRow g front j).bind fun row =>
  (tmmLookup g front j).bind fun θ =>
  let phi := tmmPhiOut phiSym row.phi
  (tmmBin g (thetaBin g row.theta) phi).bind fun binR =>
  let col := fun i => if i = binR then res.R θ else 0
  match tmmThetaT front ratio (res.T θ) θ with
  | none => some col
  | some θt => (tmmBin g (thetaBin g θt) phi).map fun binT => fun i => if i = binT then res.T θ else col i

/-- Column `j` of `A_mat`, tmm.py 108. -/
noncomputable def tmmAbsColumn (g : Grid) (front : Bool) (res : TmmRes) (j : ℕ) : Option (ℕ → ℝ) :=
  (tmmLookup g front j).map res.A

/-! ## Reversing the stack -/

/-- A numpy array of which only the layer axis matters, seen through a possibly flipped view (`np.flip` returns a view). -/
structure View (α : Type*) where
  buf : List α
  flipped : Bool

namespace View
variable {α : Type*}

/-- Reading the view. -/
def read (v : View α) : List α := if v.flipped then v.buf.reverse else v.buf

/-- Assigning to all entries through the view, `v[...] = x`. -/
def write (v : View α) (x : List α) : View α := { v with buf := if v.flipped then x.reverse else x }

/-- `np.flip`. -/
def flip (v : View α) : View α := { v with flipped := !v.flipped }

end View

/-- The loop over polarisations for one side in `make_TMM_lookuptable` (lookup_table.py 157-194) and in `TMM` (tmm.py 264-303), for one array
and one angle and wavelength: write the solver result (negative values clipped to zero, part of `run`), flip if the stack was reversed, store. `flips` is `side == -1` resp. `front_or_rear == "rear"`.
Result: what is stored for each polarisation. -/
def polLoop {α Pol : Type*} (flips : Bool) (run : Pol → List α) : View α → List Pol → List (Pol × List α)
  | _, [] => []
  | v, p :: ps =>
    let v1 := v.write (run p)
    let v2 := if flips then v1.flip else v1
    (p, v2.read) :: polLoop flips run v2 ps

/-- A stack handed to the solver: layers with coherency labels, in the order of the light. -/
structure LayerStack (L : Type*) where
  layers : List L
  coh : List Bool

/-- `optstacks[i1]`, `coherency_lists[i1]` and `prof_layer_list[i1]` of `make_TMM_lookuptable` (lookup_table.py 66-84): index 0 is the stack as given,
index 1 the reversed one. -/
def lookupStack {L : Type*} (layers : List L) (coh : List Bool) (second : Bool) : LayerStack L :=
  if second then ⟨layers.reverse, coh.reverse⟩ else ⟨layers, coh⟩

/-- `prof_layer_list[i1]`, lookup_table.py 68-69. -/
def lookupProf (nLayers : ℕ) (prof : List ℤ) (second : Bool) : List ℤ :=
  if second then prof.reverse.map fun l => nLayers - l + 1 else prof

/-- What `make_TMM_lookuptable` stores (lookup_table.py 146-194) for each entry of `sides`: absorption per layer, listed under the labels `1 .. n`, and profile
coefficients, listed under the labels `prof_layers`.  `solveA` and `solveP` stand for `tmm_structure(stack).calculate(...)`: absorption per layer, coefficients of layer `l`. -/
def lookupTable {L α Pol : Type*} (solveA : LayerStack L → Pol → List α) (solveP : LayerStack L → Pol → ℤ → α)
    (layers : List L) (coh : List Bool) (prof : List ℤ) (pols : List Pol) (sides : List ℤ) (junk : List α) :
    List (ℤ × List (Pol × List α) × List (Pol × List α)) :=
  sides.zipIdx.map fun p =>
    let stk := lookupStack layers coh (p.2 == 1)
    let pl := lookupProf layers.length prof (p.2 == 1)
    (p.1, polLoop (p.1 == -1) (solveA stk) ⟨junk, false⟩ pols, polLoop (p.1 == -1) (fun q => pl.map (solveP stk q)) ⟨junk, false⟩ pols)

/-- The stack `TMM` hands to the solver, tmm.py 161, 195-200 and 256-260: the layers are reversed for rear incidence, the coherency list is not. -/
def tmmStack {L : Type*} (layers : List L) (coh : List Bool) (front : Bool) : LayerStack L :=
  if front then ⟨layers, coh⟩ else ⟨layers.reverse, coh⟩

/-- `build_coh_list`, tmm.py 732-757: `none` is the failed assertion; `true` stands for "c". -/
def buildCohList (numLayers : ℕ) (noBackReflection : Bool) (coh : List Bool) : Option (List Bool) :=
  if coh.length = numLayers then
    some ([false] ++ coh ++ if noBackReflection then [false, false] else [false])
  else none

/-! ## `tmm_structure.calculate` -/

/-- Result of the solver for one polarisation and wavelength: `R`, `T` and the absorption in all media, first and last included. -/
structure Solved where
  R : ℝ
  T : ℝ
  A : List ℝ

/-- Output of `calculate`. -/
structure Calc where
  R : ℝ
  T : ℝ
  A : ℝ
  perLayer : List ℝ

/-- `l[1:-1]`. -/
def inner {α : Type*} (l : List α) : List α := l.tail.dropLast

/-- Coherent, one polarisation, tmm.py 618-630. -/
def calcCohPol (o : Solved) : Calc := ⟨o.R, o.T, 1 - o.R - o.T, inner o.A⟩

/-- Incoherent, one polarisation, tmm.py 631-657. -/
noncomputable def calcIncPol (o : Solved) : Calc :=
  let A := o.A.map fun a => if a < 0 then 0 else a
  let tot := if 1 - o.R - o.T < 0 then 0 else 1 - o.R - o.T
  let sum := (inner A).sum
  ⟨o.R, o.T, tot, (inner A).map fun a => if sum ≠ 0 then a * tot / sum else a⟩

/-- Coherent, unpolarised, tmm.py 659-682. -/
noncomputable def calcCohU (p s : Solved) : Calc :=
  let R := 0.5 * (p.R + s.R)
  let T := 0.5 * (p.T + s.T)
  ⟨R, T, 1 - R - T, List.zipWith (fun a b => 0.5 * (a + b)) (inner p.A) (inner s.A)⟩

/-- Incoherent, unpolarised, tmm.py 683-714; `junk` is the uninitialised memory returned by `np.divide(..., where=...)` without `out=`. -/
noncomputable def calcIncU (p s : Solved) (junk : ℕ → ℝ) : Calc :=
  let R := 0.5 * (p.R + s.R)
  let T := 0.5 * (p.T + s.T)
  let tot := 1 - R - T
  let A := List.zipWith (fun a b => 0.5 * (a + b)) (inner p.A) (inner s.A)
  ⟨R, T, tot, A.mapIdx fun i a => divideWhere (decide (A.sum ≠ 0)) (junk i) (a * tot) A.sum⟩

/-! ## Profile coefficients of incoherent layers -/

/-- `np.cumsum`. -/
def cumsumL (l : List ℝ) : List ℝ := (List.range l.length).map fun i => (l.take (i + 1)).sum

/-- Factor of the coefficient `A2` of incoherent layer `l` for one polarisation, tmm.py 464 and 507: `fraction_reaching[l - 1]`, where `A_per_layer` is the
rescaled list of the layers between the first and the last medium (tmm.py 645-654). -/
noncomputable def fracReachingPol (o : Solved) (l : ℕ) : Option ℝ :=
  (cumsumL (calcIncPol o).perLayer)[l - 1]?.map fun x => 1 - x

/-- The same for unpolarised light, tmm.py 527-531 and 586: here `A_per_layer_s` still contains the first medium, and both terms use s. -/
noncomputable def fracReachingU (_p s : Solved) (l : ℕ) : Option ℝ :=
  (cumsumL s.A)[l - 1]?.map fun x => 0.5 * ((1 - x) + (1 - x))

/-- Coefficients of a coherent layer in a partly incoherent stack for unpolarised light, tmm.py 568-571: `fn_s.add(fn_p).scale(0.5)` where `fn_p` is computed from
`out_s` as well. `coeff` is `inc_find_absorp_analytic_fn(l, ·)`. -/
noncomputable def incCoeffU {O : Type*} (coeff : O → ℝ) (_outP outS : O) : ℝ := 0.5 * (coeff outS + coeff outS)

end Rayflare.Model
