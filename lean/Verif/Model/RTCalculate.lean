import Verif.Model.TraceStack
import Verif.Model.RTMatrix
import Mathlib.Data.List.ProdSigma

/-!
# Model of `rt_structure.calculate` and `parallel_inner`: launching the rays, collecting what they give, and the dictionary that is returned
(rayflare/ray_tracing/rt.py 834-1032 and 1067-1248)

What `single_ray_stack` does with a ray is a parameter here (`tracer`); it is modelled in Model/RayStack and Model/TraceStack.  `none` is an exception.
The absorption profiles inside interface layers (rt.py 1214-1240) are modelled in Model/IntProfile.  Python's `joblib.Parallel` is a plain map (order of results kept).
-/

namespace Rayflare.Model

open Rayflare.Np

/-! ## The arguments, in micrometres -/

/-- `widths`, rt.py 840-843: zero for the two outer media, and micrometres instead of metres. -/
noncomputable def calcWidths (widths : List ℝ) : List ℝ := ((0 :: widths) ++ [0]).map fun w => 1e6 * w

/-- `z_pos`, rt.py 845-846. -/
noncomputable def calcZ (widths : List ℝ) (spacing : ℝ) : List ℝ := arange (calcWidths widths).sum (1e6 * spacing)

/-- `alphas[:, i1]`, rt.py 881, for the extinction coefficients of all media at wavelength `wl` (in metres). -/
noncomputable def calcAlphas (ks : List ℝ) (wl : ℝ) : List ℝ := ks.map fun k => k * 4 * Real.pi / (wl * 1e6)

/-- What is handed to `single_ray_stack` at one wavelength (the part in `Stack`), rt.py 840-881. -/
noncomputable def calcStack (widths ks : List ℝ) (wl spacing thresh : ℝ) : Stack :=
  { widths := calcWidths widths, alphas := calcAlphas ks wl, zpos := calcZ widths spacing, thresh := thresh }

/-! ## Where the rays start -/

/-- `x_limits` (or `y_limits`), rt.py 892-907: given by the user, or the unit cell without one hundredth of its size at either end. -/
noncomputable def calcLimits (given : Option (ℝ × ℝ)) (lo hi : ℝ) : ℝ × ℝ :=
  given.getD (lo + 0.01 * (hi - lo), hi - 0.01 * (hi - lo))

/-- `xs` (or `ys`), rt.py 912-918: `n` random numbers from the interval (`us` are numbers from [0, 1)), or equally spaced points. -/
noncomputable def calcCoords (random : Bool) (us : ℕ → ℝ) (lim : ℝ × ℝ) (n : ℕ) : List ℝ :=
  if random then (List.range n).map fun i => lim.1 + (lim.2 - lim.1) * us i else linspace lim.1 lim.2 n

/-! ## One wavelength -/

/-- What `single_ray_stack` returns, rt.py 1761-1773: the variables in `Ray`, the azimuth and the number of interactions. -/
structure RayOut where
  ray : Ray
  phi : ℝ
  nInt : ℕ

/-- The arrays filled by `parallel_inner`, rt.py 1132-1146. `thetas`: `none` is NaN (from `None`). -/
structure Inner where
  Is : List ℝ
  profiles : ℕ → ℝ
  A : ℕ → ℝ
  thetas : List (Option ℝ)
  phis : List ℝ
  nPasses : List ℕ
  nInts : List ℕ
  ints : List (List (List ℝ))

/-- Before the loop, rt.py 1132-1146; `N` is `n_reps * nx * ny`. -/
def Inner.init (nSurf N : ℕ) : Inner :=
  { Is := List.replicate N 0, profiles := fun _ => 0, A := fun _ => 0, thetas := List.replicate N (some 0), phis := List.replicate N 0
    nPasses := List.replicate N 0, nInts := List.replicate N 0, ints := List.replicate (nSurf + 1) [] }

/-- `a[i] = v` for a one-dimensional array and a non-negative index. -/
def npSet {α : Type*} (l : List α) (i : ℕ) (v : α) : Option (List α) := if i < l.length then some (l.set i v) else none

/-- Recording one ray at position `i = c + offset`, rt.py 1181-1191. -/
noncomputable def Inner.record (N : ℕ) (s : Inner) (i : ℕ) (o : RayOut) : Option Inner :=
  (pyIndex s.ints.length o.ray.aIdx).bind fun k =>
  (npSet s.thetas i o.ray.θ).bind fun thetas =>
  (npSet s.phis i o.phi).bind fun phis =>
  (npSet s.Is i o.ray.I).bind fun Is =>
  (npSet s.nPasses i o.ray.nPasses).bind fun nPasses =>
  (npSet s.nInts i o.nInt).bind fun nInts =>
  some { Is := Is, profiles := fun z => s.profiles z + o.ray.profile z / N, A := fun m => s.A m + o.ray.A m / N, thetas := thetas, phis := phis
         nPasses := nPasses, nInts := nInts, ints := s.ints.set k (s.ints.getD k [] ++ [o.ray.aInt]) }

/-- The two loops, rt.py 1148-1191: `n_reps` times all the points of `product(xs, ys)`. `tracer j c x y` is what the ray launched at point number `c` in repetition `j` gives
(the numbers `j` and `c` stand for the random numbers it uses). -/
noncomputable def innerLoop (nSurf nx ny nReps : ℕ) (xs ys : List ℝ) (tracer : ℕ → ℕ → ℝ → ℝ → Option RayOut) : Option Inner :=
  (List.range nReps).foldlM (fun s j =>
    (xs.product ys).zipIdx.foldlM (fun s p =>
      (tracer j p.2 p.1.1 p.1.2).bind fun o => s.record (nReps * nx * ny) (p.2 + j * nx * ny) o) s)
    (Inner.init nSurf (nReps * nx * ny))

/-- `np.sum(np.stack(layer_data), axis=0) / (n_reps * nx * ny)`, rt.py 1208-1210; `np.stack` wants arrays of one length. -/
noncomputable def stackSum (N : ℕ) (data : List (List ℝ)) : Option (List ℝ) :=
  let n := (data.headD []).length
  if data.all fun d => d.length == n then some ((List.range n).map fun l => (data.map fun d => d.getD l 0).sum / N) else none

/-- `A_in_interfaces`, rt.py 1105 and 1193-1210; `nls` is `n_interface_layers`. Index 0 (rays that are not absorbed in an interface) is dropped. -/
noncomputable def innerInterfaces (N : ℕ) (nls : List ℕ) (ints : List (List (List ℝ))) : Option (List (List ℝ)) :=
  ints.tail.zipIdx.foldlM (fun acc p => if p.1 = [] then some acc else (stackSum N p.1).bind fun v => npSet acc p.2 v)
    (nls.map fun n => List.replicate n (0 : ℝ))

/-- `parallel_inner`, rt.py 1067-1248: the arrays, and the absorption per interface layer (`none`: no lookup tables, `A_in_interfaces = 0`). `tmm` is `n_interface_layers` if there are tables. -/
noncomputable def parallelInner (nSurf nx ny nReps : ℕ) (xs ys : List ℝ) (tmm : Option (List ℕ)) (tracer : ℕ → ℕ → ℝ → ℝ → Option RayOut) :
    Option (Inner × Option (List (List ℝ))) :=
  (innerLoop nSurf nx ny nReps xs ys tracer).bind fun s =>
  match tmm with
  | none => some (s, none)
  | some nls => (innerInterfaces (nReps * nx * ny) nls s.ints).map fun a => (s, some a)

/-! ## All wavelengths -/

/-- The dictionary returned by `calculate`, rt.py 1015-1032 (without the profiles in interface layers). The outer lists run over wavelengths, except in `A_per_interface`, which runs over the
interfaces, then wavelengths, then layers. -/
structure RTResult where
  R : List ℝ
  T : List ℝ
  R0 : List ℝ
  A_per_layer : List (List ℝ)
  profile : List (List ℝ)
  thetas : List (List (Option ℝ))
  phis : List (List ℝ)
  n_passes : List (List ℕ)
  n_interactions : List (List ℕ)
  A_per_interface : Option (List (List (List ℝ)))

/-- An entry of `refl`, rt.py 984-989: `np.less_equal(..., where=non_abs)` leaves unset memory (`junk`) where the angle is NaN. -/
noncomputable def reflMask (junk : Bool) (θ : Option ℝ) : Bool :=
  let nonAbs := θ.isSome
  nonAbs && (match θ with | some t => decide (t ≤ Real.pi / 2) | none => junk)

/-- An entry of `trns`, rt.py 990-992. -/
noncomputable def trnsMask (junk : Bool) (θ : Option ℝ) : Bool :=
  let nonAbs := θ.isSome
  nonAbs && (match θ with | some t => decide (t > Real.pi / 2) | none => junk)

/-- `np.sum(np.real(Is * mask).T / (n_reps * nx * ny), 0)` at one wavelength, rt.py 994-997 and 1004-1005. -/
noncomputable def maskedSum (N : ℕ) (Is : List ℝ) (mask : List Bool) : ℝ := (List.zipWith (fun I m => I * (if m then 1 else 0) / (N : ℝ)) Is mask).sum

/-- `A_per_interface[j1][i1] = interf`, rt.py 960: the row has `n` entries; an array of one entry is broadcast. -/
def assignRow (n : ℕ) (v : List ℝ) : Option (List ℝ) :=
  if v.length = n then some v else if v.length = 1 then some (List.replicate n (v.headD 0)) else none

/-- `A_per_interface`, rt.py 949-960 (written interface by interface instead of wavelength by wavelength). -/
def perInterface (nls : List ℕ) (perWl : List (List (List ℝ))) : Option (List (List (List ℝ))) :=
  nls.zipIdx.mapM fun p => perWl.mapM fun rows => rows[p.2]?.bind (assignRow p.1)

/-- The arrays and interface absorptions of all wavelengths, `allres`. -/
abbrev AllRes := List (Inner × Option (List (List ℝ)))

/-- `A_per_interface`, or 0 (`none`) without lookup tables, rt.py 947-974. -/
def collectInt (tmm : Option (List ℕ)) (res : AllRes) : Option (Option (List (List (List ℝ)))) :=
  match tmm with
  | none => some none
  | some nls => (res.mapM Prod.snd).bind fun per => (perInterface nls per).map some

/-- `R`, `T` or `R0` at all wavelengths, rt.py 984-1005, for a mask that may use unset memory, the angle and the number of passes. -/
noncomputable def collectMasked (N : ℕ) (junk : ℕ → ℕ → Bool) (mask : Bool → Option ℝ → ℕ → Bool) (res : AllRes) : List ℝ :=
  res.zipIdx.map fun p =>
    maskedSum N p.1.1.Is (List.zipWith (fun (t : Option ℝ × ℕ) n => mask (junk p.2 t.2) t.1 n) p.1.1.thetas.zipIdx p.1.1.nPasses)

/-- `calculate` after the rays have been traced, rt.py 936-1032. `nMed`: number of media, `nZ`: number of depths. `junk` is unset memory, which differs for each mask, wavelength and ray. -/
noncomputable def collect (N nMed nZ : ℕ) (tmm : Option (List ℕ)) (junk : ℕ → ℕ → ℕ → Bool) (res : AllRes) : Option RTResult :=
  (collectInt tmm res).map fun aInt =>
    { R := collectMasked N (junk 0) (fun j t _ => reflMask j t) res
      T := collectMasked N (junk 1) (fun j t _ => trnsMask j t) res
      R0 := collectMasked N (junk 2) (fun j t n => reflMask j t && decide (n = 0)) res
      A_per_layer := res.map fun s => (List.range (nMed - 2)).map fun m => s.1.A (m + 1)
      profile := res.map fun s => (List.range nZ).map fun z => (if s.1.profiles z < 0 then 0 else s.1.profiles z) / 1e3
      thetas := res.map fun s => s.1.thetas
      phis := res.map fun s => s.1.phis
      n_passes := res.map fun s => s.1.nPasses
      n_interactions := res.map fun s => s.1.nInts
      A_per_interface := aInt }

/-- Options and structure as far as `calculate` itself uses them; the outer media are not in `widths`. `xlim`, `ylim` are the options `x_limits`, `y_limits`; the cell is that of the first surface. -/
structure CalcArgs where
  widths : List ℝ
  spacing : ℝ
  nx : ℕ
  ny : ℕ
  nRays : ℕ
  random : Bool
  xlim : Option (ℝ × ℝ)
  ylim : Option (ℝ × ℝ)
  xmin : ℝ
  xmax : ℝ
  ymin : ℝ
  ymax : ℝ
  tmm : Option (List ℕ)

/-- The points `xs` of `calculate`; `ux` are the random numbers. -/
noncomputable def CalcArgs.xs (a : CalcArgs) (ux : ℕ → ℝ) : List ℝ := calcCoords a.random ux (calcLimits a.xlim a.xmin a.xmax) a.nx

/-- The points `ys` of `calculate`. -/
noncomputable def CalcArgs.ys (a : CalcArgs) (uy : ℕ → ℝ) : List ℝ := calcCoords a.random uy (calcLimits a.ylim a.ymin a.ymax) a.ny

/-- `n_reps`, rt.py 923. -/
noncomputable def CalcArgs.nReps (a : CalcArgs) : ℕ := nAngles a.nRays a.nx a.ny

/-- `rt_structure.calculate`, rt.py 815-1032: `nWl` wavelengths; `tracer w j c x y` is what `single_ray_stack` returns at wavelength `w`.  The points are drawn once, before the loop over the
wavelengths. -/
noncomputable def calculate (a : CalcArgs) (ux uy : ℕ → ℝ) (junk : ℕ → ℕ → ℕ → Bool) (nWl : ℕ) (tracer : ℕ → ℕ → ℕ → ℝ → ℝ → Option RayOut) : Option RTResult :=
  ((List.range nWl).mapM fun w => parallelInner (a.widths.length + 1) a.nx a.ny a.nReps (a.xs ux) (a.ys uy) a.tmm (tracer w)).bind
    (collect (a.nReps * a.nx * a.ny) (a.widths.length + 2) (calcZ a.widths a.spacing).length a.tmm junk)

end Rayflare.Model
