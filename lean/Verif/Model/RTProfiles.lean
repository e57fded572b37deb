import Verif.Np
import Mathlib.Analysis.SpecialFunctions.Trigonometric.Basic
import Mathlib.Algebra.BigOperators.Ring.Finset
import Mathlib.Algebra.Order.BigOperators.Group.Finset

/-!
# Model of the absorption profiles in interface layers: `calculate_interface_profiles` and `make_profiles_wl`
(rayflare/ray_tracing/rt.py 570-719 and 1259-1353)

One wavelength. Layers are numbered 0, 1, … in the order of the list of layers; depth samples within layer `l` are `j * dx` for `j < n l`
(`np.arange(0, width, depth_spacing)`). `none` stands for NaN.
-/

namespace Rayflare.Model

open Rayflare.Np Finset

/-- The six profile coefficients of a layer (`coeff` axis of the lookup table). -/
structure Coeff where
  A1 : ℝ
  A2 : ℝ
  A3r : ℝ
  A3i : ℝ
  a1 : ℝ
  a3 : ℝ

/-- The first four are multiplied by the scale factor, the last two are kept, rt.py 650-662 and 1308-1318. -/
def Coeff.scale (k : ℝ) (c : Coeff) : Coeff := { c with A1 := c.A1 * k, A2 := c.A2 * k, A3r := c.A3r * k, A3i := c.A3i * k }

/-- Absorption density at depth `z`: `np.real(part1 + part2 + part3 + part4)`, rt.py 586-590 and 1277-1281. -/
noncomputable def Coeff.at (c : Coeff) (z : ℝ) : ℝ :=
  ((c.A1 * Complex.exp (c.a1 * z) + c.A2 * Complex.exp (-c.a1 * z) + (c.A3r + Complex.I * c.A3i) * Complex.exp (Complex.I * c.a3 * z) +
    (c.A3r - Complex.I * c.A3i) * Complex.exp (-Complex.I * c.a3 * z) : ℂ)).re

/-- `np.sum` over numbers some of which may be NaN. -/
noncomputable def sumNaN : List (Option ℝ) → Option ℝ
  | [] => some 0
  | a :: as => a.bind fun x => (sumNaN as).map fun y => x + y

/-- `np.trapz(y, dx=dx)`. -/
noncomputable def trapzDx (dx : ℝ) : List ℝ → ℝ
  | a :: b :: r => dx * (b + a) / 2 + trapzDx dx (b :: r)
  | _ => 0

/-! ## `calculate_interface_profiles` -/

/-- A ray absorbed in the interface: local angle, side it came from, and what it left in each of the requested layers. -/
structure ProfEvent where
  θ : ℝ
  front : Bool
  data : ℕ → ℝ

/-- `scale_factor` of one ray, rt.py 621-628: mean over the requested layers with tabulated absorption above 1e-10 of (absorbed / tabulated); NaN if there are none. -/
noncomputable def scaleFactor (L : ℕ) (A data : ℕ → ℝ) : Option ℝ :=
  let S := (range L).filter fun l => A l > 1e-10
  if S = ∅ then none else some ((∑ l ∈ S, data l / A l) / S.card)

/-- Profile of one ray in sample `j` of requested layer `l`, rt.py 583-596, 640-668: `look side θ` is the interpolated table (absorption and coefficients per requested layer), NaN
outside the tabulated range of angles; samples are flipped for rear incidence. `n l` is the number of samples. -/
noncomputable def eventAt (L : ℕ) (n : ℕ → ℕ) (dx : ℝ) (look : Bool → ℝ → Option (ℕ → ℝ × Coeff)) (ev : ProfEvent) (l j : ℕ) : Option ℝ :=
  (look ev.front |ev.θ|).bind fun t =>
  (scaleFactor L (fun l => (t l).1) ev.data).map fun k =>
    (((t l).2).scale k).at (((if ev.front then j else n l - 1 - j : ℕ) : ℝ) * dx)

/-- `profile_front`, `profile_back`, rt.py 664-672, 699-707: sum over the rays of one side, then `fillna(0)`; 0 if there are none. -/
noncomputable def sideProfile (L : ℕ) (n : ℕ → ℕ) (dx : ℝ) (look : Bool → ℝ → Option (ℕ → ℝ × Coeff)) (evs : List ProfEvent) (front : Bool) (l j : ℕ) : ℝ :=
  (sumNaN ((evs.filter fun e => e.front == front).map fun e => eventAt L n dx look e l j)).getD 0

/-- `profile = profile_front + profile_back`, rt.py 713. -/
noncomputable def rawProfile (L : ℕ) (n : ℕ → ℕ) (dx : ℝ) (look : Bool → ℝ → Option (ℕ → ℝ × Coeff)) (evs : List ProfEvent) (l j : ℕ) : ℝ :=
  sideProfile L n dx look evs true l j + sideProfile L n dx look evs false l j

/-- The depth axis obtained by joining the layers: pairs (layer, sample). -/
def depthAxis (L : ℕ) (n : ℕ → ℕ) : List (ℕ × ℕ) := (List.range L).flatMap fun l => (List.range (n l)).map fun j => (l, j)

/-- `integrated_profile`, rt.py 715: every layer is zero at the samples of the other layers. -/
noncomputable def integratedProfile (L : ℕ) (n : ℕ → ℕ) (dx : ℝ) (p : ℕ → ℕ → ℝ) : ℝ :=
  ∑ l ∈ range L, trapzDx dx ((depthAxis L n).map fun q => if q.1 = l then p q.1 q.2 else 0)

/-- `calculate_interface_profiles`, rt.py 713-719; `Acorr` is the total absorption in the requested layers. -/
noncomputable def interfaceProfile (L : ℕ) (n : ℕ → ℕ) (dx : ℝ) (look : Bool → ℝ → Option (ℕ → ℝ × Coeff)) (evs : List ProfEvent) (Acorr : ℝ) : List ℝ :=
  let p := rawProfile L n dx look evs
  let tot := integratedProfile L n dx p
  let scale := if tot > 0 then Acorr / tot else 0
  (depthAxis L n).map fun q => scale * ∑ l ∈ range L, if q.1 = l then p q.1 q.2 else 0

/-- `A_in_profile_layers` summed, rt.py 1208-1214 and 715: all rays absorbed in the interface, divided by the number of rays traced. -/
noncomputable def totalInLayers (L : ℕ) (evs : List ProfEvent) (nRays : ℕ) : ℝ := ∑ l ∈ range L, (evs.map fun e => e.data l).sum / nRays

/-! ## `make_profiles_wl` -/

/-- `nz` for one direction of incidence and one local angle, rt.py 1333-1334: the sum over all `N` layers of the scaled coefficient `A1` is not zero (NaN counts as not zero). `t l = none` for
layers that are not in the list of profile layers: the table has no coefficients for them. -/
noncomputable def rowKept (N : ℕ) (w : ℝ) (t : ℕ → Option Coeff) : Bool :=
  match sumNaN ((List.range N).map fun l => (t l).map fun c => c.A1 * w) with
  | none => true
  | some x => decide (x ≠ 0)

/-- Coefficients for one local angle with weight `w`, rt.py 1290-1297: `a1`, `a3` are replaced by 0 if the weight is 0. -/
noncomputable def weighted (w : ℝ) (c : Coeff) : Coeff :=
  { c.scale w with a1 := if w ≠ 0 then c.a1 else 0, a3 := if w ≠ 0 then c.a3 else 0 }

/-- The profile for one direction of incidence in sample `j` of layer `l`, rt.py 1271-1291 and 1336-1351; `rows` lists for each local angle its weight and its coefficients (NaN: outside the table). `front` is `side == 1`. -/
noncomputable def profileWl (N : ℕ) (n : ℕ → ℕ) (dx : ℝ) (front : Bool) (rows : List (ℝ × (ℕ → Option Coeff))) (l j : ℕ) : ℝ :=
  let kept := rows.filter fun r => rowKept N r.1 r.2
  let v := (sumNaN (kept.map fun r => (r.2 l).map fun c => (weighted r.1 c).at (((if front then j else n l - 1 - j : ℕ) : ℝ) * dx))).getD 0
  if v ≥ 0 then v else 0

end Rayflare.Model
