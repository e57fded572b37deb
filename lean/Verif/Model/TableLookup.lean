import Verif.Np
import Mathlib.Analysis.SpecialFunctions.Trigonometric.Basic

/-!
# Model of reading a lookup table while tracing a ray
(rayflare/ray_tracing/rt.py 1902-1910; rayflare/transfer_matrix_method/lookup_table.py 64-67, 90-130)
-/

namespace Rayflare.Model

open Rayflare.Np

/-- The angles of a table: `np.linspace(0, (np.pi / 2) - 1e-3, n_angles)`, lookup_table.py 67. -/
noncomputable def tableAngles (n : ℕ) : List ℝ := linspace 0 (Real.pi / 2 - 1 / 1000) n

/-- A table: coordinates and the entries, by side, polarisation and positions of wavelength (nm) and angle. -/
structure LookTab (E : Type*) where
  wls : List ℝ
  angles : List ℝ
  entry : ℤ → Bool → ℕ → ℕ → E

/-- Position found by `.sel(..., method="nearest")` (xarray: `Index.get_indexer(..., method="nearest")` of pandas).  `none` is an exception: KeyError for an empty axis, InvalidIndexError for coordinates that are not distinct, ValueError
("index must be monotonic increasing or decreasing") for coordinates that are neither increasing nor decreasing, whether or not `x` is one of them.  Of two coordinates at the same distance the larger is taken: the last of the nearest
along an increasing axis, the first along a decreasing one. -/
noncomputable def nearestIdx (coords : List ℝ) (x : ℝ) : Option ℕ :=
  if coords = [] then none
  else if coords.Pairwise (· < ·) then some (coords.length - 1 - argmin (coords.reverse.map fun c => |c - x|))
  else if coords.Pairwise (· > ·) then some (argmin (coords.map fun c => |c - x|))
  else none

/-- `lookuptable.loc[dict(side=side, pol=pol)].sel(angle=abs(theta), wl=wl * 1e9, method="nearest")`, rt.py 1903-1905; `wl` in m. -/
noncomputable def readTable {E : Type*} (tab : LookTab E) (side : ℤ) (pol : Bool) (wl θ : ℝ) : Option E :=
  (nearestIdx tab.wls (wl * 10 ^ 9)).bind fun i => (nearestIdx tab.angles |θ|).map fun k => tab.entry side pol i k

/-- Positions of the label `x` along an axis: what `.loc[dict(wl=x)]` selects. -/
noncomputable def locPositions (coords : List ℝ) (x : ℝ) : List ℕ := (List.range coords.length).filter fun i => coords[i]? = some x

/-- One column of the absorption matrix of a TMM surface: `data = allres.loc[dict(angle=theta, wl=wl)]` followed by `A_mat[:, i1] = data["Alayer"]`, transfer_matrix_method/tmm.py 70-112, as a function of the wavelength only; `res i` is
what was calculated for the wavelength at position `i` of `options["wavelength"]`.  `none` is an exception: KeyError for a label that is not on the axis; for a label that occurs several times the selection keeps the wavelength axis and
the assignment of a two-dimensional array to a column is a ValueError. -/
noncomputable def absColumn {E : Type*} (wls : List ℝ) (res : ℕ → E) (x : ℝ) : Option E :=
  match locPositions wls x with
  | [i] => some (res i)
  | _ => none

/-- The columns in the order in which they are stored: `[make_matrix_wl(wl) for wl in wavelengths]`, tmm.py 338; one exception ends the calculation. -/
noncomputable def absColumns {E : Type*} (wls : List ℝ) (res : ℕ → E) : Option (List E) := wls.mapM (absColumn wls res)

end Rayflare.Model
