import Verif.Model.Surface

/-!
# Model of `rough_planar_surface` with its arguments (rayflare/textures/standard_rt_textures.py 438-488)

The points are `roughPlanar` of `Model/Surface`. The random numbers are parameters: `u`, `v` for the positions and `noise` for the heights. `none` is an exception.
-/

namespace Rayflare.Model

open Rayflare.Np

/-- `n_per_side`, standard_rt_textures.py 456 (and 370): the square root rounded up. -/
noncomputable def perSide (nPoints : ℕ) : ℕ := ⌈√(nPoints : ℝ)⌉₊

/-- `noise_height` on a regular grid, standard_rt_textures.py 457 and 463-464: `np.diff(x)[0] * np.tan(noise_angle)`; IndexError if there is only one point. -/
noncomputable def regularNoise (size angle : ℝ) (n : ℕ) : Option ℝ :=
  match linspace 0 size n with
  | a :: b :: _ => some ((b - a) * Real.tan angle)
  | _ => none

/-- `noise_height` for random positions, standard_rt_textures.py 469-470. -/
noncomputable def randomNoise (size angle : ℝ) (nPoints : ℕ) : ℝ := size / √(nPoints : ℝ) * Real.tan angle

/-- The points of `rough_planar_surface`, standard_rt_textures.py 455-483; `np.random.random_sample` does not accept a negative size (468). -/
noncomputable def roughPlanarSurface (size angle : ℝ) (nPoints : ℕ) (regular : Bool) (u v noise : ℕ → ℝ) : Option (List V3) :=
  if regular then (regularNoise size angle (perSide nPoints)).map fun nh => roughPlanar size nh true (roughGrid size (perSide nPoints)) noise
  else if nPoints < 4 then none
  else some (roughPlanar size (randomNoise size angle nPoints) false ((List.range (nPoints - 4)).map fun k => (size * u k, size * v k)) noise)

end Rayflare.Model
