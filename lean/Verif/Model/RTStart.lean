import Verif.Model.Vec
import Verif.Model.RayStack
import Verif.Model.Angles
import Mathlib.Analysis.SpecialFunctions.Complex.Arg

/-!
# Model of `rayflare/ray_tracing/rt.py`: where a ray starts

`parallel_inner` / `RT_wl` build a point `r_a_0` from the angles; `single_ray_stack` and `single_ray_interface` turn it
into a starting point and a direction.
-/

namespace Rayflare.Model

open Rayflare.Np

/-- `r = abs((h + 1e-8) / cos(theta))` and `r_a_0 = np.real([r sinθ cosφ, r sinθ sinφ, r cosθ])`, rt.py 305-318 and
1121-1135 (angles real). -/
noncomputable def rA0 (h θ φ : ℝ) : V3 :=
  let r := |(h + 1e-8) / Real.cos θ|
  ⟨r * Real.sin θ * Real.cos φ, r * Real.sin θ * Real.sin φ, r * Real.cos θ⟩

/-- `r_a = r_a_0 + np.array([x, y, 0])`, rt.py 1621 and 1789. -/
noncomputable def launchA (x y : ℝ) (ra0 : V3) : V3 := ra0 + ⟨x, y, 0⟩

/-- `d = (r_b - r_a) / np.linalg.norm(r_b - r_a)` with `r_b = [x, y, 0]`, rt.py 1622-1626 and 1790-1793. -/
noncomputable def launchD (x y : ℝ) (ra0 : V3) : V3 :=
  let w := (⟨x, y, 0⟩ : V3) - launchA x y ra0
  ⟨w.x / w.norm, w.y / w.norm, w.z / w.norm⟩

/-- `z_offset`, rt.py 1605-1618. `cum_width = np.cumsum([0] + widths)` with `widths` a NumPy array: the list is
broadcast, so this is `np.cumsum(widths)`; the index −1 cannot occur here. -/
noncomputable def Stack.zOffset (S : Stack) (matI dirI : ℤ) (ra0 : V3) : ℝ :=
  if dirI = 1 ∧ matI > 0 then -(S.cum (matI - 1)) - 1e-8
  else if dirI = 1 ∧ matI = 0 then ra0.z
  else -(S.cum matI) + 1e-8

/-- The position `r_a` just before the loop of `single_ray_stack`, rt.py 1621-1636. -/
noncomputable def Stack.startPos (S : Stack) (x y : ℝ) (matI dirI : ℤ) (ra0 : V3) : V3 :=
  let ra := launchA x y ra0
  let d := launchD x y ra0
  let nd := -ra.z / d.z
  let ra := ra + nd • d
  ⟨ra.x, ra.y, S.zOffset matI dirI ra0⟩

/-- The direction `d` just before the loop of `single_ray_stack`, rt.py 1624-1639. -/
noncomputable def startDir (x y : ℝ) (dirI : ℤ) (ra0 : V3) : V3 :=
  let d := launchD x y ra0
  if dirI ≠ 1 then ⟨d.x, d.y, -d.z⟩ else d

/-- The part of a surface the randomised start needs. -/
structure Cell where
  Lx : ℝ
  Ly : ℝ
  zmin : ℝ
  zmax : ℝ
  zcov : ℝ

/-- The direction used by the randomised start: a ray parallel to the surface is tilted, rt.py 1670-1673. -/
noncomputable def randDir (d : V3) (dir : ℤ) : V3 :=
  if d.z = 0 then ⟨d.x, d.y, -(dir : ℝ) * 1e-3⟩ else d

/-- The randomised start, rt.py 1663-1676; `u`, `v` are the two random numbers. -/
noncomputable def randStart (c : Cell) (d : V3) (dir : ℤ) (u v : ℝ) : V3 :=
  let h := c.zmax - c.zmin + 0.1
  let rb : V3 := ⟨u * c.Lx, v * c.Ly, c.zcov⟩
  let d := randDir d dir
  let nz : ℝ := (⌈|h / d.z|⌉ : ℤ)
  rb - nz • d

/-- The azimuth under which a ray leaving a surface in direction `d` is filed: `np.real(atan2(d[1], d[0]))`, rt.py 2003, 2032, 2153, and
`fold_phi(phi_out, phi_sym)`, rt.py 334. -/
noncomputable def rtPhiOut (s : ℝ) (d : V3) : ℝ := foldPhi (Complex.arg ⟨d.x, d.y⟩) s

end Rayflare.Model
