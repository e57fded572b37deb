import Verif.Model.Intersect
import Verif.Model.RTMatrix
import Verif.Model.RTStart

/-!
# Model of `rayflare/ray_tracing/rt.py`: from the geometry of a surface to what `RT_wl` counts (`single_ray_interface`)
-/

namespace Rayflare.Model

/-- The decision at a facet with a lookup table, with the `n0`, `n1` of rt.py 2075-2081 and the table entry nearest to the local angle and the wavelength for the side the
ray comes from: `tab side |θ| = (R, T, A_per_layer)`, rt.py 1902-1909. -/
noncomputable def tmmDec (nAbove nBelow : ℂ) (tab : ℤ → ℝ → ℝ × ℝ × List ℝ) (rnd : ℝ) : ℝ → V3 → V3 → ℤ → V3 × ℤ × Option (List ℝ) :=
  fun θ d N side =>
    let n0 := if side = 1 then nAbove else nBelow
    let n1 := if side = 1 then nBelow else nAbove
    let e := tab side |θ|
    decideTMM n0 n1 e.1 e.2.1 e.2.2 d N side rnd

/-- The unit cell of the surface: `surf.Lx`, `surf.Ly`, `surf.zcov`, and the height `h` of the starting points. -/
structure Texture where
  Lx : ℝ
  Ly : ℝ
  zcov : ℝ
  h : ℝ

/-- `single_ray_interface`, rt.py 1779-1853, for a ray launched from `(θ, φ)` at `(x, y)`: start, shift by whole periods, and the interaction with the first surface, after which
the loop ends (C80).  `ws` is what the iterations of `single_interface_check` draw; `none`: still running after them. -/
noncomputable def traceInterface (c : Texture) (θ φ x y : ℝ) (ws : List Draw) : Option SicRes :=
  let ra0 := rA0 c.h θ φ
  let d := launchD x y ra0
  let r := wrapRay (launchA x y ra0) d c.Lx c.Ly c.zcov
  match sicRun c.Lx c.Ly d ws (sicStart r d 1 0) with
  | .inl _ => none
  | .inr res => some res

/-- `np.real(atan2(d[1], d[0]))`, the returned azimuth `o_p`, rt.py 2003, 2032. -/
noncomputable def azimuth (d : V3) : ℝ := Complex.arg ⟨d.x, d.y⟩

/-- `th_o`, `phi_o` and `surface_A` as returned by `single_ray_interface`, rt.py 1823-1853.  An absorbed ray returns the absorption per layer and the local angle. -/
noncomputable def SicRes.rayOut : SicRes → RTOut
  | .out _ ot _ d _ _ _ => .leaves ot (azimuth d)
  | .absorbed A _ _ θ _ _ => .absorbed (fun l => A.getD l 0) θ
  | .gaveUp ot _ d _ _ => .leaves ot (azimuth d)
  | .lost _ ot d _ => .leaves ot (azimuth d)

end Rayflare.Model
