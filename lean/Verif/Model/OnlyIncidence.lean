import Verif.Model.Launch
import Verif.Model.RTMatrix
import Verif.Model.MatMul

/-!
# Model of the option `only_incidence_angle` (process_structure.py 43-49, 196-242; rt.py 123-157)

With this option (the default, options.py 31) the front of the first surface is ray-traced for the requested direction only.
-/

namespace Rayflare.Model

/-- `determine_only_incidence`, process_structure.py 43-49: `front` is `sd == "front"`, `i` the position in the list of surfaces and bulk layers. -/
def determineOnlyIncidence (front : Bool) (i : ℕ) (oia : Bool) : Bool :=
  if front = true ∧ i = 0 ∧ oia = true then true else false

/-- The launched directions with `only_incidence_angle`, rt.py 123-143: zero angles are replaced by 0.0001 and the direction is repeated `n_reps` times.  With `phi_in = 'all'`
the array of azimuths holds that string (line 138), and the first use of it (rt.py 308 `cos(phi)`, or 335 `fold_phi` when no ray is traced) raises: `none`. -/
noncomputable def launchedOnly (g : Grid) (nAng : ℕ) (thIn : ℝ) (phiIn : PhiIn) : Option (List (ℝ × ℝ)) :=
  let th : ℝ := if thIn = 0 then 0.0001 else thIn
  let nReps := ⌈(nAng : ℝ) / ((g.angleVector.length / 2 : ℕ) : ℝ)⌉₊
  match phiIn with
  | .all => none
  | .val p => some (List.replicate nReps (th, if p = 0 then 0.0001 else p))

/-- What `process_structure` makes `RT` store for one side of the surface at position `i`, at one wavelength (process_structure.py 196-242, rt.py 123-157 without random
angles, and `RT_wl`).  `res l1 l2` is what happens to the ray of direction `l1` at position `l2`. -/
noncomputable def rtStored (g : Grid) (phiSym : ℝ) (tmm front : Bool) (nL i : ℕ) (oia : Bool) (nRays nx ny : ℕ) (thIn : ℝ) (phiIn : PhiIn)
    (res : ℕ → ℕ → RTOut) (u : RTJunk) : Option RTMat :=
  (if determineOnlyIncidence front i oia then launchedOnly g (nAngles nRays nx ny) thIn phiIn else some (launched g (nAngles nRays nx ny))).bind fun dirs =>
    rtMatrix { g := g, phiSym := phiSym, tmm := tmm, front := front, nLayers := nL } u (traced dirs (nx * ny) res)

/-- The pair of arrays at one wavelength saved by `RT` (rt.py 241-246), for `h` incidence bins and `nL` layers. -/
def RTMat.stored (N : RTMat) (h nL : ℕ) : Matrix (Fin (h + h)) (Fin h) ℝ × Matrix (Fin nL) (Fin h) ℝ :=
  (fun r j => N.out r j, fun l j => N.A l j)

end Rayflare.Model
