import Verif.Model.Angles

/-!
# Model of the incidence and ray-format parts of `matrix_formalism/multiply_matrices.py`,
of `matrix_formalism/ideal_cases.py`, and of the incidence binning of `ray_tracing/rt.py`
-/

namespace Rayflare.Model

open Rayflare.Np Real

/-- `int(len(angle_vector) / 2)` (multiply_matrices.py 100, 325; everywhere else too). -/
def Grid.half (g : Grid) : ℕ := g.angleVector.length / 2

/-- The option `phi_in`: a number or the string `'all'`. -/
inductive PhiIn
  | all
  | val (phi : ℝ)

/-- One row of `v0` as built by `make_v0` (multiply_matrices.py 97-112).  `none` is an IndexError
(of `phi_intv[th_bin]` or of `v0[:, ov_bin] = 1`); slice assignment clips silently. -/
noncomputable def makeV0Row (g : Grid) (thIn : ℝ) (phiIn : PhiIn) : Option (List ℝ) :=
  let nAIn := g.half
  let thBin : ℤ := (digitize thIn g.thetaIntv : ℤ) - 1
  (pyGet g.phiIntv thBin).bind fun edges =>
    let ovBin := ringRow g.col0 thBin
    match phiIn with
    | .all =>
      let nPhis := edges.length - 1
      some ((List.range nAIn).map
        (fun r => if ovBin ≤ r ∧ r < ovBin + nPhis then 1 / (nPhis : ℝ) else 0))
    | .val phi =>
      let idx : ℤ := (ovBin : ℤ) + ((digitize phi edges : ℤ) - 1)
      (pyIndex nAIn idx).map fun i =>
        (List.range nAIn).map (fun r => if r = i then 1 else 0)

/-- `make_v0` (multiply_matrices.py 79-112): the same row at each of `num_wl` wavelengths. -/
noncomputable def makeV0 (thIn : ℝ) (phiIn : PhiIn) (numWl n : ℕ) (cAz phiSym : ℝ) (sp : Spacing) :
    Option (List (List ℝ)) :=
  (makeV0Row (makeAngleVector n phiSym cAz sp) thIn phiIn).map (List.replicate numWl)

/-- The azimuth `matrix_multiplication` hands to `make_v0` (multiply_matrices.py 335-340): folded
only if strictly greater than `phi_symmetry`. -/
noncomputable def launchPhi (phiIn : PhiIn) (phiSym : ℝ) : PhiIn :=
  match phiIn with
  | .all => .all
  | .val p => if p > phiSym then .val (foldPhi p phiSym) else .val p

/-- The launched power vector of `matrix_multiplication` (multiply_matrices.py 335-350). -/
noncomputable def launch (thIn : ℝ) (phiIn : PhiIn) (numWl n : ℕ) (cAz phiSym : ℝ) (sp : Spacing) :
    Option (List (List ℝ)) :=
  makeV0 thIn (launchPhi phiIn phiSym) numWl n cAz phiSym sp

/-- The incidence bin (column) `RT`/`RT_wl` fill with `only_incidence_angle=True` and a numeric `phi_in`
for front incidence (rt.py 123-143: zero angles are replaced by 0.0001; rt.py 335, 354-369: fold and
right-closed binning). The column is `bin_in - 0`, used as a Python index of an axis of length `half`
(rt.py 403-412). -/
noncomputable def rtIncidenceColumn (g : Grid) (phiSym thIn phiIn : ℝ) : Option ℕ :=
  let th := if thIn = 0 then 0.0001 else thIn
  let ph := if phiIn = 0 then 0.0001 else phiIn
  (binOf g th (foldPhi ph phiSym)).bind (pyIndex g.half)

/-- The symmetry angle used for folding in `out_to_in_matrix` (multiply_matrices.py 117-118). -/
noncomputable def outToInSym (phiSym : ℝ) : ℝ :=
  if phiSym = 2 * π then phiSym - 0.0001 else phiSym

/-- The row receiving the 1 of one column of `out_to_in` (multiply_matrices.py 120-138), for the bin
described by `row`; Python indexing into an axis of length `len(angle_vector)`. -/
noncomputable def outBin (g : Grid) (phiSym : ℝ) (row : Row) : Option ℕ :=
  (binOf g (π - row.theta) (foldPhi (row.phi + π) (outToInSym phiSym))).bind
    (pyIndex g.angleVector.length)

/-- The matrix `out_to_in` (multiply_matrices.py 119, 138). -/
noncomputable def outToIn (g : Grid) (phiSym : ℝ) (r j : ℕ) : ℝ :=
  if (g.angleVector[j]?).bind (outBin g phiSym) = some r then 1 else 0

/-- `up_to_down` (multiply_matrices.py 140): rows of the lower, columns of the upper half. -/
noncomputable def upToDown (g : Grid) (phiSym : ℝ) (r j : ℕ) : ℝ := outToIn g phiSym (g.half + r) j

/-- `down_to_up` (multiply_matrices.py 141). -/
noncomputable def downToUp (g : Grid) (phiSym : ℝ) (r j : ℕ) : ℝ := outToIn g phiSym r (g.half + j)

/-! ## ideal_cases.py -/

/-- `mirror_matrix`, position of the 1 in column `j` (ideal_cases.py 121-151); `front` selects which half
of `angle_vector` is incident. Python index into `2*len(overall_bin)` rows. Unlike
`out_to_in_matrix` there is no special case for `phi_sym = 2π`. -/
noncomputable def mirrorBin (g : Grid) (phiSym : ℝ) (front : Bool) (j : ℕ) : Option ℕ :=
  (g.angleVector[if front then j else g.half + j]?).bind fun row =>
    (binOf g row.theta (foldPhi (row.phi + π) phiSym)).bind (pyIndex (2 * g.half))

/-- `mirror_matrix` (ideal_cases.py 86-162): the full (R over T) matrix. -/
noncomputable def mirrorMatrix (g : Grid) (phiSym : ℝ) (front : Bool) (r j : ℕ) : ℝ :=
  if mirrorBin g phiSym front j = some r then 1 else 0

/-- `theta_values` of `lambertian_matrix`: `np.unique` of the polar angles below π/2
(ideal_cases.py 45). -/
noncomputable def lambertThetas (g : Grid) : List ℝ :=
  unique ((g.angleVector.map Row.theta).filter (fun t => decide (t < π / 2)))

/-- `dtheta` (ideal_cases.py 46). -/
noncomputable def lambertDtheta (g : Grid) : List ℝ :=
  diff (g.thetaIntv.filter (fun t => decide (t ≤ π / 2)))

/-- `n_phis` (ideal_cases.py 56). -/
noncomputable def lambertNphis (g : Grid) : List ℕ :=
  (lambertThetas g).map (fun t => g.angleVector.countP (fun row => decide (row.theta = t)))

/-- `column` before normalisation (ideal_cases.py 48, 58-62). -/
noncomputable def lambertColumn (g : Grid) : List ℝ :=
  let dP := List.zipWith (fun t d => Real.cos t * d) (lambertThetas g) (lambertDtheta g)
  (List.zip dP (lambertNphis g)).flatMap (fun p => List.replicate p.2 (p.1 / (p.2 : ℝ)))

/-- One column of the stored matrix (ideal_cases.py 64-72): normalised reflection part followed by
as many zeros. All `half` columns are this one (line 64); `A_matrix` (line 74) is zero. -/
noncomputable def lambertStored (g : Grid) : List ℝ :=
  let col := lambertColumn g
  let R := col.map (fun x => x / col.sum)
  R ++ R.map (fun _ => 0)

end Rayflare.Model
