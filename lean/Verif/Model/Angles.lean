import Verif.Np
import Mathlib.Analysis.SpecialFunctions.Trigonometric.Inverse

/-!
# Model of `rayflare/angles.py`
-/

namespace Rayflare.Model

open Rayflare.Np Real

/-- The recognised values of `theta_spacing` (angles.py 29, 40).  Any other string leaves
`theta_intv` unbound (UnboundLocalError) and is not representable here. -/
inductive Spacing
  | sin
  | linear
  deriving DecidableEq

/-- One row of `angle_vector` (angles.py 58-68): ring index, polar midpoint, azimuth midpoint.
The code stores the ring index as a float; here it is a natural number. -/
structure Row where
  ring : ℕ
  theta : ℝ
  phi : ℝ

/-- The three return values of `make_angle_vector` (angles.py 70). -/
structure Grid where
  thetaIntv : List ℝ
  phiIntv : List (List ℝ)
  angleVector : List Row

/-- `theta_intv` (angles.py 29-43). -/
noncomputable def thetaIntv (n : ℕ) : Spacing → List ℝ
  | .sin =>
    let sin_a_b := linspace 0 1 (n + 1)
    sin_a_b.map arcsin ++ (sin_a_b.dropLast.map arcsin).reverse.map (fun x => π - x)
  | .linear =>
    let t := linspace 0 (π / 2) (n + 1)
    t ++ t.dropLast.reverse.map (fun x => π - x)

/-- `theta_middle` (angles.py 45). -/
noncomputable def thetaMiddle (n : ℕ) (sp : Spacing) : List ℝ := midpoints (thetaIntv n sp)

/-- The ring's distance index `ind` (angles.py 50-53). -/
noncomputable def ringInd (lenIntv i1 : ℕ) (theta : ℝ) : ℕ :=
  if theta > π / 2 then lenIntv - (i1 + 1) else i1 + 1

/-- The azimuth edges of one ring (angles.py 55).  `int(np.ceil(c*ind) + 1)` is modelled with the
natural-number ceiling, which is the same for `c_azimuth ≥ 0` (the documented range); a negative
`c_azimuth` would make `np.linspace` raise. -/
noncomputable def phiEdges (phiSym cAz : ℝ) (ind : ℕ) : List ℝ :=
  linspace 0 phiSym (⌈cAz * (ind : ℝ)⌉₊ + 1)

/-- `make_angle_vector` (angles.py 15-70).  The append loop of lines 49-68 is a `map` (for
`phi_intv`) and a `flatMap` (for `angle_vector`) over the enumerated ring midpoints. -/
noncomputable def makeAngleVector (n : ℕ) (phiSym cAz : ℝ) (sp : Spacing) : Grid :=
  let tI := thetaIntv n sp
  let tM := thetaMiddle n sp
  let edges := fun (p : ℝ × ℕ) => phiEdges phiSym cAz (ringInd tI.length p.2 p.1)
  { thetaIntv := tI
    phiIntv := tM.zipIdx.map edges
    angleVector := tM.zipIdx.flatMap (fun p =>
      (midpoints (edges p)).map (fun phi => { ring := p.2, theta := p.1, phi := phi })) }

/-- Python float floor division `x // y`. -/
noncomputable def pyFloorDiv (x y : ℝ) : ℝ := ((⌊x / y⌋ : ℤ) : ℝ)

/-- Python float modulo `x % y` (result has the sign of `y`). -/
noncomputable def pyMod (x y : ℝ) : ℝ := x - y * ((⌊x / y⌋ : ℤ) : ℝ)

/-- `fold_phi` (angles.py 73-75; identical copy in rcwa.py 681-682). -/
noncomputable def foldPhi (phi phiSym : ℝ) : ℝ :=
  pyMod (|pyFloorDiv phi π| * 2 * π + phi) phiSym

/-- `np.argmin(abs(angle_vector[:, 0] - b))` (angles.py 199 and many other places). -/
def ringRow (col0 : List ℕ) (b : ℤ) : ℕ := argmin (col0.map (fun r : ℕ => |(r : ℤ) - b|))

/-- `overall_bin` (angles.py 197-200) at one point with polar-bin number `tb` and azimuth `phi`.
`none` is the IndexError of `phi_intv[tb]`. The result may be negative: callers use it as a Python index. -/
noncomputable def overallBin (phiIntv : List (List ℝ)) (col0 : List ℕ) (tb : ℤ) (phi : ℝ) :
    Option ℤ :=
  (pyGet phiIntv tb).map (fun edges =>
    (ringRow col0 tb : ℤ) + ((digitizeRight phi edges : ℤ) - 1))

/-- Column 0 of `angle_vector`. -/
def Grid.col0 (g : Grid) : List ℕ := g.angleVector.map Row.ring

/-- The polar-bin number `np.digitize(theta, theta_intv, right=True) - 1`
(multiply_matrices.py 120-122, ideal_cases.py 136, tmm.py, rt.py, rcwa.py). -/
noncomputable def thetaBin (g : Grid) (theta : ℝ) : ℤ := (digitizeRight theta g.thetaIntv : ℤ) - 1

/-- The bin number of a direction, as computed throughout the package from
`digitize(theta, right=True)` and `overall_bin`. -/
noncomputable def binOf (g : Grid) (theta phi : ℝ) : Option ℤ :=
  overallBin g.phiIntv g.col0 (thetaBin g theta) phi

end Rayflare.Model
