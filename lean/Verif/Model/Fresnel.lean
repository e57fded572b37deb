import Verif.Model.Vec
import Mathlib.Analysis.SpecialFunctions.Trigonometric.Complex
import Mathlib.Analysis.SpecialFunctions.Trigonometric.Arctan
import Mathlib.Analysis.SpecialFunctions.Trigonometric.Inverse

/-!
# Model of `rayflare/ray_tracing/rt.py`: what happens at a facet (`calc_R`, `decide_RT_Fresnel`, `decide_RT_TMM`)
-/

namespace Rayflare.Model

open Complex

/-- The polarisation argument of `calc_R`, rt.py 1510-1518: `"s"`, `"p"`, anything else. -/
inductive Pol
  | s
  | p
  | u
deriving DecidableEq

/-- `theta_t` is a value NumPy's complex `arcsin` may return for `z`: it inverts the sine and has real part between -π/2 and
π/2 (rt.py 1496). -/
def IsArcsin (z θt : ℂ) : Prop := Complex.sin θt = z ∧ -(Real.pi / 2) ≤ θt.re ∧ θt.re ≤ Real.pi / 2

/-- `Rs`, rt.py 1497-1503. -/
noncomputable def fresnelRs (n1 n2 : ℂ) (θ : ℝ) (θt : ℂ) : ℝ :=
  ‖(n1 * Complex.cos θ - n2 * Complex.cos θt) / (n1 * Complex.cos θ + n2 * Complex.cos θt)‖ ^ 2

/-- `Rp`, rt.py 1504-1510. -/
noncomputable def fresnelRp (n1 n2 : ℂ) (θ : ℝ) (θt : ℂ) : ℝ :=
  ‖(n1 * Complex.cos θt - n2 * Complex.cos θ) / (n1 * Complex.cos θt + n2 * Complex.cos θ)‖ ^ 2

/-- `calc_R`, rt.py 1495-1518; `θt` is the value of `np.arcsin((n1 / n2) * np.sin(theta))`. -/
noncomputable def calcR (n1 n2 : ℂ) (θ : ℝ) (θt : ℂ) : Pol → ℝ
  | .s => fresnelRs n1 n2 θ θt
  | .p => fresnelRp n1 n2 θ θt
  | .u => (fresnelRs n1 n2 θ θt + fresnelRp n1 n2 θ θt) / 2

/-- Local angle of incidence, rt.py 2249-2251 (`cmath.atan` of a quotient of NumPy floats: a zero denominator gives `atan(inf) = π/2`). -/
noncomputable def localTheta (N d : V3) : ℝ :=
  if V3.dot N (-d) = 0 then Real.pi / 2 else Real.arctan (V3.norm (V3.cross N (-d)) / V3.dot N (-d))

/-- `np.clip(np.real(n1) / np.real(n0), -1, 1)`, rt.py 1879. -/
noncomputable def clipRatio (n0 n1 : ℂ) : ℝ := max (-1) (min 1 (n1.re / n0.re))

/-- Reflectance used by `decide_RT_Fresnel`, rt.py 1881-1884. -/
noncomputable def decideR (n0 n1 : ℂ) (θ : ℝ) (θt : ℂ) (pol : Pol) : ℝ :=
  if |θ| > Real.arcsin (clipRatio n0 n1) then 1 else calcR n0 n1 |θ| θt pol

/-- `d - 2 * np.dot(d, N) * N`, rt.py 1887 and 1913. -/
noncomputable def reflectDir (d N : V3) : V3 := d - (2 * V3.dot d N) • N

/-- `tr_par`, rt.py 1892: the ratio of the real parts of the refractive indices times the tangential part of the direction. -/
noncomputable def trPar (ratio : ℝ) (d N : V3) : V3 := ratio • (d - V3.dot d N • N)

/-- `np.real(tr_par + tr_perp)`, rt.py 1892-1895.  `cmath.sqrt` of a negative number is imaginary, so its real part is 0, as for
`Real.sqrt`. -/
noncomputable def refractDir (ratio : ℝ) (d N : V3) : V3 :=
  trPar ratio d N + (-(Real.sqrt (1 - V3.norm (trPar ratio d N) ^ 2))) • N

/-- `d / np.linalg.norm(d)`. -/
noncomputable def normalise (d : V3) : V3 := (1 / V3.norm d) • d

/-- `decide_RT_Fresnel`, rt.py 1878-1899: new direction and new side. -/
noncomputable def decideFresnel (n0 n1 : ℂ) (θ : ℝ) (θt : ℂ) (d N : V3) (side : ℤ) (pol : Pol) (rnd : ℝ) : V3 × ℤ :=
  if rnd ≤ decideR n0 n1 θ θt pol then (normalise (reflectDir d N), side)
  else (normalise (refractDir (n0.re / n1.re) d N), -side)

/-- `np.real` of the complex refracted vector of `decide_RT_TMM`, rt.py 1919-1924: here the ratio of the complex refractive indices is
used, the norm is that of the complex vector. -/
noncomputable def refractDirC (ratio : ℂ) (d N : V3) : V3 :=
  let t := d - V3.dot d N • N
  ratio.re • t + (-(Real.sqrt (1 - (‖ratio‖ * V3.norm t) ^ 2))) • N

/-- `decide_RT_TMM`, rt.py 1902-1932, for the tabulated `R`, `T`, `A_per_layer` at the nearest angle and wavelength: new direction, new side, and the
absorption per layer if the ray is absorbed. -/
noncomputable def decideTMM (n0 n1 : ℂ) (R T : ℝ) (A : List ℝ) (d N : V3) (side : ℤ) (rnd : ℝ) : V3 × ℤ × Option (List ℝ) :=
  if rnd ≤ R then (normalise (reflectDir d N), side, none)
  else if rnd > R ∧ rnd ≤ R + T then (normalise (refractDirC (n0 / n1) d N), -side, none)
  else (d, side, some A)

end Rayflare.Model
