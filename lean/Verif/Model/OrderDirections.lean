import Verif.Model.RCWA

/-!
# Model of `get_order_directions` (rayflare/analytic/diffraction.py 22-122) for lossless media

The reciprocal lattice (from S4) is a parameter; optical constants are real numbers, one per wavelength.
-/

namespace Rayflare.Model

open Rayflare.Np Real

/-- `np.arange(-m_max, m_max + 1, 1)`, line 80. -/
def orderAxis (M : ℕ) : List ℤ := (List.range (2 * M + 1)).map fun (i : ℕ) => (i : ℤ) - M

/-- `xv.flatten()` and `yv.flatten()` side by side, lines 82 and 84-85: y is the slow index. -/
def orderPairs (M : ℕ) : List (ℤ × ℤ) := (orderAxis M).flatMap fun b => (orderAxis M).map fun a => (a, b)

/-- One wavelength of the result. -/
structure OrderDir where
  index : ℤ × ℤ
  phi : ℝ
  thetaR : ℝ
  thetaT : ℝ
  fr : ℝ × ℝ

/-- `fr_x`, `fr_y`, lines 77-78 and 84-85. -/
noncomputable def dirFreq (nIn wl : ℝ) (rl : (ℝ × ℝ) × (ℝ × ℝ)) (θ φ : ℝ) (g : ℤ × ℤ) : ℝ × ℝ :=
  (nIn / wl * Real.sin θ * Real.sin φ + (g.1 * rl.1.1 + g.2 * rl.2.1), nIn / wl * Real.sin θ * Real.cos φ + (g.1 * rl.1.2 + g.2 * rl.2.2))

/-- `get_order_directions` at one wavelength, lines 77-101: `phi` by arctangent and folding, `theta_r` and `theta_t` by arccosine of the z component. -/
noncomputable def orderDirections (nIn nOut wl : ℝ) (rl : (ℝ × ℝ) × (ℝ × ℝ)) (M : ℕ) (θ φ phiSym : ℝ) : List OrderDir :=
  (orderPairs M).map fun g =>
    let f := dirFreq nIn wl rl θ φ g
    ⟨g, rcwaPhi phiSym f, polarOf (nIn ^ 2) wl f, π - polarOf (nOut ^ 2) wl f, f⟩

end Rayflare.Model
