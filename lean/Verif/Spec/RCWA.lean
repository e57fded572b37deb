import Verif.Spec.RTMatrix
import Verif.Model.RCWA

/-! # Specification vocabulary for diffraction orders

Of the model only the input records `RcwaCell`, `RcwaSol` are used. -/

namespace Rayflare.Spec

open Real Rayflare.Model

/-- Grating equation: in-plane spatial frequency of diffraction order `g` for light incident at polar angle `θ` and azimuth `φ` (measured from the y axis) in the
incidence medium. -/
noncomputable def gratingFreq (cell : RcwaCell) (θ φ : ℝ) (g : ℤ × ℤ) : ℝ × ℝ :=
  (√cell.eps / cell.wl * Real.sin θ * Real.sin φ + g.1 * cell.f1.1 + g.2 * cell.f2.1,
   √cell.eps / cell.wl * Real.sin θ * Real.cos φ + g.1 * cell.f1.2 + g.2 * cell.f2.2)

/-- An order with this in-plane frequency propagates in a lossless medium of permittivity `eps`. -/
def Propagates (eps wl : ℝ) (f : ℝ × ℝ) : Prop := f.1 ^ 2 + f.2 ^ 2 < eps / wl ^ 2

/-- `φ` is the azimuth of the in-plane vector `f`, with the convention of the incident beam. -/
def IsAzimuth (f : ℝ × ℝ) (φ : ℝ) : Prop := ∃ ρ, 0 < ρ ∧ f = (ρ * Real.sin φ, ρ * Real.cos φ)

open Classical in
/-- Power of a reflected order that counts: propagating and at least 1e-16. -/
noncomputable def reflectedPower (cell : RcwaCell) (θ φ : ℝ) (o : (ℤ × ℤ) × ℝ × ℝ) : ℝ :=
  if Propagates cell.eps cell.wl (gratingFreq cell θ φ o.1) ∧ 1e-16 ≤ o.2.1 then o.2.1 else 0

/-- Power of a transmitted order that counts. -/
noncomputable def transmittedPower (cell : RcwaCell) (θ φ : ℝ) (o : (ℤ × ℤ) × ℝ × ℝ) : ℝ :=
  let f := gratingFreq cell θ φ o.1
  if cell.polarT f.1 f.2 < π / 2 ∧ 1e-16 ≤ o.2.2 then o.2.2 else 0

end Rayflare.Spec
