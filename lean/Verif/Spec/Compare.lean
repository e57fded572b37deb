import Verif.Spec.System

/-!
# Specification: comparing two calculations with the matrix method
-/

namespace Rayflare.Spec

open Rayflare.Model

variable {ω ω' ι κ₀ κ₁ : Type*}

/-- The wavelength `w` of the first calculation and `w'` of the second have the same surfaces, angular grid and incident light.  (Everything else – the other wavelengths, `I_thresh`, the bulk layer – may differ.) -/
structure SameSurfaces (S : Sys ω ι κ₀ κ₁) (w : ω) (S' : Sys ω' ι κ₀ κ₁) (w' : ω') : Prop where
  v0 : S'.v0 w' = S.v0 w
  u2d : S'.up2down = S.up2down
  d2u : S'.down2up = S.down2up
  θ : S'.θ = S.θ
  f0 : S'.front0 w' = S.front0 w
  f1 : S'.front1 w' = S.front1 w
  r0 : S'.rear0 w' = S.rear0 w

/-- Returned reflection into direction `j`: the sum over the passes of the entries of `RAT` for that direction. -/
def recR (t : LoopState ω ι κ₀ κ₁) (w : ω) (j : ι) : ℝ := (t.vr.map fun v => v w j).sum

/-- Returned transmission into direction `j`. -/
def recT (t : LoopState ω ι κ₀ κ₁) (w : ω) (j : ι) : ℝ := (t.vt.map fun v => v w j).sum

/-- Returned absorption in layer `l` of the front surface. -/
def recA0 (t : LoopState ω ι κ₀ κ₁) (w : ω) (l : κ₀) : ℝ := (t.a0.map fun v => v w l).sum

/-- Returned absorption in layer `l` of the rear surface. -/
def recA1 (t : LoopState ω ι κ₀ κ₁) (w : ω) (l : κ₁) : ℝ := (t.a1.map fun v => v w l).sum

end Rayflare.Spec
