import Verif.Spec.Gentle
import Verif.Spec.StackBranching

/-!
# Specification: a stack whose front surface is given
-/

namespace Rayflare.Spec

open Rayflare.Model

/-- A stack of any number of media with a periodic front surface `cell` without lookup table, between transparent media with refractive indices `nAbove` and `nBelow`.  Nothing is said about what lies further down. -/
structure FrontSurface (c : RTStack) (cell : Cell) (nAbove nBelow : ℝ) : Prop where
  periodic : c.periodic = true
  media : 2 ≤ c.S.widths.length
  first : c.cells[0]? = some cell
  tab : c.tabs[0]? = some none
  above : c.nks[0]? = some (nAbove : ℂ)
  below : c.nks[1]? = some (nBelow : ℂ)
  sizeX : 0 < cell.Lx
  sizeY : 0 < cell.Ly

/-- What a ray contributes to `R0`: its intensity if it has been reflected without having passed through a layer. -/
noncomputable def R0of (s : Ray) : ℝ := if s.isRefl && decide (s.nPasses = 0) then s.I else 0

end Rayflare.Spec
