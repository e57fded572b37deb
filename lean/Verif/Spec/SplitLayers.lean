import Verif.Model.Assemble
import Verif.Spec.Compare

/-!
# Specification: the same structure with the absorption of its surfaces divided differently among layers
-/

namespace Rayflare.Spec

open Rayflare.Model

variable {ω ι κ₀ κ₁ κ₀' κ₁' : Type*} [Fintype ι] [Fintype κ₀] [Fintype κ₁] [Fintype κ₀'] [Fintype κ₁']

/-- The stored matrices of a surface redistribute the light in the same way and absorb the same in total, for every direction of incidence; the numbers of layers and the shares of the layers may differ. -/
def SameSurface {h : ℕ} {κ κ' : Type*} [Fintype κ] [Fintype κ'] (m : Matrix (Fin (h + h)) (Fin h) ℝ × Matrix κ (Fin h) ℝ) (m' : Matrix (Fin (h + h)) (Fin h) ℝ × Matrix κ' (Fin h) ℝ) : Prop :=
  (∀ r j, m.1 r j = m'.1 r j) ∧ ∀ j, ∑ l, m.2 l j = ∑ l, m'.2 l j

/-- Two inputs of `calculate_RAT` that differ only in the layers of the surfaces. -/
structure SameButLayers {h : ℕ} (i : RatInput ω κ₀ κ₁ h) (i' : RatInput ω κ₀' κ₁' h) : Prop where
  α : i.α = i'.α
  thick : i.thick = i'.thick
  thresh : i.thresh = i'.thresh
  front0 : ∀ w, SameSurface (i.front0 w) (i'.front0 w)
  front1 : ∀ w, SameSurface (i.front1 w) (i'.front1 w)
  rear0 : ∀ w, SameSurface (i.rear0 w) (i'.rear0 w)

/-- Everything returned is the same except the absorption per layer: reflection and transmission per pass and direction (hence also in total), absorption in the bulk per pass, the bulk profile per pass, and the total absorption of each surface. -/
def SameButLayerRecords (t : LoopState ω ι κ₀ κ₁) (t' : LoopState ω ι κ₀' κ₁') : Prop :=
  t.vr = t'.vr ∧ t.vt = t'.vt ∧ t.A = t'.A ∧ t.Aprof = t'.Aprof ∧ (∀ w, t.R w = t'.R w) ∧ (∀ w, t.T w = t'.T w) ∧ (∀ w, t.Abulk w = t'.Abulk w) ∧ (∀ n w, t.bulkProf n w = t'.bulkProf n w) ∧
  (∀ w, t.Aint0 w = t'.Aint0 w) ∧ ∀ w, t.Aint1 w = t'.Aint1 w

end Rayflare.Spec
