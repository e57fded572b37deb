import Verif.Props.Ideal
import Mathlib.Analysis.SpecialFunctions.Integrals.Basic

/-!
# Specification vocabulary: light in a cone, and the path of diffuse light through a layer (C187)
-/

namespace Rayflare.Spec

open Rayflare.Model Rayflare.Lemmas Real

/-- Part of the light of a column that leaves within the first `k` rings, that is, in the cone around the normal that ends at the edge number `k`. -/
noncomputable def coneShare (n : ℕ) (c : ℝ) (v : List ℝ) (k : ℕ) : ℝ := ∑ i ∈ Finset.range k, ringTotal n c v i

/-- Mean path, in units of the thickness, of the light of a column through a layer: light of ring `i` crosses it at the polar angle of the ring. -/
noncomputable def meanPath (n : ℕ) (c : ℝ) (sp : Spacing) (v : List ℝ) : ℝ := ∑ i ∈ Finset.range n, ringTotal n c v i / cos (polarMid n sp i)

/-- Mean of a function of the polar angle over Lambertian light. -/
noncomputable def lambertMean (f : ℝ → ℝ) : ℝ := ∫ θ in (0 : ℝ)..(π / 2), 2 * sin θ * cos θ * f θ

/-- Lambertian light in the cone of half-angle `a`. -/
theorem lambertMean_cone (a : ℝ) : ∫ θ in (0 : ℝ)..a, 2 * sin θ * cos θ = lambertFraction 0 a := by
  have : (fun θ : ℝ => 2 * sin θ * cos θ) = fun θ => 2 * (sin θ * cos θ) := by funext θ; ring
  rw [this, intervalIntegral.integral_const_mul, integral_sin_mul_cos₁]
  unfold lambertFraction
  ring

/-- The mean path of Lambertian light is twice the thickness. -/
theorem lambertMean_path : lambertMean (fun θ => 1 / cos θ) = 2 := by
  have hpi := Real.pi_pos
  have h : lambertMean (fun θ => 1 / cos θ) = ∫ θ in (0 : ℝ)..(π / 2), 2 * sin θ := by
    unfold lambertMean
    apply intervalIntegral.integral_congr_ae
    have h0 : ∀ᵐ θ : ℝ, θ ≠ π / 2 := by
      rw [MeasureTheory.ae_iff]; simp
    filter_upwards [h0] with θ hne hθ
    rw [Set.uIoc_of_le (by positivity)] at hθ
    have : 0 < cos θ := Real.cos_pos_of_mem_Ioo ⟨by linarith [hθ.1], lt_of_le_of_ne hθ.2 hne⟩
    field_simp
  rw [h, intervalIntegral.integral_const_mul, integral_sin]
  simp

end Rayflare.Spec
