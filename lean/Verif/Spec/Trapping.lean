import Verif.Spec.Cone
import Mathlib.MeasureTheory.Integral.DominatedConvergence
import Mathlib.Analysis.SpecialFunctions.ExpDeriv
import Mathlib.Analysis.Calculus.Deriv.Slope
import Mathlib.MeasureTheory.Function.SpecialFunctions.Basic

/-!
# Specification vocabulary: absorption of a slab with ideal light trapping (C188)
-/

namespace Rayflare.Spec

open Rayflare.Model Rayflare.Lemmas Real Filter Topology MeasureTheory

/-- Light that survives a passage through a slab of optical thickness `x` (absorption coefficient times thickness) at the polar angle `θ`. -/
noncomputable def passed (x θ : ℝ) : ℝ := exp (-x / cos θ)

/-- Reflectance, from inside, of the ideal front surface: light in the escape cone of half-angle `a` leaves, other light is totally reflected. -/
noncomputable def beyond (a θ : ℝ) : ℝ := if θ ≤ a then 0 else 1

/-- Absorptance of a slab with the ideal front surface and a Lambertian reflector at the rear, all round trips together: the first passage, at polar angle `B`; then, for the light that leaves the reflector, the passages up and down. -/
noncomputable def trapBulk (a B x : ℝ) : ℝ :=
  (1 - passed x B) + passed x B / (1 - lambertMean fun θ => passed x θ ^ 2 * beyond a θ) *
    lambertMean fun θ => (1 - passed x θ) + passed x θ * beyond a θ * (1 - passed x θ)

/-! ## The limit of weak absorption -/

theorem beyond_meas (a : ℝ) : Measurable (beyond a) := Measurable.ite measurableSet_Iic measurable_const measurable_const

theorem passed_meas (x : ℝ) : Measurable (passed x) := by unfold passed; fun_prop

theorem beyond_bound (a θ : ℝ) : 0 ≤ beyond a θ ∧ beyond a θ ≤ 1 := by unfold beyond; split_ifs <;> norm_num

theorem passed_bound {x θ : ℝ} (hx : 0 ≤ x) (hθ : 0 < cos θ) : 0 < passed x θ ∧ passed x θ ≤ 1 ∧ 1 - passed x θ ≤ x / cos θ := by
  have h : passed x θ = exp (-(x / cos θ)) := by unfold passed; rw [neg_div]
  refine ⟨exp_pos _, ?_, ?_⟩
  · rw [h, exp_le_one_iff]; have : 0 ≤ x / cos θ := by positivity
    linarith
  · rw [h]; linarith [Real.add_one_le_exp (-(x / cos θ))]

theorem passed_lim (θ : ℝ) : Tendsto (fun x => passed x θ) (𝓝[>] 0) (𝓝 1) := by
  have : ContinuousAt (fun x => passed x θ) 0 := by unfold passed; fun_prop
  have h := this.tendsto
  simp only [passed, neg_zero, zero_div, exp_zero] at h
  exact h.mono_left nhdsWithin_le_nhds

theorem passed_slope (θ : ℝ) : Tendsto (fun x => (1 - passed x θ) / x) (𝓝[>] 0) (𝓝 (1 / cos θ)) := by
  have h1 : HasDerivAt (fun x : ℝ => -x / cos θ) (-1 / cos θ) 0 := ((hasDerivAt_id (0 : ℝ)).neg).div_const _
  have h2 : HasDerivAt (fun x : ℝ => 1 - exp (-x / cos θ)) (-(exp (-0 / cos θ) * (-1 / cos θ))) 0 := by
    have := (h1.exp).const_sub 1
    exact this
  have h3 := (hasDerivAt_iff_tendsto_slope.mp h2).mono_left (nhdsWithin_mono 0 (s := Set.Ioi 0) (fun x hx => ne_of_gt hx))
  have e : -(exp (-0 / cos θ) * (-1 / cos θ)) = 1 / cos θ := by simp [neg_div]
  rw [e] at h3
  refine h3.congr fun x => ?_
  rw [slope_def_field]
  simp [passed]

/-- Almost every angle between 0 and 90° has a positive cosine. -/
theorem ae_cos : ∀ᵐ θ : ℝ, θ ∈ Set.uIoc 0 (π / 2) → 0 < cos θ ∧ 0 < sin θ := by
  have hpi := Real.pi_pos
  have h0 : ∀ᵐ θ : ℝ, θ ≠ π / 2 := by rw [ae_iff]; simp
  filter_upwards [h0] with θ hne hθ
  rw [Set.uIoc_of_le (by positivity)] at hθ
  exact ⟨Real.cos_pos_of_mem_Ioo ⟨by linarith [hθ.1], lt_of_le_of_ne hθ.2 hne⟩, Real.sin_pos_of_pos_of_lt_pi hθ.1 (by linarith [hθ.2])⟩

/-- Integral of a function over the angles outside the cone. -/
theorem integral_beyond (f : ℝ → ℝ) (hf : Continuous f) (a : ℝ) (h0 : 0 ≤ a) (h1 : a ≤ π / 2) : ∫ θ in (0 : ℝ)..(π / 2), f θ * beyond a θ = ∫ θ in a..(π / 2), f θ := by
  have e1 : ∀ θ ∈ Set.uIoc (0 : ℝ) a, f θ * beyond a θ = 0 := by
    intro θ hθ
    rw [Set.uIoc_of_le h0] at hθ
    simp [beyond, hθ.2]
  have e2 : ∀ θ ∈ Set.uIoc a (π / 2), f θ * beyond a θ = f θ := by
    intro θ hθ
    rw [Set.uIoc_of_le h1] at hθ
    simp [beyond, not_le.mpr hθ.1]
  have i1 : IntervalIntegrable (fun θ => f θ * beyond a θ) volume 0 a := (intervalIntegrable_const (c := (0 : ℝ))).congr fun θ hθ => (e1 θ hθ).symm
  have i2 : IntervalIntegrable (fun θ => f θ * beyond a θ) volume a (π / 2) := (hf.intervalIntegrable _ _).congr fun θ hθ => (e2 θ hθ).symm
  rw [← intervalIntegral.integral_add_adjacent_intervals i1 i2, intervalIntegral.integral_congr_ae (Eventually.of_forall e1), intervalIntegral.integral_congr_ae (Eventually.of_forall e2)]
  simp

/-- **The light-trapping limit.** For weak absorption the absorptance of the slab is its optical thickness times `1 / cos B + 2 (1 + cos a) / sin² a`; the second term is close to `4 n²` for `sin a = 1 / n` and a large refractive index `n`. -/
theorem trapBulk_limit (a B : ℝ) (h0 : 0 < a) (h1 : a ≤ π / 2) : Tendsto (fun x => trapBulk a B x / x) (𝓝[>] 0) (𝓝 (1 / cos B + 2 * (1 + cos a) / sin a ^ 2)) := by
  have hpi := Real.pi_pos
  have hsin : 0 < sin a := Real.sin_pos_of_pos_of_lt_pi h0 (by linarith)
  have hpos : ∀ᶠ x : ℝ in 𝓝[>] 0, 0 < x := eventually_mem_nhdsWithin
  -- what returns
  have hM : lambertMean (beyond a) = 1 - sin a ^ 2 := by
    unfold lambertMean
    rw [integral_beyond (fun θ => 2 * sin θ * cos θ) (by fun_prop) a h0.le h1]
    have : (fun θ : ℝ => 2 * sin θ * cos θ) = fun θ => 2 * (sin θ * cos θ) := by funext θ; ring
    rw [this, intervalIntegral.integral_const_mul, integral_sin_mul_cos₁]
    simp; ring
  have t1 : Tendsto (fun x => lambertMean fun θ => passed x θ ^ 2 * beyond a θ) (𝓝[>] 0) (𝓝 (1 - sin a ^ 2)) := by
    rw [← hM]
    unfold lambertMean
    refine intervalIntegral.tendsto_integral_filter_of_dominated_convergence (fun _ => 2) ?_ ?_ intervalIntegrable_const ?_
    · refine Eventually.of_forall fun x => Measurable.aestronglyMeasurable ?_
      have := passed_meas x
      have := beyond_meas a
      fun_prop
    · filter_upwards [hpos] with x hx
      filter_upwards [ae_cos] with θ hc hθ
      obtain ⟨c1, c2⟩ := hc hθ
      obtain ⟨p1, p2, -⟩ := passed_bound hx.le c1
      obtain ⟨b1, b2⟩ := beyond_bound a θ
      have q : passed x θ ^ 2 * beyond a θ ≤ 1 := mul_le_one₀ (pow_le_one₀ p1.le p2) b1 b2
      have q0 : 0 ≤ passed x θ ^ 2 * beyond a θ := by positivity
      have r : 2 * sin θ * cos θ ≤ 2 := by nlinarith [sin_sq_add_cos_sq θ, sq_nonneg (sin θ - cos θ)]
      rw [Real.norm_eq_abs, abs_of_nonneg (by positivity)]
      have r0 : 0 ≤ 2 * sin θ * cos θ := by positivity
      nlinarith
    · refine Eventually.of_forall fun θ _ => ?_
      have := (passed_lim θ).pow 2
      have := (this.mul_const (beyond a θ)).const_mul (2 * sin θ * cos θ)
      simpa using this
  -- what is absorbed
  have hA : lambertMean (fun θ => 1 / cos θ * (1 + beyond a θ)) = 2 * (1 + cos a) := by
    have e : lambertMean (fun θ => 1 / cos θ * (1 + beyond a θ)) = ∫ θ in (0 : ℝ)..(π / 2), (2 * sin θ + 2 * sin θ * beyond a θ) := by
      unfold lambertMean
      apply intervalIntegral.integral_congr_ae
      filter_upwards [ae_cos] with θ hc hθ
      have := (hc hθ).1
      field_simp
    have i1 : IntervalIntegrable (fun θ => 2 * sin θ) volume 0 (π / 2) := (by fun_prop : Continuous fun θ : ℝ => 2 * sin θ).intervalIntegrable _ _
    have i2 : IntervalIntegrable (fun θ => 2 * sin θ * beyond a θ) volume 0 (π / 2) := by
      have hm := beyond_meas a
      refine i1.mono_fun (Measurable.aestronglyMeasurable (by fun_prop)) (Eventually.of_forall fun θ => ?_)
      simp only [norm_mul]
      refine mul_le_of_le_one_right (by positivity) ?_
      rw [Real.norm_eq_abs, abs_of_nonneg (beyond_bound a θ).1]; exact (beyond_bound a θ).2
    rw [e, intervalIntegral.integral_add i1 i2, integral_beyond (fun θ => 2 * sin θ) (by fun_prop) a h0.le h1, intervalIntegral.integral_const_mul, intervalIntegral.integral_const_mul, integral_sin, integral_sin]
    simp; ring
  have t2 : Tendsto (fun x => (lambertMean fun θ => (1 - passed x θ) + passed x θ * beyond a θ * (1 - passed x θ)) / x) (𝓝[>] 0) (𝓝 (2 * (1 + cos a))) := by
    rw [← hA]
    unfold lambertMean
    have e : ∀ x : ℝ, (∫ θ in (0 : ℝ)..(π / 2), 2 * sin θ * cos θ * ((1 - passed x θ) + passed x θ * beyond a θ * (1 - passed x θ))) / x =
        ∫ θ in (0 : ℝ)..(π / 2), 2 * sin θ * cos θ * ((1 - passed x θ) / x * (1 + passed x θ * beyond a θ)) := by
      intro x
      rw [← intervalIntegral.integral_div]
      refine intervalIntegral.integral_congr fun θ _ => ?_
      ring
    simp only [e]
    refine intervalIntegral.tendsto_integral_filter_of_dominated_convergence (fun _ => 4) ?_ ?_ intervalIntegrable_const ?_
    · refine Eventually.of_forall fun x => Measurable.aestronglyMeasurable ?_
      have := passed_meas x
      have := beyond_meas a
      fun_prop
    · filter_upwards [hpos] with x hx
      filter_upwards [ae_cos] with θ hc hθ
      obtain ⟨c1, c2⟩ := hc hθ
      obtain ⟨p1, p2, p3⟩ := passed_bound hx.le c1
      obtain ⟨b1, b2⟩ := beyond_bound a θ
      have q : cos θ * ((1 - passed x θ) / x) ≤ 1 := by
        rw [mul_div_assoc', div_le_one hx]
        rw [le_div_iff₀ c1] at p3
        linarith
      have q0 : 0 ≤ (1 - passed x θ) / x := div_nonneg (by linarith) hx.le
      have r : 1 + passed x θ * beyond a θ ≤ 2 := by nlinarith
      have r0 : 0 ≤ 1 + passed x θ * beyond a θ := by positivity
      have s1 := sin_le_one θ
      rw [Real.norm_eq_abs, abs_of_nonneg (by positivity)]
      calc 2 * sin θ * cos θ * ((1 - passed x θ) / x * (1 + passed x θ * beyond a θ)) = 2 * sin θ * (cos θ * ((1 - passed x θ) / x)) * (1 + passed x θ * beyond a θ) := by ring
        _ ≤ 2 * 1 * 1 * 2 := by gcongr
        _ = 4 := by norm_num
    · refine Eventually.of_forall fun θ _ => ?_
      have := ((passed_slope θ).mul (((passed_lim θ).mul_const (beyond a θ)).const_add 1)).const_mul (2 * sin θ * cos θ)
      simpa using this
  have t3 := (passed_slope B).add (((passed_lim B).div (t1.const_sub 1) (by rw [sub_sub_cancel]; positivity)).mul t2)
  have e : 1 / cos B + 1 / (1 - (1 - sin a ^ 2)) * (2 * (1 + cos a)) = 1 / cos B + 2 * (1 + cos a) / sin a ^ 2 := by rw [sub_sub_cancel]; ring
  rw [e] at t3
  refine t3.congr fun x => ?_
  unfold trapBulk
  simp only [Pi.div_apply]
  ring

end Rayflare.Spec
