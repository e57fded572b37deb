import Mathlib.Probability.Moments.SubGaussian
import Mathlib.Probability.Independence.Basic

/-!
# Hoeffding's inequality for the mean of independent quantities between 0 and 1
-/

namespace Rayflare.Lemmas

open MeasureTheory ProbabilityTheory

theorem hoeffding_sum {ι : Type*} [Fintype ι] {Ω : Type*} [MeasurableSpace Ω] (μ : Measure Ω) [IsProbabilityMeasure μ] (f : ι → Ω → ℝ) (hm : ∀ i, Measurable (f i))
    (hb : ∀ i, ∀ᵐ x ∂μ, 0 ≤ f i x ∧ f i x ≤ 1) (J : Finset ι) {ε : ℝ} (hε : 0 ≤ ε) :
    (Measure.pi fun _ : ι => μ).real {u | J.card * ε ≤ |∑ i ∈ J, (f i (u i) - ∫ x, f i x ∂μ)|} ≤ 2 * Real.exp (-2 * J.card * ε ^ 2) := by
  set P := Measure.pi fun _ : ι => μ with hP
  have hind : ∀ σ : ℝ, iIndepFun (fun i (u : ι → Ω) => σ * (f i (u i) - ∫ x, f i x ∂μ)) P := fun σ =>
    iIndepFun_pi (μ := fun _ : ι => μ) (X := fun i x => σ * (f i x - ∫ x, f i x ∂μ)) fun i => (((hm i).sub_const _).const_mul σ).aemeasurable
  have hmean : ∀ i, ∫ u, f i (u i) ∂P = ∫ x, f i x ∂μ := by
    intro i
    have hmp := measurePreserving_eval (fun _ : ι => μ) i
    have h := integral_map (μ := P) hmp.measurable.aemeasurable (f := f i) (hm i).aestronglyMeasurable
    rw [hmp.map_eq] at h
    exact h.symm
  have hsub : ∀ i, HasSubgaussianMGF (fun u : ι → Ω => f i (u i) - ∫ x, f i x ∂μ) ((‖(1 : ℝ) - 0‖₊ / 2) ^ 2) P := by
    intro i
    rw [← hmean i]
    refine hasSubgaussianMGF_of_mem_Icc ((hm i).comp (measurable_pi_apply i)).aemeasurable ?_
    exact (Measure.quasiMeasurePreserving_eval (fun _ : ι => μ) i).ae (hb i)
  have hsub2 : ∀ σ : ℝ, σ = 1 ∨ σ = -1 → ∀ i, HasSubgaussianMGF (fun u : ι → Ω => σ * (f i (u i) - ∫ x, f i x ∂μ)) ((‖(1 : ℝ) - 0‖₊ / 2) ^ 2) P := by
    rintro σ (rfl | rfl) i
    · simpa only [one_mul] using hsub i
    · simp only [neg_one_mul]
      exact (hsub i).neg
  have hone : ∀ σ : ℝ, σ = 1 ∨ σ = -1 → P.real {u | J.card * ε ≤ ∑ i ∈ J, σ * (f i (u i) - ∫ x, f i x ∂μ)} ≤ Real.exp (-2 * J.card * ε ^ 2) := by
    intro σ hσ
    have h := HasSubgaussianMGF.measure_sum_ge_le_of_iIndepFun (hind σ) (s := J) (fun i _ => hsub2 σ hσ i) (ε := J.card * ε) (by positivity)
    refine h.trans (le_of_eq ?_)
    congr 1
    by_cases hJ : J.card = 0
    · simp [hJ]
    · have hJ' : (J.card : ℝ) ≠ 0 := by exact_mod_cast hJ
      simp only [sub_zero, nnnorm_one, Finset.sum_const, nsmul_eq_mul, NNReal.coe_mul, NNReal.coe_natCast, NNReal.coe_pow, NNReal.coe_div, NNReal.coe_one, NNReal.coe_ofNat]
      field_simp
  have hsubset : {u : ι → Ω | J.card * ε ≤ |∑ i ∈ J, (f i (u i) - ∫ x, f i x ∂μ)|}
      ⊆ {u | J.card * ε ≤ ∑ i ∈ J, (1 : ℝ) * (f i (u i) - ∫ x, f i x ∂μ)} ∪ {u | J.card * ε ≤ ∑ i ∈ J, (-1 : ℝ) * (f i (u i) - ∫ x, f i x ∂μ)} := by
    intro u hu
    rw [Set.mem_ofPred_eq, le_abs] at hu
    rcases hu with h | h
    · left; simpa using h
    · right; simpa using h
  calc P.real _ ≤ P.real (_ ∪ _) := measureReal_mono hsubset
    _ ≤ _ + _ := measureReal_union_le _ _
    _ ≤ _ := by
      have a := hone 1 (Or.inl rfl)
      have b := hone (-1) (Or.inr rfl)
      linarith

/-- The mean of the quantities `f i`, `i ∈ J`. -/
theorem hoeffding_mean {ι : Type*} [Fintype ι] {Ω : Type*} [MeasurableSpace Ω] (μ : Measure Ω) [IsProbabilityMeasure μ] (f : ι → Ω → ℝ) (hm : ∀ i, Measurable (f i))
    (hb : ∀ i, ∀ᵐ x ∂μ, 0 ≤ f i x ∧ f i x ≤ 1) (J : Finset ι) (hJ : J.Nonempty) {ε : ℝ} (hε : 0 ≤ ε) :
    (Measure.pi fun _ : ι => μ).real {u | ε ≤ |(∑ i ∈ J, f i (u i)) / J.card - (∑ i ∈ J, ∫ x, f i x ∂μ) / J.card|} ≤ 2 * Real.exp (-2 * J.card * ε ^ 2) := by
  have hc : (0 : ℝ) < J.card := by exact_mod_cast hJ.card_pos
  refine le_trans (le_of_eq ?_) (hoeffding_sum μ f hm hb J hε)
  congr 1
  ext u
  simp only [Set.mem_ofPred_eq]
  rw [← sub_div, ← Finset.sum_sub_distrib, abs_div, abs_of_pos hc, le_div_iff₀ hc, mul_comm]

/-- The number of quantities that is enough for an error below `ε` with probability `1 - δ`. -/
theorem hoeffding_enough {N : ℝ} {ε δ : ℝ} (hε : 0 < ε) (hδ : 0 < δ) (h : Real.log (2 / δ) / (2 * ε ^ 2) ≤ N) : 2 * Real.exp (-2 * N * ε ^ 2) ≤ δ := by
  have h2 : (0 : ℝ) < 2 * ε ^ 2 := by positivity
  rw [div_le_iff₀ h2] at h
  have h3 : Real.exp (-2 * N * ε ^ 2) ≤ Real.exp (-Real.log (2 / δ)) := Real.exp_le_exp.mpr (by linarith)
  rw [Real.exp_neg, Real.exp_log (by positivity)] at h3
  have : 2 * (2 / δ)⁻¹ = δ := by field_simp
  linarith

end Rayflare.Lemmas
