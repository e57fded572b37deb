import Verif.Spec.DiffuseLimit
import Verif.Props.Cone
import Verif.Props.Converge
import Mathlib.Analysis.SpecialFunctions.SmoothTransition

/-!
# Property C189: structures with a Lambertian reflector as the angular grid is refined
-/

namespace Rayflare

open Rayflare.Np Rayflare.Model Rayflare.Spec Rayflare.Lemmas Real Filter Topology MeasureTheory

variable {ω : Type*}

/-! ## Helper lemmas: averages over the rings converge -/

/-- Average over the rings with the shares of the program. -/
noncomputable def ringMean (n : ℕ) (sp : Spacing) (f : ℝ → ℝ) : ℝ := ∑ i ∈ Finset.range n, lamW n sp i / (∑ j ∈ Finset.range n, lamW n sp j) * f (polarMid n sp i)

/-- The averages with the weights of the program come close to the integral with the weight `cos θ dθ`. -/
theorem ringMean_converges (f g : ℝ → ℝ) (hg : ContinuousOn g (Set.Icc 0 (π / 2))) (hfg : ∀ θ, 0 ≤ θ → θ < π / 2 → f θ = g θ) {ε : ℝ} (hε : 0 < ε) :
    ∀ᶠ n : ℕ in atTop, ∀ sp : Spacing, |ringMean n sp f - cosMean f| < ε := by
  have hpi := Real.pi_pos
  obtain ⟨C, hC⟩ := isCompact_Icc.exists_bound_of_continuousOn hg
  have hC0 : 0 ≤ C := le_trans (norm_nonneg _) (hC 0 ⟨le_rfl, by positivity⟩)
  have huc := isCompact_Icc.uniformContinuousOn_of_continuous hg
  obtain ⟨η, hη, hu⟩ := Metric.uniformContinuousOn_iff.mp huc (ε / 3) (by positivity)
  obtain ⟨N1, hN1, hnar⟩ := ring_narrow hη
  obtain ⟨N2, hN2⟩ := exists_nat_gt (2 * C / (ε / 3))
  refine eventually_atTop.mpr ⟨max N1 N2, fun n hn sp => ?_⟩
  have hn0 : 0 < n := by have := le_trans (le_max_left _ _) hn; omega
  have hn' : (0 : ℝ) < n := by exact_mod_cast hn0
  have hn1 : (1 : ℝ) ≤ n := by exact_mod_cast hn0
  have hnar := hnar n (le_trans (le_max_left _ _) hn) sp
  have hN2 : 2 * C / (ε / 3) < n := lt_of_lt_of_le hN2 (by exact_mod_cast le_trans (le_max_right _ _) hn)
  set W := ∑ j ∈ Finset.range n, lamW n sp j with hW
  let ds : ℕ → ℝ := fun i => sin (polarEdge n sp (i + 1)) - sin (polarEdge n sp i)
  have hdsum : ∑ i ∈ Finset.range n, ds i = 1 := by
    have := sum_ds n hn0 sp n
    rw [polarEdge_half n hn0, sin_pi_div_two] at this
    exact this
  have hds : ∀ i < n, 0 < ds i ∧ ds i ≤ lamW n sp i ∧ lamW n sp i * (1 - 1 / (2 * n)) ≤ ds i := fun i hi =>
    ⟨(lamW_sin n hn0 sp hi).2.2.2.2.2, (lamW_sin n hn0 sp hi).2.2.1, lamW_upper n hn0 sp hi⟩
  have hmid : ∀ i < n, 0 ≤ polarMid n sp i ∧ polarMid n sp i < π / 2 := fun i hi => ⟨(mid_pos hn0 hi).le, polarMid_lt_half n hn0 sp hi⟩
  have hW1 : 1 ≤ W := by
    rw [← hdsum]
    exact Finset.sum_le_sum fun i hi => (hds i (Finset.mem_range.mp hi)).2.1
  have hWu : W * (1 - 1 / (2 * n)) ≤ 1 := by
    refine le_trans ?_ hdsum.le
    rw [hW, Finset.sum_mul]
    exact Finset.sum_le_sum fun i hi => (hds i (Finset.mem_range.mp hi)).2.2
  have hW2 : W - 1 ≤ 1 / n := by
    have h1 : (1 : ℝ) / (2 * n) ≤ 1 / 2 := by rw [div_le_div_iff₀ (by positivity) (by norm_num)]; linarith
    have h2 : W ≤ 2 := by nlinarith
    have h3 : (1 : ℝ) / n = 2 * (1 / (2 * n)) := by field_simp
    have h4 : (0 : ℝ) < 1 / (2 * n) := by positivity
    rw [h3]
    nlinarith
  -- the integral, ring by ring
  have hcg : ContinuousOn (fun θ => cos θ * g θ) (Set.Icc 0 (π / 2)) := Real.continuous_cos.continuousOn.mul hg
  have hsub : ∀ i < n, Set.uIcc (polarEdge n sp i) (polarEdge n sp (i + 1)) ⊆ Set.Icc 0 (π / 2) := by
    intro i hi
    obtain ⟨h1, -, h3, h4⟩ := ring_half n hn0 sp hi
    rw [Set.uIcc_of_le (by linarith)]
    exact Set.Icc_subset_Icc h3 h4
  have hint : ∀ i < n, IntervalIntegrable (fun θ => cos θ * g θ) volume (polarEdge n sp i) (polarEdge n sp (i + 1)) := fun i hi => (hcg.mono (hsub i hi)).intervalIntegrable
  have hI : cosMean f = ∑ i ∈ Finset.range n, ∫ θ in polarEdge n sp i..polarEdge n sp (i + 1), cos θ * g θ := by
    have e : cosMean f = ∫ θ in (0 : ℝ)..(π / 2), cos θ * g θ := by
      unfold cosMean
      apply intervalIntegral.integral_congr_ae
      have h0 : ∀ᵐ θ : ℝ, θ ≠ π / 2 := by rw [ae_iff]; simp
      filter_upwards [h0] with θ hne hθ
      rw [Set.uIoc_of_le (by positivity)] at hθ
      rw [hfg θ hθ.1.le (lt_of_le_of_ne hθ.2 hne)]
    have := intervalIntegral.sum_integral_adjacent_intervals (a := fun i => polarEdge n sp i) (n := n) (f := fun θ => cos θ * g θ) (μ := volume) (fun i hi => hint i hi)
    rw [polarEdge_zero, polarEdge_half n hn0] at this
    rw [e, this]
  have hring : ∀ i < n, |ds i * g (polarMid n sp i) - ∫ θ in polarEdge n sp i..polarEdge n sp (i + 1), cos θ * g θ| ≤ ε / 3 * ds i := by
    intro i hi
    obtain ⟨h1, -, h3, h4⟩ := ring_half n hn0 sp hi
    have hle : polarEdge n sp i ≤ polarEdge n sp (i + 1) := by linarith
    have e : ds i * g (polarMid n sp i) = ∫ θ in polarEdge n sp i..polarEdge n sp (i + 1), cos θ * g (polarMid n sp i) := by
      rw [intervalIntegral.integral_mul_const, integral_cos]
    have ic : IntervalIntegrable (fun θ => cos θ * g (polarMid n sp i)) volume (polarEdge n sp i) (polarEdge n sp (i + 1)) := (Real.continuous_cos.mul continuous_const).intervalIntegrable _ _
    rw [e, ← intervalIntegral.integral_sub ic (hint i hi), ← Real.norm_eq_abs]
    have e2 : ε / 3 * ds i = ∫ θ in polarEdge n sp i..polarEdge n sp (i + 1), ε / 3 * cos θ := by
      rw [intervalIntegral.integral_const_mul, integral_cos]
    rw [e2]
    refine intervalIntegral.norm_integral_le_of_norm_le hle (Eventually.of_forall fun θ hθ => ?_) ((continuous_const.mul Real.continuous_cos).intervalIntegrable _ _)
    have hc : 0 ≤ cos θ := Real.cos_nonneg_of_mem_Icc ⟨by linarith [hθ.1], by linarith [hθ.2]⟩
    have hd : |polarMid n sp i - θ| < η := mid_close hθ.1.le hθ.2 (hnar i hi)
    have := hu (polarMid n sp i) ⟨(hmid i hi).1, (hmid i hi).2.le⟩ θ ⟨by linarith [hθ.1], by linarith [hθ.2]⟩ (by rw [Real.dist_eq]; exact hd)
    rw [Real.dist_eq] at this
    rw [← mul_sub, norm_mul, Real.norm_eq_abs, Real.norm_eq_abs, abs_of_nonneg hc, mul_comm]
    exact mul_le_mul_of_nonneg_right this.le hc
  have s1 : |∑ i ∈ Finset.range n, ds i * g (polarMid n sp i) - cosMean f| ≤ ε / 3 := by
    rw [hI, ← Finset.sum_sub_distrib]
    refine le_trans (Finset.abs_sum_le_sum_abs _ _) (le_trans (Finset.sum_le_sum fun i hi => hring i (Finset.mem_range.mp hi)) ?_)
    rw [← Finset.mul_sum, hdsum, mul_one]
  have s2 : |ringMean n sp f - ∑ i ∈ Finset.range n, ds i * g (polarMid n sp i)| ≤ 2 * C / n := by
    have e : ringMean n sp f = ∑ i ∈ Finset.range n, lamW n sp i / W * g (polarMid n sp i) := by
      unfold ringMean
      refine Finset.sum_congr rfl fun i hi => ?_
      have := hmid i (Finset.mem_range.mp hi)
      rw [hfg _ this.1 this.2]
    rw [e, ← Finset.sum_sub_distrib]
    have t : ∀ i ∈ Finset.range n, |lamW n sp i / W * g (polarMid n sp i) - ds i * g (polarMid n sp i)| ≤ ((lamW n sp i - lamW n sp i / W) + (lamW n sp i - ds i)) * C := by
      intro i hi
      have hi := Finset.mem_range.mp hi
      have hw := lamW_pos n hn0 sp hi
      have a1 : lamW n sp i / W ≤ lamW n sp i := div_le_self hw.le hW1
      have a2 := (hds i hi).2.1
      have hb := hC (polarMid n sp i) ⟨(hmid i hi).1, (hmid i hi).2.le⟩
      rw [Real.norm_eq_abs] at hb
      rw [← sub_mul, abs_mul]
      refine mul_le_mul ?_ hb (abs_nonneg _) (by linarith)
      rw [abs_le]
      constructor <;> linarith
    refine le_trans (Finset.abs_sum_le_sum_abs _ _) (le_trans (Finset.sum_le_sum t) ?_)
    rw [← Finset.sum_mul, Finset.sum_add_distrib, Finset.sum_sub_distrib, Finset.sum_sub_distrib, ← Finset.sum_div, ← hW, hdsum, div_self (by linarith : W ≠ 0)]
    have : 2 * C / n = (1 / n + 1 / n) * C := by ring
    rw [this]
    exact mul_le_mul_of_nonneg_right (by linarith) hC0
  have s3 : 2 * C / n < ε / 3 := by
    rw [div_lt_iff₀ (by positivity)] at hN2
    rw [div_lt_iff₀ hn']
    linarith
  have := abs_sub_le (ringMean n sp f) (∑ i ∈ Finset.range n, ds i * g (polarMid n sp i)) (cosMean f)
  linarith

/-- The formulas of light trapping depend continuously on the averages. -/
theorem sum_near (v u t f q m : ℝ) (hq : q < 1) {ε : ℝ} (hε : 0 < ε) : ∃ δ > 0, ∀ u' t' f' q' m' : ℝ, |u' - u| < δ → |t' - t| < δ → |f' - f| < δ → |q' - q| < δ → |m' - m| < δ →
    q' < 1 ∧ |(u' + v * (t' * (1 - f')) + t' * (f' / (1 - q')) * m') - (u + v * (t * (1 - f)) + t * (f / (1 - q)) * m)| < ε := by
  let F : ℝ × ℝ × ℝ × ℝ × ℝ → ℝ := fun x => x.1 + v * (x.2.1 * (1 - x.2.2.1)) + x.2.1 * (x.2.2.1 / (1 - x.2.2.2.1)) * x.2.2.2.2
  have hc : ContinuousAt F (u, t, f, q, m) := by
    have : (1 - (u, t, f, q, m).2.2.2.1 : ℝ) ≠ 0 := by simp only; linarith
    fun_prop (disch := assumption)
  have hq' : ∀ᶠ x : ℝ × ℝ × ℝ × ℝ × ℝ in 𝓝 (u, t, f, q, m), x.2.2.2.1 < 1 := by
    have : ContinuousAt (fun x : ℝ × ℝ × ℝ × ℝ × ℝ => x.2.2.2.1) (u, t, f, q, m) := by fun_prop
    exact this.eventually_lt continuousAt_const hq
  obtain ⟨δ, hδ, h⟩ := Metric.eventually_nhds_iff.mp (hq'.and (Metric.tendsto_nhds.mp hc ε hε))
  refine ⟨δ, hδ, fun u' t' f' q' m' h1 h2 h3 h4 h5 => ?_⟩
  have := h (y := (u', t', f', q', m')) (by simp only [Prod.dist_eq, Real.dist_eq, max_lt_iff]; exact ⟨h1, h2, h3, h4, h5⟩)
  exact ⟨this.1, by have := this.2; rwa [Real.dist_eq] at this⟩

/-- The fraction that survives a passage, made continuous at 90°. -/
theorem pass_ext {a : ℝ} (ha : 0 ≤ a) : ∃ g : ℝ → ℝ, ContinuousOn g (Set.Icc 0 (π / 2)) ∧ ∀ θ, 0 ≤ θ → θ < π / 2 → exp (-a / |cos θ|) = g θ := by
  rcases ha.eq_or_lt with rfl | ha
  · exact ⟨fun _ => 1, continuousOn_const, fun θ _ _ => by simp⟩
  · refine ⟨fun θ => expNegInvGlue (cos θ / a), ?_, fun θ h0 h1 => ?_⟩
    · have : Continuous expNegInvGlue := (expNegInvGlue.contDiff (n := 0)).continuous
      exact (this.comp (Real.continuous_cos.div_const a)).continuousOn
    · have hc : 0 < cos θ := Real.cos_pos_of_mem_Ioo ⟨by linarith [Real.pi_pos], h1⟩
      show _ = expNegInvGlue (cos θ / a)
      unfold expNegInvGlue
      rw [if_neg (not_le.mpr (div_pos hc ha)), abs_of_pos hc, inv_div, neg_div]

/-- One result of the light-trapping formula on a fine grid. -/
theorem out_near (thIn : ℝ) (hθ0 : 0 ≤ thIn) (hθ1 : thIn < π / 2) (inN bulkN a : ℝ) (hin : 0 < inN) (hbulk : 0 < bulkN) (hrefr : inN * sin thIn < bulkN) (u t fq gq fm gm : ℝ → ℝ)
    (hu : ContinuousAt u thIn) (ht : ContinuousAt t thIn) (hgq : ContinuousOn gq (Set.Icc 0 (π / 2))) (hfq : ∀ θ, 0 ≤ θ → θ < π / 2 → fq θ = gq θ)
    (hgm : ContinuousOn gm (Set.Icc 0 (π / 2))) (hfm : ∀ θ, 0 ≤ θ → θ < π / 2 → fm θ = gm θ) (hq : cosMean fq < 1) (v : ℝ) {ε : ℝ} (hε : 0 < ε) :
    ∀ᶠ n : ℕ in atTop, ∀ (sp : Spacing) (i0 : ℕ), i0 < n → polarEdge n sp i0 ≤ thIn → thIn < polarEdge n sp (i0 + 1) → inN / bulkN * sin (polarMid n sp i0) < 1 ∧
      ∀ iB < n, polarEdge n sp iB ≤ arcsin (inN / bulkN * sin (polarMid n sp i0)) → arcsin (inN / bulkN * sin (polarMid n sp i0)) < polarEdge n sp (iB + 1) → ringMean n sp fq < 1 ∧
        |(u (polarMid n sp i0) + v * (t (polarMid n sp i0) * (1 - exp (-a / |cos (polarMid n sp iB)|))) + t (polarMid n sp i0) * (exp (-a / |cos (polarMid n sp iB)|) / (1 - ringMean n sp fq)) * ringMean n sp fm) -
          (u thIn + v * (t thIn * (1 - exp (-a / |cos (arcsin (inN / bulkN * sin thIn))|))) + t thIn * (exp (-a / |cos (arcsin (inN / bulkN * sin thIn))|) / (1 - cosMean fq)) * cosMean fm)| < ε := by
  have hpi := Real.pi_pos
  set θ2 := arcsin (inN / bulkN * sin thIn) with hθ2
  have hs0 : 0 ≤ sin thIn := Real.sin_nonneg_of_nonneg_of_le_pi hθ0 (by linarith)
  have hr1 : inN / bulkN * sin thIn < 1 := by rw [div_mul_eq_mul_div, div_lt_one hbulk]; exact hrefr
  have hr0 : 0 ≤ inN / bulkN * sin thIn := by positivity
  have hθ2lt : θ2 < π / 2 := arcsin_lt_half hr1
  have hθ2ge : 0 ≤ θ2 := Real.arcsin_nonneg.mpr hr0
  obtain ⟨δ, hδ, hall⟩ := sum_near v (u thIn) (t thIn) (exp (-a / |cos θ2|)) (cosMean fq) (cosMean fm) hq hε
  have hp : ContinuousAt (fun θ => exp (-a / |cos θ|)) θ2 :=
    Real.continuous_exp.continuousAt.comp (continuousAt_const.div (Real.continuous_cos.abs.continuousAt) (abs_ne_zero.mpr (Real.cos_pos_of_mem_Ioo ⟨by linarith, hθ2lt⟩).ne'))
  obtain ⟨δ1, hδ1, k1⟩ := Metric.continuousAt_iff.mp hu δ hδ
  obtain ⟨δ2, hδ2, k2⟩ := Metric.continuousAt_iff.mp ht δ hδ
  obtain ⟨δ3, hδ3, k3⟩ := Metric.continuousAt_iff.mp hp δ hδ
  have snell : ContinuousAt (fun θ => arcsin (inN / bulkN * sin θ)) thIn := (Real.continuous_arcsin.comp (continuous_const.mul Real.continuous_sin)).continuousAt
  obtain ⟨δ4, hδ4, k4⟩ := Metric.continuousAt_iff.mp snell (δ3 / 2) (by positivity)
  have hlt : ∀ᶠ θ in 𝓝 thIn, inN / bulkN * sin θ < 1 := (continuous_const.mul Real.continuous_sin).continuousAt.eventually_lt continuousAt_const hr1
  obtain ⟨δ5, hδ5, k5⟩ := Metric.eventually_nhds_iff.mp hlt
  obtain ⟨N, hN0, hN⟩ := ring_narrow (δ := min (min (min δ1 δ2) (min δ4 δ5)) (δ3 / 2)) (by positivity)
  filter_upwards [eventually_ge_atTop N, ringMean_converges fq gq hgq hfq hδ, ringMean_converges fm gm hgm hfm hδ] with n hn cq cm sp i0 hi0 hl1 hl2
  have g0 := mid_close hl1 hl2.le (hN n hn sp i0 hi0)
  simp only [lt_min_iff] at g0
  obtain ⟨⟨⟨g1, g2⟩, g4, g5⟩, -⟩ := g0
  refine ⟨k5 (by rw [Real.dist_eq]; exact g5), fun iB hiB hB1 hB2 => ?_⟩
  have gB := mid_close hB1 hB2.le (hN n hn sp iB hiB)
  simp only [lt_min_iff] at gB
  have gs := k4 (x := polarMid n sp i0) (by rw [Real.dist_eq]; exact g4)
  rw [Real.dist_eq] at gs
  have gB' : |polarMid n sp iB - θ2| < δ3 := by
    calc _ ≤ |polarMid n sp iB - arcsin (inN / bulkN * sin (polarMid n sp i0))| + |arcsin (inN / bulkN * sin (polarMid n sp i0)) - θ2| := abs_sub_le _ _ _
      _ < δ3 / 2 + δ3 / 2 := add_lt_add gB.2 gs
      _ = δ3 := by ring
  have q1 := k1 (x := polarMid n sp i0) (by rw [Real.dist_eq]; exact g1)
  have q2 := k2 (x := polarMid n sp i0) (by rw [Real.dist_eq]; exact g2)
  have q3 := k3 (x := polarMid n sp iB) (by rw [Real.dist_eq]; exact gB')
  rw [Real.dist_eq] at q1 q2 q3
  exact hall _ _ _ _ _ q1 q2 q3 (cq sp) (cm sp)

/-! ## C189 -/

/-- The slab with the surfaces the solver reports: light arrives at the angle `thIn` and travels at the angle `θB` inside before it meets the reflector; `a` is the absorption coefficient times the thickness. -/
noncomputable def diffuseAt (n0 : ℕ) (inN bulkN a : ℝ) (res0 resb : TmmRes) (thIn θB : ℝ) : DiffuseCont (Fin n0) :=
  { front := ⟨res0.R thIn, res0.T thIn, fun l => res0.A thIn l⟩
    first := exp (-a / |cos θB|)
    pass := fun θ => exp (-a / |cos θ|)
    back := fun θ => ⟨resb.R θ, if bulkN / inN * sin θ < 1 then resb.T θ else 0, fun l => resb.A θ l⟩ }

/-- **C189, what holds.** A planar layer stack (`TMM`) at the front, a bulk layer and a `Lambertian` reflector at the rear.  With enough polar bins and a small enough `I_thresh` the results of `calculate_RAT` are as close as wanted to the light-trapping formula for light with the weight `cos θ dθ`
(`cosMean`), whatever the spacing, azimuth resolution, symmetry and azimuth of the light, with and without profiles.  For the full property the mean would have to be that of Lambertian light, `lambertMean`; see `C189_fails`. -/
theorem C189_converges_partial (thIn : ℝ) (hθ0 : 0 ≤ thIn) (hθ1 : thIn < π / 2) (inN bulkN a : ℝ) (hin : 0 < inN) (hbulk : 0 < bulkN) (ha : 0 ≤ a) (hrefr : inN * sin thIn < bulkN) {n0 : ℕ} {κ₁ : Type*} [Fintype κ₁] (res0 resb : TmmRes)
    (tirb : ∀ θ, 1 < bulkN / inN * sin θ → resb.T θ ≤ 1e-8)
    (r0 : ContinuousAt res0.R thIn) (t0 : ContinuousAt res0.T thIn) (a0 : ∀ l : Fin n0, ContinuousAt (fun θ => res0.A θ l) thIn)
    (rb : ContinuousOn resb.R (Set.Icc 0 (π / 2))) (gT : ℝ → ℝ) (tb : ContinuousOn gT (Set.Icc 0 (π / 2))) (hT : ∀ θ, 0 ≤ θ → θ < π / 2 → (if bulkN / inN * sin θ < 1 then resb.T θ else 0) = gT θ)
    (ab : ∀ l : Fin n0, ContinuousOn (fun θ => resb.A θ l) (Set.Icc 0 (π / 2)))
    (hround : (diffuseAt n0 inN bulkN a res0 resb thIn (arcsin (inN / bulkN * sin thIn))).round cosMean < 1) (ε : ℝ) (hε : 0 < ε) :
    let d := diffuseAt n0 inN bulkN a res0 resb thIn (arcsin (inN / bulkN * sin thIn))
    ∃ N : ℕ, ∀ n ≥ N, ∀ (sp : Spacing) (c : ℝ), 0 < c → ∀ m : ℕ, ((∃ q : ℕ, 0 < q ∧ m = 2 * q) ∨ m = 1) → (1e-10 : ℝ) ≤ 2 * π / m →
      ∀ phiIn : PhiIn, (∀ p, phiIn = .val p → 0 ≤ p ∧ p ≠ 2 * π / m) → (∀ i < n, bulkN / inN * sin (polarMid n sp i) ≠ 1) →
      ∀ (inp : RatInput ω (Fin n0) κ₁ (makeAngleVector n (2 * π / m) c sp).half) (w : ω), inp.thresh ≤ ε / 2 → inp.α w * inp.thick = a →
        (∀ w, 0 ≤ inp.α w) → 0 ≤ inp.thick → (∀ w, StoredOk (inp.front0 w)) → (∀ w, StoredOk (inp.front1 w)) → (∀ w, StoredOk (inp.rear0 w)) →
        StoredByTmm n c m sp true (inN / bulkN) res0 (inp.front0 w) → StoredByTmm n c m sp false (bulkN / inN) resb (inp.rear0 w) →
        (∀ r j, (inp.front1 w).1 r j = (lambertStored (makeAngleVector n (2 * π / m) c sp)).getD r 0) → (∀ l j, (inp.front1 w).2 l j = 0) →
        ∀ (S : Sys ω (Fin (makeAngleVector n (2 * π / m) c sp).half) (Fin n0) κ₁), assemble n (2 * π / m) c sp thIn phiIn inp = some S →
        ∀ (o : ProfOpts ω (Fin (makeAngleVector n (2 * π / m) c sp).half)) (k : ℕ) (t : LoopState ω (Fin (makeAngleVector n (2 * π / m) c sp).half) (Fin n0) κ₁), (S.Exits k t ∨ S.ExitsProf o k t) →
          |t.R w - d.R cosMean| < ε ∧ |t.Abulk w - d.bulk cosMean| < ε ∧ (∀ l, |(t.a0.map fun v => v w l).sum - d.abs0 cosMean l| < ε) ∧ t.T w = 0 := by
  intro d
  have hpi := Real.pi_pos
  obtain ⟨gp, hgp, hfp⟩ := pass_ext ha
  let T' : ℝ → ℝ := fun θ => if bulkN / inN * sin θ < 1 then resb.T θ else 0
  have near := fun (u fm gm : ℝ → ℝ) (hu : ContinuousAt u thIn) (hgm : ContinuousOn gm (Set.Icc 0 (π / 2))) (hfm : ∀ θ, 0 ≤ θ → θ < π / 2 → fm θ = gm θ) (v : ℝ) =>
    out_near thIn hθ0 hθ1 inN bulkN a hin hbulk hrefr u res0.T (fun θ => exp (-a / |cos θ|) ^ 2 * resb.R θ) (fun θ => gp θ ^ 2 * resb.R θ) fm gm hu t0 ((hgp.pow 2).mul rb)
      (fun θ h0 h1 => by rw [hfp θ h0 h1]) hgm hfm hround v (_root_.half_pos hε)
  have nR := near res0.R (fun θ => exp (-a / |cos θ|) * T' θ) (fun θ => gp θ * gT θ) r0 (hgp.mul tb) (fun θ h0 h1 => by simp only [T', hfp θ h0 h1, hT θ h0 h1]) 0
  have nB := near (fun _ => 0) (fun θ => (1 - exp (-a / |cos θ|)) + exp (-a / |cos θ|) * resb.R θ * (1 - exp (-a / |cos θ|))) (fun θ => (1 - gp θ) + gp θ * resb.R θ * (1 - gp θ)) continuousAt_const
    ((continuousOn_const.sub hgp).add ((hgp.mul rb).mul (continuousOn_const.sub hgp))) (fun θ h0 h1 => by rw [hfp θ h0 h1]) 1
  have nA : ∀ᶠ n : ℕ in atTop, ∀ l : Fin n0, _ := eventually_all.mpr fun l => near (fun θ => res0.A θ l) (fun θ => exp (-a / |cos θ|) * resb.A θ l) (fun θ => gp θ * resb.A θ l) (a0 l) (hgp.mul (ab l)) (fun θ h0 h1 => by rw [hfp θ h0 h1]) 0
  obtain ⟨N, hN⟩ := eventually_atTop.mp ((nR.and nB).and (nA.and (eventually_gt_atTop 0)))
  refine ⟨N, fun n hn sp c hc m hm hs phiIn hphi hcrit inp w hthr hα hα0 hd k0 k1 k2 s0 s2 l1 l2 S hS o k t ht => ?_⟩
  obtain ⟨⟨cR, cB⟩, cA, hn0⟩ := hN n hn
  obtain ⟨i0, hi0, hl1, hl2⟩ := exists_ringL n hn0 sp thIn hθ0 hθ1
  obtain ⟨hB0, cR⟩ := cR sp i0 hi0 hl1 hl2
  have m0 := mid_pos hn0 (sp := sp) hi0
  have m0' := polarMid_lt_half n hn0 sp hi0
  have sm0 : 0 < sin (polarMid n sp i0) := Real.sin_pos_of_pos_of_lt_pi m0 (by linarith)
  obtain ⟨iB, hiB, hB1, hB2⟩ := exists_ringL n hn0 sp (arcsin (inN / bulkN * sin (polarMid n sp i0))) (Real.arcsin_nonneg.mpr (by positivity)) (arcsin_lt_half hB0)
  obtain ⟨hq, cR⟩ := cR iB hiB hB1 hB2
  have cB := ((cB sp i0 hi0 hl1 hl2).2 iB hiB hB1 hB2).2
  have cA := fun l => ((cA l sp i0 hi0 hl1 hl2).2 iB hiB hB1 hB2).2
  have main := C144_tmm_partial n hn0 m hm hs c hc sp thIn hi0 hl1 hl2 phiIn hphi inp S hS w hα0 hd k0 k1 k2 inN bulkN hin hbulk res0 resb s0 s2 l1 l2 hiB hB0 ⟨hB1, hB2⟩ hcrit (fun i _ => tirb _) o k t ht
  simp only [neg_mul, hα] at main
  obtain ⟨zR, zB, zA, zT, -⟩ := main hq
  have fin : ∀ {x y z : ℝ}, (x ≤ y ∧ y ≤ x + inp.thresh) → |y - z| < ε / 2 → |x - z| < ε := by
    intro x y z h1 h2
    rw [abs_lt] at h2 ⊢
    constructor <;> linarith [h1.1, h1.2, h2.1, h2.2]
  refine ⟨fin zR ?_, fin zB ?_, fun l => fin (zA l) ?_, zT⟩
  · simp only [zero_mul, add_zero] at cR
    exact cR
  · simp only [one_mul, zero_add] at cB
    exact cB
  · have := cA l
    simp only [zero_mul, add_zero] at this
    exact this

/-- A decreasing function has a larger mean with the weight `cos θ dθ` than over Lambertian light. -/
theorem cosMean_gt (f g : ℝ → ℝ) (hg : Continuous g) (hm : AntitoneOn g (Set.Icc 0 (π / 2))) (hlt : g (π / 6) < g 0) (hfg : ∀ θ, 0 ≤ θ → θ < π / 2 → f θ = g θ) : lambertMean f < cosMean f := by
  have hpi := Real.pi_pos
  have end0 : ∀ θ ∈ Set.uIcc 0 (π / 2), cos θ * f θ = cos θ * g θ := by
    intro θ hθ
    rw [Set.uIcc_of_le (by positivity)] at hθ
    rcases hθ.2.eq_or_lt with rfl | h
    · simp
    · rw [hfg θ hθ.1 h]
  have e1 : cosMean f = ∫ θ in (0 : ℝ)..(π / 2), cos θ * g θ := intervalIntegral.integral_congr end0
  have e2 : lambertMean f = ∫ θ in (0 : ℝ)..(π / 2), 2 * sin θ * cos θ * g θ := by
    refine intervalIntegral.integral_congr fun θ hθ => ?_
    show 2 * sin θ * cos θ * f θ = 2 * sin θ * cos θ * g θ
    rw [mul_assoc, end0 θ hθ, ← mul_assoc]
  have c1 : Continuous fun θ => cos θ * g θ := Real.continuous_cos.mul hg
  have c2 : Continuous fun θ => 2 * sin θ * cos θ * g θ := ((continuous_const.mul Real.continuous_sin).mul Real.continuous_cos).mul hg
  have c3 : Continuous fun θ => (cos θ - 2 * (sin θ * cos θ)) * g (π / 6) := (Real.continuous_cos.sub (continuous_const.mul (Real.continuous_sin.mul Real.continuous_cos))).mul continuous_const
  have z : ∫ θ in (0 : ℝ)..(π / 2), (cos θ - 2 * (sin θ * cos θ)) * g (π / 6) = 0 := by
    have c4 : Continuous fun θ => 2 * (sin θ * cos θ) := continuous_const.mul (Real.continuous_sin.mul Real.continuous_cos)
    rw [intervalIntegral.integral_mul_const, intervalIntegral.integral_sub (Real.continuous_cos.intervalIntegrable _ _) (c4.intervalIntegrable _ _),
      intervalIntegral.integral_const_mul, integral_sin_mul_cos₁, integral_cos]
    simp
  have key : 0 < ∫ θ in (0 : ℝ)..(π / 2), (cos θ * g θ - 2 * sin θ * cos θ * g θ - (cos θ - 2 * (sin θ * cos θ)) * g (π / 6)) := by
    refine intervalIntegral.integral_pos (by positivity) ((c1.sub c2).sub c3).continuousOn (fun θ hθ => ?_) ⟨0, ⟨le_rfl, by positivity⟩, by simp; linarith⟩
    have hc : 0 ≤ cos θ := Real.cos_nonneg_of_mem_Icc ⟨by linarith [hθ.1], hθ.2⟩
    have e : cos θ * g θ - 2 * sin θ * cos θ * g θ - (cos θ - 2 * (sin θ * cos θ)) * g (π / 6) = cos θ * ((1 - 2 * sin θ) * (g θ - g (π / 6))) := by ring
    rw [e]
    refine mul_nonneg hc ?_
    have m6 : π / 6 ∈ Set.Icc 0 (π / 2) := ⟨by positivity, by linarith⟩
    have mθ : θ ∈ Set.Icc 0 (π / 2) := ⟨hθ.1.le, hθ.2⟩
    rcases le_total θ (π / 6) with h | h
    · have s1 : sin θ ≤ sin (π / 6) := Real.sin_le_sin_of_le_of_le_pi_div_two (by linarith [hθ.1]) (by linarith) h
      rw [Real.sin_pi_div_six] at s1
      exact mul_nonneg (by linarith) (sub_nonneg.mpr (hm mθ m6 h))
    · have s1 : sin (π / 6) ≤ sin θ := Real.sin_le_sin_of_le_of_le_pi_div_two (by linarith) hθ.2 h
      rw [Real.sin_pi_div_six] at s1
      exact mul_nonneg_of_nonpos_of_nonpos (by linarith) (sub_nonpos.mpr (hm m6 mθ h))
  have c5 : Continuous fun θ => cos θ * g θ - 2 * sin θ * cos θ * g θ := c1.sub c2
  rw [intervalIntegral.integral_sub (c5.intervalIntegrable _ _) (c3.intervalIntegrable _ _), intervalIntegral.integral_sub (c1.intervalIntegrable _ _) (c2.intervalIntegrable _ _), z] at key
  rw [e1, e2]
  linarith

/-- The mean of a function that is at most `C` is at most `C`. -/
theorem cosMean_le (f g : ℝ → ℝ) (hg : Continuous g) (C : ℝ) (hC : ∀ θ, g θ ≤ C) (hfg : ∀ θ, 0 ≤ θ → θ < π / 2 → f θ = g θ) : cosMean f ≤ C := by
  have hpi := Real.pi_pos
  have e1 : cosMean f = ∫ θ in (0 : ℝ)..(π / 2), cos θ * g θ := intervalIntegral.integral_congr fun θ hθ => by
    rw [Set.uIcc_of_le (by positivity)] at hθ
    rcases hθ.2.eq_or_lt with rfl | h
    · simp
    · simp only [hfg θ hθ.1 h]
  have c1 : Continuous fun θ => cos θ * g θ := Real.continuous_cos.mul hg
  have c2 : Continuous fun θ => cos θ * C := Real.continuous_cos.mul continuous_const
  have h := intervalIntegral.integral_mono_on (μ := volume) (a := 0) (b := π / 2) (by positivity) (c1.intervalIntegrable _ _) (c2.intervalIntegrable _ _) fun θ hθ =>
    mul_le_mul_of_nonneg_left (hC θ) (Real.cos_nonneg_of_mem_Icc ⟨by linarith [hθ.1], hθ.2⟩)
  rw [intervalIntegral.integral_mul_const, integral_cos] at h
  simpa [e1] using h

/-- The structure of the example: surfaces that reflect 10 % at every angle, no refraction, absorption coefficient times thickness 1, light at 0.5 rad. -/
noncomputable def exDiffuse : DiffuseCont (Fin 1) := diffuseAt 1 1 1 1 exRes exRes 0.5 (arcsin (1 / 1 * sin 0.5))

theorem exDiffuse_facts : exDiffuse.round cosMean < 1 ∧ exDiffuse.R lambertMean < exDiffuse.R cosMean := by
  have hpi := Real.pi_pos
  let e : ℝ → ℝ := fun θ => expNegInvGlue (cos θ)
  have ce : Continuous e := ((expNegInvGlue.contDiff (n := 0)).continuous).comp Real.continuous_cos
  have pe : ∀ θ, 0 ≤ θ → θ < π / 2 → exp (-1 / |cos θ|) = e θ := by
    intro θ h0 h1
    have hc : 0 < cos θ := Real.cos_pos_of_mem_Ioo ⟨by linarith, h1⟩
    show _ = expNegInvGlue (cos θ)
    unfold expNegInvGlue
    rw [if_neg (not_le.mpr hc), abs_of_pos hc, neg_div, one_div]
  have e0 : ∀ θ, 0 ≤ e θ := fun θ => expNegInvGlue.nonneg _
  have e1 : ∀ θ, e θ ≤ 1 := by
    intro θ
    show expNegInvGlue (cos θ) ≤ 1
    unfold expNegInvGlue
    split_ifs with h
    · exact zero_le_one
    · exact Real.exp_le_one_iff.mpr (neg_nonpos.mpr (inv_nonneg.mpr (not_le.mp h).le))
  have em : AntitoneOn e (Set.Icc 0 (π / 2)) := fun x hx y hy hxy => expNegInvGlue.monotone (Real.cos_le_cos_of_nonneg_of_le_pi hx.1 (by linarith [hy.2]) hxy)
  have elt : e (π / 6) < e 0 := by
    rw [← pe _ (by positivity) (by linarith), ← pe _ le_rfl (by positivity)]
    apply Real.exp_lt_exp.mpr
    have hc : 0 < cos (π / 6) := Real.cos_pos_of_mem_Ioo ⟨by linarith, by linarith⟩
    have hc1 : cos (π / 6) < 1 := by
      rw [← Real.cos_zero]; exact Real.cos_lt_cos_of_nonneg_of_le_pi_div_two le_rfl (by linarith) (by positivity)
    rw [Real.cos_zero, abs_one, abs_of_pos hc, neg_div, neg_div, div_one, neg_lt_neg_iff]
    exact (one_lt_div hc).mpr hc1
  have hA : ∀ θ, 0 ≤ θ → θ < π / 2 → exp (-1 / |cos θ|) ^ 2 * (1 / 10) = e θ ^ 2 * (1 / 10) := fun θ h0 h1 => by rw [pe θ h0 h1]
  have hB : ∀ θ, 0 ≤ θ → θ < π / 2 → exp (-1 / |cos θ|) * (if 1 / 1 * sin θ < 1 then 9 / 10 else 0) = e θ * (9 / 10) := fun θ h0 h1 => by
    have : 1 / 1 * sin θ < 1 := by
      rw [div_one, one_mul, ← Real.sin_pi_div_two]; exact Real.sin_lt_sin_of_lt_of_le_pi_div_two (by linarith) le_rfl h1
    rw [pe θ h0 h1, if_pos this]
  have gA := cosMean_gt (fun θ => exp (-1 / |cos θ|) ^ 2 * (1 / 10)) (fun θ => e θ ^ 2 * (1 / 10)) ((ce.pow 2).mul continuous_const)
    (fun x hx y hy hxy => mul_le_mul_of_nonneg_right (pow_le_pow_left₀ (e0 y) (em hx hy hxy) 2) (by norm_num)) (mul_lt_mul_of_pos_right (pow_lt_pow_left₀ elt (e0 _) two_ne_zero) (by norm_num)) hA
  have gB := cosMean_gt (fun θ => exp (-1 / |cos θ|) * (if 1 / 1 * sin θ < 1 then 9 / 10 else 0)) (fun θ => e θ * (9 / 10)) (ce.mul continuous_const)
    (fun x hx y hy hxy => mul_le_mul_of_nonneg_right (em hx hy hxy) (by norm_num)) (mul_lt_mul_of_pos_right elt (by norm_num)) hB
  have lA := cosMean_le (fun θ => exp (-1 / |cos θ|) ^ 2 * (1 / 10)) (fun θ => e θ ^ 2 * (1 / 10)) ((ce.pow 2).mul continuous_const) (1 / 10) (fun θ => by nlinarith [e0 θ, e1 θ]) hA
  have l0 : 0 ≤ lambertMean (fun θ => exp (-1 / |cos θ|) * (if 1 / 1 * sin θ < 1 then 9 / 10 else 0)) := by
    refine intervalIntegral.integral_nonneg (by positivity) fun θ hθ => ?_
    have h1 : 0 ≤ cos θ := Real.cos_nonneg_of_mem_Icc ⟨by linarith [hθ.1], hθ.2⟩
    have h2 : 0 ≤ sin θ := Real.sin_nonneg_of_nonneg_of_le_pi hθ.1 (by linarith [hθ.2])
    have h3 : (0 : ℝ) ≤ if 1 / 1 * sin θ < 1 then 9 / 10 else 0 := by split_ifs <;> norm_num
    positivity
  refine ⟨?_, ?_⟩
  · show cosMean (fun θ => exp (-1 / |cos θ|) ^ 2 * (1 / 10)) < 1
    linarith
  · have hf : 0 < exp (-1 / |cos (arcsin (1 / 1 * sin 0.5))|) := Real.exp_pos _
    show 1 / 10 + 9 / 10 * (exp (-1 / |cos (arcsin (1 / 1 * sin 0.5))|) / (1 - lambertMean fun θ => exp (-1 / |cos θ|) ^ 2 * (1 / 10))) * lambertMean (fun θ => exp (-1 / |cos θ|) * (if 1 / 1 * sin θ < 1 then 9 / 10 else 0)) <
      1 / 10 + 9 / 10 * (exp (-1 / |cos (arcsin (1 / 1 * sin 0.5))|) / (1 - cosMean fun θ => exp (-1 / |cos θ|) ^ 2 * (1 / 10))) * cosMean (fun θ => exp (-1 / |cos θ|) * (if 1 / 1 * sin θ < 1 then 9 / 10 else 0))
    generalize cosMean (fun θ => exp (-1 / |cos θ|) ^ 2 * (1 / 10)) = qc at *
    generalize lambertMean (fun θ => exp (-1 / |cos θ|) ^ 2 * (1 / 10)) = ql at *
    generalize cosMean (fun θ => exp (-1 / |cos θ|) * (if 1 / 1 * sin θ < 1 then 9 / 10 else 0)) = mc at *
    generalize lambertMean (fun θ => exp (-1 / |cos θ|) * (if 1 / 1 * sin θ < 1 then 9 / 10 else 0)) = ml at *
    generalize exp (-1 / |cos (arcsin (1 / 1 * sin 0.5))|) = x at *
    have h1 : x / (1 - ql) ≤ x / (1 - qc) := div_le_div_of_nonneg_left hf.le (by linarith) (by linarith)
    have h2 : 0 < x / (1 - qc) := div_pos hf (by linarith)
    have h3 : x / (1 - ql) * ml ≤ x / (1 - qc) * ml := mul_le_mul_of_nonneg_right h1 l0
    have h4 : x / (1 - qc) * ml < x / (1 - qc) * mc := mul_lt_mul_of_pos_left gB h2
    rw [mul_assoc, mul_assoc]
    linarith

/-- For every number of polar bins, spacing, azimuth resolution and positive threshold there is a calculation as in C189 for the structure of the example, and its loop ends. -/
theorem diffuse_instance (n : ℕ) (hn : 0 < n) (c : ℝ) (hc : 0 < c) (sp : Spacing) (thr : ℝ) (hthr : 0 < thr) :
    ∃ (inp : RatInput Unit (Fin 1) (Fin 1) (makeAngleVector n (2 * π / (2 : ℕ)) c sp).half) (S : _) (k : ℕ) (t : _), assemble n (2 * π / (2 : ℕ)) c sp 0.5 .all inp = some S ∧ S.Exits k t ∧
    inp.thresh = thr ∧ inp.α () = 1 ∧ inp.thick = 1 ∧ (∀ w, StoredOk (inp.front0 w)) ∧ (∀ w, StoredOk (inp.front1 w)) ∧ (∀ w, StoredOk (inp.rear0 w)) ∧
    StoredByTmm n c 2 sp true (1 / 1) exRes (inp.front0 ()) ∧ StoredByTmm n c 2 sp false (1 / 1) exRes (inp.rear0 ()) ∧
    (∀ r j, (inp.front1 ()).1 r j = (lambertStored (makeAngleVector n (2 * π / (2 : ℕ)) c sp)).getD r 0) ∧ (∀ l j, (inp.front1 ()).2 l j = 0) := by
  have hpi := Real.pi_gt_three
  have hs : (∃ q : ℕ, 0 < q ∧ 2 * π / ((2 : ℕ) : ℝ) = 2 * Real.pi / ((2 * q : ℕ) : ℝ)) ∨ 2 * π / ((2 : ℕ) : ℝ) = 2 * Real.pi := Or.inl ⟨1, one_pos, by norm_num⟩
  obtain ⟨i, v, -, -, -, hv, -⟩ := C09_launch_all n hn (2 * Real.pi / (2 : ℕ)) c hc sp 1 0.5 (by norm_num) (by linarith)
  unfold makeV0 at hv
  obtain ⟨v', hv', -⟩ := Option.map_eq_some_iff.mp hv
  have okL := lambert_ok n hn (2 * π / (2 : ℕ)) c hc sp (Fin 1)
  let inp : RatInput Unit (Fin 1) (Fin 1) (makeAngleVector n (2 * Real.pi / (2 : ℕ)) c sp).half :=
    { α := fun _ => 1, thick := 1, thresh := thr, front0 := fun _ => exStoredN n c sp true,
      front1 := fun _ => (fun r _ => (lambertStored (makeAngleVector n (2 * Real.pi / (2 : ℕ)) c sp)).getD r 0, fun _ _ => 0), rear0 := fun _ => exStoredN n c sp false }
  obtain ⟨S, hS⟩ : ∃ S, assemble n (2 * Real.pi / (2 : ℕ)) c sp 0.5 .all inp = some S := by
    unfold assemble
    simp only [launchPhi, hv', Option.map_some]
    exact ⟨_, rfl⟩
  have hSt : S.thresh = thr ∧ S.thick = 1 ∧ ∀ w, S.α w = 1 := by
    unfold assemble at hS
    simp only [Option.map_eq_some_iff] at hS
    obtain ⟨v, -, rfl⟩ := hS
    exact ⟨rfl, rfl, fun _ => rfl⟩
  have k0 : ∀ w, StoredOk (inp.front0 w) := fun _ => (exStoredN_tmm n hn c hc sp true).2
  have k2 : ∀ w, StoredOk (inp.rear0 w) := fun _ => (exStoredN_tmm n hn c hc sp false).2
  obtain ⟨hE, hN, hcos, hv1⟩ := C15_assembled n hn _ hs c hc sp 0.5 (by norm_num) (by linarith) .all inp (fun _ => zero_le_one) zero_le_one k0 (fun _ => okL) k2 S hS
  obtain ⟨r, -, ⟨t, ht⟩, -⟩ := C17_absorbing_bulk S hE hN hcos 1 one_pos (fun w => (hSt.2.2 w).ge) (by rw [hSt.2.1]; norm_num) (fun w => (hv1 w).le) (by rw [hSt.1]; exact hthr) ⟨false, [], fun _ _ _ => 0, fun _ _ => 0⟩
  refine ⟨inp, S, r, t, hS, ht, rfl, rfl, rfl, k0, fun _ => okL, k2, ?_, ?_, fun _ _ => rfl, fun _ _ => rfl⟩
  · rw [div_one]; exact (exStoredN_tmm n hn c hc sp true).1
  · rw [div_one]; exact (exStoredN_tmm n hn c hc sp false).1

/-- **C189 is violated.** For the structure of the example the reflectance does not come close to that of a slab with a Lambertian reflector: from some number of polar bins on it is too large by more than a fixed amount, for every spacing, azimuth resolution and small threshold. -/
theorem C189_fails : ∃ ε > 0, ∃ N : ℕ, ∀ n ≥ N, ∀ (sp : Spacing) (c : ℝ), 0 < c → ∀ thr, 0 < thr → thr ≤ ε →
    ∃ (inp : RatInput Unit (Fin 1) (Fin 1) (makeAngleVector n (2 * π / (2 : ℕ)) c sp).half) (S : _) (k : ℕ) (t : _), assemble n (2 * π / (2 : ℕ)) c sp 0.5 .all inp = some S ∧ S.Exits k t ∧
    inp.thresh = thr ∧ inp.α () = 1 ∧ inp.thick = 1 ∧ (∀ w, StoredOk (inp.front0 w)) ∧ (∀ w, StoredOk (inp.front1 w)) ∧ (∀ w, StoredOk (inp.rear0 w)) ∧
    StoredByTmm n c 2 sp true (1 / 1) exRes (inp.front0 ()) ∧ StoredByTmm n c 2 sp false (1 / 1) exRes (inp.rear0 ()) ∧
    (∀ r j, (inp.front1 ()).1 r j = (lambertStored (makeAngleVector n (2 * π / (2 : ℕ)) c sp)).getD r 0) ∧
    exDiffuse.R lambertMean + ε < t.R () := by
  have hpi := Real.pi_gt_three
  obtain ⟨hround, hlt⟩ := exDiffuse_facts
  have hsin : (1 : ℝ) * sin 0.5 < 1 := by
    rw [one_mul, ← Real.sin_pi_div_two]
    exact Real.sin_lt_sin_of_lt_of_le_pi_div_two (by linarith) le_rfl (by linarith)
  obtain ⟨N, hN⟩ := C189_converges_partial (ω := Unit) (κ₁ := Fin 1) 0.5 (by norm_num) (by linarith) 1 1 1 one_pos one_pos zero_le_one hsin (n0 := 1) exRes exRes
    (fun θ h => absurd (Real.sin_le_one θ) (by rw [div_one, one_mul] at h; exact not_le.mpr h)) continuousAt_const continuousAt_const (fun _ => continuousAt_const) continuousOn_const (fun _ => 9 / 10) continuousOn_const
    (fun θ h0 h1 => if_pos (by rw [div_one, one_mul, ← Real.sin_pi_div_two]; exact Real.sin_lt_sin_of_lt_of_le_pi_div_two (by linarith) le_rfl h1)) (fun _ => continuousOn_const) hround ((exDiffuse.R cosMean - exDiffuse.R lambertMean) / 2) (by linarith)
  refine ⟨(exDiffuse.R cosMean - exDiffuse.R lambertMean) / 4, by linarith, max N 1, fun n hn sp c hc thr hthr hthr' => ?_⟩
  have hn0 : 0 < n := by have := le_max_right N 1; omega
  obtain ⟨inp, S, k, t, hS, ht, e1, e2, e3, k0, k1, k2, s0, s2, l1, l2⟩ := diffuse_instance n hn0 c hc sp thr hthr
  refine ⟨inp, S, k, t, hS, ht, e1, e2, e3, k0, k1, k2, s0, s2, l1, ?_⟩
  have h := (hN n (le_trans (le_max_left _ _) hn) sp c hc 2 (Or.inl ⟨1, one_pos, rfl⟩) (by norm_num; linarith) .all (fun p h => by simp at h)
    (fun i hi => by
      rw [div_one, one_mul]
      refine ne_of_lt ?_
      rw [← Real.sin_pi_div_two]
      exact Real.sin_lt_sin_of_lt_of_le_pi_div_two (by linarith [mid_pos hn0 (sp := sp) hi]) le_rfl (polarMid_lt_half n hn0 sp hi))
    inp () (by rw [e1]; linarith) (by rw [e2, e3, mul_one]) (fun _ => by rw [e2]; exact zero_le_one) (by rw [e3]; exact zero_le_one) k0 k1 k2 s0 s2 l1 l2 S hS ⟨false, [], fun _ _ _ => 0, fun _ _ => 0⟩ k t (Or.inl ht)).1
  have h' : |t.R () - exDiffuse.R cosMean| < (exDiffuse.R cosMean - exDiffuse.R lambertMean) / 2 := h
  have := (abs_lt.mp h').1
  linarith

end Rayflare
