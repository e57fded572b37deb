import Verif.Lemmas.Fresnel
import Mathlib.MeasureTheory.Measure.Lebesgue.Basic

/-!
# Properties C41–C43: reflection and refraction at a facet
-/

namespace Rayflare

open Rayflare.Model Rayflare.Lemmas

/-! ## C41 -/

/-- **C41, range.** For a real incidence medium `n1 > 0`, any second medium `n + ik` with `n > 0`, `k ≥ 0`, any angle below 90° and any polarisation,
`calc_R` returns a number in [0, 1]; no division by zero occurs. -/
theorem C41_range (n1 n k θ : ℝ) (h1 : 0 < n1) (hn : 0 < n) (hk : 0 ≤ k) (hθ0 : 0 ≤ θ) (hθ : θ < Real.pi / 2) (θt : ℂ)
    (h : IsArcsin ((n1 : ℂ) / (⟨n, k⟩ : ℂ) * Complex.sin θ) θt) (pol : Pol) :
    0 ≤ calcR n1 ⟨n, k⟩ θ θt pol ∧ calcR n1 ⟨n, k⟩ θ θt pol ≤ 1 ∧
      (n1 : ℂ) * Complex.cos θ + ⟨n, k⟩ * Complex.cos θt ≠ 0 ∧ (n1 : ℂ) * Complex.cos θt + ⟨n, k⟩ * Complex.cos θ ≠ 0 := by
  have hcos : 0 < Real.cos θ := Real.cos_pos_of_mem_Ioo ⟨by linarith [Real.pi_pos], hθ⟩
  rw [← Complex.ofReal_sin] at h
  obtain ⟨hw, hc⟩ := cos_t_facts (n1 := n1) hn hk h
  have ecos : Complex.cos (θ : ℂ) = ((Real.cos θ : ℝ) : ℂ) := (Complex.ofReal_cos θ).symm
  have hs : 0 ≤ ((n1 : ℂ) * Complex.cos θ * (starRingEnd ℂ) (⟨n, k⟩ * Complex.cos θt)).re := by
    rw [ecos, ← Complex.ofReal_mul, Complex.re_ofReal_mul, Complex.conj_re]
    exact mul_nonneg (mul_nonneg h1.le hcos.le) hw
  have hp : 0 ≤ ((n1 : ℂ) * Complex.cos θt * (starRingEnd ℂ) (⟨n, k⟩ * Complex.cos θ)).re := by
    have : (n1 : ℂ) * Complex.cos θt * (starRingEnd ℂ) (⟨n, k⟩ * Complex.cos θ)
        = ((n1 * Real.cos θ : ℝ) : ℂ) * (Complex.cos θt * (starRingEnd ℂ) (⟨n, k⟩ : ℂ)) := by
      rw [map_mul, ecos, Complex.conj_ofReal]; push_cast; ring
    rw [this, Complex.re_ofReal_mul]
    exact mul_nonneg (mul_nonneg h1.le hcos.le) hc
  have rs : fresnelRs n1 ⟨n, k⟩ θ θt ≤ 1 := ratio_sq_le_one hs
  have rp : fresnelRp n1 ⟨n, k⟩ θ θt ≤ 1 := ratio_sq_le_one hp
  have rs0 : 0 ≤ fresnelRs n1 ⟨n, k⟩ θ θt := by unfold fresnelRs; positivity
  have rp0 : 0 ≤ fresnelRp n1 ⟨n, k⟩ θ θt := by unfold fresnelRp; positivity
  refine ⟨?_, ?_, ?_, ?_⟩
  · cases pol <;> simp only [calcR] <;> linarith
  · cases pol <;> simp only [calcR] <;> linarith
  · intro h0
    have := congrArg Complex.re h0
    rw [Complex.add_re, ecos, ← Complex.ofReal_mul, Complex.ofReal_re, Complex.zero_re] at this
    have := mul_pos h1 hcos
    linarith
  · intro h0
    have := congrArg (fun z => (z * (starRingEnd ℂ) (⟨n, k⟩ : ℂ)).re) h0
    simp only [zero_mul, Complex.zero_re] at this
    have e : ((n1 : ℂ) * Complex.cos θt + ⟨n, k⟩ * Complex.cos θ) * (starRingEnd ℂ) (⟨n, k⟩ : ℂ)
        = (n1 : ℂ) * (Complex.cos θt * (starRingEnd ℂ) (⟨n, k⟩ : ℂ))
          + ((Real.cos θ : ℝ) : ℂ) * ((⟨n, k⟩ : ℂ) * (starRingEnd ℂ) (⟨n, k⟩ : ℂ)) := by
      rw [ecos]; ring
    rw [e, Complex.add_re, Complex.re_ofReal_mul, Complex.re_ofReal_mul, Complex.mul_conj, Complex.ofReal_re, Complex.normSq_mk] at this
    have h3 : 0 ≤ n1 * (Complex.cos θt * (starRingEnd ℂ) (⟨n, k⟩ : ℂ)).re := mul_nonneg h1.le hc
    have h4 : 0 < Real.cos θ * (n * n + k * k) := by positivity
    linarith

/-- The hypotheses can be met: normal incidence onto an absorbing medium. -/
example : IsArcsin (((1 : ℝ) : ℂ) / (⟨3, 1⟩ : ℂ) * Complex.sin ((0 : ℝ) : ℂ)) 0 := by
  refine ⟨by simp, ?_, ?_⟩ <;> simp <;> linarith [Real.pi_pos]

/-- **C41, unpolarised light** is the mean of the two polarisations. -/
theorem C41_unpolarised (n1 n2 θt : ℂ) (θ : ℝ) :
    calcR n1 n2 θ θt .u = (calcR n1 n2 θ θt .s + calcR n1 n2 θ θt .p) / 2 := rfl

/-- **C41, normal incidence.** All polarisations give `|n1 - n2|² / |n1 + n2|²`. -/
theorem C41_normal (n1 n2 θt : ℂ) (h : IsArcsin (n1 / n2 * Complex.sin ((0 : ℝ) : ℂ)) θt) (pol : Pol) :
    calcR n1 n2 0 θt pol = ‖n1 - n2‖ ^ 2 / ‖n1 + n2‖ ^ 2 := by
  have hz : θt = ((0 : ℝ) : ℂ) := by
    apply arcsin_unique (le_refl _) (by linarith [Real.pi_pos])
    simpa using h
  subst hz
  cases pol <;> simp [calcR, fresnelRs, fresnelRp, norm_div, div_pow]

example : IsArcsin ((1 : ℂ) / 4 * Complex.sin ((0 : ℝ) : ℂ)) 0 := by
  refine ⟨by simp, ?_, ?_⟩ <;> simp <;> linarith [Real.pi_pos]

/-- **C41, reciprocity.** For real indices and angles related by Snell's law the reflectance is the same from both sides. -/
theorem C41_reciprocal (n1 n2 θ1 θ2 : ℝ) (h1 : 0 < n1) (h2 : 0 < n2) (ha : 0 ≤ θ1) (ha' : θ1 < Real.pi / 2) (hb : 0 ≤ θ2)
    (hb' : θ2 < Real.pi / 2) (hsnell : n1 * Real.sin θ1 = n2 * Real.sin θ2) (t1 t2 : ℂ)
    (ht1 : IsArcsin ((n1 : ℂ) / n2 * Complex.sin θ1) t1) (ht2 : IsArcsin ((n2 : ℂ) / n1 * Complex.sin θ2) t2) (pol : Pol) :
    calcR n1 n2 θ1 t1 pol = calcR n2 n1 θ2 t2 pol := by
  have e1 : t1 = θ2 := by
    apply arcsin_unique hb hb'
    have : (n1 : ℂ) / n2 * Complex.sin θ1 = Complex.sin θ2 := by
      rw [← Complex.ofReal_sin, ← Complex.ofReal_sin, ← Complex.ofReal_div, ← Complex.ofReal_mul]
      congr 1
      rw [div_mul_eq_mul_div, hsnell]; field_simp
    rwa [this] at ht1
  have e2 : t2 = θ1 := by
    apply arcsin_unique ha ha'
    have : (n2 : ℂ) / n1 * Complex.sin θ2 = Complex.sin θ1 := by
      rw [← Complex.ofReal_sin, ← Complex.ofReal_sin, ← Complex.ofReal_div, ← Complex.ofReal_mul]
      congr 1
      rw [div_mul_eq_mul_div, ← hsnell]; field_simp
    rwa [this] at ht2
  subst e1; subst e2
  have rs : fresnelRs n1 n2 θ1 θ2 = fresnelRs n2 n1 θ2 θ1 := by
    unfold fresnelRs
    rw [norm_div, norm_div, norm_sub_rev, add_comm]
  have rp : fresnelRp n1 n2 θ1 θ2 = fresnelRp n2 n1 θ2 θ1 := by
    unfold fresnelRp
    rw [norm_div, norm_div, norm_sub_rev, add_comm]
  cases pol <;> simp only [calcR, rs, rp]

/-- Such angles exist: 45° in air and 30° in a medium of index √2. -/
example : (1 : ℝ) * Real.sin (Real.pi / 4) = Real.sqrt 2 * Real.sin (Real.pi / 6) := by
  rw [Real.sin_pi_div_four, Real.sin_pi_div_six]; ring

/-- **C41, Brewster's angle.** For real indices p-polarised light is not reflected when the refracted ray would be perpendicular to the reflected one. -/
theorem C41_brewster (n1 n2 θ : ℝ) (h1 : 0 < n1) (h2 : 0 < n2) (ha : 0 < θ) (ha' : θ < Real.pi / 2)
    (hB : n1 * Real.sin θ = n2 * Real.cos θ) (θt : ℂ) (ht : IsArcsin ((n1 : ℂ) / n2 * Complex.sin θ) θt) :
    calcR n1 n2 θ θt .p = 0 := by
  have e1 : θt = ((Real.pi / 2 - θ : ℝ) : ℂ) := by
    apply arcsin_unique (by linarith) (by linarith)
    have : (n1 : ℂ) / n2 * Complex.sin θ = Complex.sin ((Real.pi / 2 - θ : ℝ) : ℂ) := by
      rw [← Complex.ofReal_sin, ← Complex.ofReal_sin, ← Complex.ofReal_div, ← Complex.ofReal_mul]
      congr 1
      rw [Real.sin_pi_div_two_sub, div_mul_eq_mul_div, hB]; field_simp
    rwa [this] at ht
  subst e1
  simp only [calcR, fresnelRp]
  have : (n1 : ℂ) * Complex.cos ((Real.pi / 2 - θ : ℝ) : ℂ) - n2 * Complex.cos θ = 0 := by
    rw [← Complex.ofReal_cos, ← Complex.ofReal_cos, ← Complex.ofReal_mul, ← Complex.ofReal_mul, ← Complex.ofReal_sub,
      Real.cos_pi_div_two_sub, hB]
    simp
  rw [this]; simp

example : (1 : ℝ) * Real.sin (Real.pi / 4) = 1 * Real.cos (Real.pi / 4) := by
  rw [Real.sin_pi_div_four, Real.cos_pi_div_four]

/-- The textbook Fresnel reflectances of a boundary between transparent media, for the angles `θ` (incident) and `θ'` (refracted). -/
noncomputable def textbookR (n1 n2 θ θ' : ℝ) : Pol → ℝ
  | .s => ((n1 * Real.cos θ - n2 * Real.cos θ') / (n1 * Real.cos θ + n2 * Real.cos θ')) ^ 2
  | .p => ((n1 * Real.cos θ' - n2 * Real.cos θ) / (n1 * Real.cos θ' + n2 * Real.cos θ)) ^ 2
  | .u => (((n1 * Real.cos θ - n2 * Real.cos θ') / (n1 * Real.cos θ + n2 * Real.cos θ')) ^ 2
      + ((n1 * Real.cos θ' - n2 * Real.cos θ) / (n1 * Real.cos θ' + n2 * Real.cos θ)) ^ 2) / 2

/-- **C41, transparent media.** Below the critical angle `calc_R` is the textbook Fresnel reflectance. -/
theorem C41_textbook (n1 n2 θ θ' : ℝ) (h2 : 0 < n2) (hb : 0 ≤ θ') (hb' : θ' < Real.pi / 2)
    (hsnell : n1 * Real.sin θ = n2 * Real.sin θ') (θt : ℂ) (ht : IsArcsin ((n1 : ℂ) / n2 * Complex.sin θ) θt) (pol : Pol) :
    calcR n1 n2 θ θt pol = textbookR n1 n2 θ θ' pol := by
  have e1 : θt = θ' := by
    apply arcsin_unique hb hb'
    have : (n1 : ℂ) / n2 * Complex.sin θ = Complex.sin θ' := by
      rw [← Complex.ofReal_sin, ← Complex.ofReal_sin, ← Complex.ofReal_div, ← Complex.ofReal_mul]
      congr 1
      rw [div_mul_eq_mul_div, hsnell]; field_simp
    rwa [this] at ht
  subst e1
  have hs : fresnelRs n1 n2 θ θ' = ((n1 * Real.cos θ - n2 * Real.cos θ') / (n1 * Real.cos θ + n2 * Real.cos θ')) ^ 2 := by
    unfold fresnelRs
    rw [← Complex.ofReal_cos, ← Complex.ofReal_cos, ← Complex.ofReal_mul, ← Complex.ofReal_mul, ← Complex.ofReal_sub, ← Complex.ofReal_add,
      ← Complex.ofReal_div, Complex.norm_real, Real.norm_eq_abs, sq_abs]
  have hp : fresnelRp n1 n2 θ θ' = ((n1 * Real.cos θ' - n2 * Real.cos θ) / (n1 * Real.cos θ' + n2 * Real.cos θ)) ^ 2 := by
    unfold fresnelRp
    rw [← Complex.ofReal_cos, ← Complex.ofReal_cos, ← Complex.ofReal_mul, ← Complex.ofReal_mul, ← Complex.ofReal_sub, ← Complex.ofReal_add,
      ← Complex.ofReal_div, Complex.norm_real, Real.norm_eq_abs, sq_abs]
  cases pol <;> simp only [calcR, textbookR, hs, hp]

/-- Such angles exist: 45° in air and 30° in a medium of index √2. -/
example : IsArcsin (((1 : ℝ) : ℂ) / ((Real.sqrt 2 : ℝ) : ℂ) * Complex.sin ((Real.pi / 4 : ℝ) : ℂ)) ((Real.pi / 6 : ℝ) : ℂ) := by
  have h2 := Real.mul_self_sqrt (show (0 : ℝ) ≤ 2 by norm_num)
  have h3 := Real.pi_pos
  refine ⟨?_, ?_, ?_⟩
  · rw [← Complex.ofReal_sin, ← Complex.ofReal_sin, ← Complex.ofReal_div, ← Complex.ofReal_mul, Real.sin_pi_div_four, Real.sin_pi_div_six]
    congr 1
    have : Real.sqrt 2 ≠ 0 := by positivity
    field_simp
  · rw [Complex.ofReal_re]; linarith
  · rw [Complex.ofReal_re]; linarith

/-! ## C42 -/

/-- **C42.** Let a ray with unit direction `d` meet a facet with unit normal `Nf`, seen from `side` (`N = side * Nf`), between media with positive real parts of
the refractive index.  For every random number in [0,1), `decide_RT_Fresnel` returns a unit direction, and either the ray is reflected —
same side, normal component reversed, tangential component kept — or it is transmitted — other side, `n1` × tangential component = `n0` × old tangential component
(Snell's law in the plane of incidence), travelling away from the side it came from.  Beyond the critical angle it is always reflected. -/
theorem C42_fresnel (n0 n1 : ℂ) (h0 : 0 < n0.re) (h1 : 0 < n1.re) (d Nf N : V3) (hd : V3.norm d = 1) (hNf : V3.norm Nf = 1)
    (side : ℤ) (hside : side = 1 ∨ side = -1) (hN : N = (side : ℝ) • Nf) (θt : ℂ) (pol : Pol) (rnd : ℝ) (hr : rnd < 1) :
    let out := decideFresnel n0 n1 (localTheta Nf d) θt d N side pol rnd
    V3.norm out.1 = 1 ∧
    ((out.2 = side ∧ V3.dot out.1 N = -V3.dot d N ∧ out.1 - V3.dot out.1 N • N = d - V3.dot d N • N) ∨
     (out.2 = -side ∧ n1.re • (out.1 - V3.dot out.1 N • N) = n0.re • (d - V3.dot d N • N) ∧ V3.dot out.1 N ≤ 0)) ∧
    (n1.re < n0.re * V3.norm (d - V3.dot d N • N) → out.2 = side) := by
  have hd' := (norm_one_iff d).mp hd
  have hNf' := (norm_one_iff Nf).mp hNf
  have hss : (side : ℝ) ^ 2 = 1 := by rcases hside with rfl | rfl <;> norm_num
  have hN' : V3.dot N N = 1 := by
    have : V3.dot N N = (side : ℝ) ^ 2 * V3.dot Nf Nf := by
      rw [hN]; unfold V3.dot; simp only [V3.smul_x, V3.smul_y, V3.smul_z]; ring
    rw [this, hss, hNf']; norm_num
  have hdN : V3.dot d N ^ 2 = V3.dot d Nf ^ 2 := by
    have : V3.dot d N = side * V3.dot d Nf := by
      rw [hN]; unfold V3.dot; simp only [V3.smul_x, V3.smul_y, V3.smul_z]; ring
    rw [this, mul_pow, hss, one_mul]
  -- sine of the local angle = length of the tangential component
  have htan : V3.norm (d - V3.dot d N • N) = Real.sin |localTheta Nf d| := by
    rw [sin_abs_localTheta hNf' hd', ← hdN]
    have h2 : V3.dot (d - V3.dot d N • N) (d - V3.dot d N • N) = 1 - V3.dot d N ^ 2 := by
      have := dot_trPar_self hN' hd' 1
      have e : trPar 1 d N = d - V3.dot d N • N := by ext <;> simp [trPar]
      rw [e] at this; linarith
    unfold V3.norm; rw [h2]
  have hratio1 : clipRatio n0 n1 ≤ n1.re / n0.re := by
    unfold clipRatio
    have : 0 < n1.re / n0.re := div_pos h1 h0
    exact max_le (by linarith) (min_le_right _ _)
  have hratio2 : -1 ≤ clipRatio n0 n1 := le_max_left _ _
  have hratio3 : clipRatio n0 n1 ≤ 1 := max_le (by norm_num) (min_le_left _ _)
  have hle := localTheta_abs_le Nf d
  have hge := abs_nonneg (localTheta Nf d)
  have hpi := Real.pi_pos
  intro out
  by_cases hc : rnd ≤ decideR n0 n1 (localTheta Nf d) θt pol
  · -- reflection
    have hunit : V3.norm (reflectDir d N) = 1 := by rw [norm_one_iff, dot_reflect hN', hd']
    have hout : out = (reflectDir d N, side) := by
      simp only [out, decideFresnel, if_pos hc, normalise_unit hunit]
    have hn : V3.dot (reflectDir d N) N = -V3.dot d N := by
      have : V3.dot (reflectDir d N) N = V3.dot d N - 2 * V3.dot d N * V3.dot N N := by
        unfold reflectDir V3.dot; simp only [V3.sub_x, V3.sub_y, V3.sub_z, V3.smul_x, V3.smul_y, V3.smul_z]; ring
      rw [this, hN']; ring
    rw [hout]
    refine ⟨hunit, Or.inl ⟨rfl, hn, ?_⟩, fun _ => rfl⟩
    simp only [hn]
    ext <;> simp [reflectDir] <;> ring
  · -- transmission
    have hnotTIR : |localTheta Nf d| ≤ Real.arcsin (clipRatio n0 n1) := by
      by_contra hcon
      apply hc
      unfold decideR
      rw [if_pos (not_le.mp hcon)]
      exact hr.le
    have hsin : Real.sin |localTheta Nf d| ≤ n1.re / n0.re := by
      calc Real.sin |localTheta Nf d| ≤ Real.sin (Real.arcsin (clipRatio n0 n1)) :=
            Real.sin_le_sin_of_le_of_le_pi_div_two (by linarith) (Real.arcsin_le_pi_div_two _) hnotTIR
        _ = clipRatio n0 n1 := Real.sin_arcsin hratio2 hratio3
        _ ≤ _ := hratio1
    have hsin0 : 0 ≤ Real.sin |localTheta Nf d| := Real.sin_nonneg_of_nonneg_of_le_pi hge (by linarith)
    have hsq : V3.dot (trPar (n0.re / n1.re) d N) (trPar (n0.re / n1.re) d N) ≤ 1 := by
      rw [dot_trPar_self hN' hd', hdN, ← sin_localTheta hNf' hd', ← mul_pow]
      have h3 : n0.re / n1.re * Real.sin |localTheta Nf d| ≤ 1 := by
        rw [le_div_iff₀ h0] at hsin
        rw [div_mul_eq_mul_div, div_le_one h1]
        linarith
      have h4 : 0 ≤ n0.re / n1.re * Real.sin |localTheta Nf d| := mul_nonneg (div_pos h0 h1).le hsin0
      nlinarith
    have hperp := dot_trPar_N (d := d) hN' (n0.re / n1.re)
    obtain ⟨g1, g2⟩ := dot_add_smul hN' hperp (-(Real.sqrt (1 - V3.norm (trPar (n0.re / n1.re) d N) ^ 2)))
    have hunit : V3.norm (refractDir (n0.re / n1.re) d N) = 1 := by
      rw [norm_one_iff]
      unfold refractDir
      rw [g1, neg_sq, norm_sq, Real.sq_sqrt (by linarith)]; ring
    have hout : out = (refractDir (n0.re / n1.re) d N, -side) := by
      simp only [out, decideFresnel, if_neg hc, normalise_unit hunit]
    rw [hout]
    refine ⟨hunit, Or.inr ⟨rfl, ?_, ?_⟩, ?_⟩
    · have g2' : V3.dot (refractDir (n0.re / n1.re) d N) N = -(Real.sqrt (1 - V3.norm (trPar (n0.re / n1.re) d N) ^ 2)) := g2
      simp only [g2']
      have hne := h1.ne'
      ext <;> simp [refractDir, trPar] <;> field_simp
    · have g2' : V3.dot (refractDir (n0.re / n1.re) d N) N = -(Real.sqrt (1 - V3.norm (trPar (n0.re / n1.re) d N) ^ 2)) := g2
      simp only [g2']
      have := Real.sqrt_nonneg (1 - V3.norm (trPar (n0.re / n1.re) d N) ^ 2)
      linarith
    · intro htir
      exfalso
      rw [htan] at htir
      rw [le_div_iff₀ h0] at hsin
      linarith

/-- The hypotheses can be met: a ray at 45° onto a horizontal facet. -/
example : V3.norm ⟨Real.sqrt 2 / 2, 0, -(Real.sqrt 2 / 2)⟩ = 1 ∧ V3.norm ⟨0, 0, 1⟩ = 1 := by
  constructor
  · rw [norm_one_iff]; simp only [V3.dot]
    have := Real.mul_self_sqrt (show (0 : ℝ) ≤ 2 by norm_num)
    nlinarith
  · rw [norm_one_iff]; simp [V3.dot]

/-- **C42, coated facet.** `decide_RT_TMM` keeps directions of unit length; a reflected ray stays on its side with the normal component reversed and the
tangential one kept, an absorbed one keeps direction and side. -/
theorem C42_tmm (n0 n1 : ℂ) (R T : ℝ) (A : List ℝ) (d N : V3) (hd : V3.norm d = 1) (hN : V3.norm N = 1) (side : ℤ) (rnd : ℝ)
    (hdir : V3.dot (refractDirC (n0 / n1) d N) (refractDirC (n0 / n1) d N) ≠ 0) :
    let out := decideTMM n0 n1 R T A d N side rnd
    V3.norm out.1 = 1 ∧
    ((out.2.1 = side ∧ out.2.2 = none ∧ V3.dot out.1 N = -V3.dot d N ∧ out.1 - V3.dot out.1 N • N = d - V3.dot d N • N) ∨
     (out.2.1 = -side ∧ out.2.2 = none ∧ V3.dot out.1 N ≤ 0) ∨ (out = (d, side, some A))) := by
  have hd' := (norm_one_iff d).mp hd
  have hN' := (norm_one_iff N).mp hN
  intro out
  by_cases hc : rnd ≤ R
  · have hunit : V3.norm (reflectDir d N) = 1 := by rw [norm_one_iff, dot_reflect hN', hd']
    have hout : out = (reflectDir d N, side, none) := by
      simp only [out, decideTMM, if_pos hc, normalise_unit hunit]
    have hn : V3.dot (reflectDir d N) N = -V3.dot d N := by
      have : V3.dot (reflectDir d N) N = V3.dot d N - 2 * V3.dot d N * V3.dot N N := by
        unfold reflectDir V3.dot; simp only [V3.sub_x, V3.sub_y, V3.sub_z, V3.smul_x, V3.smul_y, V3.smul_z]; ring
      rw [this, hN']; ring
    rw [hout]
    refine ⟨hunit, Or.inl ⟨rfl, rfl, hn, ?_⟩⟩
    simp only [hn]
    ext <;> simp [reflectDir] <;> ring
  · by_cases ht : rnd > R ∧ rnd ≤ R + T
    · have hout : out = (normalise (refractDirC (n0 / n1) d N), -side, none) := by
        simp only [out, decideTMM, if_neg hc, if_pos ht]
      rw [hout]
      refine ⟨normalise_norm hdir, Or.inr (Or.inl ⟨rfl, rfl, ?_⟩)⟩
      have hperp : V3.dot ((n0 / n1).re • (d - V3.dot d N • N)) N = 0 := dot_trPar_N (d := d) hN' (n0 / n1).re
      have g2 := (dot_add_smul hN' hperp (-(Real.sqrt (1 - (‖n0 / n1‖ * V3.norm (d - V3.dot d N • N)) ^ 2)))).2
      have e : V3.dot (normalise (refractDirC (n0 / n1) d N)) N
          = 1 / V3.norm (refractDirC (n0 / n1) d N) * V3.dot (refractDirC (n0 / n1) d N) N := by
        unfold normalise V3.dot; simp only [V3.smul_x, V3.smul_y, V3.smul_z]; ring
      simp only
      rw [e]
      unfold refractDirC
      simp only
      rw [g2]
      have h1 := Real.sqrt_nonneg (1 - (‖n0 / n1‖ * V3.norm (d - V3.dot d N • N)) ^ 2)
      have h2 : 0 ≤ 1 / V3.norm ((n0 / n1).re • (d - V3.dot d N • N)
          + -√(1 - (‖n0 / n1‖ * V3.norm (d - V3.dot d N • N)) ^ 2) • N) :=
        div_nonneg zero_le_one (norm_nonneg' _)
      nlinarith
    · have hout : out = (d, side, some A) := by
        simp only [out, decideTMM, if_neg hc, if_neg ht]
      rw [hout]
      exact ⟨hd, Or.inr (Or.inr rfl)⟩

/-- Its hypothesis can be met: normal incidence into a transparent medium. -/
example : V3.dot (refractDirC ((1 : ℂ) / 2) ⟨0, 0, -1⟩ ⟨0, 0, 1⟩) (refractDirC ((1 : ℂ) / 2) ⟨0, 0, -1⟩ ⟨0, 0, 1⟩) ≠ 0 := by
  have e : (⟨0, 0, -1⟩ : V3) - V3.dot ⟨0, 0, -1⟩ ⟨0, 0, 1⟩ • (⟨0, 0, 1⟩ : V3) = 0 := by
    ext <;> simp [V3.dot]
  unfold refractDirC
  simp only [e]
  simp [V3.dot, V3.norm]

/-! ## C119 -/

/-- **C119, what holds.** Between transparent media a ray transmitted by a coated facet (`decide_RT_TMM`), arriving below the critical angle, is refracted according to Snell's law, exactly as by a facet without
coating (`decide_RT_Fresnel`). -/
theorem C119_refraction_partial (n0 n1 : ℝ) (h0 : 0 < n0) (h1 : 0 < n1) (R T : ℝ) (A : List ℝ) (d N : V3) (hd : V3.norm d = 1) (hN : V3.norm N = 1) (side : ℤ)
    (hcrit : n0 * V3.norm (d - V3.dot d N • N) ≤ n1) (rnd : ℝ) (hR : R < rnd) (hT : rnd ≤ R + T) :
    let out := decideTMM n0 n1 R T A d N side rnd
    out.2 = (-side, none) ∧ V3.norm out.1 = 1 ∧ n1 • (out.1 - V3.dot out.1 N • N) = n0 • (d - V3.dot d N • N) ∧ V3.dot out.1 N ≤ 0 ∧
      ∀ θ θt pol rnd', decideR n0 n1 θ θt pol < rnd' → decideFresnel n0 n1 θ θt d N side pol rnd' = (out.1, -side) := by
  have hN' := (norm_one_iff N).mp hN
  intro out
  have hre : ((n0 : ℂ) / n1).re = n0 / n1 := by rw [← Complex.ofReal_div, Complex.ofReal_re]
  have hab : ‖(n0 : ℂ) / n1‖ = n0 / n1 := by
    rw [← Complex.ofReal_div, Complex.norm_real, Real.norm_eq_abs, abs_of_pos (div_pos h0 h1)]
  have hnorm : V3.norm (trPar (n0 / n1) d N) = n0 / n1 * V3.norm (d - V3.dot d N • N) := by
    have hsq : V3.dot (trPar (n0 / n1) d N) (trPar (n0 / n1) d N) = (n0 / n1) ^ 2 * V3.dot (d - V3.dot d N • N) (d - V3.dot d N • N) := by
      unfold trPar V3.dot; simp only [V3.smul_x, V3.smul_y, V3.smul_z]; ring
    unfold V3.norm
    rw [hsq, Real.sqrt_mul (sq_nonneg _), Real.sqrt_sq (div_pos h0 h1).le]
  have heq : refractDirC ((n0 : ℂ) / n1) d N = refractDir (n0 / n1) d N := by
    unfold refractDirC refractDir
    rw [hre, hab, hnorm]
    rfl
  have hsq : V3.norm (trPar (n0 / n1) d N) ≤ 1 := by
    rw [hnorm, div_mul_eq_mul_div, div_le_one h1]; exact hcrit
  have hsq' : V3.norm (trPar (n0 / n1) d N) ^ 2 ≤ 1 := by
    have := norm_nonneg' (trPar (n0 / n1) d N)
    nlinarith
  have hperp := dot_trPar_N (d := d) hN' (n0 / n1)
  obtain ⟨g1, g2⟩ := dot_add_smul hN' hperp (-(Real.sqrt (1 - V3.norm (trPar (n0 / n1) d N) ^ 2)))
  have hunit : V3.norm (refractDir (n0 / n1) d N) = 1 := by
    rw [norm_one_iff]
    unfold refractDir
    rw [g1, neg_sq, Real.sq_sqrt (by linarith), norm_sq]; ring
  have hout : out = (refractDir (n0 / n1) d N, -side, none) := by
    simp only [out, decideTMM, if_neg (not_le.mpr hR), if_pos (show rnd > R ∧ rnd ≤ R + T from ⟨hR, hT⟩), heq, normalise_unit hunit]
  have g2' : V3.dot (refractDir (n0 / n1) d N) N = -(Real.sqrt (1 - V3.norm (trPar (n0 / n1) d N) ^ 2)) := g2
  rw [hout]
  refine ⟨rfl, hunit, ?_, ?_, ?_⟩
  · simp only [g2']
    have hne := h1.ne'
    ext <;> simp [refractDir, trPar] <;> field_simp
  · simp only [g2']
    have := Real.sqrt_nonneg (1 - V3.norm (trPar (n0 / n1) d N) ^ 2)
    linarith
  · intro θ θt pol rnd' hr
    unfold decideFresnel
    rw [if_neg (not_le.mpr hr)]
    simp only [Complex.ofReal_re, normalise_unit hunit]

/-- The hypotheses can be met: 45° from air into a medium of index 2. -/
example : (1 : ℝ) * V3.norm ((⟨Real.sqrt 2 / 2, 0, -(Real.sqrt 2 / 2)⟩ : V3) - V3.dot ⟨Real.sqrt 2 / 2, 0, -(Real.sqrt 2 / 2)⟩ ⟨0, 0, 1⟩ • (⟨0, 0, 1⟩ : V3)) ≤ 2 := by
  rw [one_mul]
  unfold V3.norm
  apply Real.sqrt_le_iff.mpr
  refine ⟨by norm_num, ?_⟩
  have := Real.mul_self_sqrt (show (0 : ℝ) ≤ 2 by norm_num)
  simp [V3.dot]
  nlinarith

/-- **C119 fails** if one of the media absorbs: with `n1 = 1 + i` a ray arriving at 45 degrees from air goes straight on at a facet without coating (the extinction coefficient is ignored there) and is bent towards the
normal at a coated facet (the complex ratio of the indices is used). -/
theorem C119_refraction_fails : ∃ d N : V3, V3.norm d = 1 ∧ V3.norm N = 1 ∧
    (∀ θ θt pol rnd, decideR 1 ⟨1, 1⟩ θ θt pol < rnd → decideFresnel 1 ⟨1, 1⟩ θ θt d N 1 pol rnd = (d, -1)) ∧
    ∀ R T A rnd, R < rnd → rnd ≤ R + T → (decideTMM 1 ⟨1, 1⟩ R T A d N 1 rnd).2 = (-1, none) ∧ (decideTMM 1 ⟨1, 1⟩ R T A d N 1 rnd).1 ≠ d := by
  have h2 := Real.mul_self_sqrt (show (0 : ℝ) ≤ 2 by norm_num)
  have hp : 0 < Real.sqrt 2 := by positivity
  set d : V3 := ⟨Real.sqrt 2 / 2, 0, -(Real.sqrt 2 / 2)⟩ with hddef
  have hd : V3.norm d = 1 := by rw [norm_one_iff]; simp only [V3.dot, hddef]; nlinarith
  have ht : d - V3.dot d ⟨0, 0, 1⟩ • (⟨0, 0, 1⟩ : V3) = ⟨Real.sqrt 2 / 2, 0, 0⟩ := by ext <;> simp [V3.dot, hddef]
  have hnt : V3.norm ⟨Real.sqrt 2 / 2, 0, 0⟩ = Real.sqrt 2 / 2 := by
    unfold V3.norm V3.dot
    rw [show Real.sqrt 2 / 2 * (Real.sqrt 2 / 2) + 0 * 0 + 0 * 0 = (Real.sqrt 2 / 2) ^ 2 by ring, Real.sqrt_sq (by positivity)]
  refine ⟨d, ⟨0, 0, 1⟩, hd, by rw [norm_one_iff]; simp [V3.dot], ?_, ?_⟩
  · intro θ θt pol rnd hr
    unfold decideFresnel
    rw [if_neg (not_le.mpr hr)]
    have : refractDir ((1 : ℂ).re / (⟨1, 1⟩ : ℂ).re) d ⟨0, 0, 1⟩ = d := by
      unfold refractDir trPar
      rw [ht]
      have h1s : ∀ v : V3, (1 : ℝ) • v = v := fun v => by ext <;> simp
      simp only [Complex.one_re, div_one, h1s, hnt]
      have : Real.sqrt (1 - (Real.sqrt 2 / 2) ^ 2) = Real.sqrt 2 / 2 := by
        rw [show 1 - (Real.sqrt 2 / 2) ^ 2 = (Real.sqrt 2 / 2) ^ 2 by nlinarith, Real.sqrt_sq (by positivity)]
      rw [this]
      ext <;> simp [hddef]
    rw [this, normalise_unit hd]
  · intro R T A rnd hR hT
    have hout : decideTMM 1 ⟨1, 1⟩ R T A d ⟨0, 0, 1⟩ 1 rnd = (normalise (refractDirC (1 / ⟨1, 1⟩) d ⟨0, 0, 1⟩), -1, none) := by
      simp only [decideTMM, if_neg (not_le.mpr hR), if_pos (show rnd > R ∧ rnd ≤ R + T from ⟨hR, hT⟩)]
    rw [hout]
    refine ⟨rfl, ?_⟩
    have hre : ((1 : ℂ) / ⟨1, 1⟩).re = 1 / 2 := by
      simp [Complex.div_re, Complex.normSq_mk]; norm_num
    have hab : ‖(1 : ℂ) / ⟨1, 1⟩‖ ^ 2 = 1 / 2 := by
      rw [← Complex.normSq_eq_norm_sq, map_div₀, Complex.normSq_mk]; norm_num
    intro h
    simp only [normalise, refractDirC, ht, hre, hnt, mul_pow, hab] at h
    have hx := congrArg V3.x h
    have hz := congrArg V3.z h
    simp only [V3.smul_x, V3.smul_z, V3.add_x, V3.add_z, hddef] at hx hz
    set k := V3.norm ((1 / 2 : ℝ) • (⟨Real.sqrt 2 / 2, 0, 0⟩ : V3) + -Real.sqrt (1 - 1 / 2 * (Real.sqrt 2 / 2) ^ 2) • (⟨0, 0, 1⟩ : V3))
    have e : Real.sqrt (1 - 1 / 2 * (Real.sqrt 2 / 2) ^ 2) = Real.sqrt 3 / 2 := by
      rw [show 1 - 1 / 2 * (Real.sqrt 2 / 2) ^ 2 = 3 / 4 by nlinarith, Real.sqrt_div (by norm_num), show (4 : ℝ) = 2 ^ 2 by norm_num, Real.sqrt_sq (by norm_num)]
    rw [e] at hz
    have h3 := Real.mul_self_sqrt (show (0 : ℝ) ≤ 3 by norm_num)
    have hk : 1 / k = 2 := by
      have : 1 / k * (Real.sqrt 2 / 4) = Real.sqrt 2 / 2 := by linarith
      have h4 : Real.sqrt 2 * (1 / k - 2) = 0 := by linarith
      rcases mul_eq_zero.mp h4 with h5 | h5
      · exact absurd h5 hp.ne'
      · linarith
    rw [hk] at hz
    have : Real.sqrt 3 = Real.sqrt 2 / 2 := by linarith
    nlinarith

/-! ## C43 -/

open MeasureTheory

/-- **C43, Fresnel.** Over the random numbers uniformly distributed on [0,1), the ray stays on its side (is reflected) with probability exactly the reflectance, and
is transmitted with probability one minus it. -/
theorem C43_fresnel (n0 n1 : ℂ) (θ : ℝ) (θt : ℂ) (d N : V3) (side : ℤ) (hside : side ≠ 0) (pol : Pol)
    (hR0 : 0 ≤ decideR n0 n1 θ θt pol) (hR1 : decideR n0 n1 θ θt pol ≤ 1) :
    volume {rnd ∈ Set.Ico (0 : ℝ) 1 | (decideFresnel n0 n1 θ θt d N side pol rnd).2 = side} = ENNReal.ofReal (decideR n0 n1 θ θt pol) ∧
    volume {rnd ∈ Set.Ico (0 : ℝ) 1 | (decideFresnel n0 n1 θ θt d N side pol rnd).2 = -side}
      = ENNReal.ofReal (1 - decideR n0 n1 θ θt pol) := by
  set R := decideR n0 n1 θ θt pol with hR
  have hne : -side ≠ side := by omega
  have hfst : ∀ rnd, (decideFresnel n0 n1 θ θt d N side pol rnd).2 = side ↔ rnd ≤ R := by
    intro rnd
    unfold decideFresnel
    rw [← hR]
    split_ifs with h
    · simp [h]
    · simp [h, hne]
  have hsnd : ∀ rnd, (decideFresnel n0 n1 θ θt d N side pol rnd).2 = -side ↔ R < rnd := by
    intro rnd
    unfold decideFresnel
    rw [← hR]
    split_ifs with h
    · simp [h, hne.symm]
    · simpa using h
  simp only [hfst, hsnd]
  constructor
  · have h1 : Set.Ico (0 : ℝ) R ⊆ {rnd ∈ Set.Ico (0 : ℝ) 1 | rnd ≤ R} := fun x hx => ⟨⟨hx.1, hx.2.trans_le hR1⟩, hx.2.le⟩
    have h2 : {rnd ∈ Set.Ico (0 : ℝ) 1 | rnd ≤ R} ⊆ Set.Icc (0 : ℝ) R := fun x hx => ⟨hx.1.1, hx.2⟩
    apply le_antisymm
    · calc _ ≤ volume (Set.Icc (0 : ℝ) R) := measure_mono h2
        _ = _ := by rw [Real.volume_Icc, sub_zero]
    · calc ENNReal.ofReal R = volume (Set.Ico (0 : ℝ) R) := by rw [Real.volume_Ico, sub_zero]
        _ ≤ _ := measure_mono h1
  · have : {rnd ∈ Set.Ico (0 : ℝ) 1 | R < rnd} = Set.Ioo R 1 := by
      ext x
      simp only [Set.mem_Ico, Set.mem_setOf_eq, Set.mem_Ioo]
      exact ⟨fun h => ⟨h.2, h.1.2⟩, fun h => ⟨⟨by linarith [h.1], h.2⟩, h.1⟩⟩
    rw [this, Real.volume_Ioo]

/-- **C43, which reflectance.** Between transparent media the reflectance that `decide_RT_Fresnel` compares the random number with is the textbook one of the local angle of incidence (of either sign) below the
critical angle, and 1 above it. -/
theorem C43_reflectance (n0 n1 θ : ℝ) (h0 : 0 < n0) (h1 : 0 < n1) (hθ : |θ| ≤ Real.pi / 2) (θt : ℂ)
    (ht : IsArcsin ((n0 : ℂ) / n1 * Complex.sin ((|θ| : ℝ) : ℂ)) θt) (pol : Pol) :
    (∀ θ', 0 ≤ θ' → θ' < Real.pi / 2 → n0 * Real.sin |θ| = n1 * Real.sin θ' → decideR n0 n1 θ θt pol = textbookR n0 n1 |θ| θ' pol) ∧
    (n1 < n0 * Real.sin |θ| → decideR n0 n1 θ θt pol = 1) := by
  have hpi := Real.pi_pos
  have hpos : 0 < n1 / n0 := div_pos h1 h0
  have hclip : clipRatio n0 n1 = min 1 (n1 / n0) := by
    unfold clipRatio
    simp only [Complex.ofReal_re]
    exact max_eq_right (by have : 0 < min 1 (n1 / n0) := lt_min one_pos hpos
                           linarith)
  constructor
  · intro θ' hb hb' hs
    have hle : ¬ |θ| > Real.arcsin (clipRatio n0 n1) := by
      rw [not_lt, hclip, Real.le_arcsin_iff_sin_le ⟨by linarith [abs_nonneg θ], hθ⟩ ⟨by
        have : 0 < min 1 (n1 / n0) := lt_min one_pos hpos
        linarith, min_le_left _ _⟩]
      refine le_min (Real.sin_le_one _) ?_
      rw [le_div_iff₀ h0, mul_comm, hs]
      have := Real.sin_le_one θ'
      nlinarith
    rw [decideR, if_neg hle]
    exact C41_textbook n0 n1 |θ| θ' h1 hb hb' hs θt ht pol
  · intro h
    rw [decideR, if_pos]
    rw [gt_iff_lt, hclip, Real.arcsin_lt_iff_lt_sin ⟨by
        have : 0 < min 1 (n1 / n0) := lt_min one_pos hpos
        linarith, min_le_left _ _⟩ ⟨by linarith [abs_nonneg θ], hθ⟩]
    refine (min_le_right _ _).trans_lt ?_
    rw [div_lt_iff₀ h0, mul_comm]
    exact h

/-- Both cases occur: 45° from air into index √2, and 45° from index 2 into air. -/
example : (1 : ℝ) * Real.sin |Real.pi / 4| = Real.sqrt 2 * Real.sin (Real.pi / 6) ∧ (1 : ℝ) < 2 * Real.sin |-(Real.pi / 4)| := by
  rw [abs_neg, abs_of_pos (by positivity), Real.sin_pi_div_four, Real.sin_pi_div_six]
  have := Real.sq_sqrt (show (0 : ℝ) ≤ 2 by norm_num)
  have h0 := Real.sqrt_nonneg 2
  exact ⟨by ring, by nlinarith⟩

/-- **C43, coated facet.** With tabulated `R, T ≥ 0`, `R + T ≤ 1`: reflection, transmission, absorption have probabilities exactly `R`, `T`, `1 - R - T`, and exactly
one of them happens for each random number. -/
theorem C43_tmm (n0 n1 : ℂ) (R T : ℝ) (A : List ℝ) (d N : V3) (side : ℤ) (hside : side ≠ 0) (hR : 0 ≤ R) (hT : 0 ≤ T) (hRT : R + T ≤ 1) :
    let refl := {rnd ∈ Set.Ico (0 : ℝ) 1 | (decideTMM n0 n1 R T A d N side rnd).2 = (side, none)}
    let trns := {rnd ∈ Set.Ico (0 : ℝ) 1 | (decideTMM n0 n1 R T A d N side rnd).2 = (-side, none)}
    let abso := {rnd ∈ Set.Ico (0 : ℝ) 1 | (decideTMM n0 n1 R T A d N side rnd).2 = (side, some A)}
    volume refl = ENNReal.ofReal R ∧ volume trns = ENNReal.ofReal T ∧ volume abso = ENNReal.ofReal (1 - R - T) ∧
    refl ∪ trns ∪ abso = Set.Ico 0 1 ∧ Disjoint refl trns ∧ Disjoint refl abso ∧ Disjoint trns abso := by
  have hne : -side ≠ side := by omega
  have c1 : ∀ rnd, (decideTMM n0 n1 R T A d N side rnd).2 = (side, none) ↔ rnd ≤ R := by
    intro rnd
    unfold decideTMM
    split_ifs with h h'
    · simp [h]
    · simp [h, hne]
    · simp [h]
  have c2 : ∀ rnd, (decideTMM n0 n1 R T A d N side rnd).2 = (-side, none) ↔ R < rnd ∧ rnd ≤ R + T := by
    intro rnd
    unfold decideTMM
    split_ifs with h h'
    · simp only [Prod.mk.injEq, hne.symm, false_and, false_iff, not_and]
      intro h2; linarith
    · simpa using h'
    · simp only [Prod.mk.injEq, reduceCtorEq, and_false, false_iff]
      exact h'
  have c3 : ∀ rnd, (decideTMM n0 n1 R T A d N side rnd).2 = (side, some A) ↔ R + T < rnd := by
    intro rnd
    unfold decideTMM
    split_ifs with h h'
    · simp only [Prod.mk.injEq, reduceCtorEq, and_false, false_iff, not_lt]; linarith
    · simp only [Prod.mk.injEq, reduceCtorEq, and_false, false_iff, not_lt]; exact h'.2
    · simp only [true_iff]
      by_contra h2
      exact h' ⟨not_le.mp h, not_lt.mp h2⟩
  simp only [c1, c2, c3]
  have s2 : {rnd ∈ Set.Ico (0 : ℝ) 1 | R < rnd ∧ rnd ≤ R + T} ⊆ Set.Ioc R (R + T) := fun x hx => hx.2
  have s2' : Set.Ioo R (R + T) ⊆ {rnd ∈ Set.Ico (0 : ℝ) 1 | R < rnd ∧ rnd ≤ R + T} :=
    fun x hx => ⟨⟨by linarith [hx.1], by linarith [hx.2]⟩, hx.1, hx.2.le⟩
  have s3 : {rnd ∈ Set.Ico (0 : ℝ) 1 | R + T < rnd} = Set.Ioo (R + T) 1 := by
    ext x
    simp only [Set.mem_Ico, Set.mem_setOf_eq, Set.mem_Ioo]
    exact ⟨fun h => ⟨h.2, h.1.2⟩, fun h => ⟨⟨by linarith [h.1], h.2⟩, h.1⟩⟩
  refine ⟨?_, ?_, ?_, ?_, ?_, ?_, ?_⟩
  · have h1 : Set.Ico (0 : ℝ) R ⊆ {rnd ∈ Set.Ico (0 : ℝ) 1 | rnd ≤ R} :=
      fun x hx => ⟨⟨hx.1, by linarith [hx.2]⟩, hx.2.le⟩
    have h2 : {rnd ∈ Set.Ico (0 : ℝ) 1 | rnd ≤ R} ⊆ Set.Icc (0 : ℝ) R := fun x hx => ⟨hx.1.1, hx.2⟩
    apply le_antisymm
    · calc _ ≤ volume (Set.Icc (0 : ℝ) R) := measure_mono h2
        _ = _ := by rw [Real.volume_Icc, sub_zero]
    · calc ENNReal.ofReal R = volume (Set.Ico (0 : ℝ) R) := by rw [Real.volume_Ico, sub_zero]
        _ ≤ _ := measure_mono h1
  · apply le_antisymm
    · calc _ ≤ volume (Set.Ioc R (R + T)) := measure_mono s2
        _ = _ := by rw [Real.volume_Ioc]; congr 1; ring
    · calc ENNReal.ofReal T = volume (Set.Ioo R (R + T)) := by rw [Real.volume_Ioo]; congr 1; ring
        _ ≤ _ := measure_mono s2'
  · rw [s3, Real.volume_Ioo]; congr 1; ring
  · ext x
    simp only [Set.mem_union, Set.mem_setOf_eq]
    constructor
    · rintro ((h | h) | h) <;> exact h.1
    · intro h
      by_cases g1 : x ≤ R
      · exact Or.inl (Or.inl ⟨h, g1⟩)
      · by_cases g2 : x ≤ R + T
        · exact Or.inl (Or.inr ⟨h, not_le.mp g1, g2⟩)
        · exact Or.inr ⟨h, not_le.mp g2⟩
  · rw [Set.disjoint_left]; rintro x ⟨_, h1⟩ ⟨_, h2, _⟩; linarith
  · rw [Set.disjoint_left]; rintro x ⟨_, h1⟩ ⟨_, h2⟩; linarith
  · rw [Set.disjoint_left]; rintro x ⟨_, _, h1⟩ ⟨_, h2⟩; linarith

example : (0 : ℝ) ≤ 1/4 ∧ (0 : ℝ) ≤ 1/2 ∧ (1/4 : ℝ) + 1/2 ≤ 1 := by norm_num

end Rayflare
