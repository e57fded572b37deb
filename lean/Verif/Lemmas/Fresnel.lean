import Verif.Model.Fresnel
import Mathlib.Tactic.Linarith
import Mathlib.Tactic.Positivity
import Mathlib.Tactic.FieldSimp
import Mathlib.Tactic.LinearCombination

/-! # Helper lemmas: Fresnel coefficients and directions -/

namespace Rayflare.Lemmas

open Rayflare.Model Complex

theorem norm_sub_le_add {a b : ℂ} (h : 0 ≤ (a * (starRingEnd ℂ) b).re) : ‖a - b‖ ≤ ‖a + b‖ := by
  have h1 : ‖a - b‖ ^ 2 ≤ ‖a + b‖ ^ 2 := by
    rw [← Complex.normSq_eq_norm_sq, ← Complex.normSq_eq_norm_sq, Complex.normSq_sub, Complex.normSq_add]
    linarith
  exact (pow_le_pow_iff_left₀ (norm_nonneg _) (norm_nonneg _) two_ne_zero).mp h1

theorem ratio_sq_le_one {a b : ℂ} (h : 0 ≤ (a * (starRingEnd ℂ) b).re) : ‖(a - b) / (a + b)‖ ^ 2 ≤ 1 := by
  have h1 := norm_sub_le_add h
  rw [norm_div]
  have h2 : ‖a - b‖ / ‖a + b‖ ≤ 1 := div_le_one_of_le₀ h1 (norm_nonneg _)
  have h3 : 0 ≤ ‖a - b‖ / ‖a + b‖ := by positivity
  nlinarith

theorem cos_re_nonneg {z : ℂ} (h1 : -(Real.pi / 2) ≤ z.re) (h2 : z.re ≤ Real.pi / 2) : 0 ≤ (Complex.cos z).re := by
  have : (Complex.cos z).re = Real.cos z.re * Real.cosh z.im := by
    rw [Complex.cos_eq z, ← Complex.ofReal_cos, ← Complex.ofReal_cosh, ← Complex.ofReal_sin, ← Complex.ofReal_sinh]
    simp only [Complex.sub_re, Complex.mul_re, Complex.ofReal_re, Complex.ofReal_im, Complex.I_re, Complex.I_im, Complex.mul_im]
    ring
  rw [this]
  exact mul_nonneg (Real.cos_nonneg_of_neg_pi_div_two_le_of_le h1 h2) (Real.cosh_pos _).le

/-- The facts about `cos theta_t` that decide the sign of everything: with `n2 = n + ik`, `n > 0`, `k ≥ 0`. -/
theorem cos_t_facts {n1 n k s : ℝ} (hn : 0 < n) (hk : 0 ≤ k) {θt : ℂ}
    (h : IsArcsin ((n1 : ℂ) / (⟨n, k⟩ : ℂ) * s) θt) :
    0 ≤ ((⟨n, k⟩ : ℂ) * Complex.cos θt).re ∧ 0 ≤ (Complex.cos θt * (starRingEnd ℂ) (⟨n, k⟩ : ℂ)).re := by
  obtain ⟨hs, hr1, hr2⟩ := h
  have hc0 := cos_re_nonneg hr1 hr2
  have hsq : Complex.cos θt ^ 2 = 1 - ((n1 : ℂ) / (⟨n, k⟩ : ℂ) * s) ^ 2 := by
    rw [← hs, Complex.cos_sq']
  have hn2 : (⟨n, k⟩ : ℂ) ≠ 0 := by
    intro h0
    have := congrArg Complex.re h0
    simp at this
    linarith
  set c := Complex.cos θt with hc
  -- multiply out: n2² c² = n2² - n1² s²
  have hmul : (⟨n, k⟩ : ℂ) ^ 2 * c ^ 2 = (⟨n, k⟩ : ℂ) ^ 2 - ((n1 * s : ℝ) : ℂ) ^ 2 := by
    rw [hsq]
    have : (n1 : ℂ) / (⟨n, k⟩ : ℂ) * s = ((n1 * s : ℝ) : ℂ) / (⟨n, k⟩ : ℂ) := by push_cast; ring
    rw [this, div_pow]
    field_simp
  obtain ⟨c1, c2⟩ := c
  simp only at hc0
  have hre := congrArg Complex.re hmul
  have him := congrArg Complex.im hmul
  simp only [pow_two, Complex.mul_re, Complex.mul_im, Complex.sub_re, Complex.sub_im, Complex.ofReal_re, Complex.ofReal_im] at hre him
  -- w = n2 c = p + i q
  set p := n * c1 - k * c2 with hp
  set q := n * c2 + k * c1 with hq
  have hpq : p * q = n * k := by
    rw [hp, hq]; linarith
  have hpp : p * p - q * q = n * n - k * k - n1 * s * (n1 * s) := by
    rw [hp, hq]; linarith
  have hcp : 0 ≤ n * p + k * q := by
    have : n * p + k * q = (n * n + k * k) * c1 := by rw [hp, hq]; ring
    rw [this]; positivity
  have hp0 : 0 ≤ p := by
    by_contra hcon
    have hcon : p < 0 := not_le.mp hcon
    -- p < 0 and p q ≥ 0 force q ≤ 0
    have hq0 : q ≤ 0 := by
      by_contra hq'
      have := mul_neg_of_neg_of_pos hcon (not_le.mp hq')
      nlinarith [mul_nonneg hn.le hk]
    nlinarith [mul_neg_of_pos_of_neg hn hcon, mul_nonpos_of_nonneg_of_nonpos hk hq0]
  refine ⟨by rw [Complex.mul_re]; exact hp0, ?_⟩
  simp only [Complex.mul_re, Complex.conj_re, Complex.conj_im]
  -- c = w / n2, so Im c² ≥ 0
  have hN : 0 < n * n + k * k := by positivity
  -- (n²+k²) c1 = n p + k q ; (n²+k²) c2 = n q - k p
  have e1 : (n * n + k * k) * c1 = n * p + k * q := by rw [hp, hq]; ring
  have e2 : (n * n + k * k) * c2 = n * q - k * p := by rw [hp, hq]; ring
  have hc12 : 0 ≤ c1 * c2 := by
    have : (n * n + k * k) ^ 2 * (c1 * c2) = n * k * (n1 * s * (n1 * s)) := by
      calc (n * n + k * k) ^ 2 * (c1 * c2) = ((n * n + k * k) * c1) * ((n * n + k * k) * c2) := by ring
        _ = (n * p + k * q) * (n * q - k * p) := by rw [e1, e2]
        _ = (n * n - k * k) * (p * q) - n * k * (p * p - q * q) := by ring
        _ = n * k * (n1 * s * (n1 * s)) := by rw [hpq, hpp]; ring
    have h1 : 0 ≤ n * k * (n1 * s * (n1 * s)) := by
      have := mul_self_nonneg (n1 * s)
      positivity
    rw [← this] at h1
    exact nonneg_of_mul_nonneg_right h1 (by positivity)
  rcases hc0.lt_or_eq with h1 | h1
  · have : 0 ≤ c2 := nonneg_of_mul_nonneg_right hc12 h1
    nlinarith [mul_nonneg h1.le hn.le, mul_nonneg this hk]
  · -- c1 = 0: then n p + k q = 0 with everything of one sign, hence k c2 = 0
    have hk0 : k = 0 := by
      have h2 : n * k * (c2 * c2 + 1) = 0 := by
        rw [hp, hq, ← h1] at hpq
        linear_combination -hpq
      rcases mul_eq_zero.mp h2 with h | h
      · exact (mul_eq_zero.mp h).resolve_left hn.ne'
      · nlinarith [mul_self_nonneg c2]
    rw [← h1, hk0]; simp

/-- Uniqueness of the arcsine for values reached below 90°. -/
theorem arcsin_unique {x : ℝ} (h0 : 0 ≤ x) (h1 : x < Real.pi / 2) {z : ℂ} (h : IsArcsin (Complex.sin x) z) : z = x := by
  obtain ⟨hs, hr1, hr2⟩ := h
  have hpi := Real.pi_pos
  obtain ⟨k, hk | hk⟩ := Complex.sin_eq_sin_iff.mp hs.symm
  · have hre := congrArg Complex.re hk
    have e : (2 * (k : ℂ) * (Real.pi : ℂ) + (x : ℂ)).re = 2 * (k : ℝ) * Real.pi + x := by
      have : (2 * (k : ℂ) * (Real.pi : ℂ) + (x : ℂ)) = ((2 * (k : ℝ) * Real.pi + x : ℝ) : ℂ) := by push_cast; ring
      rw [this, Complex.ofReal_re]
    rw [e] at hre
    have hk0 : k = 0 := by
      have h2 : (k : ℝ) < 1 := by nlinarith
      have h3 : (-1 : ℝ) < k := by nlinarith
      have h2' : k < 1 := by exact_mod_cast h2
      have h3' : -1 < k := by exact_mod_cast h3
      omega
    rw [hk, hk0]; simp
  · exfalso
    have hre := congrArg Complex.re hk
    have e : ((2 * (k : ℂ) + 1) * (Real.pi : ℂ) - (x : ℂ)).re = (2 * (k : ℝ) + 1) * Real.pi - x := by
      have : ((2 * (k : ℂ) + 1) * (Real.pi : ℂ) - (x : ℂ)) = (((2 * (k : ℝ) + 1) * Real.pi - x : ℝ) : ℂ) := by push_cast; ring
      rw [this, Complex.ofReal_re]
    rw [e] at hre
    rcases le_or_gt 0 k with h | h
    · have : (0 : ℝ) ≤ k := by exact_mod_cast h
      nlinarith
    · have : (k : ℝ) ≤ -1 := by exact_mod_cast (by omega : k ≤ -1)
      nlinarith

/-! ## Directions -/

theorem norm_sq (a : V3) : V3.norm a ^ 2 = V3.dot a a := by
  unfold V3.norm
  rw [Real.sq_sqrt]
  unfold V3.dot
  nlinarith [mul_self_nonneg a.x, mul_self_nonneg a.y, mul_self_nonneg a.z]

theorem norm_nonneg' (a : V3) : 0 ≤ V3.norm a := Real.sqrt_nonneg _

theorem norm_one_iff (a : V3) : V3.norm a = 1 ↔ V3.dot a a = 1 := by
  constructor
  · intro h; rw [← norm_sq, h]; norm_num
  · intro h; unfold V3.norm; rw [h, Real.sqrt_one]

theorem normalise_unit {a : V3} (h : V3.norm a = 1) : normalise a = a := by
  unfold normalise; rw [h]; ext <;> simp

theorem normalise_norm {a : V3} (h : V3.dot a a ≠ 0) : V3.norm (normalise a) = 1 := by
  rw [norm_one_iff]
  have h1 := norm_sq a
  have h2 : V3.norm a ≠ 0 := by intro h0; rw [h0] at h1; exact h (by rw [← h1]; norm_num)
  unfold normalise
  have : V3.dot ((1 / V3.norm a) • a) ((1 / V3.norm a) • a) = (1 / V3.norm a) ^ 2 * V3.dot a a := by
    unfold V3.dot; simp only [V3.smul_x, V3.smul_y, V3.smul_z]; ring
  rw [this, ← h1]; field_simp

theorem dot_comm (a b : V3) : V3.dot a b = V3.dot b a := by unfold V3.dot; ring

/-- Lagrange's identity for unit vectors. -/
theorem cross_norm {N d : V3} (hN : V3.dot N N = 1) (hd : V3.dot d d = 1) :
    V3.norm (V3.cross N (-d)) ^ 2 = 1 - V3.dot d N ^ 2 := by
  rw [norm_sq]
  have : V3.dot (V3.cross N (-d)) (V3.cross N (-d)) = V3.dot N N * V3.dot d d - V3.dot d N ^ 2 := by
    unfold V3.dot V3.cross; simp only [V3.neg_x, V3.neg_y, V3.neg_z]; ring
  rw [this, hN, hd]; ring

theorem localTheta_abs_le (N d : V3) : |localTheta N d| ≤ Real.pi / 2 := by
  unfold localTheta
  have := Real.pi_pos
  split_ifs
  · rw [abs_of_pos (by linarith)]
  · rw [abs_le]
    exact ⟨(Real.neg_pi_div_two_lt_arctan _).le, (Real.arctan_lt_pi_div_two _).le⟩

/-- The local angle is the angle between the ray and the facet normal. -/
theorem sin_localTheta {N d : V3} (hN : V3.dot N N = 1) (hd : V3.dot d d = 1) :
    Real.sin |localTheta N d| ^ 2 = 1 - V3.dot d N ^ 2 := by
  have hsq : Real.sin |localTheta N d| ^ 2 = Real.sin (localTheta N d) ^ 2 := by
    rcases abs_choice (localTheta N d) with h | h <;> rw [h]
    rw [Real.sin_neg]; ring
  rw [hsq]
  have hdot : V3.dot N (-d) = -V3.dot d N := by unfold V3.dot; simp only [V3.neg_x, V3.neg_y, V3.neg_z]; ring
  unfold localTheta
  split_ifs with h
  · rw [hdot] at h
    have : V3.dot d N = 0 := by linarith
    rw [this, Real.sin_pi_div_two]; norm_num
  · have h1 := cross_norm hN hd
    set s := V3.norm (V3.cross N (-d))
    rw [hdot] at h ⊢
    set c := V3.dot d N
    have hc : c ≠ 0 := by intro h0; rw [h0] at h; simp at h
    rw [Real.sin_arctan, div_pow, Real.sq_sqrt (by positivity)]
    rw [div_pow, h1]
    field_simp
    ring

theorem sin_abs_localTheta {N d : V3} (hN : V3.dot N N = 1) (hd : V3.dot d d = 1) :
    Real.sin |localTheta N d| = Real.sqrt (1 - V3.dot d N ^ 2) := by
  rw [← sin_localTheta hN hd, Real.sqrt_sq]
  exact Real.sin_nonneg_of_nonneg_of_le_pi (abs_nonneg _) ((localTheta_abs_le N d).trans (by linarith [Real.pi_pos]))

theorem dot_reflect {N d : V3} (hN : V3.dot N N = 1) : V3.dot (reflectDir d N) (reflectDir d N) = V3.dot d d := by
  have : V3.dot (reflectDir d N) (reflectDir d N) = V3.dot d d - 4 * V3.dot d N ^ 2 + 4 * V3.dot d N ^ 2 * V3.dot N N := by
    unfold reflectDir V3.dot; simp only [V3.sub_x, V3.sub_y, V3.sub_z, V3.smul_x, V3.smul_y, V3.smul_z]; ring
  rw [this, hN]; ring

theorem dot_trPar_self {N d : V3} (hN : V3.dot N N = 1) (hd : V3.dot d d = 1) (r : ℝ) :
    V3.dot (trPar r d N) (trPar r d N) = r ^ 2 * (1 - V3.dot d N ^ 2) := by
  have : V3.dot (trPar r d N) (trPar r d N) = r ^ 2 * (V3.dot d d - 2 * V3.dot d N ^ 2 + V3.dot d N ^ 2 * V3.dot N N) := by
    unfold trPar V3.dot; simp only [V3.sub_x, V3.sub_y, V3.sub_z, V3.smul_x, V3.smul_y, V3.smul_z]; ring
  rw [this, hN, hd]; ring

theorem dot_trPar_N {N d : V3} (hN : V3.dot N N = 1) (r : ℝ) : V3.dot (trPar r d N) N = 0 := by
  have : V3.dot (trPar r d N) N = r * (V3.dot d N - V3.dot d N * V3.dot N N) := by
    unfold trPar V3.dot; simp only [V3.sub_x, V3.sub_y, V3.sub_z, V3.smul_x, V3.smul_y, V3.smul_z]; ring
  rw [this, hN]; ring

theorem dot_add_smul {a N : V3} (hN : V3.dot N N = 1) (h : V3.dot a N = 0) (c : ℝ) :
    V3.dot (a + c • N) (a + c • N) = V3.dot a a + c ^ 2 ∧ V3.dot (a + c • N) N = c := by
  constructor
  · have : V3.dot (a + c • N) (a + c • N) = V3.dot a a + 2 * c * V3.dot a N + c ^ 2 * V3.dot N N := by
      unfold V3.dot; simp only [V3.add_x, V3.add_y, V3.add_z, V3.smul_x, V3.smul_y, V3.smul_z]; ring
    rw [this, hN, h]; ring
  · have : V3.dot (a + c • N) N = V3.dot a N + c * V3.dot N N := by
      unfold V3.dot; simp only [V3.add_x, V3.add_y, V3.add_z, V3.smul_x, V3.smul_y, V3.smul_z]; ring
    rw [this, hN, h]; ring

end Rayflare.Lemmas
