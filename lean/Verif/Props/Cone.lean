import Verif.Spec.Cone

/-!
# Property C187: cone and path length of the light of a Lambertian reflector
-/

namespace Rayflare

open Rayflare.Np Rayflare.Model Rayflare.Spec Rayflare.Lemmas Real

/-! ## Helper lemmas -/

section
variable (n : ℕ) (hn : 0 < n)

include hn in
/-- Half the width of a ring, and its position. -/
theorem ring_half (sp : Spacing) {i : ℕ} (hi : i < n) :
    0 < (polarEdge n sp (i + 1) - polarEdge n sp i) / 2 ∧ (polarEdge n sp (i + 1) - polarEdge n sp i) / 2 ≤ π / 4 ∧ 0 ≤ polarEdge n sp i ∧ polarEdge n sp (i + 1) ≤ π / 2 := by
  have h1 := polarEdge_strictMono n hn sp i (i + 1) (by omega) (by omega)
  have h2 : 0 ≤ polarEdge n sp i := by
    rcases Nat.eq_zero_or_pos i with h | h
    · rw [h, polarEdge_zero]
    · have := polarEdge_strictMono n hn sp 0 i h (by omega)
      rw [polarEdge_zero] at this
      exact this.le
  have h3 : polarEdge n sp (i + 1) ≤ π / 2 := by
    rw [← polarEdge_half n hn sp]
    rcases Nat.lt_or_ge (i + 1) n with h | h
    · exact (polarEdge_strictMono n hn sp (i + 1) n h (by omega)).le
    · rw [show i + 1 = n by omega]
  exact ⟨by linarith, by linarith, h2, h3⟩

include hn in
/-- The weight of a ring is the difference of the sines of its edges, times `δ / sin δ` for half the width `δ`. -/
theorem lamW_sin (sp : Spacing) {i : ℕ} (hi : i < n) :
    let δ := (polarEdge n sp (i + 1) - polarEdge n sp i) / 2
    let ds := sin (polarEdge n sp (i + 1)) - sin (polarEdge n sp i)
    lamW n sp i * sin δ = ds * δ ∧ 0 < sin δ ∧ ds ≤ lamW n sp i ∧ lamW n sp i * cos δ ≤ ds ∧ 2 * sin δ ^ 2 ≤ ds ∧ 0 < ds := by
  intro δ ds
  obtain ⟨h1, h2, h3, h4⟩ := ring_half n hn sp hi
  have hpi := Real.pi_pos
  have h1 : 0 < δ := h1
  have h2 : δ ≤ π / 4 := h2
  have hs : 0 < sin δ := Real.sin_pos_of_pos_of_lt_pi h1 (by linarith)
  have hds : ds = 2 * sin δ * cos (polarMid n sp i) := by
    show sin _ - sin _ = _
    rw [Real.sin_sub_sin]
    unfold polarMid
    rw [add_comm (polarEdge n sp (i + 1))]
  have hw : lamW n sp i = cos (polarMid n sp i) * (2 * δ) := by
    unfold lamW
    congr 1
    show _ = 2 * ((polarEdge n sp (i + 1) - polarEdge n sp i) / 2)
    ring
  have hmid : polarMid n sp i + δ ≤ π / 2 := by
    unfold polarMid
    show _ + (polarEdge n sp (i + 1) - polarEdge n sp i) / 2 ≤ _
    linarith
  have hmid0 : 0 < polarMid n sp i := by unfold polarMid; linarith
  have hcm : sin δ ≤ cos (polarMid n sp i) := by
    rw [← Real.cos_pi_div_two_sub]
    exact Real.cos_le_cos_of_nonneg_of_le_pi hmid0.le (by linarith) (by linarith)
  have hcpos : 0 < cos (polarMid n sp i) := lt_of_lt_of_le hs hcm
  have hle : sin δ ≤ δ := Real.sin_le h1.le
  have htan : δ * cos δ ≤ sin δ := by
    have hc : 0 < cos δ := Real.cos_pos_of_mem_Ioo ⟨by linarith, by linarith⟩
    have := Real.le_tan h1.le (by linarith)
    rw [Real.tan_eq_sin_div_cos, le_div_iff₀ hc] at this
    exact this
  refine ⟨by rw [hw, hds]; ring, hs, ?_, ?_, ?_, ?_⟩
  · rw [hw, hds]; nlinarith
  · rw [hw, hds]; nlinarith
  · rw [hds]; nlinarith
  · rw [hds]; positivity

include hn in
/-- The differences of the sines add up. -/
theorem sum_ds (sp : Spacing) (k : ℕ) : ∑ i ∈ Finset.range k, (sin (polarEdge n sp (i + 1)) - sin (polarEdge n sp i)) = sin (polarEdge n sp k) := by
  rw [Finset.sum_range_sub (fun i => sin (polarEdge n sp i)), polarEdge_zero, sin_zero, sub_zero]

include hn in
/-- The factor by which the weight of a ring exceeds the difference of the sines is at most `1 / (1 - 1 / (2 n))`. -/
theorem lamW_upper (sp : Spacing) {i : ℕ} (hi : i < n) :
    lamW n sp i * (1 - 1 / (2 * n)) ≤ sin (polarEdge n sp (i + 1)) - sin (polarEdge n sp i) := by
  obtain ⟨h1, h2, h3, h4⟩ := ring_half n hn sp hi
  obtain ⟨-, hs, -, k2, k3, -⟩ := lamW_sin n hn sp hi
  have hpi := Real.pi_pos
  have hw := lamW_pos n hn sp hi
  have hn' : (0 : ℝ) < n := by exact_mod_cast hn
  have hn1 : (1 : ℝ) ≤ n := by exact_mod_cast hn
  set δ := (polarEdge n sp (i + 1) - polarEdge n sp i) / 2 with hδ
  suffices h : 1 - 1 / (2 * n) ≤ cos δ from le_trans (mul_le_mul_of_nonneg_left h hw.le) k2
  cases sp with
  | sin =>
    have e : sin (polarEdge n .sin (i + 1)) - sin (polarEdge n .sin i) = 1 / n := by
      have b1 : ((i : ℝ) + 1) / n ≤ 1 := by rw [div_le_one hn']; exact_mod_cast hi
      have b0 : (0 : ℝ) ≤ (i : ℝ) / n := by positivity
      have b2 : (i : ℝ) / n ≤ ((i : ℝ) + 1) / n := div_le_div_of_nonneg_right (by linarith) hn'.le
      simp only [polarEdge, if_pos (show i + 1 ≤ n by omega), if_pos (show i ≤ n by omega)]
      push_cast
      rw [Real.sin_arcsin (by linarith) b1, Real.sin_arcsin (by linarith) (by linarith)]
      field_simp
      ring
    rw [e] at k3
    have hc : 0 ≤ cos δ := (Real.cos_pos_of_mem_Ioo ⟨by linarith, by linarith⟩).le
    have hc1 : cos δ ≤ 1 := Real.cos_le_one δ
    have hsq := Real.sin_sq_add_cos_sq δ
    have : (1 : ℝ) / (2 * n) = 1 / n / 2 := by field_simp
    rw [this]
    nlinarith
  | linear =>
    have e : δ = π / (4 * n) := by
      rw [hδ]; simp only [polarEdge]; push_cast; field_simp; ring
    have hcos := Real.one_sub_sq_div_two_le_cos (x := δ)
    have hle : δ ^ 2 / 2 ≤ 1 / (2 * n) := by
      rw [e]
      have hp4 := Real.pi_le_four
      rw [div_pow, div_div, div_le_div_iff₀ (by positivity) (by positivity)]
      have : π ^ 2 ≤ 16 := by nlinarith
      nlinarith [mul_le_mul_of_nonneg_right this hn'.le, mul_le_mul_of_nonneg_left hn1 hn'.le]
    linarith

end

/-! ## C187 -/

/-- **C187, what is computed (cone).** The light that the Lambertian reflector sends into the cone up to the edge number `k` of the grid is the sine of the half-angle of the cone, up to `1 / (2 n)`; with linear spacing it is exactly that. -/
theorem C187_cone_partial (n : ℕ) (hn : 0 < n) (s c : ℝ) (hc : 0 < c) (sp : Spacing) (k : ℕ) (hk : k ≤ n) :
    |coneShare n c (lambertStored (makeAngleVector n s c sp)) k - sin (polarEdge n sp k)| ≤ 1 / (2 * n) ∧
    (sp = .linear → coneShare n c (lambertStored (makeAngleVector n s c sp)) k = sin (polarEdge n sp k)) := by
  have hn' : (0 : ℝ) < n := by exact_mod_cast hn
  have hn1 : (1 : ℝ) ≤ n := by exact_mod_cast hn
  set W := ∑ j ∈ Finset.range n, lamW n sp j with hW
  have hcone : coneShare n c (lambertStored (makeAngleVector n s c sp)) k = (∑ i ∈ Finset.range k, lamW n sp i) / W := by
    unfold coneShare
    rw [Finset.sum_div]
    refine Finset.sum_congr rfl fun i hi => ?_
    exact ringTotal_lambert n hn s c hc sp (by have := Finset.mem_range.mp hi; omega)
  rw [hcone]
  set L := ∑ i ∈ Finset.range k, lamW n sp i with hL
  have hsplit : ∑ i ∈ Finset.Ico k n, lamW n sp i = W - L := by rw [hW, hL, Finset.sum_Ico_eq_sub _ hk]
  have hds : ∑ i ∈ Finset.Ico k n, (sin (polarEdge n sp (i + 1)) - sin (polarEdge n sp i)) = 1 - sin (polarEdge n sp k) := by
    rw [Finset.sum_Ico_eq_sub _ hk, sum_ds n hn, sum_ds n hn, polarEdge_half n hn, sin_pi_div_two]
  have l1 : sin (polarEdge n sp k) ≤ L := by
    rw [← sum_ds n hn sp k]
    exact Finset.sum_le_sum fun i hi => (lamW_sin n hn sp (by have := Finset.mem_range.mp hi; omega)).2.2.1
  have u1 : L * (1 - 1 / (2 * n)) ≤ sin (polarEdge n sp k) := by
    rw [← sum_ds n hn sp k, hL, Finset.sum_mul]
    exact Finset.sum_le_sum fun i hi => lamW_upper n hn sp (by have := Finset.mem_range.mp hi; omega)
  have l2 : 1 - sin (polarEdge n sp k) ≤ W - L := by
    rw [← hds, ← hsplit]
    exact Finset.sum_le_sum fun i hi => (lamW_sin n hn sp (Finset.mem_Ico.mp hi).2).2.2.1
  have u2 : (W - L) * (1 - 1 / (2 * n)) ≤ 1 - sin (polarEdge n sp k) := by
    rw [← hds, ← hsplit, Finset.sum_mul]
    exact Finset.sum_le_sum fun i hi => lamW_upper n hn sp (Finset.mem_Ico.mp hi).2
  have hs0 : 0 ≤ sin (polarEdge n sp k) := by
    rw [← sum_ds n hn sp k]
    exact Finset.sum_nonneg fun i hi => (lamW_sin n hn sp (by have := Finset.mem_range.mp hi; omega)).2.2.2.2.2.le
  have hs1 := Real.sin_le_one (polarEdge n sp k)
  have hWpos : 0 < W := by linarith
  set e : ℝ := 1 / (2 * n) with he
  have he0 : 0 < e := by positivity
  have he1 : e ≤ 1 / 2 := by rw [he, div_le_div_iff₀ (by positivity) (by norm_num)]; linarith
  set σ := sin (polarEdge n sp k)
  constructor
  · rw [abs_le]
    constructor
    · have : σ - e ≤ L / W := by
        rw [le_div_iff₀ hWpos]
        have : W * (1 - e) ≤ 1 := by linarith
        nlinarith
      linarith
    · have : L / W ≤ σ + e := by
        rw [div_le_iff₀ hWpos]
        have : W * (1 - e) ≤ 1 := by linarith
        nlinarith
      linarith
  · intro hlin
    subst hlin
    have hδ : ∀ i, (polarEdge n .linear (i + 1) - polarEdge n .linear i) / 2 = π / (4 * n) := by
      intro i; simp only [polarEdge]; push_cast; field_simp; ring
    have hsin : 0 < sin (π / (4 * n)) := by have := (lamW_sin n hn .linear hn).2.1; rwa [hδ 0] at this
    have hterm : ∀ i < n, lamW n .linear i = (sin (polarEdge n .linear (i + 1)) - sin (polarEdge n .linear i)) * (π / (4 * n) / sin (π / (4 * n))) := by
      intro i hi
      have := (lamW_sin n hn .linear hi).1
      simp only [hδ] at this
      rw [← mul_div_assoc, eq_div_iff hsin.ne']
      exact this
    have hLe : L = σ * (π / (4 * n) / sin (π / (4 * n))) := by
      rw [hL, Finset.sum_congr rfl fun i hi => hterm i (by have := Finset.mem_range.mp hi; omega), ← Finset.sum_mul, sum_ds n hn]
    have hWe : W = π / (4 * n) / sin (π / (4 * n)) := by
      rw [hW, Finset.sum_congr rfl fun i hi => hterm i (Finset.mem_range.mp hi), ← Finset.sum_mul, sum_ds n hn, polarEdge_half n hn, sin_pi_div_two, one_mul]
    rw [hLe, ← hWe, mul_div_assoc, div_self hWpos.ne', mul_one]

/-- **C187, what is computed (path).** The mean path of the light of the Lambertian reflector through a layer is between `(π / 2) (1 - 1 / (2 n))` and `π / 2` times the thickness. -/
theorem C187_path_partial (n : ℕ) (hn : 0 < n) (s c : ℝ) (hc : 0 < c) (sp : Spacing) :
    π / 2 * (1 - 1 / (2 * n)) ≤ meanPath n c sp (lambertStored (makeAngleVector n s c sp)) ∧
    meanPath n c sp (lambertStored (makeAngleVector n s c sp)) ≤ π / 2 := by
  have hpi := Real.pi_pos
  set W := ∑ j ∈ Finset.range n, lamW n sp j with hW
  have hpath : meanPath n c sp (lambertStored (makeAngleVector n s c sp)) = π / 2 / W := by
    unfold meanPath
    have : ∀ i ∈ Finset.range n, ringTotal n c (lambertStored (makeAngleVector n s c sp)) i / cos (polarMid n sp i) =
        (polarEdge n sp (i + 1) - polarEdge n sp i) / W := by
      intro i hi
      have hi := Finset.mem_range.mp hi
      obtain ⟨h1, h2, h3, h4⟩ := ring_half n hn sp hi
      have hcos : 0 < cos (polarMid n sp i) := Real.cos_pos_of_mem_Ioo ⟨by unfold polarMid; linarith, by unfold polarMid; linarith⟩
      rw [ringTotal_lambert n hn s c hc sp hi, ← hW]
      unfold lamW
      rw [div_right_comm, mul_div_assoc, mul_comm, div_mul_cancel₀ _ hcos.ne']
    rw [Finset.sum_congr rfl this, ← Finset.sum_div, Finset.sum_range_sub (fun i => polarEdge n sp i), polarEdge_zero, sub_zero, polarEdge_half n hn]
  have l : 1 ≤ W := by
    have e := sum_ds n hn sp n
    rw [polarEdge_half n hn, sin_pi_div_two] at e
    rw [← e]
    exact Finset.sum_le_sum fun i hi => (lamW_sin n hn sp (Finset.mem_range.mp hi)).2.2.1
  have u : W * (1 - 1 / (2 * n)) ≤ 1 := by
    have e := sum_ds n hn sp n
    rw [polarEdge_half n hn, sin_pi_div_two] at e
    refine le_trans ?_ e.le
    rw [hW, Finset.sum_mul]
    exact Finset.sum_le_sum fun i hi => lamW_upper n hn sp (Finset.mem_range.mp hi)
  have hWpos : 0 < W := by linarith
  rw [hpath]
  constructor
  · rw [le_div_iff₀ hWpos]; nlinarith
  · exact div_le_self (by positivity) l

/-- **C187 fails (cone).** On every grid with three or more rings, each cone around the normal (bounded by an edge of the grid, less than the whole hemisphere) gets more light than from a Lambertian reflector. -/
theorem C187_cone_fails (n : ℕ) (hn : 3 ≤ n) (s c : ℝ) (hc : 0 < c) (sp : Spacing) (k : ℕ) (hk : 0 < k) (hkn : k < n) :
    lambertFraction 0 (polarEdge n sp k) < coneShare n c (lambertStored (makeAngleVector n s c sp)) k := by
  have hn0 : 0 < n := by omega
  have hn' : (0 : ℝ) < n := by exact_mod_cast hn0
  have hk' : (1 : ℝ) ≤ k := by exact_mod_cast hk
  have hkn' : (k : ℝ) + 1 ≤ n := by exact_mod_cast hkn
  have hn3 : (3 : ℝ) ≤ n := by exact_mod_cast hn
  obtain ⟨h1, h2⟩ := C187_cone_partial n hn0 s c hc sp k hkn.le
  unfold lambertFraction
  rw [sin_zero]
  cases sp with
  | sin =>
    have e : sin (polarEdge n .sin k) = k / n := by
      simp only [polarEdge, if_pos hkn.le]
      rw [Real.sin_arcsin]
      · have : (0 : ℝ) ≤ k / n := by positivity
        linarith
      · rw [div_le_one hn']; linarith
    rw [e] at h1 ⊢
    have h3 := (abs_le.mp h1).1
    have h4 : (k / n : ℝ) ^ 2 - 0 ^ 2 < k / n - 1 / (2 * n) := by
      have : (k / n : ℝ) - 1 / (2 * n) - ((k / n) ^ 2 - 0 ^ 2) = (2 * k * (n - k) - n) / (2 * n ^ 2) := by field_simp; ring
      have h5 : 0 < (2 * k * (n - k) - n : ℝ) := by nlinarith
      have h6 : 0 < (2 * k * (n - k) - n : ℝ) / (2 * n ^ 2) := by positivity
      linarith
    linarith
  | linear =>
    rw [h2 rfl]
    have a0 : 0 < polarEdge n .linear k := by rw [← polarEdge_zero n .linear]; exact polarEdge_strictMono n hn0 .linear 0 k hk (by omega)
    have a1 : polarEdge n .linear k < π / 2 := by rw [← polarEdge_half n hn0 .linear]; exact polarEdge_strictMono n hn0 .linear k n hkn (by omega)
    have hpi := Real.pi_pos
    have b0 : 0 < sin (polarEdge n .linear k) := Real.sin_pos_of_pos_of_lt_pi a0 (by linarith)
    have b1 : sin (polarEdge n .linear k) < 1 := by
      rw [← sin_pi_div_two]; exact Real.sin_lt_sin_of_lt_of_le_pi_div_two (by linarith) le_rfl a1
    nlinarith

/-- **C187 fails (path).** The mean path of Lambertian light through a layer is twice the thickness; that of the light of the program's Lambertian reflector is less than 1.58 times the thickness on every grid. -/
theorem C187_path_fails (n : ℕ) (hn : 0 < n) (s c : ℝ) (hc : 0 < c) (sp : Spacing) :
    lambertMean (fun θ => 1 / cos θ) = 2 ∧ meanPath n c sp (lambertStored (makeAngleVector n s c sp)) < 1.58 := by
  refine ⟨lambertMean_path, lt_of_le_of_lt (C187_path_partial n hn s c hc sp).2 ?_⟩
  have := Real.pi_lt_d2
  norm_num at this ⊢
  linarith

/-- With the default spacing and 50 rings, at least 0.49 of the light is within 30 degrees of the normal, and a quarter of Lambertian light is. -/
example : 0.49 ≤ coneShare 50 (1 / 4) (lambertStored (makeAngleVector 50 (π / 2) (1 / 4) .sin)) 25 ∧ lambertFraction 0 (polarEdge 50 .sin 25) = 1 / 4 ∧ polarEdge 50 .sin 25 = π / 6 := by
  have e : polarEdge 50 .sin 25 = π / 6 := by
    simp only [polarEdge]
    norm_num
    rw [← Real.sin_pi_div_six, Real.arcsin_sin (by linarith [Real.pi_pos]) (by linarith [Real.pi_pos])]
  have h := (C187_cone_partial 50 (by norm_num) (π / 2) (1 / 4) (by norm_num) .sin 25 (by norm_num)).1
  rw [e] at h ⊢
  rw [Real.sin_pi_div_six] at h
  have h' := (abs_le.mp h).1
  refine ⟨by norm_num at h' ⊢; linarith, ?_, rfl⟩
  unfold lambertFraction
  rw [Real.sin_pi_div_six, sin_zero]
  norm_num

end Rayflare
