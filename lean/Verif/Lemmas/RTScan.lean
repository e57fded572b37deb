import Verif.Spec.RTScan

/-! # Lemmas about sampling at equally spaced points (C147) -/

namespace Rayflare.Lemmas

open MeasureTheory Rayflare.Np Rayflare.Model Rayflare.Spec

theorem bounded_integrable {g : ℝ → ℝ} (hg : Measurable g) {C : ℝ} (hC : ∀ s, |g s| ≤ C) (a b : ℝ) : IntervalIntegrable g volume a b := by
  have h : IntervalIntegrable (fun _ : ℝ => C) volume a b := intervalIntegrable_const
  refine h.mono_fun hg.aestronglyMeasurable ?_
  refine Filter.Eventually.of_forall fun s => ?_
  simp only [Real.norm_eq_abs]
  exact (hC s).trans (le_abs_self C)

theorem integrable_sum' {ι : Type*} (s : Finset ι) {f : ι → ℝ → ℝ} {a b : ℝ} (h : ∀ i ∈ s, IntervalIntegrable (f i) volume a b) : IntervalIntegrable (fun x => ∑ i ∈ s, f i x) volume a b := by
  have := IntervalIntegrable.sum s h
  have e : (∑ i ∈ s, f i) = fun x => ∑ i ∈ s, f i x := by funext x; simp
  rwa [e] at this

/-- An integral over [0, 1], cell by cell. -/
theorem integral_cells {g : ℝ → ℝ} (hg : Measurable g) {C : ℝ} (hC : ∀ s, |g s| ≤ C) {n : ℕ} (hn : 0 < n) :
    (∫ s in (0 : ℝ)..1, g s) = ∫ t in (0 : ℝ)..1, (∑ i ∈ Finset.range n, g ((i + t) / n)) / n := by
  have hn' : (0 : ℝ) < n := by exact_mod_cast hn
  have h1 := intervalIntegral.sum_integral_adjacent_intervals (μ := volume) (f := g) (a := fun i : ℕ => (i : ℝ) / n) (n := n) fun i _ => bounded_integrable hg hC _ _
  simp only [Nat.cast_zero, zero_div, div_self hn'.ne'] at h1
  rw [← h1, intervalIntegral.integral_div, intervalIntegral.integral_finsetSum]
  · rw [Finset.sum_div]
    apply Finset.sum_congr rfl
    intro i _
    have := intervalIntegral.integral_comp_div_add (a := 0) (b := 1) g hn'.ne' ((i : ℝ) / n)
    simp only [zero_div, zero_add] at this
    have e : (fun t : ℝ => g ((i + t) / n)) = fun t => g (t / n + i / n) := by funext t; congr 1; ring
    rw [e, this, smul_eq_mul, mul_div_cancel_left₀ _ hn'.ne']
    congr 1
    push_cast; ring
  · intro i _
    exact bounded_integrable (hg.comp (by fun_prop)) (fun s => hC _) _ _

/-- Values at two points in each of several adjacent intervals differ in total by at most the variation. -/
theorem sum_pairs_le {f : ℝ → ℝ} {c : ℕ → ℝ} (hc : Monotone c) {p q : ℕ → ℝ} : ∀ {n : ℕ}, (∀ i < n, p i ∈ Set.Icc (c i) (c (i + 1)) ∧ q i ∈ Set.Icc (c i) (c (i + 1))) →
    ∑ i ∈ Finset.range n, edist (f (p i)) (f (q i)) ≤ eVariationOn f (Set.Icc (c 0) (c n)) := by
  intro n
  induction n with
  | zero => intro _; simp
  | succ n ih =>
    intro h
    rw [Finset.sum_range_succ]
    have h1 := ih fun i hi => h i (by omega)
    have h2 : edist (f (p n)) (f (q n)) ≤ eVariationOn f (Set.Icc (c n) (c (n + 1))) := eVariationOn.edist_le f (h n (by omega)).1 (h n (by omega)).2
    have h3 := eVariationOn.Icc_add_Icc f (s := Set.univ) (hc (Nat.zero_le n)) (hc (Nat.le_succ n)) (Set.mem_univ _)
    simp only [Set.univ_inter] at h3
    rw [← h3]
    exact add_le_add h1 h2

/-- The same in real numbers, for `n` equal cells of [0, 1]. -/
theorem sum_cells_le {f : ℝ → ℝ} {V : ℝ} (hV0 : 0 ≤ V) (hV : eVariationOn f (Set.Icc 0 1) ≤ ENNReal.ofReal V) {n : ℕ} (hn : 0 < n) {p q : ℕ → ℝ}
    (hp : ∀ i < n, (i : ℝ) / n ≤ p i ∧ p i ≤ (i + 1) / n) (hq : ∀ i < n, (i : ℝ) / n ≤ q i ∧ q i ≤ (i + 1) / n) :
    ∑ i ∈ Finset.range n, |f (p i) - f (q i)| ≤ V := by
  have hn' : (0 : ℝ) < n := by exact_mod_cast hn
  have h1 := sum_pairs_le (f := f) (c := fun i : ℕ => (i : ℝ) / n) (fun a b hab => by simp only; gcongr) (p := p) (q := q) (n := n)
    fun i hi => ⟨by push_cast; exact ⟨(hp i hi).1, (hp i hi).2⟩, by push_cast; exact ⟨(hq i hi).1, (hq i hi).2⟩⟩
  simp only [Nat.cast_zero, zero_div, div_self hn'.ne'] at h1
  have h2 := h1.trans hV
  have h3 : ∑ i ∈ Finset.range n, edist (f (p i)) (f (q i)) = ENNReal.ofReal (∑ i ∈ Finset.range n, |f (p i) - f (q i)|) := by
    rw [ENNReal.ofReal_sum_of_nonneg fun i _ => abs_nonneg _]
    apply Finset.sum_congr rfl
    intro i _
    rw [edist_dist, Real.dist_eq]
  rw [h3] at h2
  exact (ENNReal.ofReal_le_ofReal_iff hV0).mp h2

/-- Scan point number `i` lies in cell number `i`. -/
theorem scan_cell {n i : ℕ} (hi : i < n) : (i : ℝ) / n ≤ i / ((n - 1 : ℕ) : ℝ) ∧ (i : ℝ) / ((n - 1 : ℕ) : ℝ) ≤ (i + 1) / n := by
  have hn : (0 : ℝ) < n := by exact_mod_cast (by omega : 0 < n)
  rcases Nat.eq_zero_or_pos (n - 1) with h0 | h0
  · have : i = 0 := by omega
    subst this
    rw [h0]
    simp
  · have h0' : (0 : ℝ) < ((n - 1 : ℕ) : ℝ) := by exact_mod_cast h0
    have hc : ((n - 1 : ℕ) : ℝ) = n - 1 := by rw [Nat.cast_sub (by omega)]; simp
    have hi' : (i : ℝ) ≤ n - 1 := by
      rw [← hc]
      exact_mod_cast (by omega : i ≤ n - 1)
    constructor
    · apply div_le_div_of_nonneg_left (by positivity) h0'
      rw [hc]; linarith
    · rw [div_le_div_iff₀ h0' hn, hc]
      nlinarith

/-- The average over a scan of a rectangle compared to the average over the rectangle, in coordinates from 0 to 1. -/
theorem scan_unit {F : ℝ → ℝ → ℝ} (hF : Measurable (Function.uncurry F)) {C : ℝ} (hC : ∀ s t, |F s t| ≤ C) {Vx Vy : ℝ} (hVx0 : 0 ≤ Vx) (hVy0 : 0 ≤ Vy)
    (hVx : ∀ t ∈ Set.Icc (0 : ℝ) 1, eVariationOn (fun s => F s t) (Set.Icc 0 1) ≤ ENNReal.ofReal Vx)
    (hVy : ∀ s ∈ Set.Icc (0 : ℝ) 1, eVariationOn (fun t => F s t) (Set.Icc 0 1) ≤ ENNReal.ofReal Vy) {nx ny : ℕ} (hnx : 0 < nx) (hny : 0 < ny) {p q : ℕ → ℝ}
    (hp : ∀ i < nx, (i : ℝ) / nx ≤ p i ∧ p i ≤ (i + 1) / nx) (hq : ∀ k < ny, (k : ℝ) / ny ≤ q k ∧ q k ≤ (k + 1) / ny) :
    |(∑ i ∈ Finset.range nx, ∑ k ∈ Finset.range ny, F (p i) (q k)) / (nx * ny) - ∫ s in (0 : ℝ)..1, ∫ t in (0 : ℝ)..1, F s t| ≤ Vx / nx + Vy / ny := by
  have hx : (0 : ℝ) < nx := by exact_mod_cast hnx
  have hy : (0 : ℝ) < ny := by exact_mod_cast hny
  have hFs : ∀ s, Measurable fun t => F s t := fun s => hF.comp (measurable_const.prodMk measurable_id)
  have unit : ∀ {n i : ℕ} {z : ℝ}, i < n → (i : ℝ) / n ≤ z ∧ z ≤ (i + 1) / n → z ∈ Set.Icc (0 : ℝ) 1 := by
    intro n i z hi hz
    have hn : (0 : ℝ) < n := by exact_mod_cast (by omega : 0 < n)
    have h1 : (i : ℝ) + 1 ≤ n := by exact_mod_cast hi
    exact ⟨le_trans (by positivity) hz.1, hz.2.trans (by rw [div_le_one hn]; exact h1)⟩
  have cell : ∀ {n : ℕ}, 0 < n → ∀ (i : ℕ) {z : ℝ}, z ∈ Set.Icc (0 : ℝ) 1 → (i : ℝ) / n ≤ (i + z) / n ∧ (i + z) / n ≤ (i + 1) / n := by
    intro n hn i z hz
    constructor <;> gcongr
    · linarith [hz.1]
    · exact hz.2
  set G : ℝ → ℝ := fun s => ∫ t in (0 : ℝ)..1, F s t with hG
  have hGm : Measurable G := by
    simp only [hG, intervalIntegral.integral_of_le zero_le_one]
    exact (hF.stronglyMeasurable.integral_prod_right (ν := volume.restrict (Set.Ioc (0 : ℝ) 1))).measurable
  have hGb : ∀ s, |G s| ≤ C := by
    intro s
    have := intervalIntegral.norm_integral_le_of_norm_le_const (a := 0) (b := 1) (f := fun t => F s t) (C := C) fun t _ => hC s t
    simpa using this
  -- pointwise comparison
  have hpt : ∀ s ∈ Set.Icc (0 : ℝ) 1, ∀ t ∈ Set.Icc (0 : ℝ) 1,
      |(∑ i ∈ Finset.range nx, ∑ k ∈ Finset.range ny, F (p i) (q k)) / (nx * ny) - (∑ i ∈ Finset.range nx, (∑ k ∈ Finset.range ny, F ((i + s) / nx) ((k + t) / ny)) / ny) / nx| ≤ Vx / nx + Vy / ny := by
    intro s hs t ht
    have e : (∑ i ∈ Finset.range nx, ∑ k ∈ Finset.range ny, F (p i) (q k)) / (nx * ny) - (∑ i ∈ Finset.range nx, (∑ k ∈ Finset.range ny, F ((i + s) / nx) ((k + t) / ny)) / ny) / nx =
        (∑ k ∈ Finset.range ny, ∑ i ∈ Finset.range nx, (F (p i) (q k) - F ((i + s) / nx) (q k)) + ∑ i ∈ Finset.range nx, ∑ k ∈ Finset.range ny, (F ((i + s) / nx) (q k) - F ((i + s) / nx) ((k + t) / ny))) / (nx * ny) := by
      rw [Finset.sum_comm (s := Finset.range ny), ← Finset.sum_add_distrib]
      simp only [← Finset.sum_add_distrib]
      simp only [sub_add_sub_cancel, Finset.sum_sub_distrib]
      rw [sub_div, ← Finset.sum_div, div_div, mul_comm (ny : ℝ)]
    rw [e, abs_div, abs_of_pos (mul_pos hx hy), div_le_iff₀ (mul_pos hx hy)]
    have h1 : |∑ k ∈ Finset.range ny, ∑ i ∈ Finset.range nx, (F (p i) (q k) - F ((i + s) / nx) (q k))| ≤ ny * Vx := by
      refine (Finset.abs_sum_le_sum_abs _ _).trans ?_
      have : ∀ k ∈ Finset.range ny, |∑ i ∈ Finset.range nx, (F (p i) (q k) - F ((i + s) / nx) (q k))| ≤ Vx := by
        intro k hk
        rw [Finset.mem_range] at hk
        exact (Finset.abs_sum_le_sum_abs _ _).trans
          (sum_cells_le hVx0 (hVx _ (unit hk (hq k hk))) hnx hp fun i _ => cell hnx i hs)
      refine (Finset.sum_le_sum this).trans ?_
      simp
    have h2 : |∑ i ∈ Finset.range nx, ∑ k ∈ Finset.range ny, (F ((i + s) / nx) (q k) - F ((i + s) / nx) ((k + t) / ny))| ≤ nx * Vy := by
      refine (Finset.abs_sum_le_sum_abs _ _).trans ?_
      have : ∀ i ∈ Finset.range nx, |∑ k ∈ Finset.range ny, (F ((i + s) / nx) (q k) - F ((i + s) / nx) ((k + t) / ny))| ≤ Vy := by
        intro i hi
        rw [Finset.mem_range] at hi
        exact (Finset.abs_sum_le_sum_abs _ _).trans
          (sum_cells_le hVy0 (hVy _ (unit hi (cell hnx i hs))) hny hq fun k _ => cell hny k ht)
      refine (Finset.sum_le_sum this).trans ?_
      simp
    calc _ ≤ ny * Vx + nx * Vy := (abs_add_le _ _).trans (add_le_add h1 h2)
      _ = (Vx / nx + Vy / ny) * (nx * ny) := by field_simp
  -- integrate over t, then over s
  set c := (∑ i ∈ Finset.range nx, ∑ k ∈ Finset.range ny, F (p i) (q k)) / ((nx : ℝ) * ny) with hc
  clear_value c
  have hGcell : ∀ s, G s = ∫ t in (0 : ℝ)..1, (∑ k ∈ Finset.range ny, F s ((k + t) / ny)) / ny := fun s => integral_cells (hFs s) (hC s) hny
  have hs : ∀ s ∈ Set.Icc (0 : ℝ) 1, |c - (∑ i ∈ Finset.range nx, G ((i + s) / nx)) / nx| ≤ Vx / nx + Vy / ny := by
    intro s hs
    have hint : ∀ i : ℕ, IntervalIntegrable (fun t => (∑ k ∈ Finset.range ny, F ((i + s) / nx) ((k + t) / ny)) / ny) volume 0 1 := by
      intro i
      apply IntervalIntegrable.div_const
      apply integrable_sum'
      intro k _
      exact bounded_integrable ((hFs _).comp (by fun_prop)) (fun t => hC _ _) 0 1
    have e : c - (∑ i ∈ Finset.range nx, G ((i + s) / nx)) / nx =
        ∫ t in (0 : ℝ)..1, (c - (∑ i ∈ Finset.range nx, (∑ k ∈ Finset.range ny, F ((i + s) / nx) ((k + t) / ny)) / ny) / nx) := by
      rw [intervalIntegral.integral_sub intervalIntegrable_const ((integrable_sum' _ fun i _ => hint i).div_const _), intervalIntegral.integral_div,
        intervalIntegral.integral_finsetSum fun i _ => hint i]
      simp only [intervalIntegral.integral_const, sub_zero, one_smul, ← hGcell]
    rw [e]
    have := intervalIntegral.norm_integral_le_of_norm_le_const (a := 0) (b := 1) (C := Vx / nx + Vy / ny)
      (f := fun t => c - (∑ i ∈ Finset.range nx, (∑ k ∈ Finset.range ny, F ((i + s) / nx) ((k + t) / ny)) / ny) / nx)
      fun t ht => by
        rw [Set.uIoc_of_le zero_le_one] at ht
        exact hpt s hs t ⟨ht.1.le, ht.2⟩
    simpa using this
  have hint : IntervalIntegrable (fun s => (∑ i ∈ Finset.range nx, G ((i + s) / nx)) / nx) volume 0 1 := by
    apply IntervalIntegrable.div_const
    apply integrable_sum'
    intro i _
    exact bounded_integrable (hGm.comp (by fun_prop)) (fun t => hGb _) 0 1
  have e : c - ∫ s in (0 : ℝ)..1, G s = ∫ s in (0 : ℝ)..1, (c - (∑ i ∈ Finset.range nx, G ((i + s) / nx)) / nx) := by
    rw [integral_cells hGm hGb hnx, intervalIntegral.integral_sub intervalIntegrable_const hint]
    simp
  change |c - ∫ s in (0 : ℝ)..1, G s| ≤ _
  rw [e]
  have := intervalIntegral.norm_integral_le_of_norm_le_const (a := 0) (b := 1) (C := Vx / nx + Vy / ny)
    (f := fun s => c - (∑ i ∈ Finset.range nx, G ((i + s) / nx)) / nx)
    fun s hs' => by
      rw [Set.uIoc_of_le zero_le_one] at hs'
      exact hs s ⟨hs'.1.le, hs'.2⟩
  simpa using this

end Rayflare.Lemmas
