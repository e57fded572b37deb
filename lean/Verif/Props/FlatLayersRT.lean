import Verif.Props.FlatLayers

/-!
# Property C157: ray tracing of any number of flat layers

Helper lemmas are in `Props/FlatLayers`; the specification is `Spec/FlatLayers`.
-/

namespace Rayflare

open Rayflare.Np Rayflare.Model Rayflare.Spec Rayflare.Lemmas MeasureTheory

/-! ## Helper lemmas: light gets out -/

section inside
variable {F : FlatStack} (hF : ∀ j, j < F.m → Conserves (F.above j) ∧ Conserves (F.below j))

theorem inside_outside (K : ℕ) (j : ℕ) : (¬ j < F.m → (F.inside K).1 j = 0) ∧ (¬ j + 1 < F.m → (F.inside K).2 j = 0) := by
  cases K <;> exact ⟨fun h => if_neg h, fun h => if_neg h⟩

include hF

theorem inside_range (K : ℕ) : ∀ j, (0 ≤ (F.inside K).1 j ∧ (F.inside K).1 j ≤ 1) ∧ 0 ≤ (F.inside K).2 j ∧ (F.inside K).2 j ≤ 1 := by
  induction K with
  | zero => intro j; simp only [FlatStack.inside]; constructor <;> split_ifs <;> norm_num
  | succ K ih =>
    have key : ∀ {a b u d : ℝ}, 0 ≤ a → 0 ≤ b → a + b ≤ 1 → (0 ≤ u ∧ u ≤ 1) → (0 ≤ d ∧ d ≤ 1) → 0 ≤ a * u + b * d ∧ a * u + b * d ≤ 1 := by
      intro a b u d ha hb hab hu hd
      have h1 := mul_nonneg ha hu.1
      have h2 := mul_nonneg hb hd.1
      have h3 := mul_le_of_le_one_right ha hu.2
      have h4 := mul_le_of_le_one_right hb hd.2
      constructor <;> linarith
    have hu : ∀ j, 0 ≤ (if j = 0 then 0 else (F.inside K).2 (j - 1)) ∧ (if j = 0 then 0 else (F.inside K).2 (j - 1)) ≤ 1 := by
      intro j; split_ifs
      · exact ⟨le_rfl, zero_le_one⟩
      · exact (ih _).2
    intro j
    simp only [FlatStack.inside]
    constructor
    · split_ifs with hj h0
      · obtain ⟨⟨a, b, d, -⟩, -⟩ := hF j hj
        exact key a b d ⟨le_rfl, zero_le_one⟩ (ih _).1
      · obtain ⟨⟨a, b, d, -⟩, -⟩ := hF j hj
        exact key a b d (ih _).2 (ih _).1
      · exact ⟨le_rfl, zero_le_one⟩
    · split_ifs with hj h0
      · obtain ⟨-, a, b, d, -⟩ := hF j (by omega)
        exact key a b d (ih _).1 ⟨le_rfl, zero_le_one⟩
      · obtain ⟨-, a, b, d, -⟩ := hF j (by omega)
        exact key a b d (ih _).1 (ih _).2
      · exact ⟨le_rfl, zero_le_one⟩

theorem inside_step_mono {K K' : ℕ} (h : ∀ j, (F.inside K).1 j ≤ (F.inside K').1 j ∧ (F.inside K).2 j ≤ (F.inside K').2 j) (j : ℕ) :
    (F.inside (K + 1)).1 j ≤ (F.inside (K' + 1)).1 j ∧ (F.inside (K + 1)).2 j ≤ (F.inside (K' + 1)).2 j := by
  have hu : (if j = 0 then 0 else (F.inside K).2 (j - 1)) ≤ if j = 0 then 0 else (F.inside K').2 (j - 1) := by
    split_ifs
    · exact le_rfl
    · exact (h _).2
  have hd := (h (j + 1)).1
  simp only [FlatStack.inside]
  constructor
  · by_cases hj : j < F.m
    · obtain ⟨⟨a, b, -⟩, -⟩ := hF j hj
      rw [if_pos hj, if_pos hj]
      exact add_le_add (mul_le_mul_of_nonneg_left hu a) (mul_le_mul_of_nonneg_left hd b)
    · rw [if_neg hj, if_neg hj]
  · by_cases hj : j + 1 < F.m
    · obtain ⟨-, a, b, -⟩ := hF j (by omega)
      rw [if_pos hj, if_pos hj]
      exact add_le_add (mul_le_mul_of_nonneg_left hd a) (mul_le_mul_of_nonneg_left hu b)
    · rw [if_neg hj, if_neg hj]

theorem inside_anti : ∀ K j, (F.inside (K + 1)).1 j ≤ (F.inside K).1 j ∧ (F.inside (K + 1)).2 j ≤ (F.inside K).2 j := by
  intro K
  induction K with
  | zero =>
    intro j
    constructor
    · by_cases hj : j < F.m
      · rw [show (F.inside 0).1 j = 1 from if_pos hj]; exact (inside_range hF 1 j).1.2
      · rw [(inside_outside 1 j).1 hj, (inside_outside 0 j).1 hj]
    · by_cases hj : j + 1 < F.m
      · rw [show (F.inside 0).2 j = 1 from if_pos hj]; exact (inside_range hF 1 j).2.2
      · rw [(inside_outside 1 j).2 hj, (inside_outside 0 j).2 hj]
  | succ K ih => exact inside_step_mono hF ih

theorem inside_le {K K' : ℕ} (h : K ≤ K') (j : ℕ) : (F.inside K').1 j ≤ (F.inside K).1 j ∧ (F.inside K').2 j ≤ (F.inside K).2 j := by
  induction K', h using Nat.le_induction with
  | base => exact ⟨le_rfl, le_rfl⟩
  | succ K' _ ih => exact ⟨(inside_anti hF K' j).1.trans ih.1, (inside_anti hF K' j).2.trans ih.2⟩

/-- Light gets out straight upwards, or straight downwards to the last surface and then upwards. -/
theorem inside_escape {τ : ℝ} (t0 : 0 < τ) (hτ : ∀ j, j + 1 < F.m → τ ≤ (F.above j).trns ∧ τ ≤ (F.below j).trns) (t1 : τ ≤ 1) {K : ℕ} {C : ℝ} (hC : 0 ≤ C) (h : ∀ j, (F.inside K).1 j ≤ C ∧ (F.inside K).2 j ≤ C) (j : ℕ) :
    (F.inside (K + 2 * F.m)).1 j ≤ C * (1 - τ ^ (2 * F.m)) ∧ (F.inside (K + 2 * F.m)).2 j ≤ C * (1 - τ ^ (2 * F.m)) := by
  have h' : ∀ K' j, K ≤ K' → (F.inside K').1 j ≤ C ∧ (F.inside K').2 j ≤ C := fun K' j hK => ⟨(inside_le hF hK j).1.trans (h j).1, (inside_le hF hK j).2.trans (h j).2⟩
  have pp : ∀ k, 0 ≤ C * (1 - τ ^ k) := fun k => mul_nonneg hC (sub_nonneg.mpr (pow_le_one₀ t0.le t1))
  have pmono : ∀ {k k' : ℕ}, k ≤ k' → C * (1 - τ ^ k) ≤ C * (1 - τ ^ k') := fun hk => mul_le_mul_of_nonneg_left (by linarith [pow_le_pow_of_le_one t0.le t1 hk]) hC
  have key : ∀ {a b u d : ℝ} {k : ℕ}, 0 ≤ a → τ ≤ b → a + b ≤ 1 → u ≤ C → d ≤ C * (1 - τ ^ k) → a * u + b * d ≤ C * (1 - τ ^ (k + 1)) := by
    intro a b u d k ha hb hab hu hd
    have q1 := mul_le_mul_of_nonneg_left hu ha
    have q2 := mul_le_mul_of_nonneg_left hd (t0.le.trans hb)
    have q3 := mul_le_mul_of_nonneg_left hb (mul_nonneg hC (pow_nonneg t0.le k))
    have q4 := mul_le_mul_of_nonneg_right hab hC
    rw [pow_succ]
    nlinarith
  -- upwards
  have up : ∀ j K', K + j + 1 ≤ K' → (F.inside K').2 j ≤ C * (1 - τ ^ (j + 1)) := by
    intro j
    induction j with
    | zero =>
      intro K' hK
      obtain ⟨K', rfl⟩ : ∃ k, K' = k + 1 := ⟨K' - 1, by omega⟩
      by_cases hj : 0 + 1 < F.m
      · obtain ⟨-, a, b, d, -⟩ := hF 0 (by omega)
        simp only [FlatStack.inside]
        rw [if_pos hj, if_pos trivial]
        exact key a (hτ 0 hj).2 d (h' K' _ (by omega)).1 (by simp)
      · rw [(inside_outside _ _).2 hj]; exact pp _
    | succ j ih =>
      intro K' hK
      obtain ⟨K', rfl⟩ : ∃ k, K' = k + 1 := ⟨K' - 1, by omega⟩
      by_cases hj : j + 1 + 1 < F.m
      · obtain ⟨-, a, b, d, -⟩ := hF (j + 1) (by omega)
        simp only [FlatStack.inside]
        rw [if_pos hj, if_neg (Nat.succ_ne_zero j), Nat.add_sub_cancel]
        exact key a (hτ (j + 1) hj).2 d (h' K' _ (by omega)).1 (ih K' (by omega))
      · rw [(inside_outside _ _).2 hj]; exact pp _
  -- downwards
  have down : ∀ k j, j + k + 1 = F.m → ∀ K', K + F.m + k ≤ K' → (F.inside K').1 j ≤ C * (1 - τ ^ (F.m + k)) := by
    intro k
    induction k with
    | zero =>
      intro j hj K' hK
      obtain ⟨K', rfl⟩ : ∃ k, K' = k + 1 := ⟨K' - 1, by omega⟩
      have hjm : j < F.m := by omega
      obtain ⟨⟨a, b, d, -⟩, -⟩ := hF j hjm
      simp only [FlatStack.inside]
      rw [if_pos hjm, (inside_outside K' (j + 1)).1 (by omega), mul_zero, add_zero, Nat.add_zero]
      have hu : (if j = 0 then 0 else (F.inside K').2 (j - 1)) ≤ C * (1 - τ ^ F.m) := by
        split_ifs with h0
        · exact pp _
        · exact (up (j - 1) K' (by omega)).trans (pmono (by omega))
      have := mul_le_mul_of_nonneg_left hu a
      have := mul_le_of_le_one_left (pp F.m) (show (F.above j).refl ≤ 1 by linarith)
      linarith
    | succ k ih =>
      intro j hj K' hK
      obtain ⟨K', rfl⟩ : ∃ k, K' = k + 1 := ⟨K' - 1, by omega⟩
      have hjm : j < F.m := by omega
      obtain ⟨⟨a, b, d, -⟩, -⟩ := hF j hjm
      simp only [FlatStack.inside]
      rw [if_pos hjm, ← Nat.add_assoc]
      refine key a (hτ j (by omega)).1 d ?_ (ih (j + 1) (by omega) K' (by omega))
      split_ifs with h0
      · exact hC
      · exact (h' K' _ (by omega)).2
  constructor
  · by_cases hj : j < F.m
    · exact (down (F.m - 1 - j) j (by omega) _ (by omega)).trans (pmono (by omega))
    · rw [(inside_outside _ _).1 hj]; exact pp _
  · by_cases hj : j + 1 < F.m
    · exact (up j _ (by omega)).trans (pmono (by omega))
    · rw [(inside_outside _ _).2 hj]; exact pp _

theorem inside_vanishes (hopen : ∀ j, j + 1 < F.m → 0 < (F.above j).trns ∧ 0 < (F.below j).trns) {ε : ℝ} (hε : 0 < ε) : ∃ K₀, ∀ K, K₀ ≤ K → ∀ j, (F.inside K).1 j ≤ ε ∧ (F.inside K).2 j ≤ ε := by
  have hτ : ∀ k, ∃ τ : ℝ, 0 < τ ∧ τ ≤ 1 ∧ ∀ j, j < k → j + 1 < F.m → τ ≤ (F.above j).trns ∧ τ ≤ (F.below j).trns := by
    intro k
    induction k with
    | zero => exact ⟨1, one_pos, le_rfl, fun j hj => absurd hj (Nat.not_lt_zero j)⟩
    | succ k ih =>
      obtain ⟨τ, a, b, d⟩ := ih
      by_cases hk : k + 1 < F.m
      · obtain ⟨e1, e2⟩ := hopen k hk
        refine ⟨min τ (min (F.above k).trns (F.below k).trns), lt_min a (lt_min e1 e2), (min_le_left _ _).trans b, fun j hj hjm => ?_⟩
        rcases Nat.lt_succ_iff_lt_or_eq.mp hj with h | rfl
        · exact ⟨(min_le_left _ _).trans (d j h hjm).1, (min_le_left _ _).trans (d j h hjm).2⟩
        · exact ⟨(min_le_right _ _).trans (min_le_left _ _), (min_le_right _ _).trans (min_le_right _ _)⟩
      · refine ⟨τ, a, b, fun j hj hjm => ?_⟩
        rcases Nat.lt_succ_iff_lt_or_eq.mp hj with h | rfl
        · exact d j h hjm
        · exact absurd hjm hk
  obtain ⟨τ, t0, t1, hτ⟩ := hτ F.m
  have hρ0 : 0 ≤ 1 - τ ^ (2 * F.m) := sub_nonneg.mpr (pow_le_one₀ t0.le t1)
  have hρ1 : 1 - τ ^ (2 * F.m) < 1 := by linarith [pow_pos t0 (2 * F.m)]
  have hpow : ∀ N j, (F.inside (2 * F.m * N)).1 j ≤ (1 - τ ^ (2 * F.m)) ^ N ∧ (F.inside (2 * F.m * N)).2 j ≤ (1 - τ ^ (2 * F.m)) ^ N := by
    intro N
    induction N with
    | zero => intro j; rw [Nat.mul_zero, pow_zero]; exact ⟨(inside_range hF 0 j).1.2, (inside_range hF 0 j).2.2⟩
    | succ N ih =>
      intro j
      rw [Nat.mul_succ, pow_succ]
      exact inside_escape hF t0 (fun j hj => hτ j (by omega) hj) t1 (pow_nonneg hρ0 N) ih j
  obtain ⟨N, hN⟩ := exists_pow_lt_of_lt_one hε hρ1
  refine ⟨2 * F.m * N, fun K hK j => ⟨?_, ?_⟩⟩
  · exact (inside_le hF hK j).1.trans ((hpow N j).1.trans hN.le)
  · exact (inside_le hF hK j).2.trans ((hpow N j).2.trans hN.le)

omit hF in
/-- If each layer absorbs, there is a bound for all of them. -/
theorem pass_bound (hP : ∀ i, i < F.m → 0 ≤ F.pass i ∧ F.pass i ≤ 1) (h : ∀ i, 1 ≤ i → i < F.m → F.pass i < 1) : ∃ p : ℝ, 0 ≤ p ∧ p < 1 ∧ ∀ i, 1 ≤ i → i < F.m → F.pass i ≤ p := by
  have : ∀ k, ∃ p : ℝ, 0 ≤ p ∧ p < 1 ∧ ∀ i, i < k → 1 ≤ i → i < F.m → F.pass i ≤ p := by
    intro k
    induction k with
    | zero => exact ⟨0, le_rfl, one_pos, fun j hj => absurd hj (Nat.not_lt_zero j)⟩
    | succ k ih =>
      obtain ⟨p, a, b, d⟩ := ih
      by_cases hk : 1 ≤ k ∧ k < F.m
      · refine ⟨max p (F.pass k), le_max_of_le_left a, max_lt b (h k hk.1 hk.2), fun j hj h1 h2 => ?_⟩
        rcases Nat.lt_succ_iff_lt_or_eq.mp hj with e | rfl
        · exact (d j e h1 h2).trans (le_max_left _ _)
        · exact le_max_right _ _
      · refine ⟨p, a, b, fun j hj h1 h2 => ?_⟩
        rcases Nat.lt_succ_iff_lt_or_eq.mp hj with e | rfl
        · exact d j e h1 h2
        · exact absurd ⟨h1, h2⟩ hk
  obtain ⟨p, a, b, d⟩ := this F.m
  exact ⟨p, a, b, fun i h1 h2 => d i h2 h1 h2⟩

end inside

/-! ## Helper lemmas: rays that are not finished -/

section late
variable {c : RTStack} {m : ℕ} {cells : ℕ → Cell} {tabs : ℕ → Option Table} {nk : ℕ → ℂ} {θ : ℕ → ℝ} (hs : FlatLayers c m cells tabs nk θ) {n : ℕ} (hn : 3 ≤ n)
  {g : StackRes → ℝ} (hg1 : ∀ s : StackRay, s.ray.stop = true → g (.next s) = 0) (hg0 : ∀ s : StackRay, s.ray.stop = false → g (.next s) = 1)
include hs hn hg1

include hg0 in
theorem layers_late : ∀ (K : ℕ) (V : ℕ → Visit), AllFlatTo m cells V → ∀ (s : StackRay) (δ : ℤ) (j : ℕ), (δ = 1 ∧ j < m ∨ δ = -1 ∧ j + 1 < m) → AtSurface cells θ δ j s →
    branchesStack c n g K V s ≤ if δ = 1 then ((flatStackOf c m tabs nk θ).inside K).1 j else ((flatStackOf c m tabs nk θ).inside K).2 j := by
  intro K
  have hF : ∀ j, j < (flatStackOf c m tabs nk θ).m → Conserves ((flatStackOf c m tabs nk θ).above j) ∧ Conserves ((flatStackOf c m tabs nk θ).below j) := fun j hj => layers_conserve hs hj
  induction K with
  | zero =>
    intro V hV s δ j hj h
    rw [show branchesStack c n g 0 V s = g (.next s) from rfl, hg0 s h.running]
    rcases hj with ⟨rfl, hj⟩ | ⟨rfl, hj⟩
    · rw [if_pos rfl]; exact (if_pos hj).ge
    · rw [if_neg (by norm_num)]; exact (if_pos hj).ge
  | succ K ih =>
    intro V hV s δ j hj h
    have hV' : AllFlatTo m cells fun i => V (i + 1) := fun i => hV (i + 1)
    obtain ⟨sU, sD, sA, hb, hU, hD, hst, w1, w2, w3, -⟩ := layers_step hs hn g K hV hj h
    rw [branchesStack_stop hst, hg1 sA hst, mul_zero, add_zero] at hb
    have hjm : j < m := by omega
    have key : ∀ (δ' : ℤ) (i k : ℕ) (s' : StackRay), (δ' = 1 ∧ k < m ∨ δ' = -1 ∧ k + 1 < m) → Crosses c.S.thresh cells θ ((flatStackOf c m tabs nk θ).pass i) δ' i k s.ray s' →
        branchesStack c n g K (fun i => V (i + 1)) s' ≤ if δ' = 1 then ((flatStackOf c m tabs nk θ).inside K).1 k else ((flatStackOf c m tabs nk θ).inside K).2 k := by
      rintro δ' i k s' hk ⟨-, -, ⟨r1, -⟩ | ⟨-, r2⟩⟩
      · rw [branchesStack_stop r1, hg1 s' r1]
        have := inside_range hF K k
        split_ifs
        · exact this.1.1
        · exact this.2.1
      · exact ih _ hV' s' δ' k hk r2
    have hUb : (if δ = 1 then ((flatStackOf c m tabs nk θ).above j).refl else ((flatStackOf c m tabs nk θ).below j).trns) * branchesStack c n g K (fun i => V (i + 1)) sU
        ≤ (if δ = 1 then ((flatStackOf c m tabs nk θ).above j).refl else ((flatStackOf c m tabs nk θ).below j).trns) * (if j = 0 then 0 else ((flatStackOf c m tabs nk θ).inside K).2 (j - 1)) := by
      by_cases hw : (if δ = 1 then ((flatStackOf c m tabs nk θ).above j).refl else ((flatStackOf c m tabs nk θ).below j).trns) = 0
      · rw [hw, zero_mul, zero_mul]
      · refine mul_le_mul_of_nonneg_left ?_ w1
        have := hU hw
        unfold Upward at this
        by_cases h0 : j = 0
        · rw [if_pos h0] at this ⊢
          rw [branchesStack_stop this.1, hg1 sU this.1]
        · rw [if_neg h0] at this ⊢
          have := key _ _ _ sU (Or.inr ⟨rfl, by omega⟩) this
          simpa using this
    have hDb : (if δ = 1 then ((flatStackOf c m tabs nk θ).above j).trns else ((flatStackOf c m tabs nk θ).below j).refl) * branchesStack c n g K (fun i => V (i + 1)) sD
        ≤ (if δ = 1 then ((flatStackOf c m tabs nk θ).above j).trns else ((flatStackOf c m tabs nk θ).below j).refl) * ((flatStackOf c m tabs nk θ).inside K).1 (j + 1) := by
      by_cases hw : (if δ = 1 then ((flatStackOf c m tabs nk θ).above j).trns else ((flatStackOf c m tabs nk θ).below j).refl) = 0
      · rw [hw, zero_mul, zero_mul]
      · refine mul_le_mul_of_nonneg_left ?_ w2
        have := hD hw
        unfold Downward at this
        by_cases h0 : j + 1 = m
        · rw [if_pos h0] at this
          rw [branchesStack_stop this.1, hg1 sD this.1]
          exact (inside_range hF K (j + 1)).1.1
        · rw [if_neg h0] at this
          have := key _ _ _ sD (Or.inl ⟨rfl, this.1⟩) this.2
          simpa using this
    rw [hb]
    rcases hj with ⟨rfl, hj⟩ | ⟨rfl, hj⟩
    · simp only [if_true] at hUb hDb ⊢
      have e : ((flatStackOf c m tabs nk θ).inside (K + 1)).1 j = ((flatStackOf c m tabs nk θ).above j).refl * (if j = 0 then 0 else ((flatStackOf c m tabs nk θ).inside K).2 (j - 1))
        + ((flatStackOf c m tabs nk θ).above j).trns * ((flatStackOf c m tabs nk θ).inside K).1 (j + 1) := if_pos hj
      rw [e]
      exact add_le_add hUb hDb
    · simp only [show ¬ ((-1 : ℤ) = 1) by norm_num, if_false] at hUb hDb ⊢
      have e : ((flatStackOf c m tabs nk θ).inside (K + 1)).2 j = ((flatStackOf c m tabs nk θ).below j).refl * ((flatStackOf c m tabs nk θ).inside K).1 (j + 1)
        + ((flatStackOf c m tabs nk θ).below j).trns * (if j = 0 then 0 else ((flatStackOf c m tabs nk θ).inside K).2 (j - 1)) := if_pos hj
      rw [e]
      linarith

/-- A ray that loses light at each pass is given up after finitely many passes. -/
theorem layers_late_zero {p : ℝ} (hp0 : 0 ≤ p) (hp : ∀ i, 1 ≤ i → i < m → (flatStackOf c m tabs nk θ).pass i ≤ p) :
    ∀ (K : ℕ) (V : ℕ → Visit), AllFlatTo m cells V → ∀ (s : StackRay) (δ : ℤ) (j : ℕ), 0 ≤ s.ray.I → s.ray.I * p ^ K < c.S.thresh → (δ = 1 ∧ j < m ∨ δ = -1 ∧ j + 1 < m) → AtSurface cells θ δ j s →
      branchesStack c n g (K + 1) V s = 0 := by
  intro K
  induction K with
  | zero =>
    intro V hV s δ j hI hlt hj h
    rw [pow_zero, mul_one] at hlt
    obtain ⟨sU, sD, sA, hb, hU, hD, hst, w1, w2, w3, -⟩ := layers_step hs hn g 0 hV hj h
    rw [branchesStack_stop hst, hg1 sA hst, mul_zero, add_zero] at hb
    have hjm : j < m := by omega
    have key : ∀ (δ' : ℤ) (i k : ℕ) (s' : StackRay), i < m → Crosses c.S.thresh cells θ ((flatStackOf c m tabs nk θ).pass i) δ' i k s.ray s' → branchesStack c n g 0 (fun i => V (i + 1)) s' = 0 := by
      rintro δ' i k s' hi ⟨-, -, ⟨r1, -⟩ | ⟨r1, -⟩⟩
      · rw [branchesStack_stop r1, hg1 s' r1]
      · have := mul_le_of_le_one_right hI (layers_pass hs hi).2
        exact absurd (r1.trans this) (not_le.mpr hlt)
    have hUb : (if δ = 1 then ((flatStackOf c m tabs nk θ).above j).refl else ((flatStackOf c m tabs nk θ).below j).trns) * branchesStack c n g 0 (fun i => V (i + 1)) sU = 0 := by
      by_cases hw : (if δ = 1 then ((flatStackOf c m tabs nk θ).above j).refl else ((flatStackOf c m tabs nk θ).below j).trns) = 0
      · rw [hw, zero_mul]
      · have := hU hw
        unfold Upward at this
        by_cases h0 : j = 0
        · rw [if_pos h0] at this
          rw [branchesStack_stop this.1, hg1 sU this.1, mul_zero]
        · rw [if_neg h0] at this
          rw [key _ _ _ sU hjm this, mul_zero]
    have hDb : (if δ = 1 then ((flatStackOf c m tabs nk θ).above j).trns else ((flatStackOf c m tabs nk θ).below j).refl) * branchesStack c n g 0 (fun i => V (i + 1)) sD = 0 := by
      by_cases hw : (if δ = 1 then ((flatStackOf c m tabs nk θ).above j).trns else ((flatStackOf c m tabs nk θ).below j).refl) = 0
      · rw [hw, zero_mul]
      · have := hD hw
        unfold Downward at this
        by_cases h0 : j + 1 = m
        · rw [if_pos h0] at this
          rw [branchesStack_stop this.1, hg1 sD this.1, mul_zero]
        · rw [if_neg h0] at this
          rw [key _ _ _ sD this.1 this.2, mul_zero]
    rw [hb, hUb, hDb, add_zero]
  | succ K ih =>
    intro V hV s δ j hI hlt hj h
    have hV' : AllFlatTo m cells fun i => V (i + 1) := fun i => hV (i + 1)
    obtain ⟨sU, sD, sA, hb, hU, hD, hst, w1, w2, w3, -⟩ := layers_step hs hn g (K + 1) hV hj h
    rw [branchesStack_stop hst, hg1 sA hst, mul_zero, add_zero] at hb
    have hjm : j < m := by omega
    have key : ∀ (δ' : ℤ) (i k : ℕ) (s' : StackRay), 1 ≤ i → i < m → (δ' = 1 ∧ k < m ∨ δ' = -1 ∧ k + 1 < m) → Crosses c.S.thresh cells θ ((flatStackOf c m tabs nk θ).pass i) δ' i k s.ray s' →
        branchesStack c n g (K + 1) (fun i => V (i + 1)) s' = 0 := by
      rintro δ' i k s' h1 hi hk ⟨q1, -, ⟨r1, -⟩ | ⟨-, r2⟩⟩
      · rw [branchesStack_stop r1, hg1 s' r1]
      · have hP := layers_pass hs hi
        refine ih _ hV' s' δ' k (by rw [q1]; exact mul_nonneg hI hP.1) ?_ hk r2
        rw [q1]
        refine lt_of_le_of_lt ?_ hlt
        rw [pow_succ', ← mul_assoc]
        exact mul_le_mul_of_nonneg_right (mul_le_mul_of_nonneg_left (hp i h1 hi) hI) (pow_nonneg hp0 K)
    have hUb : (if δ = 1 then ((flatStackOf c m tabs nk θ).above j).refl else ((flatStackOf c m tabs nk θ).below j).trns) * branchesStack c n g (K + 1) (fun i => V (i + 1)) sU = 0 := by
      by_cases hw : (if δ = 1 then ((flatStackOf c m tabs nk θ).above j).refl else ((flatStackOf c m tabs nk θ).below j).trns) = 0
      · rw [hw, zero_mul]
      · have := hU hw
        unfold Upward at this
        by_cases h0 : j = 0
        · rw [if_pos h0] at this
          rw [branchesStack_stop this.1, hg1 sU this.1, mul_zero]
        · rw [if_neg h0] at this
          rw [key _ _ _ sU (by omega) hjm (Or.inr ⟨rfl, by omega⟩) this, mul_zero]
    have hDb : (if δ = 1 then ((flatStackOf c m tabs nk θ).above j).trns else ((flatStackOf c m tabs nk θ).below j).refl) * branchesStack c n g (K + 1) (fun i => V (i + 1)) sD = 0 := by
      by_cases hw : (if δ = 1 then ((flatStackOf c m tabs nk θ).above j).trns else ((flatStackOf c m tabs nk θ).below j).refl) = 0
      · rw [hw, zero_mul]
      · have := hD hw
        unfold Downward at this
        by_cases h0 : j + 1 = m
        · rw [if_pos h0] at this
          rw [branchesStack_stop this.1, hg1 sD this.1, mul_zero]
        · rw [if_neg h0] at this
          rw [key _ _ _ sD (by omega) this.1 (Or.inl ⟨rfl, this.1⟩) this.2, mul_zero]
    rw [hb, hUb, hDb, add_zero]

end late

/-! ## The property -/

/-- **C157, the balance.** For every stack of flat surfaces in which no light is created, and every quantity, the balance of light has a solution. -/
theorem C157_balance (F : FlatStack) (hF : ∀ j, j < F.m → Conserves (F.above j) ∧ Conserves (F.below j)) (hP : ∀ i, i < F.m → 0 ≤ F.pass i ∧ F.pass i ≤ 1) (q : Quantity) : ∃ xD xU, F.Balance q xD xU :=
  FlatBalance.exists_balance q hF hP

/-- What is left of a difference that is only passed on is nothing, if the layers absorb or light gets out. -/
theorem homogeneous_zero {F : FlatStack} (hF : ∀ j, j < F.m → Conserves (F.above j) ∧ Conserves (F.below j)) (hP : ∀ i, i < F.m → 0 ≤ F.pass i ∧ F.pass i ≤ 1)
    (hgets : (∀ i, 1 ≤ i → i < F.m → F.pass i < 1) ∨ ∀ j, j + 1 < F.m → 0 < (F.above j).trns ∧ 0 < (F.below j).trns)
    {yD yU : ℕ → ℝ} {B : ℝ} (hB : 0 ≤ B) (bD : ∀ j, j < F.m → |yD j| ≤ B) (bU : ∀ j, j + 1 < F.m → |yU j| ≤ B)
    (eD : ∀ j, j < F.m → yD j = (F.above j).refl * (if j = 0 then 0 else F.pass j * yU (j - 1)) + (F.above j).trns * (if j + 1 = F.m then 0 else F.pass (j + 1) * yD (j + 1)))
    (eU : ∀ j, j + 1 < F.m → yU j = (F.below j).refl * (if j + 1 = F.m then 0 else F.pass (j + 1) * yD (j + 1)) + (F.below j).trns * (if j = 0 then 0 else F.pass j * yU (j - 1))) :
    (∀ j, j < F.m → yD j = 0) ∧ ∀ j, j + 1 < F.m → yU j = 0 := by
  have two : ∀ {a b u d B : ℝ}, 0 ≤ a → 0 ≤ b → a + b ≤ 1 → 0 ≤ B → |u| ≤ B → |d| ≤ B → |a * u + b * d| ≤ B := by
    intro a b u d B ha hb hab hB hu hd
    have h1 := mul_le_mul_of_nonneg_left hu ha
    have h2 := mul_le_mul_of_nonneg_left hd hb
    have h3 := mul_le_mul_of_nonneg_right hab hB
    calc |a * u + b * d| ≤ |a * u| + |b * d| := abs_add_le _ _
      _ = a * |u| + b * |d| := by rw [abs_mul, abs_mul, abs_of_nonneg ha, abs_of_nonneg hb]
      _ ≤ B := by linarith
  have small : ∀ ε : ℝ, 0 < ε → (∀ j, j < F.m → |yD j| ≤ ε * B) ∧ ∀ j, j + 1 < F.m → |yU j| ≤ ε * B := by
    intro ε hε
    rcases hgets with hA | hO
    · obtain ⟨p, p0, p1, hp⟩ := pass_bound hP hA
      have main : ∀ K : ℕ, (∀ j, j < F.m → |yD j| ≤ p ^ K * B) ∧ ∀ j, j + 1 < F.m → |yU j| ≤ p ^ K * B := by
        intro K
        induction K with
        | zero => rw [pow_zero, one_mul]; exact ⟨bD, bU⟩
        | succ K ih =>
          have hB' : 0 ≤ p ^ (K + 1) * B := mul_nonneg (pow_nonneg p0 (K + 1)) hB
          have hu : ∀ j, j < F.m → |if j = 0 then 0 else F.pass j * yU (j - 1)| ≤ p ^ (K + 1) * B := by
            intro j hj
            by_cases h0 : j = 0
            · rw [if_pos h0, abs_zero]; exact hB'
            · rw [if_neg h0, abs_mul, abs_of_nonneg (hP j hj).1, pow_succ', mul_assoc]
              exact mul_le_mul (hp j (by omega) hj) (ih.2 (j - 1) (by omega)) (abs_nonneg _) p0
          have hd : ∀ j, j < F.m → |if j + 1 = F.m then 0 else F.pass (j + 1) * yD (j + 1)| ≤ p ^ (K + 1) * B := by
            intro j hj
            by_cases h0 : j + 1 = F.m
            · rw [if_pos h0, abs_zero]; exact hB'
            · have hj1 : j + 1 < F.m := lt_of_le_of_ne hj h0
              rw [if_neg h0, abs_mul, abs_of_nonneg (hP (j + 1) hj1).1, pow_succ', mul_assoc]
              exact mul_le_mul (hp (j + 1) (by omega) hj1) (ih.1 (j + 1) hj1) (abs_nonneg _) p0
          refine ⟨fun j hj => ?_, fun j hj => ?_⟩
          · obtain ⟨⟨a1, a2, a3, -⟩, -⟩ := hF j hj
            rw [eD j hj]; exact two a1 a2 a3 hB' (hu j hj) (hd j hj)
          · have hj' : j < F.m := by omega
            obtain ⟨-, a1, a2, a3, -⟩ := hF j hj'
            rw [eU j hj]; exact two a1 a2 a3 hB' (hd j hj') (hu j hj')
      obtain ⟨K, hK⟩ := exists_pow_lt_of_lt_one hε p1
      exact ⟨fun j hj => ((main K).1 j hj).trans (mul_le_mul_of_nonneg_right hK.le hB), fun j hj => ((main K).2 j hj).trans (mul_le_mul_of_nonneg_right hK.le hB)⟩
    · have main : ∀ K : ℕ, (∀ j, j < F.m → |yD j| ≤ (F.inside K).1 j * B) ∧ ∀ j, j + 1 < F.m → |yU j| ≤ (F.inside K).2 j * B := by
        intro K
        induction K with
        | zero =>
          refine ⟨fun j hj => ?_, fun j hj => ?_⟩
          · rw [show (F.inside 0).1 j = 1 from if_pos hj, one_mul]; exact bD j hj
          · rw [show (F.inside 0).2 j = 1 from if_pos hj, one_mul]; exact bU j hj
        | succ K ih =>
          have hu : ∀ j, j < F.m → |if j = 0 then 0 else F.pass j * yU (j - 1)| ≤ (if j = 0 then 0 else (F.inside K).2 (j - 1)) * B := by
            intro j hj
            by_cases h0 : j = 0
            · simp [h0]
            · rw [if_neg h0, if_neg h0, abs_mul, abs_of_nonneg (hP j hj).1]
              exact (mul_le_of_le_one_left (abs_nonneg _) (hP j hj).2).trans (ih.2 (j - 1) (by omega))
          have hd : ∀ j, j < F.m → |if j + 1 = F.m then 0 else F.pass (j + 1) * yD (j + 1)| ≤ (F.inside K).1 (j + 1) * B := by
            intro j hj
            by_cases h0 : j + 1 = F.m
            · rw [if_pos h0, abs_zero]; exact mul_nonneg (inside_range hF K (j + 1)).1.1 hB
            · have hj1 : j + 1 < F.m := lt_of_le_of_ne hj h0
              rw [if_neg h0, abs_mul, abs_of_nonneg (hP (j + 1) hj1).1]
              exact (mul_le_of_le_one_left (abs_nonneg _) (hP (j + 1) hj1).2).trans (ih.1 (j + 1) hj1)
          have comb : ∀ {a b u d X Y : ℝ}, 0 ≤ a → 0 ≤ b → |u| ≤ X * B → |d| ≤ Y * B → |a * u + b * d| ≤ (a * X + b * Y) * B := by
            intro a b u d X Y ha hb hu hd
            calc |a * u + b * d| ≤ |a * u| + |b * d| := abs_add_le _ _
              _ = a * |u| + b * |d| := by rw [abs_mul, abs_mul, abs_of_nonneg ha, abs_of_nonneg hb]
              _ ≤ a * (X * B) + b * (Y * B) := add_le_add (mul_le_mul_of_nonneg_left hu ha) (mul_le_mul_of_nonneg_left hd hb)
              _ = _ := by ring
          refine ⟨fun j hj => ?_, fun j hj => ?_⟩
          · obtain ⟨⟨a1, a2, a3, -⟩, -⟩ := hF j hj
            rw [eD j hj]; exact (comb a1 a2 (hu j hj) (hd j hj)).trans (mul_le_mul_of_nonneg_right (if_pos hj).ge hB)
          · have hj' : j < F.m := by omega
            obtain ⟨-, a1, a2, a3, -⟩ := hF j hj'
            rw [eU j hj]; exact (comb a1 a2 (hd j hj') (hu j hj')).trans (mul_le_mul_of_nonneg_right (if_pos hj).ge hB)
      obtain ⟨K, hK⟩ := inside_vanishes hF hO hε
      exact ⟨fun j hj => ((main K).1 j hj).trans (mul_le_mul_of_nonneg_right (hK K le_rfl j).1 hB), fun j hj => ((main K).2 j hj).trans (mul_le_mul_of_nonneg_right (hK K le_rfl j).2 hB)⟩
  have zero : ∀ x : ℝ, (∀ ε : ℝ, 0 < ε → |x| ≤ ε * B) → x = 0 := by
    intro x h
    by_contra hx
    have hx' : 0 < |x| := abs_pos.mpr hx
    have := h (|x| / (2 * (B + 1))) (by positivity)
    have e : |x| / (2 * (B + 1)) * B ≤ |x| / 2 := by
      rw [div_mul_eq_mul_div, div_le_div_iff₀ (by positivity) two_pos]
      nlinarith
    linarith
  exact ⟨fun j hj => zero _ fun ε hε => (small ε hε).1 j hj, fun j hj => zero _ fun ε hε => (small ε hε).2 j hj⟩

/-- **C157, the balance.** If each layer absorbs, or each surface inside lets some light through in both directions, there is only one solution. -/
theorem C157_unique (F : FlatStack) (hF : ∀ j, j < F.m → Conserves (F.above j) ∧ Conserves (F.below j)) (hP : ∀ i, i < F.m → 0 ≤ F.pass i ∧ F.pass i ≤ 1) (q : Quantity)
    (hgets : (∀ i, 1 ≤ i → i < F.m → F.pass i < 1) ∨ ∀ j, j + 1 < F.m → 0 < (F.above j).trns ∧ 0 < (F.below j).trns)
    {xD xU xD' xU' : ℕ → ℝ} (b : F.Balance q xD xU) (b' : F.Balance q xD' xU') : (∀ j, j < F.m → xD j = xD' j) ∧ ∀ j, j + 1 < F.m → xU j = xU' j := by
  have start : ∀ {x x' : ℝ}, (0 ≤ x ∧ x ≤ 1) → (0 ≤ x' ∧ x' ≤ 1) → |x - x'| ≤ 1 := by
    intro x x' h h'; rw [abs_le]; constructor <;> linarith [h.1, h.2, h'.1, h'.2]
  have dU : ∀ i, F.upwards q xU i - F.upwards q xU' i = if i = 0 then 0 else F.pass i * (xU (i - 1) - xU' (i - 1)) := by
    intro i; unfold FlatStack.upwards; by_cases hi : i = 0
    · rw [if_pos hi, if_pos hi, if_pos hi, sub_self]
    · rw [if_neg hi, if_neg hi, if_neg hi]; ring
  have dD : ∀ i, F.downwards q xD i - F.downwards q xD' i = if i = F.m then 0 else F.pass i * (xD i - xD' i) := by
    intro i; unfold FlatStack.downwards; by_cases hi : i = F.m
    · rw [if_pos hi, if_pos hi, if_pos hi, sub_self]
    · rw [if_neg hi, if_neg hi, if_neg hi]; ring
  obtain ⟨h1, h2⟩ := homogeneous_zero hF hP hgets (yD := fun j => xD j - xD' j) (yU := fun j => xU j - xU' j) zero_le_one (fun j _ => start (b.rangeD j) (b'.rangeD j)) (fun j _ => start (b.rangeU j) (b'.rangeU j))
    (fun j hj => by rw [← dU, ← dD, b.above j hj, b'.above j hj]; ring) (fun j hj => by rw [← dU, ← dD, b.below j hj, b'.below j hj]; ring)
  exact ⟨fun j hj => sub_eq_zero.mp (h1 j hj), fun j hj => sub_eq_zero.mp (h2 j hj)⟩

/-- **C157, all light.** Under the same conditions, and if what is neither reflected nor transmitted at a surface is absorbed in one of the `W` layers of its coating: the reflected, the transmitted and all the absorbed light of the balance add up to one. -/
theorem C157_total (F : FlatStack) (hm : 1 ≤ F.m) (hF : ∀ j, j < F.m → Conserves (F.above j) ∧ Conserves (F.below j)) (hP : ∀ i, i < F.m → 0 ≤ F.pass i ∧ F.pass i ≤ 1)
    (hgets : (∀ i, 1 ≤ i → i < F.m → F.pass i < 1) ∨ ∀ j, j + 1 < F.m → 0 < (F.above j).trns ∧ 0 < (F.below j).trns)
    (W : ℕ) (hW : ∀ j, j < F.m → (F.above j).refl + (F.above j).trns + ∑ l ∈ Finset.range W, (F.above j).abs l = 1 ∧ (F.below j).refl + (F.below j).trns + ∑ l ∈ Finset.range W, (F.below j).abs l = 1)
    (xD xU : Quantity → ℕ → ℝ) (b : ∀ q, F.Balance q (xD q) (xU q)) :
    xD .R 0 + xD .T 0 + ∑ i ∈ Finset.Ico 1 F.m, xD (.A i) 0 + ∑ j ∈ Finset.range F.m, ∑ l ∈ Finset.range W, xD (.Aint j l) 0 = 1 := by
  let tot : (Quantity → ℝ) → ℝ := fun f => f .R + f .T + ∑ i ∈ Finset.Ico 1 F.m, f (.A i) + ∑ j ∈ Finset.range F.m, ∑ l ∈ Finset.range W, f (.Aint j l)
  have tadd : ∀ f g : Quantity → ℝ, tot (fun q => f q + g q) = tot f + tot g := by
    intro f g; simp only [tot, Finset.sum_add_distrib]; ring
  have tmul : ∀ (r : ℝ) (f : Quantity → ℝ), tot (fun q => r * f q) = r * tot f := by
    intro r f; simp only [tot, ← Finset.mul_sum]; ring
  have tB : ∃ B : ℝ, 0 ≤ B ∧ ∀ f : Quantity → ℝ, (∀ q, 0 ≤ f q ∧ f q ≤ 1) → |tot f - 1| ≤ B := by
    refine ⟨3 + (Finset.Ico 1 F.m).card + (Finset.range F.m).card * (Finset.range W).card, by positivity, fun f hf => ?_⟩
    have s1 : ∑ i ∈ Finset.Ico 1 F.m, f (.A i) ≤ (Finset.Ico 1 F.m).card := by
      have := Finset.sum_le_sum fun i (_ : i ∈ Finset.Ico 1 F.m) => (hf (.A i)).2
      simpa using this
    have s1' : 0 ≤ ∑ i ∈ Finset.Ico 1 F.m, f (.A i) := Finset.sum_nonneg fun i _ => (hf _).1
    have s2 : ∑ j ∈ Finset.range F.m, ∑ l ∈ Finset.range W, f (.Aint j l) ≤ (Finset.range F.m).card * (Finset.range W).card := by
      have := Finset.sum_le_sum fun j (_ : j ∈ Finset.range F.m) => Finset.sum_le_sum fun l (_ : l ∈ Finset.range W) => (hf (.Aint j l)).2
      simpa using this
    have s2' : 0 ≤ ∑ j ∈ Finset.range F.m, ∑ l ∈ Finset.range W, f (.Aint j l) := Finset.sum_nonneg fun j _ => Finset.sum_nonneg fun l _ => (hf _).1
    have hR := hf .R
    have hT := hf .T
    have c1 : (0 : ℝ) ≤ (Finset.Ico 1 F.m).card := by positivity
    have c2 : (0 : ℝ) ≤ (Finset.range F.m).card * (Finset.range W).card := by positivity
    rw [abs_le]; simp only [tot]
    constructor <;> linarith [hR.1, hR.2, hT.1, hT.2]
  obtain ⟨B, hB, hbound⟩ := tB
  have tsurf : ∀ j f, j < F.m → tot (fun q => q.atSurface j f) = ∑ l ∈ Finset.range W, f.abs l := by
    intro j f hj
    simp only [tot, Quantity.atSurface, Finset.sum_const_zero, zero_add]
    rw [Finset.sum_eq_single j]
    · simp
    · intro i _ hne; simp [Ne.symm hne]
    · intro h; exact absurd (Finset.mem_range.mpr hj) h
  have tin : ∀ i, 1 ≤ i → i < F.m → tot (fun q => q.inLayer i) = 1 := by
    intro i h1 h2
    simp only [tot, Quantity.inLayer, Finset.sum_const_zero, zero_add, add_zero]
    rw [Finset.sum_eq_single i]
    · simp
    · intro k _ hne; simp [Ne.symm hne]
    · intro h; exact absurd (Finset.mem_Ico.mpr ⟨h1, h2⟩) h
  have tref : tot (fun q => q.onReflect) = 1 := by simp [tot, Quantity.onReflect]
  have ttrn : tot (fun q => q.onTransmit) = 1 := by simp [tot, Quantity.onTransmit]
  have tup : ∀ i, i < F.m → tot (fun q => F.upwards q (xU q) i) - 1 = if i = 0 then 0 else F.pass i * (tot (fun q => xU q (i - 1)) - 1) := by
    intro i hi
    unfold FlatStack.upwards
    by_cases h0 : i = 0
    · simp only [h0, if_true]; rw [tref, sub_self]
    · simp only [h0, if_false]
      have := (tadd (fun q => (1 - F.pass i) * q.inLayer i) (fun q => F.pass i * xU q (i - 1))).trans (congrArg₂ (· + ·) (tmul (1 - F.pass i) (fun q => q.inLayer i)) (tmul (F.pass i) (fun q => xU q (i - 1))))
      rw [this, tin i (by omega) hi]; ring
  have tdn : ∀ i, 1 ≤ i → i ≤ F.m → tot (fun q => F.downwards q (xD q) i) - 1 = if i = F.m then 0 else F.pass i * (tot (fun q => xD q i) - 1) := by
    intro i h1 hi
    unfold FlatStack.downwards
    by_cases h0 : i = F.m
    · simp only [h0, if_true]; rw [ttrn, sub_self]
    · simp only [h0, if_false]
      have := (tadd (fun q => (1 - F.pass i) * q.inLayer i) (fun q => F.pass i * xD q i)).trans (congrArg₂ (· + ·) (tmul (1 - F.pass i) (fun q => q.inLayer i)) (tmul (F.pass i) (fun q => xD q i)))
      rw [this, tin i h1 (lt_of_le_of_ne hi h0)]; ring
  obtain ⟨h1, -⟩ := homogeneous_zero hF hP hgets (yD := fun j => tot (fun q => xD q j) - 1) (yU := fun j => tot (fun q => xU q j) - 1) hB
    (fun j _ => hbound _ fun q => (b q).rangeD j) (fun j _ => hbound _ fun q => (b q).rangeU j)
    (fun j hj => by
      rw [← tup j hj, ← tdn (j + 1) (by omega) hj]
      have e : (fun q => xD q j) = fun q => (F.above j).refl * F.upwards q (xU q) j + (F.above j).trns * F.downwards q (xD q) (j + 1) + q.atSurface j (F.above j) := funext fun q => (b q).above j hj
      have := (congrArg tot e).trans ((tadd (fun q => (F.above j).refl * F.upwards q (xU q) j + (F.above j).trns * F.downwards q (xD q) (j + 1)) (fun q => q.atSurface j (F.above j))).trans
        (congrArg₂ (· + ·) ((tadd (fun q => (F.above j).refl * F.upwards q (xU q) j) (fun q => (F.above j).trns * F.downwards q (xD q) (j + 1))).trans
          (congrArg₂ (· + ·) (tmul (F.above j).refl (fun q => F.upwards q (xU q) j)) (tmul (F.above j).trns (fun q => F.downwards q (xD q) (j + 1))))) (tsurf j _ hj)))
      rw [this]
      linear_combination (hW j hj).1)
    (fun j hj => by
      have hj' : j < F.m := by omega
      rw [← tup j hj', ← tdn (j + 1) (by omega) hj']
      have e : (fun q => xU q j) = fun q => (F.below j).refl * F.downwards q (xD q) (j + 1) + (F.below j).trns * F.upwards q (xU q) j + q.atSurface j (F.below j) := funext fun q => (b q).below j hj
      have := (congrArg tot e).trans ((tadd (fun q => (F.below j).refl * F.downwards q (xD q) (j + 1) + (F.below j).trns * F.upwards q (xU q) j) (fun q => q.atSurface j (F.below j))).trans
        (congrArg₂ (· + ·) ((tadd (fun q => (F.below j).refl * F.downwards q (xD q) (j + 1)) (fun q => (F.below j).trns * F.upwards q (xU q) j)).trans
          (congrArg₂ (· + ·) (tmul (F.below j).refl (fun q => F.downwards q (xD q) (j + 1))) (tmul (F.below j).trns (fun q => F.upwards q (xU q) j)))) (tsurf j _ hj')))
      rw [this]
      linear_combination (hW j hj').2)
  have := h1 0 hm
  exact sub_eq_zero.mp this

/-- **C157, two surfaces.** For one layer between two surfaces the solution of the balance is given by the textbook formulas for a slab. -/
theorem C157_two (F : FlatStack) (hm : F.m = 2) (sl : Slab ℕ ℕ) (hsl : sl = ⟨F.above 0, F.above 1, F.below 0, F.pass 1⟩) (hround : sl.round ≠ 1) (xD xU : Quantity → ℕ → ℝ) (b : ∀ q, F.Balance q (xD q) (xU q)) :
    xD .R 0 = sl.R sl.trips ∧ xD .T 0 = sl.T sl.trips ∧ xD (.A 1) 0 = sl.bulk sl.trips ∧ (∀ l, xD (.Aint 0 l) 0 = sl.abs0 sl.trips l) ∧ ∀ l, xD (.Aint 1 l) 0 = sl.abs1 sl.trips l := by
  have key : ∀ q, xD q 0 = (F.above 0).refl * q.onReflect + q.atSurface 0 (F.above 0) + (F.above 0).trns * ((1 - F.pass 1) * q.inLayer 1 + F.pass 1 * (((F.above 1).trns * q.onTransmit + q.atSurface 1 (F.above 1)
      + (F.above 1).refl * ((1 - F.pass 1) * q.inLayer 1 + F.pass 1 * ((F.below 0).trns * q.onReflect + q.atSurface 0 (F.below 0) + (F.below 0).refl * ((1 - F.pass 1) * q.inLayer 1)))) * sl.trips)) := by
    intro q
    have e0 := (b q).above 0 (by omega)
    have e1 := (b q).above 1 (by omega)
    have e2 := (b q).below 0 (by omega)
    simp only [FlatStack.upwards, FlatStack.downwards, hm, if_true, if_false, Nat.one_ne_zero, zero_add, show ¬ (1 = 2) by norm_num, show 1 + 1 = 2 from rfl, Nat.sub_self] at e0 e1 e2
    have hr : 1 - F.pass 1 ^ 2 * (F.above 1).refl * (F.below 0).refl ≠ 0 := by
      intro h
      apply hround
      rw [hsl]; simp only [Slab.round]; linarith
    have ht : sl.trips = 1 / (1 - F.pass 1 ^ 2 * (F.above 1).refl * (F.below 0).refl) := by rw [hsl]; rfl
    have e3 : xD q 1 = ((F.above 1).trns * q.onTransmit + q.atSurface 1 (F.above 1)
        + (F.above 1).refl * ((1 - F.pass 1) * q.inLayer 1 + F.pass 1 * ((F.below 0).trns * q.onReflect + q.atSurface 0 (F.below 0) + (F.below 0).refl * ((1 - F.pass 1) * q.inLayer 1)))) * sl.trips := by
      rw [ht, mul_one_div, eq_div_iff hr]
      rw [e2] at e1
      linear_combination e1
    rw [e0, e3]; ring
  have hr : 1 - sl.pass ^ 2 * sl.rear.refl * sl.back.refl ≠ 0 := fun h => hround (by simp only [Slab.round]; linarith)
  have ht : sl.trips * (1 - sl.pass ^ 2 * sl.rear.refl * sl.back.refl) = 1 := by simp only [Slab.trips, Slab.round]; field_simp
  have f0 : F.above 0 = sl.front := by rw [hsl]
  have f1 : F.above 1 = sl.rear := by rw [hsl]
  have f2 : F.below 0 = sl.back := by rw [hsl]
  have f3 : F.pass 1 = sl.pass := by rw [hsl]
  simp only [f0, f1, f2, f3] at key
  refine ⟨?_, ?_, ?_, fun l => ?_, fun l => ?_⟩
  · rw [key]; simp only [Quantity.onReflect, Quantity.onTransmit, Quantity.inLayer, Quantity.atSurface, Slab.R]; ring
  · rw [key]; simp only [Quantity.onReflect, Quantity.onTransmit, Quantity.inLayer, Quantity.atSurface, Slab.T]; ring
  · rw [key]; simp only [Quantity.onReflect, Quantity.onTransmit, Quantity.inLayer, Quantity.atSurface, Slab.bulk, if_true]
    linear_combination (-(sl.front.trns * (1 - sl.pass))) * ht
  · rw [key]; simp [Quantity.onReflect, Quantity.onTransmit, Quantity.inLayer, Quantity.atSurface, Slab.abs0]; ring
  · rw [key]; simp [Quantity.onReflect, Quantity.onTransmit, Quantity.inLayer, Quantity.atSurface, Slab.abs1]; ring

section
variable {c : RTStack} {m : ℕ} {cells : ℕ → Cell} {tabs : ℕ → Option Table} {nk : ℕ → ℂ} {θ : ℕ → ℝ} (hs : FlatLayers c m cells tabs nk θ)
  {h : ℝ} (hh : (cells 0).zcov ≤ h) (hh0 : h + 1e-8 ≠ 0) (φ : ℝ)
  {N : ℕ} (hN : 0 < N) (L : Fin N → StackLaunch) (hL : ∀ k, AllFlatTo m cells (L k).V) (K : ℕ) {n : ℕ} (hn : 3 ≤ n)
include hs

theorem layers_htab : ∀ t, some t ∈ c.tabs → ∀ side θ, 0 ≤ (t side θ).1 ∧ 0 ≤ (t side θ).2.1 ∧ (t side θ).1 + (t side θ).2.1 ≤ 1 := by
  intro t ht side θ
  obtain ⟨a, b, d, f⟩ := hs.conserve _ ht t rfl side θ
  exact ⟨a, b, by linarith [List.sum_nonneg d]⟩

include hh hh0

theorem layers_launch (x y : ℝ) : AtSurface cells θ 1 0 (c.start x y 0 1 (rA0 h (θ 0) φ)) := by
  obtain ⟨hgo, r, hr, hz⟩ := launch_front (hs.angle 0 hs.surfaces).1 (hs.angle 0 hs.surfaces).2 hh hh0 φ c x y
  exact ⟨rfl, rfl, rfl, rfl, hgo, ⟨r, hr, Or.inl ⟨rfl, hz⟩⟩, rfl⟩

open Classical in
include hL hn in
/-- One launch, any quantity. -/
theorem layers_tally {q : Quantity} {xD xU : ℕ → ℝ} (bal : (flatStackOf c m tabs nk θ).Balance q xD xU) (k : Fin N) :
    JustBelow (branchesStack c n (fun o => quantityOf q (recorded 0 1 o)) K (L k).V (c.start (L k).x (L k).y 0 1 (rA0 h (θ 0) φ))) (xD 0)
      (c.S.thresh + (uniform2 K n).real {u | ¬ Finished (traceWith c K (L k).V u (c.start (L k).x (L k).y 0 1 (rA0 h (θ 0) φ)))}) := by
  have hat := layers_launch hs hh hh0 φ (L k).x (L k).y
  have htab := layers_htab hs
  set s := c.start (L k).x (L k).y 0 1 (rA0 h (θ 0) φ) with hsdef
  have hblank : quantityOf q (Stack.start 0 1) = 0 := by
    rw [of_gone q rfl rfl]; cases q <;> simp [quantitySoFar, Stack.start]
  have hfair : Fair s.ray := ⟨zero_le_one, le_rfl, fun i => ⟨le_rfl, by change (0 : ℝ) + 1 ≤ 1; norm_num⟩⟩
  have hso : quantitySoFar q s.ray = 0 := by cases q <;> rfl
  have hI : s.ray.I = 1 := rfl
  have h0 : (1 : ℤ) = 1 ∧ 0 < m ∨ (1 : ℤ) = -1 ∧ 0 + 1 < m := Or.inl ⟨rfl, hs.surfaces⟩
  constructor
  · have hprob := C131_probability c htab K n (L k).V s {o | ¬ Finished o}
    simp only [Set.mem_setOf_eq] at hprob
    have hadd := branchesStack_add htab n (fun o => quantityOf q (recorded 0 1 o)) (fun o => if ¬ Finished o then (1 : ℝ) else 0) K (L k).V s
    have := layers_lower hs hn bal (g := fun o => quantityOf q (recorded 0 1 o) + if ¬ Finished o then (1 : ℝ) else 0)
      (fun s hst => by simp only [recorded, Finished, hst, if_true, not_true, if_false, add_zero])
      (fun s hst => by simp only [recorded, Finished, hst, Bool.false_eq_true, if_false, hblank, not_false_eq_true, if_true, zero_add]) K (L k).V (hL k) s 1 0 hfair h0 hat
    rw [hadd, ← hprob, hso, hI, if_pos rfl] at this
    linarith
  · have := layers_upper hs hn bal (g := fun o => quantityOf q (recorded 0 1 o))
      (fun s hst => by simp only [recorded, hst, if_true])
      (fun s hst => by simp only [recorded, hst, Bool.false_eq_true, if_false, hblank]) K (L k).V (hL k) s 1 0 hfair h0 hat
    rw [hso, hI, if_pos rfl] at this
    linarith

include hN hL hn in
/-- **C157.** Rays are traced at an angle of incidence `θ 0` through a stack of any number of flat surfaces (with Fresnel's equations or lookup tables), each through at most `K` surfaces.  The reflectance, the transmittance, the absorptance of each layer and of each layer of each coating,
on average over the random numbers, are those of the balance of light in the stack.  They are never larger, and they are less by at most the intensity at which rays are given up, plus the probability that a ray is not finished after `K` surfaces. -/
theorem C157_stack (q : Quantity) {xD xU : ℕ → ℝ} (bal : (flatStackOf c m tabs nk θ).Balance q xD xU) :
    let start := fun k => c.start (L k).x (L k).y 0 1 (rA0 h (θ 0) φ)
    let rays := fun U : Fin N → Fin K → Fin n → ℝ => List.ofFn fun k => recorded 0 1 (traceWith c K (L k).V (U k) (start k))
    let P : Measure (Fin N → Fin K → Fin n → ℝ) := Measure.pi fun _ => uniform2 K n
    let late := (∑ k, (uniform2 K n).real {u | ¬ Finished (traceWith c K (L k).V u (start k))}) / N
    JustBelow (∫ U, q.result (rays U) ∂P) (xD 0) (c.S.thresh + late) := by
  intro start rays P late
  obtain ⟨eR, eT, eA, eI⟩ := C131_RAT c (layers_htab hs) K n 0 1 (rA0 h (θ 0) φ) L
  have key := justBelow_mean hN fun k => layers_tally hs hh hh0 φ L hL K hn bal k
  cases q with
  | R => simp only [Quantity.result]; rw [eR]; exact key
  | T => simp only [Quantity.result]; rw [eT]; exact key
  | A i => simp only [Quantity.result]; rw [eA]; exact key
  | Aint j l => simp only [Quantity.result]; rw [eI]; exact key

open Classical in
include hL hn in
/-- **C157, number of surfaces.** The probability that a ray is not finished after `K` surfaces is at most the fraction of the light that would still be inside if nothing were absorbed in the layers; and it is zero once what is left after `K - 1` passes through layers is below the threshold. -/
theorem C157_late (k : Fin N) :
    let late := (uniform2 K n).real {u | ¬ Finished (traceWith c K (L k).V u (c.start (L k).x (L k).y 0 1 (rA0 h (θ 0) φ)))}
    late ≤ ((flatStackOf c m tabs nk θ).inside K).1 0 ∧
    ∀ p : ℝ, 0 ≤ p → (∀ i, 1 ≤ i → i < m → (flatStackOf c m tabs nk θ).pass i ≤ p) → 1 ≤ K → p ^ (K - 1) < c.S.thresh → late = 0 := by
  intro late
  have hat := layers_launch hs hh hh0 φ (L k).x (L k).y
  have hprob := C131_probability c (layers_htab hs) K n (L k).V (c.start (L k).x (L k).y 0 1 (rA0 h (θ 0) φ)) {o | ¬ Finished o}
  simp only [Set.mem_setOf_eq] at hprob
  simp only [late, hprob]
  have h0 : (1 : ℤ) = 1 ∧ 0 < m ∨ (1 : ℤ) = -1 ∧ 0 + 1 < m := Or.inl ⟨rfl, hs.surfaces⟩
  refine ⟨?_, fun p hp0 hp h1 hlt => ?_⟩
  · have := layers_late hs hn (g := fun o => if ¬ Finished o then (1 : ℝ) else 0) (fun s hst => by simp [Finished, hst]) (fun s hst => by simp [Finished, hst]) K (L k).V (hL k) _ 1 0 h0 hat
    rwa [if_pos rfl] at this
  · obtain ⟨K, rfl⟩ : ∃ j, K = j + 1 := ⟨K - 1, by omega⟩
    exact layers_late_zero hs hn (g := fun o => if ¬ Finished o then (1 : ℝ) else 0) (fun s hst => by simp [Finished, hst]) hp0 hp K (L k).V (hL k) _ 1 0 zero_le_one
      (by rw [Nat.add_sub_cancel] at hlt; change 1 * p ^ K < _; rwa [one_mul]) h0 hat

include hN hL hn in
/-- **C157, convergence.** If each layer absorbs and rays are given up at some intensity above zero, or if each surface inside lets some light through in both directions, then for enough surfaces the results are those of the balance of light up to the intensity at which rays are given up
(and any `ε > 0`). -/
theorem C157_converges (hgets : ((∀ i, 1 ≤ i → i < m → (flatStackOf c m tabs nk θ).pass i < 1) ∧ 0 < c.S.thresh) ∨
      ∀ j, j + 1 < m → 0 < ((flatStackOf c m tabs nk θ).above j).trns ∧ 0 < ((flatStackOf c m tabs nk θ).below j).trns) {ε : ℝ} (hε : 0 < ε) :
    ∃ K₀, ∀ K, K₀ ≤ K → ∀ (q : Quantity) (xD xU : ℕ → ℝ), (flatStackOf c m tabs nk θ).Balance q xD xU →
    let rays := fun U : Fin N → Fin K → Fin n → ℝ => List.ofFn fun k => recorded 0 1 (traceWith c K (L k).V (U k) (c.start (L k).x (L k).y 0 1 (rA0 h (θ 0) φ)))
    let P : Measure (Fin N → Fin K → Fin n → ℝ) := Measure.pi fun _ => uniform2 K n
    JustBelow (∫ U, q.result (rays U) ∂P) (xD 0) (c.S.thresh + ε) := by
  have hlate : ∃ K₀, ∀ K, K₀ ≤ K → ∀ k, (uniform2 K n).real {u | ¬ Finished (traceWith c K (L k).V u (c.start (L k).x (L k).y 0 1 (rA0 h (θ 0) φ)))} ≤ ε := by
    have hK := fun K => C157_late hs hh hh0 φ L hL K hn
    rcases hgets with ⟨hp, ht⟩ | ho
    · obtain ⟨p, p0, p1, hp⟩ := pass_bound (F := flatStackOf c m tabs nk θ) (fun i hi => layers_pass hs hi) hp
      obtain ⟨K₀, hK₀⟩ := exists_pow_lt_of_lt_one ht p1
      refine ⟨K₀ + 1, fun K hKK k => ?_⟩
      rw [(hK K k).2 p p0 hp (by omega) (lt_of_le_of_lt (pow_le_pow_of_le_one p0 p1.le (by omega)) hK₀)]
      exact hε.le
    · obtain ⟨K₀, hK₀⟩ := inside_vanishes (F := flatStackOf c m tabs nk θ) (fun j hj => layers_conserve hs hj) ho hε
      exact ⟨K₀, fun K hKK k => (hK K k).1.trans (hK₀ K hKK 0).1⟩
  obtain ⟨K₀, hK₀⟩ := hlate
  refine ⟨K₀, fun K hKK q xD xU bal => ?_⟩
  have hle : c.S.thresh + (∑ k, (uniform2 K n).real {u | ¬ Finished (traceWith c K (L k).V u (c.start (L k).x (L k).y 0 1 (rA0 h (θ 0) φ)))}) / N ≤ c.S.thresh + ε := by
    have hN' : (0 : ℝ) < N := by exact_mod_cast hN
    have := Finset.sum_le_sum fun k (_ : k ∈ (Finset.univ : Finset (Fin N))) => hK₀ K hKK k
    have e : ∑ _k : Fin N, ε = N * ε := by simp
    rw [e] at this
    have : (∑ k, (uniform2 K n).real {u | ¬ Finished (traceWith c K (L k).V u (c.start (L k).x (L k).y 0 1 (rA0 h (θ 0) φ)))}) / N ≤ ε := by
      rw [div_le_iff₀ hN']; linarith
    linarith
  exact (C157_stack hs hh hh0 φ hN L hL K hn q bal).mono hle

end

/-! ## Transparent media: Fresnel's reflectances -/

/-- **C157, transparent media.** Without coatings and between transparent media, with the angles given by Snell's law, each surface is the one of the textbook: Fresnel's reflectance, the same from both sides, and total reflection at the last surface beyond its critical angle; and the
angles are as C157 asks for. -/
theorem C157_transparent (c : RTStack) (harc : ∀ z, IsArcsin z (c.asin z)) {m : ℕ} (hm : 1 ≤ m) {nr θ : ℕ → ℝ} (hn : ∀ i, i ≤ m → 0 < nr i) (hθ : ∀ i, i < m → 0 ≤ θ i ∧ θ i < Real.pi / 2)
    (hsnell : ∀ i, i < m → nr i * Real.sin (θ i) = nr 0 * Real.sin (θ 0)) :
    let F := flatStackOf c m (fun _ => none) (fun i => (nr i : ℂ)) θ
    (∀ j, j + 1 < m → F.above j = ⟨textbookR (nr j) (nr (j + 1)) (θ j) (θ (j + 1)) c.pol, 1 - textbookR (nr j) (nr (j + 1)) (θ j) (θ (j + 1)) c.pol, fun _ => 0⟩ ∧ F.below j = F.above j) ∧
    (∀ j, j + 1 < m → sinRefr false (nr j) (nr (j + 1)) (θ j) < 1 ∧ refrOf false (nr j) (nr (j + 1)) (θ j) = θ (j + 1)) ∧
    (∀ j, j + 1 < m → sinRefr false (nr (j + 1)) (nr j) (θ (j + 1)) < 1 ∧ refrOf false (nr (j + 1)) (nr j) (θ (j + 1)) = θ j) ∧
    (∀ t, 0 ≤ t → t < Real.pi / 2 → nr 0 * Real.sin (θ 0) = nr m * Real.sin t →
      F.above (m - 1) = ⟨textbookR (nr (m - 1)) (nr m) (θ (m - 1)) t c.pol, 1 - textbookR (nr (m - 1)) (nr m) (θ (m - 1)) t c.pol, fun _ => 0⟩ ∧ sinRefr false (nr (m - 1)) (nr m) (θ (m - 1)) < 1) ∧
    (nr m < nr 0 * Real.sin (θ 0) → F.above (m - 1) = ⟨1, 0, fun _ => 0⟩) := by
  intro F
  have lt1 : ∀ t : ℝ, 0 ≤ t → t < Real.pi / 2 → Real.sin t < 1 := by
    intro t t0 t1
    have := Real.sin_lt_sin_of_lt_of_le_pi_div_two (by linarith [Real.pi_pos]) le_rfl t1
    rwa [Real.sin_pi_div_two] at this
  have cpos : ∀ t : ℝ, 0 ≤ t → t < Real.pi / 2 → 0 < Real.cos t := fun t t0 t1 => Real.cos_pos_of_mem_Ioo ⟨by linarith [Real.pi_pos], t1⟩
  have hdiv : ∀ {a b s t : ℝ}, 0 < b → a * s = b * t → a / b * s = t := by
    intro a b s t hb e
    rw [div_mul_eq_mul_div, e]; field_simp
  have eF : ∀ (a b s t : ℝ), 0 < a → 0 < b → 0 ≤ s → s < Real.pi / 2 → 0 ≤ t → t < Real.pi / 2 → a * Real.sin s = b * Real.sin t →
      min 1 (decideR a b s (c.asin ((a : ℂ) / b * Complex.sin (s : ℂ))) c.pol) = textbookR a b s t c.pol ∧ sinRefr false a b s < 1 ∧ refrOf false a b s = t := by
    intro a b s t ha hb s0 s1 t0 t1 e
    have es : |s| = s := abs_of_nonneg s0
    have := (C43_reflectance a b s ha hb (by rw [es]; exact s1.le) (c.asin ((a : ℂ) / b * Complex.sin (s : ℂ))) (by rw [es]; exact harc _) c.pol).1 t t0 t1 (by rw [es]; exact e)
    rw [this, es]
    refine ⟨min_eq_right (textbookR_le_one ha hb (cpos s s0 s1) (cpos t t0 t1) _), ?_, ?_⟩
    · simp only [sinRefr, Bool.false_eq_true, if_false, Complex.ofReal_re]
      rw [hdiv hb e]; exact lt1 t t0 t1
    · simp only [refrOf, Bool.false_eq_true, if_false, Complex.ofReal_re]
      rw [hdiv hb e]
      exact Real.arcsin_sin (by linarith [Real.pi_pos]) t1.le
  have neg1 : ((-1 : ℤ) = 1) = False := by simp
  have pair : ∀ j, j + 1 < m → nr j * Real.sin (θ j) = nr (j + 1) * Real.sin (θ (j + 1)) := fun j hj => (hsnell j (by omega)).trans (hsnell (j + 1) hj).symm
  have dn : ∀ j, j + 1 < m → _ := fun j hj =>
    eF (nr j) (nr (j + 1)) (θ j) (θ (j + 1)) (hn j (by omega)) (hn (j + 1) (by omega)) (hθ j (by omega)).1 (hθ j (by omega)).2 (hθ (j + 1) hj).1 (hθ (j + 1) hj).2 (pair j hj)
  have un : ∀ j, j + 1 < m → _ := fun j hj =>
    eF (nr (j + 1)) (nr j) (θ (j + 1)) (θ j) (hn (j + 1) (by omega)) (hn j (by omega)) (hθ (j + 1) hj).1 (hθ (j + 1) hj).2 (hθ j (by omega)).1 (hθ j (by omega)).2 (pair j hj).symm
  have hm1 : m - 1 + 1 = m := by omega
  refine ⟨fun j hj => ?_, fun j hj => (dn j hj).2, fun j hj => (un j hj).2, fun t t0 t1 e => ?_, fun hlt => ?_⟩
  · have e1 : F.above j = ⟨textbookR (nr j) (nr (j + 1)) (θ j) (θ (j + 1)) c.pol, 1 - textbookR (nr j) (nr (j + 1)) (θ j) (θ (j + 1)) c.pol, fun _ => 0⟩ := by
      simp only [F, flatStackOf, faceOf, if_true, (dn j hj).1]
    refine ⟨e1, ?_⟩
    rw [e1]
    simp only [F, flatStackOf, faceOf, neg1, if_false, (un j hj).1, textbookR_symm (nr j) (nr (j + 1)) (θ j) (θ (j + 1)) c.pol]
  · have := eF (nr (m - 1)) (nr m) (θ (m - 1)) t (hn _ (by omega)) (hn m le_rfl) (hθ _ (by omega)).1 (hθ _ (by omega)).2 t0 t1 ((hsnell (m - 1) (by omega)).trans e)
    refine ⟨?_, this.2.1⟩
    simp only [F, flatStackOf, faceOf, if_true, hm1, this.1]
  · obtain ⟨s0, s1⟩ := hθ (m - 1) (by omega)
    have es : |θ (m - 1)| = θ (m - 1) := abs_of_nonneg s0
    have := (C43_reflectance (nr (m - 1)) (nr m) (θ (m - 1)) (hn _ (by omega)) (hn m le_rfl) (by rw [es]; exact s1.le) (c.asin ((nr (m - 1) : ℂ) / nr m * Complex.sin (θ (m - 1) : ℂ))) (by rw [es]; exact harc _) c.pol).2
      (by rw [es, hsnell (m - 1) (by omega)]; exact hlt)
    simp only [F, flatStackOf, faceOf, if_true, hm1, this, min_self, sub_self]

/-! ## Example: two absorbing layers in air -/

/-- Air, a layer with refractive index 2, a layer with refractive index 3, air. -/
noncomputable def exLayers : RTStack :=
  { S := { widths := [0, 2, 3, 0], alphas := [0, 1, 1, 0], zpos := [0, 1 / 2, 1], thresh := 1 / 100 }, cells := [⟨10, 10, 0, 0, 0⟩, ⟨10, 10, -2, -2, -2⟩, ⟨10, 10, -5, -5, -5⟩],
    nks := [((1 : ℝ) : ℂ), ((2 : ℝ) : ℂ), ((3 : ℝ) : ℂ), ((1 : ℝ) : ℂ)], tabs := [none, none, none], asin := fun z => Classical.choose (exists_isArcsin z), pol := .u, randomize := false, periodic := true }

/-- Their heights, refractive indices and angles. -/
noncomputable def exHeight (j : ℕ) : ℝ := if j = 0 then 0 else if j = 1 then -2 else -5

/-- Their refractive indices. -/
noncomputable def exIndex (i : ℕ) : ℝ := if i = 0 then 1 else if i = 1 then 2 else if i = 2 then 3 else 1

/-- The angles, by Snell's law. -/
noncomputable def exAngle (θ : ℝ) (i : ℕ) : ℝ := if i = 0 then θ else Real.arcsin (Real.sin θ / exIndex i)

/-- Planar surfaces at these heights. -/
noncomputable def exPlanes : ℕ → Visit := fun _ => ⟨0, 0, fun s _ => ⟨planarTris 10 (exHeight s.toNat), 0, 0, 0, 0, 0⟩⟩

theorem exLayers_flat (θ : ℝ) (h0 : 0 ≤ θ) (h1 : θ < Real.pi / 2) :
    FlatLayers exLayers 3 (fun j => ⟨10, 10, exHeight j, exHeight j, exHeight j⟩) (fun _ => none) (fun i => (exIndex i : ℂ)) (exAngle θ) ∧
    AllFlatTo 3 (fun j => ⟨10, 10, exHeight j, exHeight j, exHeight j⟩) exPlanes ∧
    ∀ i, 1 ≤ i → i < 3 → (flatStackOf exLayers 3 (fun _ => none) (fun i => (exIndex i : ℂ)) (exAngle θ)).pass i < 1 := by
  have hs0 : 0 ≤ Real.sin θ := Real.sin_nonneg_of_nonneg_of_le_pi h0 (by linarith [Real.pi_pos])
  have hs1 : Real.sin θ < 1 := by
    have := Real.sin_lt_sin_of_lt_of_le_pi_div_two (by linarith [Real.pi_pos]) le_rfl h1
    rwa [Real.sin_pi_div_two] at this
  have hpos : ∀ i, 1 ≤ exIndex i := by intro i; unfold exIndex; split_ifs <;> norm_num
  have hdiv : ∀ i, 0 ≤ Real.sin θ / exIndex i ∧ Real.sin θ / exIndex i < 1 := by
    intro i
    have := hpos i
    refine ⟨by positivity, ?_⟩
    rw [div_lt_one (by linarith)]; linarith
  have hang : ∀ i, 0 ≤ exAngle θ i ∧ exAngle θ i < Real.pi / 2 := by
    intro i
    unfold exAngle
    split_ifs
    · exact ⟨h0, h1⟩
    · exact ⟨Real.arcsin_nonneg.mpr (hdiv i).1, Real.arcsin_lt_pi_div_two.mpr (hdiv i).2⟩
  have hsin : ∀ i, exIndex i * Real.sin (exAngle θ i) = exIndex 0 * Real.sin (exAngle θ 0) := by
    intro i
    have e0 : exIndex 0 * Real.sin (exAngle θ 0) = Real.sin θ := by simp [exIndex, exAngle]
    rw [e0]
    by_cases hi : i = 0
    · rw [hi, e0]
    · unfold exAngle
      rw [if_neg hi, Real.sin_arcsin (by linarith [(hdiv i).1]) (hdiv i).2.le]
      have := hpos i
      field_simp
  have harc : ∀ z, IsArcsin z (exLayers.asin z) := fun z => Classical.choose_spec (exists_isArcsin z)
  obtain ⟨-, hdown, hup, hlast, -⟩ := C157_transparent exLayers harc (m := 3) (by norm_num) (nr := exIndex) (θ := exAngle θ) (fun i _ => by linarith [hpos i]) (fun i _ => hang i) (fun i _ => hsin i)
  refine ⟨⟨rfl, by norm_num, by simp [exLayers], ?_, ?_, ?_, fun i _ => by rw [Complex.ofReal_re]; linarith [hpos i], fun j _ => ⟨by norm_num, by norm_num, le_rfl⟩, ?_, ?_, ?_, by norm_num [exLayers], ?_, fun i _ => hang i, hdown,
    fun j hj => Or.inr ⟨(hup j hj).1, fun _ => (hup j hj).2⟩, Or.inr ⟨rfl, ?_⟩⟩, ?_, ?_⟩
  · intro j hj; interval_cases j <;> simp [exLayers, exHeight]
  · intro j hj; interval_cases j <;> simp [exLayers]
  · intro i hi; interval_cases i <;> simp [exLayers, exIndex]
  · intro j hj
    have : j = 0 ∨ j = 1 := by omega
    rcases this with rfl | rfl <;> norm_num [exHeight]
  · intro i; rcases i with _ | _ | _ | _ | i <;> simp [exLayers]
  · intro i; rcases i with _ | _ | _ | _ | i <;> simp [exLayers]
  · intro tab ht t e; simp [exLayers] at ht; rw [ht] at e; cases e
  · refine (hlast θ h0 h1 ?_).2
    simp [exIndex, exAngle]
  · intro i j k _
    simpa [exPlanes] using planarTris_flat (L := 10) (by norm_num) (exHeight j)
  · intro i hi1 hi2
    have hc : 0 < Real.cos (exAngle θ i) := Going.cos_pos (hang i).1 (hang i).2
    simp only [flatStackOf]
    rw [Real.exp_lt_one_iff]
    have : 0 < exLayers.S.alphas.getD i 0 * exLayers.S.widths.getD i 0 := by
      have : i = 1 ∨ i = 2 := by omega
      rcases this with rfl | rfl <;> norm_num [exLayers]
    exact neg_neg_of_pos (div_pos this hc)

/-- The hypotheses of C157 are met at every angle of incidence; the absorptance of the second layer. -/
example (θ : ℝ) (h0 : 0 ≤ θ) (h1 : θ < Real.pi / 2) :
    ∃ (xD xU : ℕ → ℝ) (K₀ : ℕ), (flatStackOf exLayers 3 (fun _ => none) (fun i => (exIndex i : ℂ)) (exAngle θ)).Balance (.A 2) xD xU ∧ ∀ K, K₀ ≤ K →
    let P : Measure (Fin 1 → Fin K → Fin 3 → ℝ) := Measure.pi fun _ => uniform2 K 3
    JustBelow (∫ U, resA (List.ofFn fun k => recorded 0 1 (traceWith exLayers K exPlanes (U k) (exLayers.start 1 1 0 1 (rA0 5 θ 0)))) 2 ∂P) (xD 0) (1 / 100 + 1 / 1000) := by
  obtain ⟨a, b, d⟩ := exLayers_flat θ h0 h1
  obtain ⟨xD, xU, bal⟩ := C157_balance (flatStackOf exLayers 3 (fun _ => none) (fun i => (exIndex i : ℂ)) (exAngle θ)) (fun j hj => layers_conserve a hj) (fun i hi => layers_pass a hi) (.A 2)
  obtain ⟨K₀, hK⟩ := C157_converges a (h := 5) (by norm_num [exHeight]) (by norm_num) 0 (N := 1) Nat.one_pos (fun _ => ⟨1, 1, _⟩) (fun _ => b) le_rfl (Or.inl ⟨d, by norm_num [exLayers]⟩) (ε := 1 / 1000) (by norm_num)
  exact ⟨xD, xU, K₀, bal, fun K hKK => hK K hKK (.A 2) xD xU bal⟩

/-- All the light in that structure adds up. -/
example (θ : ℝ) (h0 : 0 ≤ θ) (h1 : θ < Real.pi / 2) :
    ∃ xD : Quantity → ℕ → ℝ, (∀ q, ∃ xU, (flatStackOf exLayers 3 (fun _ => none) (fun i => (exIndex i : ℂ)) (exAngle θ)).Balance q (xD q) xU) ∧ xD .R 0 + xD .T 0 + xD (.A 1) 0 + xD (.A 2) 0 = 1 := by
  obtain ⟨a, b, d⟩ := exLayers_flat θ h0 h1
  choose xD xU bal using C157_balance (flatStackOf exLayers 3 (fun _ => none) (fun i => (exIndex i : ℂ)) (exAngle θ)) (fun j hj => layers_conserve a hj) (fun i hi => layers_pass a hi)
  refine ⟨xD, fun q => ⟨_, bal q⟩, ?_⟩
  have := C157_total _ (by norm_num [flatStackOf]) (fun j hj => layers_conserve a hj) (fun i hi => layers_pass a hi) (Or.inl d) 0 (fun j _ => by simp [flatStackOf, faceOf]) xD xU bal
  rw [show (flatStackOf exLayers 3 (fun _ => none) (fun i => (exIndex i : ℂ)) (exAngle θ)).m = 3 from rfl, show Finset.Ico 1 3 = {1, 2} from rfl] at this
  simp only [Finset.range_zero, Finset.sum_empty, Finset.sum_const_zero, add_zero] at this
  rw [Finset.sum_pair (by norm_num)] at this
  linarith

/-- Two surfaces: half of the light is reflected at each, half of the rest absorbed in a passage. -/
example : ∃ (F : FlatStack) (sl : Slab ℕ ℕ) (xD xU : Quantity → ℕ → ℝ), F.m = 2 ∧ sl = ⟨F.above 0, F.above 1, F.below 0, F.pass 1⟩ ∧ sl.round ≠ 1 ∧ (∀ q, F.Balance q (xD q) (xU q)) ∧ xD .R 0 = 1 / 2 + 1 / 30 := by
  have hc : Conserves (⟨1 / 2, 1 / 2, fun _ => 0⟩ : Face ℕ) := ⟨by norm_num, by norm_num, by norm_num, fun l => ⟨le_rfl, by norm_num⟩⟩
  obtain ⟨F, hF⟩ : ∃ F : FlatStack, F = ⟨2, fun _ => ⟨1 / 2, 1 / 2, fun _ => 0⟩, fun _ => ⟨1 / 2, 1 / 2, fun _ => 0⟩, fun _ => 1 / 2⟩ := ⟨_, rfl⟩
  choose xD xU bal using C157_balance F (fun j _ => by rw [hF]; exact ⟨hc, hc⟩) (fun i _ => by rw [hF]; norm_num)
  have hr : (⟨F.above 0, F.above 1, F.below 0, F.pass 1⟩ : Slab ℕ ℕ).round ≠ 1 := by rw [hF]; norm_num [Slab.round]
  refine ⟨F, _, xD, xU, by rw [hF], rfl, hr, bal, ?_⟩
  rw [(C157_two F (by rw [hF]) _ rfl hr xD xU bal).1, hF]
  norm_num [Slab.R, Slab.trips, Slab.round]

end Rayflare
