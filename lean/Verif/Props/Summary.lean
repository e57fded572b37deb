import Verif.Model.Summary
import Verif.Lemmas.Ideal

/-!
# Properties C07, C08: summaries over azimuth
-/

namespace Rayflare

open Real Rayflare.Np Rayflare.Model Rayflare.Spec Rayflare.Lemmas

theorem sum_blocks (n : ℕ) (c : ℝ) (f : ℕ → ℝ) (m : ℕ) :
    ∑ o ∈ Finset.range m, ∑ k ∈ Finset.range (ringSize n c o), f (ringStart n c o + k)
      = ∑ r ∈ Finset.range (ringStart n c m), f r := by
  induction m with
  | zero => simp [ringStart_zero]
  | succ m ih => rw [Finset.sum_range_succ, ih, ringStart_succ, Finset.sum_range_add]

theorem theta_get (n : ℕ) (hn : 0 < n) (s c : ℝ) (sp : Spacing) {i k : ℕ} (hi : i < 2 * n)
    (hk : k < ringSize n c i) :
    ((makeAngleVector n s c sp).angleVector.map Row.theta)[ringStart n c i + k]?
      = some (polarMid n sp i) := by
  rw [List.getElem?_map, angleVector_get n hn s c sp hi hk]; rfl

theorem polarMid_inj (n : ℕ) (hn : 0 < n) (sp : Spacing) {i j : ℕ} (hi : i < 2 * n) (hj : j < 2 * n)
    (h : polarMid n sp i = polarMid n sp j) : i = j := by
  rcases lt_trichotomy i j with h' | h' | h'
  · exact absurd h (polarMid_strictMono n hn sp h' hj).ne
  · exact h'
  · exact absurd h (polarMid_strictMono n hn sp h' hi).ne'

/-- the group of a ring in a prefix of whole rings -/
theorem group_take (n : ℕ) (hn : 0 < n) (s c : ℝ) (sp : Spacing) {m i : ℕ} (hm : m ≤ 2 * n)
    (hi : i < m) :
    group (((makeAngleVector n s c sp).angleVector.map Row.theta).take (ringStart n c m))
        (polarMid n sp i)
      = Finset.Ico (ringStart n c i) (ringStart n c i + ringSize n c i) := by
  have hlen : (((makeAngleVector n s c sp).angleVector.map Row.theta).take (ringStart n c m)).length
      = ringStart n c m := by
    rw [List.length_take, List.length_map, angleVector_length n hn]
    have := ringStart_mono n c hm; omega
  ext r
  unfold group
  rw [hlen, Finset.mem_filter, Finset.mem_range, Finset.mem_Ico]
  have hval : ∀ i' k', i' < m → k' < ringSize n c i' →
      (((makeAngleVector n s c sp).angleVector.map Row.theta).take (ringStart n c m)).getD
        (ringStart n c i' + k') 0 = polarMid n sp i' := by
    intro i' k' hi' hk'
    have hlt : ringStart n c i' + k' < ringStart n c m := by
      have := ringStart_mono n c (show i' + 1 ≤ m from hi')
      rw [ringStart_succ] at this; omega
    rw [List.getD_eq_getElem?_getD, List.getElem?_take_of_lt hlt, theta_get n hn s c sp (by omega) hk']
    rfl
  constructor
  · rintro ⟨hr, hv⟩
    obtain ⟨i', k', hi', hk', e⟩ := exists_block (ringSize n c) m r hr
    rw [← ringStart_eq'] at e
    rw [e, hval i' k' hi' hk'] at hv
    have := polarMid_inj n hn sp (by omega) (by omega) hv
    subst this
    omega
  · rintro ⟨h1, h2⟩
    have := ringStart_mono n c (show i + 1 ≤ m from hi)
    rw [ringStart_succ] at this
    refine ⟨by omega, ?_⟩
    have := hval i (r - ringStart n c i) hi (by omega)
    rwa [show ringStart n c i + (r - ringStart n c i) = r by omega] at this

/-- the group of a lower-half ring in the second half -/
theorem group_drop (n : ℕ) (hn : 0 < n) (s c : ℝ) (sp : Spacing) {i : ℕ} (hi : n ≤ i)
    (hi2 : i < 2 * n) :
    group (((makeAngleVector n s c sp).angleVector.map Row.theta).drop (ringStart n c n))
        (polarMid n sp i)
      = Finset.Ico (ringStart n c i - ringStart n c n)
          (ringStart n c i - ringStart n c n + ringSize n c i) := by
  have hlen : (((makeAngleVector n s c sp).angleVector.map Row.theta).drop (ringStart n c n)).length
      = ringStart n c n := by
    rw [List.length_drop, List.length_map, angleVector_length n hn, ringStart_half]; omega
  have hh := ringStart_half n c
  ext r
  unfold group
  rw [hlen, Finset.mem_filter, Finset.mem_range, Finset.mem_Ico]
  have hval : ∀ i' k' r, i' < 2 * n → k' < ringSize n c i' → ringStart n c n + r = ringStart n c i' + k' →
      (((makeAngleVector n s c sp).angleVector.map Row.theta).drop (ringStart n c n)).getD
        r 0 = polarMid n sp i' := by
    intro i' k' r hi' hk' e
    rw [List.getD_eq_getElem?_getD, List.getElem?_drop, e, theta_get n hn s c sp hi' hk']
    rfl
  have hge := ringStart_mono n c hi
  constructor
  · rintro ⟨hr, hv⟩
    obtain ⟨i', k', hi', hi2', hk', e⟩ := lower_decomp n c hr
    rw [hval i' k' r hi2' hk' e] at hv
    have := polarMid_inj n hn sp (by omega) (by omega) hv
    subst this
    omega
  · rintro ⟨h1, h2⟩
    have := ringStart_mono n c (show i + 1 ≤ 2 * n from hi2)
    rw [ringStart_succ] at this
    exact ⟨by omega, hval i (ringStart n c n + r - ringStart n c i) r hi2 (by omega) (by omega)⟩

theorem unique_thetas (n : ℕ) (hn : 0 < n) (s c : ℝ) (hc : 0 < c) (sp : Spacing) :
    unique ((makeAngleVector n s c sp).angleVector.map Row.theta)
      = (List.range (2 * n)).map (polarMid n sp) := by
  apply unique_eq
  · rw [List.pairwise_map]
    refine (List.pairwise_lt_range).imp_of_mem ?_
    intro a b _ hb hab
    exact polarMid_strictMono n hn sp hab (List.mem_range.mp hb)
  · intro x
    rw [mem_thetas n hn s c hc, List.mem_map]
    constructor
    · rintro ⟨i, hi, rfl⟩; exact ⟨i, List.mem_range.mp hi, rfl⟩
    · rintro ⟨i, hi, rfl⟩; exact ⟨i, List.mem_range.mpr hi, rfl⟩

theorem unique_take (n : ℕ) (hn : 0 < n) (s c : ℝ) (hc : 0 < c) (sp : Spacing) :
    unique (((makeAngleVector n s c sp).angleVector.map Row.theta).take (ringStart n c n))
      = (List.range n).map (polarMid n sp) := by
  apply unique_eq
  · rw [List.pairwise_map]
    refine (List.pairwise_lt_range).imp_of_mem ?_
    intro a b _ hb hab
    exact polarMid_strictMono n hn sp hab (by have := List.mem_range.mp hb; omega)
  · intro x
    rw [List.mem_map]
    constructor
    · rintro ⟨i, hi, rfl⟩
      have hi' := List.mem_range.mp hi
      have hN := ringSize_pos n c hc (show i < 2 * n by omega)
      refine List.mem_iff_getElem?.mpr ⟨ringStart n c i + 0, ?_⟩
      rw [List.getElem?_take_of_lt (bin_lt_half n c hi' hN), theta_get n hn s c sp (by omega) hN]
    · intro h
      obtain ⟨r, hr⟩ := List.mem_iff_getElem?.mp h
      rw [List.getElem?_take] at hr
      split at hr
      · rename_i hlt
        obtain ⟨i, k, hi, hk, e⟩ := upper_decomp n c hlt
        rw [e, theta_get n hn s c sp (by omega) hk] at hr
        exact ⟨i, List.mem_range.mpr hi, by simpa using hr⟩
      · simp at hr

theorem unique_drop (n : ℕ) (hn : 0 < n) (s c : ℝ) (hc : 0 < c) (sp : Spacing) :
    unique (((makeAngleVector n s c sp).angleVector.map Row.theta).drop (ringStart n c n))
      = (List.range n).map (fun i => polarMid n sp (n + i)) := by
  apply unique_eq
  · rw [List.pairwise_map]
    refine (List.pairwise_lt_range).imp_of_mem ?_
    intro a b _ hb hab
    exact polarMid_strictMono n hn sp (by omega) (by have := List.mem_range.mp hb; omega)
  · intro x
    rw [List.mem_map]
    constructor
    · rintro ⟨i, hi, rfl⟩
      have hi' := List.mem_range.mp hi
      have hN := ringSize_pos n c hc (show n + i < 2 * n by omega)
      have := ringStart_mono n c (show n ≤ n + i by omega)
      refine List.mem_iff_getElem?.mpr ⟨ringStart n c (n + i) + 0 - ringStart n c n, ?_⟩
      rw [List.getElem?_drop, show ringStart n c n + (ringStart n c (n + i) + 0 - ringStart n c n)
        = ringStart n c (n + i) + 0 by omega, theta_get n hn s c sp (by omega) hN]
    · intro h
      obtain ⟨r, hr⟩ := List.mem_iff_getElem?.mp h
      rw [List.getElem?_drop] at hr
      have hlt : ringStart n c n + r < ringStart n c (2 * n) := by
        have := (List.getElem?_eq_some_iff.mp hr).1
        rwa [List.length_map, angleVector_length n hn] at this
      obtain ⟨i, k, hi, hi2, hk, e⟩ := lower_decomp n c (j := r) (by have := ringStart_half n c; omega)
      rw [e, theta_get n hn s c sp hi2 hk] at hr
      exact ⟨i - n, List.mem_range.mpr (by omega), by
        rw [show n + (i - n) = i by omega]; simpa using hr⟩

theorem sum_Ico_shift (a N : ℕ) (f : ℕ → ℝ) :
    ∑ r ∈ Finset.Ico a (a + N), f r = ∑ k ∈ Finset.range N, f (a + k) := by
  rw [Finset.sum_Ico_eq_sum_range]; simp

theorem weightedMean_eq (G : Finset ℕ) (hG : G.Nonempty) (f : ℕ → ℝ) :
    weightedMean G f = ∑ i ∈ G, f i := by
  have : (G.card : ℝ) ≠ 0 := by exact_mod_cast hG.card_pos.ne'
  unfold weightedMean groupMean; field_simp

/-! ## C07 -/

/-- **C07, front.** The summary of a full `2h × h` matrix has one row per ring and one column per incidence
ring, labelled with the rings' polar angles; entry `(o,i)` is the mean over the bins of ring `i` of the
power sent to ring `o`, so each column total is the mean of the column totals of that ring. -/
theorem C07_theta_summary_front (n : ℕ) (hn : 0 < n) (s c : ℝ) (hc : 0 < c) (sp : Spacing)
    (M : ℕ → ℕ → ℝ) :
    let g := makeAngleVector n s c sp
    let h := g.angleVector.length / 2
    let S := thetaSummary g (2 * h) h n true M
    S.2.1 = (List.range (2 * n)).map (fun o => (polarEdge n sp o + polarEdge n sp (o + 1)) / 2) ∧
    S.2.2 = (List.range n).map (fun o => (polarEdge n sp o + polarEdge n sp (o + 1)) / 2) ∧
    S.1.length = 2 * n ∧
    (∀ o < 2 * n, ∀ i < n, (S.1.getD o []).getD i 0 = (∑ k ∈ Finset.range (ringSize n c i),
      ∑ k' ∈ Finset.range (ringSize n c o), M (ringStart n c o + k') (ringStart n c i + k))
        / ringSize n c i) ∧
    (∀ i < n, ∑ o ∈ Finset.range (2 * n), (S.1.getD o []).getD i 0
      = (∑ k ∈ Finset.range (ringSize n c i), ∑ r ∈ Finset.range (2 * h), M r (ringStart n c i + k))
        / ringSize n c i) := by
  intro g h S
  have hh : h = ringStart n c n := half_eq n hn s c sp
  have h2 := ringStart_half n c
  have htake : (g.angleVector.map Row.theta).take (2 * h) = g.angleVector.map Row.theta := by
    apply List.take_of_length_le
    rw [List.length_map, show g.angleVector.length = _ from angleVector_length n hn s c sp]; omega
  have htake2 : (g.angleVector.map Row.theta).take (ringStart n c (2 * n)) = g.angleVector.map Row.theta := by
    rw [h2, ← hh]; exact htake
  have hS1 : S.1 = (List.range (2 * n)).map (fun o => (List.range n).map (fun i =>
      summaryEntry (g.angleVector.map Row.theta) ((g.angleVector.map Row.theta).take h) M
        (polarMid n sp o) (polarMid n sp i))) := by
    show (unique ((g.angleVector.map Row.theta).take (2 * h))).map _ = _
    simp only [summaryLabels, if_true]
    rw [htake, unique_thetas n hn s c hc sp, List.map_map]
    apply List.map_congr_left
    intro o _
    simp only [Function.comp]
    rw [hh, unique_take n hn s c hc sp, List.map_map]
    rfl
  have hentry : ∀ o < 2 * n, ∀ i < n, (S.1.getD o []).getD i 0 = (∑ k ∈ Finset.range (ringSize n c i),
      ∑ k' ∈ Finset.range (ringSize n c o), M (ringStart n c o + k') (ringStart n c i + k))
        / ringSize n c i := by
    intro o ho i hi
    rw [hS1, List.getD_eq_getElem?_getD, List.getD_eq_getElem?_getD, List.getElem?_map,
      List.getElem?_range ho, Option.map_some, Option.getD_some, List.getElem?_map,
      List.getElem?_range hi, Option.map_some, Option.getD_some]
    unfold summaryEntry
    have hNo := ringSize_pos n c hc ho
    have hgo := group_take n hn s c sp (le_refl (2 * n)) ho
    rw [htake2] at hgo
    have hgi := group_take n hn s c sp (show n ≤ 2 * n by omega) hi
    rw [← hh] at hgi
    rw [weightedMean_eq _ (by rw [hgo]; exact ⟨_, Finset.mem_Ico.mpr ⟨le_rfl, by omega⟩⟩), hgo,
      sum_Ico_shift]
    simp only [groupMean]
    rw [hgi, ← Finset.sum_div, Nat.card_Ico, show ringStart n c i + ringSize n c i - ringStart n c i
      = ringSize n c i by omega]
    congr 1
    rw [Finset.sum_congr rfl (fun k' _ => sum_Ico_shift _ _ (fun j => M (ringStart n c o + k') j)),
      Finset.sum_comm]
  refine ⟨?_, ?_, ?_, hentry, ?_⟩
  · exact unique_thetas n hn s c hc sp
  · show (unique (g.angleVector.map Row.theta)).take (unique ((g.angleVector.map Row.theta).take h)).length = _
    rw [unique_thetas n hn s c hc sp, hh, unique_take n hn s c hc sp, List.length_map, List.length_range,
      ← List.map_take, List.take_range, show min n (2 * n) = n by omega]
    rfl
  · rw [hS1]; simp
  · intro i hi
    rw [Finset.sum_congr rfl (fun o ho => hentry o (Finset.mem_range.mp ho) i hi), ← Finset.sum_div,
      Finset.sum_comm]
    congr 1
    apply Finset.sum_congr rfl
    intro k _
    rw [sum_blocks n c (fun r => M r (ringStart n c i + k)), h2, hh]

/-- **C07, rear.** Same for rear incidence: column `i` belongs to ring `n+i`, whose bins are the matrix
columns `ringStart (n+i) - h + k`. -/
theorem C07_theta_summary_rear (n : ℕ) (hn : 0 < n) (s c : ℝ) (hc : 0 < c) (sp : Spacing)
    (M : ℕ → ℕ → ℝ) :
    let g := makeAngleVector n s c sp
    let h := g.angleVector.length / 2
    let S := thetaSummary g (2 * h) h n false M
    S.2.1 = (List.range (2 * n)).map (fun o => (polarEdge n sp o + polarEdge n sp (o + 1)) / 2) ∧
    S.2.2 = (List.range n).map (fun o => (polarEdge n sp (n + o) + polarEdge n sp (n + o + 1)) / 2) ∧
    S.1.length = 2 * n ∧
    (∀ o < 2 * n, ∀ i < n, (S.1.getD o []).getD i 0 = (∑ k ∈ Finset.range (ringSize n c (n + i)),
      ∑ k' ∈ Finset.range (ringSize n c o), M (ringStart n c o + k') (ringStart n c (n + i) - h + k))
        / ringSize n c (n + i)) ∧
    (∀ i < n, ∑ o ∈ Finset.range (2 * n), (S.1.getD o []).getD i 0
      = (∑ k ∈ Finset.range (ringSize n c (n + i)),
          ∑ r ∈ Finset.range (2 * h), M r (ringStart n c (n + i) - h + k)) / ringSize n c (n + i)) := by
  intro g h S
  have hh : h = ringStart n c n := half_eq n hn s c sp
  have h2 := ringStart_half n c
  have htake : (g.angleVector.map Row.theta).take (2 * h) = g.angleVector.map Row.theta := by
    apply List.take_of_length_le
    rw [List.length_map, show g.angleVector.length = _ from angleVector_length n hn s c sp]; omega
  have htake2 : (g.angleVector.map Row.theta).take (ringStart n c (2 * n)) = g.angleVector.map Row.theta := by
    rw [h2, ← hh]; exact htake
  have hS1 : S.1 = (List.range (2 * n)).map (fun o => (List.range n).map (fun i =>
      summaryEntry (g.angleVector.map Row.theta) ((g.angleVector.map Row.theta).drop h) M
        (polarMid n sp o) (polarMid n sp (n + i)))) := by
    show (unique ((g.angleVector.map Row.theta).take (2 * h))).map _ = _
    simp only [summaryLabels, Bool.false_eq_true, if_false]
    rw [htake, unique_thetas n hn s c hc sp, List.map_map]
    apply List.map_congr_left
    intro o _
    simp only [Function.comp]
    rw [hh, unique_drop n hn s c hc sp, List.map_map]
    rfl
  have hentry : ∀ o < 2 * n, ∀ i < n, (S.1.getD o []).getD i 0 =
      (∑ k ∈ Finset.range (ringSize n c (n + i)),
      ∑ k' ∈ Finset.range (ringSize n c o), M (ringStart n c o + k') (ringStart n c (n + i) - h + k))
        / ringSize n c (n + i) := by
    intro o ho i hi
    rw [hS1, List.getD_eq_getElem?_getD, List.getD_eq_getElem?_getD, List.getElem?_map,
      List.getElem?_range ho, Option.map_some, Option.getD_some, List.getElem?_map,
      List.getElem?_range hi, Option.map_some, Option.getD_some]
    unfold summaryEntry
    have hNo := ringSize_pos n c hc ho
    have hgo := group_take n hn s c sp (le_refl (2 * n)) ho
    rw [htake2] at hgo
    have hgi := group_drop n hn s c sp (show n ≤ n + i by omega) (by omega)
    rw [← hh] at hgi
    rw [weightedMean_eq _ (by rw [hgo]; exact ⟨_, Finset.mem_Ico.mpr ⟨le_rfl, by omega⟩⟩), hgo,
      sum_Ico_shift]
    simp only [groupMean]
    rw [hgi, ← Finset.sum_div, Nat.card_Ico, Nat.add_sub_cancel_left]
    congr 1
    rw [Finset.sum_congr rfl (fun k' _ => sum_Ico_shift _ _ (fun j => M (ringStart n c o + k') j)),
      Finset.sum_comm]
  refine ⟨?_, ?_, ?_, hentry, ?_⟩
  · exact unique_thetas n hn s c hc sp
  · show (unique (g.angleVector.map Row.theta)).drop n = _
    rw [unique_thetas n hn s c hc sp, ← List.map_drop, two_mul, List.range_add, List.drop_left' (by simp),
      List.map_map]
    rfl
  · rw [hS1]; simp
  · intro i hi
    rw [Finset.sum_congr rfl (fun o ho => hentry o (Finset.mem_range.mp ho) i hi), ← Finset.sum_div,
      Finset.sum_comm]
    congr 1
    apply Finset.sum_congr rfl
    intro k _
    rw [sum_blocks n c (fun r => M r (ringStart n c (n + i) - h + k)), h2, hh]

/-- **C07, consequence.** A matrix whose columns sum to one has a summary whose columns sum to one. -/
theorem C07_normalised (n : ℕ) (hn : 0 < n) (s c : ℝ) (hc : 0 < c) (sp : Spacing) (M : ℕ → ℕ → ℝ)
    (hM : let h := (makeAngleVector n s c sp).angleVector.length / 2
      ∀ j < h, ∑ r ∈ Finset.range (2 * h), M r j = 1) (i : ℕ) (hi : i < n) :
    let g := makeAngleVector n s c sp
    let h := g.angleVector.length / 2
    ∑ o ∈ Finset.range (2 * n), (((thetaSummary g (2 * h) h n true M).1.getD o []).getD i 0) = 1 := by
  intro g h
  have hh : h = ringStart n c n := half_eq n hn s c sp
  have hN := ringSize_pos n c hc (show i < 2 * n by omega)
  have hN' : (ringSize n c i : ℝ) ≠ 0 := by positivity
  rw [(C07_theta_summary_front n hn s c hc sp M).2.2.2.2 i hi]
  rw [Finset.sum_congr rfl (fun k hk => hM (ringStart n c i + k)
    (lt_of_lt_of_eq (bin_lt_half n c hi (Finset.mem_range.mp hk)) hh.symm))]
  rw [Finset.sum_const, Finset.card_range, nsmul_eq_mul, mul_one, div_self hN']

/-- … and the same for rear incidence. -/
theorem C07_normalised_rear (n : ℕ) (hn : 0 < n) (s c : ℝ) (hc : 0 < c) (sp : Spacing) (M : ℕ → ℕ → ℝ)
    (hM : let h := (makeAngleVector n s c sp).angleVector.length / 2
      ∀ j < h, ∑ r ∈ Finset.range (2 * h), M r j = 1) (i : ℕ) (hi : i < n) :
    let g := makeAngleVector n s c sp
    let h := g.angleVector.length / 2
    ∑ o ∈ Finset.range (2 * n), (((thetaSummary g (2 * h) h n false M).1.getD o []).getD i 0) = 1 := by
  intro g h
  have hh : h = ringStart n c n := half_eq n hn s c sp
  have hN := ringSize_pos n c hc (show n + i < 2 * n by omega)
  have hN' : (ringSize n c (n + i) : ℝ) ≠ 0 := by positivity
  rw [(C07_theta_summary_rear n hn s c hc sp M).2.2.2.2 i hi]
  have hlt : ∀ k < ringSize n c (n + i), ringStart n c (n + i) - h + k < h := by
    intro k hk
    have h1 := ringStart_mono n c (show n + i + 1 ≤ 2 * n by omega)
    rw [ringStart_succ, ringStart_half] at h1
    have h2 := ringStart_mono n c (show n ≤ n + i by omega)
    omega
  rw [Finset.sum_congr rfl (fun k hk => hM (ringStart n c (n + i) - h + k) (hlt k (Finset.mem_range.mp hk)))]
  rw [Finset.sum_const, Finset.card_range, nsmul_eq_mul, mul_one, div_self hN']

/-- Non-vacuity: the identity-over-zero (mirror) matrix satisfies the hypothesis on the default grid. -/
example : let h := (makeAngleVector 50 (π / 2) (1 / 4) .sin).angleVector.length / 2
    ∀ j < h, ∑ r ∈ Finset.range (2 * h), (fun r j : ℕ => if r = j then (1 : ℝ) else 0) r j = 1 := by
  intro h j hj
  simp only
  rw [Finset.sum_ite_eq' (Finset.range (2 * h)), if_pos (Finset.mem_range.mpr (by omega))]

/-! ## C08 -/

/-- Absorption and R/T summaries of ring `i` are on the same footing: the absorption summary of a layer equals the
mean over the ring's incidence bins (as `theta_summary` does). -/
def SummaryAIsMean (n : ℕ) (s c : ℝ) (sp : Spacing) (A : ℕ → ℕ → ℝ) (l i : ℕ) : Prop :=
  let g := makeAngleVector n s c sp
  (thetaSummaryA g (g.angleVector.length / 2) A l).getD i 0
    = (∑ k ∈ Finset.range (ringSize n c i), A l (ringStart n c i + k)) / ringSize n c i

theorem thetaSummaryA_entry (n : ℕ) (hn : 0 < n) (s c : ℝ) (hc : 0 < c) (sp : Spacing)
    (A : ℕ → ℕ → ℝ) (l i : ℕ) (hi : i < n) :
    (thetaSummaryA (makeAngleVector n s c sp)
      ((makeAngleVector n s c sp).angleVector.length / 2) A l).getD i 0
    = ∑ k ∈ Finset.range (ringSize n c i), A l (ringStart n c i + k) := by
  have hh : (makeAngleVector n s c sp).angleVector.length / 2 = ringStart n c n := half_eq n hn s c sp
  unfold thetaSummaryA
  simp only
  rw [hh, unique_take n hn s c hc sp, List.map_map, List.getD_eq_getElem?_getD, List.getElem?_map,
    List.getElem?_range hi, Option.map_some, Option.getD_some]
  simp only [Function.comp]
  rw [group_take n hn s c sp (by omega) hi, sum_Ico_shift]

/-- **C08 (partial).** True for rings with a single azimuth bin. Missing: all other rings, where the
summary is too large by a factor equal to the number of bins. -/
theorem C08_summary_A_partial (n : ℕ) (hn : 0 < n) (s c : ℝ) (hc : 0 < c) (sp : Spacing)
    (A : ℕ → ℕ → ℝ) (l i : ℕ) (hi : i < n) (hN : ringSize n c i = 1) :
    SummaryAIsMean n s c sp A l i := by
  unfold SummaryAIsMean
  simp only
  rw [thetaSummaryA_entry n hn s c hc sp A l i hi, hN]; simp

/-- **C08 fails** for every ring with at least two azimuth bins and non-zero absorption. -/
theorem C08_fails (n : ℕ) (hn : 0 < n) (s c : ℝ) (hc : 0 < c) (sp : Spacing)
    (A : ℕ → ℕ → ℝ) (l i : ℕ) (hi : i < n) (hN : 2 ≤ ringSize n c i)
    (hA : ∑ k ∈ Finset.range (ringSize n c i), A l (ringStart n c i + k) ≠ 0) :
    ¬ SummaryAIsMean n s c sp A l i := by
  unfold SummaryAIsMean
  simp only
  rw [thetaSummaryA_entry n hn s c hc sp A l i hi]
  intro h
  have hN' : (2 : ℝ) ≤ ringSize n c i := by exact_mod_cast hN
  rw [eq_div_iff (by linarith)] at h
  have : (ringSize n c i : ℝ) = 1 := by
    have := mul_left_cancel₀ hA (h.trans (mul_one _).symm)
    exact this
  linarith

/-- Non-vacuity: default grid, ring 49 has 13 bins; 10 % absorption at every angle. -/
example : ¬ SummaryAIsMean 50 (π / 2) (1 / 4) .sin (fun _ _ => 0.1) 0 49 := by
  have h13 : ringSize 50 (1 / 4) 49 = 13 := by
    unfold ringSize
    rw [show min (49 + 1) (2 * 50 - 49) = 50 by norm_num, Nat.ceil_eq_iff (by norm_num)]
    norm_num
  apply C08_fails 50 (by norm_num) _ _ (by norm_num) _ _ _ _ (by norm_num)
  · rw [h13]; norm_num
  · rw [h13]; norm_num

end Rayflare
