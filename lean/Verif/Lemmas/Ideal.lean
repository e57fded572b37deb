import Verif.Lemmas.RayFormat2

namespace Rayflare.Lemmas

open Real Rayflare.Np Rayflare.Model Rayflare.Spec

/-! ## mirror -/

theorem mirrorBin_centre (n : ℕ) (hn : 0 < n) (m : ℕ) (hm : 0 < m) (c : ℝ) (hc : 0 < c)
    (sp : Spacing) (front : Bool) (j : ℕ)
    {i k : ℕ} (hi : i < 2 * n) (hk : k < ringSize n c i) (heven : Even m ∨ Even (ringSize n c i))
    (hj : (if front then j else ringStart n c n + j) = ringStart n c i + k) :
    ∃ k' < ringSize n c i, mirrorBin (makeAngleVector n (2 * π / m) c sp) (2 * π / m) front j
      = some (ringStart n c i + k') ∧ (Even m → k' = k) ∧
      ∃ z : ℤ, azimuthMid n c (2 * π / m) i k'
        = azimuthMid n c (2 * π / m) i k + π + z * (2 * π / m) := by
  have hs : 0 < 2 * π / m := by positivity
  obtain ⟨k', hk', hf, he, hz⟩ := fold_opposite_centre n m hm c rfl hk heven
  refine ⟨k', hk', ?_, he, hz⟩
  unfold mirrorBin
  rw [half_eq n hn, hj, angleVector_get n hn _ c sp hi hk, Option.bind_some, hf,
    binOf_eq n hn _ c hs hc sp hi hk' (mid_inBin n hn _ c hs sp hi hk'), Option.bind_some]
  apply pyIndex_ofNat
  rw [← ringStart_half]
  exact bin_lt_len n c hi hk'

/-! ## lambertian -/

/-- share of ring `i` before normalisation -/
noncomputable def lamW (n : ℕ) (sp : Spacing) (i : ℕ) : ℝ :=
  Real.cos (polarMid n sp i) * (polarEdge n sp (i + 1) - polarEdge n sp i)

theorem polarMid_strictMono (n : ℕ) (hn : 0 < n) (sp : Spacing) {i j : ℕ} (hij : i < j)
    (hj : j < 2 * n) : polarMid n sp i < polarMid n sp j := by
  have h := polarEdge_strictMono n hn sp
  have a := h i j hij (by omega)
  have b := h (i + 1) (j + 1) (by omega) (by omega)
  unfold polarMid; linarith

theorem mem_thetas (n : ℕ) (hn : 0 < n) (s c : ℝ) (hc : 0 < c) (sp : Spacing) (x : ℝ) :
    x ∈ (makeAngleVector n s c sp).angleVector.map Row.theta ↔ ∃ i < 2 * n, x = polarMid n sp i := by
  constructor
  · intro h
    obtain ⟨row, hrow, e⟩ := List.mem_map.mp h
    obtain ⟨r, hr⟩ := List.mem_iff_getElem?.mp hrow
    obtain ⟨i, k, hi, _, _, hh⟩ := row_decomp n hn s c sp hr
    exact ⟨i, hi, by rw [← e, hh]⟩
  · rintro ⟨i, hi, rfl⟩
    have hN := ringSize_pos n c hc hi
    have := angleVector_get n hn s c sp hi hN
    exact List.mem_map.mpr ⟨_, List.mem_iff_getElem?.mpr ⟨_, this⟩, rfl⟩

theorem lambertThetas_eq (n : ℕ) (hn : 0 < n) (s c : ℝ) (hc : 0 < c) (sp : Spacing) :
    lambertThetas (makeAngleVector n s c sp) = (List.range n).map (polarMid n sp) := by
  unfold lambertThetas
  apply unique_eq
  · rw [List.pairwise_map]
    refine (List.pairwise_lt_range).imp_of_mem ?_
    intro a b _ hb hab
    exact polarMid_strictMono n hn sp hab (by have := List.mem_range.mp hb; omega)
  · intro x
    rw [List.mem_filter, mem_thetas n hn s c hc, List.mem_map]
    constructor
    · rintro ⟨i, hi, rfl⟩
      have := List.mem_range.mp hi
      exact ⟨⟨i, by omega, rfl⟩, by simpa using polarMid_lt_half n hn sp this⟩
    · rintro ⟨⟨i, hi, rfl⟩, h⟩
      refine ⟨i, List.mem_range.mpr ?_, rfl⟩
      by_contra hc'
      have := polarMid_gt_half n hn sp (not_lt.mp hc') hi
      simp at h
      linarith

theorem filter_thetaIntv (n : ℕ) (hn : 0 < n) (s c : ℝ) (sp : Spacing) :
    (makeAngleVector n s c sp).thetaIntv.filter (fun t => decide (t ≤ π / 2))
      = (List.range (n + 1)).map (polarEdge n sp) := by
  have ht : (makeAngleVector n s c sp).thetaIntv
      = (List.range (2 * n + 1)).map (polarEdge n sp) := thetaIntv_eq n hn sp
  have hmono := polarEdge_strictMono n hn sp
  rw [ht, show 2 * n + 1 = (n + 1) + n by ring, List.range_add, List.map_append, List.filter_append]
  have h1 : ((List.range (n + 1)).map (polarEdge n sp)).filter (fun t => decide (t ≤ π / 2))
      = (List.range (n + 1)).map (polarEdge n sp) := by
    rw [List.filter_eq_self]
    intro x hx
    obtain ⟨i, hi, rfl⟩ := List.mem_map.mp hx
    have hi' := List.mem_range.mp hi
    have : polarEdge n sp i ≤ π / 2 := by
      rw [← polarEdge_half n hn sp]
      rcases Nat.lt_or_ge i n with h | h
      · exact (hmono i n h (by omega)).le
      · rw [show i = n by omega]
    simpa using this
  have h2 : (((List.range n).map (fun x => n + 1 + x)).map (polarEdge n sp)).filter
      (fun t => decide (t ≤ π / 2)) = [] := by
    rw [List.filter_eq_nil_iff]
    intro x hx
    obtain ⟨j, hj, rfl⟩ := List.mem_map.mp hx
    obtain ⟨i, hi, rfl⟩ := List.mem_map.mp hj
    have hi' := List.mem_range.mp hi
    have := hmono n (n + 1 + i) (by omega) (by omega)
    rw [polarEdge_half n hn] at this
    simpa using this
  rw [h1, h2, List.append_nil]

theorem lambertDtheta_eq (n : ℕ) (hn : 0 < n) (s c : ℝ) (sp : Spacing) :
    lambertDtheta (makeAngleVector n s c sp)
      = (List.range n).map (fun i => polarEdge n sp (i + 1) - polarEdge n sp i) := by
  unfold lambertDtheta
  rw [filter_thetaIntv n hn]
  unfold diff
  apply List.ext_getElem
  · simp
  · intro i h1 h2; simp

theorem lambertNphis_eq (n : ℕ) (hn : 0 < n) (s c : ℝ) (hc : 0 < c) (sp : Spacing) :
    lambertNphis (makeAngleVector n s c sp) = (List.range n).map (ringSize n c) := by
  unfold lambertNphis
  rw [lambertThetas_eq n hn s c hc, List.map_map]
  apply List.map_congr_left
  intro i hi
  have hi' := List.mem_range.mp hi
  simp only [Function.comp]
  rw [angleVector_eq n hn, List.countP_flatMap]
  have : ∀ j ∈ List.range (2 * n), (List.countP (fun row => decide (row.theta = polarMid n sp i)) ∘
      ringRows n s c sp) j = if j = i then ringSize n c i else 0 := by
    intro j hj
    have hj' := List.mem_range.mp hj
    simp only [Function.comp, ringRows, List.countP_map]
    by_cases h : j = i
    · subst h
      rw [if_pos rfl, List.countP_eq_length.mpr]
      · simp
      · intro a _; simp
    · rw [if_neg h, List.countP_eq_zero]
      intro a _
      simp only [Function.comp, decide_eq_true_eq]
      intro e
      rcases lt_or_gt_of_ne h with h | h
      · exact absurd e (polarMid_strictMono n hn sp h (by omega)).ne
      · exact absurd e (polarMid_strictMono n hn sp h (by omega)).ne'
  rw [List.map_congr_left this, sum_map_range]
  simp [show i < 2 * n by omega]

theorem lambertColumn_eq (n : ℕ) (hn : 0 < n) (s c : ℝ) (hc : 0 < c) (sp : Spacing) :
    lambertColumn (makeAngleVector n s c sp) = (List.range n).flatMap
      (fun i => List.replicate (ringSize n c i) (lamW n sp i / ringSize n c i)) := by
  unfold lambertColumn
  simp only
  rw [lambertThetas_eq n hn s c hc, lambertDtheta_eq n hn, lambertNphis_eq n hn s c hc]
  have h1 : List.zipWith (fun t d => Real.cos t * d) ((List.range n).map (polarMid n sp))
      ((List.range n).map (fun i => polarEdge n sp (i + 1) - polarEdge n sp i))
      = (List.range n).map (lamW n sp) := by
    apply List.ext_getElem
    · simp
    · intro i a b; simp [lamW]
  rw [h1]
  have h2 : List.zip ((List.range n).map (lamW n sp)) ((List.range n).map (ringSize n c))
      = (List.range n).map (fun i => (lamW n sp i, ringSize n c i)) := by
    apply List.ext_getElem
    · simp
    · intro i a b; simp
  rw [h2, List.flatMap_map]

theorem lamW_pos (n : ℕ) (hn : 0 < n) (sp : Spacing) {i : ℕ} (hi : i < n) : 0 < lamW n sp i := by
  have h := polarEdge_strictMono n hn sp i (i + 1) (by omega) (by omega)
  have h0 : 0 ≤ polarEdge n sp i := by
    rcases Nat.eq_zero_or_pos i with h | h
    · subst h; rw [polarEdge_zero]
    · have := polarEdge_strictMono n hn sp 0 i h (by omega); rw [polarEdge_zero] at this; exact this.le
  have h1 := polarMid_lt_half n hn sp hi
  have h2 : 0 < polarMid n sp i := by unfold polarMid; linarith
  unfold lamW
  exact mul_pos (Real.cos_pos_of_mem_Ioo ⟨by linarith [pi_pos], h1⟩) (by linarith)

theorem lambertColumn_sum (n : ℕ) (hn : 0 < n) (s c : ℝ) (hc : 0 < c) (sp : Spacing) :
    (lambertColumn (makeAngleVector n s c sp)).sum = ∑ i ∈ Finset.range n, lamW n sp i := by
  rw [lambertColumn_eq n hn s c hc, List.flatMap, List.sum_flatten, List.map_map, sum_map_range]
  apply Finset.sum_congr rfl
  intro i hi
  have := ringSize_pos n c hc (show i < 2 * n by have := Finset.mem_range.mp hi; omega)
  have : (ringSize n c i : ℝ) ≠ 0 := by positivity
  simp only [Function.comp, List.sum_replicate, nsmul_eq_mul]
  field_simp

theorem lambertColumn_length (n : ℕ) (hn : 0 < n) (s c : ℝ) (hc : 0 < c) (sp : Spacing) :
    (lambertColumn (makeAngleVector n s c sp)).length = ringStart n c n := by
  rw [lambertColumn_eq n hn s c hc, length_blocks]
  simp [blockStart, ringStart]

theorem lambertColumn_get (n : ℕ) (hn : 0 < n) (s c : ℝ) (hc : 0 < c) (sp : Spacing) {i k : ℕ}
    (hi : i < n) (hk : k < ringSize n c i) :
    (lambertColumn (makeAngleVector n s c sp))[ringStart n c i + k]?
      = some (lamW n sp i / ringSize n c i) := by
  rw [lambertColumn_eq n hn s c hc]
  have := getElem?_blocks n (fun i => List.replicate (ringSize n c i) (lamW n sp i / ringSize n c i))
    i k hi (by simpa using hk)
  simp only [List.length_replicate, List.getElem_replicate] at this
  exact this

end Rayflare.Lemmas
