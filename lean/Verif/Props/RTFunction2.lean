import Verif.Props.RTFunction

/-!
# C98 and C177 for any widths: how wrong the depths are
-/

namespace Rayflare

open Rayflare.Np Rayflare.Model Rayflare.Lemmas Rayflare.Spec

/-- The points of the depth grid of the bulk profile that lie in bulk layer `i`: between the thickness of bulk above it and that thickness plus its own. -/
noncomputable def samplesIn (bulk : List ℝ) (d : ℝ) (i : ℕ) : List ℝ :=
  ((arange (bulk.sum * 10 ^ 6) (d * 10 ^ 6)).map fun z => z / 10 ^ 6).filter (between (bulk.take i).sum (bulk.take (i + 1)).sum)

/-- Number of points of the depth grid above bulk layer `i`. -/
noncomputable def samplesAbove (bulk : List ℝ) (d : ℝ) (i : ℕ) : ℕ :=
  (((arange (bulk.sum * 10 ^ 6) (d * 10 ^ 6)).map fun z => z / 10 ^ 6).filter fun z => decide (z < (bulk.take i).sum)).length

theorem sorted_window (a b : ℝ) : ∀ G : List ℝ, G.Pairwise (· < ·) →
    (G.drop (G.filter fun z => decide (z < a)).length).take (G.filter (between a b)).length = G.filter (between a b)
  | [], _ => by simp
  | z :: G, h => by
    have hG := h.of_cons
    have hz : ∀ y ∈ G, z < y := fun y hy => List.rel_of_pairwise_cons h hy
    have ih := sorted_window a b G hG
    by_cases hza : z < a
    · have hb : between a b z = false := by rw [Bool.eq_false_iff, ne_eq, mask_between]; intro h; linarith [h.1]
      have e1 : (z :: G).filter (fun z => decide (z < a)) = z :: G.filter fun z => decide (z < a) := List.filter_cons_of_pos (by simpa using hza)
      have e2 : (z :: G).filter (between a b) = G.filter (between a b) := List.filter_cons_of_neg (by rw [hb]; simp)
      rw [e1, e2, List.length_cons, List.drop_succ_cons]
      exact ih
    · have h0 : ∀ L : List ℝ, (∀ y ∈ L, a ≤ y) → L.filter (fun z => decide (z < a)) = [] := fun L hL => by
        rw [List.filter_eq_nil_iff]
        intro y hy
        simpa using hL y hy
      have hGa : ∀ y ∈ G, a ≤ y := fun y hy => by linarith [hz y hy]
      rw [h0 G hGa] at ih
      rw [h0 (z :: G) (by intro y hy; rcases List.mem_cons.mp hy with rfl | hy; · linarith
                          · exact hGa y hy)]
      by_cases hzb : z < b
      · rw [List.filter_cons_of_pos (by rw [mask_between]; constructor <;> linarith)]
        simp only [List.length_nil, List.drop_zero, List.length_cons, List.take_succ_cons] at ih ⊢
        rw [ih]
      · have hnil : (z :: G).filter (between a b) = [] := by
          rw [List.filter_eq_nil_iff]
          intro y hy
          rw [mask_between]
          rintro ⟨_, h2⟩
          rcases List.mem_cons.mp hy with rfl | hy
          · exact hzb h2
          · linarith [hz y hy]
        rw [hnil]
        simp

theorem above_succ (bulk : List ℝ) (hbulk : ∀ w ∈ bulk, 0 < w) (d : ℝ) (i : ℕ) (hi : i < bulk.length) :
    samplesAbove bulk d (i + 1) = samplesAbove bulk d i + (samplesIn bulk d i).length := by
  have hstep : (bulk.take (i + 1)).sum = (bulk.take i).sum + bulk[i] := by
    rw [List.take_add_one, List.getElem?_eq_getElem hi, List.sum_append]
    simp only [Option.toList_some, List.sum_cons, List.sum_nil, add_zero]
  have hw := hbulk _ (List.getElem_mem hi)
  unfold samplesAbove samplesIn
  generalize ((arange (bulk.sum * 10 ^ 6) (d * 10 ^ 6)).map fun z => z / 10 ^ 6) = G
  rw [hstep]
  generalize (bulk.take i).sum = a
  induction G with
  | nil => simp
  | cons z G ih =>
    simp only [List.filter_cons]
    by_cases h1 : z < a
    · have hb : between a (a + bulk[i]) z = false := by rw [Bool.eq_false_iff, ne_eq, mask_between]; intro h; linarith [h.1]
      simp only [hb, decide_eq_true (show z < a + bulk[i] by linarith), decide_eq_true h1, if_true, Bool.false_eq_true, if_false, List.length_cons, ih]
      omega
    · by_cases h2 : z < a + bulk[i]
      · have hb : between a (a + bulk[i]) z = true := by rw [mask_between]; exact ⟨by linarith, h2⟩
        simp only [hb, decide_eq_true h2, decide_eq_false h1, if_true, Bool.false_eq_true, if_false, List.length_cons, ih]
        omega
      · have hb : between a (a + bulk[i]) z = false := by rw [Bool.eq_false_iff, ne_eq, mask_between]; intro h; linarith [h.2]
        simp only [hb, decide_eq_false h2, decide_eq_false h1, Bool.false_eq_true, if_false, ih]

theorem above_zero (bulk : List ℝ) (d : ℝ) (hd : 0 < d) : samplesAbove bulk d 0 = 0 := by
  unfold samplesAbove
  rw [List.length_eq_zero_iff, List.filter_eq_nil_iff]
  intro z hz
  obtain ⟨y, hy, rfl⟩ := List.mem_map.mp hz
  have := (arange_bounds (show 0 < d * 10 ^ 6 by positivity) hy).1
  have h0 : 0 ≤ y / 10 ^ 6 := by positivity
  rw [List.take_zero, List.sum_nil, decide_eq_true_eq]
  exact not_lt.mpr h0

/-- One bulk layer, any widths: the right values, with labels that start at the top of the layer. -/
theorem bulkSegment_any (bulk : List ℝ) (d : ℝ) (hd : 0 < d) (A : ℝ → ℝ) (i : ℕ) (hi : i < bulk.length) (top : ℝ) (z0 : ℝ) (rest : List ℝ) (hne : samplesIn bulk d i = z0 :: rest) :
    bulkSegment bulk d (((arange (bulk.sum * 10 ^ 6) (d * 10 ^ 6)).map fun z => z / 10 ^ 6).map A) (samplesAbove bulk d i) i top =
      some ((samplesIn bulk d i).map (fun z => z - z0 + top), (samplesIn bulk d i).map (fun z => 10 ^ 9 * A z), samplesAbove bulk d i + (samplesIn bulk d i).length) := by
  have hlen : i + 1 ≤ bulk.length := hi
  have hsort : ((arange (bulk.sum * 10 ^ 6) (d * 10 ^ 6)).map fun z => z / 10 ^ 6).Pairwise (· < ·) :=
    pairwise_shift _ (fun x y hxy => div_lt_div_of_pos_right hxy (by norm_num)) (arange_pairwise _ _ (by positivity))
  have hwin := sorted_window (bulk.take i).sum (bulk.take (i + 1)).sum _ hsort
  unfold bulkSegment
  rw [layerStart_get _ (i + 1) (by omega) hlen, layerEnd_get _ (i + 1) hlen]
  simp only [Option.bind_some, Nat.add_sub_cancel]
  have hfold : ((arange (bulk.sum * 10 ^ 6) (d * 10 ^ 6)).map fun z => z / 10 ^ 6).filter (between (bulk.take i).sum (bulk.take (i + 1)).sum) = samplesIn bulk d i := rfl
  rw [hfold] at hwin ⊢
  have hval : ((((arange (bulk.sum * 10 ^ 6) (d * 10 ^ 6)).map fun z => z / 10 ^ 6).map A).drop (samplesAbove bulk d i)).take (samplesIn bulk d i).length = (samplesIn bulk d i).map A := by
    rw [← List.map_drop, ← List.map_take]
    congr 1
  rw [hval, hne]
  simp only [List.map_map, Function.comp_def]

/-- The first sample in a layer is less than one spacing below its top. -/
theorem first_sample (bulk : List ℝ) (hbulk : ∀ w ∈ bulk, 0 < w) (d : ℝ) (hd : 0 < d) (i : ℕ) (z0 : ℝ) (rest : List ℝ) (hne : samplesIn bulk d i = z0 :: rest) :
    (bulk.take i).sum ≤ z0 ∧ z0 < (bulk.take i).sum + d := by
  have hmem : z0 ∈ samplesIn bulk d i := by rw [hne]; simp
  unfold samplesIn at hmem
  obtain ⟨hm, hb⟩ := List.mem_filter.mp hmem
  rw [mask_between] at hb
  refine ⟨hb.1, ?_⟩
  by_contra hcon
  push Not at hcon
  obtain ⟨y, hy, e⟩ := List.mem_map.mp hm
  unfold arange at hy
  obtain ⟨k, hk, rfl⟩ := List.mem_map.mp hy
  have hz0 : z0 = (k : ℝ) * d := by rw [← e]; field_simp
  have ha : 0 ≤ (bulk.take i).sum := List.sum_nonneg fun w hw => (hbulk w (List.mem_of_mem_take hw)).le
  have hk1 : 1 ≤ k := by
    rcases Nat.eq_zero_or_pos k with rfl | h
    · rw [hz0] at hcon; simp at hcon; linarith
    · exact h
  have hk' : ((k - 1 : ℕ) : ℝ) = k - 1 := by rw [Nat.cast_sub hk1, Nat.cast_one]
  have hprev : ((k - 1 : ℕ) : ℝ) * d ∈ samplesIn bulk d i := by
    unfold samplesIn
    refine List.mem_filter.mpr ⟨List.mem_map.mpr ⟨((k - 1 : ℕ) : ℝ) * (d * 10 ^ 6), ?_, by field_simp⟩, ?_⟩
    · unfold arange
      exact List.mem_map.mpr ⟨k - 1, by rw [List.mem_range] at hk ⊢; omega, rfl⟩
    · rw [mask_between, hk']
      constructor
      · rw [hz0] at hcon; linarith
      · have := hb.2; rw [hz0] at this; nlinarith
  have hsort : (samplesIn bulk d i).Pairwise (· < ·) := by
    unfold samplesIn
    exact (pairwise_shift _ (fun x y hxy => div_lt_div_of_pos_right hxy (by norm_num)) (arange_pairwise _ _ (by positivity))).filter _
  rw [hne] at hsort hprev
  rcases List.mem_cons.mp hprev with h | h
  · rw [hz0, hk'] at h; nlinarith
  · have := List.rel_of_pairwise_cons hsort h
    rw [hz0, hk'] at this; nlinarith

/-- **C98, any widths.** Every sample of bulk layer `i` gets the value of its own depth `z` in the bulk; its label is too small by less than one spacing of the grid: if `top` is the depth of the top of the layer, the true depth is
`top + (z - thickness of the bulk above)`. Samples are lost or repeated in no layer: the next layer continues where this one ends. -/
theorem C98_error_bound_partial (bulk : List ℝ) (hbulk : ∀ w ∈ bulk, 0 < w) (d : ℝ) (hd : 0 < d) (A : ℝ → ℝ) (i : ℕ) (hi : i < bulk.length) (top : ℝ) (hne : samplesIn bulk d i ≠ []) :
    ∃ δ, 0 ≤ δ ∧ δ < d ∧
      bulkSegment bulk d (((arange (bulk.sum * 10 ^ 6) (d * 10 ^ 6)).map fun z => z / 10 ^ 6).map A) (samplesAbove bulk d i) i top =
        some ((samplesIn bulk d i).map (fun z => top + (z - (bulk.take i).sum) - δ), (samplesIn bulk d i).map (fun z => 10 ^ 9 * A z), samplesAbove bulk d (i + 1)) := by
  obtain ⟨z0, rest, h⟩ := List.exists_cons_of_ne_nil hne
  obtain ⟨f1, f2⟩ := first_sample bulk hbulk d hd i z0 rest h
  refine ⟨z0 - (bulk.take i).sum, by linarith, by linarith, ?_⟩
  rw [bulkSegment_any bulk d hd A i hi top z0 rest h, above_succ bulk hbulk d i hi]
  congr 2
  apply List.map_congr_left
  intro z _
  ring

/-- Two layers of 1.5 m sampled every metre meet the hypotheses: the second layer contains the sample at 2 m. -/
example : (2 : ℝ) ∈ samplesIn [3 / 2, 3 / 2] 1 1 := by
  unfold samplesIn
  refine List.mem_filter.mpr ⟨List.mem_map.mpr ⟨2 * 10 ^ 6, ?_, by norm_num⟩, by rw [mask_between]; norm_num⟩
  unfold arange
  refine List.mem_map.mpr ⟨2, ?_, by norm_num⟩
  rw [List.mem_range, Nat.lt_ceil]
  norm_num

/-- Samples of bulk layer `i` as they are returned: `δ` is the distance of the first sample from the top of the layer. -/
noncomputable def bulkLabelled (s : CoatedStack) (dBulk : ℝ) (AB : ℝ → ℝ) (δ : ℕ → ℝ) (i : ℕ) : List (ℝ × ℝ) :=
  (samplesIn s.bulk dBulk i).map fun z => (surfaceDepth s i + coatThickness (s.surfs.getD i none) + (z - (s.bulk.take i).sum) - δ i, 10 ^ 9 * AB z)

/-- The layers on every surface are multiples of the spacing, and layers for profiles are requested in increasing order. -/
def CoatingsOnGrid (s : CoatedStack) (dInt : ℝ) : Prop :=
  ∀ c, some c ∈ s.surfs → (∃ ms : List ℕ, (∀ m ∈ ms, 0 < m) ∧ c.widths = ms.map fun m : ℕ => (m : ℝ) * (dInt * 10 ^ 9)) ∧
    (∀ l ∈ c.prof.getD [], 1 ≤ l ∧ l ≤ c.widths.length) ∧ (c.prof.getD []).Pairwise (· < ·)

theorem loop_any (s : CoatedStack) (hs : ProperStack s) (dInt dBulk : ℝ) (hI : 0 < dInt) (hB : 0 < dBulk) (hg : CoatingsOnGrid s dInt) (AI : ℕ → ℝ → ℝ) (AB : ℝ → ℝ)
    (δ : ℕ → ℝ) (hδ : ∀ i < s.bulk.length, ∃ rest, samplesIn s.bulk dBulk i = ((s.bulk.take i).sum + δ i) :: rest) : ∀ (rest : List (Option Coating)) (i : ℕ), rest = s.surfs.drop i →
      stackSegments s.bulk dInt dBulk (storedByRays s dInt AI) ((s.bulkDepths dBulk).map AB) i (surfaceDepth s i) (samplesAbove s.bulk dBulk i) rest =
        some ((((List.range' i rest.length).flatMap fun i => coatingTruth s dInt AI i ++ if i < s.bulk.length then bulkLabelled s dBulk AB δ i else []).map Prod.fst),
          ((List.range' i rest.length).flatMap fun i => coatingTruth s dInt AI i ++ if i < s.bulk.length then bulkLabelled s dBulk AB δ i else []).map Prod.snd) := by
  intro rest
  induction rest with
  | nil => intro i _; simp [stackSegments]
  | cons t rest ih =>
    intro i hrest
    have hi : i < s.surfs.length := by
      by_contra hcon
      rw [List.drop_eq_nil_of_le (by omega)] at hrest
      simp at hrest
    have hti : s.surfs[i] = t ∧ rest = s.surfs.drop (i + 1) := by
      have := (List.cons_getElem_drop_succ (l := s.surfs) (n := i) (h := hi))
      rw [← hrest] at this
      have := List.cons.inj this
      exact ⟨this.1, this.2.symm⟩
    obtain ⟨hti, hrest'⟩ := hti
    have hgetD : s.surfs.getD i none = t := by rw [List.getD_eq_getElem _ _ hi, hti]
    have hcoat : coatingSegment dInt (storedByRays s dInt AI)[i]? (surfaceDepth s i) t =
        some ((coatingTruth s dInt AI i).map Prod.fst, (coatingTruth s dInt AI i).map Prod.snd, surfaceDepth s i + coatThickness t) := by
      unfold coatingTruth storedByRays
      rw [List.getElem?_map, List.getElem?_range hi]
      simp only [Option.map_some, hgetD]
      cases ht : t with
      | none => simp [coatingSegment, coatThickness]
      | some c =>
        have hmem : some c ∈ s.surfs := by rw [← ht, ← hti]; exact List.getElem_mem _
        obtain ⟨g1, g2, g3⟩ := hg c hmem
        simp only
        rw [coating_truth dInt hI _ (AI i) c g1 g2 g3]
        simp only [List.map_map, Function.comp_def, coatThickness]
        congr 2
        apply List.map_congr_left
        intro z _
        ring
    rw [stackSegments, hcoat, Option.bind_some, List.length_cons, List.range'_succ, List.flatMap_cons]
    by_cases hr : rest = []
    · rw [if_pos hr]
      have : s.surfs.length ≤ i + 1 := by rw [hr] at hrest'; exact List.drop_eq_nil_iff.mp hrest'.symm
      have hlen := hs.1
      rw [if_neg (by omega)]
      simp [hr]
    · rw [if_neg hr]
      have hib : i < s.bulk.length := by
        have : ¬ s.surfs.length ≤ i + 1 := fun h => hr (by rw [hrest', List.drop_eq_nil_iff]; exact h)
        have := hs.1
        omega
      obtain ⟨zs, hzs⟩ := hδ i hib
      simp only
      unfold CoatedStack.bulkDepths
      rw [bulkSegment_any s.bulk dBulk hB AB i hib _ _ zs hzs, Option.bind_some, List.getElem?_eq_getElem hib, Option.bind_some, if_pos hib]
      simp only
      have htop : surfaceDepth s i + coatThickness t + s.bulk[i] = surfaceDepth s (i + 1) := by rw [surfaceDepth_succ s i hib hi, hti]
      rw [htop, ← above_succ s.bulk hs.2.1 dBulk i hib]
      have := ih (i + 1) hrest'
      unfold CoatedStack.bulkDepths at this
      rw [this, Option.map_some]
      congr 1
      simp only [List.map_append, bulkLabelled, hgetD, List.map_map, Function.comp_def, List.append_assoc]
      congr 3
      apply List.map_congr_left
      intro z _
      ring

/-- **C177, any bulk widths.** If a surface has layers and every bulk layer contains a sample, the function is as in `C177_function_partial` except that in each bulk layer all depths are too small by the same amount, less than one spacing;
the values are those of the true depths. -/
theorem C177_any_width_partial (s : CoatedStack) (hs : ProperStack s) (dInt dBulk : ℝ) (hI : 0 < dInt) (hB : 0 < dBulk) (hc : s.anyCoating = true) (hg : CoatingsOnGrid s dInt)
    (hne : ∀ i < s.bulk.length, samplesIn s.bulk dBulk i ≠ []) (AI : ℕ → ℝ → ℝ) (AB : ℝ → ℝ) :
    ∃ δ : ℕ → ℝ, (∀ i < s.bulk.length, 0 ≤ δ i ∧ δ i < dBulk) ∧ s.absorptionFn dInt dBulk (storedByRays s dInt AI) ((s.bulkDepths dBulk).map AB) =
      some ((List.range s.surfs.length).flatMap fun i => coatingTruth s dInt AI i ++ if i < s.bulk.length then bulkLabelled s dBulk AB δ i else []) := by
  refine ⟨fun i => (samplesIn s.bulk dBulk i).headD 0 - (s.bulk.take i).sum, ?_, ?_⟩
  · intro i hi
    obtain ⟨z0, rest, h⟩ := List.exists_cons_of_ne_nil (hne i hi)
    obtain ⟨f1, f2⟩ := first_sample s.bulk hs.2.1 dBulk hB i z0 rest h
    simp only [h, List.headD_cons]
    constructor <;> linarith
  · unfold CoatedStack.absorptionFn
    rw [if_pos hc]
    have := loop_any s hs dInt dBulk hI hB hg AI AB (fun i => (samplesIn s.bulk dBulk i).headD 0 - (s.bulk.take i).sum) (by
      intro i hi
      obtain ⟨z0, rest, h⟩ := List.exists_cons_of_ne_nil (hne i hi)
      exact ⟨rest, by rw [h, List.headD_cons]; congr 1; ring⟩) s.surfs 0 (by simp)
    have h0 : surfaceDepth s 0 = 0 := by simp [surfaceDepth]
    rw [h0, above_zero _ _ hB] at this
    rw [this, Option.bind_some, samplePoints_map, List.range_eq_range']

/-- A structure that meets the hypotheses although its bulk layers are not multiples of the spacing: 1.5 μm and 1.5 μm sampled every μm under a layer of 80 nm. -/
example : ∃ s : CoatedStack, ProperStack s ∧ s.anyCoating = true ∧ CoatingsOnGrid s (10 / 10 ^ 9) ∧ ∀ i < s.bulk.length, samplesIn s.bulk (1 / 10 ^ 6) i ≠ [] := by
  refine ⟨⟨[some ⟨[80], some [1]⟩, none, none], [3 / 2 / 10 ^ 6, 3 / 2 / 10 ^ 6]⟩, ⟨rfl, by norm_num, ?_⟩, rfl, ?_, ?_⟩
  · intro c hc
    simp only [List.mem_cons, Option.some.injEq, reduceCtorEq, List.not_mem_nil, or_false] at hc
    subst hc; simp
  · intro c hc
    simp only [List.mem_cons, Option.some.injEq, reduceCtorEq, List.not_mem_nil, or_false] at hc
    subst hc
    exact ⟨⟨[8], by simp, by norm_num⟩, by simp, by simp⟩
  · have hmem : ∀ k : ℕ, k < 3 → (k : ℝ) / 10 ^ 6 ∈ (arange (([3 / 2 / 10 ^ 6, 3 / 2 / 10 ^ 6] : List ℝ).sum * 10 ^ 6) (1 / 10 ^ 6 * 10 ^ 6)).map fun z => z / 10 ^ 6 := by
      intro k hk
      refine List.mem_map.mpr ⟨k, ?_, rfl⟩
      unfold arange
      refine List.mem_map.mpr ⟨k, ?_, by norm_num⟩
      rw [List.mem_range, Nat.lt_ceil]
      have : (k : ℝ) < 3 := by exact_mod_cast hk
      norm_num
      linarith
    intro i hi
    simp only [List.length_cons, List.length_nil] at hi
    have : i = 0 ∨ i = 1 := by omega
    rcases this with rfl | rfl
    · exact List.ne_nil_of_mem (List.mem_filter.mpr ⟨hmem 0 (by norm_num), by rw [mask_between]; norm_num⟩)
    · exact List.ne_nil_of_mem (List.mem_filter.mpr ⟨hmem 2 (by norm_num), by rw [mask_between]; norm_num⟩)

end Rayflare
