import Verif.Lemmas.RTFunction
import Verif.Model.LayerFunction

/-!
# Properties C177 and C178: the absorption function of a ray-traced structure, and where it can be evaluated
-/

namespace Rayflare

open Rayflare.Np Rayflare.Model Rayflare.Lemmas Rayflare.Spec

/-! ## C177: the samples of the function -/

/-- **C177, order.** Whatever the widths and spacings: if `make_absorption_function` succeeds for an `rt_structure`, its sample positions start at the top, increase strictly, and lie inside the structure. So the function it
returns has one value at each of them. -/
theorem C177_increasing (s : CoatedStack) (hs : ProperStack s) (dInt dBulk : ℝ) (hI : 0 < dInt) (hB : 0 < dBulk) (storedInt : List (List ℝ)) (storedBulk : List ℝ) (pts : List (ℝ × ℝ))
    (h : s.absorptionFn dInt dBulk storedInt storedBulk = some pts) :
    (pts.map Prod.fst).Pairwise (· < ·) ∧ (∀ p ∈ pts, 0 ≤ p.1 ∧ p.1 < totalThickness s) ∧ ∀ p ∈ pts.head?, p.1 = 0 := by
  obtain ⟨hlen, hbulk, hcoat⟩ := hs
  have key : ∀ pos : List ℝ, pts.map Prod.fst = pos → pos.Pairwise (· < ·) → (∀ z ∈ pos, 0 ≤ z ∧ z < totalThickness s) → (∀ z ∈ pos.head?, z = 0) →
      (pts.map Prod.fst).Pairwise (· < ·) ∧ (∀ p ∈ pts, 0 ≤ p.1 ∧ p.1 < totalThickness s) ∧ ∀ p ∈ pts.head?, p.1 = 0 := by
    intro pos e h1 h2 h3
    refine ⟨e ▸ h1, fun p hp => h2 p.1 (by rw [← e]; exact List.mem_map_of_mem hp), ?_⟩
    intro p hp
    apply h3
    rw [← e, List.head?_map]
    simp only [Option.mem_def] at hp ⊢
    rw [hp]; rfl
  unfold CoatedStack.absorptionFn at h
  by_cases hany : s.anyCoating = true
  · rw [if_pos hany] at h
    obtain ⟨r, hr, h⟩ := Option.bind_eq_some_iff.mp h
    obtain ⟨p1, p2, p3⟩ := stackSegments_pos hI hB hbulk s.surfs 0 0 0 r hcoat (by simp [hlen]) hr
    refine key _ (samplePoints_fst h) p1 (fun z hz => ?_) p3
    have := p2 z hz
    simp only [List.drop_zero] at this
    exact ⟨this.1, by unfold totalThickness; linarith⟩
  · rw [if_neg hany] at h
    have hd : 0 < dBulk * 10 ^ 6 := by positivity
    have h0 : 0 ≤ (s.surfs.map coatThickness).sum := by
      apply List.sum_nonneg
      intro x hx
      obtain ⟨t, ht, rfl⟩ := List.mem_map.mp hx
      cases t with
      | none => exact le_rfl
      | some c => exact div_nonneg (List.sum_nonneg fun w hw => ((hcoat c ht).2 w hw).le) (by norm_num)
    refine key _ (samplePoints_fst h) (pairwise_shift _ (fun x y hxy => div_lt_div_of_pos_right hxy (by norm_num)) (arange_pairwise _ _ hd)) (fun z hz => ?_) (fun z hz => ?_)
    · obtain ⟨y, hy, rfl⟩ := List.mem_map.mp hz
      obtain ⟨a0, a1⟩ := arange_bounds hd hy
      refine ⟨by positivity, ?_⟩
      have := (div_lt_iff₀ (show (0 : ℝ) < 10 ^ 6 by norm_num)).mpr a1
      unfold totalThickness; linarith
    · by_cases hb : s.bulk = []
      · simp [hb, arange] at hz
      · obtain ⟨l, hl⟩ := arange_head hd (mul_pos (List.sum_pos _ hbulk hb) (show (0 : ℝ) < 10 ^ 6 by norm_num))
        simp only [hl, List.map_cons, List.head?_cons, Option.mem_def, Option.some.injEq, zero_div] at hz
        exact hz.symm

theorem coating_truth (dInt : ℝ) (hI : 0 < dInt) (top : ℝ) (A : ℝ → ℝ) (c : Coating) (hg : ∃ ms : List ℕ, (∀ m ∈ ms, 0 < m) ∧ c.widths = ms.map fun m : ℕ => (m : ℝ) * (dInt * 10 ^ 9))
    (hl : ∀ l ∈ c.prof.getD [], 1 ≤ l ∧ l ≤ c.widths.length) (hp : (c.prof.getD []).Pairwise (· < ·)) :
    coatingSegment dInt (some ((storedDepthsRT c.widths (dInt * 10 ^ 9) (c.prof.getD [])).map A)) top (some c) =
      some ((arange c.widths.sum (dInt * 10 ^ 9)).map (fun z => z / 10 ^ 9 + top), (arange c.widths.sum (dInt * 10 ^ 9)).map (expected c.widths (c.prof.getD []) A), top + c.widths.sum / 10 ^ 9) := by
  obtain ⟨ms, _, hw⟩ := hg
  have hd : 0 < dInt * 10 ^ 9 := by positivity
  simp only [coatingSegment]
  cases hprof : c.prof with
  | none =>
    have : expected c.widths [] A = fun _ => 0 := by funext z; simp [expected]
    simp only [Option.getD_none, this, Option.map_some]
  | some ls =>
    rw [hprof] at hl hp
    simp only [Option.getD_some] at hl hp ⊢
    have e : storedDepthsRT c.widths (dInt * 10 ^ 9) ls =
        ls.flatMap fun l => (arange c.widths.sum (dInt * 10 ^ 9)).filter (between (c.widths.take (l - 1)).sum (c.widths.take l).sum) := by
      rw [hw]
      exact storedDepthsRT_eq ms _ hd ls (by simpa [hw] using hl) hp
    rw [e, Option.bind_some, fill_eq _ c.widths A ls hl, Option.map_some]

theorem surfaceDepth_succ (s : CoatedStack) (i : ℕ) (hi : i < s.bulk.length) (hs : i < s.surfs.length) :
    surfaceDepth s (i + 1) = surfaceDepth s i + coatThickness s.surfs[i] + s.bulk[i] := by
  unfold surfaceDepth
  rw [List.take_add_one, List.take_add_one, List.getElem?_eq_getElem hi, List.getElem?_eq_getElem hs, List.map_append, List.sum_append, List.sum_append]
  simp only [Option.toList_some, List.map_cons, List.map_nil, List.sum_cons, List.sum_nil]
  ring

theorem loop_truth (s : CoatedStack) (hs : ProperStack s) (dInt dBulk : ℝ) (hI : 0 < dInt) (hB : 0 < dBulk) (hg : OnGrid s dInt dBulk) (AI : ℕ → ℝ → ℝ) (AB : ℝ → ℝ) (ms : List ℕ)
    (hms : ∀ m ∈ ms, 0 < m) (hw : s.bulk = ms.map fun m : ℕ => (m : ℝ) * dBulk) : ∀ (rest : List (Option Coating)) (i : ℕ), rest = s.surfs.drop i →
      stackSegments s.bulk dInt dBulk (storedByRays s dInt AI) ((s.bulkDepths dBulk).map AB) i (surfaceDepth s i) (ms.take i).sum rest =
        some ((((List.range' i rest.length).flatMap fun i => coatingTruth s dInt AI i ++ bulkTruth s dBulk AB i).map Prod.fst),
          ((List.range' i rest.length).flatMap fun i => coatingTruth s dInt AI i ++ bulkTruth s dBulk AB i).map Prod.snd) := by
  have hmlen : ms.length = s.bulk.length := by rw [hw, List.length_map]
  intro rest
  induction rest with
  | nil => intro i _; simp [stackSegments]
  | cons t rest ih =>
    intro i hrest
    have hi : i < s.surfs.length := by
      by_contra hcon
      rw [List.drop_eq_nil_of_le (by omega)] at hrest
      simp at hrest
    have hti : s.surfs[i] = t ∧ rest = s.surfs.drop (i + 1) := by
      have := (List.cons_getElem_drop_succ (l := s.surfs) (n := i) (h := hi))
      rw [← hrest] at this
      have := List.cons.inj this
      exact ⟨this.1, this.2.symm⟩
    obtain ⟨hti, hrest'⟩ := hti
    have hgetD : s.surfs.getD i none = t := by rw [List.getD_eq_getElem _ _ hi, hti]
    have hcoat : coatingSegment dInt (storedByRays s dInt AI)[i]? (surfaceDepth s i) t =
        some ((coatingTruth s dInt AI i).map Prod.fst, (coatingTruth s dInt AI i).map Prod.snd, surfaceDepth s i + coatThickness t) := by
      unfold coatingTruth storedByRays
      rw [List.getElem?_map, List.getElem?_range hi]
      simp only [Option.map_some, hgetD]
      cases ht : t with
      | none => simp [coatingSegment, coatThickness]
      | some c =>
        have hmem : some c ∈ s.surfs := by rw [← ht, ← hti]; exact List.getElem_mem _
        obtain ⟨g1, g2, g3⟩ := hg.2 c hmem
        simp only
        rw [coating_truth dInt hI _ (AI i) c g1 g2 g3]
        simp only [List.map_map, Function.comp_def, coatThickness]
        congr 2
        apply List.map_congr_left
        intro z _
        ring
    rw [stackSegments, hcoat, Option.bind_some, List.length_cons, List.range'_succ, List.flatMap_cons]
    by_cases hr : rest = []
    · rw [if_pos hr]
      have hb : bulkTruth s dBulk AB i = [] := by
        have : s.surfs.length ≤ i + 1 := by rw [hr] at hrest'; exact List.drop_eq_nil_iff.mp hrest'.symm
        have hlen := hs.1
        have h0 : s.bulk.getD i 0 = 0 := List.getD_eq_default _ _ (by omega)
        unfold bulkTruth
        rw [h0]
        simp [arange]
      simp [hr, hb]
    · rw [if_neg hr]
      have hib : i < s.bulk.length := by
        have : ¬ s.surfs.length ≤ i + 1 := fun h => hr (by rw [hrest', List.drop_eq_nil_iff]; exact h)
        have := hs.1
        omega
      have hseg := C98_bulk_depths_partial ms dBulk hB AB i (by omega) (hms _ (List.getElem_mem _)) (surfaceDepth s i + coatThickness t) s.bulk hw
      simp only
      unfold CoatedStack.bulkDepths
      rw [hseg, Option.bind_some, List.getElem?_eq_getElem hib, Option.bind_some]
      simp only
      have htop : surfaceDepth s i + coatThickness t + s.bulk[i] = surfaceDepth s (i + 1) := by rw [surfaceDepth_succ s i hib hi, hti]
      rw [htop]
      have := ih (i + 1) hrest'
      unfold CoatedStack.bulkDepths at this
      rw [this, Option.map_some]
      congr 1
      have hbt : bulkTruth s dBulk AB i = (arange (s.bulk.getD i 0) dBulk).map fun u => (surfaceDepth s i + coatThickness t + u, 10 ^ 9 * AB ((s.bulk.take i).sum + u)) := by
        unfold bulkTruth; rw [hgetD]
      simp only [List.map_append, hbt, List.map_map, Function.comp_def, List.append_assoc]

theorem samplePoints_map (L : List (ℝ × ℝ)) : samplePoints (L.map Prod.fst, L.map Prod.snd) = some L := by
  unfold samplePoints
  rw [if_pos (by simp)]
  congr 1
  exact (List.zip_of_prod rfl rfl).symm

theorem range_layers (ms : List ℕ) (n : ℕ) (hn : n ≤ ms.length) :
    ((List.range n).flatMap fun i => (List.range (ms.getD i 0)).map fun k => (ms.take i).sum + k) = List.range (ms.take n).sum := by
  induction n with
  | zero => simp
  | succ n ih =>
    rw [List.range_succ, List.flatMap_append, ih (by omega)]
    have : (ms.take (n + 1)).sum = (ms.take n).sum + ms.getD n 0 := by
      have := take_sum_step ms (n + 1) (by omega) hn
      simpa using this
    rw [this, List.range_add]
    simp

/-- **C177, what holds.** Let every layer be a multiple of the spacing of its samples and let the profiles be requested in increasing order of the layers. Let the profiles be as returned by `rt_structure.calculate`: `AI i z` at
depth `z` in the layers on surface `i`, `AB t` after `t` metres of bulk. Then the samples of the function are, from top to bottom, the layers on the first surface, the first bulk layer, the layers on the second surface, and
so on, each with its own depth and the absorption per metre there; with any mixture of surfaces with and without layers. -/
theorem C177_function_partial (s : CoatedStack) (hs : ProperStack s) (dInt dBulk : ℝ) (hI : 0 < dInt) (hB : 0 < dBulk) (hg : OnGrid s dInt dBulk) (AI : ℕ → ℝ → ℝ) (AB : ℝ → ℝ) :
    s.absorptionFn dInt dBulk (storedByRays s dInt AI) ((s.bulkDepths dBulk).map AB) = some (stackTruth s dInt dBulk AI AB) := by
  obtain ⟨ms, hms, hw⟩ := hg.1
  have hmlen : ms.length = s.bulk.length := by rw [hw, List.length_map]
  unfold CoatedStack.absorptionFn
  by_cases hany : s.anyCoating = true
  · rw [if_pos hany]
    have := loop_truth s hs dInt dBulk hI hB hg AI AB ms hms hw s.surfs 0 (by simp)
    have h0 : surfaceDepth s 0 = 0 := by simp [surfaceDepth]
    simp only [h0, List.take_zero, List.sum_nil] at this
    rw [this, Option.bind_some, samplePoints_map, stackTruth, List.range_eq_range']
  · rw [if_neg hany]
    have hnone : ∀ t ∈ s.surfs, t = none := by
      intro t ht
      cases t with
      | none => rfl
      | some c => exact absurd (List.any_eq_true.mpr ⟨some c, ht, rfl⟩) hany
    have hD : ∀ i, s.surfs.getD i none = none := by
      intro i
      rcases lt_or_ge i s.surfs.length with h | h
      · rw [List.getD_eq_getElem _ _ h]; exact hnone _ (List.getElem_mem _)
      · rw [List.getD_eq_default _ _ h]
    have hz : ∀ i, ((s.surfs.take i).map coatThickness).sum = 0 := by
      intro i
      apply List.sum_eq_zero
      intro x hx
      obtain ⟨t, ht, rfl⟩ := List.mem_map.mp hx
      rw [hnone t (List.mem_of_mem_take ht)]; rfl
    have hgrid : s.bulkDepths dBulk = (List.range ms.sum).map fun k : ℕ => (k : ℝ) * dBulk := by
      unfold CoatedStack.bulkDepths
      rw [hw, stack_grid ms dBulk hB, arange_nat _ _ hB]
    have htruth : stackTruth s dInt dBulk AI AB = (List.range ms.sum).map fun k : ℕ => ((k : ℝ) * dBulk, 10 ^ 9 * AB ((k : ℝ) * dBulk)) := by
      have hr := range_layers ms ms.length le_rfl
      rw [List.take_length] at hr
      unfold stackTruth
      rw [← hr, hs.1, List.range_succ, List.flatMap_append, List.map_flatMap, ← hmlen]
      have hlast : [ms.length].flatMap (fun i => coatingTruth s dInt AI i ++ bulkTruth s dBulk AB i) = [] := by
        simp only [List.flatMap_cons, List.flatMap_nil, List.append_nil, coatingTruth, hD, List.nil_append, bulkTruth]
        rw [List.getD_eq_default _ _ (by omega)]
        simp [arange]
      rw [hlast, List.append_nil]
      apply List.flatMap_congr
      intro i hi
      rw [List.mem_range] at hi
      have hwi : s.bulk.getD i 0 = ((ms.getD i 0 : ℕ) : ℝ) * dBulk := by
        rw [hw, List.getD_eq_getElem _ _ (by simpa using hi), List.getElem_map, List.getD_eq_getElem _ _ hi]
      have htk : (s.bulk.take i).sum = (((ms.take i).sum : ℕ) : ℝ) * dBulk := by rw [hw]; exact sum_take_mul ms dBulk i
      simp only [coatingTruth, hD, List.nil_append, bulkTruth, hwi, surfaceDepth, hz, htk, arange_nat _ _ hB, List.map_map, Function.comp_def, coatThickness]
      apply List.map_congr_left
      intro k _
      push_cast
      rw [zero_add, add_zero, add_mul]
    rw [htruth]
    have hfold : ((arange (s.bulk.sum * 10 ^ 6) (dBulk * 10 ^ 6)).map fun z => z / 10 ^ 6) = s.bulkDepths dBulk := rfl
    rw [hfold, hgrid]
    have := samplePoints_map ((List.range ms.sum).map fun k : ℕ => ((k : ℝ) * dBulk, 10 ^ 9 * AB ((k : ℝ) * dBulk)))
    simpa only [List.map_map, Function.comp_def] using this

/-- A structure that meets all hypotheses: an antireflection coating of 60 nm and 20 nm on the first surface (profile of the second layer requested), 3 μm of bulk, an uncoated surface, 2 μm of bulk, and a layer of 10 nm without a
profile at the rear; sampled every 10 nm and every μm. -/
noncomputable def coatedExample : CoatedStack := ⟨[some ⟨[60, 20], some [2]⟩, none, some ⟨[10], none⟩], [3 / 10 ^ 6, 2 / 10 ^ 6]⟩

theorem coatedExample_ok : ProperStack coatedExample ∧ OnGrid coatedExample (10 / 10 ^ 9) (1 / 10 ^ 6) := by
  refine ⟨⟨by simp [coatedExample], by simp [coatedExample], ?_⟩, ⟨[3, 2], by simp, by simp [coatedExample]; norm_num⟩, ?_⟩
  · intro c hc
    simp only [coatedExample, List.mem_cons, Option.some.injEq, reduceCtorEq, false_or, List.not_mem_nil, or_false] at hc
    rcases hc with rfl | rfl <;> simp
  · intro c hc
    simp only [coatedExample, List.mem_cons, Option.some.injEq, reduceCtorEq, false_or, List.not_mem_nil, or_false] at hc
    rcases hc with rfl | rfl
    · exact ⟨⟨[6, 2], by simp, by norm_num⟩, by simp, by simp⟩
    · exact ⟨⟨[1], by simp, by norm_num⟩, by simp, by simp⟩

theorem bulk_without_sample (w1 w2 d : ℝ) (h1 : 0 < w1) (h2 : 0 < w2) (hd : w1 + w2 ≤ d) (st : List ℝ) (off : ℕ) (top : ℝ) : bulkSegment [w1, w2] d st off 1 top = none := by
  have hd0 : 0 < d := by linarith
  have hgrid : (arange (([w1, w2] : List ℝ).sum * 10 ^ 6) (d * 10 ^ 6)).map (fun z => z / 10 ^ 6) = [0] := by
    unfold arange
    have : ⌈([w1, w2] : List ℝ).sum * 10 ^ 6 / (d * 10 ^ 6)⌉₊ = 1 := by
      rw [Nat.ceil_eq_iff one_ne_zero, mul_div_mul_right _ _ (by norm_num)]
      simp only [List.sum_cons, List.sum_nil, add_zero, Nat.sub_self, Nat.cast_zero, Nat.cast_one]
      exact ⟨by positivity, by rw [div_le_one hd0]; exact hd⟩
    rw [this]
    simp
  unfold bulkSegment
  rw [hgrid, layerStart_get _ 2 (by norm_num) (by simp), layerEnd_get _ 2 (by simp)]
  have hb : between (List.take 1 [w1, w2]).sum (List.take 2 [w1, w2]).sum 0 = false := by
    rw [Bool.eq_false_iff, ne_eq, mask_between]
    simp
    intro h
    linarith
  simp only [Option.bind_some, Nat.add_one_sub_one, List.filter_cons, hb, Bool.false_eq_true, if_false, List.filter_nil]

/-- **C177 fails** for thin bulk layers: if two bulk layers together are no thicker than the depth spacing and any of the surfaces has layers, the call raises an exception, whatever the profiles. Without layers on the surfaces it
succeeds (`C177_plain`). -/
theorem C177_thin_fails (w1 w2 dInt d : ℝ) (h1 : 0 < w1) (h2 : 0 < w2) (hd : w1 + w2 ≤ d) (a b c : Option Coating) (hc : a.isSome ∨ b.isSome ∨ c.isSome) (stI : List (List ℝ)) (stB : List ℝ) :
    (CoatedStack.mk [a, b, c] [w1, w2]).absorptionFn dInt d stI stB = none := by
  have hany : (CoatedStack.mk [a, b, c] [w1, w2]).anyCoating = true := by
    unfold CoatedStack.anyCoating
    simp only [List.any_cons, List.any_nil, Bool.or_false, Bool.or_eq_true]
    exact hc
  have inner : ∀ top off, stackSegments [w1, w2] dInt d stI stB 1 top off [b, c] = none := by
    intro top off
    rw [stackSegments]
    cases coatingSegment dInt stI[1]? top b with
    | none => rfl
    | some x => rw [Option.bind_some, if_neg (by simp), bulk_without_sample w1 w2 d h1 h2 hd]; rfl
  unfold CoatedStack.absorptionFn
  rw [if_pos hany]
  simp only
  rw [stackSegments]
  cases coatingSegment dInt stI[0]? 0 a with
  | none => rfl
  | some x =>
    rw [Option.bind_some, if_neg (by simp)]
    cases bulkSegment [w1, w2] d stB 0 0 x.2.2 with
    | none => rfl
    | some y => simp [inner]

/-- **C177, uncoated structures.** If no surface has layers, the samples are the depths of the bulk profile with the absorption per metre there, for any widths and spacing. -/
theorem C177_plain (s : CoatedStack) (h : ∀ t ∈ s.surfs, t = none) (dInt dBulk : ℝ) (stI : List (List ℝ)) (AB : ℝ → ℝ) :
    s.absorptionFn dInt dBulk stI ((s.bulkDepths dBulk).map AB) = some ((s.bulkDepths dBulk).map fun z => (z, 10 ^ 9 * AB z)) := by
  have hany : ¬ s.anyCoating = true := by
    intro hc
    obtain ⟨t, ht, hs⟩ := List.any_eq_true.mp hc
    rw [h t ht] at hs
    simp at hs
  unfold CoatedStack.absorptionFn
  rw [if_neg hany]
  have hfold : ((arange (s.bulk.sum * 10 ^ 6) (dBulk * 10 ^ 6)).map fun z => z / 10 ^ 6) = s.bulkDepths dBulk := rfl
  rw [hfold]
  have := samplePoints_map ((s.bulkDepths dBulk).map fun z => (z, 10 ^ 9 * AB z))
  simpa only [List.map_map, Function.comp_def, List.map_id'] using this

example : ∀ t ∈ (CoatedStack.mk [none, none] [3 / 10 ^ 6]).surfs, t = none := by simp

/-! ## C178: where the function can be evaluated -/

/-- **C178, at the samples** the function has the value given there. -/
theorem C178_samples : ∀ (pts : List (ℝ × ℝ)), (pts.map Prod.fst).Pairwise (· < ·) → 2 ≤ pts.length → ∀ q ∈ pts, interp1d pts q.1 = some q.2
  | [], _, h, _, _ => by simp at h
  | [_], _, h, _, _ => by simp at h
  | a :: b :: r, hp, _, q, hq => by
    have hab : a.1 < b.1 := by
      simp only [List.map_cons] at hp
      exact List.rel_of_pairwise_cons hp (by simp)
    have hsub : b.1 - a.1 ≠ 0 := by linarith
    rcases List.mem_cons.mp hq with rfl | hq
    · unfold interp1d
      rw [if_neg (lt_irrefl _), if_pos hab.le]
      simp
    rcases List.mem_cons.mp hq with rfl | hq'
    · unfold interp1d
      rw [if_neg (by linarith), if_pos le_rfl]
      congr 1
      field_simp
      ring
    · have hp' : ((b :: r).map Prod.fst).Pairwise (· < ·) := by
        simp only [List.map_cons] at hp ⊢
        exact List.Pairwise.of_cons hp
      have hbq : b.1 < q.1 := by
        simp only [List.map_cons] at hp'
        exact List.rel_of_pairwise_cons hp' (List.mem_map_of_mem hq')
      have hlen : 2 ≤ (b :: r).length := by
        cases r with
        | nil => simp at hq'
        | cons => simp
      unfold interp1d
      rw [if_neg (by linarith), if_neg (by linarith)]
      exact C178_samples (b :: r) hp' hlen q hq

/-- **C178, between the samples** the value lies between those at the two neighbouring samples. -/
theorem C178_between : ∀ (pts : List (ℝ × ℝ)), (pts.map Prod.fst).Pairwise (· < ·) → ∀ (x v : ℝ), interp1d pts x = some v →
    ∃ l a b r, pts = l ++ a :: b :: r ∧ a.1 ≤ x ∧ x ≤ b.1 ∧ min a.2 b.2 ≤ v ∧ v ≤ max a.2 b.2
  | [], _, _, _, h => by simp [interp1d] at h
  | [_], _, _, _, h => by simp [interp1d] at h
  | a :: b :: r, hp, x, v, h => by
    have hab : a.1 < b.1 := by
      simp only [List.map_cons] at hp
      exact List.rel_of_pairwise_cons hp (by simp)
    unfold interp1d at h
    by_cases h1 : x < a.1
    · rw [if_pos h1] at h; simp at h
    rw [if_neg h1] at h
    by_cases h2 : x ≤ b.1
    · rw [if_pos h2] at h
      simp only [Option.some.injEq] at h
      refine ⟨[], a, b, r, rfl, by linarith, h2, ?_⟩
      set t := (x - a.1) / (b.1 - a.1) with ht
      have hpos : 0 < b.1 - a.1 := by linarith
      have t0 : 0 ≤ t := div_nonneg (by linarith) hpos.le
      have t1 : t ≤ 1 := by rw [ht, div_le_one hpos]; linarith
      have hv : v = (1 - t) * a.2 + t * b.2 := by rw [← h, ht]; field_simp; ring
      have m1 := min_le_left a.2 b.2
      have m2 := min_le_right a.2 b.2
      have m3 := le_max_left a.2 b.2
      have m4 := le_max_right a.2 b.2
      constructor <;> rw [hv] <;> nlinarith
    · rw [if_neg h2] at h
      have hp' : ((b :: r).map Prod.fst).Pairwise (· < ·) := by
        simp only [List.map_cons] at hp ⊢
        exact List.Pairwise.of_cons hp
      obtain ⟨l, a', b', r', e, h3⟩ := C178_between (b :: r) hp' x v h
      exact ⟨a :: l, a', b', r', by rw [e]; rfl, h3⟩

theorem interp_defined : ∀ (pts : List (ℝ × ℝ)), (pts.map Prod.fst).Pairwise (· < ·) → ∀ (q : ℝ × ℝ) (x : ℝ), (∀ a ∈ pts.head?, a.1 ≤ x) → q ∈ pts → x ≤ q.1 → 2 ≤ pts.length → (interp1d pts x).isSome
  | [], _, _, _, _, h, _, _ => by simp at h
  | [_], _, _, _, _, _, _, h => by simp at h
  | a :: b :: r, hp, q, x, h1, h2, h3, _ => by
    have ha := h1 a (by simp)
    have hab : a.1 < b.1 := by
      simp only [List.map_cons] at hp
      exact List.rel_of_pairwise_cons hp (by simp)
    have hp' : ((b :: r).map Prod.fst).Pairwise (· < ·) := by
      simp only [List.map_cons] at hp ⊢
      exact List.Pairwise.of_cons hp
    unfold interp1d
    rw [if_neg (by linarith)]
    by_cases hb : x ≤ b.1
    · rw [if_pos hb]; rfl
    · rw [if_neg hb]
      have hq : q ∈ r := by
        rcases List.mem_cons.mp h2 with rfl | h2
        · exact absurd (by linarith) hb
        · rcases List.mem_cons.mp h2 with rfl | h2
          · exact absurd h3 hb
          · exact h2
      refine interp_defined (b :: r) hp' q x (by intro q hq; simp at hq; subst hq; linarith) (by simp [hq]) h3 ?_
      cases r with
      | nil => simp at hq
      | cons => simp

/-- **C178, what holds.** The function that is returned for an `rt_structure` can be evaluated at every depth from the top of the structure down to the last sample, if there are at least two samples; and it is nowhere negative if the
profiles are not. -/
theorem C178_defined_partial (s : CoatedStack) (hs : ProperStack s) (dInt dBulk : ℝ) (hI : 0 < dInt) (hB : 0 < dBulk) (storedInt : List (List ℝ)) (storedBulk : List ℝ) (pts : List (ℝ × ℝ))
    (h : s.absorptionFn dInt dBulk storedInt storedBulk = some pts) (h2 : 2 ≤ pts.length) :
    (∀ x, 0 ≤ x → (∃ q ∈ pts, x ≤ q.1) → ∃ v, interp1d pts x = some v) ∧ ((∀ q ∈ pts, 0 ≤ q.2) → ∀ x v, interp1d pts x = some v → 0 ≤ v) := by
  obtain ⟨i1, _, i3⟩ := C177_increasing s hs dInt dBulk hI hB storedInt storedBulk pts h
  constructor
  · rintro x hx ⟨q, hq, hxq⟩
    exact Option.isSome_iff_exists.mp (interp_defined pts i1 q x (fun a ha => by rw [i3 a ha]; exact hx) hq hxq h2)
  · intro hpos x v hv
    obtain ⟨l, a, b, r, e, _, _, hmin, _⟩ := C178_between pts i1 x v hv
    have ha := hpos a (by rw [e]; simp)
    have hb := hpos b (by rw [e]; simp)
    exact le_trans (le_min ha hb) hmin

/-- A structure for which the hypotheses of `C178_defined_partial` are met: the one above, whose function has 8 + 3 + 2 + 1 samples. -/
example : ∃ pts, coatedExample.absorptionFn (10 / 10 ^ 9) (1 / 10 ^ 6) (storedByRays coatedExample (10 / 10 ^ 9) fun _ _ => 1) ((coatedExample.bulkDepths (1 / 10 ^ 6)).map fun _ => 1) = some pts ∧ 2 ≤ pts.length := by
  have hP : ProperStack coatedExample ∧ OnGrid coatedExample (10 / 10 ^ 9) (1 / 10 ^ 6) := coatedExample_ok
  refine ⟨_, C177_function_partial coatedExample hP.1 _ _ (by norm_num) (by norm_num) hP.2 (fun _ _ => 1) (fun _ => 1), ?_⟩
  have har : arange (80 : ℝ) 10 = (List.range 8).map fun k : ℕ => (k : ℝ) * 10 := by
    have := arange_nat 8 10 (by norm_num)
    norm_num at this
    exact this
  have : (coatingTruth coatedExample (10 / 10 ^ 9) (fun _ _ => 1) 0).length = 8 := by
    simp only [coatingTruth, coatedExample, List.getD_cons_zero]
    rw [show ([60, 20] : List ℝ).sum = 80 by norm_num, show (10 / 10 ^ 9 * 10 ^ 9 : ℝ) = 10 by norm_num, har]
    simp
  unfold stackTruth
  rw [show coatedExample.surfs.length = 2 + 1 from rfl, List.range_succ_eq_map, List.flatMap_cons, List.length_append, List.length_append, this]
  omega

/-- **C178 fails** near the bottom of every ray-traced structure: whatever the widths and spacings, there is a depth inside the structure at which the function raises an exception. -/
theorem C178_bottom_fails (s : CoatedStack) (hs : ProperStack s) (hw : 0 < totalThickness s) (dInt dBulk : ℝ) (hI : 0 < dInt) (hB : 0 < dBulk) (storedInt : List (List ℝ)) (storedBulk : List ℝ) (pts : List (ℝ × ℝ))
    (h : s.absorptionFn dInt dBulk storedInt storedBulk = some pts) : ∃ x, 0 ≤ x ∧ x < totalThickness s ∧ interp1d pts x = none :=
  interp1d_gap pts _ hw fun q hq => ((C177_increasing s hs dInt dBulk hI hB storedInt storedBulk pts h).2.1 q hq).2

example : 0 < totalThickness coatedExample := by norm_num [totalThickness, coatedExample, coatThickness]

/-- **C178 fails** likewise for every `tmm_structure` and `rcwa_structure`. -/
theorem C178_planar_bottom_fails (s : PlanarStack) (hw : 0 < s.width) (d : ℝ) (hd : 0 < d) (profile : List ℝ) (pts : List (ℝ × ℝ)) (h : s.absorptionFn d profile = some pts) :
    ∃ x, 0 ≤ x ∧ x < s.width ∧ interp1d pts x = none := by
  refine interp1d_gap pts _ hw fun q hq => ?_
  unfold PlanarStack.absorptionFn at h
  by_cases hl : (s.positions d).length = profile.length
  · rw [if_pos hl] at h
    simp only [Option.some.injEq] at h
    subst h
    have hm : q.1 ∈ s.positions d := (List.of_mem_zip hq).1
    unfold PlanarStack.positions at hm
    obtain ⟨y, hy, e⟩ := List.mem_map.mp hm
    rw [← e, div_lt_iff₀ (by norm_num)]
    exact (arange_bounds (by positivity) hy).2
  · rw [if_neg hl] at h
    simp at h

/-- **C178 fails** likewise for the matrix method. -/
theorem C178_matrix_bottom_fails (s : Sandwich) (hf : 0 ≤ s.front.sum) (hb : 0 ≤ s.bulk) (hr : 0 ≤ s.back.sum) (hw : 0 < s.front.sum + s.bulk + s.back.sum) (dInt dBulk : ℝ) (hI : 0 < dInt) (hB : 0 < dBulk) (bp : Bool)
    (sf sb sr pos val : List ℝ) (h : absorptionMatrix s dInt dBulk bp sf sb sr = some (pos, val)) :
    ∃ x, 0 ≤ x ∧ x < s.front.sum + s.bulk + s.back.sum ∧ interp1d (pos.zip val) x = none := by
  refine interp1d_gap _ _ hw fun q hq => ?_
  have hm : q.1 ∈ pos := (List.of_mem_zip hq).1
  have hsum : ∀ l : List ℝ, (l.map fun w => w * 10 ^ 9).sum = l.sum * 10 ^ 9 := fun l => by
    induction l with
    | nil => simp
    | cons a l ih => rw [List.map_cons, List.sum_cons, ih, List.sum_cons]; ring
  have hgrid : ∀ w d z : ℝ, 0 < d → z ∈ posGrid w d → z < w := fun w d z hd hz => by
    have := (arange_bounds hd hz).2
    have : (0 : ℝ) < 1 / 10 ^ 12 := by norm_num
    linarith
  unfold absorptionMatrix at h
  simp only at h
  obtain ⟨f, _, h⟩ := Option.bind_eq_some_iff.mp h
  obtain ⟨b, _, h⟩ := Option.bind_eq_some_iff.mp h
  by_cases hbp : bp = false
  · rw [if_pos hbp] at h; simp at h
  rw [if_neg hbp] at h
  simp only [Option.some.injEq, Prod.mk.injEq] at h
  rw [← h.1] at hm
  simp only [List.mem_append, List.mem_map, hsum] at hm
  have e9 : s.front.sum * 10 ^ 9 / 10 ^ 9 = s.front.sum := by field_simp
  have e6 : s.bulk * 10 ^ 6 / 10 ^ 6 = s.bulk := by field_simp
  rcases hm with (⟨y, hy, e⟩ | ⟨y, hy, e⟩) | ⟨y, hy, e⟩
  · have := hgrid _ _ _ (by positivity) hy
    have : y / 10 ^ 9 < s.front.sum := by rw [div_lt_iff₀ (by norm_num)]; exact this
    linarith
  · have := hgrid _ _ _ (by positivity) hy
    have : y / 10 ^ 6 < s.bulk := by rw [div_lt_iff₀ (by norm_num)]; exact this
    linarith
  · have := hgrid _ _ _ (by positivity) hy
    have : y / 10 ^ 9 < s.back.sum := by rw [div_lt_iff₀ (by norm_num)]; exact this
    linarith

end Rayflare
