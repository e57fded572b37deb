import Verif.Lemmas.Absorption
import Mathlib.Tactic.Positivity

/-!
# Properties C67, C98 and C99: `make_absorption_function`
-/

namespace Rayflare

open Rayflare.Np Rayflare.Model Rayflare.Lemmas

/-- Depth `z` (from the top of the interface) is in layer `l` (counted from 1) of a stack of layers of the given widths. -/
def DepthInLayer (widths : List ℝ) (l : ℕ) (z : ℝ) : Prop := (widths.take (l - 1)).sum ≤ z ∧ z < (widths.take l).sum

open Classical in
/-- What a user expects at depth `z`: the absorption there, converted from nm⁻¹ to m⁻¹, if `z` is in one of the requested layers, otherwise 0. -/
noncomputable def expected (widths : List ℝ) (prof : List ℕ) (A : ℝ → ℝ) (z : ℝ) : ℝ := if ∃ l ∈ prof, DepthInLayer widths l z then 10 ^ 9 * A z else 0

theorem any_between (w : List ℝ) (prof : List ℕ) (A : ℝ → ℝ) (z : ℝ) :
    (if prof.any (fun l => between (w.take (l - 1)).sum (w.take l).sum z) then 10 ^ 9 * A z else 0) = expected w prof A z := by
  classical
  unfold expected
  by_cases h : ∃ l ∈ prof, DepthInLayer w l z
  · rw [if_pos h, if_pos]
    obtain ⟨l, hl, h1, h2⟩ := h
    rw [List.any_eq_true]
    exact ⟨l, hl, by simp [between, h1, h2]⟩
  · rw [if_neg h, if_neg]
    intro h'
    rw [List.any_eq_true] at h'
    obtain ⟨l, hl, hb⟩ := h'
    simp only [between, Bool.and_eq_true, decide_eq_true_eq] at hb
    exact h ⟨l, hl, hb⟩

theorem fill_eq (pos w : List ℝ) (A : ℝ → ℝ) (prof : List ℕ) (hl : ∀ l ∈ prof, 1 ≤ l ∧ l ≤ w.length) :
    fillProfile pos w (some prof) ((prof.flatMap fun l => pos.filter (between (w.take (l - 1)).sum (w.take l).sum)).map A) = some (pos.map (expected w prof A)) := by
  obtain ⟨off, h⟩ := fill_loop pos w A ((prof.flatMap fun l => pos.filter (between (w.take (l - 1)).sum (w.take l).sum)).map A) prof (fun _ => 0) 0 [] hl
    (by rw [List.drop_zero, List.append_nil, List.map_flatMap])
  unfold fillProfile
  simp only
  rw [h, Option.map_some]
  congr 1
  apply List.map_congr_left
  intro z _
  exact any_between w prof A z

/-- **C67, TMM and RCWA interfaces.** Let the profile of the requested layers (in any order, or none) be stored as `TMM` does, `A z` at depth `z`. Then `make_absorption_function` gives at each of its sampling points the right value.
(The hypothesis on the grid only excludes a sampling point within 10⁻¹² nm of the bottom of the interface.) -/
theorem C67_tmm (widths : List ℝ) (d : ℝ) (prof : Option (List ℕ)) (A : ℝ → ℝ) (hl : ∀ l ∈ prof.getD [], 1 ≤ l ∧ l ≤ widths.length) (hgrid : posGrid widths.sum d = arange widths.sum d) :
    ∃ depths, storedDepths widths d (prof.getD []) = some depths ∧
      fillProfile (posGrid widths.sum d) widths prof (depths.map A) = some ((posGrid widths.sum d).map (expected widths (prof.getD []) A)) := by
  cases prof with
  | none =>
    refine ⟨_, storedDepths_eq widths d [] hl, ?_⟩
    have : expected widths [] A = fun _ => 0 := by funext z; simp [expected]
    simp only [fillProfile, Option.getD_none, this]
  | some prof =>
    refine ⟨_, storedDepths_eq widths d prof hl, ?_⟩
    rw [hgrid]
    exact fill_eq _ widths A prof hl

theorem posGrid_nat (M : ℕ) (d : ℝ) (hd : 1 / 10 ^ 12 < d) : posGrid ((M : ℝ) * d) d = arange ((M : ℝ) * d) d := by
  have hd0 : 0 < d := lt_trans (by norm_num) hd
  unfold posGrid arange
  have h1 : ((M : ℝ) * d) / d = M := by field_simp
  rw [h1, Nat.ceil_natCast]
  congr 2
  rcases Nat.eq_zero_or_pos M with rfl | hM
  · rw [Nat.ceil_eq_zero]
    apply div_nonpos_of_nonpos_of_nonneg _ hd0.le
    norm_num
  · rw [Nat.ceil_eq_iff hM.ne']
    constructor
    · rw [lt_div_iff₀ hd0, Nat.cast_sub hM, Nat.cast_one]
      nlinarith
    · rw [div_le_iff₀ hd0]
      linarith [show (0 : ℝ) < 1 / 10 ^ 12 by norm_num]

/-- Layers of 3 nm and 5 nm, sampled every nm, second layer requested first. -/
example : (∀ l ∈ [2, 1], 1 ≤ l ∧ l ≤ ([3, 5] : List ℝ).length) ∧ posGrid ([3, 5] : List ℝ).sum 1 = arange ([3, 5] : List ℝ).sum 1 := by
  refine ⟨by simp, ?_⟩
  have := posGrid_nat 8 1 (by norm_num)
  have e : ([3, 5] : List ℝ).sum = ((8 : ℕ) : ℝ) * 1 := by norm_num
  rw [e]
  exact this

/-- **C67, ray-traced interfaces, what holds.** The same for profiles stored by ray tracing, if every layer width is a multiple of the depth spacing and the layers are requested in increasing order. -/
theorem C67_rt_partial (ms : List ℕ) (d : ℝ) (prof : List ℕ) (A : ℝ → ℝ) (hd : 1 / 10 ^ 12 < d) (hl : ∀ l ∈ prof, 1 ≤ l ∧ l ≤ ms.length) (hs : prof.Pairwise (· < ·)) (widths : List ℝ)
    (hw : widths = ms.map fun m : ℕ => (m : ℝ) * d) :
    fillProfile (posGrid widths.sum d) widths (some prof) ((storedDepthsRT widths d prof).map A) = some ((posGrid widths.sum d).map (expected widths prof A)) := by
  have hd0 : 0 < d := lt_trans (by norm_num) hd
  subst hw
  have hsum : (ms.map fun m : ℕ => (m : ℝ) * d).sum = ((ms.sum : ℕ) : ℝ) * d := by
    have := sum_take_mul ms d ms.length
    rwa [List.take_of_length_le (by simp), List.take_of_length_le (le_refl _)] at this
  rw [storedDepthsRT_eq ms d hd0 prof hl hs]
  have : posGrid (ms.map fun m : ℕ => (m : ℝ) * d).sum d = arange (ms.map fun m : ℕ => (m : ℝ) * d).sum d := by
    rw [hsum]; exact posGrid_nat _ d hd
  rw [this]
  exact fill_eq _ _ A prof (by simpa using hl)

example : (1 : ℝ) / 10 ^ 12 < 1 ∧ (∀ l ∈ [1, 2], 1 ≤ l ∧ l ≤ [3, 5].length) ∧ [1, 2].Pairwise (· < ·) := ⟨by norm_num, by simp, by simp⟩

theorem mask_between (a b z : ℝ) : between a b z = true ↔ a ≤ z ∧ z < b := by simp [between]

/-- **C67 fails** for ray-traced interfaces whose layers are not multiples of the spacing: with two layers of 1.5 nm sampled every nm, the value stored for depth 1.5 nm is given for depth 2 nm. -/
theorem C67_rt_fails (A : ℝ → ℝ) : posGrid ([3 / 2, 3 / 2] : List ℝ).sum 1 = [0, 1, 2] ∧
    fillProfile (posGrid ([3 / 2, 3 / 2] : List ℝ).sum 1) [3 / 2, 3 / 2] (some [1, 2]) ((storedDepthsRT [3 / 2, 3 / 2] 1 [1, 2]).map A) = some [10 ^ 9 * A 0, 10 ^ 9 * A 1, 10 ^ 9 * A (3 / 2)] := by
  have hsum : ([3 / 2, 3 / 2] : List ℝ).sum = ((3 : ℕ) : ℝ) * 1 := by norm_num
  have hpos : posGrid ([3 / 2, 3 / 2] : List ℝ).sum 1 = [0, 1, 2] := by
    rw [hsum, posGrid_nat 3 1 (by norm_num), arange_nat 3 1 one_pos]
    simp [List.range_succ]
  have har : arange (3 / 2 : ℝ) 1 = [0, 1] := by
    unfold arange
    have : ⌈(3 / 2 : ℝ) / 1⌉₊ = 2 := by rw [Nat.ceil_eq_iff (by norm_num)]; norm_num
    rw [this]
    simp [List.range_succ]
  have hst : storedDepthsRT [3 / 2, 3 / 2] 1 [1, 2] = [0, 1, 3 / 2, 5 / 2] := by
    unfold storedDepthsRT
    have hsort : [1, 2].mergeSort (fun a b : ℕ => decide (a ≤ b)) = [1, 2] := by
      apply List.mergeSort_of_pairwise; simp
    rw [hsort]
    simp [har]
    norm_num
  refine ⟨hpos, ?_⟩
  rw [hpos, hst]
  have b1 : [(0 : ℝ), 1, 2].map (between 0 (3 / 2)) = [true, true, false] := by
    have h0 : between 0 (3 / 2) 0 = true := by rw [mask_between]; norm_num
    have h1 : between 0 (3 / 2) 1 = true := by rw [mask_between]; norm_num
    have h2 : between 0 (3 / 2) 2 = false := by rw [Bool.eq_false_iff, ne_eq, mask_between]; norm_num
    simp [h0, h1, h2]
  have b2 : [(0 : ℝ), 1, 2].map (between (3 / 2) 3) = [false, false, true] := by
    have h0 : between (3 / 2) 3 0 = false := by rw [Bool.eq_false_iff, ne_eq, mask_between]; norm_num
    have h1 : between (3 / 2) 3 1 = false := by rw [Bool.eq_false_iff, ne_eq, mask_between]; norm_num
    have h2 : between (3 / 2) 3 2 = true := by rw [mask_between]; norm_num
    simp [h0, h1, h2]
  have s1 : (layerStart [3 / 2, 3 / 2])[1]? = some 0 := by rw [layerStart_get _ 1 (le_refl _) (by simp)]; simp
  have s2 : (layerStart [3 / 2, 3 / 2])[2]? = some (3 / 2) := by rw [layerStart_get _ 2 (by norm_num) (by simp)]; simp
  have e1 : (layerEnd [3 / 2, 3 / 2])[1]? = some (3 / 2) := by rw [layerEnd_get _ 1 (by simp)]; simp
  have e2 : (layerEnd [3 / 2, 3 / 2])[2]? = some 3 := by rw [layerEnd_get _ 2 (by simp)]; norm_num
  unfold fillProfile
  simp only [List.foldlM_cons, List.foldlM_nil, fillStep, s1, s2, e1, e2, b1, b2, Option.bind_some]
  simp [assignMask, scatter]

/-- **C67 fails** also for ray-traced interfaces if the layers are not requested in increasing order: with layers `[2, 1]` of one sample each, the absorption of the two layers is exchanged. -/
theorem C67_rt_order_fails (A : ℝ → ℝ) : posGrid ([1, 1] : List ℝ).sum 1 = [0, 1] ∧
    fillProfile (posGrid ([1, 1] : List ℝ).sum 1) [1, 1] (some [2, 1]) ((storedDepthsRT [1, 1] 1 [2, 1]).map A) = some [10 ^ 9 * A 1, 10 ^ 9 * A 0] := by
  have hsum : ([1, 1] : List ℝ).sum = ((2 : ℕ) : ℝ) * 1 := by norm_num
  have hpos : posGrid ([1, 1] : List ℝ).sum 1 = [0, 1] := by
    rw [hsum, posGrid_nat 2 1 (by norm_num), arange_nat 2 1 one_pos]
    simp [List.range_succ]
  have har : arange (1 : ℝ) 1 = [0] := by
    unfold arange
    simp
  have hst : storedDepthsRT [1, 1] 1 [2, 1] = [0, 1] := by
    unfold storedDepthsRT
    have hsort : [2, 1].mergeSort (fun a b : ℕ => decide (a ≤ b)) = [1, 2] := by
      simp [List.mergeSort, List.MergeSort.Internal.splitInTwo, List.merge]
    rw [hsort]
    simp [har]
  refine ⟨hpos, ?_⟩
  rw [hpos, hst]
  have b1 : [(0 : ℝ), 1].map (between 0 1) = [true, false] := by
    have h0 : between 0 1 0 = true := by rw [mask_between]; norm_num
    have h1 : between 0 1 1 = false := by rw [Bool.eq_false_iff, ne_eq, mask_between]; norm_num
    simp [h0, h1]
  have b2 : [(0 : ℝ), 1].map (between 1 2) = [false, true] := by
    have h0 : between 1 2 0 = false := by rw [Bool.eq_false_iff, ne_eq, mask_between]; norm_num
    have h1 : between 1 2 1 = true := by rw [mask_between]; norm_num
    simp [h0, h1]
  have s1 : (layerStart [1, 1])[1]? = some 0 := by rw [layerStart_get _ 1 (le_refl _) (by simp)]; simp
  have s2 : (layerStart [1, 1])[2]? = some 1 := by rw [layerStart_get _ 2 (by norm_num) (by simp)]; simp
  have e1 : (layerEnd [1, 1])[1]? = some 1 := by rw [layerEnd_get _ 1 (by simp)]; simp
  have e2 : (layerEnd [1, 1])[2]? = some 2 := by rw [layerEnd_get _ 2 (by simp)]; norm_num
  unfold fillProfile
  simp only [List.foldlM_cons, List.foldlM_nil, fillStep, s1, s2, e1, e2, b1, b2, Option.bind_some]
  simp [assignMask, scatter]

/-! ## C99: the whole function for the matrix method -/

/-- **C99, what holds.** With a bulk profile the function succeeds and returns, for interfaces calculated with TMM or RCWA, the depth from the front surface in metres and the absorption there: front interface, bulk, rear
interface, in this order; 0 in an interface whose profile was not requested. -/
theorem C99_function_partial (s : Sandwich) (dInt dBulk : ℝ) (pf pb : List ℕ) (Af Ab : ℝ → ℝ) (bulk : List ℝ) (hpf : pf = s.frontProf.getD []) (hpb : pb = s.backProf.getD [])
    (hlf : ∀ l ∈ pf, 1 ≤ l ∧ l ≤ s.front.length) (hlb : ∀ l ∈ pb, 1 ≤ l ∧ l ≤ s.back.length) (wf wb : List ℝ) (hwf : wf = s.front.map fun w => w * 10 ^ 9) (hwb : wb = s.back.map fun w => w * 10 ^ 9)
    (hgf : posGrid wf.sum (dInt * 10 ^ 9) = arange wf.sum (dInt * 10 ^ 9)) (hgb : posGrid wb.sum (dInt * 10 ^ 9) = arange wb.sum (dInt * 10 ^ 9))
    (hbulk : bulk.length = (posGrid (s.bulk * 10 ^ 6) (dBulk * 10 ^ 6)).length) :
    ∃ df db, storedDepths wf (dInt * 10 ^ 9) pf = some df ∧ storedDepths wb (dInt * 10 ^ 9) pb = some db ∧
      absorptionMatrix s dInt dBulk true (df.map Af) bulk (db.map Ab) = some
        ((posGrid wf.sum (dInt * 10 ^ 9)).map (fun z => z / 10 ^ 9) ++ (posGrid (s.bulk * 10 ^ 6) (dBulk * 10 ^ 6)).map (fun z => s.front.sum + z / 10 ^ 6) ++
            (posGrid wb.sum (dInt * 10 ^ 9)).map (fun z => s.front.sum + s.bulk + z / 10 ^ 9),
          (posGrid wf.sum (dInt * 10 ^ 9)).map (expected wf pf Af) ++ bulk ++ (posGrid wb.sum (dInt * 10 ^ 9)).map (expected wb pb Ab)) := by
  subst hpf hpb
  obtain ⟨df, hdf, h1⟩ := C67_tmm wf (dInt * 10 ^ 9) s.frontProf Af (by subst hwf; simpa using hlf) hgf
  obtain ⟨db, hdb, h2⟩ := C67_tmm wb (dInt * 10 ^ 9) s.backProf Ab (by subst hwb; simpa using hlb) hgb
  refine ⟨df, db, hdf, hdb, ?_⟩
  unfold absorptionMatrix
  simp only [← hwf, ← hwb, h1, h2, Option.bind_some, Bool.true_eq_false, if_false]
  have hs : wf.sum / 10 ^ 9 = s.front.sum := by
    subst hwf
    have : ∀ l : List ℝ, (l.map fun w => w * 10 ^ 9).sum = l.sum * 10 ^ 9 := by
      intro l
      induction l with
      | nil => simp
      | cons a l ih => rw [List.map_cons, List.sum_cons, ih, List.sum_cons]; ring
    rw [this]
    simp
  rw [hs]
  congr 2
  · congr 1
    · congr 1
      apply List.map_congr_left
      intro z _
      ring
    · apply List.map_congr_left
      intro z _
      have : s.bulk * 10 ^ 6 / 10 ^ 6 = s.bulk := by field_simp
      rw [this]; ring
  · rw [List.take_of_length_le (by rw [hbulk])]

/-- The hypotheses can be met: a front layer of 2 nm, a bulk of 3 μm, a rear layer of 1 nm, sampled every nm and every μm. -/
example : ∃ s : Sandwich, [1] = s.frontProf.getD [] ∧ [1] = s.backProf.getD [] ∧ (∀ l ∈ [1], 1 ≤ l ∧ l ≤ s.front.length) ∧ (∀ l ∈ [1], 1 ≤ l ∧ l ≤ s.back.length) ∧
    posGrid (s.front.map fun w => w * 10 ^ 9).sum (1 / 10 ^ 9 * 10 ^ 9) = arange (s.front.map fun w => w * 10 ^ 9).sum (1 / 10 ^ 9 * 10 ^ 9) ∧
    posGrid (s.back.map fun w => w * 10 ^ 9).sum (1 / 10 ^ 9 * 10 ^ 9) = arange (s.back.map fun w => w * 10 ^ 9).sum (1 / 10 ^ 9 * 10 ^ 9) ∧
    ∃ bulk : List ℝ, bulk.length = (posGrid (s.bulk * 10 ^ 6) (1 / 10 ^ 6 * 10 ^ 6)).length := by
  refine ⟨⟨[2 / 10 ^ 9], some [1], 3 / 10 ^ 6, [1 / 10 ^ 9], some [1]⟩, rfl, rfl, by simp, by simp, ?_, ?_, ⟨posGrid (3 / 10 ^ 6 * 10 ^ 6) (1 / 10 ^ 6 * 10 ^ 6), rfl⟩⟩
  · have := posGrid_nat 2 (1 / 10 ^ 9 * 10 ^ 9) (by norm_num)
    have e : (List.map (fun w => w * 10 ^ 9) [2 / 10 ^ 9]).sum = ((2 : ℕ) : ℝ) * (1 / 10 ^ 9 * 10 ^ 9) := by norm_num
    rw [e]; exact this
  · have := posGrid_nat 1 (1 / 10 ^ 9 * 10 ^ 9) (by norm_num)
    have e : (List.map (fun w => w * 10 ^ 9) [1 / 10 ^ 9]).sum = ((1 : ℕ) : ℝ) * (1 / 10 ^ 9 * 10 ^ 9) := by norm_num
    rw [e]; exact this

/-- **C99 fails** without a bulk profile: the function then always raises an error, even if interface profiles were calculated. -/
theorem C99_function_fails (s : Sandwich) (dInt dBulk : ℝ) (f m b : List ℝ) : absorptionMatrix s dInt dBulk false f m b = none := by
  unfold absorptionMatrix
  simp only [if_true]
  cases fillProfile (posGrid (s.front.map fun w => w * 10 ^ 9).sum (dInt * 10 ^ 9)) (s.front.map fun w => w * 10 ^ 9) s.frontProf f with
  | none => rfl
  | some x =>
    rw [Option.bind_some]
    cases fillProfile (posGrid (s.back.map fun w => w * 10 ^ 9).sum (dInt * 10 ^ 9)) (s.back.map fun w => w * 10 ^ 9) s.backProf b <;> rfl

/-! ## C98: ray-traced stacks -/

theorem stack_grid (ms : List ℕ) (d : ℝ) (hd : 0 < d) :
    (arange ((ms.map fun m : ℕ => (m : ℝ) * d).sum * 10 ^ 6) (d * 10 ^ 6)).map (fun z => z / 10 ^ 6) = arange (((ms.sum : ℕ) : ℝ) * d) d := by
  have hsum : (ms.map fun m : ℕ => (m : ℝ) * d).sum = ((ms.sum : ℕ) : ℝ) * d := by
    have := sum_take_mul ms d ms.length
    rwa [List.take_of_length_le (by simp), List.take_of_length_le (le_refl _)] at this
  rw [hsum, show ((ms.sum : ℕ) : ℝ) * d * 10 ^ 6 = ((ms.sum : ℕ) : ℝ) * (d * 10 ^ 6) by ring, arange_nat _ _ (by positivity), arange_nat _ _ hd, List.map_map]
  apply List.map_congr_left
  intro k _
  simp only [Function.comp]
  field_simp

/-- **C98, what holds.** If all bulk widths are positive multiples of the depth spacing, the samples of bulk layer `i` are labelled with their distance from the top of that layer plus the position of its top, and get
the stored values of those depths. -/
theorem C98_bulk_depths_partial (ms : List ℕ) (d : ℝ) (hd : 0 < d) (A : ℝ → ℝ) (i : ℕ) (hi : i < ms.length) (hm : 0 < ms[i]) (top : ℝ) (widths : List ℝ) (hw : widths = ms.map fun m : ℕ => (m : ℝ) * d) :
    bulkSegment widths d (((arange (widths.sum * 10 ^ 6) (d * 10 ^ 6)).map fun z => z / 10 ^ 6).map A) (ms.take i).sum i top =
      some ((arange (widths.getD i 0) d).map (fun t => top + t), (arange (widths.getD i 0) d).map (fun t => 10 ^ 9 * A ((widths.take i).sum + t)), (ms.take (i + 1)).sum) := by
  subst hw
  have hlen : i + 1 ≤ (ms.map fun m : ℕ => (m : ℝ) * d).length := by simp; omega
  have hstep := take_sum_step ms (i + 1) (by omega) (by omega)
  rw [Nat.add_sub_cancel, List.getD_eq_getElem _ _ hi] at hstep
  have hw : (ms.map fun m : ℕ => (m : ℝ) * d).getD i 0 = (ms[i] : ℕ) * d := by
    rw [List.getD_eq_getElem _ _ (by simpa using hi), List.getElem_map]
  have hfil : (arange (((ms.sum : ℕ) : ℝ) * d) d).filter (between ((((ms.take i).sum : ℕ) : ℝ) * d) ((((ms.take (i + 1)).sum : ℕ) : ℝ) * d)) =
      (arange ((ms[i] : ℕ) * d) d).map fun z => z + (((ms.take i).sum : ℕ) : ℝ) * d := by
    rw [hstep]
    exact grid_layer _ _ _ d hd (by rw [← hstep]; exact take_sum_le ms (i + 1))
  have hlenf : (arange ((ms[i] : ℕ) * d : ℝ) d).length = ms[i] := by rw [arange_nat _ _ hd]; simp
  unfold bulkSegment
  rw [layerStart_get _ (i + 1) (by omega) hlen, layerEnd_get _ (i + 1) hlen, stack_grid ms d hd, sum_take_mul, Nat.add_sub_cancel, sum_take_mul, hw]
  simp only [Option.bind_some]
  rw [hfil]
  obtain ⟨k, hk⟩ : ∃ k, ms[i] = k + 1 := ⟨ms[i] - 1, by omega⟩
  have hval : ((((arange (((ms.sum : ℕ) : ℝ) * d) d).map A).drop (ms.take i).sum).take ms[i]).map (fun v => 10 ^ 9 * v) =
      (arange ((ms[i] : ℕ) * d : ℝ) d).map (fun t => 10 ^ 9 * A ((((ms.take i).sum : ℕ) : ℝ) * d + t)) := by
    rw [arange_nat _ _ hd, arange_nat _ _ hd, List.map_map, List.map_map, ← List.map_drop, ← List.map_take, List.map_map]
    have hr : ((List.range ms.sum).drop (ms.take i).sum).take ms[i] = (List.range ms[i]).map ((ms.take i).sum + ·) := by
      apply List.ext_getElem
      · simp
        have := take_sum_le ms (i + 1)
        omega
      · intro n h1 h2
        simp [List.getElem_take, List.getElem_drop]
    rw [hr, List.map_map]
    apply List.map_congr_left
    intro n _
    simp only [Function.comp]
    congr 2
    push_cast; ring
  have hne : (arange ((ms[i] : ℕ) * d : ℝ) d).map (fun z => z + (((ms.take i).sum : ℕ) : ℝ) * d) =
      ((((ms.take i).sum : ℕ) : ℝ) * d) :: ((List.range k).map fun n : ℕ => ((n + 1 : ℕ) : ℝ) * d + (((ms.take i).sum : ℕ) : ℝ) * d) := by
    rw [arange_nat _ _ hd, hk, List.range_succ_eq_map]
    simp [Function.comp_def]
  have hlen2 : ((arange ((ms[i] : ℕ) * d : ℝ) d).map (fun z => z + (((ms.take i).sum : ℕ) : ℝ) * d)).length = ms[i] := by rw [List.length_map, hlenf]
  have hpos : ((arange ((ms[i] : ℕ) * d : ℝ) d).map (fun z => z + (((ms.take i).sum : ℕ) : ℝ) * d)).map (fun z => z - (((ms.take i).sum : ℕ) : ℝ) * d + top) =
      (arange ((ms[i] : ℕ) * d : ℝ) d).map (fun t => top + t) := by
    rw [List.map_map]
    apply List.map_congr_left
    intro t _
    simp only [Function.comp]
    ring
  rw [hlen2]
  generalize hG : (arange ((ms[i] : ℕ) * d : ℝ) d).map (fun z => z + (((ms.take i).sum : ℕ) : ℝ) * d) = G at hne hpos ⊢
  subst hne
  simp only
  rw [hpos, hval, hstep, sum_take_mul]

example : ∃ ms : List ℕ, ∃ h : 1 < ms.length, 0 < ms[1] := ⟨[300, 200], by simp, by simp⟩

/-- **C98 fails** in general: two bulk layers of 1.5 m (units do not matter), sampled every 1 m. The only sample of the second layer lies at depth 2, half a unit below its top (depth 1.5), but is labelled as if it were at the top. -/
theorem C98_bulk_depths_fails (A : ℝ → ℝ) :
    bulkSegment [3 / 2, 3 / 2] 1 (([0, 1, 2] : List ℝ).map A) 2 1 (3 / 2) = some ([3 / 2], [10 ^ 9 * A 2], 3) := by
  have hgrid : (arange (([3 / 2, 3 / 2] : List ℝ).sum * 10 ^ 6) (1 * 10 ^ 6)).map (fun z => z / 10 ^ 6) = [0, 1, 2] := by
    have : ([3 / 2, 3 / 2] : List ℝ).sum * 10 ^ 6 = ((3 : ℕ) : ℝ) * (1 * 10 ^ 6) := by norm_num
    rw [this, arange_nat _ _ (by norm_num)]
    simp [List.range_succ]
  unfold bulkSegment
  have s2 : (layerStart [3 / 2, 3 / 2])[1 + 1]? = some (3 / 2) := by rw [layerStart_get _ 2 (by norm_num) (by simp)]; simp
  have e2 : (layerEnd [3 / 2, 3 / 2])[1 + 1]? = some 3 := by rw [layerEnd_get _ 2 (by simp)]; norm_num
  have b2 : [(0 : ℝ), 1, 2].filter (between (3 / 2) 3) = [2] := by
    have h0 : between (3 / 2) 3 0 = false := by rw [Bool.eq_false_iff, ne_eq, mask_between]; norm_num
    have h1 : between (3 / 2) 3 1 = false := by rw [Bool.eq_false_iff, ne_eq, mask_between]; norm_num
    have h2 : between (3 / 2) 3 2 = true := by rw [mask_between]; norm_num
    simp [h0, h1, h2]
  simp only [s2, e2, Option.bind_some, hgrid, b2]
  simp

end Rayflare
