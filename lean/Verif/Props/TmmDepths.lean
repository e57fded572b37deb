import Verif.Model.TmmDepths
import Verif.Lemmas.Absorption
import Verif.Lemmas.Trapz
import Mathlib.Tactic.Linarith
import Mathlib.Tactic.NormNum
import Mathlib.Algebra.Order.BigOperators.Group.List

/-!
# Properties C109, C110: depths of TMM profiles
-/

namespace Rayflare

open Rayflare.Np Rayflare.Model Rayflare.Lemmas

/-- Layer `l` (from 1) of a stack lies between these depths. -/
noncomputable def Spec.top (widths : List ℝ) (l : ℕ) : ℝ := (widths.take (l - 1)).sum
noncomputable def Spec.bottom (widths : List ℝ) (l : ℕ) : ℝ := (widths.take l).sum

open Classical in
/-- The multiples of `d` in layer `l`, counted from the top of the stack, in increasing order. -/
noncomputable def Spec.samples (widths : List ℝ) (d : ℝ) (l : ℕ) : List ℝ :=
  ((List.range ⌈widths.sum / d⌉₊).map fun i : ℕ => (i : ℝ) * d).filter fun z => decide (Spec.top widths l ≤ z ∧ z < Spec.bottom widths l)

theorem samples_eq (widths : List ℝ) (d : ℝ) (l : ℕ) : Spec.samples widths d l = (arange widths.sum d).filter (between (widths.take (l - 1)).sum (widths.take l).sum) := by
  unfold Spec.samples arange between Spec.top Spec.bottom
  congr 1
  funext z
  simp

/-- **C109.** The profile is sampled layer by layer in the order asked for, at all multiples of the depth spacing that lie in the layer. -/
theorem C109_positions (widths : List ℝ) (d : ℝ) (layers : List ℕ) (h : ∀ l ∈ layers, 1 ≤ l ∧ l ≤ widths.length) :
    calcDist widths d (some layers) = some (layers.flatMap (Spec.samples widths d)) := by
  unfold calcDist profileLayers
  rw [Option.getD_some, storedDepths_eq widths d layers h]
  congr 1
  apply List.flatMap_congr
  intro l _
  exact (samples_eq widths d l).symm

/-- Nothing is missed: a multiple of the spacing inside a layer is among its samples. -/
theorem C109_complete (widths : List ℝ) (hw : ∀ w ∈ widths, 0 ≤ w) (d : ℝ) (hd : 0 < d) (l k : ℕ) :
    ((k : ℝ) * d ∈ Spec.samples widths d l) ↔ (Spec.top widths l ≤ k * d ∧ k * d < Spec.bottom widths l) := by
  unfold Spec.samples
  simp only [List.mem_filter, decide_eq_true_eq]
  constructor
  · exact fun h => h.2
  · intro h
    refine ⟨List.mem_map.mpr ⟨k, ?_, rfl⟩, h⟩
    rw [List.mem_range, Nat.lt_ceil, lt_div_iff₀ hd]
    have : Spec.bottom widths l ≤ widths.sum := by
      unfold Spec.bottom
      conv_rhs => rw [← List.take_append_drop l widths, List.sum_append]
      have : 0 ≤ (widths.drop l).sum := List.sum_nonneg fun x hx => hw x (List.mem_of_mem_drop hx)
      linarith
    linarith [h.2]

theorem filter_split (L : List ℝ) (hL : L.Pairwise (· < ·)) (a b c : ℝ) (hab : a ≤ b) (hbc : b ≤ c) :
    L.filter (between a b) ++ L.filter (between b c) = L.filter (between a c) := by
  induction L with
  | nil => rfl
  | cons x L ih =>
    rw [List.pairwise_cons] at hL
    have ih := ih hL.2
    by_cases h1 : a ≤ x ∧ x < b
    · have e1 : between a b x = true := by simp [between, h1.1, h1.2]
      have e2 : between b c x = false := by simp [between]; intro h; linarith [h1.2]
      have e3 : between a c x = true := by simp [between]; exact ⟨h1.1, by linarith [h1.2]⟩
      rw [List.filter_cons_of_pos e1, List.filter_cons_of_neg (by simp [e2]), List.filter_cons_of_pos e3, List.cons_append, ih]
    · by_cases h2 : b ≤ x ∧ x < c
      · have e1 : between a b x = false := by simp [between]; intro h; exact h2.1
        have e2 : between b c x = true := by simp [between, h2.1, h2.2]
        have e3 : between a c x = true := by simp [between]; exact ⟨by linarith [h2.1], h2.2⟩
        have hnil : L.filter (between a b) = [] := by
          rw [List.filter_eq_nil_iff]
          intro y hy
          have := hL.1 y hy
          simp [between]
          intro _; linarith [h2.1]
        rw [List.filter_cons_of_neg (by simp [e1]), List.filter_cons_of_pos e2, List.filter_cons_of_pos e3, ← ih, hnil]
        rfl
      · have e1 : between a b x = false := by simp [between]; intro h; by_contra h'; exact h1 ⟨h, lt_of_not_ge h'⟩
        have e2 : between b c x = false := by simp [between]; intro h; by_contra h'; exact h2 ⟨h, lt_of_not_ge h'⟩
        have e3 : between a c x = false := by
          simp [between]; intro h; by_contra h'
          rcases lt_or_ge x b with hb | hb
          · exact h1 ⟨h, hb⟩
          · exact h2 ⟨hb, lt_of_not_ge h'⟩
        rw [List.filter_cons_of_neg (by simp [e1]), List.filter_cons_of_neg (by simp [e2]), List.filter_cons_of_neg (by simp [e3]), ih]

theorem take_sum_mono (w : List ℝ) (hw : ∀ x ∈ w, 0 ≤ x) (k : ℕ) : 0 ≤ (w.take k).sum ∧ (w.take k).sum ≤ (w.take (k + 1)).sum := by
  refine ⟨List.sum_nonneg fun x hx => hw x (List.mem_of_mem_take hx), ?_⟩
  rw [List.take_add_one, List.sum_append]
  have : 0 ≤ (w[k]?.toList).sum := List.sum_nonneg fun x hx => by
    rw [Option.mem_toList] at hx
    exact hw x (List.mem_of_getElem? hx)
  linarith

/-- **C109.** Without a list of layers the profile is sampled at all multiples of the spacing in the whole stack, in increasing order, each once. -/
theorem C109_default (widths : List ℝ) (hw : ∀ w ∈ widths, 0 ≤ w) (d : ℝ) (hd : 0 < d) :
    calcDist widths d none = some ((List.range ⌈widths.sum / d⌉₊).map fun i : ℕ => (i : ℝ) * d) := by
  have hall : ∀ l ∈ (List.range widths.length).map (· + 1), 1 ≤ l ∧ l ≤ widths.length := by
    intro l hl
    obtain ⟨k, hk, rfl⟩ := List.mem_map.mp hl
    have := List.mem_range.mp hk
    omega
  unfold calcDist profileLayers
  rw [Option.getD_none, storedDepths_eq widths d _ hall]
  congr 1
  have key : ∀ n, (((List.range n).map (· + 1)).flatMap fun l => (arange widths.sum d).filter (between (widths.take (l - 1)).sum (widths.take l).sum)) =
      (arange widths.sum d).filter (between 0 (widths.take n).sum) := by
    intro n
    induction n with
    | zero =>
      symm
      simp only [List.range_zero, List.map_nil, List.flatMap_nil, List.take_zero, List.sum_nil]
      rw [List.filter_eq_nil_iff]
      intro y _
      simp [between]
    | succ n ih =>
      rw [List.range_succ, List.map_append, List.flatMap_append, ih]
      simp only [List.map_cons, List.map_nil, List.flatMap_cons, List.flatMap_nil, List.append_nil, Nat.add_sub_cancel]
      exact filter_split _ (arange_pairwise _ _ hd) _ _ _ (take_sum_mono widths hw n).1 (take_sum_mono widths hw n).2
  rw [key, List.take_length]
  show _ = arange widths.sum d
  rw [List.filter_eq_self]
  intro z hz
  unfold arange at hz
  obtain ⟨i, hi, rfl⟩ := List.mem_map.mp hz
  rw [List.mem_range, Nat.lt_ceil, lt_div_iff₀ hd] at hi
  simp [between, hi]
  positivity

/-- **C109.** The incidence medium (layer 0) has no samples; the transmission medium is not accepted. -/
theorem C109_media (widths : List ℝ) (d : ℝ) (layers : List ℕ) :
    calcDist widths d (some [0]) = some [] ∧ (widths.length + 1 ∈ layers → calcDist widths d (some layers) = none) := by
  constructor
  · unfold calcDist profileLayers storedDepths
    simp [layerStart, layerEnd, cumsum, between, List.range_succ_eq_map]
  · intro h
    unfold calcDist profileLayers storedDepths
    rw [Option.getD_some]
    have : (layers.mapM fun l => (layerStart widths)[l]?.bind fun a => (layerEnd widths)[l]?.map fun b => (arange widths.sum d).filter (between a b)) = none := by
      induction layers with
      | nil => simp at h
      | cons l ls ih =>
        rw [List.mapM_cons]
        rcases List.mem_cons.mp h with h | h
        · subst h
          have : (layerEnd widths)[widths.length + 1]? = none := by
            apply List.getElem?_eq_none
            simp [layerEnd, cumsum]
          simp [this]
        · rw [ih h]
          cases ((layerStart widths)[l]?.bind fun a => (layerEnd widths)[l]?.map fun b => (arange widths.sum d).filter (between a b)) <;> rfl
    rw [this]
    rfl

/-- A stack of three layers sampled in the third and then the first. -/
example : calcDist [2, 1, 3] 1 (some [3, 1]) = some ([3, 1].flatMap (Spec.samples [2, 1, 3] 1)) ∧ (4 : ℕ) * (1 : ℝ) ∈ Spec.samples [2, 1, 3] 1 3 ∧ calcDist [2, 1, 3] 1 (some [4]) = none :=
  ⟨C109_positions _ _ _ (by simp), (C109_complete _ (by simp) _ one_pos 3 4).mpr (by norm_num [Spec.top, Spec.bottom]), (C109_media [2, 1, 3] 1 [4]).2 (by simp)⟩

/-! ## C110: profiles for rear incidence -/

theorem locate_inside (first : Bool) : ∀ (widths : List ℝ) (hw : ∀ w ∈ widths, 0 ≤ w) (l : ℕ) (_ : 1 ≤ l) (_ : l ≤ widths.length) (z : ℝ),
    (widths.take (l - 1)).sum < z → z < (widths.take l).sum → locate first widths z = (l, z - (widths.take (l - 1)).sum) := by
  intro widths
  induction widths with
  | nil => intro _ l h1 h2; simp at h2; omega
  | cons w ws ih =>
    intro hw l h1 h2 z ha hb
    obtain ⟨k, rfl⟩ : ∃ k, l = k + 1 := ⟨l - 1, by omega⟩
    rw [Nat.add_sub_cancel] at *
    unfold locate
    rcases Nat.eq_zero_or_pos k with rfl | hk
    · simp only [List.take_zero, List.sum_nil, zero_add, List.take_succ_cons, List.take_zero, List.sum_cons, add_zero, List.sum_nil] at *
      rw [if_pos (Or.inl hb)]
      simp
    · obtain ⟨j, rfl⟩ : ∃ j, k = j + 1 := ⟨k - 1, by omega⟩
      rw [List.take_succ_cons, List.sum_cons] at ha hb
      have hge : 0 ≤ (ws.take j).sum := List.sum_nonneg fun x hx => hw x (List.mem_cons_of_mem _ (List.mem_of_mem_take hx))
      rw [if_neg (by rintro (h | ⟨_, h⟩) <;> linarith)]
      have := ih (fun x hx => hw x (List.mem_cons_of_mem _ hx)) (j + 1) (by omega) (by simp at h2; omega) (z - w) (by rw [Nat.add_sub_cancel]; linarith) (by linarith)
      rw [this]
      simp only [List.take_succ_cons, List.sum_cons, Nat.add_sub_cancel]
      congr 1
      ring

/-- In the reversed stack layer `l` has number `n + 1 - l`. -/
theorem take_reverse_sum (w : List ℝ) (k : ℕ) (hk : k ≤ w.length) : (w.reverse.take k).sum = w.sum - (w.take (w.length - k)).sum := by
  rw [List.take_reverse, List.sum_reverse]
  have := List.sum_append (l₁ := w.take (w.length - k)) (l₂ := w.drop (w.length - k))
  rw [List.take_append_drop] at this
  linarith

/-- **C110 (partial).** At every stored depth strictly inside a layer the stored profile is the absorption in that layer at that depth: for front incidence the distance from the top of the layer, for rear incidence
(layers numbered from the rear) the distance from its bottom; for any convention of the solver about boundaries. Missing: samples exactly on a layer boundary, where it is false (`C110_boundary_fails`). -/
theorem C110_inside_partial (first : Bool) (A : ℕ → ℝ → ℝ) (widths : List ℝ) (hw : ∀ w ∈ widths, 0 ≤ w) (dist : List ℝ) (i : ℕ) (z : ℝ) (hz : dist[i]? = some z)
    (l : ℕ) (h1 : 1 ≤ l) (h2 : l ≤ widths.length) (ha : Spec.top widths l < z) (hb : z < Spec.bottom widths l) :
    (frontProfile first A widths dist)[i]? = some (A l (z - Spec.top widths l)) ∧
    (rearProfile first A widths dist)[i]? = some (A (widths.length + 1 - l) (Spec.bottom widths l - z)) := by
  unfold Spec.top at *
  unfold Spec.bottom at *
  constructor
  · unfold frontProfile
    rw [List.getElem?_map, hz, Option.map_some, locate_inside first widths hw l h1 h2 z ha hb]
  · unfold rearProfile rearDist
    rw [← List.map_reverse, List.reverse_reverse, List.map_map, List.getElem?_map, hz, Option.map_some]
    have hr := locate_inside first widths.reverse (fun x hx => hw x (List.mem_reverse.mp hx)) (widths.length + 1 - l) (by omega) (by simp; omega) (widths.sum - z)
      (by rw [take_reverse_sum _ _ (by omega), show widths.length - (widths.length + 1 - l - 1) = l by omega]; linarith)
      (by rw [take_reverse_sum _ _ (by omega), show widths.length - (widths.length + 1 - l) = l - 1 by omega]; linarith)
    simp only [Function.comp]
    rw [hr, take_reverse_sum _ _ (by omega), show widths.length - (widths.length + 1 - l - 1) = l by omega]
    congr 2
    ring

example : (rearProfile true (fun l x => l * 10 + x) [2, 3] [1, 4])[1]? = some (1 * 10 + 1) := by
  have := (C110_inside_partial true (fun l x => l * 10 + x) [2, 3] (by simp) [1, 4] 1 4 rfl 2 (by simp) (by simp) (by norm_num [Spec.top]) (by norm_num [Spec.bottom])).2
  rw [this]
  norm_num [Spec.bottom]

/-- **C110 fails** on layer boundaries, whatever convention the solver uses: for one of the two directions of incidence the value stored for the top of a requested layer is taken from the neighbouring layer. Two layers of
2 nm, spacing 1 nm, both requested; `A` is the number of the layer from the front (in the reversed stack: `3 - number`). -/
theorem C110_boundary_fails :
    calcDist [2, 2] 1 (some [1, 2]) = some [0, 1, 2, 3] ∧
    (frontProfile true (fun l _ => l) [2, 2] [0, 1, 2, 3] = [1, 1, 1, 2]) ∧
    (rearProfile false (fun l _ => 3 - l) [2, 2] [0, 1, 2, 3] = [0, 1, 1, 2]) := by
  refine ⟨?_, ?_, ?_⟩
  · have hc : ⌈(2 + 2 : ℝ) / 1⌉₊ = 4 := by norm_num
    rw [C109_positions _ _ _ (by simp)]
    simp only [List.flatMap_cons, List.flatMap_nil, List.append_nil, Spec.samples, Spec.top, Spec.bottom]
    simp only [List.sum_cons, List.sum_nil, add_zero, hc]
    simp only [List.range_succ, List.range_zero, List.nil_append, List.cons_append, List.map_cons, List.map_nil, List.filter_cons, List.filter_nil]
    norm_num
  · norm_num [frontProfile, locate]
  · norm_num [rearProfile, rearDist, locate]

end Rayflare
