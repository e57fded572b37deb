import Verif.Model.Absorption
import Mathlib.Data.List.GetD
import Mathlib.Tactic.Linarith
import Mathlib.Tactic.FieldSimp
import Mathlib.Tactic.Ring
import Mathlib.Tactic.NormNum

/-!
# Helper lemmas about `make_absorption_function`
-/

namespace Rayflare.Lemmas

open Rayflare.Np Rayflare.Model

theorem cumsum_get (l : List ℝ) (i : ℕ) (h : i < l.length) : (cumsum l)[i]? = some (l.take (i + 1)).sum := by
  unfold cumsum
  simp [List.getElem?_map, List.getElem?_range h]

theorem layerStart_get (w : List ℝ) (l : ℕ) (h1 : 1 ≤ l) (h2 : l ≤ w.length) : (layerStart w)[l]? = some (w.take (l - 1)).sum := by
  obtain ⟨k, rfl⟩ : ∃ k, l = k + 1 := ⟨l - 1, by omega⟩
  unfold layerStart
  rw [List.getElem?_cons_succ, cumsum_get _ _ (by simp; omega)]
  simp

theorem layerEnd_get (w : List ℝ) (l : ℕ) (h2 : l ≤ w.length) : (layerEnd w)[l]? = some (w.take l).sum := by
  unfold layerEnd
  rw [cumsum_get _ _ (by simp; omega)]
  simp

theorem count_map (m : ℝ → Bool) (pos : List ℝ) : (pos.map m).count true = (pos.filter m).length := by
  induction pos with
  | nil => rfl
  | cons a pos ih =>
    rw [List.map_cons, List.count_cons, ih, List.filter_cons]
    cases m a <;> simp

theorem scatter_map (m : ℝ → Bool) (f g : ℝ → ℝ) (pos : List ℝ) :
    scatter (pos.map g) (pos.map m) ((pos.filter m).map f) = pos.map fun z => if m z then f z else g z := by
  induction pos with
  | nil => rfl
  | cons a pos ih =>
    rw [List.map_cons, List.map_cons, List.map_cons, List.filter_cons]
    cases h : m a
    · simp only [Bool.false_eq_true, if_false, scatter]
      rw [ih]
    · simp only [if_true, List.map_cons, scatter]
      rw [ih]

/-- The loop, from any state. -/
theorem fill_loop (pos w : List ℝ) (A : ℝ → ℝ) (stored : List ℝ) : ∀ (prof : List ℕ) (g : ℝ → ℝ) (off : ℕ) (rest : List ℝ), (∀ l ∈ prof, 1 ≤ l ∧ l ≤ w.length) →
    stored.drop off = (prof.flatMap fun l => (pos.filter (between (w.take (l - 1)).sum (w.take l).sum)).map A) ++ rest →
    ∃ off', prof.foldlM (fillStep pos w stored) (pos.map g, off) =
      some (pos.map (fun z => if prof.any (fun l => between (w.take (l - 1)).sum (w.take l).sum z) then 10 ^ 9 * A z else g z), off') := by
  intro prof
  induction prof with
  | nil => intro g off rest _ _; exact ⟨off, by simp⟩
  | cons l prof ih =>
    intro g off rest hl hst
    obtain ⟨h1, h2⟩ := hl l (by simp)
    set m := between (w.take (l - 1)).sum (w.take l).sum with hm
    have hstep : fillStep pos w stored (pos.map g, off) l = some (pos.map (fun z => if m z then 10 ^ 9 * A z else g z), off + (pos.filter m).length) := by
      unfold fillStep
      rw [layerStart_get w l h1 h2, layerEnd_get w l h2]
      simp only [Option.bind_some]
      rw [← hm, count_map, hst, List.flatMap_cons, ← hm, List.append_assoc]
      rw [List.take_left' (by simp), List.map_map]
      unfold assignMask
      rw [if_pos (by rw [count_map]; simp)]
      rw [show ((fun v => 10 ^ 9 * v) ∘ A) = fun z => 10 ^ 9 * A z from rfl, scatter_map]
      rfl
    rw [List.foldlM_cons, hstep]
    have hdrop : stored.drop (off + (pos.filter m).length) = (prof.flatMap fun l => (pos.filter (between (w.take (l - 1)).sum (w.take l).sum)).map A) ++ rest := by
      rw [← List.drop_drop, hst, List.flatMap_cons, ← hm, List.append_assoc, List.drop_left' (by simp)]
    obtain ⟨off', h⟩ := ih (fun z => if m z then 10 ^ 9 * A z else g z) _ rest (fun x hx => hl x (by simp [hx])) hdrop
    refine ⟨off', ?_⟩
    simp only [Option.bind_eq_bind, Option.bind_some]
    rw [h]
    congr 2
    apply List.map_congr_left
    intro z _
    rw [List.any_cons, ← hm]
    cases m z <;> cases prof.any (fun l => between (w.take (l - 1)).sum (w.take l).sum z) <;> simp

theorem mapM_eq_some {α β : Type} (f : α → Option β) (g : α → β) (l : List α) (h : ∀ a ∈ l, f a = some (g a)) : l.mapM f = some (l.map g) := by
  induction l with
  | nil => rfl
  | cons a l ih =>
    rw [List.mapM_cons, h a (by simp), ih fun b hb => h b (by simp [hb])]
    rfl

theorem storedDepths_eq (w : List ℝ) (d : ℝ) (prof : List ℕ) (hl : ∀ l ∈ prof, 1 ≤ l ∧ l ≤ w.length) :
    storedDepths w d prof = some (prof.flatMap fun l => (arange w.sum d).filter (between (w.take (l - 1)).sum (w.take l).sum)) := by
  unfold storedDepths
  rw [mapM_eq_some _ (fun l => (arange w.sum d).filter (between (w.take (l - 1)).sum (w.take l).sum))]
  · rw [Option.map_some, ← List.flatMap_def]
  · intro l hl'
    obtain ⟨h1, h2⟩ := hl l hl'
    rw [layerStart_get w l h1 h2, layerEnd_get w l h2]
    rfl

theorem range_filter (M P m : ℕ) (h : P + m ≤ M) : ((List.range M).filter fun k => decide (P ≤ k) && decide (k < P + m)) = (List.range m).map (P + ·) := by
  obtain ⟨r, rfl⟩ : ∃ r, M = P + m + r := ⟨M - (P + m), by omega⟩
  rw [List.range_add, List.range_add, List.filter_append, List.filter_append]
  have e1 : (List.range P).filter (fun k => decide (P ≤ k) && decide (k < P + m)) = [] := by
    rw [List.filter_eq_nil_iff]
    intro a ha
    have := List.mem_range.mp ha
    simp; omega
  have e2 : ((List.range m).map (P + ·)).filter (fun k => decide (P ≤ k) && decide (k < P + m)) = (List.range m).map (P + ·) := by
    rw [List.filter_eq_self]
    intro a ha
    obtain ⟨b, hb, rfl⟩ := List.mem_map.mp ha
    have := List.mem_range.mp hb
    simp; omega
  have e3 : ((List.range r).map (P + m + ·)).filter (fun k => decide (P ≤ k) && decide (k < P + m)) = [] := by
    rw [List.filter_eq_nil_iff]
    intro a ha
    obtain ⟨b, hb, rfl⟩ := List.mem_map.mp ha
    simp
  rw [e1, e2, e3]
  simp

theorem arange_nat (M : ℕ) (d : ℝ) (hd : 0 < d) : arange ((M : ℝ) * d) d = (List.range M).map fun k : ℕ => (k : ℝ) * d := by
  unfold arange
  rw [mul_div_assoc, div_self hd.ne', mul_one, Nat.ceil_natCast]

/-- If all widths are multiples of the spacing, the part of the global grid in a layer is the layer's own grid. -/
theorem grid_layer (M P m : ℕ) (d : ℝ) (hd : 0 < d) (h : P + m ≤ M) :
    (arange ((M : ℝ) * d) d).filter (between ((P : ℝ) * d) (((P + m : ℕ) : ℝ) * d)) = (arange ((m : ℝ) * d) d).map fun z => z + (P : ℝ) * d := by
  rw [arange_nat M d hd, arange_nat m d hd, List.filter_map, List.map_map]
  have : (between ((P : ℝ) * d) (((P + m : ℕ) : ℝ) * d) ∘ fun k : ℕ => (k : ℝ) * d) = fun k => decide (P ≤ k) && decide (k < P + m) := by
    funext k
    unfold between
    simp only [Function.comp]
    congr 1
    · rw [decide_eq_decide, mul_le_mul_iff_left₀ hd]; exact Nat.cast_le
    · rw [decide_eq_decide, mul_lt_mul_iff_left₀ hd]; exact Nat.cast_lt
  rw [this, range_filter M P m h, List.map_map]
  apply List.map_congr_left
  intro k _
  simp only [Function.comp]
  push_cast
  ring

theorem sum_take_mul (ms : List ℕ) (d : ℝ) (k : ℕ) : ((ms.map fun m : ℕ => (m : ℝ) * d).take k).sum = (((ms.take k).sum : ℕ) : ℝ) * d := by
  rw [← List.map_take]
  generalize ms.take k = l
  induction l with
  | nil => simp
  | cons a l ih => rw [List.map_cons, List.sum_cons, ih, List.sum_cons]; push_cast; ring

theorem take_sum_le (ms : List ℕ) (k : ℕ) : (ms.take k).sum ≤ ms.sum := by
  conv_rhs => rw [← List.take_append_drop k ms, List.sum_append]
  omega

theorem take_sum_step (ms : List ℕ) (l : ℕ) (h1 : 1 ≤ l) (h2 : l ≤ ms.length) : (ms.take l).sum = (ms.take (l - 1)).sum + ms.getD (l - 1) 0 := by
  obtain ⟨k, rfl⟩ : ∃ k, l = k + 1 := ⟨l - 1, by omega⟩
  have hk : k < ms.length := by omega
  rw [Nat.add_sub_cancel, List.take_add_one, List.sum_append, List.getElem?_eq_getElem hk, List.getD_eq_getElem _ _ hk]
  simp

theorem storedDepthsRT_eq (ms : List ℕ) (d : ℝ) (hd : 0 < d) (prof : List ℕ) (hl : ∀ l ∈ prof, 1 ≤ l ∧ l ≤ ms.length) (hs : prof.Pairwise (· < ·)) :
    storedDepthsRT (ms.map fun m : ℕ => (m : ℝ) * d) d prof =
      prof.flatMap fun l => (arange (ms.map fun m : ℕ => (m : ℝ) * d).sum d).filter
        (between ((ms.map fun m : ℕ => (m : ℝ) * d).take (l - 1)).sum ((ms.map fun m : ℕ => (m : ℝ) * d).take l).sum) := by
  unfold storedDepthsRT
  have hsort : prof.mergeSort (fun a b => decide (a ≤ b)) = prof := by
    apply List.mergeSort_of_pairwise
    exact hs.imp fun h => decide_eq_true (le_of_lt h)
  rw [hsort]
  apply List.flatMap_congr
  intro l hl'
  obtain ⟨h1, h2⟩ := hl l hl'
  have hsum : (ms.map fun m : ℕ => (m : ℝ) * d).sum = ((ms.sum : ℕ) : ℝ) * d := by
    have := sum_take_mul ms d ms.length
    rwa [List.take_of_length_le (by simp), List.take_of_length_le (le_refl _)] at this
  have hw : (ms.map fun m : ℕ => (m : ℝ) * d).getD (l - 1) 0 = (ms.getD (l - 1) 0 : ℕ) * d := by
    have hk : l - 1 < ms.length := by omega
    rw [List.getD_eq_getElem _ _ (by simpa using hk), List.getD_eq_getElem _ _ hk, List.getElem_map]
  rw [hsum, hw, sum_take_mul, sum_take_mul, take_sum_step ms l h1 h2, grid_layer _ _ _ d hd]
  rw [← take_sum_step ms l h1 h2]
  exact take_sum_le ms l

end Rayflare.Lemmas
