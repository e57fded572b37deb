import Verif.Np
import Mathlib.Algebra.BigOperators.Group.Finset.Basic
import Mathlib.Algebra.BigOperators.Intervals
import Mathlib.Algebra.Order.BigOperators.Group.Finset
import Mathlib.Data.List.Range
import Mathlib.Tactic.Linarith
import Mathlib.Tactic.Ring
import Mathlib.Tactic.FieldSimp

/-! # Helper lemmas about the NumPy primitives -/

namespace Rayflare.Np

theorem countP_range_lt (m k : ℕ) :
    (List.range m).countP (fun j => decide (j < k)) = min k m := by
  induction m with
  | zero => simp
  | succ m ih =>
    rw [List.range_succ, List.countP_append, ih]
    by_cases h : m < k
    · simp [h]; omega
    · simp [h]; omega

section order
variable {K : Type*} [LinearOrder K]

theorem digitizeRight_range {f : ℕ → K} {m i : ℕ} {x : K}
    (hmono : ∀ a b, a < b → b ≤ m → f a < f b) (hi : i < m)
    (hlo : f i < x) (hhi : x ≤ f (i + 1)) :
    digitizeRight x ((List.range (m + 1)).map f) = i + 1 := by
  unfold digitizeRight
  rw [List.countP_map]
  have : (List.range (m + 1)).countP ((fun b => decide (b < x)) ∘ f)
      = (List.range (m + 1)).countP (fun j => decide (j < i + 1)) := by
    apply List.countP_congr
    intro j hj
    have hj' : j < m + 1 := List.mem_range.mp hj
    simp only [Function.comp, decide_eq_true_eq]
    constructor
    · intro h
      by_contra hc
      have : i + 1 ≤ j := by omega
      rcases Nat.lt_or_ge (i+1) j with h1 | h1
      · have := hmono (i+1) j h1 (by omega)
        exact absurd (lt_of_lt_of_le h hhi) (not_lt.mpr this.le)
      · have : j = i + 1 := by omega
        subst this
        exact absurd h (not_lt.mpr hhi)
    · intro h
      rcases Nat.lt_or_ge j i with h1 | h1
      · exact lt_trans (hmono j i h1 (by omega)) hlo
      · have : j = i := by omega
        subst this; exact hlo
  rw [this, countP_range_lt]; omega

theorem digitize_range {f : ℕ → K} {m i : ℕ} {x : K}
    (hmono : ∀ a b, a < b → b ≤ m → f a < f b) (hi : i < m)
    (hlo : f i ≤ x) (hhi : x < f (i + 1)) :
    digitize x ((List.range (m + 1)).map f) = i + 1 := by
  unfold digitize
  rw [List.countP_map]
  have : (List.range (m + 1)).countP ((fun b => decide (b ≤ x)) ∘ f)
      = (List.range (m + 1)).countP (fun j => decide (j < i + 1)) := by
    apply List.countP_congr
    intro j hj
    have hj' : j < m + 1 := List.mem_range.mp hj
    simp only [Function.comp, decide_eq_true_eq]
    constructor
    · intro h
      by_contra hc
      have : i + 1 ≤ j := by omega
      rcases Nat.lt_or_ge (i+1) j with h1 | h1
      · have := hmono (i+1) j h1 (by omega)
        exact absurd (lt_of_le_of_lt h hhi) (not_lt.mpr this.le)
      · have : j = i + 1 := by omega
        subst this
        exact absurd h (not_le.mpr hhi)
    · intro h
      rcases Nat.lt_or_ge j i with h1 | h1
      · exact le_trans (hmono j i h1 (by omega)).le hlo
      · have : j = i := by omega
        subst this; exact hlo
  rw [this, countP_range_lt]; omega

/-- below (or at) the first edge nothing is counted -/
theorem digitizeRight_range_zero {f : ℕ → K} {m : ℕ} {x : K}
    (hmono : ∀ a b, a < b → b ≤ m → f a < f b) (hx : x ≤ f 0) :
    digitizeRight x ((List.range (m + 1)).map f) = 0 := by
  unfold digitizeRight
  rw [List.countP_eq_zero]
  intro b hb
  rw [List.mem_map] at hb
  obtain ⟨j, hj, rfl⟩ := hb
  have hj' : j < m + 1 := List.mem_range.mp hj
  simp only [decide_eq_true_eq, not_lt]
  rcases Nat.eq_zero_or_pos j with h | h
  · subst h; exact hx
  · exact le_trans hx (hmono 0 j h (by omega)).le

theorem digitize_range_zero {f : ℕ → K} {m : ℕ} {x : K}
    (hmono : ∀ a b, a < b → b ≤ m → f a < f b) (hx : x < f 0) :
    digitize x ((List.range (m + 1)).map f) = 0 := by
  unfold digitize
  rw [List.countP_eq_zero]
  intro b hb
  rw [List.mem_map] at hb
  obtain ⟨j, hj, rfl⟩ := hb
  have hj' : j < m + 1 := List.mem_range.mp hj
  simp only [decide_eq_true_eq, not_le]
  rcases Nat.eq_zero_or_pos j with h | h
  · subst h; exact hx
  · exact lt_trans hx (hmono 0 j h (by omega))

/-- above (or at) the last edge everything is counted -/
theorem digitize_range_last {f : ℕ → K} {m : ℕ} {x : K}
    (hmono : ∀ a b, a < b → b ≤ m → f a < f b) (hx : f m ≤ x) :
    digitize x ((List.range (m + 1)).map f) = m + 1 := by
  unfold digitize
  have h : ((List.range (m + 1)).map f).countP (fun b => decide (b ≤ x))
      = ((List.range (m + 1)).map f).length := by
    rw [List.countP_eq_length]
    intro b hb
    rw [List.mem_map] at hb
    obtain ⟨j, hj, rfl⟩ := hb
    have hj' : j < m + 1 := List.mem_range.mp hj
    simp only [decide_eq_true_eq]
    rcases Nat.lt_or_ge j m with h | h
    · exact le_trans (hmono j m h le_rfl).le hx
    · have : j = m := by omega
      subst this; exact hx
  rw [h]; simp

theorem argmin_eq {l : List K} {k : ℕ} (hk : k < l.length)
    (hle : ∀ y ∈ l, l[k] ≤ y) (hlt : ∀ j (hj : j < k), l[k] < l[j]'(by omega)) :
    argmin l = k := by
  unfold argmin
  rw [List.findIdx_eq hk]
  constructor
  · simp only [List.all_eq_true, decide_eq_true_eq]; exact hle
  · intro j hj
    have h1 := hlt j hj
    rw [Bool.eq_false_iff]
    intro hc
    simp only [List.all_eq_true, decide_eq_true_eq] at hc
    exact absurd (hc _ (List.getElem_mem hk)) (not_le.mpr h1)

end order

/-! ### Blocks: a `flatMap` over a range -/

/-- first index of block `i` when block `j` has `N j` entries -/
def blockStart (N : ℕ → ℕ) (i : ℕ) : ℕ := ∑ j ∈ Finset.range i, N j

theorem blockStart_succ (N : ℕ → ℕ) (i : ℕ) : blockStart N (i + 1) = blockStart N i + N i := by
  simp [blockStart, Finset.sum_range_succ]

@[simp] theorem blockStart_zero (N : ℕ → ℕ) : blockStart N 0 = 0 := by simp [blockStart]

theorem blockStart_mono (N : ℕ → ℕ) {i j : ℕ} (h : i ≤ j) : blockStart N i ≤ blockStart N j := by
  unfold blockStart
  exact Finset.sum_le_sum_of_subset (Finset.range_mono h)

theorem length_blocks {α : Type*} (m : ℕ) (f : ℕ → List α) :
    ((List.range m).flatMap f).length = blockStart (fun i => (f i).length) m := by
  induction m with
  | zero => simp
  | succ m ih => rw [List.range_succ, List.flatMap_append, List.length_append, ih, blockStart_succ]; simp

theorem getElem?_blocks {α : Type*} (m : ℕ) (f : ℕ → List α) (i k : ℕ) (hi : i < m)
    (hk : k < (f i).length) :
    ((List.range m).flatMap f)[blockStart (fun i => (f i).length) i + k]? = some ((f i)[k]) := by
  induction m with
  | zero => omega
  | succ m ih =>
    rw [List.range_succ, List.flatMap_append]
    rcases Nat.lt_or_ge i m with h | h
    · rw [List.getElem?_append_left]
      · exact ih h
      · rw [length_blocks]
        have := blockStart_mono (fun i => (f i).length) (show i + 1 ≤ m from h)
        rw [blockStart_succ] at this
        omega
    · have : i = m := by omega
      subst this
      rw [List.getElem?_append_right (by rw [length_blocks]; omega), length_blocks]
      simp [hk]

/-- every index lies in exactly one block -/
theorem exists_block (N : ℕ → ℕ) (m r : ℕ) (hr : r < blockStart N m) :
    ∃ i k, i < m ∧ k < N i ∧ r = blockStart N i + k := by
  induction m with
  | zero => simp at hr
  | succ m ih =>
    rcases Nat.lt_or_ge r (blockStart N m) with h | h
    · obtain ⟨i, k, hi, hk, e⟩ := ih h
      exact ⟨i, k, by omega, hk, e⟩
    · rw [blockStart_succ] at hr
      exact ⟨m, r - blockStart N m, by omega, by omega, by omega⟩

theorem block_unique (N : ℕ → ℕ) {i k i' k' : ℕ} (hk : k < N i) (hk' : k' < N i')
    (h : blockStart N i + k = blockStart N i' + k') : i = i' ∧ k = k' := by
  rcases lt_trichotomy i i' with h1 | h1 | h1
  · have := blockStart_mono N (show i + 1 ≤ i' from h1)
    rw [blockStart_succ] at this; omega
  · subst h1; omega
  · have := blockStart_mono N (show i' + 1 ≤ i from h1)
    rw [blockStart_succ] at this; omega

section field
variable {K : Type*} [Field K] [LinearOrder K] [IsStrictOrderedRing K]

omit [LinearOrder K] [IsStrictOrderedRing K] in
@[simp] theorem length_linspace (a b : K) (m : ℕ) : (linspace a b m).length = m := by
  simp [linspace]

omit [LinearOrder K] [IsStrictOrderedRing K] in
theorem midpoints_range (f : ℕ → K) (m : ℕ) :
    midpoints ((List.range (m + 1)).map f) = (List.range m).map (fun i => (f i + f (i + 1)) / 2) := by
  unfold midpoints
  apply List.ext_getElem
  · simp
  · intro i h1 h2
    simp

end field

theorem sum_map_range {M : Type*} [AddCommMonoid M] (f : ℕ → M) (m : ℕ) :
    ((List.range m).map f).sum = ∑ r ∈ Finset.range m, f r := by
  induction m with
  | zero => simp
  | succ m ih => rw [List.range_succ, List.map_append, List.sum_append, ih, Finset.sum_range_succ]; simp

theorem unique_eq {K : Type*} [LinearOrder K] {l t : List K} (ht : t.Pairwise (· < ·))
    (h : ∀ x, x ∈ t ↔ x ∈ l) : unique l = t := by
  unfold unique
  have hs : (l.dedup.mergeSort (fun a b => decide (a ≤ b))).Pairwise (· ≤ ·) := by
    have := List.pairwise_mergeSort (le := fun a b : K => decide (a ≤ b))
      (fun a b c h1 h2 => by simp only [decide_eq_true_eq] at *; exact le_trans h1 h2)
      (fun a b => by simpa using le_total a b) l.dedup
    simpa using this
  have hp : (l.dedup.mergeSort (fun a b => decide (a ≤ b))).Perm t := by
    refine (List.mergeSort_perm _ _).trans ?_
    rw [List.perm_ext_iff_of_nodup (List.nodup_dedup l) (ht.imp (fun h => ne_of_lt h))]
    intro a; rw [List.mem_dedup, h]
  exact List.Perm.eq_of_pairwise (fun a b _ _ h1 h2 => le_antisymm h1 h2) hs
    (ht.imp (fun h => h.le)) hp

theorem pyGet_ofNat {α : Type*} (l : List α) (i : ℕ) : pyGet l (i : ℤ) = l[i]? := by
  simp [pyGet]

end Rayflare.Np
