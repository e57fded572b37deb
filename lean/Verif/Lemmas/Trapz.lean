import Verif.Np
import Verif.Lemmas.Np
import Mathlib.Tactic.Ring
import Mathlib.Tactic.Linarith
import Mathlib.Tactic.FieldSimp
import Mathlib.Tactic.Positivity

/-! # Helper lemmas about the trapezoidal rule -/

namespace Rayflare.Lemmas

open Rayflare.Np

variable {K : Type*} [Field K]

@[simp] theorem trapz_nil_left (x : List K) : trapz [] x = 0 := by unfold trapz; simp

@[simp] theorem trapz_single_left (a : K) (x : List K) : trapz [a] x = 0 := by unfold trapz; simp

theorem trapz_cons_cons (y0 y1 x0 x1 : K) (ys xs : List K) :
    trapz (y0 :: y1 :: ys) (x0 :: x1 :: xs)
      = (x1 - x0) * (y1 + y0) / 2 + trapz (y1 :: ys) (x1 :: xs) := by
  rw [trapz]

theorem trapz_smul (c : K) : ∀ y x : List K, trapz (y.map (fun t => c * t)) x = c * trapz y x
  | [], x => by simp
  | [_], x => by simp
  | y0 :: y1 :: ys, [] => by simp [trapz]
  | y0 :: y1 :: ys, [x0] => by simp [trapz]
  | y0 :: y1 :: ys, x0 :: x1 :: xs => by
    have := trapz_smul c (y1 :: ys) (x1 :: xs)
    simp only [List.map_cons] at this ⊢
    rw [trapz_cons_cons, trapz_cons_cons, this]; ring

theorem trapz_add : ∀ y z x : List K, y.length = z.length →
    trapz (List.zipWith (· + ·) y z) x = trapz y x + trapz z x
  | [], [], x, _ => by simp
  | [_], [_], x, _ => by simp
  | y0 :: y1 :: ys, z0 :: z1 :: zs, [], _ => by simp [trapz]
  | y0 :: y1 :: ys, z0 :: z1 :: zs, [x0], _ => by simp [trapz]
  | y0 :: y1 :: ys, z0 :: z1 :: zs, x0 :: x1 :: xs, h => by
    have := trapz_add (y1 :: ys) (z1 :: zs) (x1 :: xs) (by simpa using h)
    simp only [List.zipWith_cons_cons] at this ⊢
    rw [trapz_cons_cons, trapz_cons_cons, trapz_cons_cons, this]; ring
  | [], _ :: _, _, h => by simp at h
  | _ :: _, [], _, h => by simp at h
  | [_], _ :: _ :: _, _, h => by simp at h
  | _ :: _ :: _, [_], _, h => by simp at h

theorem trapz_replicate_zero (n : ℕ) (x : List K) : trapz (List.replicate n 0) x = 0 := by
  have := trapz_smul (0 : K) (List.replicate n 0) x
  simpa using this

theorem trapz_snoc : ∀ (y x : List K) (a b c d : K), y.length = x.length →
    trapz (y ++ [a, b]) (x ++ [c, d]) = trapz (y ++ [a]) (x ++ [c]) + (d - c) * (b + a) / 2
  | [], [], a, b, c, d, _ => by simp [trapz]
  | [y], [x], a, b, c, d, _ => by simp [trapz]
  | y0 :: y1 :: ys, x0 :: x1 :: xs, a, b, c, d, h => by
    have := trapz_snoc (y1 :: ys) (x1 :: xs) a b c d (by simpa using h)
    simp only [List.cons_append] at this ⊢
    rw [trapz_cons_cons, trapz_cons_cons, this]; ring
  | [], _ :: _, _, _, _, _, h => by simp at h
  | _ :: _, [], _, _, _, _, h => by simp at h
  | [_], _ :: _ :: _, _, _, _, _, h => by simp at h
  | _ :: _ :: _, [_], _, _, _, _, h => by simp at h

theorem trapz_reverse : ∀ y x : List K, y.length = x.length →
    trapz y.reverse x.reverse = - trapz y x
  | [], [], _ => by simp
  | [_], [_], _ => by simp
  | y0 :: y1 :: ys, x0 :: x1 :: xs, h => by
    have := trapz_reverse (y1 :: ys) (x1 :: xs) (by simpa using h)
    simp only [List.reverse_cons, List.append_assoc, List.cons_append, List.nil_append] at this ⊢
    rw [trapz_snoc _ _ _ _ _ _ (by simpa using h), trapz_cons_cons, this]; ring
  | [], _ :: _, h => by simp at h
  | _ :: _, [], h => by simp at h
  | [_], _ :: _ :: _, h => by simp at h
  | _ :: _ :: _, [_], h => by simp at h

theorem trapz_map_sub (c : K) : ∀ y x : List K, trapz y (x.map (fun t => c - t)) = - trapz y x
  | [], x => by simp
  | [_], x => by simp
  | y0 :: y1 :: ys, [] => by simp [trapz]
  | y0 :: y1 :: ys, [x0] => by simp [trapz]
  | y0 :: y1 :: ys, x0 :: x1 :: xs => by
    have := trapz_map_sub c (y1 :: ys) (x1 :: xs)
    simp only [List.map_cons] at this ⊢
    rw [trapz_cons_cons, trapz_cons_cons, this]; ring

/-- A grid that is its own mirror image: reversing the samples keeps the integral. -/
theorem trapz_flip {y x : List K} (c : K) (hx : x.reverse = x.map (fun t => c - t))
    (h : y.length = x.length) : trapz y.reverse x = trapz y x := by
  have h1 := trapz_reverse y.reverse x (by simpa using h)
  have h2 := trapz_map_sub c y x
  rw [List.reverse_reverse, hx, h2] at h1
  exact (neg_injective h1).symm

variable [LinearOrder K] [IsStrictOrderedRing K]

theorem trapz_nonneg : ∀ y x : List K, (∀ t ∈ y, 0 ≤ t) → x.Pairwise (· < ·) → 0 ≤ trapz y x
  | [], x, _, _ => by simp
  | [_], x, _, _ => by simp
  | y0 :: y1 :: ys, [], _, _ => by simp [trapz]
  | y0 :: y1 :: ys, [x0], _, _ => by simp [trapz]
  | y0 :: y1 :: ys, x0 :: x1 :: xs, hy, hx => by
    have := trapz_nonneg (y1 :: ys) (x1 :: xs) (fun t ht => hy t (List.mem_cons_of_mem _ ht))
      (List.pairwise_cons.mp hx).2
    have h1 : x0 < x1 := (List.pairwise_cons.mp hx).1 x1 (by simp)
    have h2 := hy y0 (by simp)
    have h3 := hy y1 (by simp)
    rw [trapz_cons_cons]
    have : 0 ≤ (x1 - x0) * (y1 + y0) / 2 := by
      have : 0 ≤ x1 - x0 := by linarith
      positivity
    linarith

/-- Non-negative samples with zero trapezoidal integral vanish (two or more samples). -/
theorem trapz_eq_zero : ∀ y x : List K, (∀ t ∈ y, 0 ≤ t) → x.Pairwise (· < ·) →
    y.length = x.length → 2 ≤ y.length → trapz y x = 0 → ∀ t ∈ y, t = 0
  | [], _, _, _, _, _, _ => by simp
  | [_], _, _, _, _, h, _ => by simp at h
  | y0 :: y1 :: ys, [], _, _, h, _, _ => by simp at h
  | y0 :: y1 :: ys, [x0], _, _, h, _, _ => by simp at h
  | y0 :: y1 :: ys, x0 :: x1 :: xs, hy, hx, hl, _, h0 => by
    have hy' : ∀ t ∈ y1 :: ys, 0 ≤ t := fun t ht => hy t (List.mem_cons_of_mem _ ht)
    have hx' := (List.pairwise_cons.mp hx).2
    have hn := trapz_nonneg (y1 :: ys) (x1 :: xs) hy' hx'
    have h1 : x0 < x1 := (List.pairwise_cons.mp hx).1 x1 (by simp)
    have h2 := hy y0 (by simp)
    have h3 := hy y1 (by simp)
    rw [trapz_cons_cons] at h0
    have hp : 0 < x1 - x0 := by linarith
    have hq : 0 ≤ (x1 - x0) * (y1 + y0) / 2 := by positivity
    have hq0 : (x1 - x0) * (y1 + y0) / 2 = 0 := by linarith
    have hs : y1 + y0 = 0 := by
      have : (x1 - x0) * (y1 + y0) = 0 := by linarith
      exact (mul_eq_zero.mp this).resolve_left hp.ne'
    have e0 : y0 = 0 := by linarith
    have e1 : y1 = 0 := by linarith
    have ht : trapz (y1 :: ys) (x1 :: xs) = 0 := by linarith
    rcases ys with _ | ⟨y2, ys⟩
    · intro t ht; simp at ht; rcases ht with rfl | rfl <;> assumption
    · have := trapz_eq_zero (y1 :: y2 :: ys) (x1 :: xs) hy' hx' (by simpa using hl) (by simp) ht
      intro t ht
      rcases List.mem_cons.mp ht with rfl | ht
      · exact e0
      · exact this t ht

theorem arange_pairwise [FloorRing K] (stop step : K) (hs : 0 < step) :
    (arange stop step).Pairwise (· < ·) := by
  unfold arange
  rw [List.pairwise_map]
  refine List.pairwise_lt_range.imp ?_
  intro a b h
  have : (a : K) < b := by exact_mod_cast h
  exact mul_lt_mul_of_pos_right this hs

omit [IsStrictOrderedRing K] in
theorem arange_reverse [FloorRing K] (stop step : K) :
    (arange stop step).reverse
      = (arange stop step).map (fun t => (((⌈stop / step⌉₊ - 1 : ℕ) : K) * step) - t) := by
  unfold arange
  apply List.ext_getElem
  · simp
  · intro i h1 h2
    simp only [List.length_reverse, List.length_map, List.length_range] at h1
    simp only [List.getElem_reverse, List.getElem_map, List.getElem_range, List.length_map, List.length_range]
    have : ((⌈stop / step⌉₊ - 1 - i : ℕ) : K) = ((⌈stop / step⌉₊ - 1 : ℕ) : K) - i := by
      rw [Nat.cast_sub (by omega)]
    rw [this]; ring

omit [IsStrictOrderedRing K] in
theorem arange_length [FloorRing K] (stop step : K) : (arange stop step).length = ⌈stop / step⌉₊ := by
  simp [arange]

end Rayflare.Lemmas
