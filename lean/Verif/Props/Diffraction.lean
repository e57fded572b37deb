import Verif.Model.Diffraction
import Verif.Lemmas.Np
import Mathlib.Tactic.FieldSimp
import Mathlib.Tactic.Ring
import Mathlib.Tactic.Linarith
import Mathlib.Algebra.BigOperators.Ring.Finset

/-!
# Properties C59, C60: grouping of diffraction orders and the reciprocal lattice
-/

namespace Rayflare

open Rayflare.Np Rayflare.Model Real

/-- **C60.** The reciprocal vectors used for diffraction orders are dual to the lattice vectors, for every unit cell of non-zero area. -/
theorem C60_reciprocal (a1 a2 : ℝ × ℝ) (h : a1.1 * a2.2 - a1.2 * a2.1 ≠ 0) :
    let b1 := reciprocal a1 a2
    let b2 := reciprocal a2 a1
    a1.1 * b1.1 + a1.2 * b1.2 = 2 * π ∧ a2.1 * b2.1 + a2.2 * b2.2 = 2 * π ∧
    a1.1 * b2.1 + a1.2 * b2.2 = 0 ∧ a2.1 * b1.1 + a2.2 * b1.2 = 0 := by
  have h1 : a1.1 * -a2.2 + a1.2 * a2.1 ≠ 0 := fun h0 => h (by linarith)
  have h2 : a2.1 * -a1.2 + a2.2 * a1.1 ≠ 0 := fun h0 => h (by linarith)
  simp only [reciprocal, dot2, rot2]
  refine ⟨?_, ?_, ?_, ?_⟩
  · rw [mul_div_assoc', mul_div_assoc', ← add_div, div_eq_iff h1]; ring
  · rw [mul_div_assoc', mul_div_assoc', ← add_div, div_eq_iff h2]; ring
  · field_simp; ring
  · field_simp; ring

/-- The dual vectors are unique, so these are the reciprocal vectors of the lattice. -/
theorem C60_unique (a1 a2 : ℝ × ℝ) (h : a1.1 * a2.2 - a1.2 * a2.1 ≠ 0) (b : ℝ × ℝ)
    (h1 : a1.1 * b.1 + a1.2 * b.2 = 2 * π) (h2 : a2.1 * b.1 + a2.2 * b.2 = 0) : b = reciprocal a1 a2 := by
  obtain ⟨e1, -, -, e4⟩ := C60_reciprocal a1 a2 h
  have d1 : a1.1 * (b.1 - (reciprocal a1 a2).1) + a1.2 * (b.2 - (reciprocal a1 a2).2) = 0 := by linarith
  have d2 : a2.1 * (b.1 - (reciprocal a1 a2).1) + a2.2 * (b.2 - (reciprocal a1 a2).2) = 0 := by linarith
  have x : (a1.1 * a2.2 - a1.2 * a2.1) * (b.1 - (reciprocal a1 a2).1) = 0 := by linear_combination a2.2 * d1 - a1.2 * d2
  have y : (a1.1 * a2.2 - a1.2 * a2.1) * (b.2 - (reciprocal a1 a2).2) = 0 := by linear_combination a1.1 * d2 - a2.1 * d1
  have x' := (mul_eq_zero.mp x).resolve_left h
  have y' := (mul_eq_zero.mp y).resolve_left h
  exact Prod.ext (by linarith) (by linarith)

/-- An oblique cell. -/
example : ((1 : ℝ), (0 : ℝ)).1 * ((1 : ℝ), (2 : ℝ)).2 - ((1 : ℝ), (0 : ℝ)).2 * ((1 : ℝ), (2 : ℝ)).1 ≠ 0 := by norm_num

theorem unique_spec {K : Type*} [LinearOrder K] (l : List K) : (unique l).Pairwise (· < ·) ∧ ∀ x, x ∈ unique l ↔ x ∈ l := by
  have hmem : ∀ x, x ∈ unique l ↔ x ∈ l := by
    intro x
    unfold unique
    rw [(List.mergeSort_perm _ _).mem_iff, List.mem_dedup]
  refine ⟨?_, hmem⟩
  have hs : (unique l).Pairwise (· ≤ ·) := by
    have := List.pairwise_mergeSort (le := fun a b : K => decide (a ≤ b))
      (fun a b c h1 h2 => by simp only [decide_eq_true_eq] at *; exact le_trans h1 h2)
      (fun a b => by simpa using le_total a b) l.dedup
    unfold unique
    simpa using this
  have hn : (unique l).Nodup := by
    unfold unique
    rw [(List.mergeSort_perm _ _).nodup_iff]; exact List.nodup_dedup l
  exact (hs.and hn).imp fun h => lt_of_le_of_ne h.1 h.2

theorem accumulate (l : List (ℕ × ℕ)) (power : ℕ → ℕ → ℝ) (up : ℕ → ℕ → ℝ) (w i : ℕ) :
    l.foldl (fun up p => fun w i => if i = p.1 then up w i + power w p.2 else up w i) up w i =
      up w i + (l.map fun p => if i = p.1 then power w p.2 else 0).sum := by
  induction l generalizing up with
  | nil => simp
  | cons p l ih =>
    rw [List.foldl_cons, ih]
    simp only [List.map_cons, List.sum_cons]
    split_ifs <;> ring

theorem zipIdx_sum (l : List ℕ) (F : ℕ → ℕ → ℝ) : (l.zipIdx.map fun p => F p.1 p.2).sum = ∑ j ∈ Finset.range l.length, F (l.getD j 0) j := by
  rw [← sum_map_range]
  congr 1
  apply List.ext_getElem (by simp)
  intro i h1 h2
  have : i < l.length := by simpa using h1
  simp [List.getD, List.getElem?_eq_getElem this]

theorem count_range {K : Type*} [DecidableEq K] (f : ℕ → K) (x : K) (N : ℕ) :
    ((List.range N).map f).count x = ((Finset.range N).filter fun j => f j = x).card := by
  induction N with
  | zero => simp
  | succ N ih =>
    rw [List.range_succ, List.map_append, List.count_append, ih, Finset.range_add_one, Finset.filter_insert]
    by_cases h : f N = x
    · rw [if_pos h, Finset.card_insert_of_notMem (by simp)]; simp [h]
    · rw [if_neg h]; simp [h]

/-- **C59, the magnitudes.** In a unit cell of non-zero area, the number by which an order `o` is grouped is the length of its in-plane wavevector: the vector whose product with the lattice vectors is `2π` times the two indices of
the order. -/
theorem C59_magnitude (a1 a2 : ℝ × ℝ) (h : a1.1 * a2.2 - a1.2 * a2.1 ≠ 0) (o : ℤ × ℤ) (k : ℝ × ℝ) (h1 : a1.1 * k.1 + a1.2 * k.2 = 2 * π * o.1) (h2 : a2.1 * k.1 + a2.2 * k.2 = 2 * π * o.2) :
    orderK (a1, a2) o = √(k.1 ^ 2 + k.2 ^ 2) := by
  obtain ⟨e1, e2, e3, e4⟩ := C60_reciprocal a1 a2 h
  set b1 := reciprocal a1 a2 with hb1
  set b2 := reciprocal a2 a1 with hb2
  have d1 : a1.1 * (k.1 - (o.1 * b1.1 + o.2 * b2.1)) + a1.2 * (k.2 - (o.1 * b1.2 + o.2 * b2.2)) = 0 := by linear_combination h1 - o.1 * e1 - o.2 * e3
  have d2 : a2.1 * (k.1 - (o.1 * b1.1 + o.2 * b2.1)) + a2.2 * (k.2 - (o.1 * b1.2 + o.2 * b2.2)) = 0 := by linear_combination h2 - o.1 * e4 - o.2 * e2
  have x : (a1.1 * a2.2 - a1.2 * a2.1) * (k.1 - (o.1 * b1.1 + o.2 * b2.1)) = 0 := by linear_combination a2.2 * d1 - a1.2 * d2
  have y : (a1.1 * a2.2 - a1.2 * a2.1) * (k.2 - (o.1 * b1.2 + o.2 * b2.2)) = 0 := by linear_combination a1.1 * d2 - a2.1 * d1
  have x' := (mul_eq_zero.mp x).resolve_left h
  have y' := (mul_eq_zero.mp y).resolve_left h
  unfold orderK
  simp only
  rw [← hb1, ← hb2, ← sub_eq_zero.mp x', ← sub_eq_zero.mp y']

/-- An oblique cell and order (1, -1). -/
example : ∃ k : ℝ × ℝ, (2 : ℝ) * k.1 + 0 * k.2 = 2 * π * ((1 : ℤ) : ℝ) ∧ (1 : ℝ) * k.1 + 1 * k.2 = 2 * π * ((-1 : ℤ) : ℝ) := ⟨(π, -3 * π), by push_cast; ring, by push_cast; ring⟩

/-- **C59.** The groups are the distinct (rounded) magnitudes of the in-plane wavevectors of the orders, in increasing order. For each of them the power is the sum of the powers of the orders that have
it and the multiplicity the number of these orders, at every wavelength; so power is conserved, and the multiplicities add up to the number of orders. -/
theorem C59_group (rnd : ℝ → ℝ) (size : (ℝ × ℝ) × (ℝ × ℝ)) (basis : List (ℤ × ℤ)) (power : ℕ → ℕ → ℝ) :
    let G := groupOrders rnd size basis power
    let k := fun j => rnd (orderK size (basis.getD j (0, 0)))
    G.kxy.Pairwise (· < ·) ∧ (∀ x, x ∈ G.kxy ↔ ∃ j < basis.length, k j = x) ∧
    (∀ i (hi : i < G.kxy.length),
      (∀ w, G.perOrder w i = ∑ j ∈ Finset.range basis.length, if k j = G.kxy[i] then power w j else 0) ∧
      G.reps[i]? = some ((Finset.range basis.length).filter fun j => k j = G.kxy[i]).card) ∧
    (∀ w, ∑ i ∈ Finset.range G.kxy.length, G.perOrder w i = ∑ j ∈ Finset.range basis.length, power w j) ∧
    G.reps.length = G.kxy.length ∧ G.reps.sum = basis.length := by
  intro G k
  set ks := basis.map fun o => rnd (orderK size o) with hks
  obtain ⟨hsort, hmem⟩ := unique_spec ks
  have hnod : (unique ks).Nodup := hsort.imp fun h => ne_of_lt h
  have hksget : ∀ j (hj : j < basis.length), ks[j]'(by simpa [hks] using hj) = k j := by
    intro j hj
    simp [hks, k, List.getD, List.getElem?_eq_getElem hj]
  have hkm : ∀ j < basis.length, k j ∈ unique ks := by
    intro j hj
    rw [hmem, ← hksget j hj]; exact List.getElem_mem _
  have hind : ∀ j < basis.length, (ks.map fun k => (unique ks).idxOf k).getD j 0 = (unique ks).idxOf (k j) := by
    intro j hj
    have hj' : j < ks.length := by simpa [hks] using hj
    rw [List.getD_eq_getElem?_getD, List.getElem?_map, List.getElem?_eq_getElem hj', hksget j hj]; rfl
  have hiff : ∀ i (hi : i < (unique ks).length), ∀ j < basis.length, (i = (unique ks).idxOf (k j) ↔ k j = (unique ks)[i]) := by
    intro i hi j hj
    constructor
    · intro h
      have := List.getElem_idxOf (List.idxOf_lt_length_iff.mpr (hkm j hj))
      simp only [← h] at this
      exact this.symm
    · intro h
      rw [h, hnod.idxOf_getElem]
  have hper : ∀ w i, G.perOrder w i = ∑ j ∈ Finset.range basis.length, if i = (unique ks).idxOf (k j) then power w j else 0 := by
    intro w i
    show ((ks.map fun k => (unique ks).idxOf k).zipIdx.foldl (fun (up : ℕ → ℕ → ℝ) p => fun w i => if i = p.1 then up w i + power w p.2 else up w i) (fun _ _ => 0)) w i = _
    rw [accumulate, zero_add, zipIdx_sum _ (fun a j => if i = a then power w j else 0)]
    have hl : (ks.map fun k => (unique ks).idxOf k).length = basis.length := by simp [hks]
    rw [hl]
    refine Finset.sum_congr rfl fun j hj => ?_
    rw [hind j (Finset.mem_range.mp hj)]
  have hcount : ∀ x, ks.count x = ((Finset.range basis.length).filter fun j => k j = x).card := by
    intro x
    have : ks = (List.range basis.length).map k := by
      apply List.ext_getElem (by simp [hks])
      intro j h1 h2
      rw [hksget j (by simpa [hks] using h1)]; simp
    rw [this, count_range]
  refine ⟨hsort, ?_, ?_, ?_, ?_, ?_⟩
  · intro x
    show x ∈ unique ks ↔ _
    rw [hmem, List.mem_iff_getElem]
    constructor
    · rintro ⟨j, hj, rfl⟩
      have hj' : j < basis.length := by simpa [hks] using hj
      exact ⟨j, hj', (hksget j hj').symm⟩
    · rintro ⟨j, hj, rfl⟩
      exact ⟨j, by simpa [hks] using hj, hksget j hj⟩
  · intro i hi
    constructor
    · intro w
      rw [hper]
      refine Finset.sum_congr rfl fun j hj => ?_
      exact if_congr (hiff i hi j (Finset.mem_range.mp hj)) rfl rfl
    · show ((unique ks).map fun k => ks.count k)[i]? = _
      rw [List.getElem?_map, List.getElem?_eq_getElem (show i < (unique ks).length from hi), Option.map_some, hcount]; rfl
  · intro w
    simp only [hper]
    rw [Finset.sum_comm]
    refine Finset.sum_congr rfl fun j hj => ?_
    rw [Finset.sum_ite_eq', if_pos]
    exact Finset.mem_range.mpr (List.idxOf_lt_length_iff.mpr (hkm j (Finset.mem_range.mp hj)))
  · show ((unique ks).map fun k => ks.count k).length = (unique ks).length
    simp
  · show ((unique ks).map fun k => ks.count k).sum = _
    have hp : (unique ks).Perm ks.dedup := List.mergeSort_perm _ _
    rw [(hp.map _).sum_eq, List.sum_map_count_dedup_eq_length]
    simp [hks]

end Rayflare
