import Verif.Spec.RTFunction
import Verif.Lemmas.Trapz

/-!
# Lemmas for C177 and C178
-/

namespace Rayflare.Lemmas

open Rayflare.Np Rayflare.Model Rayflare.Spec

theorem arange_bounds {stop d z : ℝ} (hd : 0 < d) (h : z ∈ arange stop d) : 0 ≤ z ∧ z < stop := by
  unfold arange at h
  rw [List.mem_map] at h
  obtain ⟨k, hk, rfl⟩ := h
  rw [List.mem_range, Nat.lt_ceil, lt_div_iff₀ hd] at hk
  exact ⟨by positivity, by simpa using hk⟩

theorem arange_head {stop d : ℝ} (hd : 0 < d) (hs : 0 < stop) : ∃ l, arange stop d = 0 :: l := by
  unfold arange
  have : 0 < ⌈stop / d⌉₊ := Nat.ceil_pos.mpr (by positivity)
  obtain ⟨n, hn⟩ : ∃ n, ⌈stop / d⌉₊ = n + 1 := ⟨⌈stop / d⌉₊ - 1, by omega⟩
  rw [hn, List.range_succ_eq_map, List.map_cons]
  exact ⟨((List.range n).map Nat.succ).map fun i : ℕ => (i : ℝ) * d, by rw [Nat.cast_zero, zero_mul]⟩

theorem pairwise_shift {l : List ℝ} (f : ℝ → ℝ) (hf : ∀ x y, x < y → f x < f y) (h : l.Pairwise (· < ·)) : (l.map f).Pairwise (· < ·) := by
  rw [List.pairwise_map]
  exact h.imp (fun hab => hf _ _ hab)

/-! ### Positions -/

theorem coatingSegment_pos {dInt top : ℝ} (hd : 0 < dInt) {st : Option (List ℝ)} {s : Option Coating} {r : List ℝ × List ℝ × ℝ}
    (h : coatingSegment dInt st top s = some r) :
    r.2.2 = top + coatThickness s ∧ r.1.Pairwise (· < ·) ∧ (∀ z ∈ r.1, top ≤ z ∧ z < top + coatThickness s) := by
  cases s with
  | none =>
    simp only [coatingSegment, Option.some.injEq] at h
    subst h
    simp [coatThickness]
  | some c =>
    simp only [coatingSegment, Option.map_eq_some_iff] at h
    obtain ⟨v, _, rfl⟩ := h
    have hd' : 0 < dInt * 10 ^ 9 := by positivity
    refine ⟨rfl, pairwise_shift _ (fun x y hxy => by have := div_lt_div_of_pos_right hxy (show (0 : ℝ) < 10 ^ 9 by norm_num); linarith) (arange_pairwise _ _ hd'), ?_⟩
    intro z hz
    simp only [List.mem_map] at hz
    obtain ⟨y, hy, rfl⟩ := hz
    obtain ⟨h0, h1⟩ := arange_bounds hd' hy
    have a0 : 0 ≤ y / 10 ^ 9 := by positivity
    have a1 := div_lt_div_of_pos_right h1 (show (0 : ℝ) < 10 ^ 9 by norm_num)
    simp only [coatThickness]
    constructor <;> linarith

theorem bulkSegment_pos {bulk : List ℝ} {d : ℝ} (hd : 0 < d) {stored : List ℝ} {off i : ℕ} {top w : ℝ} (hw : bulk[i]? = some w) {r : List ℝ × List ℝ × ℕ}
    (h : bulkSegment bulk d stored off i top = some r) :
    r.1.Pairwise (· < ·) ∧ (∀ z ∈ r.1, top ≤ z ∧ z < top + w) ∧ ∃ l, r.1 = top :: l := by
  obtain ⟨hi, hwi⟩ := List.getElem?_eq_some_iff.mp hw
  have hlen : i + 1 ≤ bulk.length := hi
  have hstep : (bulk.take (i + 1)).sum = (bulk.take i).sum + w := by
    rw [List.take_add_one, hw]; simp
  unfold bulkSegment at h
  rw [layerStart_get _ (i + 1) (by omega) hlen, layerEnd_get _ (i + 1) hlen] at h
  simp only [Option.bind_some, Nat.add_sub_cancel] at h
  have hsort : (((arange (bulk.sum * 10 ^ 6) (d * 10 ^ 6)).map fun z => z / 10 ^ 6).filter (between (bulk.take i).sum (bulk.take (i + 1)).sum)).Pairwise (· < ·) := by
    apply List.Pairwise.filter
    exact pairwise_shift _ (fun x y hxy => div_lt_div_of_pos_right hxy (show (0 : ℝ) < 10 ^ 6 by norm_num)) (arange_pairwise _ _ (by positivity))
  have hmem : ∀ z ∈ ((arange (bulk.sum * 10 ^ 6) (d * 10 ^ 6)).map fun z => z / 10 ^ 6).filter (between (bulk.take i).sum (bulk.take (i + 1)).sum),
      (bulk.take i).sum ≤ z ∧ z < (bulk.take (i + 1)).sum := by
    intro z hz
    have := (List.mem_filter.mp hz).2
    simpa [between] using this
  generalize ((arange (bulk.sum * 10 ^ 6) (d * 10 ^ 6)).map fun z => z / 10 ^ 6).filter (between (bulk.take i).sum (bulk.take (i + 1)).sum) = G at h hsort hmem
  cases G with
  | nil => simp at h
  | cons z0 G =>
    simp only [Option.some.injEq] at h
    subst h
    refine ⟨pairwise_shift _ (fun x y hxy => by linarith) hsort, ?_, ⟨G.map fun z => z - z0 + top, by rw [List.map_cons]; congr 1; ring⟩⟩
    intro z hz
    rw [List.mem_map] at hz
    obtain ⟨y, hy, rfl⟩ := hz
    have h0 := hmem z0 (by simp)
    have h1 := hmem y hy
    have : z0 ≤ y := by
      rcases List.mem_cons.mp hy with rfl | hy'
      · exact le_rfl
      · exact (List.rel_of_pairwise_cons hsort hy').le
    constructor <;> linarith

theorem stackSegments_pos {bulk : List ℝ} {dInt dBulk : ℝ} (hI : 0 < dInt) (hB : 0 < dBulk) {stI : List (List ℝ)} {stB : List ℝ} (hbulk : ∀ w ∈ bulk, 0 < w) :
    ∀ (rest : List (Option Coating)) (i : ℕ) (top : ℝ) (off : ℕ) (r : List ℝ × List ℝ), (∀ c, some c ∈ rest → c.widths ≠ [] ∧ ∀ w ∈ c.widths, 0 < w) →
      rest.length ≤ (bulk.drop i).length + 1 → stackSegments bulk dInt dBulk stI stB i top off rest = some r →
      r.1.Pairwise (· < ·) ∧ (∀ z ∈ r.1, top ≤ z ∧ z < top + (rest.map coatThickness).sum + (bulk.drop i).sum) ∧ (∀ z ∈ r.1.head?, z = top) := by
  have hcoat : ∀ s : Option Coating, (∀ c, s = some c → c.widths ≠ [] ∧ ∀ w ∈ c.widths, 0 < w) → 0 ≤ coatThickness s := by
    intro s hs
    cases s with
    | none => exact le_rfl
    | some c => exact div_nonneg (List.sum_nonneg fun w hw => ((hs c rfl).2 w hw).le) (by norm_num)
  intro rest
  induction rest with
  | nil =>
    intro i top off r _ _ h
    simp only [stackSegments, Option.some.injEq] at h
    subst h
    simp
  | cons s rest ih =>
    intro i top off r hc hlen h
    have hs : ∀ c, s = some c → c.widths ≠ [] ∧ ∀ w ∈ c.widths, 0 < w := fun c hcs => hc c (by simp [hcs])
    simp only [stackSegments] at h
    obtain ⟨c, hcs, h⟩ := Option.bind_eq_some_iff.mp h
    obtain ⟨e1, p1, b1⟩ := coatingSegment_pos hI hcs
    have hdrop : 0 ≤ (bulk.drop i).sum := List.sum_nonneg fun w hw => (hbulk w (List.mem_of_mem_drop hw)).le
    have hhead : s.isSome → ∃ l, c.1 = top :: l := by
      intro hsome
      cases s with
      | none => simp at hsome
      | some cc =>
        simp only [coatingSegment, Option.map_eq_some_iff] at hcs
        obtain ⟨v, _, rfl⟩ := hcs
        obtain ⟨hne, hpos⟩ := hs cc rfl
        obtain ⟨l, hl⟩ := arange_head (show 0 < dInt * 10 ^ 9 by positivity) (List.sum_pos _ hpos hne)
        exact ⟨l.map fun z => z / 10 ^ 9 + top, by simp only [hl, List.map_cons]; congr 1; ring⟩
    by_cases hr : rest = []
    · rw [if_pos hr] at h
      simp only [Option.some.injEq] at h
      subst h hr
      refine ⟨p1, fun z hz => ⟨(b1 z hz).1, ?_⟩, ?_⟩
      · have := (b1 z hz).2
        simp only [List.map_cons, List.map_nil, List.sum_cons, List.sum_nil]
        linarith
      · intro z hz
        cases s with
        | none =>
          simp only [coatingSegment, Option.some.injEq] at hcs
          subst hcs
          simp at hz
        | some cc =>
          obtain ⟨l, hl⟩ := hhead rfl
          simp only [hl, List.head?_cons, Option.mem_def, Option.some.injEq] at hz
          exact hz.symm
    · rw [if_neg hr] at h
      obtain ⟨b, hb, h⟩ := Option.bind_eq_some_iff.mp h
      obtain ⟨w, hw, h⟩ := Option.bind_eq_some_iff.mp h
      obtain ⟨q, hq, rfl⟩ := Option.map_eq_some_iff.mp h
      obtain ⟨p2, b2, l2, hl2⟩ := bulkSegment_pos hB hw hb
      obtain ⟨hi, hwi⟩ := List.getElem?_eq_some_iff.mp hw
      have hsplit : bulk.drop i = w :: bulk.drop (i + 1) := by rw [← hwi]; exact (List.cons_getElem_drop_succ).symm
      have hw0 : 0 < w := hbulk w (by rw [← hwi]; exact List.getElem_mem _)
      have hlen' : rest.length ≤ (bulk.drop (i + 1)).length + 1 := by
        rw [hsplit, List.length_cons, List.length_cons] at hlen
        omega
      obtain ⟨p3, b3, h3⟩ := ih (i + 1) (c.2.2 + w) b.2.2 q (fun c hcc => hc c (by simp [hcc])) hlen' hq
      have h0 := hcoat s hs
      have h0r : 0 ≤ (rest.map coatThickness).sum := by
        apply List.sum_nonneg
        intro x hx
        obtain ⟨s', hs', rfl⟩ := List.mem_map.mp hx
        exact hcoat s' (fun c hcs => hc c (by rw [← hcs]; simp [hs']))
      have hdrop' : 0 ≤ (bulk.drop (i + 1)).sum := List.sum_nonneg fun w hw => (hbulk w (List.mem_of_mem_drop hw)).le
      rw [e1] at b2 b3
      refine ⟨?_, ?_, ?_⟩
      · rw [List.pairwise_append, List.pairwise_append]
        refine ⟨p1, ⟨p2, p3, ?_⟩, ?_⟩
        · intro x hx y hy
          have := b2 x hx; have := b3 y hy; linarith
        · intro x hx y hy
          have := b1 x hx
          rcases List.mem_append.mp hy with hy | hy
          · have := b2 y hy; linarith
          · have := b3 y hy; linarith
      · intro z hz
        rw [hsplit]
        simp only [List.map_cons, List.sum_cons]
        rcases List.mem_append.mp hz with hz | hz
        · have := b1 z hz; constructor <;> linarith
        · rcases List.mem_append.mp hz with hz | hz
          · have := b2 z hz; constructor <;> linarith
          · have := b3 z hz; constructor <;> linarith
      · intro z hz
        cases s with
        | none =>
          simp only [coatingSegment, Option.some.injEq] at hcs
          subst hcs
          simp only [hl2, List.nil_append, List.cons_append, List.head?_cons, Option.mem_def, Option.some.injEq] at hz
          exact hz.symm
        | some cc =>
          obtain ⟨l, hl⟩ := hhead rfl
          simp only [hl, List.cons_append, List.head?_cons, Option.mem_def, Option.some.injEq] at hz
          exact hz.symm

theorem samplePoints_fst {pv : List ℝ × List ℝ} {pts : List (ℝ × ℝ)} (h : samplePoints pv = some pts) : pts.map Prod.fst = pv.1 := by
  unfold samplePoints at h
  by_cases hl : pv.1.length = pv.2.length
  · rw [if_pos hl] at h
    simp only [Option.some.injEq] at h
    subst h
    exact List.map_fst_zip (by omega)
  · rw [if_neg hl] at h
    simp at h

/-! ### Interpolation -/

theorem interp1d_beyond : ∀ (pts : List (ℝ × ℝ)) (x : ℝ), (∀ p ∈ pts, p.1 < x) → interp1d pts x = none
  | [], _, _ => by unfold interp1d; rfl
  | [_], _, _ => by unfold interp1d; rfl
  | a :: b :: r, x, h => by
    have ha := h a (by simp)
    have hb := h b (by simp)
    unfold interp1d
    rw [if_neg (by linarith), if_neg (by linarith)]
    exact interp1d_beyond (b :: r) x (fun q hq => h q (by simp [List.mem_cons.mp hq]))

theorem exists_beyond (pts : List (ℝ × ℝ)) (b : ℝ) (hb : 0 < b) (h : ∀ p ∈ pts, p.1 < b) : ∃ m, 0 ≤ m ∧ m < b ∧ ∀ p ∈ pts, p.1 ≤ m := by
  induction pts with
  | nil => exact ⟨0, le_rfl, hb, by simp⟩
  | cons a pts ih =>
    obtain ⟨m, h0, h1, h2⟩ := ih (fun p hp => h p (by simp [hp]))
    refine ⟨max m a.1, le_max_of_le_left h0, max_lt h1 (h a (by simp)), ?_⟩
    intro p hp
    rcases List.mem_cons.mp hp with rfl | hp
    · exact le_max_right _ _
    · exact le_max_of_le_left (h2 p hp)

theorem interp1d_gap (pts : List (ℝ × ℝ)) (b : ℝ) (hb : 0 < b) (h : ∀ p ∈ pts, p.1 < b) : ∃ x, 0 ≤ x ∧ x < b ∧ interp1d pts x = none := by
  obtain ⟨m, h0, h1, h2⟩ := exists_beyond pts b hb h
  exact ⟨(m + b) / 2, by linarith, by linarith, interp1d_beyond pts _ (fun p hp => by have := h2 p hp; linarith)⟩

end Rayflare.Lemmas
