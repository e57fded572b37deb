import Verif.Lemmas.RTMatrix2
import Mathlib.Algebra.BigOperators.Field

/-!
# Properties C48–C50: redistribution matrices from ray tracing
-/

namespace Rayflare

open Rayflare.Np Rayflare.Model Rayflare.Spec Rayflare.Lemmas Real

open Classical in
/-- Number of rays with a property. -/
noncomputable def nOf (rays : List RTRay) (P : RTRay → Prop) : ℝ := ((rays.countP fun r => decide (P r) : ℕ) : ℝ)

theorem nOf_eq (rays : List RTRay) (P : RTRay → Prop) [DecidablePred P] : nOf rays P = ((rays.countP fun r => decide (P r) : ℕ) : ℝ) := by
  unfold nOf
  congr 2
  funext r
  congr

section
variable (n : ℕ) (hn : 0 < n) (c : ℝ) (hc : 0 < c) (m : ℕ) (hm : 0 < m) (sp : Spacing) (tmm front : Bool) (nL : ℕ)

include hn hc hm in
open Classical in
/-- The records of all rays, and what the accumulated counts are. -/
theorem rt_counts (rays : List RTRay) (hok : ∀ r ∈ rays, RayOk (2 * π / m) tmm nL r) :
    ∃ f : RTRay → RTRec, (∀ r ∈ rays, RecSpec n c (2 * π / m) sp front r (f r)) ∧ ∀ u : RTJunk,
      rtMatrix (rtArgs n (2 * π / m) c sp tmm front nL) u rays =
        some (((rays.map f).foldl RTAcc.add RTAcc.zero).normalise (rtArgs n (2 * π / m) c sp tmm front nL) u) := by
  have hex : ∀ r, ∃ rec : RTRec, r ∈ rays → (rtArgs n (2 * π / m) c sp tmm front nL).record r = some rec ∧ RecSpec n c (2 * π / m) sp front r rec := by
    intro r
    by_cases hr : r ∈ rays
    · obtain ⟨rec, h1, h2⟩ := record_spec hn hc m hm (sp := sp) (front := front) (hok r hr)
      exact ⟨rec, fun _ => ⟨h1, h2⟩⟩
    · exact ⟨⟨0, none, fun _ => 0, 0⟩, fun h => absurd h hr⟩
  choose f hf using hex
  refine ⟨f, fun r hr => (hf r hr).2, fun u => ?_⟩
  unfold rtMatrix
  rw [mapM_some _ f rays (fun r hr => (hf r hr).1)]
  rfl

/-- A ray is counted in the column it is incident in, and nowhere else. -/
theorem recSpec_col {n : ℕ} (hn : 0 < n) {c s : ℝ} (hs : 0 < s) {sp : Spacing} {front : Bool} {r : RTRay} {rec : RTRec}
    (h : RecSpec n c s sp front r rec) (j : ℕ) : rec.col = j ↔ IncidentIn n c s sp front j r := by
  constructor
  · rintro rfl; exact h.col
  · intro hj
    have := dirInBin_unique hn hs h.col.2 hj.2
    omega

theorem recSpec_row_none {n : ℕ} {c s : ℝ} {sp : Spacing} {front : Bool} {r : RTRay} {rec : RTRec}
    (h : RecSpec n c s sp front r rec) : rec.row = none ↔ IsAbsorbed r := by
  unfold IsAbsorbed
  rcases ho : r.out with ⟨θ, φ⟩ | ⟨A, θl⟩
  · obtain ⟨i, hi, -⟩ := h.leaves θ φ ho
    simp [hi]
  · simp [(h.absorbed A θl ho).1]

theorem recSpec_row_some {n : ℕ} (hn : 0 < n) {c s : ℝ} (hs : 0 < s) {sp : Spacing} {front : Bool} {r : RTRay} {rec : RTRec}
    (h : RecSpec n c s sp front r rec) (ho : OutOffEdge s front r) (i : ℕ) : rec.row = some i ↔ LeavesIn n c s sp front i r := by
  rcases hr : r.out with ⟨θ, φ⟩ | ⟨A, θl⟩
  · obtain ⟨i', hi', hl⟩ := h.leaves θ φ hr
    have hl' := hl ho
    rw [hi']
    constructor
    · intro heq
      rw [Option.some.injEq] at heq
      rw [← heq]; exact hl'
    · intro hli
      unfold LeavesIn at hl' hli
      rw [hr] at hl' hli
      rw [dirInBin_unique hn hs hl' hli]
  · rw [(h.absorbed A θl hr).1]
    unfold LeavesIn
    rw [hr]
    simp

/-- The ray is absorbed at exactly normal local incidence. -/
def AbsorbedNormal (r : RTRay) : Prop := match r.out with | .leaves _ _ => False | .absorbed _ θl => θl = 0

theorem recSpec_loc {n : ℕ} (hn : 0 < n) {c s : ℝ} {sp : Spacing} {front : Bool} {r : RTRay} {rec : RTRec}
    (h : RecSpec n c s sp front r rec) (l : ℕ) (hl : l < n) :
    rec.row = none ∧ rec.loc = l ↔ AbsorbedAt n sp l r ∨ (AbsorbedNormal r ∧ l = n - 1) := by
  unfold AbsorbedAt AbsorbedNormal
  rcases hr : r.out with ⟨θ, φ⟩ | ⟨A, θl⟩
  · obtain ⟨i, hi, -⟩ := h.leaves θ φ hr
    simp [hi]
  · obtain ⟨h1, -, h2, h3, h0⟩ := h.absorbed A θl hr
    simp only [h1, true_and]
    by_cases hne : θl = 0
    · have hp : 0 ≤ polarEdge n sp l := by
        rcases Nat.eq_zero_or_pos l with h | h
        · rw [h, polarEdge_zero]
        · have := polarEdge_strictMono n hn sp 0 l h (by omega)
          rw [polarEdge_zero] at this
          exact this.le
      have : ¬ polarEdge n sp l < |θl| := by rw [hne, abs_zero]; exact not_lt.mpr hp
      rw [h0 hne]
      rw [iff_false_intro (fun h => this h.1 : ¬ (polarEdge n sp l < |θl| ∧ |θl| ≤ polarEdge n sp (l + 1))), false_or, eq_true hne, true_and]
      exact eq_comm
    obtain ⟨h4, h5⟩ := h3 hne
    simp only [hne, false_and, or_false]
    constructor
    · rintro rfl; exact ⟨h4, h5⟩
    · rintro ⟨h6, h7⟩
      exact interval_unique (polarEdge_strictMono n hn sp) (by omega) (by omega) h4 h5 h6 h7

/-- Absorption of a ray in layer `l` if absorbed. -/
def absOf (l : ℕ) (r : RTRay) : ℝ := match r.out with | .leaves _ _ => 0 | .absorbed A _ => A l

include hn hc hm in
open Classical in
theorem rt_acc (rays : List RTRay) (hok : ∀ r ∈ rays, RayOk (2 * π / m) tmm nL r) (f : RTRay → RTRec)
    (hf : ∀ r ∈ rays, RecSpec n c (2 * π / m) sp front r (f r)) :
    let acc := (rays.map f).foldl RTAcc.add RTAcc.zero
    let inc := fun j r => IncidentIn n c (2 * π / m) sp front j r
    (∀ j, acc.nRays j = nOf rays (inc j)) ∧ (∀ j, acc.nAbs j = nOf rays fun r => inc j r ∧ IsAbsorbed r) ∧
    (∀ l j, acc.A l j = ((rays.filter fun r => decide (inc j r)).map (absOf l)).sum) ∧
    (∀ j, acc.nRays j = acc.nAbs j + ∑ i ∈ Finset.range (ringStart n c (2 * n)), acc.out i j) ∧
    ((∀ r ∈ rays, OutOffEdge (2 * π / m) front r) → ∀ i j, acc.out i j = nOf rays fun r => inc j r ∧ LeavesIn n c (2 * π / m) sp front i r) ∧
    (∀ i j, ∃ k : ℕ, acc.out i j = k) := by
  have hpi := Real.pi_pos
  have hs : (0 : ℝ) < 2 * π / m := by positivity
  intro acc inc
  obtain ⟨h1, h2, h3, h4, -⟩ := foldl_add (rays.map f) RTAcc.zero
  have hz : RTAcc.zero.nRays = (fun _ => (0 : ℝ)) := rfl
  have cnt : ∀ (P : RTRec → Prop) [DecidablePred P] (Q : RTRay → Prop), (∀ r ∈ rays, (P (f r) ↔ Q r)) →
      (((rays.map f).countP fun r => decide (P r) : ℕ) : ℝ) = nOf rays Q := by
    intro P _ Q hPQ
    rw [nOf_eq]
    rw [List.countP_map]
    congr 1
    apply List.countP_congr
    intro r hr
    simp [hPQ r hr]
  have e1 : ∀ j, acc.nRays j = nOf rays (inc j) := by
    intro j
    have := h1 j
    rw [hz, zero_add] at this
    exact this.trans (cnt _ _ fun r hr => recSpec_col hn hs (hf r hr) j)
  have e2 : ∀ j, acc.nAbs j = nOf rays fun r => inc j r ∧ IsAbsorbed r := by
    intro j
    have h2' := h2 j
    rw [show RTAcc.zero.nAbs j = (0 : ℝ) from rfl, zero_add] at h2'
    refine h2'.trans (cnt _ _ fun r hr => ?_)
    rw [recSpec_col hn hs (hf r hr) j, recSpec_row_none (hf r hr)]
  refine ⟨e1, e2, ?_, ?_, ?_, ?_⟩
  · intro l j
    have h4' := h4 l j
    rw [show RTAcc.zero.A l j = (0 : ℝ) from rfl, zero_add] at h4'
    refine h4'.trans ?_
    clear h4' h1 h2 h3 h4 e1 e2 cnt acc
    induction rays with
    | nil => rfl
    | cons r rs ih =>
      have ih' := ih (fun r' hr' => hok r' (by simp [hr'])) (fun r' hr' => hf r' (by simp [hr']))
      have hr := hf r (by simp)
      have c1 := recSpec_col hn hs hr j
      have c2 := recSpec_row_none hr
      simp only [List.map_cons, List.filter_cons]
      by_cases hj : inc j r
      · have hj' : (f r).col = j := c1.mpr hj
        rcases ho : r.out with ⟨θ, φ⟩ | ⟨A, θl⟩
        · have : ¬ (f r).row = none := by rw [c2]; simp [IsAbsorbed, ho]
          simp only [hj', this, and_false, decide_false, hj, decide_true, if_true, List.map_cons, List.sum_cons, absOf, ho, zero_add]
          simpa using ih'
        · have h5 : (f r).row = none := (hr.absorbed A θl ho).1
          have h6 : (f r).A = A := (hr.absorbed A θl ho).2.1
          simp only [hj', h5, and_self, decide_true, hj, if_true, List.map_cons, List.sum_cons, absOf, ho, h6]
          rw [ih']
      · have hj' : ¬ (f r).col = j := fun h => hj (c1.mp h)
        simp only [hj', false_and, decide_false, hj]
        simpa using ih'
  · intro j
    have hcr := count_rows (rays.map f) (ringStart n c (2 * n)) j (by
      intro r hr i hi
      obtain ⟨r0, hr0, rfl⟩ := List.mem_map.mp hr
      exact (hf r0 hr0).row i hi)
    have h1' := h1 j
    have h2' := h2 j
    rw [show RTAcc.zero.nRays j = (0 : ℝ) from rfl, zero_add] at h1'
    rw [show RTAcc.zero.nAbs j = (0 : ℝ) from rfl, zero_add] at h2'
    have h3' : ∀ i, acc.out i j = (((rays.map f).countP fun r => decide (r.col = j ∧ r.row = some i) : ℕ) : ℝ) := by
      intro i
      have := h3 i j
      rw [show RTAcc.zero.out i j = (0 : ℝ) from rfl, zero_add] at this
      exact this
    show acc.nRays j = acc.nAbs j + _
    rw [show acc.nRays j = _ from h1', show acc.nAbs j = _ from h2', hcr]
    push_cast
    congr 1
    exact Finset.sum_congr rfl fun i _ => (h3' i).symm
  · intro ho i j
    have h3' := h3 i j
    rw [show RTAcc.zero.out i j = (0 : ℝ) from rfl, zero_add] at h3'
    refine h3'.trans (cnt _ _ fun r hr => ?_)
    rw [recSpec_col hn hs (hf r hr) j, recSpec_row_some hn hs (hf r hr) (ho r hr) i]
  · intro i j
    have h3' := h3 i j
    rw [show RTAcc.zero.out i j = (0 : ℝ) from rfl, zero_add] at h3'
    exact ⟨_, h3'⟩

open Classical in
theorem sum_abs (rays : List RTRay) (nL : ℕ) (P : RTRay → Prop) :
    ((List.range nL).map fun l => ((rays.filter fun r => decide (P r)).map (absOf l)).sum).sum =
      ((rays.filter fun r => decide (P r)).map fun r => ((List.range nL).map fun l => absOf l r).sum).sum := by
  induction (rays.filter fun r => decide (P r)) with
  | nil => simp
  | cons r rs ih =>
    simp only [List.map_cons, List.sum_cons]
    rw [← ih, ← List.sum_map_add]

include hn hc hm in
open Classical in
/-- The total absorption summed in a column is positive if and only if a ray of the column was absorbed. -/
theorem sum_abs_pos (rays : List RTRay) (hok : ∀ r ∈ rays, RayOk (2 * π / m) tmm nL r) (P : RTRay → Prop) :
    (0 < nOf rays (fun r => P r ∧ IsAbsorbed r) →
      0 < ((List.range nL).map fun l => ((rays.filter fun r => decide (P r)).map (absOf l)).sum).sum) ∧
    (nOf rays (fun r => P r ∧ IsAbsorbed r) = 0 → ∀ l, ((rays.filter fun r => decide (P r)).map (absOf l)).sum = 0) := by
  have hnn : ∀ r ∈ rays, ∀ l, 0 ≤ absOf l r := by
    intro r hr l
    have := (hok r hr).out
    unfold absOf
    rcases ho : r.out with ⟨θ, φ⟩ | ⟨A, θl⟩
    · simp
    · rw [ho] at this; exact this.2.2.1 l
  constructor
  · intro hpos
    rw [sum_abs]
    rw [nOf_eq] at hpos
    have hpos' : 0 < rays.countP fun r => decide (P r ∧ IsAbsorbed r) := by exact_mod_cast hpos
    obtain ⟨r, hr, hP⟩ := List.countP_pos_iff.mp hpos'
    have hP' : P r ∧ IsAbsorbed r := by simpa using hP
    have hmem : r ∈ rays.filter fun r => decide (P r) := by simp [hr, hP'.1]
    have hrpos : 0 < ((List.range nL).map fun l => absOf l r).sum := by
      have := (hok r hr).out
      have hab := hP'.2
      unfold IsAbsorbed at hab
      rcases ho : r.out with ⟨θ, φ⟩ | ⟨A, θl⟩
      · rw [ho] at hab; simp at hab
      · rw [ho] at this
        have heq : (fun l => absOf l r) = A := by funext l; simp [absOf, ho]
        rw [heq]; exact this.2.2.2
    refine lt_of_lt_of_le hrpos ?_
    refine List.single_le_sum ?_ _ (List.mem_map.mpr ⟨r, hmem, rfl⟩)
    intro x hx
    obtain ⟨r', hr', rfl⟩ := List.mem_map.mp hx
    apply List.sum_nonneg
    intro y hy
    obtain ⟨l, -, rfl⟩ := List.mem_map.mp hy
    exact hnn r' (List.mem_of_mem_filter hr') l
  · intro h0 l
    apply List.sum_eq_zero
    intro x hx
    obtain ⟨r, hr, rfl⟩ := List.mem_map.mp hx
    have hr1 := List.mem_of_mem_filter hr
    have hP : P r := by simpa using List.of_mem_filter hr
    unfold absOf
    rcases ho : r.out with ⟨θ, φ⟩ | ⟨A, θl⟩
    · rfl
    · exfalso
      rw [nOf_eq] at h0
      have h0' : (rays.countP fun r => decide (P r ∧ IsAbsorbed r)) = 0 := by exact_mod_cast h0
      rw [List.countP_eq_zero] at h0'
      exact h0' r hr1 (by simp [hP, IsAbsorbed, ho])

include hn hc hm in
/-- **C48.** Whatever the rays do, no index error occurs, and in each column of an incidence bin that received at least one ray the outgoing fractions and the
absorbed fractions are non-negative and add up to one; the uninitialised memory has no influence on that column. -/
theorem C48_columns (rays : List RTRay) (hok : ∀ r ∈ rays, RayOk (2 * π / m) tmm nL r) (u : RTJunk) :
    ∃ M, rtMatrix (rtArgs n (2 * π / m) c sp tmm front nL) u rays = some M ∧
      ∀ j, (∃ r ∈ rays, IncidentIn n c (2 * π / m) sp front j r) →
        (∀ i, 0 ≤ M.out i j) ∧ (∀ l, 0 ≤ M.A l j) ∧
        ∑ i ∈ Finset.range (ringStart n c (2 * n)), M.out i j + ∑ l ∈ Finset.range nL, M.A l j = 1 := by
  classical
  obtain ⟨f, hf, hM⟩ := rt_counts n hn c hc m hm sp tmm front nL rays hok
  refine ⟨_, hM u, ?_⟩
  intro j ⟨r, hr, hrj⟩
  obtain ⟨e1, e2, e3, e4, -, e6⟩ := rt_acc n hn c hc m hm sp tmm front nL rays hok f hf
  set acc := (rays.map f).foldl RTAcc.add RTAcc.zero with hacc
  have hN : 0 < acc.nRays j := by
    rw [e1 j]
    unfold nOf
    have : 0 < rays.countP fun r => decide (IncidentIn n c (2 * π / m) sp front j r) := List.countP_pos_iff.mpr ⟨r, hr, by simp [hrj]⟩
    exact_mod_cast this
  have hAn : 0 ≤ acc.nAbs j := by rw [e2 j]; unfold nOf; positivity
  have hAl : ∀ l, 0 ≤ acc.A l j := by
    intro l
    rw [e3 l j]
    apply List.sum_nonneg
    intro x hx
    obtain ⟨r', hr', rfl⟩ := List.mem_map.mp hx
    have := (hok r' (List.mem_of_mem_filter hr')).out
    unfold absOf
    rcases ho : r'.out with ⟨θ, φ⟩ | ⟨A, θl⟩
    · simp
    · rw [ho] at this; exact this.2.2.1 l
  obtain ⟨hp, hz⟩ := sum_abs_pos n hn c hc m hm tmm nL rays hok (fun r => IncidentIn n c (2 * π / m) sp front j r)
  have hsum : ((List.range nL).map fun l => acc.A l j) = (List.range nL).map fun l =>
      ((rays.filter fun r => decide (IncidentIn n c (2 * π / m) sp front j r)).map (absOf l)).sum := by
    apply List.map_congr_left; intro l _; exact e3 l j
  rw [← hsum] at hp
  have hout : ∀ i, (acc.normalise (rtArgs n (2 * π / m) c sp tmm front nL) u).out i j = acc.out i j / acc.nRays j := by
    intro i; simp [RTAcc.normalise, divideWhere, hN.ne']
  have hA : ∀ l, (acc.normalise (rtArgs n (2 * π / m) c sp tmm front nL) u).A l j =
      divideWhere (decide (((List.range nL).map fun l => acc.A l j).sum ≠ 0)) (u.scale j) (acc.nAbs j / acc.nRays j)
        ((List.range nL).map fun l => acc.A l j).sum * acc.A l j := by
    intro l
    have : ∀ x y, divideWhere (decide (acc.nRays j ≠ 0)) x y (acc.nRays j) = y / acc.nRays j := by
      intro x y; simp [divideWhere, hN.ne']
    show divideWhere _ _ (divideWhere _ _ _ _) _ * _ = _
    rw [this]
    rfl
  have hsplit : 0 < acc.nAbs j ∨ acc.nAbs j = 0 := hAn.lt_or_eq.imp id Eq.symm
  have hAsum : ∑ l ∈ Finset.range nL, (acc.normalise (rtArgs n (2 * π / m) c sp tmm front nL) u).A l j = acc.nAbs j / acc.nRays j ∧
      ∀ l, 0 ≤ (acc.normalise (rtArgs n (2 * π / m) c sp tmm front nL) u).A l j := by
    rcases hsplit with h | h
    · have hpos := hp (by rw [← e2 j]; exact h)
      have hpos' : 0 < ∑ l ∈ Finset.range nL, acc.A l j := by rwa [sum_map_range] at hpos
      constructor
      · simp_rw [hA]
        rw [← Finset.mul_sum, sum_map_range]
        simp only [divideWhere, ne_eq, hpos'.ne', not_false_eq_true, decide_true, if_true]
        field_simp
      · intro l
        rw [hA]
        simp only [divideWhere, ne_eq, hpos.ne', not_false_eq_true, decide_true, if_true]
        have := hAl l
        positivity
    · have hzero : ∀ l, acc.A l j = 0 := by
        intro l; rw [e3 l j]; exact hz (by rw [← e2 j]; exact h) l
      constructor
      · simp_rw [hA, hzero, mul_zero]
        rw [h]; simp
      · intro l; rw [hA, hzero, mul_zero]
  refine ⟨?_, hAsum.2, ?_⟩
  · intro i
    rw [hout]
    obtain ⟨k, hk⟩ := e6 i j
    rw [hk]; positivity
  · simp_rw [hout]
    rw [hAsum.1, ← Finset.sum_div, ← add_div, div_eq_one_iff_eq hN.ne', e4 j]
    ring

include hn hc hm in
/-- **C48, entries.** If moreover no ray leaves exactly along an edge of the grid, entry `(i, j)` of the matrix is the fraction of the rays launched in incidence bin `j`
that leave into bin `i`, and the absorption of column `j` adds up to the fraction that is absorbed. -/
theorem C48_entries (rays : List RTRay) (hok : ∀ r ∈ rays, RayOk (2 * π / m) tmm nL r) (hoff : ∀ r ∈ rays, OutOffEdge (2 * π / m) front r)
    (u : RTJunk) (M : RTMat) (hM : rtMatrix (rtArgs n (2 * π / m) c sp tmm front nL) u rays = some M) (j : ℕ)
    (hj : ∃ r ∈ rays, IncidentIn n c (2 * π / m) sp front j r) :
    let inc := fun r => IncidentIn n c (2 * π / m) sp front j r
    (∀ i, M.out i j = nOf rays (fun r => inc r ∧ LeavesIn n c (2 * π / m) sp front i r) / nOf rays inc) ∧
    ∑ l ∈ Finset.range nL, M.A l j = nOf rays (fun r => inc r ∧ IsAbsorbed r) / nOf rays inc := by
  classical
  intro inc
  obtain ⟨M', hM', hcol⟩ := C48_columns n hn c hc m hm sp tmm front nL rays hok u
  have hMM : M = M' := by rw [hM] at hM'; exact Option.some.inj hM'
  subst hMM
  obtain ⟨f, hf, hM2⟩ := rt_counts n hn c hc m hm sp tmm front nL rays hok
  replace hM2 := hM2 u
  obtain ⟨e1, e2, -, e4, e5, -⟩ := rt_acc n hn c hc m hm sp tmm front nL rays hok f hf
  set acc := (rays.map f).foldl RTAcc.add RTAcc.zero with hacc
  have hMe : M = acc.normalise (rtArgs n (2 * π / m) c sp tmm front nL) u := by rw [hM] at hM2; exact Option.some.inj hM2
  obtain ⟨r, hr, hrj⟩ := hj
  have hN : 0 < acc.nRays j := by
    rw [e1 j]
    unfold nOf
    have : 0 < rays.countP fun r => decide (IncidentIn n c (2 * π / m) sp front j r) := List.countP_pos_iff.mpr ⟨r, hr, by simp [hrj]⟩
    exact_mod_cast this
  have hout : ∀ i, M.out i j = acc.out i j / acc.nRays j := by
    intro i; rw [hMe]; simp [RTAcc.normalise, divideWhere, hN.ne']
  constructor
  · intro i
    rw [hout, e5 hoff i j, e1 j]
  · have h1 := (hcol j ⟨r, hr, hrj⟩).2.2
    simp_rw [hout] at h1
    rw [← Finset.sum_div] at h1
    have h2 := e4 j
    rw [← e1 j, ← e2 j, eq_div_iff hN.ne']
    rw [div_add' _ _ _ hN.ne', div_eq_one_iff_eq hN.ne'] at h1
    linarith

include hn hc hm in
open Classical in
/-- What the column of an incidence bin with at least one absorbed ray contains. -/
theorem rt_local (rays : List RTRay) (hok : ∀ r ∈ rays, RayOk (2 * π / m) tmm nL r)
    (u : RTJunk) (M : RTMat) (hM : rtMatrix (rtArgs n (2 * π / m) c sp tmm front nL) u rays = some M) (j : ℕ)
    (hj : ∃ r ∈ rays, IncidentIn n c (2 * π / m) sp front j r ∧ IsAbsorbed r) :
    let inc := fun r => IncidentIn n c (2 * π / m) sp front j r
    (∀ l, 0 ≤ M.loc l j) ∧ ∑ l ∈ Finset.range n, M.loc l j = 1 ∧
    (∀ l < n, M.loc l j = nOf rays (fun r => inc r ∧ (AbsorbedAt n sp l r ∨ (AbsorbedNormal r ∧ l = n - 1))) / nOf rays (fun r => inc r ∧ IsAbsorbed r)) ∧
    M.intgr j = (∑ l ∈ Finset.range nL, ((rays.filter fun r => decide (inc r)).map (absOf l)).sum) / nOf rays (fun r => inc r ∧ IsAbsorbed r) := by
  intro inc
  obtain ⟨f, hf, hM2⟩ := rt_counts n hn c hc m hm sp tmm front nL rays hok
  replace hM2 := hM2 u
  obtain ⟨-, e2, e3, -, -, -⟩ := rt_acc n hn c hc m hm sp tmm front nL rays hok f hf
  obtain ⟨-, -, -, -, h5⟩ := foldl_add (rays.map f) RTAcc.zero
  set acc := (rays.map f).foldl RTAcc.add RTAcc.zero with hacc
  have hMe : M = acc.normalise (rtArgs n (2 * π / m) c sp tmm front nL) u := by rw [hM] at hM2; exact Option.some.inj hM2
  have hpi := Real.pi_pos
  have hs : (0 : ℝ) < 2 * π / m := by positivity
  obtain ⟨r, hr, hrj, hra⟩ := hj
  have hN : 0 < acc.nAbs j := by
    rw [e2 j, nOf_eq]
    have : 0 < rays.countP fun r => decide (IncidentIn n c (2 * π / m) sp front j r ∧ IsAbsorbed r) := List.countP_pos_iff.mpr ⟨r, hr, by simp [hrj, hra]⟩
    exact_mod_cast this
  have htmm : tmm = true := by
    have := (hok r hr).out
    unfold IsAbsorbed at hra
    rcases ho : r.out with ⟨θ, φ⟩ | ⟨A, θl⟩
    · rw [ho] at hra; simp at hra
    · rw [ho] at this; exact this.1
  have hnl : ((rtArgs n (2 * π / m) c sp tmm front nL).thetaIntv.length - 1) / 2 = n := by
    have : (rtArgs n (2 * π / m) c sp tmm front nL).thetaIntv.length = 2 * n + 2 := by
      subst htmm
      show ((makeAngleVector n _ c sp).thetaIntv ++ [11]).length = _
      rw [List.length_append, rt_intv_length]; rfl
    rw [this]; omega
  have h5' : ∀ l, acc.loc l j = (((rays.map f).countP fun r => decide (r.col = j ∧ r.row = none ∧ r.loc = l) : ℕ) : ℝ) := by
    intro l
    have := h5 l j
    rw [show RTAcc.zero.loc l j = (0 : ℝ) from rfl, zero_add] at this
    exact this
  have hsum : ∑ l ∈ Finset.range n, acc.loc l j = acc.nAbs j := by
    obtain ⟨-, h2, -⟩ := foldl_add (rays.map f) RTAcc.zero
    have h2' := h2 j
    rw [show RTAcc.zero.nAbs j = (0 : ℝ) from rfl, zero_add] at h2'
    rw [show acc.nAbs j = _ from h2']
    simp_rw [h5']
    rw [← Nat.cast_sum]
    congr 1
    have hb : ∀ r ∈ rays, (f r).row = none → (f r).loc < n := by
      intro r hr hrow
      rcases ho : r.out with ⟨θ, φ⟩ | ⟨A, θl⟩
      · obtain ⟨i, hi, -⟩ := (hf r hr).leaves θ φ ho
        rw [hi] at hrow; cases hrow
      · exact ((hf r hr).absorbed A θl ho).2.2.1
    clear h5 h5' h2 h2' hN e2 e3 hMe hM hM2 hacc hr hrj hra acc M
    induction rays with
    | nil => simp
    | cons r rs ih =>
      have ih' := ih (fun r' hr' => hok r' (by simp [hr'])) (fun r' hr' => hf r' (by simp [hr'])) (fun r' hr' => hb r' (by simp [hr']))
      simp only [List.map_cons, List.countP_cons, Finset.sum_add_distrib, ih']
      congr 1
      by_cases h : (f r).col = j ∧ (f r).row = none
      · have hlt := hb r (by simp) h.2
        simp only [h, true_and]
        simp [hlt]
      · have : ∀ l, ¬ ((f r).col = j ∧ (f r).row = none ∧ (f r).loc = l) := fun l h' => h ⟨h'.1, h'.2.1⟩
        simp [h, this]
  have hsumL : ((List.range n).map fun l => acc.loc l j).sum = acc.nAbs j := by rw [sum_map_range]; exact hsum
  have hloc : ∀ l, M.loc l j = acc.loc l j / acc.nAbs j := by
    intro l
    rw [hMe]
    simp only [RTAcc.normalise, hnl, hsumL]
    rw [if_pos hN.ne']
  refine ⟨?_, ?_, ?_, ?_⟩
  · intro l
    rw [hloc, h5']
    positivity
  · simp_rw [hloc]
    rw [← Finset.sum_div, hsum, div_self hN.ne']
  · intro l hl
    rw [hloc, e2 j, h5']
    congr 1
    rw [nOf_eq, List.countP_map]
    congr 1
    apply List.countP_congr
    intro r hr
    have h1 := recSpec_col hn hs (hf r hr) j
    have h2 := recSpec_loc hn (hf r hr) l hl
    simp only [Function.comp, decide_eq_true_eq]
    rw [h1, h2]
  · rw [hMe]
    simp only [RTAcc.normalise]
    rw [if_pos hN.ne', e2 j]
    congr 1
    rw [← sum_map_range]
    congr 1
    apply List.map_congr_left
    intro l _
    rw [e3 l j]

include hn hc hm in
open Classical in
/-- **C118 (partial).** In the column of an incidence bin with at least one absorbed ray the distribution of local angles is non-negative and adds up to one. If no ray was absorbed at exactly normal local incidence, entry `l`
is the fraction of the absorbed rays whose local angle of incidence lies in ring `l`. The integral kept for the profiles is the mean absorption per absorbed ray. -/
theorem C118_local_partial (rays : List RTRay) (hok : ∀ r ∈ rays, RayOk (2 * π / m) tmm nL r)
    (u : RTJunk) (M : RTMat) (hM : rtMatrix (rtArgs n (2 * π / m) c sp tmm front nL) u rays = some M) (j : ℕ)
    (hj : ∃ r ∈ rays, IncidentIn n c (2 * π / m) sp front j r ∧ IsAbsorbed r) :
    let inc := fun r => IncidentIn n c (2 * π / m) sp front j r
    (∀ l, 0 ≤ M.loc l j) ∧ ∑ l ∈ Finset.range n, M.loc l j = 1 ∧
    ((∀ r ∈ rays, ¬ AbsorbedNormal r) → ∀ l < n,
      M.loc l j = nOf rays (fun r => inc r ∧ AbsorbedAt n sp l r) / nOf rays (fun r => inc r ∧ IsAbsorbed r)) ∧
    M.intgr j = (∑ l ∈ Finset.range nL, ((rays.filter fun r => decide (inc r)).map (absOf l)).sum) / nOf rays (fun r => inc r ∧ IsAbsorbed r) := by
  obtain ⟨h1, h2, h3, h4⟩ := rt_local n hn c hc m hm sp tmm front nL rays hok u M hM j hj
  refine ⟨h1, h2, fun h0 l hl => ?_, h4⟩
  rw [h3 l hl]
  congr 1
  rw [nOf_eq, nOf_eq]
  congr 1
  apply List.countP_congr
  intro r hr
  simp [h0 r hr]

include hn hc hm in
/-- **C118 fails** for rays absorbed at exactly normal local incidence: they are filed in the ring next to grazing incidence. If all rays absorbed in a column are of this kind, the whole distribution is in that ring. -/
theorem C118_normal_fails (rays : List RTRay) (hok : ∀ r ∈ rays, RayOk (2 * π / m) tmm nL r)
    (u : RTJunk) (M : RTMat) (hM : rtMatrix (rtArgs n (2 * π / m) c sp tmm front nL) u rays = some M) (j : ℕ)
    (hj : ∃ r ∈ rays, IncidentIn n c (2 * π / m) sp front j r ∧ IsAbsorbed r) (h0 : ∀ r ∈ rays, IsAbsorbed r → AbsorbedNormal r) :
    M.loc (n - 1) j = 1 := by
  classical
  obtain ⟨-, -, h3, -⟩ := rt_local n hn c hc m hm sp tmm front nL rays hok u M hM j hj
  rw [h3 (n - 1) (by omega)]
  have : nOf rays (fun r => IncidentIn n c (2 * π / m) sp front j r ∧ (AbsorbedAt n sp (n - 1) r ∨ (AbsorbedNormal r ∧ n - 1 = n - 1))) =
      nOf rays (fun r => IncidentIn n c (2 * π / m) sp front j r ∧ IsAbsorbed r) := by
    rw [nOf_eq, nOf_eq]
    congr 1
    apply List.countP_congr
    intro r hr
    have h5 := h0 r hr
    simp only [decide_eq_true_eq, and_true]
    constructor
    · rintro ⟨a, b | b⟩
      · refine ⟨a, ?_⟩
        unfold AbsorbedAt at b; unfold IsAbsorbed
        rcases ho : r.out with ⟨θ, φ⟩ | ⟨A, θl⟩
        · rw [ho] at b; exact b
        · trivial
      · refine ⟨a, ?_⟩
        unfold AbsorbedNormal at b; unfold IsAbsorbed
        rcases ho : r.out with ⟨θ, φ⟩ | ⟨A, θl⟩
        · rw [ho] at b; exact b
        · trivial
    · rintro ⟨a, b⟩
      exact ⟨a, Or.inr (h5 b)⟩
  rw [this, div_self]
  obtain ⟨r, hr, h6⟩ := hj
  rw [nOf_eq]
  have : 0 < rays.countP fun r => decide (IncidentIn n c (2 * π / m) sp front j r ∧ IsAbsorbed r) := List.countP_pos_iff.mpr ⟨r, hr, by simpa using h6⟩
  exact_mod_cast this.ne'

end

/-- A ray as in `C118_normal_fails`: launched at 45° and absorbed in one layer of a facet that it hits vertically. -/
example : RayOk (2 * π / (4 : ℕ)) true 1 { θin := π / 4, φin := π / 4, out := .absorbed (fun _ => 1) 0 } where
  pos := by have := Real.pi_pos; show 0 < π / 4; positivity
  lt := by have := Real.pi_pos; show π / 4 < π / 2; linarith
  edge := by
    intro q hq
    have hpi := Real.pi_pos
    have h1 : π * (q * 2 - 1) = 0 := by push_cast at hq; linarith
    rcases mul_eq_zero.mp h1 with h | h
    · linarith
    · have h2 : (q * 2 - 1 : ℤ) = 0 := by exact_mod_cast h
      omega
  out := by have := Real.pi_pos; refine ⟨rfl, by rw [abs_zero]; positivity, fun _ => by norm_num, by norm_num⟩

end Rayflare
