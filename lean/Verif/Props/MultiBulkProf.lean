import Verif.Lemmas.MultiBulkProf
import Verif.Props.MultiBulk
import Verif.Props.IntProfile

/-!
# Properties C114 (branch with profiles) and C124 (what is returned for several bulk layers)
-/

namespace Rayflare

open Rayflare.Model Rayflare.Spec Rayflare.Lemmas Finset

variable {ω ι κ ζ : Type*} [Fintype ι] [DecidableEq ι] [Fintype κ] [Fintype ζ]

/-- **C114 (partial), with profiles.** If profiles are requested, too, the results recorded under bulk index `i` (light reflected, transmitted and absorbed in every pass, bulk profile) are exactly those of the structure consisting of bulk layer `i` and its two interfaces,
illuminated with the full incident light; what is recorded for an interface (absorption and profile, interaction by interaction) are the records of the structures it belongs to, one after the other. -/
theorem C114_profiles_partial (S : MSys ω ι κ) (o : ℕ → ProfOpts ω ι) (q : MProfs ω ι ζ) (k : ℕ → ℕ) (n : ℕ) (m : MPState ω ι κ ζ) (h : S.RunsProf o q k n m) :
    ∃ t : ℕ → LoopState ω ι κ κ × AProf ω ζ ζ,
      (∀ i < n, (Spec.onlyBulk S i).ExitsProf (o i) (k i) (t i).1 ∧ t i = ((Spec.onlyBulk S i).stepInt (o i) (Spec.profsOf q i))^[k i] ((Spec.onlyBulk S i).initInt (Spec.profsOf q i))) ∧
      (∀ i < n, m.st.vr i = (t i).1.vr ∧ m.st.vt i = (t i).1.vt ∧ m.st.A i = (t i).1.A ∧ m.Aprof i = (t i).1.Aprof) ∧
      (∀ j, m.st.a j = Spec.sharedRecords n (fun i => (t i).1.a1) (fun i => (t i).1.a0) j ∧ m.aprof j = Spec.sharedRecords n (fun i => (t i).2.p1) (fun i => (t i).2.p0) j) := by
  suffices hs : ∃ t : ℕ → LoopState ω ι κ κ × AProf ω ζ ζ,
      (∀ i < n, (Spec.onlyBulk S i).ExitsProf (o i) (k i) (t i).1 ∧ t i = ((Spec.onlyBulk S i).stepInt (o i) (Spec.profsOf q i))^[k i] ((Spec.onlyBulk S i).initInt (Spec.profsOf q i))) ∧
      (∀ i < n, m.st.vr i = (t i).1.vr ∧ m.st.vt i = (t i).1.vt ∧ m.st.A i = (t i).1.A ∧ m.Aprof i = (t i).1.Aprof) ∧
      (∀ i, n ≤ i → m.st.vr i = [] ∧ m.st.vt i = [] ∧ m.st.A i = [] ∧ m.Aprof i = []) ∧
      (∀ j, m.st.a j = Spec.sharedRecords n (fun i => (t i).1.a1) (fun i => (t i).1.a0) j ∧ m.aprof j = Spec.sharedRecords n (fun i => (t i).2.p1) (fun i => (t i).2.p0) j) by
    obtain ⟨t, h1, h2, -, h3⟩ := hs
    exact ⟨t, h1, h2, h3⟩
  induction h with
  | zero =>
    refine ⟨fun i => (Spec.onlyBulk S i).initInt (Spec.profsOf q i), fun i hi => by omega, fun i hi => by omega, fun i _ => ⟨rfl, rfl, rfl, rfl⟩, fun j => ?_⟩
    unfold Spec.sharedRecords
    rw [if_neg (by omega), if_neg (by omega), if_neg (by omega), if_neg (by omega)]
    exact ⟨rfl, rfl⟩
  | succ n s hrun hd hk ih =>
    obtain ⟨t, h1, h2, h3, h4⟩ := ih
    obtain ⟨e1, e2, e3, e4⟩ := h3 n (le_refl n)
    have tr := fun j => tracksProf_iter S o q n s e4 j
    have trn := tr (k n)
    set tn := ((Spec.onlyBulk S n).stepInt (o n) (Spec.profsOf q n))^[k n] ((Spec.onlyBulk S n).initInt (Spec.profsOf q n)) with htn
    set m' := (S.passProf o q n)^[k n] (S.enterProf q n s) with hm'
    have hexit : (Spec.onlyBulk S n).ExitsProf (o n) (k n) tn.1 := by
      refine ⟨by rw [htn, stepInt_fst], (done_iff S n _ _ _ trn.st).mp hd, fun j hj hdone => hk j hj ?_⟩
      refine (done_iff S n _ _ _ (tr j).st).mpr ?_
      rw [stepInt_fst]
      exact hdone
    have u1 : (fun i => (Function.update t n tn i).1.a1) = Function.update (fun i => (t i).1.a1) n tn.1.a1 := by
      funext i; by_cases hi : i = n
      · subst hi; simp
      · simp [hi]
    have u2 : (fun i => (Function.update t n tn i).1.a0) = Function.update (fun i => (t i).1.a0) n tn.1.a0 := by
      funext i; by_cases hi : i = n
      · subst hi; simp
      · simp [hi]
    have u3 : (fun i => (Function.update t n tn i).2.p1) = Function.update (fun i => (t i).2.p1) n tn.2.p1 := by
      funext i; by_cases hi : i = n
      · subst hi; simp
      · simp [hi]
    have u4 : (fun i => (Function.update t n tn i).2.p0) = Function.update (fun i => (t i).2.p0) n tn.2.p0 := by
      funext i; by_cases hi : i = n
      · subst hi; simp
      · simp [hi]
    refine ⟨Function.update t n tn, ?_, ?_, ?_, ?_⟩
    · intro i hi
      by_cases hin : i = n
      · subst hin; rw [Function.update_self]; exact ⟨hexit, htn⟩
      · rw [Function.update_of_ne hin]; exact h1 i (by omega)
    · intro i hi
      by_cases hin : i = n
      · subst hin
        rw [Function.update_self, trn.st.vr, trn.st.vt, trn.st.A, trn.Aprof, e1, e2, e3, e4]
        exact ⟨rfl, rfl, rfl, rfl⟩
      · rw [Function.update_of_ne hin, trn.st.ovr i hin, trn.st.ovt i hin, trn.st.oA i hin, trn.oAprof i hin]; exact h2 i (by omega)
    · intro i hi
      have hin : i ≠ n := by omega
      rw [trn.st.ovr i hin, trn.st.ovt i hin, trn.st.oA i hin, trn.oAprof i hin]
      exact h3 i (by omega)
    · intro j
      rw [u1, u2, u3, u4, sharedRecords_succ, sharedRecords_succ]
      by_cases hj : j = n
      · subst hj
        rw [if_pos rfl, if_pos rfl, trn.st.a0, trn.p0, (h4 j).1, (h4 j).2]
        exact ⟨rfl, rfl⟩
      · rw [if_neg hj, if_neg hj]
        by_cases hj' : j = n + 1
        · subst hj'
          rw [if_pos rfl, if_pos rfl, trn.st.a1, trn.p1, (h4 (n + 1)).1, (h4 (n + 1)).2, sharedRecords_beyond _ _ _ _ (by omega), sharedRecords_beyond _ _ _ _ (by omega)]
          exact ⟨rfl, rfl⟩
        · rw [if_neg hj', if_neg hj', trn.st.oa j hj hj', trn.oaprof j hj hj']
          exact h4 j

/-- **C114 (partial).** With profiles requested or not: the same number of passes in every bulk layer and the same reflection, transmission, bulk and interface absorption, pass by pass. -/
theorem C114_branches_partial (S : MSys ω ι κ) (hu : Relabels S.up2down) (o : ℕ → ProfOpts ω ι) (q : MProfs ω ι ζ) (k k' : ℕ → ℕ) (n : ℕ) (m : MPState ω ι κ ζ) (m' : MState ω ι κ) (h : S.RunsProf o q k n m) (h' : S.Runs k' n m') :
    (∀ i < n, k i = k' i ∧ m.st.vr i = m'.vr i ∧ m.st.vt i = m'.vt i ∧ m.st.A i = m'.A i) ∧ ∀ j w, m.st.Aint j w = m'.Aint j w := by
  obtain ⟨t, h1, h2, h3⟩ := C114_profiles_partial S o q k n m h
  obtain ⟨t', h1', h2', h3', -⟩ := C114_bulks_partial S k' n m' h'
  have key : ∀ i < n, k i = k' i ∧ (t i).1.vr = (t' i).vr ∧ (t i).1.vt = (t' i).vt ∧ (t i).1.A = (t' i).A ∧ (t i).1.a0 = (t' i).a0 ∧ (t i).1.a1 = (t' i).a1 := by
    intro i hi
    obtain ⟨u, hu1, hu2, hu3, hu4, hu5, hu6, -⟩ := (C19_branches_agree (Spec.onlyBulk S i) hu (o i) (k i)).1 _ (h1 i hi).1
    obtain ⟨e1, e2⟩ := exit_unique hu1 (h1' i hi)
    subst e2
    exact ⟨e1, hu2.symm, hu3.symm, hu6.symm, hu4.symm, hu5.symm⟩
  refine ⟨fun i hi => ?_, fun j w => ?_⟩
  · obtain ⟨a1, a2, a3, a4, -⟩ := key i hi
    obtain ⟨b1, b2, b3, -⟩ := h2 i hi
    obtain ⟨c1, c2, c3⟩ := h2' i hi
    exact ⟨a1, by rw [b1, a2, c1], by rw [b2, a3, c2], by rw [b3, a4, c3]⟩
  · unfold MState.Aint
    rw [(h3 j).1, h3' j]
    congr 2
    unfold Spec.sharedRecords
    congr 1
    · split_ifs with hj
      · exact (key (j - 1) (by omega)).2.2.2.2.2
      · rfl
    · split_ifs with hj
      · exact (key j hj).2.2.2.2.1
      · rfl

/-- **C114 (partial).** The bulk profile returned for every bulk layer integrates to the bulk absorption returned for it, and the profile returned for an interface integrates to the absorption in its requested layers (`req`; all layers: `A_interface`). -/
theorem C114_profile_totals_partial (S : MSys ω ι κ) (hS : ∀ i, EnergyConserving (Spec.onlyBulk S i)) (hp : ∀ i, NonnegData (Spec.onlyBulk S i)) (hcos : ∀ j, Real.cos (S.θ j) ≠ 0)
    (spacing : ℝ) (hs : 0 < spacing) (hthick : ∀ i, spacing < S.thick i) (o : ℕ → ProfOpts ω ι) (ho : ∀ i, (o i).bulkProfile = true ∧ (o i).depths = Np.arange (S.thick i) spacing)
    (q : MProfs ω ι ζ) (k : ℕ → ℕ) (n : ℕ) (m : MPState ω ι κ ζ) (h : S.RunsProf o q k n m) (w : ω) :
    (∀ i < n, Np.trapz (m.bulkProf i (o i).depths.length w) (o i).depths = m.st.Abulk i w) ∧
    ∀ j ≤ n, ∀ (f r : StoredProf ω ι ζ) (weight : ζ → ℝ) (req : Finset κ), q.front j = some f → q.rear j = some r →
      ProfStored (fun w => (S.front j w).A) f weight req → ProfStored (fun w => (S.rear j w).A) r weight req →
      (∀ z, 0 ≤ sumPasses (m.aprof j) w z) ∧ ∑ z, weight z * sumPasses (m.aprof j) w z = ((m.st.a j).map fun v => ∑ l ∈ req, v w l).sum ∧
        (req = Finset.univ → ∑ z, weight z * sumPasses (m.aprof j) w z = m.st.Aint j w) := by
  obtain ⟨t, h1, h2, h3⟩ := C114_profiles_partial S o q k n m h
  refine ⟨fun i hi => ?_, fun j hj f r weight req hf hr hpf hpr => ?_⟩
  · have := C20_profile_integral (Spec.onlyBulk S i) (hS i) (hp i) hcos (lt_trans hs (hthick i)) spacing hs (hthick i) (o i) (ho i).1 (ho i).2 (k i) w
    simp only at this
    rw [← (h1 i hi).1.1] at this
    unfold MPState.bulkProf MState.Abulk
    rw [(h2 i hi).2.2.2, (h2 i hi).2.2.1]
    exact this
  · suffices hsum : ∑ z, weight z * sumPasses (m.aprof j) w z = ((m.st.a j).map fun v => ∑ l ∈ req, v w l).sum by
      refine ⟨fun z => sumPasses_nonneg _ _ _, hsum, fun hq => ?_⟩
      subst hq
      exact hsum
    rw [(h3 j).1, (h3 j).2]
    unfold Spec.sharedRecords
    simp only [sumPasses_append, mul_add, Finset.sum_add_distrib, List.map_append, List.sum_append]
    congr 1
    · split_ifs with hc
      · obtain ⟨i, rfl⟩ : ∃ i, j = i + 1 := ⟨j - 1, by omega⟩
        simp only [Nat.add_sub_cancel]
        have := (C121_rear_partial (Spec.onlyBulk S i) (hp i) (hS i).u2d (o i) (Spec.profsOf q i) f hf weight req hpf (k i) w).2.1
        rw [← (h1 i (by omega)).2] at this
        exact this
      · simp [sumPasses]
    · split_ifs with hc
      · have := (C121_front_partial (Spec.onlyBulk S j) (hp j) (hS j).u2d (o j) (Spec.profsOf q j) f r hf hr weight req hpf hpr (k j) w).2.1
        rw [← (h1 j hc).2] at this
        exact this
      · simp [sumPasses]

/-! ## C124: what is returned -/

theorem record_lengths (S : Sys ω ι κ κ) (k : ℕ) : (S.step^[k] S.init).vt.length = k ∧ (S.step^[k] S.init).A.length = 2 * k ∧ 0 < (S.step^[k] S.init).vr.length ∧ 0 < (S.step^[k] S.init).a0.length ∧
    (S.step^[k] S.init).a1.length = k := by
  induction k with
  | zero => simp [Sys.init]
  | succ k ih =>
    rw [Function.iterate_succ_apply']
    obtain ⟨a, b, c, d, e⟩ := ih
    refine ⟨?_, ?_, ?_, ?_, ?_⟩ <;> simp only [Sys.step, Sys.appendPerPassInfo, List.length_append, List.length_cons, List.length_nil] <;> omega

/-- The loop of bulk `i` makes a pass iff at some wavelength more than the threshold gets through the interface above it. -/
theorem exits_pos_iff (S : Sys ω ι κ κ) (k : ℕ) (t : LoopState ω ι κ κ) (h : S.Exits k t) : 0 < k ↔ ∃ w, S.thresh < ∑ b, ((S.front0 w).T.mulVec (S.v0 w)) b := by
  constructor
  · intro hk
    have := h.2.2 0 hk
    unfold Sys.Done at this
    push Not at this
    exact this
  · rintro ⟨w, hw⟩
    by_contra hk
    have h0 : k = 0 := by omega
    subst h0
    have := h.2.1 w
    rw [h.1] at this
    exact absurd this (not_le.mpr hw)

theorem returned_eq (prof : Bool) (n : ℕ) (hn : 0 < n) (k : ℕ → ℕ) (m : MState ω ι κ) (t : ℕ → LoopState ω ι κ κ) (S : MSys ω ι κ) (h1 : ∀ i < n, (Spec.onlyBulk S i).Exits (k i) (t i))
    (h2 : ∀ i < n, m.vr i = (t i).vr ∧ m.vt i = (t i).vt ∧ m.A i = (t i).A) (h3 : ∀ j, m.a j = Spec.sharedRecords n (fun i => (t i).a1) (fun i => (t i).a0) j) :
    returnedVariables prof n k m =
      if 0 < k (n - 1) then if ∀ i < n, 0 < k i then some (if prof then ["R", "A_bulk", "A_interface", "T"] else ["R", "A_bulk", "T"]) else none else some ["R"] := by
  have len := fun i (hi : i < n) => record_lengths (Spec.onlyBulk S i) (k i)
  have r0 : ((List.range n).any fun i => (m.vr i).isEmpty) = false := by
    rw [List.any_eq_false]
    intro i hi
    have hi := List.mem_range.mp hi
    have := (len i hi).2.2.1
    rw [← (h1 i hi).1, ← (h2 i hi).1] at this
    simp only [List.isEmpty_iff]
    exact List.ne_nil_of_length_pos this
  unfold returnedVariables
  rw [r0, if_neg (by simp)]
  by_cases hl : 0 < k (n - 1)
  · rw [if_pos hl, if_pos hl]
    by_cases hall : ∀ i < n, 0 < k i
    · have r1 : ((List.range n).any fun i => (m.A i).isEmpty || (m.vt i).isEmpty) = false := by
        rw [List.any_eq_false]
        intro i hi
        have hi := List.mem_range.mp hi
        have e := len i hi
        rw [← (h1 i hi).1, ← (h2 i hi).2.1, ← (h2 i hi).2.2] at e
        have hk := hall i hi
        simp only [Bool.or_eq_true, List.isEmpty_iff, not_or]
        exact ⟨List.ne_nil_of_length_pos (by omega), List.ne_nil_of_length_pos (by omega)⟩
      have r2 : ((List.range (n + 1)).any fun j => (m.a j).isEmpty) = false := by
        rw [List.any_eq_false]
        intro j hj
        have hj := List.mem_range.mp hj
        simp only [List.isEmpty_iff]
        rw [h3 j]
        unfold Spec.sharedRecords
        by_cases hjn : j < n
        · have e := (len j hjn).2.2.2.1
          rw [← (h1 j hjn).1] at e
          rw [if_pos hjn]
          exact fun h => absurd (List.append_eq_nil_iff.mp h).2 (List.ne_nil_of_length_pos e)
        · obtain rfl : j = n := by omega
          have e := (len (j - 1) (by omega)).2.2.2.2
          rw [← (h1 (j - 1) (by omega)).1] at e
          have hk := hall (j - 1) (by omega)
          rw [if_pos ⟨hn, le_rfl⟩]
          exact fun h => absurd (List.append_eq_nil_iff.mp h).1 (List.ne_nil_of_length_pos (by show 0 < (t (j - 1)).a1.length; omega))
      rw [r1, r2, if_neg (by simp), if_pos hall]
      cases prof <;> rfl
    · have r1 : ((List.range n).any fun i => (m.A i).isEmpty || (m.vt i).isEmpty) = true := by
        push Not at hall
        obtain ⟨i, hi, hk⟩ := hall
        rw [List.any_eq_true]
        refine ⟨i, List.mem_range.mpr hi, ?_⟩
        have e := len i hi
        rw [← (h1 i hi).1, ← (h2 i hi).2.1, ← (h2 i hi).2.2] at e
        have : m.A i = [] := List.length_eq_zero_iff.mp (by omega)
        rw [this]; rfl
      rw [r1, if_pos rfl, if_neg hall]
  · rw [if_neg hl, if_neg hl]

theorem returned_iff (prof : Bool) (n : ℕ) (hn : 0 < n) (k : ℕ → ℕ) (m : MState ω ι κ) (t : ℕ → LoopState ω ι κ κ) (S : MSys ω ι κ) (h1 : ∀ i < n, (Spec.onlyBulk S i).Exits (k i) (t i))
    (h2 : ∀ i < n, m.vr i = (t i).vr ∧ m.vt i = (t i).vt ∧ m.A i = (t i).A) (h3 : ∀ j, m.a j = Spec.sharedRecords n (fun i => (t i).a1) (fun i => (t i).a0) j) :
    let lit : ℕ → Prop := fun i => ∃ w, S.thresh < ∑ b, ((S.front i w).T.mulVec (S.v0 w)) b
    (returnedVariables prof n k m = some (if prof then ["R", "A_bulk", "A_interface", "T"] else ["R", "A_bulk", "T"]) ↔ ∀ i < n, lit i) ∧
    (returnedVariables prof n k m = some ["R"] ↔ ¬ lit (n - 1)) ∧
    (returnedVariables prof n k m = none ↔ lit (n - 1) ∧ ∃ i < n, ¬ lit i) := by
  intro lit
  have hlit : ∀ i < n, 0 < k i ↔ lit i := fun i hi => exits_pos_iff (Spec.onlyBulk S i) (k i) (t i) (h1 i hi)
  have hall : (∀ i < n, 0 < k i) ↔ ∀ i < n, lit i := ⟨fun h i hi => (hlit i hi).mp (h i hi), fun h i hi => (hlit i hi).mpr (h i hi)⟩
  rw [returned_eq prof n hn k m t S h1 h2 h3]
  have hex : (∃ i < n, ¬ lit i) ↔ ¬ ∀ i < n, lit i := by push Not; rfl
  rw [hex]
  by_cases hl : 0 < k (n - 1)
  · have hl' : lit (n - 1) := (hlit (n - 1) (by omega)).mp hl
    rw [if_pos hl]
    by_cases ha : ∀ i < n, 0 < k i
    · have ha' := hall.mp ha
      rw [if_pos ha]
      refine ⟨⟨fun _ => ha', fun _ => rfl⟩, ⟨fun h => ?_, fun h => absurd hl' h⟩, ⟨fun h => by simp at h, fun h => absurd ha' h.2⟩⟩
      cases prof <;> simp at h
    · have ha' : ¬ ∀ i < n, lit i := fun h => ha (hall.mpr h)
      rw [if_neg ha]
      exact ⟨⟨fun h => by simp at h, fun h => absurd h ha'⟩, ⟨fun h => by simp at h, fun h => absurd hl' h⟩, ⟨fun _ => ⟨hl', ha'⟩, fun _ => rfl⟩⟩
  · have hl' : ¬ lit (n - 1) := fun h => hl ((hlit (n - 1) (by omega)).mpr h)
    rw [if_neg hl]
    refine ⟨⟨fun h => ?_, fun h => absurd (h (n - 1) (by omega)) hl'⟩, ⟨fun _ => hl', fun _ => rfl⟩, ⟨fun h => by simp at h, fun h => absurd h.1 hl'⟩⟩
    cases prof <;> simp at h

/-- **C124 (partial).** For `n` bulk layers the full results are returned iff, for *every* bulk layer, at some wavelength more than the threshold of the incident light passes the interface above it in a single interaction. Otherwise only `R` is returned if the
last bulk layer does not meet this condition, and an exception is raised if it does. -/
theorem C124_returned_partial (S : MSys ω ι κ) (k : ℕ → ℕ) (n : ℕ) (hn : 0 < n) (m : MState ω ι κ) (h : S.Runs k n m) :
    let lit : ℕ → Prop := fun i => ∃ w, S.thresh < ∑ b, ((S.front i w).T.mulVec (S.v0 w)) b
    (returnedVariables false n k m = some ["R", "A_bulk", "T"] ↔ ∀ i < n, lit i) ∧
    (returnedVariables false n k m = some ["R"] ↔ ¬ lit (n - 1)) ∧
    (returnedVariables false n k m = none ↔ lit (n - 1) ∧ ∃ i < n, ¬ lit i) := by
  obtain ⟨t, h1, h2, h3, -⟩ := C114_bulks_partial S k n m h
  exact returned_iff false n hn k m t S h1 h2 h3

/-- **C124 (partial), with profiles requested.** -/
theorem C124_returned_profiles_partial (S : MSys ω ι κ) (hu : Relabels S.up2down) (o : ℕ → ProfOpts ω ι) (q : MProfs ω ι ζ) (k : ℕ → ℕ) (n : ℕ) (hn : 0 < n) (m : MPState ω ι κ ζ) (h : S.RunsProf o q k n m) :
    let lit : ℕ → Prop := fun i => ∃ w, S.thresh < ∑ b, ((S.front i w).T.mulVec (S.v0 w)) b
    (returnedVariables true n k m.st = some ["R", "A_bulk", "A_interface", "T"] ↔ ∀ i < n, lit i) ∧
    (returnedVariables true n k m.st = some ["R"] ↔ ¬ lit (n - 1)) ∧
    (returnedVariables true n k m.st = none ↔ lit (n - 1) ∧ ∃ i < n, ¬ lit i) := by
  obtain ⟨t, h1, h2, h3⟩ := C114_profiles_partial S o q k n m h
  have hex : ∀ i, ∃ u : LoopState ω ι κ κ, i < n → ((Spec.onlyBulk S i).Exits (k i) u ∧ u.vr = (t i).1.vr ∧ u.vt = (t i).1.vt ∧ u.a0 = (t i).1.a0 ∧ u.a1 = (t i).1.a1 ∧ u.A = (t i).1.A) := by
    intro i
    by_cases hi : i < n
    · obtain ⟨u, a1, a2, a3, a4, a5, a6, -⟩ := (C19_branches_agree (Spec.onlyBulk S i) hu (o i) (k i)).1 _ (h1 i hi).1
      exact ⟨u, fun _ => ⟨a1, a2, a3, a4, a5, a6⟩⟩
    · exact ⟨(Spec.onlyBulk S i).init, fun hh => absurd hh hi⟩
  choose u hu' using hex
  refine returned_iff true n hn k m.st u S (fun i hi => (hu' i hi).1) (fun i hi => ?_) (fun j => ?_)
  · obtain ⟨-, a2, a3, -, -, a6⟩ := hu' i hi
    obtain ⟨b1, b2, b3, -⟩ := h2 i hi
    exact ⟨by rw [b1, a2], by rw [b2, a3], by rw [b3, a6]⟩
  · rw [(h3 j).1]
    unfold Spec.sharedRecords
    congr 1
    · split_ifs with hj
      · exact (hu' (j - 1) (by omega)).2.2.2.2.1.symm
      · rfl
    · split_ifs with hj
      · exact (hu' j hj).2.2.2.1.symm
      · rfl

/-! ## Witnesses -/

/-- Two bulk layers that absorb nothing. Interface `d` absorbs all light, the other two transmit all light. -/
noncomputable def oneDark (d : ℕ) : MSys Unit Unit Unit where
  v0 := fun _ _ => 1
  up2down := 1
  down2up := 1
  θ := fun _ => 0
  thresh := 1 / 100
  α := fun _ _ => 0
  thick := fun _ => 1
  front := fun i _ => if i = d then ⟨0, 0, fun _ _ => 1⟩ else ⟨0, 1, 0⟩
  rear := fun i _ => if i = d then ⟨0, 0, fun _ _ => 1⟩ else ⟨0, 1, 0⟩

theorem oneDark_conserving (d i : ℕ) : EnergyConserving (Spec.onlyBulk (oneDark d) i) where
  u2d := by intro j; simp [Spec.onlyBulk, oneDark]
  d2u := by intro j; simp [Spec.onlyBulk, oneDark]
  f0 := by intro w j; by_cases h : i = d <;> simp [Spec.onlyBulk, oneDark, h]
  f1 := by intro w j; by_cases h : i + 1 = d <;> simp [Spec.onlyBulk, oneDark, h]
  r0 := by intro w j; by_cases h : i = d <;> simp [Spec.onlyBulk, oneDark, h]

theorem oneDark_runs (d n : ℕ) : ∃ m, (oneDark d).Runs (fun i => if i = d then 0 else 1) n m := by
  induction n with
  | zero => exact ⟨_, .zero⟩
  | succ n ih =>
    obtain ⟨s, hs⟩ := ih
    refine ⟨_, MSys.Runs.succ n s hs ?_ ?_⟩
    · intro w
      by_cases h : n = d
      · simp [power, MSys.enter, oneDark, dotWl, h]
      · simp [power, MSys.pass, MSys.enter, oneDark, dotWl, h]
    · intro j hj
      by_cases h : n = d
      · rw [if_pos h] at hj; omega
      · rw [if_neg h] at hj
        obtain rfl : j = 0 := by omega
        intro hd
        have := hd ()
        simp [power, MSys.enter, oneDark, dotWl, h] at this
        norm_num at this

/-- **C124 (violated).** Two bulk layers between energy conserving interfaces. If the front surface absorbs all light, an exception is raised. If the interface between the bulk layers absorbs all light, only `R` is returned: neither the light transmitted by nor that absorbed in the first bulk layer. -/
theorem C124_returned_fails :
    (∀ d i, EnergyConserving (Spec.onlyBulk (oneDark d) i)) ∧
    (∃ k m, (oneDark 0).Runs k 2 m) ∧ (∀ k m, (oneDark 0).Runs k 2 m → returnedVariables false 2 k m = none) ∧
    (∃ k m, (oneDark 1).Runs k 2 m) ∧ (∀ k m, (oneDark 1).Runs k 2 m → returnedVariables false 2 k m = some ["R"]) := by
  refine ⟨oneDark_conserving, ⟨_, oneDark_runs 0 2⟩, fun k m h => ?_, ⟨_, oneDark_runs 1 2⟩, fun k m h => ?_⟩
  · refine (C124_returned_partial (oneDark 0) k 2 (by omega) m h).2.2.mpr ⟨⟨(), ?_⟩, 0, by omega, ?_⟩
    · simp [oneDark]; norm_num
    · rintro ⟨w, hw⟩
      simp [oneDark] at hw
      norm_num at hw
  · refine (C124_returned_partial (oneDark 1) k 2 (by omega) m h).2.1.mpr ?_
    rintro ⟨w, hw⟩
    simp [oneDark] at hw
    norm_num at hw

/-- The case in which all is returned occurs: the structure of `C114_opaque_front_fails`. -/
example : ∃ k m, opaqueFront.Runs k 2 m ∧ returnedVariables false 2 k m = some ["R", "A_bulk", "T"] := by
  obtain ⟨m, hm⟩ := opaqueFront_runs
  refine ⟨_, m, hm, (C124_returned_partial opaqueFront _ 2 (by omega) m hm).1.mpr fun i hi => ⟨(), ?_⟩⟩
  by_cases h : i = 0 <;> simp [opaqueFront, h, Matrix.mulVec, dotProduct] <;> norm_num

/-- Runs with profiles exist: those of the same structure, with the bulk profile requested and no interface profile, and the hypotheses on the data hold. -/
example : ∃ m : MPState Unit Unit Unit (Fin 2), opaqueFront.RunsProf (fun _ => ⟨true, Np.arange 1 (1 / 4), fun _ _ _ => 0, fun _ _ => 0⟩) ⟨fun _ => none, fun _ => none⟩ (fun _ => 1) 2 m := by
  have step : ∀ n s, opaqueFront.RunsProf (ζ := Fin 2) (fun _ => ⟨true, Np.arange 1 (1 / 4), fun _ _ _ => 0, fun _ _ => 0⟩) ⟨fun _ => none, fun _ => none⟩ (fun _ => 1) n s →
      ∃ s', opaqueFront.RunsProf (ζ := Fin 2) (fun _ => ⟨true, Np.arange 1 (1 / 4), fun _ _ _ => 0, fun _ _ => 0⟩) ⟨fun _ => none, fun _ => none⟩ (fun _ => 1) (n + 1) s' := by
    intro n s hs
    refine ⟨_, MSys.RunsProf.succ n s hs ?_ ?_⟩
    · intro w
      simp [power, MSys.passProf, MSys.enterProf, MSys.enter, opaqueFront, dotWl]
      by_cases h : n = 0 <;> simp [h]
    · intro j hj
      obtain rfl : j = 0 := by omega
      intro h
      have := h ()
      by_cases hn : n = 0 <;> simp [power, MSys.enterProf, MSys.enter, opaqueFront, dotWl, Matrix.mulVec, dotProduct, hn] at this <;> norm_num at this
  obtain ⟨s1, h1⟩ := step 0 _ .zero
  exact step 1 s1 h1

example : (∀ i, NonnegData (Spec.onlyBulk opaqueFront i)) ∧ (∀ j, Real.cos (opaqueFront.θ j) ≠ 0) ∧ (∀ i, (1 / 4 : ℝ) < opaqueFront.thick i) ∧ Relabels opaqueFront.up2down ∧
    ProfStored (fun w => (opaqueFront.front 0 w).A) ⟨fun _ _ => 49 / 50, fun _ (_ : Fin 2) _ => 49 / 100, fun _ _ => 0⟩ (fun _ => 1) Finset.univ := by
  refine ⟨fun i => ?_, fun j => by simp [opaqueFront], fun i => by simp [opaqueFront]; norm_num, (opaqueFront_conserving 0).u2d, ⟨fun _ _ => by norm_num, fun _ _ _ => by norm_num, fun _ _ h => by norm_num at h, fun w j => ?_⟩⟩
  · constructor <;> by_cases h : i = 0 <;> simp [Spec.onlyBulk, opaqueFront, h, Fractions] <;> norm_num
  · simp [opaqueFront]; norm_num

end Rayflare
