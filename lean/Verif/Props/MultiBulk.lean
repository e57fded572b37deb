import Verif.Lemmas.MultiBulkProf
import Verif.Props.MatMul

/-!
# Property C114: structures with several bulk layers
-/

namespace Rayflare

open Rayflare.Model Rayflare.Spec Rayflare.Lemmas Finset

variable {ω ι κ : Type*} [Fintype ι] [DecidableEq ι]

theorem bulks_lists (S : MSys ω ι κ) (k : ℕ → ℕ) (n : ℕ) (m : MState ω ι κ) (h : S.Runs k n m) :
    ∃ t : ℕ → LoopState ω ι κ κ, (∀ i < n, (Spec.onlyBulk S i).Exits (k i) (t i)) ∧
      (∀ i < n, m.vr i = (t i).vr ∧ m.vt i = (t i).vt ∧ m.A i = (t i).A) ∧ (∀ i, n ≤ i → m.vr i = [] ∧ m.vt i = [] ∧ m.A i = []) ∧
      (∀ j, m.a j = Spec.sharedRecords n (fun i => (t i).a1) (fun i => (t i).a0) j) := by
  induction h with
  | zero =>
    refine ⟨fun i => (Spec.onlyBulk S i).init, fun i hi => by omega, fun i hi => by omega, fun i _ => ⟨rfl, rfl, rfl⟩, fun j => ?_⟩
    unfold Spec.sharedRecords
    rw [if_neg (by omega), if_neg (by omega)]
    rfl
  | succ n s hrun hd hk ih =>
    obtain ⟨t, h1, h2, h3, h4⟩ := ih
    set tn := (Spec.onlyBulk S n).step^[k n] (Spec.onlyBulk S n).init with htn
    have tr := tracks_iter S n s (k n)
    rw [← htn] at tr
    set m' := (S.pass n)^[k n] (S.enter n s) with hm'
    have hexit : (Spec.onlyBulk S n).Exits (k n) tn := by
      refine ⟨rfl, (done_iff S n _ _ _ tr).mp hd, fun j hj hdone => hk j hj ?_⟩
      exact (done_iff S n _ _ _ (tracks_iter S n s j)).mpr hdone
    obtain ⟨e1, e2, e3⟩ := h3 n (le_refl n)
    have u1 : (fun i => (Function.update t n tn i).a1) = Function.update (fun i => (t i).a1) n tn.a1 := by
      funext i; by_cases hi : i = n
      · subst hi; simp
      · simp [hi]
    have u2 : (fun i => (Function.update t n tn i).a0) = Function.update (fun i => (t i).a0) n tn.a0 := by
      funext i; by_cases hi : i = n
      · subst hi; simp
      · simp [hi]
    refine ⟨Function.update t n tn, ?_, ?_, ?_, ?_⟩
    · intro i hi
      by_cases hin : i = n
      · subst hin; rw [Function.update_self]; exact hexit
      · rw [Function.update_of_ne hin]; exact h1 i (by omega)
    · intro i hi
      by_cases hin : i = n
      · subst hin
        rw [Function.update_self, tr.vr, tr.vt, tr.A, e1, e2, e3]
        exact ⟨rfl, rfl, rfl⟩
      · rw [Function.update_of_ne hin, tr.ovr i hin, tr.ovt i hin, tr.oA i hin]; exact h2 i (by omega)
    · intro i hi
      have hin : i ≠ n := by omega
      rw [tr.ovr i hin, tr.ovt i hin, tr.oA i hin]
      exact h3 i (by omega)
    · intro j
      rw [u1, u2, sharedRecords_succ]
      by_cases hj : j = n
      · subst hj
        rw [if_pos rfl, tr.a0, h4 j]
      · rw [if_neg hj]
        by_cases hj' : j = n + 1
        · subst hj'
          rw [if_pos rfl, tr.a1, h4 (n + 1), sharedRecords_beyond _ _ _ _ (by omega)]
          rfl
        · rw [if_neg hj', tr.oa j hj hj']
          exact h4 j

/-- **C114 (partial).** For any number of bulk layers the results reported under bulk index `i` are exactly those of the structure consisting of bulk layer `i` and its two interfaces alone, illuminated from above with the full incident light, pass by pass and in total,
and the absorption reported for an interface is the sum over the (one or two) such structures it belongs to. Missing: the light is not passed on from one bulk layer to the next (`C114_opaque_front_fails`). -/
theorem C114_bulks_partial [Fintype κ] (S : MSys ω ι κ) (k : ℕ → ℕ) (n : ℕ) (m : MState ω ι κ) (h : S.Runs k n m) :
    ∃ t : ℕ → LoopState ω ι κ κ, (∀ i < n, (Spec.onlyBulk S i).Exits (k i) (t i)) ∧
      (∀ i < n, m.vr i = (t i).vr ∧ m.vt i = (t i).vt ∧ m.A i = (t i).A) ∧ (∀ j, m.a j = Spec.sharedRecords n (fun i => (t i).a1) (fun i => (t i).a0) j) ∧
      (∀ i < n, ∀ w, m.R i w = (t i).R w ∧ m.T i w = (t i).T w ∧ m.Abulk i w = (t i).Abulk w) ∧
      (∀ j w, m.Aint j w = Spec.sharedInterface n t j w) := by
  obtain ⟨t, h1, h2, -, h4⟩ := bulks_lists S k n m h
  refine ⟨t, h1, h2, h4, fun i hi w => ?_, fun j w => ?_⟩
  · obtain ⟨e1, e2, e3⟩ := h2 i hi
    unfold MState.R MState.T MState.Abulk LoopState.R LoopState.T LoopState.Abulk
    rw [e1, e2, e3]
    exact ⟨rfl, rfl, rfl⟩
  · unfold MState.Aint Spec.sharedInterface
    rw [h4 j]
    unfold Spec.sharedRecords
    rw [List.map_append, List.sum_append]
    congr 1 <;> split_ifs <;> rfl

/-- **C114 (partial), the total.** If all interfaces conserve energy then reflection, transmission, bulk absorption (summed over bulk layers), interface absorption (summed over interfaces) and the power left at the end
add up to the number of bulk layers times the incident power, not to the incident power. -/
theorem C114_total_partial [Fintype κ] (S : MSys ω ι κ) (hS : ∀ i, EnergyConserving (Spec.onlyBulk S i)) (k : ℕ → ℕ) (n : ℕ) (m : MState ω ι κ) (h : S.Runs k n m) (w : ω) :
    ∃ left : ℕ → ℝ, (∀ i < n, left i ≤ S.thresh) ∧
      ∑ i ∈ range n, (m.R i w + m.T i w + m.Abulk i w + left i) + ∑ j ∈ range (n + 1), m.Aint j w = n * ∑ b, S.v0 w b := by
  obtain ⟨t, h1, -, -, h2, h3⟩ := C114_bulks_partial S k n m h
  refine ⟨fun i => ∑ b, (t i).vf1 w b, fun i hi => (h1 i hi).2.1 w, ?_⟩
  have e : ∀ i ∈ range n, m.R i w + m.T i w + m.Abulk i w + ∑ b, (t i).vf1 w b = (∑ b, S.v0 w b) - (t i).Aint0 w - (t i).Aint1 w := by
    intro i hi
    have hi := mem_range.mp hi
    obtain ⟨a1, a2, a3⟩ := h2 i hi w
    have hb := (C15_energy_balance (Spec.onlyBulk S i) (hS i) ⟨false, [], fun _ _ _ => 0, fun _ _ => 0⟩ (k i) w).1
    simp only [] at hb
    rw [← (h1 i hi).1] at hb
    rw [a1, a2, a3]
    have : ∑ j, (Spec.onlyBulk S i).v0 w j = ∑ b, S.v0 w b := rfl
    linarith
  rw [sum_congr rfl e, sum_congr rfl (fun j _ => h3 j w)]
  unfold Spec.sharedInterface
  rw [sum_add_distrib, sum_range_succ', sum_range_succ (fun j => if j < n then (t j).Aint0 w else 0), if_neg (lt_irrefl n), if_neg (by omega), add_zero, add_zero]
  rw [sum_congr rfl (fun j hj => if_pos (show 1 ≤ j + 1 ∧ j + 1 ≤ n from ⟨by omega, mem_range.mp hj⟩)), sum_congr rfl (fun j hj => if_pos (mem_range.mp hj))]
  simp only [Nat.add_sub_cancel, sum_sub_distrib, sum_const, card_range, nsmul_eq_mul]
  ring

/-! ## Witness -/

/-- Two bulk layers that absorb nothing; the first interface absorbs 98 % of the light and transmits the rest, the other two transmit all light. -/
noncomputable def opaqueFront : MSys Unit Unit Unit where
  v0 := fun _ _ => 1
  up2down := 1
  down2up := 1
  θ := fun _ => 0
  thresh := 1 / 100
  α := fun _ _ => 0
  thick := fun _ => 1
  front := fun i _ => if i = 0 then ⟨0, fun _ _ => 1 / 50, fun _ _ => 49 / 50⟩ else ⟨0, 1, 0⟩
  rear := fun i _ => if i = 0 then ⟨0, fun _ _ => 1 / 50, fun _ _ => 49 / 50⟩ else ⟨0, 1, 0⟩

theorem opaqueFront_conserving (i : ℕ) : EnergyConserving (Spec.onlyBulk opaqueFront i) where
  u2d := by intro j; simp [Spec.onlyBulk, opaqueFront]
  d2u := by intro j; simp [Spec.onlyBulk, opaqueFront]
  f0 := by intro w j; by_cases h : i = 0 <;> simp [Spec.onlyBulk, opaqueFront, h]; norm_num
  f1 := by intro w j; simp [Spec.onlyBulk, opaqueFront]
  r0 := by intro w j; by_cases h : i = 0 <;> simp [Spec.onlyBulk, opaqueFront, h]; norm_num

theorem opaqueFront_runs : ∃ m, opaqueFront.Runs (fun _ => 1) 2 m := by
  have r0 : opaqueFront.Runs (fun _ => 1) 0 MState.empty := .zero
  have step : ∀ n s, opaqueFront.Runs (fun _ => 1) n s → ∃ s', opaqueFront.Runs (fun _ => 1) (n + 1) s' := by
    intro n s hs
    refine ⟨_, MSys.Runs.succ n s hs ?_ ?_⟩
    · intro w
      simp [power, MSys.pass, MSys.enter, opaqueFront, dotWl]
      by_cases h : n = 0 <;> simp [h]
    · intro j hj
      obtain rfl : j = 0 := by omega
      intro h
      have := h ()
      by_cases hn : n = 0 <;> simp [power, MSys.enter, opaqueFront, dotWl, Matrix.mulVec, dotProduct, hn] at this <;> norm_num at this
  obtain ⟨s1, h1⟩ := step 0 _ r0
  exact step 1 s1 h1

/-- **C114 (violated).** A structure of two bulk layers all of whose interfaces conserve energy and whose front surface absorbs 98 % of the incident light: nevertheless all the light is reported as transmitted by the second bulk layer; the light absorbed in the front surface
and the light transmitted out of the last bulk layer together are nearly twice the incident light. -/
theorem C114_opaque_front_fails :
    (∀ i, EnergyConserving (Spec.onlyBulk opaqueFront i)) ∧ (∀ w b, ((opaqueFront.front 0 w).T.mulVec (opaqueFront.v0 w)) b = 1 / 50) ∧ (∀ w, ∑ b, opaqueFront.v0 w b = 1) ∧
      (∃ m, opaqueFront.Runs (fun _ => 1) 2 m) ∧
      ∀ k m, opaqueFront.Runs k 2 m → k 0 = 1 ∧ k 1 = 1 ∧ m.T 1 () = 1 ∧ m.Aint 0 () = 49 / 50 := by
  refine ⟨opaqueFront_conserving, fun w b => by simp [opaqueFront, Matrix.mulVec, dotProduct], fun w => by simp [opaqueFront], opaqueFront_runs, ?_⟩
  intro k m hm
  obtain ⟨m1, hm1⟩ := opaqueFront_runs
  obtain ⟨t1, g1, -⟩ := C114_bulks_partial opaqueFront _ 2 m1 hm1
  obtain ⟨t, h1, -, -, h2, h3⟩ := C114_bulks_partial opaqueFront _ 2 m hm
  have k0 := (exit_unique (h1 0 (by omega)) (g1 0 (by omega))).1
  have k1 := (exit_unique (h1 1 (by omega)) (g1 1 (by omega))).1
  have e1 := (h1 1 (by omega)).1
  have e0 := (h1 0 (by omega)).1
  rw [k0] at e0
  rw [k1] at e1
  refine ⟨k0, k1, ?_, ?_⟩
  · rw [(h2 1 (by omega) ()).2.1, e1]
    simp [LoopState.T, Sys.step, Sys.appendPerPassInfo, Sys.init, Spec.onlyBulk, opaqueFront, dotWl, dotWlU2d, Sys.D, makeD]
  · rw [h3, Spec.sharedInterface, if_neg (by omega), if_pos (by omega), e0]
    simp [LoopState.Aint0, Sys.step, Sys.appendPerPassInfo, Sys.init, Spec.onlyBulk, opaqueFront, dotWl, Matrix.mulVec, dotProduct, dotWlU2d, Sys.D, makeD]

example : (∀ i, EnergyConserving (Spec.onlyBulk opaqueFront i)) ∧ ∃ k m, opaqueFront.Runs k 2 m := ⟨opaqueFront_conserving, _, opaqueFront_runs⟩

end Rayflare
