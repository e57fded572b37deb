import Verif.Model.MultiBulkProf
import Verif.Lemmas.MultiBulk

/-! # Helper lemmas: the loop with profiles of one bulk layer among several -/

namespace Rayflare.Lemmas

open Rayflare.Model Rayflare.Spec Finset

variable {ω ι κ ζ : Type*} [Fintype ι] [DecidableEq ι] [Fintype κ]

theorem sharedRecords_succ {β : Type*} (n : ℕ) (below above : ℕ → List β) (x1 x0 : List β) (j : ℕ) :
    Spec.sharedRecords (n + 1) (Function.update below n x1) (Function.update above n x0) j =
      if j = n then Spec.sharedRecords n below above n ++ x0 else if j = n + 1 then x1 else Spec.sharedRecords n below above j := by
  unfold Spec.sharedRecords
  by_cases h1 : j = n
  · subst h1
    rw [if_pos rfl, if_pos (show j < j + 1 by omega), Function.update_self, if_neg (lt_irrefl j), List.append_nil]
    congr 1
    by_cases hj : 1 ≤ j
    · rw [if_pos ⟨hj, by omega⟩, if_pos ⟨hj, le_rfl⟩, Function.update_of_ne (by omega)]
    · rw [if_neg (by omega), if_neg (by omega)]
  · rw [if_neg h1]
    by_cases h2 : j = n + 1
    · subst h2
      rw [if_pos rfl, if_pos ⟨by omega, le_rfl⟩, if_neg (by omega), Nat.add_sub_cancel, Function.update_self, List.append_nil]
    · rw [if_neg h2]
      by_cases hlt : j < n
      · rw [if_pos (show j < n + 1 by omega), if_pos hlt, Function.update_of_ne h1]
        by_cases hj : 1 ≤ j
        · rw [if_pos ⟨hj, by omega⟩, if_pos ⟨hj, by omega⟩, Function.update_of_ne (by omega)]
        · rw [if_neg (by omega), if_neg (by omega)]
      · rw [if_neg (by omega), if_neg hlt, if_neg (by omega), if_neg (by omega)]

theorem sharedRecords_beyond {β : Type*} (n : ℕ) (below above : ℕ → List β) (j : ℕ) (h : n < j) : Spec.sharedRecords n below above j = [] := by
  unfold Spec.sharedRecords
  rw [if_neg (by omega), if_neg (by omega)]
  rfl

/-- After `j` passes in bulk `i` the lists contain what they contained before, and the results of the single-bulk structure. -/
structure TracksProf (i : ℕ) (m m0 : MPState ω ι κ ζ) (t : LoopState ω ι κ κ × AProf ω ζ ζ) : Prop where
  st : Tracks i m.st m0.st t.1
  Aprof : m.Aprof i = m0.Aprof i ++ t.1.Aprof
  p0 : m.aprof i = m0.aprof i ++ t.2.p0
  p1 : m.aprof (i + 1) = m0.aprof (i + 1) ++ t.2.p1
  oAprof : ∀ j ≠ i, m.Aprof j = m0.Aprof j
  oaprof : ∀ j ≠ i, j ≠ i + 1 → m.aprof j = m0.aprof j

theorem tracksProf_enter (S : MSys ω ι κ) (q : MProfs ω ι ζ) (i : ℕ) (m0 : MPState ω ι κ ζ) : TracksProf i (S.enterProf q i m0) m0 ((Spec.onlyBulk S i).initInt (profsOf q i)) where
  st := tracks_enter S i m0.st
  Aprof := by simp [MSys.enterProf, Sys.initInt, Sys.init]
  p0 := by simp only [MSys.enterProf, Function.update_self]; rfl
  p1 := by simp [MSys.enterProf, Sys.initInt]
  oAprof := fun j hj => rfl
  oaprof := fun j hj _ => by simp [MSys.enterProf, hj]

theorem tracksProf_pass (S : MSys ω ι κ) (o : ℕ → ProfOpts ω ι) (q : MProfs ω ι ζ) (i : ℕ) (m m0 : MPState ω ι κ ζ) (h0 : m0.Aprof i = []) (t : LoopState ω ι κ κ × AProf ω ζ ζ) (h : TracksProf i m m0 t) :
    TracksProf i (S.passProf o q i m) m0 ((Spec.onlyBulk S i).stepInt (o i) (profsOf q i) t) where
  st :=
    { vf1 := by simp only [MSys.passProf, Sys.stepInt, Sys.stepProf, Sys.appendPerPassInfo, h.st.vf1, Function.update_self]; rfl
      vr := by simp only [MSys.passProf, Sys.stepInt, Sys.stepProf, Sys.appendPerPassInfo, appendAt, h.st.vf1, h.st.vr, Function.update_self, List.append_assoc]; rfl
      vt := by simp only [MSys.passProf, Sys.stepInt, Sys.stepProf, Sys.appendPerPassInfo, appendAt, h.st.vf1, h.st.vt, Function.update_self, List.append_assoc]; rfl
      A := by simp only [MSys.passProf, Sys.stepInt, Sys.stepProf, Sys.appendPerPassInfo, appendAt, h.st.vf1, h.st.A, Function.update_self, List.append_assoc]; rfl
      a0 := by
        simp only [MSys.passProf, Sys.stepInt, Sys.stepProf, Sys.appendPerPassInfo, appendAt, h.st.vf1, Function.update_self]
        rw [Function.update_of_ne (by omega), h.st.a0, List.append_assoc]; rfl
      a1 := by
        simp only [MSys.passProf, Sys.stepInt, Sys.stepProf, Sys.appendPerPassInfo, appendAt, h.st.vf1]
        rw [Function.update_of_ne (by omega), Function.update_self, h.st.a1, List.append_assoc]; rfl
      ovr := fun j hj => by simp only [MSys.passProf, appendAt, Function.update_of_ne hj, h.st.ovr j hj]
      ovt := fun j hj => by simp only [MSys.passProf, appendAt, Function.update_of_ne hj, h.st.ovt j hj]
      oA := fun j hj => by simp only [MSys.passProf, appendAt, Function.update_of_ne hj, h.st.oA j hj]
      oa := fun j hj hj' => by simp only [MSys.passProf, appendAt, Function.update_of_ne hj, Function.update_of_ne hj', h.st.oa j hj hj'] }
  Aprof := by
    have hl : m.Aprof i = t.1.Aprof := by rw [h.Aprof, h0, List.nil_append]
    simp only [MSys.passProf, Sys.stepInt, Sys.stepProf, Sys.appendPerPassInfo, h.st.vf1, Function.update_self, hl, h0, List.nil_append]
    rfl
  p0 := by
    simp only [MSys.passProf, Sys.stepInt, h.st.vf1, Function.update_self]
    rw [Function.update_of_ne (by omega), h.p0, List.append_assoc]; rfl
  p1 := by
    simp only [MSys.passProf, Sys.stepInt, h.st.vf1]
    rw [Function.update_of_ne (by omega), Function.update_self, h.p1, List.append_assoc]; rfl
  oAprof := fun j hj => by simp only [MSys.passProf, Function.update_of_ne hj, h.oAprof j hj]
  oaprof := fun j hj hj' => by simp only [MSys.passProf, Function.update_of_ne hj, Function.update_of_ne hj', h.oaprof j hj hj']

theorem tracksProf_iter (S : MSys ω ι κ) (o : ℕ → ProfOpts ω ι) (q : MProfs ω ι ζ) (i : ℕ) (m0 : MPState ω ι κ ζ) (h0 : m0.Aprof i = []) (k : ℕ) :
    TracksProf i ((S.passProf o q i)^[k] (S.enterProf q i m0)) m0 (((Spec.onlyBulk S i).stepInt (o i) (profsOf q i))^[k] ((Spec.onlyBulk S i).initInt (profsOf q i))) := by
  induction k with
  | zero => exact tracksProf_enter S q i m0
  | succ k ih => rw [Function.iterate_succ_apply', Function.iterate_succ_apply']; exact tracksProf_pass S o q i _ m0 h0 _ ih

end Rayflare.Lemmas
