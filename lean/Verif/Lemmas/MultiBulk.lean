import Verif.Model.MultiBulk
import Verif.Spec.MultiBulk

/-! # Helper lemmas: the loop of one bulk layer among several -/

namespace Rayflare.Lemmas

open Rayflare.Model Rayflare.Spec Finset

variable {ω ι κ : Type*} [Fintype ι] [DecidableEq ι]

/-- After `j` passes in bulk `i` the lists contain what they contained before, and the results of the single-bulk structure. -/
structure Tracks (i : ℕ) (m m0 : MState ω ι κ) (t : LoopState ω ι κ κ) : Prop where
  vf1 : m.vf1 i = t.vf1
  vr : m.vr i = m0.vr i ++ t.vr
  vt : m.vt i = m0.vt i ++ t.vt
  A : m.A i = m0.A i ++ t.A
  a0 : m.a i = m0.a i ++ t.a0
  a1 : m.a (i + 1) = m0.a (i + 1) ++ t.a1
  ovr : ∀ j ≠ i, m.vr j = m0.vr j
  ovt : ∀ j ≠ i, m.vt j = m0.vt j
  oA : ∀ j ≠ i, m.A j = m0.A j
  oa : ∀ j ≠ i, j ≠ i + 1 → m.a j = m0.a j

theorem tracks_enter (S : MSys ω ι κ) (i : ℕ) (m0 : MState ω ι κ) : Tracks i (S.enter i m0) m0 (Spec.onlyBulk S i).init where
  vf1 := by simp [MSys.enter, Sys.init, Spec.onlyBulk]
  vr := by simp [MSys.enter, Sys.init, Spec.onlyBulk, appendAt]
  vt := by simp [MSys.enter, Sys.init]
  A := by simp [MSys.enter, Sys.init]
  a0 := by simp [MSys.enter, Sys.init, Spec.onlyBulk, appendAt]
  a1 := by simp [MSys.enter, Sys.init, appendAt]
  ovr := fun j hj => by simp [MSys.enter, appendAt, hj]
  ovt := fun j hj => by simp [MSys.enter]
  oA := fun j hj => by simp [MSys.enter]
  oa := fun j hj _ => by simp [MSys.enter, appendAt, hj]

theorem tracks_pass (S : MSys ω ι κ) (i : ℕ) (m m0 : MState ω ι κ) (t : LoopState ω ι κ κ) (h : Tracks i m m0 t) : Tracks i (S.pass i m) m0 ((Spec.onlyBulk S i).step t) where
  vf1 := by simp only [MSys.pass, Sys.step, Sys.appendPerPassInfo, h.vf1, Function.update_self]; rfl
  vr := by simp only [MSys.pass, Sys.step, Sys.appendPerPassInfo, appendAt, h.vf1, h.vr, Function.update_self, List.append_assoc]; rfl
  vt := by simp only [MSys.pass, Sys.step, Sys.appendPerPassInfo, appendAt, h.vf1, h.vt, Function.update_self, List.append_assoc]; rfl
  A := by simp only [MSys.pass, Sys.step, Sys.appendPerPassInfo, appendAt, h.vf1, h.A, Function.update_self, List.append_assoc]; rfl
  a0 := by
    simp only [MSys.pass, Sys.step, Sys.appendPerPassInfo, appendAt, h.vf1, Function.update_self]
    rw [Function.update_of_ne (by omega), h.a0, List.append_assoc]; rfl
  a1 := by
    simp only [MSys.pass, Sys.step, Sys.appendPerPassInfo, appendAt, h.vf1]
    rw [Function.update_of_ne (by omega), Function.update_self, h.a1, List.append_assoc]; rfl
  ovr := fun j hj => by simp only [MSys.pass, appendAt, Function.update_of_ne hj, h.ovr j hj]
  ovt := fun j hj => by simp only [MSys.pass, appendAt, Function.update_of_ne hj, h.ovt j hj]
  oA := fun j hj => by simp only [MSys.pass, appendAt, Function.update_of_ne hj, h.oA j hj]
  oa := fun j hj hj' => by simp only [MSys.pass, appendAt, Function.update_of_ne hj, Function.update_of_ne hj', h.oa j hj hj']

theorem tracks_iter (S : MSys ω ι κ) (i : ℕ) (m0 : MState ω ι κ) (k : ℕ) : Tracks i ((S.pass i)^[k] (S.enter i m0)) m0 ((Spec.onlyBulk S i).step^[k] (Spec.onlyBulk S i).init) := by
  induction k with
  | zero => exact tracks_enter S i m0
  | succ k ih => rw [Function.iterate_succ_apply', Function.iterate_succ_apply']; exact tracks_pass S i _ m0 _ ih

theorem done_iff (S : MSys ω ι κ) (i : ℕ) (m m0 : MState ω ι κ) (t : LoopState ω ι κ κ) (h : Tracks i m m0 t) : S.Done i m ↔ (Spec.onlyBulk S i).Done t := by
  unfold MSys.Done Sys.Done
  rw [h.vf1]
  rfl

end Rayflare.Lemmas
