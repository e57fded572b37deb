import Verif.Props.MatMul
import Verif.Spec.Parasitic
import Verif.Spec.Compare

/-!
# Property C196: absorption in the surfaces only takes light away from everything else
-/

namespace Rayflare

open Rayflare.Np Rayflare.Model Rayflare.Spec Rayflare.Lemmas Matrix

set_option linter.unusedSectionVars false

section
variable {ω ι κ₀ κ₁ κ₀' κ₁' : Type*} [Fintype ι] [DecidableEq ι] [Fintype κ₀] [Fintype κ₁] [Fintype κ₀'] [Fintype κ₁']

/-! ## Helper lemmas -/

theorem mulVec_le_mulVec {ρ : Type*} {M' M : Matrix ρ ι ℝ} (hM : ∀ r j, 0 ≤ M' r j ∧ M' r j ≤ M r j) {v' v : ι → ℝ} (hv : ∀ j, 0 ≤ v' j ∧ v' j ≤ v j) (r : ρ) : 0 ≤ (M' *ᵥ v') r ∧ (M' *ᵥ v') r ≤ (M *ᵥ v) r :=
  ⟨Finset.sum_nonneg fun j _ => mul_nonneg (hM r j).1 (hv j).1, Finset.sum_le_sum fun j _ => mul_le_mul (hM r j).2 (hv j).2 (hv j).1 ((hM r j).1.trans (hM r j).2)⟩

theorem lost_le (S : Sys ω ι κ₀ κ₁) (hp : NonnegData S) (w : ω) {v' v : ι → ℝ} (hv : ∀ j, v' j ≤ v j) : ∑ j, v' j - ∑ j, (S.D w *ᵥ v') j ≤ ∑ j, v j - ∑ j, (S.D w *ᵥ v) j := by
  rw [← Finset.sum_sub_distrib, ← Finset.sum_sub_distrib]
  refine Finset.sum_le_sum fun j _ => ?_
  rw [Sys.D, makeD_mulVec, makeD_mulVec]
  have h := mul_le_mul_of_nonneg_left (hv j) (sub_nonneg.mpr (att_le_one (hp.α w) hp.thick (Real.cos (S.θ j))))
  linarith

/-- Less light under way, and less recorded. -/
def LessLight (s' : LoopState ω ι κ₀' κ₁') (s : LoopState ω ι κ₀ κ₁) : Prop :=
  ∀ w, (∀ j, 0 ≤ s'.vf1 w j ∧ s'.vf1 w j ≤ s.vf1 w j) ∧ (∀ j, recR s' w j ≤ recR s w j) ∧ (∀ j, recT s' w j ≤ recT s w j) ∧ s'.Abulk w ≤ s.Abulk w

variable {S' : Sys ω ι κ₀' κ₁'} {S : Sys ω ι κ₀ κ₁} (hp : NonnegData S) (hu : Relabels S.up2down) (h : MoreParasitic S' S)
include hp hu h

theorem less_init : LessLight S'.init S.init := by
  intro w
  have hv : ∀ j, 0 ≤ S'.v0 w j ∧ S'.v0 w j ≤ S.v0 w j := fun j => by rw [h.v0]; exact ⟨hp.v0 w j, le_rfl⟩
  refine ⟨mulVec_le_mulVec (h.front0 w).2 hv, fun j => ?_, fun j => ?_, ?_⟩
  · simpa [recR, Sys.init, dotWl] using (mulVec_le_mulVec (h.front0 w).1 hv j).2
  · simp [recT, Sys.init]
  · simp [LoopState.Abulk, Sys.init]

theorem less_step {s' : LoopState ω ι κ₀' κ₁'} {s : LoopState ω ι κ₀ κ₁} (hs : LessLight s' s) : LessLight (S'.step s') (S.step s) := by
  intro w
  obtain ⟨h1, h2, h3, h4⟩ := hs w
  have hD : S'.D = S.D := by funext w; simp only [Sys.D, h.α, h.thick, h.θ]
  have b1 := mulVec_le_mulVec (M' := S.down2up) (M := S.down2up) (fun r j => ⟨hp.d2u r j, le_rfl⟩) h1
  have hDD : ∀ {v' v : ι → ℝ}, (∀ j, 0 ≤ v' j ∧ v' j ≤ v j) → ∀ j, 0 ≤ (S.D w *ᵥ v') j ∧ (S.D w *ᵥ v') j ≤ (S.D w *ᵥ v) j := fun hv j => by
    refine ⟨D_nonneg S (fun j => (hv j).1) j, ?_⟩
    rw [Sys.D, makeD_mulVec, makeD_mulVec]
    exact mul_le_mul_of_nonneg_left (hv j).2 (Real.exp_pos _).le
  have b2 := hDD b1
  have b3 := mulVec_le_mulVec (h.front1 w).1 b2
  have b4 := hDD b3
  have b5 := mulVec_le_mulVec (M' := S.up2down) (M := S.up2down) (fun r j => ⟨hp.u2d r j, le_rfl⟩) b4
  refine ⟨?_, fun j => ?_, fun j => ?_, ?_⟩
  · simp only [step_vf1, roundTrip, hD, h.d2u, h.u2d]
    exact mulVec_le_mulVec (h.rear0 w).1 b5
  · simp only [recR, Sys.step, Sys.appendPerPassInfo, sum_map_append_singleton, dotWl, dotWlU2d, hD, h.d2u, h.u2d]
    exact add_le_add (h2 j) (mulVec_le_mulVec (h.rear0 w).2 b5 j).2
  · simp only [recT, Sys.step, Sys.appendPerPassInfo, sum_map_append_singleton, dotWl, dotWlU2d, hD, h.d2u]
    exact add_le_add (h3 j) (mulVec_le_mulVec (h.front1 w).2 b2 j).2
  · simp only [LoopState.Abulk, Sys.step, Sys.appendPerPassInfo, sum_map_append_singleton, dotWl, dotWlU2d, power, hD, h.d2u, h.u2d]
    rw [sum_relabel hu, sum_relabel hu]
    exact add_le_add (add_le_add h4 (lost_le S hp w fun j => (b1 j).2)) (lost_le S hp w fun j => (b3 j).2)

theorem less_iter (k : ℕ) : LessLight (S'.step^[k] S'.init) (S.step^[k] S.init) := by
  induction k with
  | zero => exact less_init hp hu h
  | succ k ih => rw [Function.iterate_succ_apply', Function.iterate_succ_apply']; exact less_step hp hu h ih

theorem less_done {k : ℕ} (hd : S.Done (S.step^[k] S.init)) : S'.Done (S'.step^[k] S'.init) := fun w => by
  rw [h.thresh]
  exact (Finset.sum_le_sum fun j _ => (((less_iter hp hu h k) w).1 j).2).trans (hd w)

omit h in
theorem records_grow {k' k : ℕ} (hk : k' ≤ k) (w : ω) : (∀ j, recR (S.step^[k'] S.init) w j ≤ recR (S.step^[k] S.init) w j) ∧ (∀ j, recT (S.step^[k'] S.init) w j ≤ recT (S.step^[k] S.init) w j) ∧
    (S.step^[k'] S.init).Abulk w ≤ (S.step^[k] S.init).Abulk w := by
  induction k, hk using Nat.le_induction with
  | base => exact ⟨fun _ => le_rfl, fun _ => le_rfl, le_rfl⟩
  | succ k _ ih =>
    obtain ⟨i1, i2, i3⟩ := ih
    have hn := nonneg_iter S hp hu (k + 1)
    rw [Function.iterate_succ_apply'] at hn ⊢
    obtain ⟨-, n2, n3, -, -, n6⟩ := hn
    generalize S.step^[k] S.init = s at *
    refine ⟨fun j => (i1 j).trans ?_, fun j => (i2 j).trans ?_, i3.trans ?_⟩
    · simp only [recR, Sys.step, Sys.appendPerPassInfo, sum_map_append_singleton]
      exact le_add_of_nonneg_right (n2 _ (by simp [Sys.step, Sys.appendPerPassInfo]) w j)
    · simp only [recT, Sys.step, Sys.appendPerPassInfo, sum_map_append_singleton]
      exact le_add_of_nonneg_right (n3 _ (by simp [Sys.step, Sys.appendPerPassInfo]) w j)
    · simp only [LoopState.Abulk, Sys.step, Sys.appendPerPassInfo, sum_map_append_singleton]
      simp only [Sys.step, Sys.appendPerPassInfo, List.mem_append, List.mem_singleton, or_imp, forall_and, forall_eq] at n6
      rw [add_assoc]
      exact le_add_of_nonneg_right (add_nonneg (n6.1.2 w) (n6.2 w))

end

section
variable {ω ι κ₀ κ₁ : Type*} [Fintype ι] [DecidableEq ι] [Fintype κ₀] [Fintype κ₁]

theorem run_records {S : Sys ω ι κ₀ κ₁} (hu : Relabels S.up2down) {o : ProfOpts ω ι} {k : ℕ} {t : LoopState ω ι κ₀ κ₁} (ht : S.Exits k t ∨ S.ExitsProf o k t) :
    t.vr = (S.step^[k] S.init).vr ∧ t.vt = (S.step^[k] S.init).vt ∧ t.A = (S.step^[k] S.init).A ∧ S.Done (S.step^[k] S.init) ∧ ∀ i < k, ¬ S.Done (S.step^[i] S.init) := by
  rcases ht with ⟨rfl, h2, h3⟩ | ⟨rfl, h2, h3⟩
  · exact ⟨rfl, rfl, rfl, h2, h3⟩
  · have e : ∀ i, { (S.stepProf o)^[i] S.init with Aprof := [] } = S.step^[i] S.init := iterProf_forget S hu o S.init []
    have hd : ∀ i, S.Done ((S.stepProf o)^[i] S.init) ↔ S.Done (S.step^[i] S.init) := fun i => by rw [← e i]; rfl
    refine ⟨by rw [← e k], by rw [← e k], by rw [← e k], (hd k).mp h2, fun i hi hc => h3 i hi ((hd i).mpr hc)⟩

end

/-! ## The property -/

variable {ω ι κ₀ κ₁ κ₀' κ₁' : Type*} [Fintype ι] [DecidableEq ι] [Fintype κ₀] [Fintype κ₁] [Fintype κ₀'] [Fintype κ₁']

/-- **C196.** If the surfaces of a structure are replaced by ones that send less light (or as much) from every direction into every other direction, because they absorb more, then `calculate_RAT` makes at most as many passes, and returns at most as much
reflection and transmission, into every direction and in total, and at most as much absorption in the bulk layer. -/
theorem C196_parasitic (S' : Sys ω ι κ₀' κ₁') (S : Sys ω ι κ₀ κ₁) (hp : NonnegData S) (hu : Relabels S.up2down) (h : MoreParasitic S' S) (o o' : ProfOpts ω ι) (k k' : ℕ) (t : LoopState ω ι κ₀ κ₁) (t' : LoopState ω ι κ₀' κ₁')
    (ht : S.Exits k t ∨ S.ExitsProf o k t) (ht' : S'.Exits k' t' ∨ S'.ExitsProf o' k' t') :
    k' ≤ k ∧ ∀ w, (∀ j, recR t' w j ≤ recR t w j) ∧ (∀ j, recT t' w j ≤ recT t w j) ∧ t'.R w ≤ t.R w ∧ t'.T w ≤ t.T w ∧ t'.Abulk w ≤ t.Abulk w := by
  obtain ⟨a1, a2, a3, a4, -⟩ := run_records hu ht
  obtain ⟨b1, b2, b3, -, b5⟩ := run_records (by rw [h.u2d]; exact hu) ht'
  have hk : k' ≤ k := by
    by_contra hc
    exact b5 k (by omega) (less_done hp hu h a4)
  refine ⟨hk, fun w => ?_⟩
  obtain ⟨-, c2, c3, c4⟩ := less_iter hp hu h k' w
  obtain ⟨d2, d3, d4⟩ := records_grow hp hu hk w
  have eR : ∀ j, recR t' w j ≤ recR t w j := fun j => by
    have := (c2 j).trans (d2 j)
    simpa only [recR, a1, b1] using this
  have eT : ∀ j, recT t' w j ≤ recT t w j := fun j => by
    have := (c3 j).trans (d3 j)
    simpa only [recT, a2, b2] using this
  have hsum : ∀ (l : List (ω → ι → ℝ)), (l.map fun v => ∑ j, v w j).sum = ∑ j, (l.map fun v => v w j).sum := fun l => by
    induction l with
    | nil => simp
    | cons v l ih => simp only [List.map_cons, List.sum_cons, ih, Finset.sum_add_distrib]
  refine ⟨eR, eT, ?_, ?_, ?_⟩
  · have := Finset.sum_le_sum fun j (_ : j ∈ Finset.univ) => eR j
    simp only [LoopState.R]
    rw [hsum, hsum]
    exact this
  · have := Finset.sum_le_sum fun j (_ : j ∈ Finset.univ) => eT j
    simp only [LoopState.T]
    rw [hsum, hsum]
    exact this
  · have := c4.trans d4
    simpa only [LoopState.Abulk, a3, b3] using this

/-- **C196, the loop ends.** If the calculation ends, so does the one with surfaces that absorb more, in both branches of the code. -/
theorem C196_ends (S' : Sys ω ι κ₀' κ₁') (S : Sys ω ι κ₀ κ₁) (hp : NonnegData S) (hu : Relabels S.up2down) (h : MoreParasitic S' S) (o o' : ProfOpts ω ι) (k : ℕ) (t : LoopState ω ι κ₀ κ₁) (ht : S.Exits k t ∨ S.ExitsProf o k t) :
    (∃ k' t', S'.Exits k' t') ∧ ∃ k' t', S'.ExitsProf o' k' t' := by
  obtain ⟨-, -, -, a4, -⟩ := run_records hu ht
  have hd := less_done hp hu h a4
  have hu' : Relabels S'.up2down := by rw [h.u2d]; exact hu
  constructor
  · obtain ⟨k', t', -, ht'⟩ := exists_exit hd
    exact ⟨k', t', ht'⟩
  · have e : { (S'.stepProf o')^[k] S'.init with Aprof := [] } = S'.step^[k] S'.init := iterProf_forget S' hu' o' S'.init [] k
    have hd' : S'.Done ((S'.stepProf o')^[k] S'.init) := by rw [← e] at hd; exact hd
    obtain ⟨k', t', -, ht'⟩ := exists_exit hd'
    exact ⟨k', t', ht'⟩

/-! ## Example: two layers instead of one in each surface, which reflect and transmit less -/

noncomputable def darkMats : Mats (Fin 2) (Fin 2) where
  R := fun r j => if r ≠ j then 1 / 4 else 0
  T := fun r j => if r = j then 1 / 8 else 0
  A := fun _ _ => 5 / 16

noncomputable def darkSys : Sys (Fin 2) (Fin 2) (Fin 2) (Fin 2) :=
  ⟨exSys.v0, exSys.up2down, exSys.down2up, exSys.α, exSys.thick, exSys.θ, fun _ => darkMats, fun _ => darkMats, fun _ => darkMats, exSys.thresh⟩

theorem exSys_ends (o : ProfOpts (Fin 2) (Fin 2)) : ∃ k, (∃ t, exSys.Exits k t) ∧ ∃ t, exSys.ExitsProf o k t := by
  obtain ⟨k, _, h⟩ := C17_absorbing_bulk exSys exSys_conserving exSys_nonneg exSys_cos 3 (by norm_num)
    (by intro w; simp only [exSys]; split_ifs <;> norm_num) (by norm_num [exSys])
    (by intro w; simp [exSys]) (by norm_num [exSys]) o
  exact ⟨k, h⟩

theorem dark_absorbs : AbsorbsMore darkMats exMats := by
  refine ⟨fun r j => ?_, fun r j => ?_⟩ <;> simp only [darkMats, exMats] <;> split_ifs <;> norm_num

example (o : ProfOpts (Fin 2) (Fin 2)) : MoreParasitic darkSys exSys ∧ NonnegData exSys ∧ Relabels exSys.up2down ∧ (∃ k t, exSys.Exits k t) ∧ ∃ k t, darkSys.ExitsProf o k t := by
  have h : MoreParasitic darkSys exSys := ⟨rfl, rfl, rfl, rfl, rfl, rfl, rfl, fun _ => dark_absorbs, fun _ => dark_absorbs, fun _ => dark_absorbs⟩
  obtain ⟨k, ⟨t, ht⟩, -⟩ := exSys_ends o
  exact ⟨h, exSys_nonneg, exSys_conserving.u2d, ⟨k, t, ht⟩, (C196_ends darkSys exSys exSys_nonneg exSys_conserving.u2d h o o k t (Or.inl ht)).2⟩

end Rayflare
