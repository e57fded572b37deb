import Verif.Model.MatMul
import Verif.Spec.System
import Verif.Lemmas.Trapz
import Mathlib.Analysis.SpecialFunctions.Log.Basic
import Mathlib.Algebra.BigOperators.Fin
import Mathlib.Algebra.Order.BigOperators.Group.Finset
import Mathlib.Algebra.Order.BigOperators.Group.List

/-! # Helper lemmas about the pass loop of `matrix_multiplication` -/

namespace Rayflare.Lemmas

set_option linter.unusedSectionVars false

open Rayflare.Np Rayflare.Model Rayflare.Spec Matrix

variable {ω ι κ κ₀ κ₁ : Type*} [Fintype ι] [DecidableEq ι] [Fintype κ] [Fintype κ₀] [Fintype κ₁]

omit [DecidableEq ι] in
theorem sum_mulVec {ρ : Type*} [Fintype ρ] (M : Matrix ρ ι ℝ) (v : ι → ℝ) :
    ∑ r, (M *ᵥ v) r = ∑ j, (∑ r, M r j) * v j := by
  simp only [Matrix.mulVec, dotProduct]
  rw [Finset.sum_comm]
  simp [Finset.sum_mul]

omit [DecidableEq ι] in
theorem sum_relabel {M : Matrix ι ι ℝ} (h : Relabels M) (v : ι → ℝ) : ∑ r, (M *ᵥ v) r = ∑ j, v j := by
  rw [sum_mulVec]; simp [h _]

omit [DecidableEq ι] in
theorem sum_conserves {R T : Matrix ι ι ℝ} {A : Matrix κ ι ℝ} (h : Conserves R T A) (v : ι → ℝ) :
    ∑ r, (R *ᵥ v) r + ∑ r, (T *ᵥ v) r + ∑ l, (A *ᵥ v) l = ∑ j, v j := by
  simp only [sum_mulVec]
  rw [← Finset.sum_add_distrib, ← Finset.sum_add_distrib]
  refine Finset.sum_congr rfl fun j _ => ?_
  rw [← add_mul, ← add_mul, h j, one_mul]

omit [DecidableEq ι] in
theorem mulVec_nonneg {ρ : Type*} {M : Matrix ρ ι ℝ} (hM : ∀ r j, 0 ≤ M r j) {v : ι → ℝ} (hv : ∀ j, 0 ≤ v j)
    (r : ρ) : 0 ≤ (M *ᵥ v) r :=
  Finset.sum_nonneg fun j _ => mul_nonneg (hM r j) (hv j)

theorem makeD_mulVec (α d : ℝ) (θ : ι → ℝ) (v : ι → ℝ) (j : ι) :
    (makeD α d θ *ᵥ v) j = Real.exp (-α * d / |Real.cos (θ j)|) * v j := by
  simp [makeD, Matrix.mulVec_diagonal]

theorem att_pos (α d c : ℝ) : 0 < Real.exp (-α * d / |c|) := Real.exp_pos _

theorem att_le_one {α d : ℝ} (hα : 0 ≤ α) (hd : 0 ≤ d) (c : ℝ) : Real.exp (-α * d / |c|) ≤ 1 := by
  rw [Real.exp_le_one_iff]
  apply div_nonpos_of_nonpos_of_nonneg _ (abs_nonneg _)
  nlinarith [mul_nonneg hα hd]

/-! ## Unfolding one pass -/

theorem sum_map_append_singleton {β : Type*} (l : List β) (x : β) (f : β → ℝ) :
    ((l ++ [x]).map f).sum = (l.map f).sum + f x := by simp

omit [Fintype κ] [Fintype κ₀] [Fintype κ₁] in
/-- In the profile branch everything except the profiles evolves as in the branch without profiles. -/
theorem stepProf_forget (S : Sys ω ι κ₀ κ₁) (hu : Relabels S.up2down) (o : ProfOpts ω ι)
    (s : LoopState ω ι κ₀ κ₁) (p : List (ω → List ℝ)) :
    { S.stepProf o s with Aprof := p } = S.step { s with Aprof := p } := by
  have : ∀ v : ω → ι → ℝ, power (dotWlU2d S.up2down v) = power v := by
    intro v; funext w; exact sum_relabel hu _
  simp only [Sys.stepProf, Sys.step, Sys.appendPerPassInfo, this]

omit [Fintype κ] [Fintype κ₀] [Fintype κ₁] in
theorem iterProf_forget (S : Sys ω ι κ₀ κ₁) (hu : Relabels S.up2down) (o : ProfOpts ω ι)
    (s : LoopState ω ι κ₀ κ₁) (p : List (ω → List ℝ)) (k : ℕ) :
    { (S.stepProf o)^[k] s with Aprof := p } = S.step^[k] { s with Aprof := p } := by
  induction k generalizing s with
  | zero => rfl
  | succ k ih => rw [Function.iterate_succ_apply, Function.iterate_succ_apply, ih, stepProf_forget S hu o]

/-- Total of everything that has left plus what is still travelling. -/
noncomputable def total (s : LoopState ω ι κ₀ κ₁) (w : ω) : ℝ :=
  s.R w + s.T w + s.Abulk w + s.Aint0 w + s.Aint1 w + ∑ j, s.vf1 w j

omit [Fintype κ] [DecidableEq ι] in
theorem total_init (S : Sys ω ι κ₀ κ₁)
    (h0 : ∀ w, Conserves (S.front0 w).R (S.front0 w).T (S.front0 w).A) (w : ω) :
    total S.init w = ∑ j, S.v0 w j := by
  have := sum_conserves (h0 w) (S.v0 w)
  simp only [total, Sys.init, LoopState.R, LoopState.T, LoopState.Abulk, LoopState.Aint0, LoopState.Aint1,
    dotWl, List.map_cons, List.map_nil, List.sum_cons, List.sum_nil]
  linarith

omit [Fintype κ] in
theorem total_step (S : Sys ω ι κ₀ κ₁) (hd : Relabels S.down2up)
    (h1 : ∀ w, Conserves (S.front1 w).R (S.front1 w).T (S.front1 w).A)
    (h2 : ∀ w, Conserves (S.rear0 w).R (S.rear0 w).T (S.rear0 w).A)
    (s : LoopState ω ι κ₀ κ₁) (w : ω) : total (S.step s) w = total s w := by
  have e0 := sum_relabel hd (s.vf1 w)
  have e1 := sum_conserves (h1 w) (S.D w *ᵥ (S.down2up *ᵥ s.vf1 w))
  have e2 := sum_conserves (h2 w) (S.up2down *ᵥ (S.D w *ᵥ ((S.front1 w).R *ᵥ (S.D w *ᵥ (S.down2up *ᵥ s.vf1 w)))))
  simp only [total, Sys.step, Sys.appendPerPassInfo, LoopState.R, LoopState.T, LoopState.Abulk,
    LoopState.Aint0, LoopState.Aint1, sum_map_append_singleton, dotWl, dotWlU2d, power] at *
  linarith

omit [Fintype κ] in
theorem total_iter (S : Sys ω ι κ₀ κ₁) (hd : Relabels S.down2up)
    (h0 : ∀ w, Conserves (S.front0 w).R (S.front0 w).T (S.front0 w).A)
    (h1 : ∀ w, Conserves (S.front1 w).R (S.front1 w).T (S.front1 w).A)
    (h2 : ∀ w, Conserves (S.rear0 w).R (S.rear0 w).T (S.rear0 w).A)
    (k : ℕ) (w : ω) : total (S.step^[k] S.init) w = ∑ j, S.v0 w j := by
  induction k with
  | zero => exact total_init S h0 w
  | succ k ih => rw [Function.iterate_succ_apply', total_step S hd h1 h2, ih]

/-! ## Non-negativity -/

/-- Every number recorded so far is non-negative. -/
def AllNonneg (s : LoopState ω ι κ₀ κ₁) : Prop :=
  (∀ w j, 0 ≤ s.vf1 w j) ∧ (∀ v ∈ s.vr, ∀ w j, 0 ≤ v w j) ∧ (∀ v ∈ s.vt, ∀ w j, 0 ≤ v w j) ∧
  (∀ v ∈ s.a0, ∀ w l, 0 ≤ v w l) ∧ (∀ v ∈ s.a1, ∀ w l, 0 ≤ v w l) ∧ ∀ v ∈ s.A, ∀ w, 0 ≤ v w

omit [Fintype κ] in
theorem nonneg_init (S : Sys ω ι κ₀ κ₁) (hp : NonnegData S) : AllNonneg S.init := by
  refine ⟨fun w => mulVec_nonneg (hp.f0 w).2.1 (hp.v0 w), ?_, ?_, ?_, ?_, ?_⟩
  · intro v hv w; simp [Sys.init] at hv; subst hv; exact mulVec_nonneg (hp.f0 w).1 (hp.v0 w)
  · simp [Sys.init]
  · intro v hv w; simp [Sys.init] at hv; subst hv; exact mulVec_nonneg (hp.f0 w).2.2 (hp.v0 w)
  · simp [Sys.init]
  · simp [Sys.init]

omit [Fintype κ₀] [Fintype κ₁] in
theorem D_nonneg (S : Sys ω ι κ₀ κ₁) {w : ω} {v : ι → ℝ} (hv : ∀ j, 0 ≤ v j) (j : ι) :
    0 ≤ (S.D w *ᵥ v) j := by
  rw [Sys.D, makeD_mulVec]; exact mul_nonneg (Real.exp_pos _).le (hv j)

theorem D_le (S : Sys ω ι κ₀ κ₁) (hp : NonnegData S) {w : ω} {v : ι → ℝ} (hv : ∀ j, 0 ≤ v j) (j : ι) :
    (S.D w *ᵥ v) j ≤ v j := by
  rw [Sys.D, makeD_mulVec]
  exact mul_le_of_le_one_left (hv j) (att_le_one (hp.α w) hp.thick _)

theorem nonneg_step (S : Sys ω ι κ₀ κ₁) (hp : NonnegData S) (hu : Relabels S.up2down)
    (s : LoopState ω ι κ₀ κ₁) (h : AllNonneg s) : AllNonneg (S.step s) := by
  obtain ⟨hv, hr, ht, ha0, ha1, hA⟩ := h
  have b1 : ∀ w j, 0 ≤ (S.down2up *ᵥ s.vf1 w) j := fun w => mulVec_nonneg hp.d2u (hv w)
  have b2 : ∀ w j, 0 ≤ (S.D w *ᵥ (S.down2up *ᵥ s.vf1 w)) j := fun w => D_nonneg S (b1 w)
  have b3 : ∀ w j, 0 ≤ ((S.front1 w).R *ᵥ (S.D w *ᵥ (S.down2up *ᵥ s.vf1 w))) j :=
    fun w => mulVec_nonneg (hp.f1 w).1 (b2 w)
  have b4 : ∀ w j, 0 ≤ (S.D w *ᵥ ((S.front1 w).R *ᵥ (S.D w *ᵥ (S.down2up *ᵥ s.vf1 w)))) j :=
    fun w => D_nonneg S (b3 w)
  have b5 : ∀ w j, 0 ≤ (S.up2down *ᵥ (S.D w *ᵥ ((S.front1 w).R *ᵥ (S.D w *ᵥ (S.down2up *ᵥ s.vf1 w))))) j :=
    fun w => mulVec_nonneg hp.u2d (b4 w)
  refine ⟨fun w => mulVec_nonneg (hp.r0 w).1 (b5 w), ?_, ?_, ?_, ?_, ?_⟩ <;>
    simp only [Sys.step, Sys.appendPerPassInfo, List.mem_append, List.mem_singleton, or_imp, forall_and, forall_eq]
  · exact ⟨hr, fun w => mulVec_nonneg (hp.r0 w).2.1 (b5 w)⟩
  · exact ⟨ht, fun w => mulVec_nonneg (hp.f1 w).2.1 (b2 w)⟩
  · exact ⟨ha0, fun w => mulVec_nonneg (hp.r0 w).2.2 (b5 w)⟩
  · exact ⟨ha1, fun w => mulVec_nonneg (hp.f1 w).2.2 (b2 w)⟩
  · refine ⟨⟨hA, fun w => ?_⟩, fun w => ?_⟩
    · simp only [power, dotWl, dotWlU2d, sub_nonneg]
      exact Finset.sum_le_sum fun j _ => D_le S hp (b1 w) j
    · simp only [power, dotWl, dotWlU2d, sub_nonneg]
      rw [sum_relabel hu]
      exact Finset.sum_le_sum fun j _ => D_le S hp (b3 w) j

theorem nonneg_iter (S : Sys ω ι κ₀ κ₁) (hp : NonnegData S) (hu : Relabels S.up2down) (k : ℕ) :
    AllNonneg (S.step^[k] S.init) := by
  induction k with
  | zero => exact nonneg_init S hp
  | succ k ih => rw [Function.iterate_succ_apply']; exact nonneg_step S hp hu _ ih

theorem totals_nonneg {s : LoopState ω ι κ₀ κ₁} (h : AllNonneg s) (w : ω) :
    0 ≤ s.R w ∧ 0 ≤ s.T w ∧ 0 ≤ s.Abulk w ∧ 0 ≤ s.Aint0 w ∧ 0 ≤ s.Aint1 w ∧ 0 ≤ ∑ j, s.vf1 w j := by
  obtain ⟨hv, hr, ht, ha0, ha1, hA⟩ := h
  refine ⟨?_, ?_, ?_, ?_, ?_, Finset.sum_nonneg fun j _ => hv w j⟩ <;> refine List.sum_nonneg ?_ <;>
    simp only [List.mem_map, forall_exists_index, and_imp, forall_apply_eq_imp_iff₂]
  · exact fun v hv => Finset.sum_nonneg fun j _ => hr v hv w j
  · exact fun v hv => Finset.sum_nonneg fun j _ => ht v hv w j
  · exact fun v hv => hA v hv w
  · exact fun v hv => Finset.sum_nonneg fun j _ => ha0 v hv w j
  · exact fun v hv => Finset.sum_nonneg fun j _ => ha1 v hv w j

/-! ## The loop as an iteration -/

omit [Fintype ι] [DecidableEq ι] [Fintype κ₀] [Fintype κ₁] in
theorem exists_exit {done : LoopState ω ι κ₀ κ₁ → Prop} {body : LoopState ω ι κ₀ κ₁ → LoopState ω ι κ₀ κ₁}
    {s : LoopState ω ι κ₀ κ₁} {K : ℕ} (h : done (body^[K] s)) :
    ∃ k t, k ≤ K ∧ LoopExits done body s k t := by
  classical
  have hex : ∃ k, done (body^[k] s) := ⟨K, h⟩
  exact ⟨Nat.find hex, _, Nat.find_min' hex h, rfl, Nat.find_spec hex, fun i hi => Nat.find_min hex hi⟩

omit [Fintype ι] [DecidableEq ι] [Fintype κ₀] [Fintype κ₁] in
theorem exit_unique {done : LoopState ω ι κ₀ κ₁ → Prop} {body : LoopState ω ι κ₀ κ₁ → LoopState ω ι κ₀ κ₁}
    {s t t' : LoopState ω ι κ₀ κ₁} {k k' : ℕ} (h : LoopExits done body s k t)
    (h' : LoopExits done body s k' t') : k = k' ∧ t = t' := by
  obtain ⟨rfl, h1, h2⟩ := h
  obtain ⟨rfl, h1', h2'⟩ := h'
  rcases lt_trichotomy k k' with hlt | rfl | hlt
  · exact absurd h1 (h2' _ hlt)
  · exact ⟨rfl, rfl⟩
  · exact absurd h1' (h2 _ hlt)

/-- One round trip of the travelling power. -/
noncomputable def roundTrip (S : Sys ω ι κ₀ κ₁) (w : ω) (v : ι → ℝ) : ι → ℝ :=
  (S.rear0 w).R *ᵥ (S.up2down *ᵥ (S.D w *ᵥ ((S.front1 w).R *ᵥ (S.D w *ᵥ (S.down2up *ᵥ v)))))

omit [Fintype κ₀] [Fintype κ₁] in
theorem step_vf1 (S : Sys ω ι κ₀ κ₁) (s : LoopState ω ι κ₀ κ₁) (w : ω) :
    (S.step s).vf1 w = roundTrip S w (s.vf1 w) := rfl

theorem power_decay (S : Sys ω ι κ₀ κ₁) (hp : NonnegData S) (hu : Relabels S.up2down) (ρ : ℝ) (h0 : 0 ≤ ρ)
    (hρ : ∀ w (v : ι → ℝ), (∀ j, 0 ≤ v j) → ∑ j, roundTrip S w v j ≤ ρ * ∑ j, v j) (k : ℕ) (w : ω) :
    ∑ j, (S.step^[k] S.init).vf1 w j ≤ ρ ^ k * ∑ j, S.init.vf1 w j := by
  induction k with
  | zero => simp
  | succ k ih =>
    rw [Function.iterate_succ_apply', step_vf1]
    refine (hρ w _ ((nonneg_iter S hp hu k).1 w)).trans ?_
    rw [pow_succ', mul_assoc]
    exact mul_le_mul_of_nonneg_left ih h0

theorem init_power_le (S : Sys ω ι κ₀ κ₁) (hp : NonnegData S)
    (h0 : ∀ w, Conserves (S.front0 w).R (S.front0 w).T (S.front0 w).A) (w : ω) :
    ∑ j, S.init.vf1 w j ≤ ∑ j, S.v0 w j := by
  have := total_init S h0 w
  have h := totals_nonneg (nonneg_init S hp) w
  simp only [total] at this
  linarith [h.1, h.2.1, h.2.2.1, h.2.2.2.1, h.2.2.2.2.1]

omit [DecidableEq ι] in
theorem sum_R_le {R T : Matrix ι ι ℝ} {A : Matrix κ ι ℝ} (hc : Conserves R T A) (hf : Fractions R T A) {v : ι → ℝ}
    (hv : ∀ j, 0 ≤ v j) : ∑ r, (R *ᵥ v) r ≤ ∑ j, v j := by
  have := sum_conserves hc v
  have h1 : 0 ≤ ∑ r, (T *ᵥ v) r := Finset.sum_nonneg fun r _ => mulVec_nonneg hf.2.1 hv r
  have h2 : 0 ≤ ∑ r, (A *ᵥ v) r := Finset.sum_nonneg fun r _ => mulVec_nonneg hf.2.2 hv r
  linarith

omit [Fintype κ₀] [Fintype κ₁] in
theorem D_sum_le (S : Sys ω ι κ₀ κ₁) (hcos : ∀ j, Real.cos (S.θ j) ≠ 0) (a : ℝ) (ha : 0 ≤ a) (hd : 0 ≤ S.thick) {w : ω}
    (hα : a ≤ S.α w) {v : ι → ℝ} (hv : ∀ j, 0 ≤ v j) :
    ∑ j, (S.D w *ᵥ v) j ≤ Real.exp (-(a * S.thick)) * ∑ j, v j := by
  rw [Finset.mul_sum]
  refine Finset.sum_le_sum fun j _ => ?_
  rw [Sys.D, makeD_mulVec]
  refine mul_le_mul_of_nonneg_right (Real.exp_le_exp.mpr ?_) (hv j)
  have hc : 0 < |Real.cos (S.θ j)| := abs_pos.mpr (hcos j)
  have hc1 := Real.abs_cos_le_one (S.θ j)
  rw [div_le_iff₀ hc]
  have h1 : a * S.thick ≤ S.α w * S.thick := mul_le_mul_of_nonneg_right hα hd
  have h2 : a * S.thick * |Real.cos (S.θ j)| ≤ a * S.thick * 1 :=
    mul_le_mul_of_nonneg_left hc1 (mul_nonneg ha hd)
  linarith

theorem roundTrip_le (S : Sys ω ι κ₀ κ₁) (hp : NonnegData S) (hu : Relabels S.up2down) (hd : Relabels S.down2up)
    (h1 : ∀ w, Conserves (S.front1 w).R (S.front1 w).T (S.front1 w).A)
    (h2 : ∀ w, Conserves (S.rear0 w).R (S.rear0 w).T (S.rear0 w).A)
    (hcos : ∀ j, Real.cos (S.θ j) ≠ 0) (a : ℝ) (ha : 0 ≤ a) (w : ω) (hα : a ≤ S.α w)
    (v : ι → ℝ) (hv : ∀ j, 0 ≤ v j) :
    ∑ j, roundTrip S w v j ≤ Real.exp (-(2 * (a * S.thick))) * ∑ j, v j := by
  have b1 := mulVec_nonneg hp.d2u hv
  have b2 := D_nonneg S (w := w) b1
  have b3 := mulVec_nonneg (hp.f1 w).1 b2
  have b4 := D_nonneg S (w := w) b3
  have b5 := mulVec_nonneg hp.u2d b4
  have e1 := sum_relabel hd v
  have e2 := D_sum_le S hcos a ha hp.thick hα b1
  have e3 := sum_R_le (h1 w) (hp.f1 w) b2
  have e4 := D_sum_le S hcos a ha hp.thick hα b3
  have e5 := sum_relabel hu (S.D w *ᵥ ((S.front1 w).R *ᵥ (S.D w *ᵥ (S.down2up *ᵥ v))))
  have e6 := sum_R_le (h2 w) (hp.r0 w) b5
  have hE := Real.exp_pos (-(a * S.thick))
  rw [e1] at e2
  have : Real.exp (-(2 * (a * S.thick))) = Real.exp (-(a * S.thick)) * Real.exp (-(a * S.thick)) := by
    rw [← Real.exp_add]; congr 1; ring
  rw [this, roundTrip, mul_assoc]
  refine e6.trans (e5.le.trans (e4.trans ?_))
  exact mul_le_mul_of_nonneg_left (e3.trans e2) hE.le

end Rayflare.Lemmas
