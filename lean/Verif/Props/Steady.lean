import Verif.Spec.Steady
import Verif.Props.Termination
import Mathlib.Topology.Algebra.InfiniteSum.Real
import Mathlib.Analysis.SpecificLimits.Basic

/-!
# Property C133: the results are within `I_thresh` of the exact ones
-/

namespace Rayflare

open Rayflare.Np Rayflare.Model Rayflare.Spec Rayflare.Lemmas Matrix

set_option linter.unusedSectionVars false

variable {ω ι κ₀ κ₁ : Type*} [Fintype ι] [DecidableEq ι] [Fintype κ₀] [Fintype κ₁]

/-! ## Helper lemmas -/

/-- The flows caused by light going down with powers `y`. -/
noncomputable def flowsOf (S : Sys ω ι κ₀ κ₁) (w : ω) (y : ι → ℝ) : Flows ι where
  down0 := y
  down1 := S.D w *ᵥ (S.down2up *ᵥ y)
  up1 := (S.front1 w).R *ᵥ (S.D w *ᵥ (S.down2up *ᵥ y))
  up0 := S.up2down *ᵥ (S.D w *ᵥ ((S.front1 w).R *ᵥ (S.D w *ᵥ (S.down2up *ᵥ y))))

theorem flowsOf_add (S : Sys ω ι κ₀ κ₁) (w : ω) (y z : ι → ℝ) :
    (flowsOf S w (y + z)).down1 = (flowsOf S w y).down1 + (flowsOf S w z).down1 ∧
    (flowsOf S w (y + z)).up1 = (flowsOf S w y).up1 + (flowsOf S w z).up1 ∧
    (flowsOf S w (y + z)).up0 = (flowsOf S w y).up0 + (flowsOf S w z).up0 := by
  simp only [flowsOf, Matrix.mulVec_add, and_self]

theorem flowsOf_trip (S : Sys ω ι κ₀ κ₁) (w : ω) (y : ι → ℝ) : (S.rear0 w).R *ᵥ (flowsOf S w y).up0 = roundTrip S w y := rfl

theorem steady_eq {S : Sys ω ι κ₀ κ₁} {w : ω} {f : Flows ι} (h : IsSteady S w f) : f = flowsOf S w f.down0 := by
  obtain ⟨a, b, c, e⟩ := f
  obtain ⟨-, -, h3, h4, h5⟩ := h
  simp only at h3 h4 h5
  subst h3; subst h4; subst h5
  rfl

/-- What is known after `k` passes: `y` is the part of the steady flow that is not yet accounted for. -/
structure Left (S : Sys ω ι κ₀ κ₁) (w : ω) (f : Flows ι) (t : LoopState ω ι κ₀ κ₁) (y : ι → ℝ) : Prop where
  nonneg : ∀ j, 0 ≤ y j
  fix : y = t.vf1 w + roundTrip S w y
  refl : ∀ j, f.refl S w j = (t.vr.map fun v => v w j).sum + ((S.rear0 w).T *ᵥ (flowsOf S w y).up0) j
  trns : ∀ j, f.trns S w j = (t.vt.map fun v => v w j).sum + ((S.front1 w).T *ᵥ (flowsOf S w y).down1) j
  abs0 : ∀ l, f.abs0 S w l = (t.a0.map fun v => v w l).sum + ((S.rear0 w).A *ᵥ (flowsOf S w y).up0) l
  abs1 : ∀ l, f.abs1 S w l = (t.a1.map fun v => v w l).sum + ((S.front1 w).A *ᵥ (flowsOf S w y).down1) l
  bulk : f.bulk = t.Abulk w + (flowsOf S w y).bulk

theorem roundTrip_nonneg (S : Sys ω ι κ₀ κ₁) (hp : NonnegData S) (w : ω) {y : ι → ℝ} (hy : ∀ j, 0 ≤ y j) : ∀ j, 0 ≤ roundTrip S w y j :=
  mulVec_nonneg (hp.r0 w).1 (mulVec_nonneg hp.u2d (D_nonneg S (mulVec_nonneg (hp.f1 w).1 (D_nonneg S (mulVec_nonneg hp.d2u hy)))))

theorem roundTrip_add (S : Sys ω ι κ₀ κ₁) (w : ω) (y z : ι → ℝ) : roundTrip S w (y + z) = roundTrip S w y + roundTrip S w z := by
  simp only [roundTrip, Matrix.mulVec_add]

theorem left_init {S : Sys ω ι κ₀ κ₁} {w : ω} {f : Flows ι} (h : IsSteady S w f) : Left S w f S.init f.down0 := by
  have e := steady_eq h
  have e0 : (flowsOf S w f.down0).up0 = f.up0 := by rw [← e]
  have e1 : (flowsOf S w f.down0).down1 = f.down1 := by rw [← e]
  refine ⟨h.nonneg, ?_, fun j => ?_, fun j => ?_, fun l => ?_, fun l => ?_, ?_⟩
  · rw [← flowsOf_trip, e0]; exact h.front
  · rw [e0]; simp [Flows.refl, Sys.init, dotWl]
  · rw [e1]; simp [Flows.trns, Sys.init]
  · rw [e0]; simp [Flows.abs0, Sys.init, dotWl]
  · rw [e1]; simp [Flows.abs1, Sys.init]
  · rw [← e]; simp [Sys.init, LoopState.Abulk]

theorem left_step {S : Sys ω ι κ₀ κ₁} (hS : EnergyConserving S) (hp : NonnegData S) {w : ω} {f : Flows ι} {t : LoopState ω ι κ₀ κ₁} {y : ι → ℝ} (h : Left S w f t y) :
    Left S w f (S.step t) (roundTrip S w y) := by
  obtain ⟨h1, h2, h3, h4, h5, h6, h7⟩ := h
  obtain ⟨a1, a2, a3⟩ := flowsOf_add S w (t.vf1 w) (roundTrip S w y)
  rw [← h2] at a1 a2 a3
  refine ⟨roundTrip_nonneg S hp w h1, ?_, fun j => ?_, fun j => ?_, fun l => ?_, fun l => ?_, ?_⟩
  · rw [step_vf1, ← roundTrip_add, ← h2]
  · rw [h3, a3, Matrix.mulVec_add, Pi.add_apply, ← add_assoc]
    simp [Sys.step, Sys.appendPerPassInfo, dotWl, dotWlU2d, flowsOf]
  · rw [h4, a1, Matrix.mulVec_add, Pi.add_apply, ← add_assoc]
    simp [Sys.step, Sys.appendPerPassInfo, dotWl, dotWlU2d, flowsOf]
  · rw [h5, a3, Matrix.mulVec_add, Pi.add_apply, ← add_assoc]
    simp [Sys.step, Sys.appendPerPassInfo, dotWl, dotWlU2d, flowsOf]
  · rw [h6, a1, Matrix.mulVec_add, Pi.add_apply, ← add_assoc]
    simp [Sys.step, Sys.appendPerPassInfo, dotWl, dotWlU2d, flowsOf]
  · have e : (flowsOf S w y).bulk = (flowsOf S w (t.vf1 w)).bulk + (flowsOf S w (roundTrip S w y)).bulk := by
      have h0 : ∑ j, y j = ∑ j, t.vf1 w j + ∑ j, roundTrip S w y j := by
        conv_lhs => rw [h2]
        simp [Finset.sum_add_distrib]
      simp only [Flows.bulk, a1, a2, a3, Pi.add_apply, Finset.sum_add_distrib]
      simp only [flowsOf] at h0 ⊢
      linarith
    have e0 := sum_relabel hS.d2u (t.vf1 w)
    rw [h7, e]
    simp only [Sys.step, Sys.appendPerPassInfo, LoopState.Abulk, List.map_append, List.map_cons, List.map_nil, List.sum_append, List.sum_cons, List.sum_nil, power, dotWl, dotWlU2d,
      flowsOf, Flows.bulk]
    linarith

theorem left_iter {S : Sys ω ι κ₀ κ₁} (hS : EnergyConserving S) (hp : NonnegData S) {w : ω} {f : Flows ι} (h : IsSteady S w f) (k : ℕ) :
    ∃ y, Left S w f (S.step^[k] S.init) y ∧ ∑ i ∈ Finset.range k, ∑ j, (S.step^[i] S.init).vf1 w j + ∑ j, y j = ∑ j, f.down0 j := by
  induction k with
  | zero => exact ⟨_, left_init h, by simp⟩
  | succ k ih =>
    obtain ⟨y, hy, hs⟩ := ih
    refine ⟨_, by rw [Function.iterate_succ_apply']; exact left_step hS hp hy, ?_⟩
    have h0 : ∑ j, y j = ∑ j, (S.step^[k] S.init).vf1 w j + ∑ j, roundTrip S w y j := by
      conv_lhs => rw [hy.fix]
      simp [Finset.sum_add_distrib]
    rw [Finset.sum_range_succ]
    linarith

/-- All that is not yet accounted for adds up to the power still travelling. -/
theorem left_total {S : Sys ω ι κ₀ κ₁} (hS : EnergyConserving S) {w : ω} {f : Flows ι} {t : LoopState ω ι κ₀ κ₁} {y : ι → ℝ} (h : Left S w f t y) :
    ∑ j, ((S.rear0 w).T *ᵥ (flowsOf S w y).up0) j + ∑ j, ((S.front1 w).T *ᵥ (flowsOf S w y).down1) j + ∑ l, ((S.rear0 w).A *ᵥ (flowsOf S w y).up0) l
      + ∑ l, ((S.front1 w).A *ᵥ (flowsOf S w y).down1) l + (flowsOf S w y).bulk = ∑ j, t.vf1 w j := by
  have h0 : ∑ j, y j = ∑ j, t.vf1 w j + ∑ j, roundTrip S w y j := by
    conv_lhs => rw [h.fix]
    simp [Finset.sum_add_distrib]
  have e1 := sum_conserves (hS.f1 w) (flowsOf S w y).down1
  have e2 := sum_conserves (hS.r0 w) (flowsOf S w y).up0
  rw [flowsOf_trip] at e2
  have e3 : (flowsOf S w y).up1 = (S.front1 w).R *ᵥ (flowsOf S w y).down1 := rfl
  simp only [Flows.bulk, e3]
  have e4 : (flowsOf S w y).down0 = y := rfl
  rw [e4]
  linarith

theorem flows_bulk_nonneg {S : Sys ω ι κ₀ κ₁} (hS : EnergyConserving S) (hp : NonnegData S) {w : ω} {y : ι → ℝ} (hy : ∀ j, 0 ≤ y j) : 0 ≤ (flowsOf S w y).bulk := by
  have b1 := mulVec_nonneg hp.d2u hy
  have b2 := D_nonneg S (w := w) b1
  have b3 := mulVec_nonneg (hp.f1 w).1 b2
  have e1 : ∑ k, (S.D w *ᵥ (S.down2up *ᵥ y)) k ≤ ∑ k, (S.down2up *ᵥ y) k := Finset.sum_le_sum fun k _ => D_le S hp b1 k
  have e2 : ∑ k, (S.D w *ᵥ ((S.front1 w).R *ᵥ (S.D w *ᵥ (S.down2up *ᵥ y)))) k ≤ ∑ k, ((S.front1 w).R *ᵥ (S.D w *ᵥ (S.down2up *ᵥ y))) k :=
    Finset.sum_le_sum fun k _ => D_le S hp b3 k
  have e3 := sum_relabel hS.d2u y
  have e4 := sum_relabel hS.u2d (S.D w *ᵥ ((S.front1 w).R *ᵥ (S.D w *ᵥ (S.down2up *ᵥ y))))
  simp only [Flows.bulk, flowsOf]
  linarith

theorem sum_list_swap {ρ : Type*} [Fintype ρ] (w : ω) (L : List (ω → ρ → ℝ)) :
    ∑ j, (L.map fun v => v w j).sum = (L.map fun v => ∑ j, v w j).sum := by
  induction L with
  | nil => simp
  | cons v L ih => simp [Finset.sum_add_distrib, ih]

/-- After `k` passes every recorded quantity is below the exact one, by no more than the power still travelling. -/
theorem accuracy_iter {S : Sys ω ι κ₀ κ₁} (hS : EnergyConserving S) (hp : NonnegData S) {w : ω} {f : Flows ι} (h : IsSteady S w f) (k : ℕ) :
    let t := S.step^[k] S.init
    let P := ∑ j, t.vf1 w j
    (∀ j, (t.vr.map fun v => v w j).sum ≤ f.refl S w j ∧ f.refl S w j ≤ (t.vr.map fun v => v w j).sum + P) ∧
    (∀ j, (t.vt.map fun v => v w j).sum ≤ f.trns S w j ∧ f.trns S w j ≤ (t.vt.map fun v => v w j).sum + P) ∧
    (∀ l, (t.a0.map fun v => v w l).sum ≤ f.abs0 S w l ∧ f.abs0 S w l ≤ (t.a0.map fun v => v w l).sum + P) ∧
    (∀ l, (t.a1.map fun v => v w l).sum ≤ f.abs1 S w l ∧ f.abs1 S w l ≤ (t.a1.map fun v => v w l).sum + P) ∧
    (t.Abulk w ≤ f.bulk ∧ f.bulk ≤ t.Abulk w + P) ∧
    (t.R w ≤ ∑ j, f.refl S w j ∧ ∑ j, f.refl S w j ≤ t.R w + P) ∧
    (t.T w ≤ ∑ j, f.trns S w j ∧ ∑ j, f.trns S w j ≤ t.T w + P) ∧
    (t.Aint0 w ≤ ∑ l, f.abs0 S w l ∧ ∑ l, f.abs0 S w l ≤ t.Aint0 w + P) ∧
    (t.Aint1 w ≤ ∑ l, f.abs1 S w l ∧ ∑ l, f.abs1 S w l ≤ t.Aint1 w + P) := by
  intro t P
  obtain ⟨y, hy, -⟩ := left_iter hS hp h k
  have ht := left_total hS hy
  have b1 := D_nonneg S (w := w) (mulVec_nonneg hp.d2u hy.nonneg)
  have b2 : ∀ j, 0 ≤ (flowsOf S w y).up0 j := mulVec_nonneg hp.u2d (D_nonneg S (w := w) (mulVec_nonneg (hp.f1 w).1 b1))
  have n1 := mulVec_nonneg (hp.r0 w).2.1 b2
  have n2 := mulVec_nonneg (hp.f1 w).2.1 b1
  have n3 := mulVec_nonneg (hp.r0 w).2.2 b2
  have n4 := mulVec_nonneg (hp.f1 w).2.2 b1
  have n5 := flows_bulk_nonneg hS hp (w := w) hy.nonneg
  have s1 := Finset.sum_nonneg fun j (_ : j ∈ Finset.univ) => n1 j
  have s2 : 0 ≤ ∑ j, ((S.front1 w).T *ᵥ (flowsOf S w y).down1) j := Finset.sum_nonneg fun j _ => n2 j
  have s3 := Finset.sum_nonneg fun j (_ : j ∈ Finset.univ) => n3 j
  have s4 : 0 ≤ ∑ j, ((S.front1 w).A *ᵥ (flowsOf S w y).down1) j := Finset.sum_nonneg fun j _ => n4 j
  have q1 : ∑ j, f.refl S w j = t.R w + ∑ j, ((S.rear0 w).T *ᵥ (flowsOf S w y).up0) j := by
    simp only [hy.refl, Finset.sum_add_distrib, sum_list_swap]; rfl
  have q2 : ∑ j, f.trns S w j = t.T w + ∑ j, ((S.front1 w).T *ᵥ (flowsOf S w y).down1) j := by
    simp only [hy.trns, Finset.sum_add_distrib, sum_list_swap]; rfl
  have q3 : ∑ j, f.abs0 S w j = t.Aint0 w + ∑ j, ((S.rear0 w).A *ᵥ (flowsOf S w y).up0) j := by
    simp only [hy.abs0, Finset.sum_add_distrib, sum_list_swap]; rfl
  have q4 : ∑ j, f.abs1 S w j = t.Aint1 w + ∑ j, ((S.front1 w).A *ᵥ (flowsOf S w y).down1) j := by
    simp only [hy.abs1, Finset.sum_add_distrib, sum_list_swap]; rfl
  have q5 := hy.bulk
  refine ⟨fun j => ?_, fun j => ?_, fun l => ?_, fun l => ?_, ?_, ?_, ?_, ?_, ?_⟩
  · have := Finset.single_le_sum (f := (S.rear0 w).T *ᵥ (flowsOf S w y).up0) (fun i _ => n1 i) (Finset.mem_univ j)
    rw [hy.refl j]
    constructor <;> linarith [n1 j]
  · have := Finset.single_le_sum (f := (S.front1 w).T *ᵥ (flowsOf S w y).down1) (fun i _ => n2 i) (Finset.mem_univ j)
    rw [hy.trns j]
    have := n2 j
    simp only [flowsOf] at *
    constructor <;> linarith
  · have := Finset.single_le_sum (f := (S.rear0 w).A *ᵥ (flowsOf S w y).up0) (fun i _ => n3 i) (Finset.mem_univ l)
    rw [hy.abs0 l]
    constructor <;> linarith [n3 l]
  · have := Finset.single_le_sum (f := (S.front1 w).A *ᵥ (flowsOf S w y).down1) (fun i _ => n4 i) (Finset.mem_univ l)
    rw [hy.abs1 l]
    have := n4 l
    simp only [flowsOf] at *
    constructor <;> linarith
  all_goals constructor <;> linarith

/-- The power still travelling goes to zero if there is a steady state. -/
theorem steady_vanishes {S : Sys ω ι κ₀ κ₁} (hS : EnergyConserving S) (hp : NonnegData S) {w : ω} {f : Flows ι} (h : IsSteady S w f) (k : ℕ) :
    (k + 1 : ℝ) * ∑ j, (S.step^[k] S.init).vf1 w j ≤ ∑ j, f.down0 j := by
  obtain ⟨y, hy, hs⟩ := left_iter hS hp h (k + 1)
  have hv : ∀ j, 0 ≤ ((S.front0 w).T *ᵥ S.v0 w) j := fun j => mulVec_nonneg (hp.f0 w).2.1 (hp.v0 w) j
  have h1 : ∑ i ∈ Finset.range (k + 1), ∑ j, (S.step^[k] S.init).vf1 w j ≤ ∑ i ∈ Finset.range (k + 1), ∑ j, (S.step^[i] S.init).vf1 w j := by
    refine Finset.sum_le_sum fun i hi => ?_
    rw [vf1_eq, vf1_eq]
    exact power_anti _ (trip_nonneg S hp w) (trip_sub S hS hp w) _ hv (by have := Finset.mem_range.mp hi; omega)
  have h2 : 0 ≤ ∑ j, y j := Finset.sum_nonneg fun j _ => hy.nonneg j
  rw [Finset.sum_const, Finset.card_range, nsmul_eq_mul] at h1
  push_cast at h1
  linarith

theorem steady_tendsto {S : Sys ω ι κ₀ κ₁} (hS : EnergyConserving S) (hp : NonnegData S) {w : ω} {f : Flows ι} (h : IsSteady S w f) :
    Filter.Tendsto (fun k => ∑ j, (S.step^[k] S.init).vf1 w j) Filter.atTop (nhds 0) := by
  have h2 : Filter.Tendsto (fun k : ℕ => (∑ j, f.down0 j) * (1 / ((k : ℝ) + 1))) Filter.atTop (nhds 0) := by
    simpa using tendsto_one_div_add_atTop_nhds_zero_nat.const_mul (∑ j, f.down0 j)
  refine squeeze_zero (fun k => Finset.sum_nonneg fun j _ => (nonneg_iter S hp hS.u2d k).1 w j) (fun k => ?_) h2
  have h3 := steady_vanishes hS hp h k
  rw [mul_one_div, le_div_iff₀ (by positivity)]
  linarith

/-- The powers of all round trips add up to finite flows if every bin that light gets into loses some of it. -/
theorem power_summable (M : Matrix ι ι ℝ) (h0 : ∀ i j, 0 ≤ M i j) (h1 : ∀ j, ∑ i, M i j ≤ 1) (v : ι → ℝ) (hv : ∀ j, 0 ≤ v j)
    (hl : ∀ j, (∃ n, 0 < (M ^ n *ᵥ v) j) → ∃ n, ∑ i, (M ^ n) i j < 1) (j : ι) : Summable fun k => (M ^ k *ᵥ v) j := by
  obtain ⟨N, hN, ρ, hρ0, hρ1, hdec⟩ := power_geometric M h0 h1 v hv hl
  have hP : 0 ≤ ∑ j, v j := Finset.sum_nonneg fun j _ => hv j
  have hnn : ∀ k, 0 ≤ ∑ i, (M ^ k *ᵥ v) i := fun k => Finset.sum_nonneg fun i _ => mulVec_nonneg (pow_nn M h0 k) hv i
  have hblock : ∀ m, ∑ k ∈ Finset.range (N * m), ∑ i, (M ^ k *ᵥ v) i ≤ N * (∑ k ∈ Finset.range m, ρ ^ k) * ∑ j, v j := by
    intro m
    induction m with
    | zero => simp
    | succ m ih =>
      rw [Nat.mul_succ, Finset.sum_range_add, Finset.sum_range_succ]
      have : ∑ x ∈ Finset.range N, ∑ i, (M ^ (N * m + x) *ᵥ v) i ≤ ∑ x ∈ Finset.range N, ρ ^ m * ∑ j, v j :=
        Finset.sum_le_sum fun x _ => (power_anti M h0 h1 v hv (Nat.le_add_right _ _)).trans (hdec m)
      rw [Finset.sum_const, Finset.card_range, nsmul_eq_mul] at this
      nlinarith
  refine summable_of_sum_range_le (c := N * (1 - ρ)⁻¹ * ∑ j, v j) (fun k => mulVec_nonneg (pow_nn M h0 k) hv j) fun m => ?_
  calc ∑ k ∈ Finset.range m, (M ^ k *ᵥ v) j
      ≤ ∑ k ∈ Finset.range m, ∑ i, (M ^ k *ᵥ v) i :=
        Finset.sum_le_sum fun k _ => Finset.single_le_sum (f := fun i => (M ^ k *ᵥ v) i) (fun i _ => mulVec_nonneg (pow_nn M h0 k) hv i) (Finset.mem_univ j)
    _ ≤ ∑ k ∈ Finset.range (N * m), ∑ i, (M ^ k *ᵥ v) i :=
        Finset.sum_le_sum_of_subset_of_nonneg (Finset.range_mono (Nat.le_mul_of_pos_left m hN)) fun k _ _ => hnn k
    _ ≤ N * (∑ k ∈ Finset.range m, ρ ^ k) * ∑ j, v j := hblock m
    _ ≤ N * (1 - ρ)⁻¹ * ∑ j, v j := by
        have := (summable_geometric_of_lt_one hρ0 hρ1).sum_le_tsum (Finset.range m) fun k _ => pow_nonneg hρ0 k
        rw [tsum_geometric_of_lt_one hρ0 hρ1] at this
        gcongr

/-- The sum of all round trips is a steady state. -/
theorem steady_of_leaks (S : Sys ω ι κ₀ κ₁) (hS : EnergyConserving S) (hp : NonnegData S) (w : ω) (hl : ∀ j, Reaches S w j → Leaks S w j) : ∃ f, IsSteady S w f := by
  have hv : ∀ j, 0 ≤ ((S.front0 w).T *ᵥ S.v0 w) j := fun j => mulVec_nonneg (hp.f0 w).2.1 (hp.v0 w) j
  set v := (S.front0 w).T *ᵥ S.v0 w with hvd
  set M := tripMatrix S w with hM
  have hs := power_summable M (trip_nonneg S hp w) (trip_sub S hS hp w) v hv hl
  set x : ι → ℝ := fun j => ∑' k, (M ^ k *ᵥ v) j with hx
  have hfix : x = v + M *ᵥ x := by
    funext i
    have e : (M *ᵥ x) i = ∑' k, (M ^ (k + 1) *ᵥ v) i := by
      change ∑ j, M i j * ∑' k, (M ^ k *ᵥ v) j = _
      rw [show (∑ j, M i j * ∑' k, (M ^ k *ᵥ v) j) = ∑ j, ∑' k, M i j * (M ^ k *ᵥ v) j from Finset.sum_congr rfl fun j _ => by rw [tsum_mul_left]]
      rw [← Summable.tsum_finsetSum fun j _ => (hs j).mul_left _]
      refine tsum_congr fun k => ?_
      have : M ^ (k + 1) *ᵥ v = M *ᵥ (M ^ k *ᵥ v) := by rw [pow_succ', ← Matrix.mulVec_mulVec]
      exact (congrFun this i).symm
    rw [Pi.add_apply, e]
    simp only [hx]
    rw [(hs i).tsum_eq_zero_add]
    simp
  refine ⟨flowsOf S w x, fun j => tsum_nonneg fun k => mulVec_nonneg (pow_nn M (trip_nonneg S hp w) k) hv j, ?_, rfl, rfl, rfl⟩
  rw [flowsOf_trip, trip_eq]
  exact hfix

/-! ## C133 -/

/-- **C133, accuracy.** Whenever the loop of `calculate_RAT` ends (both branches), every returned quantity – reflected and transmitted power per direction and in total, power absorbed in every layer of both surfaces and in the
bulk layer – is at most its exact value, the one of the steady state, and falls short of it by at most `I_thresh`; even all the errors together do not exceed `I_thresh`. -/
theorem C133_accuracy (S : Sys ω ι κ₀ κ₁) (hS : EnergyConserving S) (hp : NonnegData S) (o : ProfOpts ω ι) (k : ℕ) (t : LoopState ω ι κ₀ κ₁)
    (ht : S.Exits k t ∨ S.ExitsProf o k t) (w : ω) (f : Flows ι) (hf : IsSteady S w f) :
    (∀ j, (t.vr.map fun v => v w j).sum ≤ f.refl S w j ∧ f.refl S w j ≤ (t.vr.map fun v => v w j).sum + S.thresh) ∧
    (∀ j, (t.vt.map fun v => v w j).sum ≤ f.trns S w j ∧ f.trns S w j ≤ (t.vt.map fun v => v w j).sum + S.thresh) ∧
    (∀ l, (t.a0.map fun v => v w l).sum ≤ f.abs0 S w l ∧ f.abs0 S w l ≤ (t.a0.map fun v => v w l).sum + S.thresh) ∧
    (∀ l, (t.a1.map fun v => v w l).sum ≤ f.abs1 S w l ∧ f.abs1 S w l ≤ (t.a1.map fun v => v w l).sum + S.thresh) ∧
    (t.R w ≤ ∑ j, f.refl S w j ∧ t.T w ≤ ∑ j, f.trns S w j ∧ t.Abulk w ≤ f.bulk ∧ t.Aint0 w ≤ ∑ l, f.abs0 S w l ∧ t.Aint1 w ≤ ∑ l, f.abs1 S w l) ∧
    (∑ j, f.refl S w j - t.R w) + (∑ j, f.trns S w j - t.T w) + (f.bulk - t.Abulk w) + (∑ l, f.abs0 S w l - t.Aint0 w) + (∑ l, f.abs1 S w l - t.Aint1 w) ≤ S.thresh := by
  obtain ⟨t', ⟨rfl, hd, -⟩, e1, e2, e3, e4, e5, -⟩ : ∃ t', S.Exits k t' ∧ t'.vr = t.vr ∧ t'.vt = t.vt ∧ t'.a0 = t.a0 ∧ t'.a1 = t.a1 ∧ t'.A = t.A ∧ t'.vf1 = t.vf1 := by
    rcases ht with h | h
    · exact ⟨t, h, rfl, rfl, rfl, rfl, rfl, rfl⟩
    · exact (C19_branches_agree S hS.u2d o k).1 t h
  obtain ⟨a1, a2, a3, a4, a5, a6, a7, a8, a9⟩ := accuracy_iter hS hp hf k
  obtain ⟨y, hy, -⟩ := left_iter hS hp hf k
  have htot := left_total hS hy
  have hP : ∑ j, (S.step^[k] S.init).vf1 w j ≤ S.thresh := hd w
  have E1 : (S.step^[k] S.init).R w = t.R w := by unfold LoopState.R; rw [e1]
  have E2 : (S.step^[k] S.init).T w = t.T w := by unfold LoopState.T; rw [e2]
  have E3 : (S.step^[k] S.init).Abulk w = t.Abulk w := by unfold LoopState.Abulk; rw [e5]
  have E4 : (S.step^[k] S.init).Aint0 w = t.Aint0 w := by unfold LoopState.Aint0; rw [e3]
  have E5 : (S.step^[k] S.init).Aint1 w = t.Aint1 w := by unfold LoopState.Aint1; rw [e4]
  have q1 : ∑ j, f.refl S w j = (S.step^[k] S.init).R w + ∑ j, ((S.rear0 w).T *ᵥ (flowsOf S w y).up0) j := by
    simp only [hy.refl, Finset.sum_add_distrib, sum_list_swap]; rfl
  have q2 : ∑ j, f.trns S w j = (S.step^[k] S.init).T w + ∑ j, ((S.front1 w).T *ᵥ (flowsOf S w y).down1) j := by
    simp only [hy.trns, Finset.sum_add_distrib, sum_list_swap]; rfl
  have q3 : ∑ j, f.abs0 S w j = (S.step^[k] S.init).Aint0 w + ∑ j, ((S.rear0 w).A *ᵥ (flowsOf S w y).up0) j := by
    simp only [hy.abs0, Finset.sum_add_distrib, sum_list_swap]; rfl
  have q4 : ∑ j, f.abs1 S w j = (S.step^[k] S.init).Aint1 w + ∑ j, ((S.front1 w).A *ᵥ (flowsOf S w y).down1) j := by
    simp only [hy.abs1, Finset.sum_add_distrib, sum_list_swap]; rfl
  have q5 := hy.bulk
  rw [← e1, ← e2, ← e3, ← e4, ← E1, ← E2, ← E3, ← E4, ← E5]
  refine ⟨fun j => ⟨(a1 j).1, by linarith [(a1 j).2]⟩, fun j => ⟨(a2 j).1, by linarith [(a2 j).2]⟩, fun j => ⟨(a3 j).1, by linarith [(a3 j).2]⟩,
    fun j => ⟨(a4 j).1, by linarith [(a4 j).2]⟩, ⟨a6.1, a7.1, a5.1, a8.1, a9.1⟩, by linarith⟩

/-- **C133, limit.** The more passes are made, the closer: every returned quantity tends to the exact one, which is therefore the same for all steady states. -/
theorem C133_limit (S : Sys ω ι κ₀ κ₁) (hS : EnergyConserving S) (hp : NonnegData S) (w : ω) (f : Flows ι) (hf : IsSteady S w f) :
    (∀ j, Filter.Tendsto (fun k => ((S.step^[k] S.init).vr.map fun v => v w j).sum) Filter.atTop (nhds (f.refl S w j))) ∧
    (∀ j, Filter.Tendsto (fun k => ((S.step^[k] S.init).vt.map fun v => v w j).sum) Filter.atTop (nhds (f.trns S w j))) ∧
    (∀ l, Filter.Tendsto (fun k => ((S.step^[k] S.init).a0.map fun v => v w l).sum) Filter.atTop (nhds (f.abs0 S w l))) ∧
    (∀ l, Filter.Tendsto (fun k => ((S.step^[k] S.init).a1.map fun v => v w l).sum) Filter.atTop (nhds (f.abs1 S w l))) ∧
    Filter.Tendsto (fun k => (S.step^[k] S.init).Abulk w) Filter.atTop (nhds f.bulk) ∧
    ∀ f', IsSteady S w f' → f'.refl S w = f.refl S w ∧ f'.trns S w = f.trns S w ∧ f'.abs0 S w = f.abs0 S w ∧ f'.abs1 S w = f.abs1 S w ∧ f'.bulk = f.bulk := by
  have key : ∀ g : Flows ι, IsSteady S w g →
      (∀ j, Filter.Tendsto (fun k => ((S.step^[k] S.init).vr.map fun v => v w j).sum) Filter.atTop (nhds (g.refl S w j))) ∧
      (∀ j, Filter.Tendsto (fun k => ((S.step^[k] S.init).vt.map fun v => v w j).sum) Filter.atTop (nhds (g.trns S w j))) ∧
      (∀ l, Filter.Tendsto (fun k => ((S.step^[k] S.init).a0.map fun v => v w l).sum) Filter.atTop (nhds (g.abs0 S w l))) ∧
      (∀ l, Filter.Tendsto (fun k => ((S.step^[k] S.init).a1.map fun v => v w l).sum) Filter.atTop (nhds (g.abs1 S w l))) ∧
      Filter.Tendsto (fun k => (S.step^[k] S.init).Abulk w) Filter.atTop (nhds g.bulk) := by
    intro g hg
    have h0 := steady_tendsto hS hp hg
    have sq : ∀ (a : ℕ → ℝ) (b : ℝ), (∀ k, a k ≤ b ∧ b ≤ a k + ∑ j, (S.step^[k] S.init).vf1 w j) → Filter.Tendsto a Filter.atTop (nhds b) := by
      intro a b hab
      have h1 : Filter.Tendsto (fun k => b - ∑ j, (S.step^[k] S.init).vf1 w j) Filter.atTop (nhds b) := by simpa using h0.const_sub b
      exact tendsto_of_tendsto_of_tendsto_of_le_of_le h1 tendsto_const_nhds (fun k => by linarith [(hab k).2]) fun k => (hab k).1
    exact ⟨fun j => sq _ _ fun k => (accuracy_iter hS hp hg k).1 j, fun j => sq _ _ fun k => (accuracy_iter hS hp hg k).2.1 j,
      fun j => sq _ _ fun k => (accuracy_iter hS hp hg k).2.2.1 j, fun j => sq _ _ fun k => (accuracy_iter hS hp hg k).2.2.2.1 j,
      sq _ _ fun k => (accuracy_iter hS hp hg k).2.2.2.2.1⟩
  obtain ⟨k1, k2, k3, k4, k5⟩ := key f hf
  refine ⟨k1, k2, k3, k4, k5, fun f' hf' => ?_⟩
  obtain ⟨l1, l2, l3, l4, l5⟩ := key f' hf'
  exact ⟨funext fun j => tendsto_nhds_unique (l1 j) (k1 j), funext fun j => tendsto_nhds_unique (l2 j) (k2 j), funext fun j => tendsto_nhds_unique (l3 j) (k3 j),
    funext fun j => tendsto_nhds_unique (l4 j) (k4 j), tendsto_nhds_unique l5 k5⟩

/-- **C133, energy.** The exact solution conserves energy. -/
theorem C133_total (S : Sys ω ι κ₀ κ₁) (hS : EnergyConserving S) (w : ω) (f : Flows ι) (hf : IsSteady S w f) :
    ∑ j, f.refl S w j + ∑ j, f.trns S w j + f.bulk + ∑ l, f.abs0 S w l + ∑ l, f.abs1 S w l = ∑ j, S.v0 w j := by
  have e0 := sum_conserves (hS.f0 w) (S.v0 w)
  have e1 := sum_conserves (hS.f1 w) f.down1
  have e2 := sum_conserves (hS.r0 w) f.up0
  have e3 : ∑ j, f.down0 j = ∑ j, ((S.front0 w).T *ᵥ S.v0 w) j + ∑ j, ((S.rear0 w).R *ᵥ f.up0) j := by
    rw [hf.front]; simp [Finset.sum_add_distrib]
  simp only [Flows.refl, Flows.trns, Flows.bulk, Flows.abs0, Flows.abs1, Pi.add_apply, Finset.sum_add_distrib, hf.rear]
  linarith

/-- **C133, existence.** There is a steady state if and only if every bin that light gets into loses some of its light sooner or later – exactly the condition under which the loop ends for every `I_thresh`. -/
theorem C133_exists_iff (S : Sys ω ι κ₀ κ₁) (hS : EnergyConserving S) (hp : NonnegData S) (w : ω) :
    (∃ f, IsSteady S w f) ↔ ∀ j, Reaches S w j → Leaks S w j := by
  refine ⟨?_, steady_of_leaks S hS hp w⟩
  rintro ⟨f, hf⟩ j ⟨n, hn⟩
  by_contra hl
  have hl' : ∀ m, 1 ≤ ∑ i, (tripMatrix S w ^ m) i j := fun m => by
    by_contra hm; exact hl ⟨m, not_le.mp hm⟩
  have hv : ∀ j, 0 ≤ ((S.front0 w).T *ᵥ S.v0 w) j := fun j => mulVec_nonneg (hp.f0 w).2.1 (hp.v0 w) j
  refine absurd (ge_of_tendsto' (steady_tendsto hS hp hf) fun k => ?_) (not_le.mpr hn)
  rw [vf1_eq]
  exact power_stays _ (trip_nonneg S hp w) (trip_sub S hS hp w) _ hv j n hn hl' k

/-- **C133, existence.** There is an exact solution at every wavelength if and only if the loop of `calculate_RAT` ends for every positive `I_thresh` (in both branches). -/
theorem C133_exists_iff_ends [Finite ω] (S : Sys ω ι κ₀ κ₁) (hS : EnergyConserving S) (hp : NonnegData S) (o : ProfOpts ω ι) :
    (∀ w, ∃ f, IsSteady S w f) ↔
      ∀ ε > 0, ∃ k, (∃ t, ({ S with thresh := ε } : Sys ω ι κ₀ κ₁).Exits k t) ∧ ∃ t, ({ S with thresh := ε } : Sys ω ι κ₀ κ₁).ExitsProf o k t := by
  rw [C18_ends_iff_partial S hS hp o]
  exact forall_congr' fun w => C133_exists_iff S hS hp w

/-- The example system has a steady state, at both wavelengths, and the loop ends for it. -/
example (w : Fin 2) : ∃ f, IsSteady exSys w f := (C133_exists_iff exSys exSys_conserving exSys_nonneg w).mpr fun j _ => exSys_leaks w j

/-- A surface that lets in everything on a bulk layer that absorbs nothing, and a rear surface that reflects half and transmits half; the front surface reflects half of what comes from inside. -/
noncomputable def halfSys : Sys (Fin 1) (Fin 1) (Fin 1) (Fin 1) where
  v0 := fun _ _ => 1
  up2down := fun _ _ => 1
  down2up := fun _ _ => 1
  α := fun _ => 0
  thick := 1
  θ := fun _ => 0
  front0 := fun _ => ⟨fun _ _ => 0, fun _ _ => 1, fun _ _ => 0⟩
  front1 := fun _ => ⟨fun _ _ => 1 / 2, fun _ _ => 1 / 2, fun _ _ => 0⟩
  rear0 := fun _ => ⟨fun _ _ => 1 / 2, fun _ _ => 1 / 2, fun _ _ => 0⟩
  thresh := 1 / 100

/-- Its steady state: 4/3 goes down, 2/3 goes up, 1/3 is reflected and 2/3 is transmitted. -/
example : IsSteady halfSys 0 ⟨fun _ => 4 / 3, fun _ => 4 / 3, fun _ => 2 / 3, fun _ => 2 / 3⟩ ∧
    Flows.refl ⟨fun _ => 4 / 3, fun _ => 4 / 3, fun _ => 2 / 3, fun _ => 2 / 3⟩ halfSys 0 = (fun _ => 1 / 3) ∧
    Flows.trns ⟨fun _ => 4 / 3, fun _ => 4 / 3, fun _ => 2 / 3, fun _ => 2 / 3⟩ halfSys 0 = fun _ => 2 / 3 := by
  refine ⟨⟨fun _ => by norm_num, ?_, ?_, ?_, ?_⟩, ?_, ?_⟩ <;> funext j <;> fin_cases j <;>
    norm_num [halfSys, Flows.refl, Flows.trns, Matrix.mulVec, dotProduct, Sys.D, makeD, Matrix.diagonal]

end Rayflare
