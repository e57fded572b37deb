import Verif.Spec.Stability
import Verif.Props.Compare

/-!
# Property C191: small errors in the stored matrices cause small errors in the results
-/

namespace Rayflare

open Rayflare.Np Rayflare.Model Rayflare.Spec Rayflare.Lemmas Matrix

set_option linter.unusedSectionVars false

variable {ω ω' ι κ κ₀ κ₁ : Type*} [Fintype ι] [DecidableEq ι] [Fintype κ] [Fintype κ₀] [Fintype κ₁]

/-! ## Helper lemmas -/

/-- Distance of two distributions of light. -/
def gap {ρ : Type*} [Fintype ρ] (v v' : ρ → ℝ) : ℝ := ∑ j, |v j - v' j|

theorem gap_nonneg {ρ : Type*} [Fintype ρ] (v v' : ρ → ℝ) : 0 ≤ gap v v' := Finset.sum_nonneg fun _ _ => abs_nonneg _

theorem gap_add {ρ : Type*} [Fintype ρ] (a a' b b' : ρ → ℝ) : gap (a + b) (a' + b') ≤ gap a a' + gap b b' := by
  unfold gap
  rw [← Finset.sum_add_distrib]
  refine Finset.sum_le_sum fun j _ => ?_
  have e : (a + b) j - (a' + b') j = (a j - a' j) + (b j - b' j) := by simp only [Pi.add_apply]; ring
  rw [e]; exact abs_add_le _ _

theorem gap_apply {ρ : Type*} [Fintype ρ] (v v' : ρ → ℝ) (j : ρ) : |v j - v' j| ≤ gap v v' :=
  Finset.single_le_sum (f := fun j => |v j - v' j|) (fun _ _ => abs_nonneg _) (Finset.mem_univ j)

theorem gap_sum {ρ : Type*} [Fintype ρ] (v v' : ρ → ℝ) : |∑ j, v j - ∑ j, v' j| ≤ gap v v' := by
  rw [← Finset.sum_sub_distrib]; exact Finset.abs_sum_le_sum_abs _ _

theorem gap_mulVec {ρ : Type*} [Fintype ρ] {M M' : Matrix ρ ι ℝ} (hM : ∀ r j, 0 ≤ M r j) {v v' : ι → ℝ} (hv : ∀ j, 0 ≤ v' j) :
    gap (M *ᵥ v) (M' *ᵥ v') ≤ ∑ j, ((∑ r, M r j) * |v j - v' j| + (∑ r, |M r j - M' r j|) * v' j) := by
  unfold gap
  simp only [Finset.sum_mul]
  simp_rw [← Finset.sum_add_distrib]
  rw [Finset.sum_comm]
  refine Finset.sum_le_sum fun r _ => ?_
  have e : (M *ᵥ v) r - (M' *ᵥ v') r = ∑ j, (M r j * (v j - v' j) + (M r j - M' r j) * v' j) := by
    simp only [Matrix.mulVec, dotProduct]
    rw [← Finset.sum_sub_distrib]
    exact Finset.sum_congr rfl fun j _ => by ring
  rw [e]
  refine (Finset.abs_sum_le_sum_abs _ _).trans (Finset.sum_le_sum fun j _ => ?_)
  refine (abs_add_le _ _).trans ?_
  rw [abs_mul, abs_mul, abs_of_nonneg (hM r j), abs_of_nonneg (hv j)]

/-- A surface: the errors of everything that leaves it are at most the error of what arrives plus the error made by the surface. -/
theorem gap_surface {M M' : Mats ι κ} (hc : Conserves M.R M.T M.A) (hf : Fractions M.R M.T M.A) {η : ℝ} (h : ∀ j, surfaceGap M M' j ≤ η) {v v' : ι → ℝ} (hv : ∀ j, 0 ≤ v' j) :
    gap (M.R *ᵥ v) (M'.R *ᵥ v') + gap (M.T *ᵥ v) (M'.T *ᵥ v') + gap (M.A *ᵥ v) (M'.A *ᵥ v') ≤ gap v v' + η * ∑ j, v' j := by
  have h1 := gap_mulVec (M' := M'.R) hf.1 (v := v) hv
  have h2 := gap_mulVec (M' := M'.T) hf.2.1 (v := v) hv
  have h3 := gap_mulVec (M' := M'.A) hf.2.2 (v := v) hv
  refine (add_le_add (add_le_add h1 h2) h3).trans ?_
  rw [← Finset.sum_add_distrib, ← Finset.sum_add_distrib, gap, Finset.mul_sum, ← Finset.sum_add_distrib]
  refine Finset.sum_le_sum fun j _ => ?_
  have e := hc j
  have g := mul_le_mul_of_nonneg_right (h j) (hv j)
  unfold surfaceGap at g
  have e' : (∑ r, M.R r j + ∑ r, M.T r j + ∑ l, M.A l j) * |v j - v' j| = |v j - v' j| := by rw [e, one_mul]
  linarith

theorem gap_relabel {M : Matrix ι ι ℝ} (hM : ∀ r j, 0 ≤ M r j) (h : Relabels M) (v v' : ι → ℝ) : gap (M *ᵥ v) (M *ᵥ v') ≤ gap v v' := by
  unfold gap
  calc ∑ r, |(M *ᵥ v) r - (M *ᵥ v') r| ≤ ∑ r, (M *ᵥ fun j => |v j - v' j|) r := by
        refine Finset.sum_le_sum fun r _ => ?_
        simp only [Matrix.mulVec, dotProduct]
        rw [← Finset.sum_sub_distrib]
        refine (Finset.abs_sum_le_sum_abs _ _).trans (Finset.sum_le_sum fun j _ => ?_)
        rw [← mul_sub, abs_mul, abs_of_nonneg (hM r j)]
    _ = ∑ j, |v j - v' j| := sum_relabel h _

/-- The bulk layer: the errors of what arrives on the other side and of what is absorbed are at most the error of what sets out. -/
theorem gap_bulk {α d : ℝ} (hα : 0 ≤ α) (hd : 0 ≤ d) (θ v v' : ι → ℝ) :
    gap (makeD α d θ *ᵥ v) (makeD α d θ *ᵥ v') + |(∑ j, v j - ∑ j, (makeD α d θ *ᵥ v) j) - (∑ j, v' j - ∑ j, (makeD α d θ *ᵥ v') j)| ≤ gap v v' := by
  have e : (∑ j, v j - ∑ j, (makeD α d θ *ᵥ v) j) - (∑ j, v' j - ∑ j, (makeD α d θ *ᵥ v') j) = ∑ j, (1 - Real.exp (-α * d / |Real.cos (θ j)|)) * (v j - v' j) := by
    simp only [makeD_mulVec, ← Finset.sum_sub_distrib]
    exact Finset.sum_congr rfl fun j _ => by ring
  rw [e]
  refine (add_le_add le_rfl (Finset.abs_sum_le_sum_abs _ _)).trans ?_
  unfold gap
  rw [← Finset.sum_add_distrib]
  refine Finset.sum_le_sum fun j _ => ?_
  have h1 := att_le_one hα hd (Real.cos (θ j))
  have h0 := Real.exp_pos (-α * d / |Real.cos (θ j)|)
  rw [makeD_mulVec, makeD_mulVec, ← mul_sub, abs_mul, abs_mul, abs_of_pos h0, abs_of_nonneg (sub_nonneg.mpr h1)]
  linarith

/-- All errors together: of the light still travelling and of everything recorded. -/
noncomputable def allGaps (t : LoopState ω ι κ₀ κ₁) (w : ω) (t' : LoopState ω' ι κ₀ κ₁) (w' : ω') : ℝ :=
  gap (t.vf1 w) (t'.vf1 w') + gap (recR t w) (recR t' w') + gap (recT t w) (recT t' w') + gap (recA0 t w) (recA0 t' w') + gap (recA1 t w) (recA1 t' w') + |t.Abulk w - t'.Abulk w'|

theorem bulk_step (S : Sys ω ι κ₀ κ₁) (hu : Relabels S.up2down) (t : LoopState ω ι κ₀ κ₁) (w : ω) :
    (S.step t).Abulk w = t.Abulk w + (∑ j, (S.down2up *ᵥ t.vf1 w) j - ∑ j, (S.D w *ᵥ (S.down2up *ᵥ t.vf1 w)) j) +
        (∑ j, ((S.front1 w).R *ᵥ (S.D w *ᵥ (S.down2up *ᵥ t.vf1 w))) j - ∑ j, (S.D w *ᵥ ((S.front1 w).R *ᵥ (S.D w *ᵥ (S.down2up *ᵥ t.vf1 w)))) j) := by
  rw [← sum_relabel hu (S.D w *ᵥ ((S.front1 w).R *ᵥ (S.D w *ᵥ (S.down2up *ᵥ t.vf1 w))))]
  simp [LoopState.Abulk, Sys.step, Sys.appendPerPassInfo, dotWl, dotWlU2d, power]
  ring

section
variable (S : Sys ω ι κ₀ κ₁) (w : ω) (S' : Sys ω' ι κ₀ κ₁) (w' : ω') (hS : EnergyConserving S) (hp : NonnegData S) (hS' : EnergyConserving S') (hp' : NonnegData S') {η : ℝ} (hη : 0 ≤ η)
  (h : CloseSurfaces S w S' w' η) (hα : S'.α w' = S.α w) (hd : S'.thick = S.thick)
include hS hp hS' hp' hη h hα hd

theorem gaps_step (t : LoopState ω ι κ₀ κ₁) (t' : LoopState ω' ι κ₀ κ₁) (hn : ∀ j, 0 ≤ t'.vf1 w' j) :
    allGaps (S.step t) w (S'.step t') w' ≤ allGaps t w t' w' + 2 * η * ∑ j, t'.vf1 w' j := by
  obtain ⟨s1, s2, s3, s4⟩ := rec_step S t w
  obtain ⟨s1', s2', s3', s4'⟩ := rec_step S' t' w'
  have hD : S'.D w' = S.D w := by unfold Sys.D; rw [hα, hd, h.θ]
  have b1 := mulVec_nonneg hp'.d2u hn
  have b2 := D_nonneg S' (w := w') b1
  have b3 := mulVec_nonneg (hp'.f1 w').1 b2
  have b4 := D_nonneg S' (w := w') b3
  have b5 := mulVec_nonneg hp'.u2d b4
  have p1 := sum_relabel hS'.d2u (t'.vf1 w')
  have p2 : ∑ j, (S'.D w' *ᵥ (S'.down2up *ᵥ t'.vf1 w')) j ≤ ∑ j, (S'.down2up *ᵥ t'.vf1 w') j := Finset.sum_le_sum fun j _ => D_le S' hp' b1 j
  have p3 := sum_R_le (hS'.f1 w') (hp'.f1 w') b2
  have p4 : ∑ j, (S'.D w' *ᵥ ((S'.front1 w').R *ᵥ (S'.D w' *ᵥ (S'.down2up *ᵥ t'.vf1 w')))) j ≤ _ := Finset.sum_le_sum fun j _ => D_le S' hp' b3 j
  have p5 := sum_relabel hS'.u2d (S'.D w' *ᵥ ((S'.front1 w').R *ᵥ (S'.D w' *ᵥ (S'.down2up *ᵥ t'.vf1 w'))))
  have g1 := gap_relabel hp.d2u hS.d2u (t.vf1 w) (t'.vf1 w')
  have g2 := gap_bulk (hp.α w) hp.thick S.θ (S.down2up *ᵥ t.vf1 w) (S.down2up *ᵥ t'.vf1 w')
  have g3 := gap_surface (hS.f1 w) (hp.f1 w) h.f1 (v := S.D w *ᵥ (S.down2up *ᵥ t.vf1 w)) b2
  have g4 := gap_bulk (hp.α w) hp.thick S.θ ((S.front1 w).R *ᵥ (S.D w *ᵥ (S.down2up *ᵥ t.vf1 w))) ((S'.front1 w').R *ᵥ (S'.D w' *ᵥ (S'.down2up *ᵥ t'.vf1 w')))
  have g5 := gap_relabel hp.u2d hS.u2d (S.D w *ᵥ ((S.front1 w).R *ᵥ (S.D w *ᵥ (S.down2up *ᵥ t.vf1 w)))) (S'.D w' *ᵥ ((S'.front1 w').R *ᵥ (S'.D w' *ᵥ (S'.down2up *ᵥ t'.vf1 w'))))
  have g6 := gap_surface (hS.r0 w) (hp.r0 w) h.r0 (v := S.up2down *ᵥ (S.D w *ᵥ ((S.front1 w).R *ᵥ (S.D w *ᵥ (S.down2up *ᵥ t.vf1 w))))) b5
  have e1 := bulk_step S hS.u2d t w
  have e2 := bulk_step S' hS'.u2d t' w'
  unfold allGaps
  rw [s1, s2, s3, s4, s1', s2', s3', s4', e1, e2, step_vf1, step_vf1]
  have a1 := gap_add (recR t w) (recR t' w') ((S.rear0 w).T *ᵥ (flowsOf S w (t.vf1 w)).up0) ((S'.rear0 w').T *ᵥ (flowsOf S' w' (t'.vf1 w')).up0)
  have a2 := gap_add (recT t w) (recT t' w') ((S.front1 w).T *ᵥ (flowsOf S w (t.vf1 w)).down1) ((S'.front1 w').T *ᵥ (flowsOf S' w' (t'.vf1 w')).down1)
  have a3 := gap_add (recA0 t w) (recA0 t' w') ((S.rear0 w).A *ᵥ (flowsOf S w (t.vf1 w)).up0) ((S'.rear0 w').A *ᵥ (flowsOf S' w' (t'.vf1 w')).up0)
  have a4 := gap_add (recA1 t w) (recA1 t' w') ((S.front1 w).A *ᵥ (flowsOf S w (t.vf1 w)).down1) ((S'.front1 w').A *ᵥ (flowsOf S' w' (t'.vf1 w')).down1)
  have tri : ∀ a a' b b' c c' : ℝ, |a + b + c - (a' + b' + c')| ≤ |a - a'| + |b - b'| + |c - c'| := by
    intro a a' b b' c c'
    rw [show a + b + c - (a' + b' + c') = (a - a') + (b - b') + (c - c') by ring]
    exact abs_add_three _ _ _
  have a5 := tri (t.Abulk w) (t'.Abulk w') (∑ j, (S.down2up *ᵥ t.vf1 w) j - ∑ j, (S.D w *ᵥ (S.down2up *ᵥ t.vf1 w)) j) (∑ j, (S'.down2up *ᵥ t'.vf1 w') j - ∑ j, (S'.D w' *ᵥ (S'.down2up *ᵥ t'.vf1 w')) j)
    (∑ j, ((S.front1 w).R *ᵥ (S.D w *ᵥ (S.down2up *ᵥ t.vf1 w))) j - ∑ j, (S.D w *ᵥ ((S.front1 w).R *ᵥ (S.D w *ᵥ (S.down2up *ᵥ t.vf1 w)))) j)
    (∑ j, ((S'.front1 w').R *ᵥ (S'.D w' *ᵥ (S'.down2up *ᵥ t'.vf1 w'))) j - ∑ j, (S'.D w' *ᵥ ((S'.front1 w').R *ᵥ (S'.D w' *ᵥ (S'.down2up *ᵥ t'.vf1 w')))) j)
  have q1 := mul_le_mul_of_nonneg_left (p2.trans p1.le) hη
  have q2 := mul_le_mul_of_nonneg_left (p5.le.trans (p4.trans (p3.trans (p2.trans p1.le)))) hη
  simp only [flowsOf, roundTrip] at *
  simp only [hD, h.u2d, h.d2u] at *
  change gap (S.D w *ᵥ (S.down2up *ᵥ t.vf1 w)) (S.D w *ᵥ (S.down2up *ᵥ t'.vf1 w')) + |(_ - ∑ j, (S.D w *ᵥ (S.down2up *ᵥ t.vf1 w)) j) - (_ - ∑ j, (S.D w *ᵥ (S.down2up *ᵥ t'.vf1 w')) j)| ≤ _ at g2
  change gap (S.D w *ᵥ ((S.front1 w).R *ᵥ (S.D w *ᵥ (S.down2up *ᵥ t.vf1 w)))) (S.D w *ᵥ ((S'.front1 w').R *ᵥ (S.D w *ᵥ (S.down2up *ᵥ t'.vf1 w')))) +
    |(_ - ∑ j, (S.D w *ᵥ ((S.front1 w).R *ᵥ (S.D w *ᵥ (S.down2up *ᵥ t.vf1 w)))) j) - (_ - ∑ j, (S.D w *ᵥ ((S'.front1 w').R *ᵥ (S.D w *ᵥ (S.down2up *ᵥ t'.vf1 w')))) j)| ≤ _ at g4
  linarith

theorem gaps_iter (k : ℕ) : allGaps (S.step^[k] S.init) w (S'.step^[k] S'.init) w' ≤ η * (∑ j, S.v0 w j + 2 * ∑ i ∈ Finset.range k, ∑ j, (S'.step^[i] S'.init).vf1 w' j) := by
  induction k with
  | zero =>
    obtain ⟨r1, r2, r3, r4⟩ := rec_init S w
    obtain ⟨r1', r2', r3', r4'⟩ := rec_init S' w'
    have g := gap_surface (hS.f0 w) (hp.f0 w) h.f0 (v := S.v0 w) (v' := S'.v0 w') (hp'.v0 w')
    have e : gap (S.v0 w) (S'.v0 w') = 0 := by unfold gap; rw [h.v0]; simp
    have z1 : gap (0 : ι → ℝ) 0 = 0 := by simp [gap]
    have z2 : gap (0 : κ₁ → ℝ) 0 = 0 := by simp [gap]
    rw [e, h.v0] at g
    simp only [Function.iterate_zero, id, allGaps, r1, r2, r3, r4, r1', r2', r3', r4', z1, z2, Finset.range_zero, Finset.sum_empty]
    have ea : |S.init.Abulk w - S'.init.Abulk w'| = 0 := by simp [LoopState.Abulk, Sys.init]
    rw [ea, h.v0]
    change gap ((S.front0 w).T *ᵥ S.v0 w) ((S'.front0 w').T *ᵥ S'.v0 w') + _ + 0 + _ + 0 + 0 ≤ _
    rw [h.v0]
    linarith
  | succ k ih =>
    rw [Function.iterate_succ_apply', Function.iterate_succ_apply', Finset.sum_range_succ]
    have := gaps_step S w S' w' hS hp hS' hp' hη h hα hd (S.step^[k] S.init) (S'.step^[k] S'.init) ((nonneg_iter S' hp' hS'.u2d k).1 w')
    linarith

/-- The light under way, pass by pass, is a convergent geometric series if the bulk layer absorbs. -/
theorem under_way_le (hcos : ∀ j, Real.cos (S.θ j) ≠ 0) (habs : 0 < S.α w * S.thick) (k : ℕ) :
    ∑ i ∈ Finset.range k, ∑ j, (S'.step^[i] S'.init).vf1 w' j ≤ (∑ j, S.v0 w j) / (1 - Real.exp (-(2 * (S.α w * S.thick)))) := by
  set q := Real.exp (-(2 * (S.α w * S.thick))) with hq
  have hq0 : 0 < q := Real.exp_pos _
  have hq1 : q < 1 := by rw [hq, Real.exp_lt_one_iff]; linarith
  have hv : 0 ≤ ∑ j, S.v0 w j := Finset.sum_nonneg fun j _ => hp.v0 w j
  have hstep : ∀ i, ∑ j, (S'.step^[i] S'.init).vf1 w' j ≤ (∑ j, S.v0 w j) * q ^ i := by
    intro i
    induction i with
    | zero =>
      have := init_power_le S' hp' hS'.f0 w'
      rw [h.v0] at this
      simpa using this
    | succ i ih =>
      rw [Function.iterate_succ_apply', step_vf1]
      have := roundTrip_le S' hp' hS'.u2d hS'.d2u hS'.f1 hS'.r0 (by rw [h.θ]; exact hcos) (S.α w) (hp.α w) w' hα.ge _ ((nonneg_iter S' hp' hS'.u2d i).1 w')
      rw [hd, ← hq] at this
      have h2 := mul_le_mul_of_nonneg_left ih hq0.le
      rw [pow_succ]
      linarith
  refine (Finset.sum_le_sum fun i _ => hstep i).trans ?_
  rw [← Finset.mul_sum, div_eq_mul_inv]
  refine mul_le_mul_of_nonneg_left ?_ hv
  rw [← tsum_geometric_of_lt_one hq0.le hq1]
  exact (summable_geometric_of_lt_one hq0.le hq1).sum_le_tsum _ fun i _ => pow_nonneg hq0.le i

theorem gaps_le (hcos : ∀ j, Real.cos (S.θ j) ≠ 0) (habs : 0 < S.α w * S.thick) (k : ℕ) :
    allGaps (S.step^[k] S.init) w (S'.step^[k] S'.init) w' ≤ η * (1 + 2 / (1 - Real.exp (-(2 * (S.α w * S.thick))))) * ∑ j, S.v0 w j := by
  have h1 := gaps_iter S w S' w' hS hp hS' hp' hη h hα hd k
  have h2 := mul_le_mul_of_nonneg_left (under_way_le S w S' w' hS hp hS' hp' hη h hα hd hcos habs k) hη
  refine h1.trans ?_
  have e : η * (1 + 2 / (1 - Real.exp (-(2 * (S.α w * S.thick))))) * ∑ j, S.v0 w j = η * ∑ j, S.v0 w j + 2 * (η * ((∑ j, S.v0 w j) / (1 - Real.exp (-(2 * (S.α w * S.thick)))))) := by ring
  rw [e]
  linarith

/-! ## The property -/

/-- **C191, pass by pass.** Two calculations with the same angular grid, incident light and bulk layer, whose stored matrices differ by at most `η` (for light incident in any direction, the total of the differences between the fractions
reflected, transmitted and absorbed): after the same number `k` of passes the differences of all recorded quantities – reflection and transmission for each direction, absorption in each surface layer and in the bulk layer – add up to at
most `η` times the incident light plus twice the light under way in each of the passes, and so to at most `(1 + 2 k) η` times the incident light. -/
theorem C191_passes (k : ℕ) :
    (∑ j, |recR (S.step^[k] S.init) w j - recR (S'.step^[k] S'.init) w' j| + ∑ j, |recT (S.step^[k] S.init) w j - recT (S'.step^[k] S'.init) w' j| +
        ∑ l, |recA0 (S.step^[k] S.init) w l - recA0 (S'.step^[k] S'.init) w' l| + ∑ l, |recA1 (S.step^[k] S.init) w l - recA1 (S'.step^[k] S'.init) w' l| +
        |(S.step^[k] S.init).Abulk w - (S'.step^[k] S'.init).Abulk w'| ≤ η * (∑ j, S.v0 w j + 2 * ∑ i ∈ Finset.range k, power (S'.step^[i] S'.init).vf1 w')) ∧
    η * (∑ j, S.v0 w j + 2 * ∑ i ∈ Finset.range k, power (S'.step^[i] S'.init).vf1 w') ≤ (1 + 2 * k) * η * ∑ j, S.v0 w j := by
  constructor
  · have := gaps_iter S w S' w' hS hp hS' hp' hη h hα hd k
    have g := gap_nonneg ((S.step^[k] S.init).vf1 w) ((S'.step^[k] S'.init).vf1 w')
    unfold allGaps gap at this
    unfold gap at g
    simp only [power]
    linarith
  · have h1 : ∑ i ∈ Finset.range k, power (S'.step^[i] S'.init).vf1 w' ≤ ∑ i ∈ Finset.range k, ∑ j, S.v0 w j := by
      refine Finset.sum_le_sum fun i _ => ?_
      have t1 := total_iter S' hS'.d2u hS'.f0 hS'.f1 hS'.r0 i w'
      have t2 := totals_nonneg (nonneg_iter S' hp' hS'.u2d i) w'
      rw [h.v0] at t1
      simp only [total] at t1
      simp only [power]
      linarith [t2.1, t2.2.1, t2.2.2.1, t2.2.2.2.1, t2.2.2.2.2.1]
    rw [Finset.sum_const, Finset.card_range, nsmul_eq_mul] at h1
    have := mul_le_mul_of_nonneg_left h1 hη
    linarith

/-- **C191.** If the bulk layer absorbs, two calculations whose stored matrices differ by at most `η` return nearly the same results: the reflection and transmission into every direction and in total, the absorption in every layer of the
surfaces and in the bulk layer differ by at most `η (1 + 2 / (1 - exp (-2 α d)))` times the incident light plus the larger of the two `I_thresh`, whatever the numbers of passes and whether or not profiles are calculated. -/
theorem C191_stable (hcos : ∀ j, Real.cos (S.θ j) ≠ 0) (habs : 0 < S.α w * S.thick) (o : ProfOpts ω ι) (o' : ProfOpts ω' ι) (k k' : ℕ) (t : LoopState ω ι κ₀ κ₁) (t' : LoopState ω' ι κ₀ κ₁)
    (ht : S.Exits k t ∨ S.ExitsProf o k t) (ht' : S'.Exits k' t' ∨ S'.ExitsProf o' k' t') :
    let B := η * (1 + 2 / (1 - Real.exp (-(2 * (S.α w * S.thick))))) * ∑ j, S.v0 w j + max S.thresh S'.thresh
    (∀ j, |recR t w j - recR t' w' j| ≤ B) ∧ (∀ j, |recT t w j - recT t' w' j| ≤ B) ∧ (∀ l, |recA0 t w l - recA0 t' w' l| ≤ B) ∧ (∀ l, |recA1 t w l - recA1 t' w' l| ≤ B) ∧
    |t.R w - t'.R w'| ≤ B ∧ |t.T w - t'.T w'| ≤ B ∧ |t.Abulk w - t'.Abulk w'| ≤ B := by
  intro B
  obtain ⟨hd1, e1, e2, e3, e4, e5, e6, e7⟩ := exits_plain S hS o ht w
  obtain ⟨hd1', e1', e2', e3', e4', e5', e6', e7'⟩ := exits_plain S' hS' o' ht' w'
  rw [e1, e2, e3, e4, e5, e6, e7, e1', e2', e3', e4', e5', e6', e7']
  have hP : ∑ j, (S.step^[k] S.init).vf1 w j ≤ S.thresh := hd1 w
  have hP' : ∑ j, (S'.step^[k'] S'.init).vf1 w' j ≤ S'.thresh := hd1' w'
  have x1 := le_max_left S.thresh S'.thresh
  have x2 := le_max_right S.thresh S'.thresh
  obtain ⟨m1, m2, m3, m4, m5⟩ := rec_mono S hS hp w (le_max_left k k')
  obtain ⟨n1, n2, n3, n4, n5⟩ := rec_mono S' hS' hp' w' (le_max_right k k')
  obtain ⟨b1, b2, b3, b4, b5, b6, b7⟩ := rec_bound S hS hp w (le_max_left k k')
  obtain ⟨c1, c2, c3, c4, c5, c6, c7⟩ := rec_bound S' hS' hp' w' (le_max_right k k')
  have g := gaps_le S w S' w' hS hp hS' hp' hη h hα hd hcos habs (max k k')
  unfold allGaps at g
  have g0 := gap_nonneg ((S.step^[max k k'] S.init).vf1 w) ((S'.step^[max k k'] S'.init).vf1 w')
  have g1 := gap_nonneg (recR (S.step^[max k k'] S.init) w) (recR (S'.step^[max k k'] S'.init) w')
  have g2 := gap_nonneg (recT (S.step^[max k k'] S.init) w) (recT (S'.step^[max k k'] S'.init) w')
  have g3 := gap_nonneg (recA0 (S.step^[max k k'] S.init) w) (recA0 (S'.step^[max k k'] S'.init) w')
  have g4 := gap_nonneg (recA1 (S.step^[max k k'] S.init) w) (recA1 (S'.step^[max k k'] S'.init) w')
  have g5 := abs_nonneg ((S.step^[max k k'] S.init).Abulk w - (S'.step^[max k k'] S'.init).Abulk w')
  have key : ∀ {a A b A' : ℝ}, a ≤ A → A ≤ a + ∑ j, (S.step^[k] S.init).vf1 w j → b ≤ A' → A' ≤ b + ∑ j, (S'.step^[k'] S'.init).vf1 w' j →
      |A - A'| ≤ η * (1 + 2 / (1 - Real.exp (-(2 * (S.α w * S.thick))))) * ∑ j, S.v0 w j → |a - b| ≤ B := by
    intro a A b A' h1 h2 h3 h4 h5
    have := abs_le.mp h5
    refine abs_le.mpr ⟨?_, ?_⟩ <;> simp only [B] <;> linarith [this.1, this.2]
  have sR := rec_sums (S.step^[max k k'] S.init) w
  have sR' := rec_sums (S'.step^[max k k'] S'.init) w'
  have uR := rec_sums (S.step^[k] S.init) w
  have uR' := rec_sums (S'.step^[k'] S'.init) w'
  refine ⟨fun j => key (m1 j) (b1 j) (n1 j) (c1 j) ((gap_apply _ _ j).trans (by linarith)), fun j => key (m2 j) (b2 j) (n2 j) (c2 j) ((gap_apply _ _ j).trans (by linarith)),
    fun l => key (m3 l) (b3 l) (n3 l) (c3 l) ((gap_apply _ _ l).trans (by linarith)), fun l => key (m4 l) (b4 l) (n4 l) (c4 l) ((gap_apply _ _ l).trans (by linarith)), ?_, ?_, key m5 b5 n5 c5 (by linarith)⟩
  · refine key ?_ b6 ?_ c6 ?_
    · rw [← sR.1, ← uR.1]; exact Finset.sum_le_sum fun j _ => m1 j
    · rw [← sR'.1, ← uR'.1]; exact Finset.sum_le_sum fun j _ => n1 j
    · rw [← sR.1, ← sR'.1]; exact (gap_sum _ _).trans (by linarith)
  · refine key ?_ b7 ?_ c7 ?_
    · rw [← sR.2.1, ← uR.2.1]; exact Finset.sum_le_sum fun j _ => m2 j
    · rw [← sR'.2.1, ← uR'.2.1]; exact Finset.sum_le_sum fun j _ => n2 j
    · rw [← sR.2.1, ← sR'.2.1]; exact (gap_sum _ _).trans (by linarith)

/-- **C191, exactly.** For the exact solutions there is no tolerance, and all differences together are within the bound. -/
theorem C191_exact (hcos : ∀ j, Real.cos (S.θ j) ≠ 0) (habs : 0 < S.α w * S.thick) (f f' : Flows ι) (hf : IsSteady S w f) (hf' : IsSteady S' w' f') :
    ∑ j, |f.refl S w j - f'.refl S' w' j| + ∑ j, |f.trns S w j - f'.trns S' w' j| + ∑ l, |f.abs0 S w l - f'.abs0 S' w' l| + ∑ l, |f.abs1 S w l - f'.abs1 S' w' l| + |f.bulk - f'.bulk| ≤
      η * (1 + 2 / (1 - Real.exp (-(2 * (S.α w * S.thick))))) * ∑ j, S.v0 w j := by
  obtain ⟨k1, k2, k3, k4, k5, -⟩ := C133_limit S hS hp w f hf
  obtain ⟨l1, l2, l3, l4, l5, -⟩ := C133_limit S' hS' hp' w' f' hf'
  have T1 := tendsto_finsetSum Finset.univ fun j _ => ((k1 j).sub (l1 j)).abs
  have T2 := tendsto_finsetSum Finset.univ fun j _ => ((k2 j).sub (l2 j)).abs
  have T3 := tendsto_finsetSum Finset.univ fun j _ => ((k3 j).sub (l3 j)).abs
  have T4 := tendsto_finsetSum Finset.univ fun j _ => ((k4 j).sub (l4 j)).abs
  have T5 := (k5.sub l5).abs
  refine le_of_tendsto' ((((T1.add T2).add T3).add T4).add T5) fun k => ?_
  have g := gaps_le S w S' w' hS hp hS' hp' hη h hα hd hcos habs k
  have g0 := gap_nonneg ((S.step^[k] S.init).vf1 w) ((S'.step^[k] S'.init).vf1 w')
  unfold allGaps at g
  unfold gap recR recT recA0 recA1 at g
  unfold gap at g0
  linarith

end

/-- A transparent bulk layer between two surfaces from which the fractions `p` (front) and `q` (rear) of the light inside leave; all light is let in. -/
noncomputable def twoLeaks (p q ε : ℝ) : Sys (Fin 1) (Fin 1) (Fin 1) (Fin 1) where
  v0 := fun _ _ => 1
  up2down := fun _ _ => 1
  down2up := fun _ _ => 1
  α := fun _ => 0
  thick := 1
  θ := fun _ => 0
  front0 := fun _ => ⟨fun _ _ => 0, fun _ _ => 1, fun _ _ => 0⟩
  front1 := fun _ => ⟨fun _ _ => 1 - q, fun _ _ => q, fun _ _ => 0⟩
  rear0 := fun _ => ⟨fun _ _ => 1 - p, fun _ _ => p, fun _ _ => 0⟩
  thresh := ε

theorem twoLeaks_valid {p q : ℝ} (ε : ℝ) (hp0 : 0 ≤ p) (hp1 : p ≤ 1) (hq0 : 0 ≤ q) (hq1 : q ≤ 1) : EnergyConserving (twoLeaks p q ε) ∧ NonnegData (twoLeaks p q ε) := by
  constructor
  · constructor <;> simp [twoLeaks, Relabels, Conserves]
  · constructor <;> simp [twoLeaks, Fractions, hp0, hp1, hq0, hq1]

theorem twoLeaks_flows (p q ε : ℝ) (w : Fin 1) (y : Fin 1 → ℝ) :
    (flowsOf (twoLeaks p q ε) w y).down1 = y ∧ (flowsOf (twoLeaks p q ε) w y).up0 = fun _ => (1 - q) * y 0 := by
  constructor <;> funext j <;> fin_cases j <;> simp [flowsOf, twoLeaks, Sys.D, makeD, Matrix.mulVec, dotProduct, Matrix.diagonal]

theorem twoLeaks_vf1 (p q ε : ℝ) (w : Fin 1) (k : ℕ) : ((twoLeaks p q ε).step^[k] (twoLeaks p q ε).init).vf1 w = fun _ => ((1 - p) * (1 - q)) ^ k := by
  induction k with
  | zero => funext j; simp [Sys.init, twoLeaks, dotWl, Matrix.mulVec, dotProduct]
  | succ k ih =>
    rw [Function.iterate_succ_apply', step_vf1, ← flowsOf_trip, (twoLeaks_flows p q ε w _).2, ih]
    funext j
    simp only [twoLeaks, Matrix.mulVec, dotProduct, Finset.univ_unique, Finset.sum_singleton]
    ring

theorem twoLeaks_rec (p q ε : ℝ) (w : Fin 1) (k : ℕ) :
    recR ((twoLeaks p q ε).step^[k] (twoLeaks p q ε).init) w 0 = ∑ i ∈ Finset.range k, p * ((1 - q) * ((1 - p) * (1 - q)) ^ i) := by
  induction k with
  | zero => rw [Function.iterate_zero, id_eq, (rec_init (twoLeaks p q ε) w).1]; simp [twoLeaks, Matrix.mulVec, dotProduct]
  | succ k ih =>
    rw [Finset.sum_range_succ, ← ih, Function.iterate_succ_apply', (rec_step (twoLeaks p q ε) _ w).1, (twoLeaks_flows p q ε w _).2, twoLeaks_vf1]
    simp only [twoLeaks, Matrix.mulVec, dotProduct, Finset.univ_unique, Finset.sum_singleton, Pi.add_apply]

theorem twoLeaks_exits {p q ε : ℝ} (hε : 0 < ε) (h0 : 0 ≤ (1 - p) * (1 - q)) (h1 : (1 - p) * (1 - q) < 1) : ∃ k, (twoLeaks p q ε).Exits k ((twoLeaks p q ε).step^[k] (twoLeaks p q ε).init) := by
  classical
  have hex : ∃ k, (twoLeaks p q ε).Done ((twoLeaks p q ε).step^[k] (twoLeaks p q ε).init) := by
    obtain ⟨k, hk⟩ := exists_pow_lt_of_lt_one hε h1
    refine ⟨k, fun w => ?_⟩
    simp only [power, twoLeaks_vf1, Finset.univ_unique, Finset.sum_singleton]
    exact hk.le
  exact ⟨Nat.find hex, rfl, Nat.find_spec hex, fun i hi => Nat.find_min hex hi⟩

/-- **C191: absorption in the bulk layer is needed.** Without it, matrices that differ as little as one likes can lead to opposite results: if only the fraction `η` leaves through the front surface per pass and nothing through the rear one, all
the light is reflected in the end (up to `I_thresh`); the other way round nothing is. -/
theorem C191_needs_absorption (η : ℝ) (h0 : 0 < η) (h1 : η < 1) (ε : ℝ) (hε : 0 < ε) :
    ∃ (S S' : Sys (Fin 1) (Fin 1) (Fin 1) (Fin 1)) (k k' : ℕ) (t t' : LoopState (Fin 1) (Fin 1) (Fin 1) (Fin 1)), EnergyConserving S ∧ NonnegData S ∧ EnergyConserving S' ∧ NonnegData S' ∧
      CloseSurfaces S 0 S' 0 (2 * η) ∧ S'.α 0 = S.α 0 ∧ S'.thick = S.thick ∧ S.thresh = ε ∧ S'.thresh = ε ∧ S.Exits k t ∧ S'.Exits k' t' ∧ ∑ j, S.v0 0 j = 1 ∧ 1 - ε ≤ t.R 0 ∧ t'.R 0 = 0 := by
  obtain ⟨v1, v2⟩ := twoLeaks_valid (p := η) (q := 0) ε h0.le h1.le le_rfl zero_le_one
  obtain ⟨v1', v2'⟩ := twoLeaks_valid (p := 0) (q := η) ε le_rfl zero_le_one h0.le h1.le
  obtain ⟨k, hk⟩ := twoLeaks_exits (p := η) (q := 0) hε (by simpa using h1.le) (by simpa using h0)
  obtain ⟨k', hk'⟩ := twoLeaks_exits (p := 0) (q := η) hε (by simpa using h1.le) (by simpa using h0)
  refine ⟨twoLeaks η 0 ε, twoLeaks 0 η ε, k, k', _, _, v1, v2, v1', v2', ⟨rfl, rfl, rfl, rfl, ?_, ?_, ?_⟩, rfl, rfl, rfl, rfl, hk, hk', by simp [twoLeaks], ?_, ?_⟩
  · intro j; simp only [surfaceGap, twoLeaks]; simp; linarith
  · intro j; simp only [surfaceGap, twoLeaks]; simp [abs_of_pos h0]; linarith
  · intro j; simp only [surfaceGap, twoLeaks]; simp [abs_of_pos h0]; linarith
  · have hdone := hk.2.1 0
    simp only [power, twoLeaks_vf1, Finset.univ_unique, Finset.sum_singleton] at hdone
    rw [← (rec_sums _ 0).1]
    simp only [Finset.univ_unique, Finset.sum_singleton]
    change 1 - ε ≤ recR _ 0 0
    rw [twoLeaks_rec]
    have e : ∑ i ∈ Finset.range k, η * ((1 - 0) * ((1 - η) * (1 - 0)) ^ i) = 1 - ((1 - η) * (1 - 0)) ^ k := by
      have := mul_neg_geom_sum (1 - η) k
      rw [show (1 : ℝ) - (1 - η) = η by ring, Finset.mul_sum] at this
      simpa using this
    rw [e]
    change _ ≤ ε at hdone
    linarith
  · rw [← (rec_sums _ 0).1]
    simp only [Finset.univ_unique, Finset.sum_singleton]
    change recR _ 0 0 = 0
    rw [twoLeaks_rec]
    simp

/-- The example system of `exMats`, and the same with a rear surface that transmits one hundredth more and reflects less. -/
example : ∃ S' : Sys (Fin 2) (Fin 2) (Fin 1) (Fin 1), EnergyConserving S' ∧ NonnegData S' ∧ CloseSurfaces exSys 0 S' 0 (1 / 50) ∧ S'.front1 0 ≠ exSys.front1 0 ∧ S'.α 0 = exSys.α 0 ∧ S'.thick = exSys.thick ∧
    (∀ j, Real.cos (exSys.θ j) ≠ 0) ∧ 0 < exSys.α 0 * exSys.thick := by
  refine ⟨{ exSys with front1 := fun _ => ⟨fun r j => if r ≠ j then 49 / 100 else 0, fun r j => if r = j then 26 / 100 else 0, fun _ _ => 1 / 4⟩ },
    ⟨exSys_conserving.u2d, exSys_conserving.d2u, exSys_conserving.f0, fun _ j => ?_, exSys_conserving.r0⟩,
    ⟨exSys_nonneg.v0, exSys_nonneg.u2d, exSys_nonneg.d2u, exSys_nonneg.α, exSys_nonneg.thick, exSys_nonneg.f0, fun _ => ⟨fun r j => ?_, fun r j => ?_, fun r j => ?_⟩, exSys_nonneg.r0⟩,
    ⟨rfl, rfl, rfl, rfl, fun j => ?_, fun j => ?_, fun j => ?_⟩, fun hc => ?_, rfl, rfl, exSys_cos, by norm_num [exSys]⟩
  · fin_cases j <;> simp [Fin.sum_univ_two] <;> norm_num
  · dsimp only; split_ifs <;> norm_num
  · dsimp only; split_ifs <;> norm_num
  · norm_num
  · norm_num [surfaceGap, exSys]
  · fin_cases j <;> simp [surfaceGap, exSys, exMats, Fin.sum_univ_two] <;> norm_num [abs_of_pos, abs_of_neg]
  · norm_num [surfaceGap, exSys]
  · have := congrArg (fun M => M.T 0 0) hc
    norm_num [exSys, exMats] at this

end Rayflare
