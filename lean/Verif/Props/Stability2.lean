import Verif.Props.Stability
import Mathlib.Analysis.Complex.ExponentialBounds

/-!
# Property C194: small errors in the absorption coefficient or the thickness of the bulk layer cause small errors in the results
-/

namespace Rayflare

open Rayflare.Np Rayflare.Model Rayflare.Spec Rayflare.Lemmas Matrix

set_option linter.unusedSectionVars false

variable {ω ω' ι κ κ₀ κ₁ : Type*} [Fintype ι] [DecidableEq ι] [Fintype κ] [Fintype κ₀] [Fintype κ₁]

/-! ## Helper lemmas -/

/-- A relative error `ρ` of the optical thickness changes the transmitted fraction by less than `3 ρ / 8`, whatever the angle. -/
theorem att_close {a a' ρ c : ℝ} (ha : 0 ≤ a) (hc : 0 ≤ c) (h1 : a ≤ a') (h2 : a' ≤ (1 + ρ) * a) (hρ : 0 ≤ ρ) : |Real.exp (-a / c) - Real.exp (-a' / c)| ≤ 3 / 8 * ρ := by
  obtain ⟨x, hx⟩ : ∃ x, a / c = x := ⟨_, rfl⟩
  obtain ⟨y, hy⟩ : ∃ y, a' / c = y := ⟨_, rfl⟩
  have hx0 : 0 ≤ x := hx ▸ div_nonneg ha hc
  have hxy : x ≤ y := by rw [← hx, ← hy]; exact div_le_div_of_nonneg_right h1 hc
  have hyx : y ≤ (1 + ρ) * x := by rw [← hx, ← hy, ← mul_div_assoc]; exact div_le_div_of_nonneg_right h2 hc
  rw [neg_div, neg_div, hx, hy, abs_of_nonneg (sub_nonneg.mpr (Real.exp_le_exp.mpr (neg_le_neg hxy)))]
  have e1 : Real.exp (-y) = Real.exp (-x) * Real.exp (-(y - x)) := by rw [← Real.exp_add]; congr 1; ring
  have e2 := Real.add_one_le_exp (-(y - x))
  have e3 := Real.add_one_le_exp (x - 1)
  have e4 : Real.exp (x - 1) * Real.exp (-x) = Real.exp (-1) := by rw [← Real.exp_add]; congr 1; ring
  have e5 : Real.exp (-1) ≤ 3 / 8 := by
    rw [Real.exp_neg, inv_le_comm₀ (Real.exp_pos 1) (by norm_num)]
    have := Real.exp_one_gt_d9
    norm_num
    linarith
  have p := Real.exp_pos (-x)
  have f1 : Real.exp (-x) - Real.exp (-y) ≤ Real.exp (-x) * (y - x) := by
    rw [e1]
    have := mul_le_mul_of_nonneg_left e2 p.le
    linarith
  have f2 : Real.exp (-x) * (y - x) ≤ Real.exp (-x) * (ρ * x) := mul_le_mul_of_nonneg_left (by linarith) p.le
  have f3 : x * Real.exp (-x) ≤ 3 / 8 := by
    have := mul_le_mul_of_nonneg_right (show x ≤ Real.exp (x - 1) by linarith) p.le
    rw [e4] at this
    linarith
  have f4 := mul_le_mul_of_nonneg_left f3 hρ
  linarith

/-- Bulk layers with different attenuation: the errors of what arrives on the other side and of what is absorbed. -/
theorem gap_bulk2 {α d α' d' ε : ℝ} (hα : 0 ≤ α) (hd : 0 ≤ d) (θ v v' : ι → ℝ) (hv : ∀ j, 0 ≤ v' j) (hε : ∀ j, |Real.exp (-α * d / |Real.cos (θ j)|) - Real.exp (-α' * d' / |Real.cos (θ j)|)| ≤ ε) :
    gap (makeD α d θ *ᵥ v) (makeD α' d' θ *ᵥ v') + |(∑ j, v j - ∑ j, (makeD α d θ *ᵥ v) j) - (∑ j, v' j - ∑ j, (makeD α' d' θ *ᵥ v') j)| ≤ gap v v' + 2 * ε * ∑ j, v' j := by
  have g := gap_bulk hα hd θ v v'
  have hj : ∀ j, |(makeD α d θ *ᵥ v') j - (makeD α' d' θ *ᵥ v') j| ≤ ε * v' j := by
    intro j
    rw [makeD_mulVec, makeD_mulVec, ← sub_mul, abs_mul, abs_of_nonneg (hv j)]
    exact mul_le_mul_of_nonneg_right (hε j) (hv j)
  have e1 : gap (makeD α d θ *ᵥ v) (makeD α' d' θ *ᵥ v') ≤ gap (makeD α d θ *ᵥ v) (makeD α d θ *ᵥ v') + ε * ∑ j, v' j := by
    unfold gap
    rw [Finset.mul_sum, ← Finset.sum_add_distrib]
    exact Finset.sum_le_sum fun j _ => (abs_sub_le _ _ _).trans (add_le_add le_rfl (hj j))
  have e2 : |∑ j, (makeD α d θ *ᵥ v') j - ∑ j, (makeD α' d' θ *ᵥ v') j| ≤ ε * ∑ j, v' j := by
    rw [← Finset.sum_sub_distrib, Finset.mul_sum]
    exact (Finset.abs_sum_le_sum_abs _ _).trans (Finset.sum_le_sum fun j _ => hj j)
  obtain ⟨A, hA⟩ : ∃ A, ∑ j, v j - ∑ j, (makeD α d θ *ᵥ v) j = A := ⟨_, rfl⟩
  obtain ⟨V, hV⟩ : ∃ V, ∑ j, v' j = V := ⟨_, rfl⟩
  obtain ⟨X, hX⟩ : ∃ X, ∑ j, (makeD α d θ *ᵥ v') j = X := ⟨_, rfl⟩
  obtain ⟨Y, hY⟩ : ∃ Y, ∑ j, (makeD α' d' θ *ᵥ v') j = Y := ⟨_, rfl⟩
  rw [hA, hV, hX] at g
  rw [hX, hY, hV] at e2
  rw [hV] at e1
  rw [hA, hV, hY]
  have e3 : |A - (V - Y)| ≤ |A - (V - X)| + |X - Y| := by
    rw [show A - (V - Y) = (A - (V - X)) - (X - Y) by ring]
    exact abs_sub _ _
  linarith

section
variable (S : Sys ω ι κ₀ κ₁) (w : ω) (S' : Sys ω' ι κ₀ κ₁) (w' : ω') (hS : EnergyConserving S) (hp : NonnegData S) (hS' : EnergyConserving S') (hp' : NonnegData S') {η ρ : ℝ} (hη : 0 ≤ η) (hρ : 0 ≤ ρ)
  (h : CloseSurfaces S w S' w' η) (h1 : S.α w * S.thick ≤ S'.α w' * S'.thick) (h2 : S'.α w' * S'.thick ≤ (1 + ρ) * (S.α w * S.thick))
include hS hp hS' hp' hη hρ h h1 h2

theorem gaps2_step (t : LoopState ω ι κ₀ κ₁) (t' : LoopState ω' ι κ₀ κ₁) (hn : ∀ j, 0 ≤ t'.vf1 w' j) :
    allGaps (S.step t) w (S'.step t') w' ≤ allGaps t w t' w' + (2 * η + 3 / 2 * ρ) * ∑ j, t'.vf1 w' j := by
  obtain ⟨s1, s2, s3, s4⟩ := rec_step S t w
  obtain ⟨s1', s2', s3', s4'⟩ := rec_step S' t' w'
  have hε : ∀ j, |Real.exp (-S.α w * S.thick / |Real.cos (S.θ j)|) - Real.exp (-S'.α w' * S'.thick / |Real.cos (S.θ j)|)| ≤ 3 / 8 * ρ := fun j => by
    rw [neg_mul, neg_mul]
    exact att_close (mul_nonneg (hp.α w) hp.thick) (abs_nonneg _) h1 h2 hρ
  have hD : S'.D w' = makeD (S'.α w') S'.thick S.θ := by unfold Sys.D; rw [h.θ]
  have b1 := mulVec_nonneg hp'.d2u hn
  have b2 := D_nonneg S' (w := w') b1
  have b3 := mulVec_nonneg (hp'.f1 w').1 b2
  have b4 := D_nonneg S' (w := w') b3
  have b5 := mulVec_nonneg hp'.u2d b4
  have p1 := sum_relabel hS'.d2u (t'.vf1 w')
  have p2 : ∑ j, (S'.D w' *ᵥ (S'.down2up *ᵥ t'.vf1 w')) j ≤ ∑ j, (S'.down2up *ᵥ t'.vf1 w') j := Finset.sum_le_sum fun j _ => D_le S' hp' b1 j
  have p3 := sum_R_le (hS'.f1 w') (hp'.f1 w') b2
  have p4 : ∑ j, (S'.D w' *ᵥ ((S'.front1 w').R *ᵥ (S'.D w' *ᵥ (S'.down2up *ᵥ t'.vf1 w')))) j ≤ _ := Finset.sum_le_sum fun j _ => D_le S' hp' b3 j
  have p5 := sum_relabel hS'.u2d (S'.D w' *ᵥ ((S'.front1 w').R *ᵥ (S'.D w' *ᵥ (S'.down2up *ᵥ t'.vf1 w'))))
  have g1 := gap_relabel hp.d2u hS.d2u (t.vf1 w) (t'.vf1 w')
  have g2 := gap_bulk2 (hp.α w) hp.thick S.θ (S.down2up *ᵥ t.vf1 w) (S'.down2up *ᵥ t'.vf1 w') b1 hε
  rw [← hD] at g2
  have g3 := gap_surface (hS.f1 w) (hp.f1 w) h.f1 (v := S.D w *ᵥ (S.down2up *ᵥ t.vf1 w)) b2
  have g4 := gap_bulk2 (hp.α w) hp.thick S.θ ((S.front1 w).R *ᵥ (S.D w *ᵥ (S.down2up *ᵥ t.vf1 w))) ((S'.front1 w').R *ᵥ (S'.D w' *ᵥ (S'.down2up *ᵥ t'.vf1 w'))) b3 hε
  rw [← hD] at g4
  have g5 := gap_relabel hp.u2d hS.u2d (S.D w *ᵥ ((S.front1 w).R *ᵥ (S.D w *ᵥ (S.down2up *ᵥ t.vf1 w)))) (S'.D w' *ᵥ ((S'.front1 w').R *ᵥ (S'.D w' *ᵥ (S'.down2up *ᵥ t'.vf1 w'))))
  have g6 := gap_surface (hS.r0 w) (hp.r0 w) h.r0 (v := S.up2down *ᵥ (S.D w *ᵥ ((S.front1 w).R *ᵥ (S.D w *ᵥ (S.down2up *ᵥ t.vf1 w))))) b5
  have e1 := bulk_step S hS.u2d t w
  have e2 := bulk_step S' hS'.u2d t' w'
  unfold allGaps
  rw [s1, s2, s3, s4, s1', s2', s3', s4', e1, e2, step_vf1, step_vf1]
  have a1 := gap_add (recR t w) (recR t' w') ((S.rear0 w).T *ᵥ (flowsOf S w (t.vf1 w)).up0) ((S'.rear0 w').T *ᵥ (flowsOf S' w' (t'.vf1 w')).up0)
  have a2 := gap_add (recT t w) (recT t' w') ((S.front1 w).T *ᵥ (flowsOf S w (t.vf1 w)).down1) ((S'.front1 w').T *ᵥ (flowsOf S' w' (t'.vf1 w')).down1)
  have a3 := gap_add (recA0 t w) (recA0 t' w') ((S.rear0 w).A *ᵥ (flowsOf S w (t.vf1 w)).up0) ((S'.rear0 w').A *ᵥ (flowsOf S' w' (t'.vf1 w')).up0)
  have a4 := gap_add (recA1 t w) (recA1 t' w') ((S.front1 w).A *ᵥ (flowsOf S w (t.vf1 w)).down1) ((S'.front1 w').A *ᵥ (flowsOf S' w' (t'.vf1 w')).down1)
  have tri : ∀ a a' b b' c c' : ℝ, |a + b + c - (a' + b' + c')| ≤ |a - a'| + |b - b'| + |c - c'| := by
    intro a a' b b' c c'
    rw [show a + b + c - (a' + b' + c') = (a - a') + (b - b') + (c - c') by ring]
    exact abs_add_three _ _ _
  have a5 := tri (t.Abulk w) (t'.Abulk w') (∑ j, (S.down2up *ᵥ t.vf1 w) j - ∑ j, (S.D w *ᵥ (S.down2up *ᵥ t.vf1 w)) j) (∑ j, (S'.down2up *ᵥ t'.vf1 w') j - ∑ j, (S'.D w' *ᵥ (S'.down2up *ᵥ t'.vf1 w')) j)
    (∑ j, ((S.front1 w).R *ᵥ (S.D w *ᵥ (S.down2up *ᵥ t.vf1 w))) j - ∑ j, (S.D w *ᵥ ((S.front1 w).R *ᵥ (S.D w *ᵥ (S.down2up *ᵥ t.vf1 w)))) j)
    (∑ j, ((S'.front1 w').R *ᵥ (S'.D w' *ᵥ (S'.down2up *ᵥ t'.vf1 w'))) j - ∑ j, (S'.D w' *ᵥ ((S'.front1 w').R *ᵥ (S'.D w' *ᵥ (S'.down2up *ᵥ t'.vf1 w')))) j)
  have q1 := mul_le_mul_of_nonneg_left (p2.trans p1.le) hη
  have q2 := mul_le_mul_of_nonneg_left (p5.le.trans (p4.trans (p3.trans (p2.trans p1.le)))) hη
  have q3 := mul_le_mul_of_nonneg_left p1.le hρ
  have q4 := mul_le_mul_of_nonneg_left (p3.trans (p2.trans p1.le)) hρ
  clear hD hε
  simp only [flowsOf, roundTrip] at *
  simp only [h.u2d, h.d2u] at *
  change gap (S.D w *ᵥ (S.down2up *ᵥ t.vf1 w)) (S'.D w' *ᵥ (S.down2up *ᵥ t'.vf1 w')) + |(_ - ∑ j, (S.D w *ᵥ (S.down2up *ᵥ t.vf1 w)) j) - (_ - ∑ j, (S'.D w' *ᵥ (S.down2up *ᵥ t'.vf1 w')) j)| ≤ _ at g2
  change gap (S.D w *ᵥ ((S.front1 w).R *ᵥ (S.D w *ᵥ (S.down2up *ᵥ t.vf1 w)))) (S'.D w' *ᵥ ((S'.front1 w').R *ᵥ (S'.D w' *ᵥ (S.down2up *ᵥ t'.vf1 w')))) +
    |(_ - ∑ j, (S.D w *ᵥ ((S.front1 w).R *ᵥ (S.D w *ᵥ (S.down2up *ᵥ t.vf1 w)))) j) - (_ - ∑ j, (S'.D w' *ᵥ ((S'.front1 w').R *ᵥ (S'.D w' *ᵥ (S.down2up *ᵥ t'.vf1 w')))) j)| ≤ _ at g4
  linarith

theorem gaps2_iter (k : ℕ) : allGaps (S.step^[k] S.init) w (S'.step^[k] S'.init) w' ≤ η * ∑ j, S.v0 w j + (2 * η + 3 / 2 * ρ) * ∑ i ∈ Finset.range k, ∑ j, (S'.step^[i] S'.init).vf1 w' j := by
  induction k with
  | zero =>
    obtain ⟨r1, r2, r3, r4⟩ := rec_init S w
    obtain ⟨r1', r2', r3', r4'⟩ := rec_init S' w'
    have g := gap_surface (hS.f0 w) (hp.f0 w) h.f0 (v := S.v0 w) (v' := S'.v0 w') (hp'.v0 w')
    have e : gap (S.v0 w) (S'.v0 w') = 0 := by unfold gap; rw [h.v0]; simp
    have z1 : gap (0 : ι → ℝ) 0 = 0 := by simp [gap]
    have z2 : gap (0 : κ₁ → ℝ) 0 = 0 := by simp [gap]
    rw [e, h.v0] at g
    simp only [Function.iterate_zero, id, allGaps, r1, r2, r3, r4, r1', r2', r3', r4', z1, z2, Finset.range_zero, Finset.sum_empty]
    have ea : |S.init.Abulk w - S'.init.Abulk w'| = 0 := by simp [LoopState.Abulk, Sys.init]
    rw [ea, h.v0]
    change gap ((S.front0 w).T *ᵥ S.v0 w) ((S'.front0 w').T *ᵥ S'.v0 w') + _ + 0 + _ + 0 + 0 ≤ _
    rw [h.v0]
    linarith
  | succ k ih =>
    rw [Function.iterate_succ_apply', Function.iterate_succ_apply', Finset.sum_range_succ]
    have := gaps2_step S w S' w' hS hp hS' hp' hη hρ h h1 h2 (S.step^[k] S.init) (S'.step^[k] S'.init) ((nonneg_iter S' hp' hS'.u2d k).1 w')
    linarith

theorem under_way2_le (hcos : ∀ j, Real.cos (S.θ j) ≠ 0) (habs : 0 < S.α w * S.thick) (k : ℕ) :
    ∑ i ∈ Finset.range k, ∑ j, (S'.step^[i] S'.init).vf1 w' j ≤ (∑ j, S.v0 w j) / (1 - Real.exp (-(2 * (S.α w * S.thick)))) := by
  set q := Real.exp (-(2 * (S.α w * S.thick))) with hq
  have hq0 : 0 < q := Real.exp_pos _
  have hq1 : q < 1 := by rw [hq, Real.exp_lt_one_iff]; linarith
  have hv : 0 ≤ ∑ j, S.v0 w j := Finset.sum_nonneg fun j _ => hp.v0 w j
  have hstep : ∀ i, ∑ j, (S'.step^[i] S'.init).vf1 w' j ≤ (∑ j, S.v0 w j) * q ^ i := by
    intro i
    induction i with
    | zero =>
      have := init_power_le S' hp' hS'.f0 w'
      rw [h.v0] at this
      simpa using this
    | succ i ih =>
      rw [Function.iterate_succ_apply', step_vf1]
      have := roundTrip_le S' hp' hS'.u2d hS'.d2u hS'.f1 hS'.r0 (by rw [h.θ]; exact hcos) (S'.α w') (hp'.α w') w' le_rfl _ ((nonneg_iter S' hp' hS'.u2d i).1 w')
      have hle : Real.exp (-(2 * (S'.α w' * S'.thick))) ≤ q := Real.exp_le_exp.mpr (by linarith)
      have hnn : 0 ≤ ∑ j, (S'.step^[i] S'.init).vf1 w' j := Finset.sum_nonneg fun j _ => (nonneg_iter S' hp' hS'.u2d i).1 w' j
      have h3 := mul_le_mul_of_nonneg_right hle hnn
      have h2 := mul_le_mul_of_nonneg_left ih hq0.le
      rw [pow_succ]
      linarith
  refine (Finset.sum_le_sum fun i _ => hstep i).trans ?_
  rw [← Finset.mul_sum, div_eq_mul_inv]
  refine mul_le_mul_of_nonneg_left ?_ hv
  rw [← tsum_geometric_of_lt_one hq0.le hq1]
  exact (summable_geometric_of_lt_one hq0.le hq1).sum_le_tsum _ fun i _ => pow_nonneg hq0.le i

theorem gaps2_le (hcos : ∀ j, Real.cos (S.θ j) ≠ 0) (habs : 0 < S.α w * S.thick) (k : ℕ) :
    allGaps (S.step^[k] S.init) w (S'.step^[k] S'.init) w' ≤ (η + (2 * η + 3 / 2 * ρ) / (1 - Real.exp (-(2 * (S.α w * S.thick))))) * ∑ j, S.v0 w j := by
  have g1 := gaps2_iter S w S' w' hS hp hS' hp' hη hρ h h1 h2 k
  have g2 := mul_le_mul_of_nonneg_left (under_way2_le S w S' w' hS hp hS' hp' hη hρ h h1 h2 hcos habs k) (show 0 ≤ 2 * η + 3 / 2 * ρ by linarith)
  refine g1.trans ?_
  have e : (η + (2 * η + 3 / 2 * ρ) / (1 - Real.exp (-(2 * (S.α w * S.thick))))) * ∑ j, S.v0 w j = η * ∑ j, S.v0 w j + (2 * η + 3 / 2 * ρ) * ((∑ j, S.v0 w j) / (1 - Real.exp (-(2 * (S.α w * S.thick))))) := by ring
  rw [e]
  linarith

/-! ## The property -/

/-- **C194.** Two calculations with the same angular grid and incident light, whose optical thickness `α d` of the bulk layer differs by a relative error of at most `ρ` (for instance because of an error in the absorption coefficient or the
thickness), and whose stored matrices differ by at most `η`: all results (reflection and transmission into every direction and in total, absorption in every layer of the surfaces and in the bulk layer) differ by at most
`η + (2 η + 3 ρ / 2) / (1 - exp (-2 α d))` times the incident light plus the larger of the two `I_thresh`, whatever the angles, the numbers of passes and whether or not profiles are calculated. -/
theorem C194_stable (hcos : ∀ j, Real.cos (S.θ j) ≠ 0) (habs : 0 < S.α w * S.thick) (o : ProfOpts ω ι) (o' : ProfOpts ω' ι) (k k' : ℕ) (t : LoopState ω ι κ₀ κ₁) (t' : LoopState ω' ι κ₀ κ₁)
    (ht : S.Exits k t ∨ S.ExitsProf o k t) (ht' : S'.Exits k' t' ∨ S'.ExitsProf o' k' t') :
    let B := (η + (2 * η + 3 / 2 * ρ) / (1 - Real.exp (-(2 * (S.α w * S.thick))))) * ∑ j, S.v0 w j + max S.thresh S'.thresh
    (∀ j, |recR t w j - recR t' w' j| ≤ B) ∧ (∀ j, |recT t w j - recT t' w' j| ≤ B) ∧ (∀ l, |recA0 t w l - recA0 t' w' l| ≤ B) ∧ (∀ l, |recA1 t w l - recA1 t' w' l| ≤ B) ∧
    |t.R w - t'.R w'| ≤ B ∧ |t.T w - t'.T w'| ≤ B ∧ |t.Abulk w - t'.Abulk w'| ≤ B := by
  intro B
  obtain ⟨hd1, e1, e2, e3, e4, e5, e6, e7⟩ := exits_plain S hS o ht w
  obtain ⟨hd1', e1', e2', e3', e4', e5', e6', e7'⟩ := exits_plain S' hS' o' ht' w'
  rw [e1, e2, e3, e4, e5, e6, e7, e1', e2', e3', e4', e5', e6', e7']
  have hP : ∑ j, (S.step^[k] S.init).vf1 w j ≤ S.thresh := hd1 w
  have hP' : ∑ j, (S'.step^[k'] S'.init).vf1 w' j ≤ S'.thresh := hd1' w'
  have x1 := le_max_left S.thresh S'.thresh
  have x2 := le_max_right S.thresh S'.thresh
  obtain ⟨m1, m2, m3, m4, m5⟩ := rec_mono S hS hp w (le_max_left k k')
  obtain ⟨n1, n2, n3, n4, n5⟩ := rec_mono S' hS' hp' w' (le_max_right k k')
  obtain ⟨b1, b2, b3, b4, b5, b6, b7⟩ := rec_bound S hS hp w (le_max_left k k')
  obtain ⟨c1, c2, c3, c4, c5, c6, c7⟩ := rec_bound S' hS' hp' w' (le_max_right k k')
  have g := gaps2_le S w S' w' hS hp hS' hp' hη hρ h h1 h2 hcos habs (max k k')
  unfold allGaps at g
  have g0 := gap_nonneg ((S.step^[max k k'] S.init).vf1 w) ((S'.step^[max k k'] S'.init).vf1 w')
  have g1 := gap_nonneg (recR (S.step^[max k k'] S.init) w) (recR (S'.step^[max k k'] S'.init) w')
  have g2 := gap_nonneg (recT (S.step^[max k k'] S.init) w) (recT (S'.step^[max k k'] S'.init) w')
  have g3 := gap_nonneg (recA0 (S.step^[max k k'] S.init) w) (recA0 (S'.step^[max k k'] S'.init) w')
  have g4 := gap_nonneg (recA1 (S.step^[max k k'] S.init) w) (recA1 (S'.step^[max k k'] S'.init) w')
  have g5 := abs_nonneg ((S.step^[max k k'] S.init).Abulk w - (S'.step^[max k k'] S'.init).Abulk w')
  have key : ∀ {a A b A' : ℝ}, a ≤ A → A ≤ a + ∑ j, (S.step^[k] S.init).vf1 w j → b ≤ A' → A' ≤ b + ∑ j, (S'.step^[k'] S'.init).vf1 w' j →
      |A - A'| ≤ (η + (2 * η + 3 / 2 * ρ) / (1 - Real.exp (-(2 * (S.α w * S.thick))))) * ∑ j, S.v0 w j → |a - b| ≤ B := by
    intro a A b A' i1 i2 i3 i4 i5
    have := abs_le.mp i5
    refine abs_le.mpr ⟨?_, ?_⟩ <;> simp only [B] <;> linarith [this.1, this.2]
  have sR := rec_sums (S.step^[max k k'] S.init) w
  have sR' := rec_sums (S'.step^[max k k'] S'.init) w'
  have uR := rec_sums (S.step^[k] S.init) w
  have uR' := rec_sums (S'.step^[k'] S'.init) w'
  refine ⟨fun j => key (m1 j) (b1 j) (n1 j) (c1 j) ((gap_apply _ _ j).trans (by linarith)), fun j => key (m2 j) (b2 j) (n2 j) (c2 j) ((gap_apply _ _ j).trans (by linarith)),
    fun l => key (m3 l) (b3 l) (n3 l) (c3 l) ((gap_apply _ _ l).trans (by linarith)), fun l => key (m4 l) (b4 l) (n4 l) (c4 l) ((gap_apply _ _ l).trans (by linarith)), ?_, ?_, key m5 b5 n5 c5 (by linarith)⟩
  · refine key ?_ b6 ?_ c6 ?_
    · rw [← sR.1, ← uR.1]; exact Finset.sum_le_sum fun j _ => m1 j
    · rw [← sR'.1, ← uR'.1]; exact Finset.sum_le_sum fun j _ => n1 j
    · rw [← sR.1, ← sR'.1]; exact (gap_sum _ _).trans (by linarith)
  · refine key ?_ b7 ?_ c7 ?_
    · rw [← sR.2.1, ← uR.2.1]; exact Finset.sum_le_sum fun j _ => m2 j
    · rw [← sR'.2.1, ← uR'.2.1]; exact Finset.sum_le_sum fun j _ => n2 j
    · rw [← sR.2.1, ← sR'.2.1]; exact (gap_sum _ _).trans (by linarith)

/-- **C194, exactly.** For the exact solutions there is no tolerance, and all differences together are within the bound. -/
theorem C194_exact (hcos : ∀ j, Real.cos (S.θ j) ≠ 0) (habs : 0 < S.α w * S.thick) (f f' : Flows ι) (hf : IsSteady S w f) (hf' : IsSteady S' w' f') :
    ∑ j, |f.refl S w j - f'.refl S' w' j| + ∑ j, |f.trns S w j - f'.trns S' w' j| + ∑ l, |f.abs0 S w l - f'.abs0 S' w' l| + ∑ l, |f.abs1 S w l - f'.abs1 S' w' l| + |f.bulk - f'.bulk| ≤
      (η + (2 * η + 3 / 2 * ρ) / (1 - Real.exp (-(2 * (S.α w * S.thick))))) * ∑ j, S.v0 w j := by
  obtain ⟨k1, k2, k3, k4, k5, -⟩ := C133_limit S hS hp w f hf
  obtain ⟨l1, l2, l3, l4, l5, -⟩ := C133_limit S' hS' hp' w' f' hf'
  have T1 := tendsto_finsetSum Finset.univ fun j _ => ((k1 j).sub (l1 j)).abs
  have T2 := tendsto_finsetSum Finset.univ fun j _ => ((k2 j).sub (l2 j)).abs
  have T3 := tendsto_finsetSum Finset.univ fun j _ => ((k3 j).sub (l3 j)).abs
  have T4 := tendsto_finsetSum Finset.univ fun j _ => ((k4 j).sub (l4 j)).abs
  have T5 := (k5.sub l5).abs
  refine le_of_tendsto' ((((T1.add T2).add T3).add T4).add T5) fun k => ?_
  have g := gaps2_le S w S' w' hS hp hS' hp' hη hρ h h1 h2 hcos habs k
  have g0 := gap_nonneg ((S.step^[k] S.init).vf1 w) ((S'.step^[k] S'.init).vf1 w')
  unfold allGaps at g
  unfold gap recR recT recA0 recA1 at g
  unfold gap at g0
  linarith

end

/-- The example system, and the same with a bulk layer whose absorption is larger by one hundredth. -/
example : ∃ S' : Sys (Fin 2) (Fin 2) (Fin 1) (Fin 1), EnergyConserving S' ∧ NonnegData S' ∧ CloseSurfaces exSys 0 S' 0 0 ∧ exSys.α 0 * exSys.thick < S'.α 0 * S'.thick ∧
    S'.α 0 * S'.thick ≤ (1 + 1 / 100) * (exSys.α 0 * exSys.thick) ∧ (∀ j, Real.cos (exSys.θ j) ≠ 0) ∧ 0 < exSys.α 0 * exSys.thick := by
  refine ⟨{ exSys with thick := 202 / 100 }, ⟨exSys_conserving.u2d, exSys_conserving.d2u, exSys_conserving.f0, exSys_conserving.f1, exSys_conserving.r0⟩,
    ⟨exSys_nonneg.v0, exSys_nonneg.u2d, exSys_nonneg.d2u, exSys_nonneg.α, by norm_num, exSys_nonneg.f0, exSys_nonneg.f1, exSys_nonneg.r0⟩, ⟨rfl, rfl, rfl, rfl, fun j => ?_, fun j => ?_, fun j => ?_⟩, ?_, ?_, exSys_cos, ?_⟩
  · simp [surfaceGap]
  · simp [surfaceGap]
  · simp [surfaceGap]
  · norm_num [exSys]
  · norm_num [exSys]
  · norm_num [exSys]

end Rayflare
