import Verif.Spec.Compare
import Verif.Props.Steady

/-!
# Properties C134, C135: other wavelengths, other thresholds, other bulk layers
-/

namespace Rayflare

open Rayflare.Np Rayflare.Model Rayflare.Spec Rayflare.Lemmas Matrix

set_option linter.unusedSectionVars false

variable {ω ω' ι κ₀ κ₁ : Type*} [Fintype ι] [DecidableEq ι] [Fintype κ₀] [Fintype κ₁]

/-! ## Helper lemmas -/

theorem rec_init (S : Sys ω ι κ₀ κ₁) (w : ω) :
    recR S.init w = (S.front0 w).R *ᵥ S.v0 w ∧ recT S.init w = 0 ∧ recA0 S.init w = (S.front0 w).A *ᵥ S.v0 w ∧ recA1 S.init w = 0 := by
  refine ⟨?_, ?_, ?_, ?_⟩ <;> funext j <;> simp [recR, recT, recA0, recA1, Sys.init, dotWl]

theorem rec_step (S : Sys ω ι κ₀ κ₁) (t : LoopState ω ι κ₀ κ₁) (w : ω) :
    recR (S.step t) w = recR t w + (S.rear0 w).T *ᵥ (flowsOf S w (t.vf1 w)).up0 ∧
    recT (S.step t) w = recT t w + (S.front1 w).T *ᵥ (flowsOf S w (t.vf1 w)).down1 ∧
    recA0 (S.step t) w = recA0 t w + (S.rear0 w).A *ᵥ (flowsOf S w (t.vf1 w)).up0 ∧
    recA1 (S.step t) w = recA1 t w + (S.front1 w).A *ᵥ (flowsOf S w (t.vf1 w)).down1 := by
  refine ⟨?_, ?_, ?_, ?_⟩ <;> funext j <;> simp [recR, recT, recA0, recA1, Sys.step, Sys.appendPerPassInfo, dotWl, dotWlU2d, flowsOf]

theorem rec_sums (t : LoopState ω ι κ₀ κ₁) (w : ω) :
    ∑ j, recR t w j = t.R w ∧ ∑ j, recT t w j = t.T w ∧ ∑ l, recA0 t w l = t.Aint0 w ∧ ∑ l, recA1 t w l = t.Aint1 w :=
  ⟨sum_list_swap w t.vr, sum_list_swap w t.vt, sum_list_swap w t.a0, sum_list_swap w t.a1⟩

theorem mulVec_mono {ρ : Type*} {M : Matrix ρ ι ℝ} (hM : ∀ r j, 0 ≤ M r j) {v v' : ι → ℝ} (h : ∀ j, v' j ≤ v j) (r : ρ) : (M *ᵥ v') r ≤ (M *ᵥ v) r :=
  Finset.sum_le_sum fun j _ => mul_le_mul_of_nonneg_left (h j) (hM r j)

theorem flows_nonneg (S : Sys ω ι κ₀ κ₁) (hp : NonnegData S) (w : ω) {y : ι → ℝ} (hy : ∀ j, 0 ≤ y j) :
    (∀ j, 0 ≤ (flowsOf S w y).down1 j) ∧ (∀ j, 0 ≤ (flowsOf S w y).up0 j) := by
  have b1 := D_nonneg S (w := w) (mulVec_nonneg hp.d2u hy)
  exact ⟨b1, mulVec_nonneg hp.u2d (D_nonneg S (w := w) (mulVec_nonneg (hp.f1 w).1 b1))⟩

/-- With more passes every recorded quantity grows. -/
theorem rec_mono (S : Sys ω ι κ₀ κ₁) (hS : EnergyConserving S) (hp : NonnegData S) (w : ω) {k k' : ℕ} (h : k ≤ k') :
    (∀ j, recR (S.step^[k] S.init) w j ≤ recR (S.step^[k'] S.init) w j) ∧ (∀ j, recT (S.step^[k] S.init) w j ≤ recT (S.step^[k'] S.init) w j) ∧
    (∀ l, recA0 (S.step^[k] S.init) w l ≤ recA0 (S.step^[k'] S.init) w l) ∧ (∀ l, recA1 (S.step^[k] S.init) w l ≤ recA1 (S.step^[k'] S.init) w l) ∧
    (S.step^[k] S.init).Abulk w ≤ (S.step^[k'] S.init).Abulk w := by
  induction k', h using Nat.le_induction with
  | base => simp
  | succ k' _ ih =>
    obtain ⟨i1, i2, i3, i4, i5⟩ := ih
    obtain ⟨s1, s2, s3, s4⟩ := rec_step S (S.step^[k'] S.init) w
    obtain ⟨n1, n2⟩ := flows_nonneg S hp w ((nonneg_iter S hp hS.u2d k').1 w)
    have hA := (nonneg_iter S hp hS.u2d (k' + 1)).2.2.2.2.2
    rw [Function.iterate_succ_apply'] at hA ⊢
    refine ⟨fun j => ?_, fun j => ?_, fun l => ?_, fun l => ?_, ?_⟩
    · rw [s1]; exact (i1 j).trans (le_add_of_nonneg_right (mulVec_nonneg (hp.r0 w).2.1 n2 j))
    · rw [s2]; exact (i2 j).trans (le_add_of_nonneg_right (mulVec_nonneg (hp.f1 w).2.1 n1 j))
    · rw [s3]; exact (i3 l).trans (le_add_of_nonneg_right (mulVec_nonneg (hp.r0 w).2.2 n2 l))
    · rw [s4]; exact (i4 l).trans (le_add_of_nonneg_right (mulVec_nonneg (hp.f1 w).2.2 n1 l))
    · refine i5.trans ?_
      obtain ⟨x, y, hxy⟩ : ∃ x y, (S.step (S.step^[k'] S.init)).A = (S.step^[k'] S.init).A ++ [x] ++ [y] := ⟨_, _, rfl⟩
      have hx := hA x (by rw [hxy]; simp) w
      have hy := hA y (by rw [hxy]; simp) w
      unfold LoopState.Abulk
      rw [hxy]
      simp only [List.map_append, List.map_cons, List.map_nil, List.sum_append, List.sum_cons, List.sum_nil]
      linarith

/-- With more passes no recorded quantity grows by more than the power still travelling. -/
theorem rec_bound (S : Sys ω ι κ₀ κ₁) (hS : EnergyConserving S) (hp : NonnegData S) (w : ω) {k k' : ℕ} (h : k ≤ k') :
    (∀ j, recR (S.step^[k'] S.init) w j ≤ recR (S.step^[k] S.init) w j + ∑ j, (S.step^[k] S.init).vf1 w j) ∧
    (∀ j, recT (S.step^[k'] S.init) w j ≤ recT (S.step^[k] S.init) w j + ∑ j, (S.step^[k] S.init).vf1 w j) ∧
    (∀ l, recA0 (S.step^[k'] S.init) w l ≤ recA0 (S.step^[k] S.init) w l + ∑ j, (S.step^[k] S.init).vf1 w j) ∧
    (∀ l, recA1 (S.step^[k'] S.init) w l ≤ recA1 (S.step^[k] S.init) w l + ∑ j, (S.step^[k] S.init).vf1 w j) ∧
    (S.step^[k'] S.init).Abulk w ≤ (S.step^[k] S.init).Abulk w + ∑ j, (S.step^[k] S.init).vf1 w j ∧
    (S.step^[k'] S.init).R w ≤ (S.step^[k] S.init).R w + ∑ j, (S.step^[k] S.init).vf1 w j ∧
    (S.step^[k'] S.init).T w ≤ (S.step^[k] S.init).T w + ∑ j, (S.step^[k] S.init).vf1 w j := by
  obtain ⟨m1, m2, m3, m4, m5⟩ := rec_mono S hS hp w h
  have b := total_iter S hS.d2u hS.f0 hS.f1 hS.r0 k w
  have b' := total_iter S hS.d2u hS.f0 hS.f1 hS.r0 k' w
  obtain ⟨q1, q2, q3, q4⟩ := rec_sums (S.step^[k] S.init) w
  obtain ⟨q1', q2', q3', q4'⟩ := rec_sums (S.step^[k'] S.init) w
  have hv : 0 ≤ ∑ j, (S.step^[k'] S.init).vf1 w j := Finset.sum_nonneg fun j _ => (nonneg_iter S hp hS.u2d k').1 w j
  have g1 := Finset.sum_le_sum fun j (_ : j ∈ Finset.univ) => m1 j
  have g2 := Finset.sum_le_sum fun j (_ : j ∈ Finset.univ) => m2 j
  have g3 := Finset.sum_le_sum fun j (_ : j ∈ Finset.univ) => m3 j
  have g4 := Finset.sum_le_sum fun j (_ : j ∈ Finset.univ) => m4 j
  have one : ∀ {ρ : Type _} [Fintype ρ] (f f' : ρ → ℝ), (∀ i, f i ≤ f' i) → ∀ i, f' i - f i ≤ ∑ i, f' i - ∑ i, f i := by
    intro ρ _ f f' hf i
    rw [← Finset.sum_sub_distrib]
    exact Finset.single_le_sum (f := fun i => f' i - f i) (fun i _ => sub_nonneg.mpr (hf i)) (Finset.mem_univ i)
  have one0 : ∀ (f f' : κ₀ → ℝ), (∀ i, f i ≤ f' i) → ∀ i, f' i - f i ≤ ∑ i, f' i - ∑ i, f i := by
    intro f f' hf i
    rw [← Finset.sum_sub_distrib]
    exact Finset.single_le_sum (f := fun i => f' i - f i) (fun i _ => sub_nonneg.mpr (hf i)) (Finset.mem_univ i)
  have one1 : ∀ (f f' : κ₁ → ℝ), (∀ i, f i ≤ f' i) → ∀ i, f' i - f i ≤ ∑ i, f' i - ∑ i, f i := by
    intro f f' hf i
    rw [← Finset.sum_sub_distrib]
    exact Finset.single_le_sum (f := fun i => f' i - f i) (fun i _ => sub_nonneg.mpr (hf i)) (Finset.mem_univ i)
  simp only [total] at b b'
  refine ⟨fun j => ?_, fun j => ?_, fun l => ?_, fun l => ?_, ?_⟩
  · have := one _ _ m1 j; linarith
  · have := one _ _ m2 j; linarith
  · have := one0 _ _ m3 l; linarith
  · have := one1 _ _ m4 l; linarith
  · refine ⟨?_, ?_, ?_⟩ <;> linarith

/-- A thicker or more absorbing bulk layer: after the same number of passes less is travelling and less has left or been absorbed in the surfaces. -/
theorem rec_dominated (S : Sys ω ι κ₀ κ₁) (w : ω) (S' : Sys ω' ι κ₀ κ₁) (w' : ω') (hS : EnergyConserving S) (hp : NonnegData S) (hS' : EnergyConserving S') (hp' : NonnegData S')
    (h : SameSurfaces S w S' w') (hα : S.α w * S.thick ≤ S'.α w' * S'.thick) (k : ℕ) :
    (∀ j, (S'.step^[k] S'.init).vf1 w' j ≤ (S.step^[k] S.init).vf1 w j) ∧
    (∀ j, recR (S'.step^[k] S'.init) w' j ≤ recR (S.step^[k] S.init) w j) ∧ (∀ j, recT (S'.step^[k] S'.init) w' j ≤ recT (S.step^[k] S.init) w j) ∧
    (∀ l, recA0 (S'.step^[k] S'.init) w' l ≤ recA0 (S.step^[k] S.init) w l) ∧ (∀ l, recA1 (S'.step^[k] S'.init) w' l ≤ recA1 (S.step^[k] S.init) w l) := by
  have hD : ∀ v v' : ι → ℝ, (∀ j, 0 ≤ v' j) → (∀ j, v' j ≤ v j) → ∀ j, (S'.D w' *ᵥ v') j ≤ (S.D w *ᵥ v) j := by
    intro v v' h0 hv j
    rw [Sys.D, Sys.D, makeD_mulVec, makeD_mulVec, h.θ]
    refine mul_le_mul (Real.exp_le_exp.mpr ?_) (hv j) (h0 j) (Real.exp_pos _).le
    exact div_le_div_of_nonneg_right (by linarith) (abs_nonneg _)
  have hfl : ∀ v v' : ι → ℝ, (∀ j, 0 ≤ v' j) → (∀ j, v' j ≤ v j) →
      (∀ j, (flowsOf S' w' v').down1 j ≤ (flowsOf S w v).down1 j) ∧ (∀ j, (flowsOf S' w' v').up0 j ≤ (flowsOf S w v).up0 j) := by
    intro v v' h0 hv
    have c1 := hD (S.down2up *ᵥ v) (S'.down2up *ᵥ v') (mulVec_nonneg hp'.d2u h0) (by rw [h.d2u]; exact mulVec_mono hp.d2u hv)
    have p1 : ∀ j, 0 ≤ (S'.D w' *ᵥ (S'.down2up *ᵥ v')) j := D_nonneg S' (mulVec_nonneg hp'.d2u h0)
    have c2 := hD ((S.front1 w).R *ᵥ (S.D w *ᵥ (S.down2up *ᵥ v))) ((S'.front1 w').R *ᵥ (S'.D w' *ᵥ (S'.down2up *ᵥ v'))) (mulVec_nonneg (hp'.f1 w').1 p1)
      (by rw [h.f1]; exact mulVec_mono (hp.f1 w).1 c1)
    refine ⟨c1, ?_⟩
    simp only [flowsOf, h.u2d]
    exact mulVec_mono hp.u2d c2
  induction k with
  | zero =>
    obtain ⟨a1, a2, a3, a4⟩ := rec_init S w
    obtain ⟨b1, b2, b3, b4⟩ := rec_init S' w'
    simp only [Function.iterate_zero, id_eq]
    rw [a1, a2, a3, a4, b1, b2, b3, b4, h.v0, h.f0]
    refine ⟨fun j => ?_, fun _ => le_rfl, fun _ => le_rfl, fun _ => le_rfl, fun _ => le_rfl⟩
    simp only [Sys.init, dotWl, h.v0, h.f0]
    exact le_rfl
  | succ k ih =>
    obtain ⟨i0, i1, i2, i3, i4⟩ := ih
    have hn := (nonneg_iter S' hp' hS'.u2d k).1 w'
    obtain ⟨c1, c2⟩ := hfl _ _ hn i0
    rw [Function.iterate_succ_apply', Function.iterate_succ_apply']
    obtain ⟨s1, s2, s3, s4⟩ := rec_step S (S.step^[k] S.init) w
    obtain ⟨s1', s2', s3', s4'⟩ := rec_step S' (S'.step^[k] S'.init) w'
    rw [s1, s2, s3, s4, s1', s2', s3', s4']
    refine ⟨fun j => ?_, fun j => ?_, fun j => ?_, fun l => ?_, fun l => ?_⟩
    · rw [step_vf1, step_vf1, ← flowsOf_trip, ← flowsOf_trip, h.r0]
      exact mulVec_mono (hp.r0 w).1 c2 j
    · rw [h.r0]; exact add_le_add (i1 j) (mulVec_mono (hp.r0 w).2.1 c2 j)
    · rw [h.f1]; exact add_le_add (i2 j) (mulVec_mono (hp.f1 w).2.1 c1 j)
    · rw [h.r0]; exact add_le_add (i3 l) (mulVec_mono (hp.r0 w).2.2 c2 l)
    · rw [h.f1]; exact add_le_add (i4 l) (mulVec_mono (hp.f1 w).2.2 c1 l)

/-- Both branches return what the plain loop returns. -/
theorem exits_plain (S : Sys ω ι κ₀ κ₁) (hS : EnergyConserving S) (o : ProfOpts ω ι) {k : ℕ} {t : LoopState ω ι κ₀ κ₁} (ht : S.Exits k t ∨ S.ExitsProf o k t) (w : ω) :
    S.Done (S.step^[k] S.init) ∧ recR t w = recR (S.step^[k] S.init) w ∧ recT t w = recT (S.step^[k] S.init) w ∧ recA0 t w = recA0 (S.step^[k] S.init) w ∧
      recA1 t w = recA1 (S.step^[k] S.init) w ∧ t.Abulk w = (S.step^[k] S.init).Abulk w ∧ t.R w = (S.step^[k] S.init).R w ∧ t.T w = (S.step^[k] S.init).T w := by
  obtain ⟨t', ⟨rfl, hd, -⟩, e1, e2, e3, e4, e5, -⟩ : ∃ t', S.Exits k t' ∧ t'.vr = t.vr ∧ t'.vt = t.vt ∧ t'.a0 = t.a0 ∧ t'.a1 = t.a1 ∧ t'.A = t.A ∧ t'.vf1 = t.vf1 := by
    rcases ht with h | h
    · exact ⟨t, h, rfl, rfl, rfl, rfl, rfl, rfl⟩
    · exact (C19_branches_agree S hS.u2d o k).1 t h
  unfold recR recT recA0 recA1 LoopState.Abulk LoopState.R LoopState.T
  rw [e1, e2, e3, e4, e5]
  exact ⟨hd, rfl, rfl, rfl, rfl, rfl, rfl, rfl⟩

/-! ## C135 -/

/-- **C135, as returned.** Two calculations with the same surfaces and the same incident light, the second with a bulk layer of at least the same optical thickness (absorption coefficient times thickness): at that wavelength the
second one returns no more reflection and transmission (into each direction and in total) and no more absorption in any layer of the surfaces than the first, up to the `I_thresh` of the first; and the first one returns no more absorption
in the bulk layer than the second, up to the `I_thresh` of the second. -/
theorem C135_returned (S : Sys ω ι κ₀ κ₁) (w : ω) (S' : Sys ω' ι κ₀ κ₁) (w' : ω') (hS : EnergyConserving S) (hp : NonnegData S) (hS' : EnergyConserving S') (hp' : NonnegData S')
    (h : SameSurfaces S w S' w') (hα : S.α w * S.thick ≤ S'.α w' * S'.thick) (o : ProfOpts ω ι) (o' : ProfOpts ω' ι) (k k' : ℕ) (t : LoopState ω ι κ₀ κ₁) (t' : LoopState ω' ι κ₀ κ₁)
    (ht : S.Exits k t ∨ S.ExitsProf o k t) (ht' : S'.Exits k' t' ∨ S'.ExitsProf o' k' t') :
    (∀ j, recR t' w' j ≤ recR t w j + S.thresh) ∧ (∀ j, recT t' w' j ≤ recT t w j + S.thresh) ∧
    (∀ l, recA0 t' w' l ≤ recA0 t w l + S.thresh) ∧ (∀ l, recA1 t' w' l ≤ recA1 t w l + S.thresh) ∧
    t'.R w' ≤ t.R w + S.thresh ∧ t'.T w' ≤ t.T w + S.thresh ∧ t.Abulk w ≤ t'.Abulk w' + S'.thresh := by
  obtain ⟨hd, e1, e2, e3, e4, e5, e6, e7⟩ := exits_plain S hS o ht w
  obtain ⟨hd', e1', e2', e3', e4', e5', e6', e7'⟩ := exits_plain S' hS' o' ht' w'
  rw [e1, e2, e3, e4, e5, e6, e7, e1', e2', e3', e4', e5', e6', e7']
  have hP : ∑ j, (S.step^[k] S.init).vf1 w j ≤ S.thresh := hd w
  have hP' : ∑ j, (S'.step^[k'] S'.init).vf1 w' j ≤ S'.thresh := hd' w'
  have n0 : 0 ≤ ∑ j, (S.step^[k] S.init).vf1 w j := Finset.sum_nonneg fun j _ => (nonneg_iter S hp hS.u2d k).1 w j
  -- after the larger number of passes of the two
  set m := max k k'
  obtain ⟨-, d1, d2, d3, d4⟩ := rec_dominated S w S' w' hS hp hS' hp' h hα m
  obtain ⟨m1, m2, m3, m4, m5⟩ := rec_mono S' hS' hp' w' (le_max_right k k')
  obtain ⟨b1, b2, b3, b4, b5, b6, b7⟩ := rec_bound S hS hp w (le_max_left k k')
  obtain ⟨r1, r2, r3, r4⟩ := rec_sums (S.step^[m] S.init) w
  obtain ⟨r1', r2', r3', r4'⟩ := rec_sums (S'.step^[m] S'.init) w'
  obtain ⟨u1, u2, u3, u4⟩ := rec_sums (S'.step^[k'] S'.init) w'
  have s1 := Finset.sum_le_sum fun j (_ : j ∈ Finset.univ) => d1 j
  have s2 := Finset.sum_le_sum fun j (_ : j ∈ Finset.univ) => d2 j
  have s3 := Finset.sum_le_sum fun j (_ : j ∈ Finset.univ) => d3 j
  have s4 := Finset.sum_le_sum fun j (_ : j ∈ Finset.univ) => d4 j
  have v1 := Finset.sum_le_sum fun j (_ : j ∈ Finset.univ) => m1 j
  have v2 := Finset.sum_le_sum fun j (_ : j ∈ Finset.univ) => m2 j
  refine ⟨fun j => ?_, fun j => ?_, fun l => ?_, fun l => ?_, ?_, ?_, ?_⟩
  · have := m1 j; have := d1 j; have := b1 j; linarith
  · have := m2 j; have := d2 j; have := b2 j; linarith
  · have := m3 l; have := d3 l; have := b3 l; linarith
  · have := m4 l; have := d4 l; have := b4 l; linarith
  · linarith
  · linarith
  · obtain ⟨-, -, -, -, a5⟩ := rec_mono S hS hp w (le_max_left k k')
    obtain ⟨-, -, -, -, c5, -⟩ := rec_bound S' hS' hp' w' (le_max_right k k')
    have t1 := total_iter S hS.d2u hS.f0 hS.f1 hS.r0 k w
    have t2 := total_iter S' hS'.d2u hS'.f0 hS'.f1 hS'.r0 k' w'
    rw [h.v0] at t2
    -- in terms of what is not absorbed in the bulk layer, after the smaller number of passes
    set n := min k k'
    obtain ⟨-, f1, f2, f3, f4⟩ := rec_dominated S w S' w' hS hp hS' hp' h hα k'
    have g1 := Finset.sum_le_sum fun j (_ : j ∈ Finset.univ) => f1 j
    have g2 := Finset.sum_le_sum fun j (_ : j ∈ Finset.univ) => f2 j
    have g3 := Finset.sum_le_sum fun j (_ : j ∈ Finset.univ) => f3 j
    have g4 := Finset.sum_le_sum fun j (_ : j ∈ Finset.univ) => f4 j
    obtain ⟨x1, x2, x3, x4⟩ := rec_sums (S.step^[k'] S.init) w
    have t3 := total_iter S hS.d2u hS.f0 hS.f1 hS.r0 k' w
    simp only [total] at t1 t2 t3
    rcases le_total k k' with hk | hk
    · obtain ⟨-, -, -, -, y5⟩ := rec_mono S hS hp w hk
      have n1 : 0 ≤ ∑ j, (S.step^[k'] S.init).vf1 w j := Finset.sum_nonneg fun j _ => (nonneg_iter S hp hS.u2d k').1 w j
      linarith
    · obtain ⟨-, -, -, -, y5, -⟩ := rec_bound S hS hp w hk
      linarith

/-- **C135, exactly.** The same for the exact solutions, without any tolerance. -/
theorem C135_exact (S : Sys ω ι κ₀ κ₁) (w : ω) (S' : Sys ω' ι κ₀ κ₁) (w' : ω') (hS : EnergyConserving S) (hp : NonnegData S) (hS' : EnergyConserving S') (hp' : NonnegData S')
    (h : SameSurfaces S w S' w') (hα : S.α w * S.thick ≤ S'.α w' * S'.thick) (f f' : Flows ι) (hf : IsSteady S w f) (hf' : IsSteady S' w' f') :
    (∀ j, f'.refl S' w' j ≤ f.refl S w j) ∧ (∀ j, f'.trns S' w' j ≤ f.trns S w j) ∧ (∀ l, f'.abs0 S' w' l ≤ f.abs0 S w l) ∧ (∀ l, f'.abs1 S' w' l ≤ f.abs1 S w l) ∧ f.bulk ≤ f'.bulk := by
  obtain ⟨k1, k2, k3, k4, k5, -⟩ := C133_limit S hS hp w f hf
  obtain ⟨l1, l2, l3, l4, l5, -⟩ := C133_limit S' hS' hp' w' f' hf'
  have d := rec_dominated S w S' w' hS hp hS' hp' h hα
  have c1 : ∀ j, f'.refl S' w' j ≤ f.refl S w j := fun j => le_of_tendsto_of_tendsto' (l1 j) (k1 j) fun k => (d k).2.1 j
  have c2 : ∀ j, f'.trns S' w' j ≤ f.trns S w j := fun j => le_of_tendsto_of_tendsto' (l2 j) (k2 j) fun k => (d k).2.2.1 j
  have c3 : ∀ j, f'.abs0 S' w' j ≤ f.abs0 S w j := fun j => le_of_tendsto_of_tendsto' (l3 j) (k3 j) fun k => (d k).2.2.2.1 j
  have c4 : ∀ j, f'.abs1 S' w' j ≤ f.abs1 S w j := fun j => le_of_tendsto_of_tendsto' (l4 j) (k4 j) fun k => (d k).2.2.2.2 j
  refine ⟨c1, c2, c3, c4, ?_⟩
  have e := C133_total S hS w f hf
  have e' := C133_total S' hS' w' f' hf'
  rw [h.v0] at e'
  have s1 := Finset.sum_le_sum fun j (_ : j ∈ Finset.univ) => c1 j
  have s2 := Finset.sum_le_sum fun j (_ : j ∈ Finset.univ) => c2 j
  have s3 := Finset.sum_le_sum fun j (_ : j ∈ Finset.univ) => c3 j
  have s4 := Finset.sum_le_sum fun j (_ : j ∈ Finset.univ) => c4 j
  linarith

/-! ## C134 -/

/-- **C134.** Two calculations which at one wavelength (possibly at different places in the lists of wavelengths) have the same surfaces, incident light and bulk layer return the same results for that wavelength up to the larger of the
two `I_thresh`, whatever the other wavelengths are. -/
theorem C134_other_wavelengths (S : Sys ω ι κ₀ κ₁) (w : ω) (S' : Sys ω' ι κ₀ κ₁) (w' : ω') (hS : EnergyConserving S) (hp : NonnegData S) (hS' : EnergyConserving S') (hp' : NonnegData S')
    (h : SameSurfaces S w S' w') (hα : S'.α w' = S.α w) (hd : S'.thick = S.thick) (o : ProfOpts ω ι) (o' : ProfOpts ω' ι) (k k' : ℕ) (t : LoopState ω ι κ₀ κ₁) (t' : LoopState ω' ι κ₀ κ₁)
    (ht : S.Exits k t ∨ S.ExitsProf o k t) (ht' : S'.Exits k' t' ∨ S'.ExitsProf o' k' t') :
    (∀ j, |recR t' w' j - recR t w j| ≤ max S.thresh S'.thresh) ∧ (∀ j, |recT t' w' j - recT t w j| ≤ max S.thresh S'.thresh) ∧
    (∀ l, |recA0 t' w' l - recA0 t w l| ≤ max S.thresh S'.thresh) ∧ (∀ l, |recA1 t' w' l - recA1 t w l| ≤ max S.thresh S'.thresh) ∧
    |t'.R w' - t.R w| ≤ max S.thresh S'.thresh ∧ |t'.T w' - t.T w| ≤ max S.thresh S'.thresh ∧ |t'.Abulk w' - t.Abulk w| ≤ max S.thresh S'.thresh := by
  have h' : SameSurfaces S' w' S w := ⟨h.v0.symm, h.u2d.symm, h.d2u.symm, h.θ.symm, h.f0.symm, h.f1.symm, h.r0.symm⟩
  obtain ⟨a1, a2, a3, a4, a5, a6, a7⟩ := C135_returned S w S' w' hS hp hS' hp' h (by rw [hα, hd]) o o' k k' t t' ht ht'
  obtain ⟨b1, b2, b3, b4, b5, b6, b7⟩ := C135_returned S' w' S w hS' hp' hS hp h' (by rw [hα, hd]) o' o k' k t' t ht' ht
  have m1 := le_max_left S.thresh S'.thresh
  have m2 := le_max_right S.thresh S'.thresh
  refine ⟨fun j => ?_, fun j => ?_, fun l => ?_, fun l => ?_, ?_, ?_, ?_⟩ <;> rw [abs_le]
  · constructor <;> linarith [a1 j, b1 j]
  · constructor <;> linarith [a2 j, b2 j]
  · constructor <;> linarith [a3 l, b3 l]
  · constructor <;> linarith [a4 l, b4 l]
  all_goals constructor <;> linarith

/-- A transparent bulk layer between two surfaces which reflect the fraction `r w` from inside and let out the rest; all light is let in. -/
noncomputable def cavity (ω : Type*) (r : ω → ℝ) (ε : ℝ) : Sys ω (Fin 1) (Fin 1) (Fin 1) where
  v0 := fun _ _ => 1
  up2down := fun _ _ => 1
  down2up := fun _ _ => 1
  α := fun _ => 0
  thick := 1
  θ := fun _ => 0
  front0 := fun _ => ⟨fun _ _ => 0, fun _ _ => 1, fun _ _ => 0⟩
  front1 := fun w => ⟨fun _ _ => r w, fun _ _ => 1 - r w, fun _ _ => 0⟩
  rear0 := fun w => ⟨fun _ _ => r w, fun _ _ => 1 - r w, fun _ _ => 0⟩
  thresh := ε

theorem cavity_flows {ω : Type*} (r : ω → ℝ) (ε : ℝ) (w : ω) (y : Fin 1 → ℝ) :
    (flowsOf (cavity ω r ε) w y).down1 = y ∧ (flowsOf (cavity ω r ε) w y).up0 = fun _ => r w * y 0 := by
  constructor <;> funext j <;> fin_cases j <;> simp [flowsOf, cavity, Sys.D, makeD, Matrix.mulVec, dotProduct, Matrix.diagonal]

theorem cavity_vf1 {ω : Type*} (r : ω → ℝ) (ε : ℝ) (w : ω) (k : ℕ) : ((cavity ω r ε).step^[k] (cavity ω r ε).init).vf1 w = fun _ => r w ^ (2 * k) := by
  induction k with
  | zero => funext j; simp [Sys.init, cavity, dotWl, Matrix.mulVec, dotProduct]
  | succ k ih =>
    rw [Function.iterate_succ_apply', step_vf1, ← flowsOf_trip, (cavity_flows r ε w _).2, ih]
    funext j
    simp only [cavity, Matrix.mulVec, dotProduct, Finset.univ_unique, Finset.sum_singleton]
    ring

theorem cavity_R {ω : Type*} (r : ω → ℝ) (ε : ℝ) (w : ω) (k : ℕ) :
    ((cavity ω r ε).step^[k] (cavity ω r ε).init).R w = ∑ i ∈ Finset.range k, (1 - r w) * r w ^ (2 * i + 1) := by
  rw [← (rec_sums _ w).1]
  induction k with
  | zero => rw [Function.iterate_zero, id_eq, (rec_init (cavity ω r ε) w).1]; simp [cavity, Matrix.mulVec, dotProduct]
  | succ k ih =>
    rw [Finset.sum_range_succ, ← ih, Function.iterate_succ_apply', (rec_step (cavity ω r ε) _ w).1, (cavity_flows r ε w _).2, cavity_vf1]
    simp only [cavity, Matrix.mulVec, dotProduct, Finset.univ_unique, Finset.sum_singleton, Pi.add_apply]
    ring

theorem cavity_valid {ω : Type*} (r : ω → ℝ) (ε : ℝ) (h0 : ∀ w, 0 ≤ r w) (h1 : ∀ w, r w ≤ 1) : EnergyConserving (cavity ω r ε) ∧ NonnegData (cavity ω r ε) := by
  constructor
  · constructor <;> simp [cavity, Relabels, Conserves]
  · constructor <;> simp [cavity, Fractions, h0, h1]

/-- **C134, not exactly.** The results do depend on the other wavelengths: with `I_thresh` one half, the cavity with `r = 1/2` reflects 1/4 if it is the only wavelength, and 5/16 together with a wavelength with `r = 3/4`, because then a second
pass is made.  (Both differ from the exact value 1/3 by less than `I_thresh`.) -/
theorem C134_not_exact : ∃ (S : Sys (Fin 1) (Fin 1) (Fin 1) (Fin 1)) (S' : Sys (Fin 2) (Fin 1) (Fin 1) (Fin 1)) (t : LoopState (Fin 1) (Fin 1) (Fin 1) (Fin 1)) (t' : LoopState (Fin 2) (Fin 1) (Fin 1) (Fin 1)),
    EnergyConserving S ∧ NonnegData S ∧ EnergyConserving S' ∧ NonnegData S' ∧ SameSurfaces S 0 S' 0 ∧ S'.α 0 = S.α 0 ∧ S'.thick = S.thick ∧ S'.thresh = S.thresh ∧
    (∃ k, S.Exits k t) ∧ (∃ k, S'.Exits k t') ∧ t.R 0 = 1 / 4 ∧ t'.R 0 = 5 / 16 := by
  set r : Fin 1 → ℝ := fun _ => 1 / 2 with hr
  set r' : Fin 2 → ℝ := fun w => if w = 0 then 1 / 2 else 3 / 4 with hr'
  have v := cavity_valid r (1 / 2) (fun _ => by norm_num) (fun _ => by norm_num)
  have v' := cavity_valid r' (1 / 2) (fun w => by simp only [hr']; split_ifs <;> norm_num) (fun w => by simp only [hr']; split_ifs <;> norm_num)
  refine ⟨cavity _ r (1 / 2), cavity _ r' (1 / 2), _, _, v.1, v.2, v'.1, v'.2, ⟨rfl, rfl, rfl, rfl, rfl, ?_, ?_⟩, rfl, rfl, rfl, ⟨1, rfl, ?_, ?_⟩, ⟨2, rfl, ?_, ?_⟩, ?_, ?_⟩
  · simp [cavity, hr, hr']
  · simp [cavity, hr, hr']
  · intro w
    simp only [power, cavity_vf1, hr]
    norm_num [cavity]
  · intro i hi hd
    obtain rfl : i = 0 := by omega
    have := hd 0
    simp only [power, cavity_vf1, hr] at this
    norm_num [cavity] at this
  · intro w
    simp only [power, cavity_vf1]
    fin_cases w <;> norm_num [cavity, hr']
  · intro i hi hd
    have := hd 1
    simp only [power, cavity_vf1, hr'] at this
    obtain rfl | rfl : i = 0 ∨ i = 1 := by omega
    · norm_num [cavity] at this
    · norm_num [cavity] at this
  · rw [cavity_R]
    norm_num [hr]
  · rw [cavity_R]
    norm_num [hr', Finset.sum_range_succ]

/-- For C135: the example system with a bulk layer twice as thick. -/
example : ∃ S' : Sys (Fin 2) (Fin 2) (Fin 1) (Fin 1), SameSurfaces exSys 0 S' 0 ∧ EnergyConserving S' ∧ NonnegData S' ∧ exSys.α 0 * exSys.thick < S'.α 0 * S'.thick :=
  ⟨{ exSys with thick := 4 }, ⟨rfl, rfl, rfl, rfl, rfl, rfl, rfl⟩, ⟨exSys_conserving.u2d, exSys_conserving.d2u, exSys_conserving.f0, exSys_conserving.f1, exSys_conserving.r0⟩,
    ⟨exSys_nonneg.v0, exSys_nonneg.u2d, exSys_nonneg.d2u, exSys_nonneg.α, by norm_num, exSys_nonneg.f0, exSys_nonneg.f1, exSys_nonneg.r0⟩, by norm_num [exSys]⟩

end Rayflare
