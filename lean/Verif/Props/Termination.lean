import Verif.Props.MatMul
import Verif.Props.RayStack

/-!
# Properties C18, C39: exactly when do the two loops end?
-/

namespace Rayflare

open Rayflare.Np Rayflare.Model Rayflare.Spec Rayflare.Lemmas Matrix

set_option linter.unusedSectionVars false

variable {ω ι κ₀ κ₁ : Type*} [Fintype ι] [DecidableEq ι] [Fintype κ₀] [Fintype κ₁]

/-! ## Vocabulary -/

/-- One round trip of the light in the bulk layer as a matrix: change of format, bulk, reflection at the rear interface, bulk, change of format, reflection at the front interface. -/
noncomputable def tripMatrix (S : Sys ω ι κ₀ κ₁) (w : ω) : Matrix ι ι ℝ :=
  (S.rear0 w).R * (S.up2down * (makeD (S.α w) S.thick S.θ * ((S.front1 w).R * (makeD (S.α w) S.thick S.θ * S.down2up))))

/-- Light gets into bin `j` at some time. -/
def Reaches (S : Sys ω ι κ₀ κ₁) (w : ω) (j : ι) : Prop := ∃ n, 0 < (tripMatrix S w ^ n *ᵥ ((S.front0 w).T *ᵥ S.v0 w)) j

/-- Some of the light in bin `j` is lost sooner or later (absorbed or let out). -/
def Leaks (S : Sys ω ι κ₀ κ₁) (w : ω) (j : ι) : Prop := ∃ n, ∑ i, (tripMatrix S w ^ n) i j < 1

/-! ## Helper lemmas -/

theorem trip_eq (S : Sys ω ι κ₀ κ₁) (w : ω) (v : ι → ℝ) : roundTrip S w v = tripMatrix S w *ᵥ v := by
  simp only [roundTrip, tripMatrix, Sys.D, Matrix.mulVec_mulVec, Matrix.mul_assoc]

theorem vf1_eq (S : Sys ω ι κ₀ κ₁) (w : ω) (k : ℕ) :
    (S.step^[k] S.init).vf1 w = tripMatrix S w ^ k *ᵥ ((S.front0 w).T *ᵥ S.v0 w) := by
  induction k with
  | zero => rw [pow_zero, Matrix.one_mulVec]; rfl
  | succ k ih => rw [Function.iterate_succ_apply', step_vf1, trip_eq, ih, pow_succ', Matrix.mulVec_mulVec]

section SubStoch

variable (M : Matrix ι ι ℝ) (h0 : ∀ i j, 0 ≤ M i j) (h1 : ∀ j, ∑ i, M i j ≤ 1)

include h0 in
theorem pow_nn (n : ℕ) : ∀ i j, 0 ≤ (M ^ n) i j := by
  induction n with
  | zero => intro i j; rw [pow_zero, Matrix.one_apply]; split_ifs <;> norm_num
  | succ n ih =>
    intro i j
    rw [pow_succ, Matrix.mul_apply]
    exact Finset.sum_nonneg fun k _ => mul_nonneg (ih i k) (h0 k j)

include h1 in
theorem sum_trip_le (v : ι → ℝ) (hv : ∀ j, 0 ≤ v j) : ∑ i, (M *ᵥ v) i ≤ ∑ j, v j := by
  rw [Lemmas.sum_mulVec]
  exact Finset.sum_le_sum fun j _ => by nlinarith [h1 j, hv j]

include h0 h1 in
theorem power_anti (v : ι → ℝ) (hv : ∀ j, 0 ≤ v j) {m n : ℕ} (h : m ≤ n) : ∑ i, (M ^ n *ᵥ v) i ≤ ∑ i, (M ^ m *ᵥ v) i := by
  induction n, h using Nat.le_induction with
  | base => exact le_rfl
  | succ n _ ih =>
    refine le_trans ?_ ih
    rw [pow_succ', ← Matrix.mulVec_mulVec]
    exact sum_trip_le M h1 _ fun j => mulVec_nonneg (pow_nn M h0 n) hv j

theorem single_sum (n : ℕ) (j : ι) : ∑ i, (M ^ n *ᵥ Pi.single j 1) i = ∑ i, (M ^ n) i j := by
  refine Finset.sum_congr rfl fun i _ => ?_
  rw [Matrix.mulVec_single]; simp

include h0 h1 in
theorem col_anti (j : ι) {m n : ℕ} (h : m ≤ n) : ∑ i, (M ^ n) i j ≤ ∑ i, (M ^ m) i j := by
  rw [← single_sum, ← single_sum]
  refine power_anti M h0 h1 _ (fun k => ?_) h
  by_cases hk : k = j
  · subst hk; simp
  · simp [hk]

include h0 h1 in
/-- If every bin that light gets into loses some of it, the power falls by a constant factor with every `N` round trips. -/
theorem power_geometric (v : ι → ℝ) (hv : ∀ j, 0 ≤ v j) (hl : ∀ j, (∃ n, 0 < (M ^ n *ᵥ v) j) → ∃ n, ∑ i, (M ^ n) i j < 1) :
    ∃ N, 0 < N ∧ ∃ ρ : ℝ, 0 ≤ ρ ∧ ρ < 1 ∧ ∀ k, ∑ i, (M ^ (N * k) *ᵥ v) i ≤ ρ ^ k * ∑ j, v j := by
  classical
  -- a common number of round trips and a common fraction
  obtain ⟨N, hN1, hN⟩ : ∃ N, 0 < N ∧ ∀ j, (∃ n, 0 < (M ^ n *ᵥ v) j) → ∑ i, (M ^ N) i j < 1 := by
    have hch : ∀ j, ∃ n, (∃ m, 0 < (M ^ m *ᵥ v) j) → ∑ i, (M ^ n) i j < 1 := fun j => by
      by_cases h : ∃ m, 0 < (M ^ m *ᵥ v) j
      · obtain ⟨n, hn⟩ := hl j h; exact ⟨n, fun _ => hn⟩
      · exact ⟨0, fun h' => absurd h' h⟩
    choose f hf using hch
    refine ⟨Finset.univ.sup f + 1, by omega, fun j hj => lt_of_le_of_lt (col_anti M h0 h1 j ((Finset.le_sup (Finset.mem_univ j)).trans (Nat.le_succ _))) (hf j hj)⟩
  obtain ⟨ρ, hρ0, hρ1, hρ⟩ : ∃ ρ : ℝ, 0 ≤ ρ ∧ ρ < 1 ∧ ∀ j, (∃ n, 0 < (M ^ n *ᵥ v) j) → ∑ i, (M ^ N) i j ≤ ρ := by
    set s : Finset ℝ := insert 0 ((Finset.univ.filter fun j => ∃ n, 0 < (M ^ n *ᵥ v) j).image fun j => ∑ i, (M ^ N) i j)
    have hne : s.Nonempty := ⟨0, Finset.mem_insert_self _ _⟩
    refine ⟨s.max' hne, Finset.le_max' _ _ (Finset.mem_insert_self _ _), ?_, ?_⟩
    · rw [Finset.max'_lt_iff]
      intro y hy
      rcases Finset.mem_insert.mp hy with rfl | hy
      · norm_num
      · obtain ⟨j, hj, rfl⟩ := Finset.mem_image.mp hy
        exact hN j (Finset.mem_filter.mp hj).2
    · intro j hj
      have hm : j ∈ Finset.univ.filter fun j => ∃ n, 0 < (M ^ n *ᵥ v) j := Finset.mem_filter.mpr ⟨Finset.mem_univ _, hj⟩
      have hm' : ∑ i, (M ^ N) i j ∈ s := Finset.mem_insert_of_mem (Finset.mem_image_of_mem (fun j => ∑ i, (M ^ N) i j) hm)
      exact Finset.le_max' _ _ hm'
  have hdec : ∀ k, ∑ i, (M ^ (N * k) *ᵥ v) i ≤ ρ ^ k * ∑ j, v j := by
    intro k
    induction k with
    | zero => simp
    | succ k ih =>
      have e : M ^ (N * (k + 1)) *ᵥ v = M ^ N *ᵥ (M ^ (N * k) *ᵥ v) := by
        rw [Matrix.mulVec_mulVec, ← pow_add]; congr 2; ring
      rw [e, Lemmas.sum_mulVec, pow_succ']
      have : ∑ j, (∑ i, (M ^ N) i j) * (M ^ (N * k) *ᵥ v) j ≤ ∑ j, ρ * (M ^ (N * k) *ᵥ v) j := by
        refine Finset.sum_le_sum fun j _ => ?_
        have hnn : 0 ≤ (M ^ (N * k) *ᵥ v) j := mulVec_nonneg (pow_nn M h0 _) hv j
        rcases hnn.eq_or_lt with h | h
        · rw [← h]; simp
        · exact mul_le_mul_of_nonneg_right (hρ j ⟨_, h⟩) h.le
      rw [← Finset.mul_sum] at this
      refine this.trans ?_
      rw [mul_assoc]
      exact mul_le_mul_of_nonneg_left ih hρ0
  exact ⟨N, hN1, ρ, hρ0, hρ1, hdec⟩

include h0 h1 in
/-- If every bin that light gets into loses some of it, the power goes to zero. -/
theorem power_vanishes (v : ι → ℝ) (hv : ∀ j, 0 ≤ v j) (hl : ∀ j, (∃ n, 0 < (M ^ n *ᵥ v) j) → ∃ n, ∑ i, (M ^ n) i j < 1) (ε : ℝ) (hε : 0 < ε) :
    ∃ K, ∀ k ≥ K, ∑ i, (M ^ k *ᵥ v) i ≤ ε := by
  obtain ⟨N, -, ρ, hρ0, hρ1, hdec⟩ := power_geometric M h0 h1 v hv hl
  have hP : 0 ≤ ∑ j, v j := Finset.sum_nonneg fun j _ => hv j
  obtain ⟨k, hk⟩ := exists_pow_lt_of_lt_one (show 0 < ε / (∑ j, v j + 1) by positivity) hρ1
  refine ⟨N * k, fun k' hk' => (power_anti M h0 h1 v hv hk').trans ((hdec k).trans ?_)⟩
  rw [lt_div_iff₀ (by linarith)] at hk
  nlinarith [pow_nonneg hρ0 k]

include h0 h1 in
/-- If some bin that light gets into loses nothing, the power stays above a positive bound. -/
theorem power_stays (v : ι → ℝ) (hv : ∀ j, 0 ≤ v j) (j : ι) (n : ℕ) (hr : 0 < (M ^ n *ᵥ v) j) (hl : ∀ m, 1 ≤ ∑ i, (M ^ m) i j) (k : ℕ) :
    (M ^ n *ᵥ v) j ≤ ∑ i, (M ^ k *ᵥ v) i := by
  refine le_trans ?_ (power_anti M h0 h1 v hv (Nat.le_add_left k n))
  rw [show n + k = k + n by ring, pow_add, ← Matrix.mulVec_mulVec, Lemmas.sum_mulVec]
  have h2 : (∑ i, (M ^ k) i j) * (M ^ n *ᵥ v) j ≤ ∑ j, (∑ i, (M ^ k) i j) * (M ^ n *ᵥ v) j :=
    Finset.single_le_sum (f := fun j => (∑ i, (M ^ k) i j) * (M ^ n *ᵥ v) j)
      (fun i _ => mul_nonneg (Finset.sum_nonneg fun r _ => pow_nn M h0 k r i) (mulVec_nonneg (pow_nn M h0 n) hv i)) (Finset.mem_univ j)
  nlinarith [hl k]

end SubStoch

theorem trip_nonneg (S : Sys ω ι κ₀ κ₁) (hp : NonnegData S) (w : ω) : ∀ i j, 0 ≤ tripMatrix S w i j := by
  have hmul : ∀ A B : Matrix ι ι ℝ, (∀ i j, 0 ≤ A i j) → (∀ i j, 0 ≤ B i j) → ∀ i j, 0 ≤ (A * B) i j := by
    intro A B hA hB i j
    rw [Matrix.mul_apply]
    exact Finset.sum_nonneg fun k _ => mul_nonneg (hA i k) (hB k j)
  have hD : ∀ i j, 0 ≤ makeD (S.α w) S.thick S.θ i j := by
    intro i j
    unfold makeD
    rw [Matrix.diagonal_apply]
    split_ifs
    · exact (Real.exp_pos _).le
    · exact le_rfl
  unfold tripMatrix
  exact hmul _ _ (hp.r0 w).1 (hmul _ _ hp.u2d (hmul _ _ hD (hmul _ _ (hp.f1 w).1 (hmul _ _ hD hp.d2u))))

theorem trip_sub (S : Sys ω ι κ₀ κ₁) (hS : EnergyConserving S) (hp : NonnegData S) (w : ω) : ∀ j, ∑ i, tripMatrix S w i j ≤ 1 := by
  intro j
  have hv : ∀ k, 0 ≤ (Pi.single j 1 : ι → ℝ) k := by
    intro k
    by_cases hk : k = j
    · subst hk; simp
    · simp [hk]
  have hDle : ∀ v : ι → ℝ, (∀ k, 0 ≤ v k) → ∑ k, (S.D w *ᵥ v) k ≤ ∑ k, v k := fun v hv => Finset.sum_le_sum fun k _ => D_le S hp hv k
  have b1 := mulVec_nonneg hp.d2u hv
  have b2 := D_nonneg S (w := w) b1
  have b3 := mulVec_nonneg (hp.f1 w).1 b2
  have b4 := D_nonneg S (w := w) b3
  have b5 := mulVec_nonneg hp.u2d b4
  have e1 := sum_relabel hS.d2u (Pi.single j 1 : ι → ℝ)
  have e2 := hDle _ b1
  have e3 := sum_R_le (hS.f1 w) (hp.f1 w) b2
  have e4 := hDle _ b3
  have e5 := sum_relabel hS.u2d (S.D w *ᵥ ((S.front1 w).R *ᵥ (S.D w *ᵥ (S.down2up *ᵥ Pi.single j 1))))
  have e6 := sum_R_le (hS.r0 w) (hp.r0 w) b5
  have e7 : ∑ i, tripMatrix S w i j = ∑ i, roundTrip S w (Pi.single j 1) i := by
    refine Finset.sum_congr rfl fun i _ => ?_
    rw [trip_eq, Matrix.mulVec_single]; simp
  have e8 : ∑ k, (Pi.single j 1 : ι → ℝ) k = 1 := by simp
  rw [e7]
  unfold roundTrip
  linarith

/-! ## C18 -/

/-- **C18 (partial: exact characterisation).** With energy-conserving matrices the loop of `calculate_RAT` ends for every positive `I_thresh`, in both branches, if and only if at every wavelength every bin that
light gets into loses some of its light sooner or later (to absorption, reflection out of the front or transmission out of the rear).  What is missing for the full property – termination on every valid input – is false, see `C18_fails`. -/
theorem C18_ends_iff_partial [Finite ω] (S : Sys ω ι κ₀ κ₁) (hS : EnergyConserving S) (hp : NonnegData S) (o : ProfOpts ω ι) :
    (∀ ε > 0, ∃ k, (∃ t, ({ S with thresh := ε } : Sys ω ι κ₀ κ₁).Exits k t) ∧ ∃ t, ({ S with thresh := ε } : Sys ω ι κ₀ κ₁).ExitsProf o k t) ↔
      ∀ w j, Reaches S w j → Leaks S w j := by
  classical
  have hv : ∀ w j, 0 ≤ ((S.front0 w).T *ᵥ S.v0 w) j := fun w j => mulVec_nonneg (hp.f0 w).2.1 (hp.v0 w) j
  constructor
  · rintro h w j ⟨n, hn⟩
    by_contra hl
    have hl' : ∀ m, 1 ≤ ∑ i, (tripMatrix S w ^ m) i j := fun m => by
      by_contra hm; exact hl ⟨m, not_le.mp hm⟩
    obtain ⟨k, ⟨t, rfl, hd, _⟩, _⟩ := h ((tripMatrix S w ^ n *ᵥ ((S.front0 w).T *ᵥ S.v0 w)) j / 2) (by positivity)
    have h1 := hd w
    have h2 := power_stays _ (trip_nonneg S hp w) (trip_sub S hS hp w) _ (hv w) j n hn hl' k
    rw [← vf1_eq S w k] at h2
    have h3 : ∑ i, (S.step^[k] S.init).vf1 w i ≤ (tripMatrix S w ^ n *ᵥ ((S.front0 w).T *ᵥ S.v0 w)) j / 2 := h1
    linarith
  · intro h ε hε
    have : ∀ w, ∃ K, ∀ k ≥ K, ∑ i, (tripMatrix S w ^ k *ᵥ ((S.front0 w).T *ᵥ S.v0 w)) i ≤ ε := fun w =>
      power_vanishes _ (trip_nonneg S hp w) (trip_sub S hS hp w) _ (hv w) (h w) ε hε
    choose K hK using this
    obtain ⟨B, hB⟩ := (Set.finite_range K).bddAbove
    set S' : Sys ω ι κ₀ κ₁ := { S with thresh := ε }
    have hdone : S'.Done (S'.step^[B] S'.init) := by
      intro w
      have := hK w B (hB ⟨w, rfl⟩)
      rw [← vf1_eq] at this
      exact this
    obtain ⟨k, t, -, hk⟩ := exists_exit (done := S'.Done) hdone
    obtain ⟨t', ht', _⟩ := (C19_branches_agree S' (show Relabels S'.up2down from hS.u2d) o k).2 t hk
    exact ⟨k, ⟨t, hk⟩, t', ht'⟩

/-- In the example system every bin leaks, so the loop ends for every threshold. -/
theorem exSys_leaks : ∀ w j, Leaks exSys w j := by
  intro w j
  refine ⟨1, ?_⟩
  rw [pow_one]
  have h := roundTrip_le exSys exSys_nonneg exSys_conserving.u2d exSys_conserving.d2u exSys_conserving.f1 exSys_conserving.r0 exSys_cos 3 (by norm_num) w
    (by simp only [exSys]; split_ifs <;> norm_num) (Pi.single j 1) (fun k => by by_cases hk : k = j <;> simp [hk])
  have e7 : ∑ i, tripMatrix exSys w i j = ∑ i, roundTrip exSys w (Pi.single j 1) i := by
    refine Finset.sum_congr rfl fun i _ => ?_
    rw [trip_eq, Matrix.mulVec_single]; simp
  rw [e7]
  refine lt_of_le_of_lt h ?_
  rw [Finset.sum_pi_single' ]
  simp [exSys]

/-! ## C39 -/

/-- Is this outcome something other than a reflection? -/
def passesOn : Outcome → Bool
  | .reflect _ => false
  | _ => true

/-- What may happen at a surface, with probabilities, given everything that happened before. -/
abbrev Chances := List Outcome → List (ℝ × Outcome)

/-- Probabilities are non-negative and add up to 1, and the probability of being transmitted or absorbed is at least `p`. -/
def Chances.AtLeast (c : Chances) (p : ℝ) : Prop :=
  ∀ h, (∀ q ∈ c h, 0 ≤ q.1) ∧ ((c h).map Prod.fst).sum = 1 ∧ p ≤ (((c h).filter fun q => passesOn q.2).map Prod.fst).sum

/-- Value at the state reached, 1 if there is none (an exception; it does not occur). -/
noncomputable def orOne (r : Option Ray) (f : Ray → ℝ) : ℝ := match r with | none => 1 | some s' => f s'

/-- The probability that a ray in state `s` with history `h` is still under way after meeting `n` more surfaces. -/
noncomputable def underWay (S : Stack) (c : Chances) : ℕ → Ray → List Outcome → ℝ
  | 0, s, _ => if s.stop then 0 else 1
  | n + 1, s, h => if s.stop then 0 else
      ((c h).map fun q => q.1 * (orOne (S.step s q.2) fun s' => underWay S c n s' (h ++ [q.2]))).sum

theorem wsum_le {α : Type*} (l : List (ℝ × α)) (f g : α → ℝ) (h0 : ∀ q ∈ l, 0 ≤ q.1) (h : ∀ q ∈ l, f q.2 ≤ g q.2) :
    (l.map fun q => q.1 * f q.2).sum ≤ (l.map fun q => q.1 * g q.2).sum := by
  induction l with
  | nil => simp
  | cons q l ih =>
    simp only [List.map_cons, List.sum_cons]
    exact add_le_add (mul_le_mul_of_nonneg_left (h q (by simp)) (h0 q (by simp))) (ih (fun q hq => h0 q (by simp [hq])) fun q hq => h q (by simp [hq]))

theorem wsum_const {α : Type*} (l : List (ℝ × α)) (k : ℝ) : (l.map fun q => q.1 * k).sum = (l.map Prod.fst).sum * k := by
  induction l with
  | nil => simp
  | cons q l ih => simp only [List.map_cons, List.sum_cons, ih]; ring

theorem wsum_mul {α : Type*} (l : List (ℝ × α)) (k : ℝ) (f : α → ℝ) : (l.map fun q => q.1 * (k * f q.2)).sum = k * (l.map fun q => q.1 * f q.2).sum := by
  induction l with
  | nil => simp
  | cons q l ih => simp only [List.map_cons, List.sum_cons, ih]; ring

theorem wsum_split {α : Type*} (l : List (ℝ × α)) (b : α → Bool) (x : ℝ) :
    (l.map fun q => q.1 * (if b q.2 then x else 1)).sum = (l.map Prod.fst).sum - (((l.filter fun q => b q.2).map Prod.fst).sum) * (1 - x) := by
  induction l with
  | nil => simp
  | cons q l ih =>
    by_cases hb : b q.2 = true
    · rw [List.filter_cons_of_pos (by simpa using hb)]
      simp only [List.map_cons, List.sum_cons, ih, hb, if_true]; ring
    · rw [List.filter_cons_of_neg (by simpa using hb)]
      simp only [List.map_cons, List.sum_cons, ih, hb, if_false, Bool.false_eq_true]; ring

theorem underWay_bounds (S : Stack) (c : Chances) (p : ℝ) (hc : c.AtLeast p) (n : ℕ) : ∀ s h, 0 ≤ underWay S c n s h ∧ underWay S c n s h ≤ 1 := by
  induction n with
  | zero => intro s h; simp only [underWay]; split_ifs <;> norm_num
  | succ n ih =>
    intro s h
    obtain ⟨h0, h1, -⟩ := hc h
    simp only [underWay]
    split_ifs
    · norm_num
    · have hb : ∀ o : Outcome, 0 ≤ (orOne (S.step s o) fun s' => underWay S c n s' (h ++ [o])) ∧
          (orOne (S.step s o) fun s' => underWay S c n s' (h ++ [o])) ≤ 1 := by
        intro o
        rcases S.step s o with _ | s'
        · norm_num [orOne]
        · exact ih s' _
      constructor
      · apply List.sum_nonneg
        intro x hx
        obtain ⟨q, hq, rfl⟩ := List.mem_map.mp hx
        exact mul_nonneg (h0 q hq) (hb q.2).1
      · refine (wsum_le (c h) (fun o => orOne (S.step s o) fun s' => underWay S c n s' (h ++ [o])) (fun _ => 1) h0 fun q _ => (hb q.2).2).trans ?_
        rw [wsum_const, h1]; norm_num

/-- Number of transmissions after which the ray leaves the stack. -/
def toGo (S : Stack) (s : Ray) : ℕ := if s.dir = 1 then (S.nSurf - s.mat).toNat else s.mat.toNat

theorem toGo_le {S : Stack} {s : Ray} (h : OnTrack S s) : toGo S s ≤ S.nSurf := by
  have hn : S.nSurf = S.widths.length - 1 := rfl
  have h0 := h.mat0
  have h1 := h.mat1
  unfold toGo
  split_ifs <;> omega

theorem toGo_pos {S : Stack} {s : Ray} (h : OnTrack S s) (hs : s.stop = false) : 1 ≤ toGo S s := by
  obtain ⟨h1, h2, h3, h4⟩ := h.surf hs
  unfold toGo
  rcases h.dir with hd | hd
  · rw [if_pos hd]; have := h1 hd; omega
  · rw [if_neg (by omega)]; have := h2 hd; omega

/-- After being transmitted or absorbed the ray is finished or one surface nearer to the end. -/
theorem step_passesOn {S : Stack} {s : Ray} (h : OnTrack S s) (hs : s.stop = false) (o : Outcome) (ho : passesOn o = true) :
    ∃ s', S.step s o = some s' ∧ OnTrack S s' ∧ (s'.stop = false → toGo S s' + 1 = toGo S s) := by
  obtain ⟨s', hs', ht⟩ := step_onTrack h o
  refine ⟨s', hs', ht, fun hgo => ?_⟩
  obtain ⟨h1, h2, h3, h4⟩ := h.surf hs
  rcases step_spec h hs o with ⟨A, rfl, he⟩ | ⟨θ, ho', he, -⟩ | ⟨θ, m, ho', hm1, hm2, hmm, he⟩
  · rw [he] at hs'
    simp only [Option.some.injEq] at hs'
    subst hs'
    simp [Ray.interact] at hgo
  · rw [he] at hs'
    simp only [Option.some.injEq] at hs'
    subst hs'
    simp at hgo
  · rcases ho' with rfl | rfl
    · simp [passesOn] at ho
    · rw [he] at hs'
      simp only [Option.some.injEq] at hs'
      subst hs'
      have e1 : (S.pass (s.interact (.transmit θ)) m).dir = s.dir := rfl
      have e2 : (S.pass (s.interact (.transmit θ)) m).mat = s.mat + s.dir := rfl
      unfold toGo
      rw [e1, e2]
      rcases h.dir with hd | hd
      · rw [if_pos hd, if_pos hd, hd]; have := h1 hd; omega
      · rw [if_neg (by omega), if_neg (by omega), hd]; have := h2 hd; omega

theorem underWay_toGo (S : Stack) (c : Chances) (p : ℝ) (hp0 : 0 ≤ p) (hp1 : p ≤ 1) (hc : c.AtLeast p) (d : ℕ) :
    ∀ n, d ≤ n → ∀ s h, OnTrack S s → toGo S s ≤ d → underWay S c n s h ≤ 1 - p ^ d := by
  induction d with
  | zero =>
    intro n _ s h ht hd
    cases hs : s.stop with
    | true =>
      have : underWay S c n s h = 0 := by cases n <;> simp [underWay, hs]
      rw [this]; simp
    | false => have := toGo_pos ht hs; omega
  | succ d ih =>
    intro n hn s h ht hd
    have hpd : p ^ (d + 1) ≤ 1 := pow_le_one₀ hp0 hp1
    cases hs : s.stop with
    | true =>
      have : underWay S c n s h = 0 := by cases n <;> simp [underWay, hs]
      rw [this]; linarith
    | false =>
      obtain ⟨n, rfl⟩ : ∃ m, n = m + 1 := ⟨n - 1, by omega⟩
      obtain ⟨h0, h1, h2⟩ := hc h
      simp only [underWay, hs, Bool.false_eq_true, if_false]
      have hpd' : p ^ d ≤ 1 := pow_le_one₀ hp0 hp1
      have hb : ∀ o : Outcome, (orOne (S.step s o) fun s' => underWay S c n s' (h ++ [o])) ≤ if passesOn o then 1 - p ^ d else 1 := by
        intro o
        by_cases ho : passesOn o = true
        · rw [if_pos ho]
          obtain ⟨s', e, ht', hg⟩ := step_passesOn ht hs o ho
          rw [e]
          cases hs' : s'.stop with
          | true =>
            have : underWay S c n s' (h ++ [o]) = 0 := by cases n <;> simp [underWay, hs']
            simp only [orOne, this]; linarith
          | false =>
            have := hg hs'
            exact ih n (by omega) s' _ ht' (by omega)
        · rw [if_neg ho]
          rcases S.step s o with _ | s'
          · norm_num [orOne]
          · exact (underWay_bounds S c p hc n s' _).2
      refine (wsum_le (c h) (fun o => orOne (S.step s o) fun s' => underWay S c n s' (h ++ [o])) (fun o => if passesOn o then 1 - p ^ d else 1) h0 fun q _ => hb q.2).trans ?_
      rw [wsum_split, h1]
      have : p * p ^ d ≤ (((c h).filter fun q => passesOn q.2).map Prod.fst).sum * p ^ d := mul_le_mul_of_nonneg_right h2 (pow_nonneg hp0 d)
      rw [pow_succ']
      linarith

theorem underWay_add (S : Stack) (c : Chances) (p : ℝ) (hc : c.AtLeast p) (x : ℝ) (b : ℕ) (hx : ∀ s h, OnTrack S s → underWay S c b s h ≤ x) (hx0 : 0 ≤ x) (a : ℕ) :
    ∀ s h, OnTrack S s → underWay S c (a + b) s h ≤ x * underWay S c a s h := by
  induction a with
  | zero =>
    intro s h ht
    rw [Nat.zero_add]
    cases hs : s.stop with
    | true =>
      have : underWay S c b s h = 0 := by cases b <;> simp [underWay, hs]
      rw [this]; simp [underWay, hs]
    | false => simpa [underWay, hs] using hx s h ht
  | succ a ih =>
    intro s h ht
    rw [show a + 1 + b = (a + b) + 1 by ring]
    cases hs : s.stop with
    | true => simp [underWay, hs]
    | false =>
      obtain ⟨h0, h1, h2⟩ := hc h
      simp only [underWay, hs, Bool.false_eq_true, if_false]
      rw [← wsum_mul (c h) x fun o => orOne (S.step s o) fun s' => underWay S c a s' (h ++ [o])]
      refine wsum_le (c h) (fun o => orOne (S.step s o) fun s' => underWay S c (a + b) s' (h ++ [o])) (fun o => x * orOne (S.step s o) fun s' => underWay S c a s' (h ++ [o])) h0 fun q _ => ?_
      obtain ⟨s', e, ht'⟩ := step_onTrack ht q.2
      simp only [e, orOne]
      exact ih s' _ ht'

/-- **C39 (partial: with probability one).** If at every surface the ray is transmitted or absorbed with a probability of at least `p > 0`, whatever happened before, the probability that it is still under way after meeting `k·N`
surfaces, `N` the number of surfaces of the stack, is at most `(1 - p^N)^k` and so goes to zero, even if no medium absorbs.  What is missing for the full property – termination for certain – is false, see `C39_fails`. -/
theorem C39_almost_surely_partial (S : Stack) (matI dirI : ℤ) (hv : ValidStart S matI dirI) (c : Chances) (p : ℝ) (hp : 0 < p) (hc : c.AtLeast p) :
    (∀ k, underWay S c (k * S.nSurf) (Stack.start matI dirI) [] ≤ (1 - p ^ S.nSurf) ^ k) ∧
      ∀ ε > 0, ∃ n, ∀ m ≥ n, underWay S c m (Stack.start matI dirI) [] < ε := by
  have hp1 : p ≤ 1 := by
    obtain ⟨h0, h1, h2⟩ := hc []
    refine h2.trans ?_
    have := wsum_split (c []) passesOn 0
    have h3 : 0 ≤ ((c []).map fun q => q.1 * (if passesOn q.2 then (0 : ℝ) else 1)).sum := by
      apply List.sum_nonneg
      intro x hx
      obtain ⟨q, hq, rfl⟩ := List.mem_map.mp hx
      exact mul_nonneg (h0 q hq) (by split_ifs <;> norm_num)
    rw [this, h1] at h3
    linarith
  have hN : p ^ S.nSurf ≤ 1 := pow_le_one₀ hp.le hp1
  have hx0 : 0 ≤ 1 - p ^ S.nSurf := by linarith
  have hk : ∀ k s h, OnTrack S s → underWay S c (k * S.nSurf) s h ≤ (1 - p ^ S.nSurf) ^ k := by
    intro k
    induction k with
    | zero => intro s h _; simpa using (underWay_bounds S c p hc _ s h).2
    | succ k ih =>
      intro s h ht
      rw [show (k + 1) * S.nSurf = S.nSurf + k * S.nSurf by ring, pow_succ]
      refine (underWay_add S c p hc _ _ ih (pow_nonneg hx0 k) S.nSurf s h ht).trans ?_
      exact mul_le_mul_of_nonneg_left (underWay_toGo S c p hp.le hp1 hc S.nSurf S.nSurf le_rfl s h ht (toGo_le ht)) (pow_nonneg hx0 k)
  refine ⟨fun k => hk k _ _ (start_onTrack hv), fun ε hε => ?_⟩
  have hlt : 1 - p ^ S.nSurf < 1 := by have := pow_pos hp S.nSurf; linarith
  obtain ⟨k, hke⟩ := exists_pow_lt_of_lt_one hε hlt
  refine ⟨k * S.nSurf, fun m hm => lt_of_le_of_lt ?_ hke⟩
  obtain ⟨r, rfl⟩ : ∃ r, m = r + k * S.nSurf := ⟨m - k * S.nSurf, by omega⟩
  refine (underWay_add S c p hc _ _ (hk k) (pow_nonneg hx0 k) r _ _ (start_onTrack hv)).trans ?_
  have := (underWay_bounds S c p hc r (Stack.start matI dirI) []).2
  nlinarith [pow_nonneg hx0 k]

/-- Surfaces that reflect 90 % and transmit 10 %, no absorption. -/
example : Chances.AtLeast (fun _ => [(0.9, .reflect 0), (0.1, .transmit 0)]) 0.1 := by
  intro h
  refine ⟨?_, by norm_num, by norm_num [passesOn]⟩
  intro q hq
  simp only [List.mem_cons, List.not_mem_nil, or_false] at hq
  rcases hq with rfl | rfl <;> norm_num

end Rayflare
