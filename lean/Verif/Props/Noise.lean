import Verif.Spec.Noise
import Verif.Props.Stability

/-!
# Property C192: the statistical error of ray-traced matrices reaches R, A and T without being amplified beyond a known factor
-/

namespace Rayflare

open Rayflare.Np Rayflare.Model Rayflare.Spec Rayflare.Lemmas Matrix MeasureTheory

set_option linter.unusedSectionVars false

variable {Ω ω ι κ κ₀ κ₁ : Type*} [Fintype ι] [DecidableEq ι] [Fintype κ] [Fintype κ₀] [Fintype κ₁] [MeasurableSpace Ω]

/-! ## Helper lemmas -/

theorem noisy_block {ρ : Type*} [Fintype ρ] (P : Measure Ω) [IsFiniteMeasure P] (F : Ω → ρ → ι → ℝ) (F₀ : ρ → ι → ℝ) {ε δ : ℝ}
    (h : ∀ r j, P.real {x | ε ≤ |F x r j - F₀ r j|} ≤ δ) : P.real {x | ∃ r j, ε ≤ |F x r j - F₀ r j|} ≤ Fintype.card ρ * Fintype.card ι * δ := by
  have e : {x | ∃ r j, ε ≤ |F x r j - F₀ r j|} = ⋃ p ∈ (Finset.univ : Finset (ρ × ι)), {x | ε ≤ |F x p.1 p.2 - F₀ p.1 p.2|} := by
    ext x; simp
  rw [e]
  refine (measureReal_biUnion_finset_le _ _).trans ?_
  refine (Finset.sum_le_sum fun p _ => h p.1 p.2).trans ?_
  rw [Finset.sum_const, Finset.card_univ, Fintype.card_prod, nsmul_eq_mul]
  push_cast
  exact le_rfl

/-- With high probability a noisy surface is close to the exact one. -/
theorem noisy_surface (P : Measure Ω) [IsFiniteMeasure P] (M : Ω → Mats ι κ) (M₀ : Mats ι κ) {ε δ : ℝ} (h : NoisyEntries P M M₀ ε δ) :
    P.real {x | ¬ ∀ j, surfaceGap (M x) M₀ j ≤ (2 * Fintype.card ι + Fintype.card κ) * ε} ≤ (2 * Fintype.card ι + Fintype.card κ) * Fintype.card ι * δ := by
  have h1 := noisy_block P (fun x => (M x).R) M₀.R h.1
  have h2 := noisy_block P (fun x => (M x).T) M₀.T h.2.1
  have h3 := noisy_block P (fun x => (M x).A) M₀.A h.2.2
  have hsub : {x | ¬ ∀ j, surfaceGap (M x) M₀ j ≤ (2 * Fintype.card ι + Fintype.card κ) * ε} ⊆
      ({x | ∃ r j, ε ≤ |(M x).R r j - M₀.R r j|} ∪ {x | ∃ r j, ε ≤ |(M x).T r j - M₀.T r j|}) ∪ {x | ∃ l j, ε ≤ |(M x).A l j - M₀.A l j|} := by
    intro x hx
    by_contra hcon
    simp only [Set.mem_union, not_or, Set.mem_ofPred_eq, not_exists, not_le] at hcon
    obtain ⟨⟨a, b⟩, c⟩ := hcon
    refine hx fun j => ?_
    unfold surfaceGap
    have s1 := Finset.sum_le_card_nsmul Finset.univ (fun r => |(M x).R r j - M₀.R r j|) ε fun r _ => (a r j).le
    have s2 := Finset.sum_le_card_nsmul Finset.univ (fun r => |(M x).T r j - M₀.T r j|) ε fun r _ => (b r j).le
    have s3 := Finset.sum_le_card_nsmul Finset.univ (fun l => |(M x).A l j - M₀.A l j|) ε fun l _ => (c l j).le
    simp only [Finset.card_univ, nsmul_eq_mul] at s1 s2 s3
    linarith
  have u1 := measureReal_mono (μ := P) hsub
  have u2 := measureReal_union_le (μ := P) ({x | ∃ r j, ε ≤ |(M x).R r j - M₀.R r j|} ∪ {x | ∃ r j, ε ≤ |(M x).T r j - M₀.T r j|}) {x | ∃ l j, ε ≤ |(M x).A l j - M₀.A l j|}
  have u3 := measureReal_union_le (μ := P) {x | ∃ r j, ε ≤ |(M x).R r j - M₀.R r j|} {x | ∃ r j, ε ≤ |(M x).T r j - M₀.T r j|}
  linarith

/-! ## The property -/

section
variable (P : Measure Ω) [IsProbabilityMeasure P] (S : Ω → Sys ω ι κ₀ κ₁) (S₀ : Sys ω ι κ₀ κ₁) (w : ω) (hS₀ : EnergyConserving S₀) (hp₀ : NonnegData S₀)
  (hsame : ∀ x, (S x).v0 w = S₀.v0 w ∧ (S x).up2down = S₀.up2down ∧ (S x).down2up = S₀.down2up ∧ (S x).θ = S₀.θ ∧ (S x).α w = S₀.α w ∧ (S x).thick = S₀.thick ∧ (S x).thresh = S₀.thresh)
  (hcos : ∀ j, Real.cos (S₀.θ j) ≠ 0) (habs : 0 < S₀.α w * S₀.thick)
  (o : ProfOpts ω ι) (o₀ : ProfOpts ω ι) (k : Ω → ℕ) (t : Ω → LoopState ω ι κ₀ κ₁) (hS : ∀ᵐ x ∂P, EnergyConserving (S x) ∧ NonnegData (S x) ∧ ((S x).Exits (k x) (t x) ∨ (S x).ExitsProf o (k x) (t x)))
  (k₀ : ℕ) (t₀ : LoopState ω ι κ₀ κ₁) (ht₀ : S₀.Exits k₀ t₀ ∨ S₀.ExitsProf o₀ k₀ t₀)
include hS₀ hp₀ hsame hcos habs hS ht₀

/-- **C192.** The matrices of the surfaces (of `n` directions per hemisphere and `m₀` and `m₁` layers) are random, each entry differing by `ε` or more from that of the exact matrices with probability at most `δ`.  Then with
probability at least `1 - (2 n (2 n + m₀) + n (2 n + m₁)) δ` every result of `calculate_RAT` differs from that with the exact matrices by at most `(2 n + max m₀ m₁) ε (1 + 2 / (1 - exp (-2 α d)))` times the incident light, plus
`I_thresh`. -/
theorem C192_noise (ε δ : ℝ) (hε : 0 ≤ ε) (h0 : NoisyEntries P (fun x => (S x).front0 w) (S₀.front0 w) ε δ) (h1 : NoisyEntries P (fun x => (S x).front1 w) (S₀.front1 w) ε δ)
    (h2 : NoisyEntries P (fun x => (S x).rear0 w) (S₀.rear0 w) ε δ) :
    P.real {x | ¬ ResultsWithin ((2 * Fintype.card ι + max (Fintype.card κ₀ : ℝ) (Fintype.card κ₁)) * ε * (1 + 2 / (1 - Real.exp (-(2 * (S₀.α w * S₀.thick))))) * ∑ j, S₀.v0 w j + S₀.thresh) (t x) w t₀ w} ≤
      (2 * ((2 * Fintype.card ι + Fintype.card κ₀) * Fintype.card ι) + (2 * Fintype.card ι + Fintype.card κ₁) * Fintype.card ι) * δ := by
  have m0 : (Fintype.card κ₀ : ℝ) ≤ max (Fintype.card κ₀ : ℝ) (Fintype.card κ₁) := le_max_left _ _
  have m1 : (Fintype.card κ₁ : ℝ) ≤ max (Fintype.card κ₀ : ℝ) (Fintype.card κ₁) := le_max_right _ _
  obtain ⟨mx, hmx⟩ : ∃ mx, max (Fintype.card κ₀ : ℝ) (Fintype.card κ₁) = mx := ⟨_, rfl⟩
  rw [hmx] at m0 m1 ⊢
  have n0 := noisy_surface P _ _ h0
  have n1 := noisy_surface P _ _ h1
  have n2 := noisy_surface P _ _ h2
  obtain ⟨b0, hb0⟩ : ∃ b, {x | ¬ ∀ j, surfaceGap ((S x).front0 w) (S₀.front0 w) j ≤ (2 * Fintype.card ι + Fintype.card κ₀) * ε} = b := ⟨_, rfl⟩
  obtain ⟨b1, hb1⟩ : ∃ b, {x | ¬ ∀ j, surfaceGap ((S x).front1 w) (S₀.front1 w) j ≤ (2 * Fintype.card ι + Fintype.card κ₁) * ε} = b := ⟨_, rfl⟩
  obtain ⟨b2, hb2⟩ : ∃ b, {x | ¬ ∀ j, surfaceGap ((S x).rear0 w) (S₀.rear0 w) j ≤ (2 * Fintype.card ι + Fintype.card κ₀) * ε} = b := ⟨_, rfl⟩
  rw [hb0] at n0
  rw [hb1] at n1
  rw [hb2] at n2
  set bad := {x | ¬ (EnergyConserving (S x) ∧ NonnegData (S x) ∧ ((S x).Exits (k x) (t x) ∨ (S x).ExitsProf o (k x) (t x)))} with hbad
  have nb : P.real bad = 0 := by
    have : P bad = 0 := hS
    simp [measureReal_def, this]
  have hsub : {x | ¬ ResultsWithin ((2 * Fintype.card ι + mx) * ε * (1 + 2 / (1 - Real.exp (-(2 * (S₀.α w * S₀.thick))))) * ∑ j, S₀.v0 w j + S₀.thresh) (t x) w t₀ w} ⊆
      bad ∪ (b0 ∪ (b1 ∪ b2)) := by
    intro x hx
    by_contra hcon
    simp only [Set.mem_union, not_or, hbad, ← hb0, ← hb1, ← hb2, Set.mem_ofPred_eq, not_not] at hcon
    obtain ⟨⟨c1, c2, c3⟩, g0, g1, g2⟩ := hcon
    obtain ⟨s1, s2, s3, s4, s5, s6, s7⟩ := hsame x
    have hm0 := mul_le_mul_of_nonneg_right m0 hε
    have hm1 := mul_le_mul_of_nonneg_right m1 hε
    have hη : 0 ≤ (2 * Fintype.card ι + mx) * ε := mul_nonneg (by have : (0 : ℝ) ≤ Fintype.card κ₀ := Nat.cast_nonneg _; have : (0 : ℝ) ≤ Fintype.card ι := Nat.cast_nonneg _; linarith) hε
    have hc : CloseSurfaces (S x) w S₀ w ((2 * Fintype.card ι + mx) * ε) :=
      ⟨s1.symm, s2.symm, s3.symm, s4.symm, fun j => (g0 j).trans (by linarith), fun j => (g1 j).trans (by linarith), fun j => (g2 j).trans (by linarith)⟩
    have key := C191_stable (S x) w S₀ w c1 c2 hS₀ hp₀ hη hc s5.symm s6.symm (by rw [s4]; exact hcos) (by rw [s5, s6]; exact habs) o o₀ (k x) k₀ (t x) t₀ c3 ht₀
    rw [s1, s5, s6, s7, max_self] at key
    exact hx key
  have u1 := measureReal_mono (μ := P) hsub
  have u2 := measureReal_union_le (μ := P) bad (b0 ∪ (b1 ∪ b2))
  have u3 := measureReal_union_le (μ := P) b0 (b1 ∪ b2)
  have u4 := measureReal_union_le (μ := P) b1 b2
  linarith

/-- **C192, enough rays.** If `N` rays make every entry wrong by `ε` or more with probability at most `2 exp(-2 N ε²)`, for every `ε` (this is what C138 says of ray-traced matrices), then for every tolerance and probability of
failure a number of rays, given by the formula below, is enough for all the results to be within the tolerance plus `I_thresh` of those with the exact matrices. -/
theorem C192_enough (N : ℕ) (h0 : ∀ ε, 0 ≤ ε → NoisyEntries P (fun x => (S x).front0 w) (S₀.front0 w) ε (2 * Real.exp (-2 * N * ε ^ 2)))
    (h1 : ∀ ε, 0 ≤ ε → NoisyEntries P (fun x => (S x).front1 w) (S₀.front1 w) ε (2 * Real.exp (-2 * N * ε ^ 2)))
    (h2 : ∀ ε, 0 ≤ ε → NoisyEntries P (fun x => (S x).rear0 w) (S₀.rear0 w) ε (2 * Real.exp (-2 * N * ε ^ 2)))
    (tol δ : ℝ) (htol : 0 < tol) (hδ : 0 < δ) (C E : ℝ) (hC : 0 < C) (hE : 0 < E)
    (hCe : (2 * Fintype.card ι + max (Fintype.card κ₀ : ℝ) (Fintype.card κ₁)) * (1 + 2 / (1 - Real.exp (-(2 * (S₀.α w * S₀.thick))))) * ∑ j, S₀.v0 w j ≤ C)
    (hEe : 2 * ((2 * Fintype.card ι + Fintype.card κ₀) * Fintype.card ι) + (2 * Fintype.card ι + Fintype.card κ₁) * Fintype.card ι ≤ E)
    (hN : Real.log (2 * E / δ) * C ^ 2 / (2 * tol ^ 2) ≤ N) :
    P.real {x | ¬ ResultsWithin (tol + S₀.thresh) (t x) w t₀ w} ≤ δ := by
  have hε : 0 ≤ tol / C := (div_pos htol hC).le
  have key := C192_noise P S S₀ w hS₀ hp₀ hsame hcos habs o o₀ k t hS k₀ t₀ ht₀ (tol / C) _ hε (h0 _ hε) (h1 _ hε) (h2 _ hε)
  have hb : (2 * Fintype.card ι + max (Fintype.card κ₀ : ℝ) (Fintype.card κ₁)) * (tol / C) * (1 + 2 / (1 - Real.exp (-(2 * (S₀.α w * S₀.thick))))) * ∑ j, S₀.v0 w j ≤ tol := by
    have := mul_le_mul_of_nonneg_left hCe hε
    rw [div_mul_cancel₀ tol hC.ne'] at this
    refine le_trans (le_of_eq ?_) this
    ring
  have hsub : {x | ¬ ResultsWithin (tol + S₀.thresh) (t x) w t₀ w} ⊆
      {x | ¬ ResultsWithin ((2 * Fintype.card ι + max (Fintype.card κ₀ : ℝ) (Fintype.card κ₁)) * (tol / C) * (1 + 2 / (1 - Real.exp (-(2 * (S₀.α w * S₀.thick))))) * ∑ j, S₀.v0 w j + S₀.thresh) (t x) w t₀ w} := by
    intro x hx hr
    obtain ⟨r1, r2, r3, r4, r5, r6, r7⟩ := hr
    have hb' := add_le_add hb (le_refl S₀.thresh)
    exact hx ⟨fun j => (r1 j).trans hb', fun j => (r2 j).trans hb', fun j => (r3 j).trans hb', fun j => (r4 j).trans hb', r5.trans hb', r6.trans hb', r7.trans hb'⟩
  refine (measureReal_mono hsub).trans (key.trans ?_)
  have hexp : 0 < Real.exp (-2 * N * (tol / C) ^ 2) := Real.exp_pos _
  refine (mul_le_mul_of_nonneg_right hEe (by linarith)).trans ?_
  have h3 : Real.exp (-2 * N * (tol / C) ^ 2) ≤ δ / (2 * E) := by
    rw [← Real.exp_log (show 0 < δ / (2 * E) by positivity), Real.exp_le_exp]
    have e1 : Real.log (δ / (2 * E)) = -Real.log (2 * E / δ) := by rw [← Real.log_inv, inv_div]
    rw [e1]
    have h4 : Real.log (2 * E / δ) ≤ N * (2 * (tol / C) ^ 2) := by
      rw [div_le_iff₀ (by positivity)] at hN
      rw [div_pow, show (N : ℝ) * (2 * (tol ^ 2 / C ^ 2)) = N * (2 * tol ^ 2) / C ^ 2 by ring, le_div_iff₀ (by positivity)]
      exact hN
    linarith
  have h5 := mul_le_mul_of_nonneg_left h3 (show 0 ≤ E * 2 by linarith)
  have e2 : E * 2 * (δ / (2 * E)) = δ := by field_simp
  linarith

end

end Rayflare
