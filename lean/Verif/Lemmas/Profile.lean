import Verif.Lemmas.MatMul
import Mathlib.Tactic.FieldSimp

/-! # Helper lemmas about `bulk_profile_calc` -/

namespace Rayflare.Lemmas

set_option linter.unusedSectionVars false

open Rayflare.Np Rayflare.Model Rayflare.Spec Matrix

variable {ω ι κ₀ κ₁ : Type*} [Fintype ι] [DecidableEq ι] [Fintype κ₀] [Fintype κ₁]

theorem denom_pos {α d c : ℝ} (hα : 0 < α) (hd : 0 < d) (hc : c ≠ 0) :
    0 < 1 - Real.exp (-α * d / |c|) := by
  have : Real.exp (-α * d / |c|) < 1 := by
    rw [Real.exp_lt_one_iff]
    apply div_neg_of_neg_of_pos _ (abs_pos.mpr hc)
    nlinarith [mul_pos hα hd]
  linarith

/-- The summand of the profile does not depend on uninitialised memory. -/
theorem profTerm_eq {α d θ v1 v2 : ℝ} (hα : 0 ≤ α) (hd : 0 < d) (hc : Real.cos θ ≠ 0) (junk : ℝ) :
    α * profNorm v1 v2 α θ d junk = α * ((v1 - v2) / (1 - Real.exp (-α * d / |Real.cos θ|))) := by
  rcases hα.eq_or_lt with rfl | hα
  · simp
  · have := denom_pos hα hd hc
    simp only [profNorm, divideWhere]
    rw [if_pos]
    simpa using this.ne'

theorem profRaw_eq {α d : ℝ} {θ v1 v2 : ι → ℝ} (hα : 0 ≤ α) (hd : 0 < d) (hc : ∀ j, Real.cos (θ j) ≠ 0)
    (junk : ι → ℝ) (z : ℝ) : profRaw v1 v2 α θ d junk z
      = ∑ j, α * ((v1 j - v2 j) / (1 - Real.exp (-α * d / |Real.cos (θ j)|))) / |Real.cos (θ j)|
        * Real.exp (-α * z / |Real.cos (θ j)|) := by
  unfold profRaw
  refine Finset.sum_congr rfl fun j _ => ?_
  rw [profTerm_eq hα hd (hc j)]

theorem profTerm_nonneg {α d c x z : ℝ} (hα : 0 ≤ α) (hd : 0 < d) (hc : c ≠ 0) (hx : 0 ≤ x) :
    0 ≤ α * (x / (1 - Real.exp (-α * d / |c|))) / |c| * Real.exp (-α * z / |c|) := by
  rcases hα.eq_or_lt with rfl | hα
  · simp
  · have := denom_pos hα hd hc
    positivity

theorem profRaw_nonneg {α d : ℝ} {θ v1 v2 : ι → ℝ} (hα : 0 ≤ α) (hd : 0 < d) (hc : ∀ j, Real.cos (θ j) ≠ 0)
    (hv : ∀ j, v2 j ≤ v1 j) (junk : ι → ℝ) (z : ℝ) : 0 ≤ profRaw v1 v2 α θ d junk z := by
  rw [profRaw_eq hα hd hc]
  exact Finset.sum_nonneg fun j _ => profTerm_nonneg hα hd (hc j) (by linarith [hv j])

/-- If the profile vanishes somewhere and the absorption is positive nothing is absorbed. -/
theorem profRaw_eq_zero {α d : ℝ} {θ v1 v2 : ι → ℝ} (hα : 0 < α) (hd : 0 < d) (hc : ∀ j, Real.cos (θ j) ≠ 0)
    (hv : ∀ j, v2 j ≤ v1 j) (junk : ι → ℝ) {z : ℝ} (h : profRaw v1 v2 α θ d junk z = 0) (j : ι) : v1 j = v2 j := by
  rw [profRaw_eq hα.le hd hc, Finset.sum_eq_zero_iff_of_nonneg
    (fun j _ => profTerm_nonneg hα.le hd (hc j) (by linarith [hv j]))] at h
  have h := h j (Finset.mem_univ j)
  have hD := denom_pos hα hd (hc j)
  have hc' : 0 < |Real.cos (θ j)| := abs_pos.mpr (hc j)
  have hE := Real.exp_pos (-α * z / |Real.cos (θ j)|)
  have h1 := (mul_eq_zero.mp h).resolve_right hE.ne'
  have h2 := (div_eq_zero_iff.mp h1).resolve_right hc'.ne'
  have h3 := (mul_eq_zero.mp h2).resolve_left hα.ne'
  have h4 := (div_eq_zero_iff.mp h3).resolve_right hD.ne'
  linarith

theorem bulkProfileCalc_length {α d : ℝ} {θ v1 v2 : ι → ℝ} {depths : List ℝ} {A : ℝ} {junk : ι → ℝ} {junk' : ℝ} :
    (bulkProfileCalc v1 v2 α θ d depths A junk junk').length = depths.length := by
  simp [bulkProfileCalc]

/-- Closed form of the profile for two or more samples, without uninitialised memory. -/
theorem bulkProfileCalc_cases {α d : ℝ} {θ v1 v2 : ι → ℝ} (hα : 0 ≤ α) (hd : 0 < d)
    (hc : ∀ j, Real.cos (θ j) ≠ 0) (hv : ∀ j, v2 j ≤ v1 j) {depths : List ℝ}
    (hinc : depths.Pairwise (· < ·)) (hlen : 2 ≤ depths.length) (A : ℝ) (junk : ι → ℝ) (junk' : ℝ) :
    let raw := depths.map (profRaw v1 v2 α θ d (fun _ => 0))
    (trapz raw depths ≠ 0 ∧ bulkProfileCalc v1 v2 α θ d depths A junk junk'
        = raw.map (fun x => A / trapz raw depths * x)) ∨
    (trapz raw depths = 0 ∧ bulkProfileCalc v1 v2 α θ d depths A junk junk' = depths.map (fun _ => 0) ∧
      (α = 0 ∨ ∀ j, v1 j = v2 j)) := by
  intro raw
  have hraw : depths.map (profRaw v1 v2 α θ d junk) = raw := by
    refine List.map_congr_left fun z _ => ?_
    rw [profRaw_eq hα hd hc, profRaw_eq hα hd hc]
  by_cases h : trapz raw depths = 0
  · right
    have hz := trapz_eq_zero raw depths
      (by simp only [raw, List.mem_map, forall_exists_index, and_imp, forall_apply_eq_imp_iff₂]
          exact fun z _ => profRaw_nonneg hα hd hc hv _ z)
      hinc (by simp [raw]) (by simpa [raw] using hlen) h
    refine ⟨h, ?_, ?_⟩
    · simp only [bulkProfileCalc, hraw]
      apply List.ext_getElem
      · simp [raw]
      · intro i h1 h2
        simp only [List.getElem_map]
        rw [hz _ (List.getElem_mem _)]; simp
    · rcases hα.eq_or_lt with h0 | hα'
      · exact Or.inl h0.symm
      · right
        have : (depths[0]'(by omega)) ∈ depths := List.getElem_mem _
        exact profRaw_eq_zero hα' hd hc hv _ (hz _ (List.mem_map_of_mem this))
  · left
    refine ⟨h, ?_⟩
    simp only [bulkProfileCalc, hraw, divideWhere]
    rw [if_pos (by simpa using h)]

/-- The trapezoidal integral of the returned profile is the absorbed power. -/
theorem trapz_bulkProfileCalc {α d : ℝ} {θ v : ι → ℝ} (hα : 0 ≤ α) (hd : 0 < d)
    (hc : ∀ j, Real.cos (θ j) ≠ 0) (hv : ∀ j, 0 ≤ v j) {depths : List ℝ}
    (hinc : depths.Pairwise (· < ·)) (hlen : 2 ≤ depths.length) (junk : ι → ℝ) (junk' : ℝ) {A : ℝ}
    (hA : A = ∑ j, v j - ∑ j, (makeD α d θ *ᵥ v) j) :
    trapz (bulkProfileCalc v (makeD α d θ *ᵥ v) α θ d depths A junk junk') depths = A := by
  have hle : ∀ j, (makeD α d θ *ᵥ v) j ≤ v j := by
    intro j; rw [makeD_mulVec]; exact mul_le_of_le_one_left (hv j) (att_le_one hα hd.le _)
  rcases bulkProfileCalc_cases hα hd hc hle hinc hlen A junk junk' with ⟨h, e⟩ | ⟨h, e, h'⟩
  · rw [e, trapz_smul, div_mul_cancel₀ _ h]
  · rw [e]
    have h0 : A = 0 := by
      rw [hA, sub_eq_zero]
      refine Finset.sum_congr rfl fun j _ => ?_
      rcases h' with rfl | h'
      · rw [makeD_mulVec]; simp
      · exact h' j
    rw [h0, List.map_const']
    exact trapz_replicate_zero _ _

end Rayflare.Lemmas
