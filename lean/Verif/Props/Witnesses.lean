import Verif.Props.Launch
import Verif.Props.Summary
import Verif.Props.EndToEnd

/-!
# Further concrete cases that meet the hypotheses of theorems (C08, C11, C16, C17)
-/

namespace Rayflare

open Rayflare.Np Rayflare.Model Rayflare.Spec Rayflare.Lemmas Matrix

/-- `C08_summary_A_partial`: the ring around the normal of the default grid has one bin. -/
example (A : ℕ → ℕ → ℝ) (l : ℕ) : SummaryAIsMean 50 (Real.pi / 2) (1 / 4) .sin A l 0 :=
  C08_summary_A_partial 50 (by norm_num) _ _ (by norm_num) _ A l 0 (by norm_num) (by unfold ringSize; rw [Nat.ceil_eq_iff (by norm_num)]; norm_num)

/-- `C11_same_bin_partial`: light inside a bin (ring 6 has two bins, split at 45°). -/
example : SameIncidenceBin 50 (2 * Real.pi / (4 : ℕ)) (1 / 4) .linear 3 (6.5 * Real.pi / 100) (Real.pi / 8) := by
  have hpi := Real.pi_pos
  have hN : ringSize 50 (1 / 4) 6 = 2 := by
    unfold ringSize
    rw [Nat.ceil_eq_iff (by norm_num)]
    norm_num
  have hf : foldPhi (Real.pi / 8) (2 * Real.pi / (4 : ℕ)) = Real.pi / 8 :=
    ((C05_fold 4 (by norm_num) (Real.pi / 8)).2.2 (Real.pi / 8) (by positivity) (by push_cast; linarith) ⟨0, by push_cast; ring⟩).symm
  refine C11_same_bin_partial 50 (by norm_num) 4 (by norm_num) _ (by norm_num) _ _ _ _ (by positivity) 6 0 (by norm_num) (by rw [hN]; norm_num) ?_ ?_ ?_ ?_
  · simp only [polarEdge]; push_cast; linarith
  · simp only [polarEdge]; push_cast; linarith
  · rw [hf]; simp only [azimuthEdge, hN]; push_cast; linarith
  · rw [hf]; simp only [azimuthEdge, hN]; push_cast; linarith

/-- `C11_normal_incidence_partial`: normal incidence with fifty rings. -/
example : SameIncidenceBin 50 (2 * Real.pi / (4 : ℕ)) (1 / 4) .linear 3 0 0 := by
  have hpi := Real.pi_gt_three
  have hN : ringSize 50 (1 / 4) 0 = 1 := by
    unfold ringSize
    rw [Nat.ceil_eq_iff (by norm_num)]
    norm_num
  refine C11_normal_incidence_partial 50 (by norm_num) 4 (by norm_num) _ (by norm_num) _ _ ?_ ?_
  · simp only [polarEdge]; push_cast; linarith
  · simp only [azimuthEdge, hN]; push_cast; linarith

/-- A transparent layer with surfaces that reflect half of the light and transmit the rest. -/
noncomputable def lossyHalfSys : Sys (Fin 1) (Fin 1) (Fin 1) (Fin 1) where
  v0 := fun _ _ => 1
  up2down := fun _ _ => 1
  down2up := fun _ _ => 1
  α := fun _ => 0
  thick := 1
  θ := fun _ => 0
  front0 := fun _ => ⟨fun _ _ => 1 / 2, fun _ _ => 1 / 2, fun _ _ => 0⟩
  front1 := fun _ => ⟨fun _ _ => 1 / 2, fun _ _ => 1 / 2, fun _ _ => 0⟩
  rear0 := fun _ => ⟨fun _ _ => 1 / 2, fun _ _ => 1 / 2, fun _ _ => 0⟩
  thresh := 1 / 100

theorem lossyHalfSys_round (w : Fin 1) (v : Fin 1 → ℝ) :
    ∑ j, ((lossyHalfSys.rear0 w).R *ᵥ (lossyHalfSys.up2down *ᵥ (makeD (lossyHalfSys.α w) lossyHalfSys.thick lossyHalfSys.θ *ᵥ ((lossyHalfSys.front1 w).R *ᵥ
        (makeD (lossyHalfSys.α w) lossyHalfSys.thick lossyHalfSys.θ *ᵥ (lossyHalfSys.down2up *ᵥ v)))))) j ≤ 1 / 4 * ∑ j, v j := by
  simp only [lossyHalfSys, mulVec, dotProduct, Fin.sum_univ_one, makeD, Fin.isValue]
  simp
  linarith

theorem lossyHalfSys_conserving : EnergyConserving lossyHalfSys := by
  constructor <;> simp [lossyHalfSys, Relabels, Conserves, mulVec, dotProduct, Fin.sum_univ_one] <;> norm_num

theorem lossyHalfSys_nonneg : NonnegData lossyHalfSys := by
  constructor <;> simp [lossyHalfSys, Fractions]

/-- `C17_terminates`: the loop ends after at most four round trips although nothing is absorbed. -/
example (o : ProfOpts (Fin 1) (Fin 1)) : ∃ k ≤ 4, (∃ t, lossyHalfSys.Exits k t) ∧ ∃ t, lossyHalfSys.ExitsProf o k t :=
  C17_terminates lossyHalfSys lossyHalfSys_conserving lossyHalfSys_nonneg (1 / 4) (by norm_num) (fun w v _ => lossyHalfSys_round w v) 4 (by intro w; simp [lossyHalfSys]; norm_num) o

/-- `C17_terminates_exists`, `C16_total`: what is returned for it adds up to one up to the threshold of 0.01. -/
example : ∃ k t, lossyHalfSys.Exits k t ∧ 0.99 ≤ t.R 0 + t.T 0 + t.Abulk 0 + t.Aint0 0 + t.Aint1 0 := by
  obtain ⟨k, ⟨t, ht⟩, -⟩ := C17_terminates_exists lossyHalfSys lossyHalfSys_conserving lossyHalfSys_nonneg (1 / 4) (by norm_num) (by norm_num) (by norm_num [lossyHalfSys]) (fun w v _ => lossyHalfSys_round w v) ⟨false, [], fun _ _ _ => 0, fun _ _ => 0⟩
  refine ⟨k, t, ht, ?_⟩
  have h := (C16_total lossyHalfSys lossyHalfSys_conserving lossyHalfSys_nonneg ⟨false, [], fun _ _ _ => 0, fun _ _ => 0⟩ k t (Or.inl ht) 0).1
  refine le_trans ?_ h
  simp [lossyHalfSys]
  norm_num

end Rayflare
