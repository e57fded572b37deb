import Verif.Props.LayerShares

/-!
# Property C185, continued: rays that are absorbed in similar proportions
-/

namespace Rayflare

open Rayflare.Np Rayflare.Model Rayflare.Spec Rayflare.Lemmas Real

variable (n : ℕ) (hn : 0 < n) (c : ℝ) (hc : 0 < c) (m : ℕ) (hm : 0 < m) (sp : Spacing) (tmm front : Bool) (nL : ℕ)

include hn hc hm in
open Classical in
/-- **C185 (partial), similar shares.** If, for all the absorbed rays of a column, the share of the absorbed light that layer `l` takes is between `p` and `q`, the absorption of layer `l` in the column differs from the mean, over the rays launched in
that bin, of the part absorbed in layer `l` by at most `q - p` times the fraction of absorbed rays.  Here the absorption of all layers together may depend on the angle in any way. -/
theorem C185_shares_partial (rays : List RTRay) (hok : ∀ r ∈ rays, RayOk (2 * π / m) tmm nL r)
    (u : RTJunk) (M : RTMat) (hM : rtMatrix (rtArgs n (2 * π / m) c sp tmm front nL) u rays = some M) (j : ℕ)
    (hj : ∃ r ∈ rays, IncidentIn n c (2 * π / m) sp front j r ∧ IsAbsorbed r) (l : ℕ) (p q : ℝ)
    (hpq : ∀ r ∈ rays, IncidentIn n c (2 * π / m) sp front j r → IsAbsorbed r → p ≤ shareOf nL l r ∧ shareOf nL l r ≤ q) :
    let mean := ((rays.filter fun r => decide (IncidentIn n c (2 * π / m) sp front j r)).map (shareOf nL l)).sum /
      nOf rays (fun r => IncidentIn n c (2 * π / m) sp front j r)
    |M.A l j - mean| ≤ (q - p) * (nOf rays (fun r => IncidentIn n c (2 * π / m) sp front j r ∧ IsAbsorbed r) / nOf rays (fun r => IncidentIn n c (2 * π / m) sp front j r)) := by
  intro mean
  obtain ⟨hT, hA⟩ := C185_weighted_partial n hn c hc m hm sp tmm front nL rays hok u M hM j hj l
  obtain ⟨r0, hr0, hr0j, hr0a⟩ := hj
  set inc : RTRay → Prop := fun r => IncidentIn n c (2 * π / m) sp front j r with hinc
  have hN : 0 < nOf rays inc := by
    unfold nOf
    have : 0 < rays.countP fun r => decide (inc r) := List.countP_pos_iff.mpr ⟨r0, hr0, by simp [hinc, hr0j]⟩
    exact_mod_cast this
  have key : ∀ L : List RTRay, (∀ r ∈ L, RayOk (2 * π / m) tmm nL r) → (∀ r ∈ L, inc r → IsAbsorbed r → p ≤ shareOf nL l r ∧ shareOf nL l r ≤ q) →
      let F := L.filter fun r => decide (inc r)
      p * nOf L (fun r => inc r ∧ IsAbsorbed r) ≤ (F.map (shareOf nL l)).sum ∧ (F.map (shareOf nL l)).sum ≤ q * nOf L (fun r => inc r ∧ IsAbsorbed r) ∧
      p * (F.map (totalOf nL)).sum ≤ (F.map fun r => totalOf nL r * shareOf nL l r).sum ∧
      (F.map fun r => totalOf nL r * shareOf nL l r).sum ≤ q * (F.map (totalOf nL)).sum := by
    intro L
    induction L with
    | nil => intro _ _; simp [nOf]
    | cons r L ih =>
      intro hok' hpq'
      obtain ⟨i1, i2, i3, i4⟩ := ih (fun r' h => hok' r' (by simp [h])) (fun r' h => hpq' r' (by simp [h]))
      have hcons : ∀ P : RTRay → Prop, nOf (r :: L) P = nOf L P + if P r then 1 else 0 := by
        intro P
        unfold nOf
        rw [List.countP_cons]
        by_cases h : P r <;> simp [h]
      by_cases hi : inc r
      · have hF : (r :: L).filter (fun r => decide (inc r)) = r :: L.filter fun r => decide (inc r) := by simp [hi]
        simp only [hF, List.map_cons, List.sum_cons, hcons]
        by_cases hab1 : IsAbsorbed r
        · obtain ⟨h1, h2⟩ := hpq' r (by simp) hi hab1
          have ht : 0 ≤ totalOf nL r := by
            have ho := (hok' r (by simp)).out
            unfold totalOf
            rcases hr : r.out with ⟨θ, φ⟩ | ⟨A, θl⟩
            · exact le_rfl
            · rw [hr] at ho
              exact ho.2.2.2.le
          rw [if_pos ⟨hi, hab1⟩]
          refine ⟨by linarith, by linarith, ?_, ?_⟩
          · have := mul_le_mul_of_nonneg_left h1 ht; linarith
          · have := mul_le_mul_of_nonneg_left h2 ht; linarith
        · have h0 : totalOf nL r = 0 ∧ shareOf nL l r = 0 := by
            unfold IsAbsorbed at hab1
            unfold totalOf shareOf
            rcases ho : r.out with ⟨θ, φ⟩ | ⟨A, θl⟩
            · exact ⟨rfl, rfl⟩
            · rw [ho] at hab1; simp at hab1
          rw [if_neg (fun h => hab1 h.2), h0.1, h0.2]
          simp only [zero_add, mul_zero, add_zero]
          exact ⟨i1, i2, i3, i4⟩
      · have hF : (r :: L).filter (fun r => decide (inc r)) = L.filter fun r => decide (inc r) := by simp [hi]
        simp only [hF, hcons]
        rw [if_neg (fun h => hi h.1), add_zero]
        exact ⟨i1, i2, i3, i4⟩
  obtain ⟨k1, k2, k3, k4⟩ := key rays hok hpq
  set F := rays.filter fun r => decide (inc r) with hF
  set T := (F.map (totalOf nL)).sum
  set S := (F.map (shareOf nL l)).sum with hS
  set W := (F.map fun r => totalOf nL r * shareOf nL l r).sum
  set K := nOf rays (fun r => inc r ∧ IsAbsorbed r)
  set N := nOf rays inc
  have hmean : mean = S / N := rfl
  have hK : 0 ≤ K := by simp only [K]; unfold nOf; positivity
  have w1 : p ≤ W / T := (le_div_iff₀ hT).mpr k3
  have w2 : W / T ≤ q := (div_le_iff₀ hT).mpr k4
  have m1 := mul_le_mul_of_nonneg_left w1 hK
  have m2 := mul_le_mul_of_nonneg_left w2 hK
  rw [hmean, hA, show K / N * (W / T) - S / N = (K * (W / T) - S) / N by ring, show (q - p) * (K / N) = ((q - p) * K) / N by ring, abs_div, abs_of_pos hN]
  refine div_le_div_of_nonneg_right (abs_le.mpr ⟨by linarith, by linarith⟩) hN.le

include hn hc hm in
open Classical in
/-- **C185 (partial), one absorbing layer.** If only one layer of the coating absorbs (or, more generally, if layer `l` takes the same share of the light of all absorbed rays), the absorption of each layer is the mean, over the rays launched in that bin, of the
part of the ray absorbed in it, whatever the angles at which the rays met the coating. -/
theorem C185_same_share_partial (rays : List RTRay) (hok : ∀ r ∈ rays, RayOk (2 * π / m) tmm nL r)
    (u : RTJunk) (M : RTMat) (hM : rtMatrix (rtArgs n (2 * π / m) c sp tmm front nL) u rays = some M) (j : ℕ)
    (hj : ∃ r ∈ rays, IncidentIn n c (2 * π / m) sp front j r ∧ IsAbsorbed r) (l : ℕ) (q : ℝ)
    (hq : ∀ r ∈ rays, IncidentIn n c (2 * π / m) sp front j r → IsAbsorbed r → shareOf nL l r = q) :
    M.A l j = ((rays.filter fun r => decide (IncidentIn n c (2 * π / m) sp front j r)).map (shareOf nL l)).sum /
      nOf rays (fun r => IncidentIn n c (2 * π / m) sp front j r) := by
  have h := C185_shares_partial n hn c hc m hm sp tmm front nL rays hok u M hM j hj l q q (fun r hr h1 h2 => by rw [hq r hr h1 h2]; exact ⟨le_rfl, le_rfl⟩)
  simp only [sub_self, zero_mul] at h
  linarith [abs_nonpos_iff.mp h]

/-- A ray launched at 45°, absorbed with absorption `x` in layer `k` of two layers, at local angle 30°. -/
private noncomputable def r45 (k : ℕ) (x : ℝ) : RTRay := { θin := π / 4, φin := π / 4, out := .absorbed (fun l => if l = k then x else 0) (π / 6) }

private theorem r45_ok (k : ℕ) (hk : k < 2) (x : ℝ) (hx : 0 < x) : RayOk (2 * π / (4 : ℕ)) true 2 (r45 k x) where
  pos := by have := Real.pi_pos; show 0 < π / 4; positivity
  lt := by have := Real.pi_pos; show π / 4 < π / 2; linarith
  edge := by
    intro q hq
    have hpi := Real.pi_pos
    have h1 : π * (q * 2 - 1) = 0 := by unfold r45 at hq; push_cast at hq; linarith
    rcases mul_eq_zero.mp h1 with h | h
    · linarith
    · have h2 : (q * 2 - 1 : ℤ) = 0 := by exact_mod_cast h
      omega
  out := by
    have := Real.pi_pos
    refine ⟨rfl, by rw [abs_of_pos (by positivity)]; linarith, fun l => ?_, ?_⟩
    · show 0 ≤ if l = k then x else 0
      by_cases h : l = k
      · rw [if_pos h]; exact hx.le
      · rw [if_neg h]
    · obtain rfl | rfl : k = 0 ∨ k = 1 := by omega
      · simpa [List.range_succ] using hx
      · simpa [List.range_succ] using hx

/-- Two rays launched at 45° that are absorbed in the first of two layers, where the table has one tenth for the first and three tenths for the second: the hypotheses are met on every grid, and the matrix is right although the absorption differs. -/
example (n : ℕ) (hn : 0 < n) (c : ℝ) (hc : 0 < c) (sp : Spacing) (u : RTJunk) :
    ∃ j M, rtMatrix (rtArgs n (2 * π / (4 : ℕ)) c sp true true 2) u [r45 0 (1 / 10), r45 0 (3 / 10)] = some M ∧
      (∀ r ∈ [r45 0 (1 / 10), r45 0 (3 / 10)], RayOk (2 * π / (4 : ℕ)) true 2 r ∧ IncidentIn n c (2 * π / (4 : ℕ)) sp true j r ∧ IsAbsorbed r ∧ shareOf 2 0 r = 1) ∧ M.A 0 j = 1 := by
  classical
  have k1 := r45_ok 0 (by norm_num) (1 / 10) (by norm_num)
  have k2 := r45_ok 0 (by norm_num) (3 / 10) (by norm_num)
  obtain ⟨rec, -, hrec⟩ := record_spec hn hc 4 (by norm_num) (sp := sp) (front := true) k1
  have hok : ∀ r ∈ [r45 0 (1 / 10), r45 0 (3 / 10)], RayOk (2 * π / (4 : ℕ)) true 2 r := by
    intro r hr
    rcases List.mem_pair.mp hr with rfl | rfl <;> assumption
  obtain ⟨f, -, hM⟩ := rt_counts n hn c hc 4 (by norm_num) sp true true 2 [r45 0 (1 / 10), r45 0 (3 / 10)] hok
  have hinc : ∀ x, IncidentIn n c (2 * π / (4 : ℕ)) sp true rec.col (r45 0 x) := fun x => hrec.col
  have hsh : ∀ x : ℝ, x ≠ 0 → shareOf 2 0 (r45 0 x) = 1 := fun x hx => by simp [shareOf, r45, List.range_succ, hx]
  have hall : ∀ r ∈ [r45 0 (1 / 10), r45 0 (3 / 10)], RayOk (2 * π / (4 : ℕ)) true 2 r ∧ IncidentIn n c (2 * π / (4 : ℕ)) sp true rec.col r ∧ IsAbsorbed r ∧ shareOf 2 0 r = 1 := by
    intro r hr
    refine ⟨hok r hr, ?_⟩
    rcases List.mem_pair.mp hr with rfl | rfl
    · exact ⟨hinc _, by simp [IsAbsorbed, r45], hsh _ (by norm_num)⟩
    · exact ⟨hinc _, by simp [IsAbsorbed, r45], hsh _ (by norm_num)⟩
  refine ⟨rec.col, _, hM u, hall, ?_⟩
  rw [C185_same_share_partial n hn c hc 4 (by norm_num) sp true true 2 _ hok u _ (hM u) rec.col ⟨_, List.mem_cons_self, (hall _ List.mem_cons_self).2.1, (hall _ List.mem_cons_self).2.2.1⟩ 0 1 fun r hr _ _ => (hall r hr).2.2.2]
  have s1 := hsh (1 / 10) (by norm_num)
  have s2 := hsh (3 / 10) (by norm_num)
  unfold nOf
  rw [List.countP_cons_of_pos (by simpa using hinc _), List.countP_cons_of_pos (by simpa using hinc _), List.filter_cons_of_pos (by simpa using hinc _), List.filter_cons_of_pos (by simpa using hinc _)]
  simp only [List.filter_nil, List.map_cons, List.map_nil, List.sum_cons, List.sum_nil, List.countP_nil, s1, s2]
  norm_num

end Rayflare
