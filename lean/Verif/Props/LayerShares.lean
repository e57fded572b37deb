import Verif.Props.RTMatrix
import Verif.Spec.LayerShares

/-!
# Property C185: light absorbed in a ray-traced surface is filed in the layers that absorb it
-/

namespace Rayflare

open Rayflare.Np Rayflare.Model Rayflare.Spec Rayflare.Lemmas Real

theorem absOf_eq_share {s : ℝ} {tmm : Bool} {nL : ℕ} {r : RTRay} (h : RayOk s tmm nL r) (l : ℕ) : absOf l r = totalOf nL r * shareOf nL l r := by
  have ho := h.out
  unfold absOf totalOf shareOf
  rcases hr : r.out with ⟨θ, φ⟩ | ⟨A, θl⟩
  · simp
  · rw [hr] at ho
    simp only
    rw [mul_div_cancel₀ _ ho.2.2.2.ne']

theorem shareOf_nonneg {s : ℝ} {tmm : Bool} {nL : ℕ} {r : RTRay} (h : RayOk s tmm nL r) (l : ℕ) : 0 ≤ shareOf nL l r := by
  have ho := h.out
  unfold shareOf
  rcases hr : r.out with ⟨θ, φ⟩ | ⟨A, θl⟩
  · simp
  · rw [hr] at ho
    exact div_nonneg (ho.2.2.1 l) ho.2.2.2.le

theorem totalOf_eq (nL : ℕ) (r : RTRay) : ((List.range nL).map fun l => absOf l r).sum = totalOf nL r := by
  unfold absOf totalOf
  rcases r.out with ⟨θ, φ⟩ | ⟨A, θl⟩ <;> simp

section
variable (n : ℕ) (hn : 0 < n) (c : ℝ) (hc : 0 < c) (m : ℕ) (hm : 0 < m) (sp : Spacing) (tmm front : Bool) (nL : ℕ)

include hn hc hm in
open Classical in
/-- **C185, what is computed.** In the column of an incidence bin with at least one absorbed ray, the absorbed fraction of the column (the number of absorbed rays over the number of rays) is divided among the
layers in the proportion of the sums, over the absorbed rays, of the tabulated absorption per layer. So each absorbed ray counts with a weight: the absorption of all layers together at its angle. -/
theorem C185_weighted_partial (rays : List RTRay) (hok : ∀ r ∈ rays, RayOk (2 * π / m) tmm nL r)
    (u : RTJunk) (M : RTMat) (hM : rtMatrix (rtArgs n (2 * π / m) c sp tmm front nL) u rays = some M) (j : ℕ)
    (hj : ∃ r ∈ rays, IncidentIn n c (2 * π / m) sp front j r ∧ IsAbsorbed r) (l : ℕ) :
    let col := rays.filter fun r => decide (IncidentIn n c (2 * π / m) sp front j r)
    0 < (col.map (totalOf nL)).sum ∧
    M.A l j = nOf rays (fun r => IncidentIn n c (2 * π / m) sp front j r ∧ IsAbsorbed r) / nOf rays (fun r => IncidentIn n c (2 * π / m) sp front j r) *
      ((col.map fun r => totalOf nL r * shareOf nL l r).sum / (col.map (totalOf nL)).sum) := by
  intro col
  obtain ⟨f, hf, hM2⟩ := rt_counts n hn c hc m hm sp tmm front nL rays hok
  replace hM2 := hM2 u
  obtain ⟨e1, e2, e3, -, -, -⟩ := rt_acc n hn c hc m hm sp tmm front nL rays hok f hf
  set acc := (rays.map f).foldl RTAcc.add RTAcc.zero with hacc
  have hMe : M = acc.normalise (rtArgs n (2 * π / m) c sp tmm front nL) u := by rw [hM] at hM2; exact Option.some.inj hM2
  obtain ⟨r, hr, hrj, hra⟩ := hj
  have hN : 0 < acc.nRays j := by
    rw [e1 j]
    unfold nOf
    have : 0 < rays.countP fun r => decide (IncidentIn n c (2 * π / m) sp front j r) := List.countP_pos_iff.mpr ⟨r, hr, by simp [hrj]⟩
    exact_mod_cast this
  have hAb : 0 < nOf rays (fun r => IncidentIn n c (2 * π / m) sp front j r ∧ IsAbsorbed r) := by
    rw [nOf_eq]
    have : 0 < rays.countP fun r => decide (IncidentIn n c (2 * π / m) sp front j r ∧ IsAbsorbed r) := List.countP_pos_iff.mpr ⟨r, hr, by simp [hrj, hra]⟩
    exact_mod_cast this
  have hp := (sum_abs_pos n hn c hc m hm tmm nL rays hok (fun r => IncidentIn n c (2 * π / m) sp front j r)).1 hAb
  have hsum : ((List.range nL).map fun l => acc.A l j) = (List.range nL).map fun l =>
      ((rays.filter fun r => decide (IncidentIn n c (2 * π / m) sp front j r)).map (absOf l)).sum := by
    apply List.map_congr_left; intro l _; exact e3 l j
  have htot : ((List.range nL).map fun l => acc.A l j).sum = (col.map (totalOf nL)).sum := by
    rw [hsum, sum_abs]
    congr 1
    apply List.map_congr_left
    intro r _
    exact totalOf_eq nL r
  rw [← hsum, htot] at hp
  refine ⟨hp, ?_⟩
  have hAl : acc.A l j = (col.map fun r => totalOf nL r * shareOf nL l r).sum := by
    rw [e3 l j]
    congr 1
    apply List.map_congr_left
    intro r hr
    exact absOf_eq_share (hok r (List.mem_of_mem_filter hr)) l
  rw [hMe, ← e1 j, ← e2 j, ← hAl, ← htot]
  rw [← htot] at hp
  have h1 : ∀ x y, divideWhere (decide (acc.nRays j ≠ 0)) x y (acc.nRays j) = y / acc.nRays j := by
    intro x y; simp [divideWhere, hN.ne']
  show divideWhere (decide (((List.range nL).map fun l => acc.A l j).sum ≠ 0)) _ (divideWhere _ _ _ _) ((List.range nL).map fun l => acc.A l j).sum * _ = _
  rw [h1]
  simp only [divideWhere, ne_eq, hp.ne', not_false_eq_true, decide_true, if_true]
  field_simp

include hn hc hm in
open Classical in
/-- **C185 (partial).** The absorption of layer `l` in a column should be the mean, over the rays launched in that bin, of the part of the ray absorbed in layer `l`. If the absorption of all layers together is between `a` and `b` for all
the absorbed rays of the column, the entry of the matrix differs from that mean by a factor between `a / b` and `b / a`. -/
theorem C185_within_partial (rays : List RTRay) (hok : ∀ r ∈ rays, RayOk (2 * π / m) tmm nL r)
    (u : RTJunk) (M : RTMat) (hM : rtMatrix (rtArgs n (2 * π / m) c sp tmm front nL) u rays = some M) (j : ℕ)
    (hj : ∃ r ∈ rays, IncidentIn n c (2 * π / m) sp front j r ∧ IsAbsorbed r) (l : ℕ) (a b : ℝ) (ha : 0 < a)
    (hab : ∀ r ∈ rays, IncidentIn n c (2 * π / m) sp front j r → IsAbsorbed r → a ≤ totalOf nL r ∧ totalOf nL r ≤ b) :
    let mean := ((rays.filter fun r => decide (IncidentIn n c (2 * π / m) sp front j r)).map (shareOf nL l)).sum /
      nOf rays (fun r => IncidentIn n c (2 * π / m) sp front j r)
    a / b * mean ≤ M.A l j ∧ M.A l j ≤ b / a * mean := by
  intro mean
  obtain ⟨hT, hA⟩ := C185_weighted_partial n hn c hc m hm sp tmm front nL rays hok u M hM j hj l
  obtain ⟨r0, hr0, hr0j, hr0a⟩ := hj
  have hb : 0 < b := by obtain ⟨h1, h2⟩ := hab r0 hr0 hr0j hr0a; linarith
  set inc : RTRay → Prop := fun r => IncidentIn n c (2 * π / m) sp front j r with hinc
  have hN : 0 < nOf rays inc := by
    unfold nOf
    have : 0 < rays.countP fun r => decide (inc r) := List.countP_pos_iff.mpr ⟨r0, hr0, by simp [hinc, hr0j]⟩
    exact_mod_cast this
  -- sums over a list of acceptable rays
  have key : ∀ L : List RTRay, (∀ r ∈ L, RayOk (2 * π / m) tmm nL r) → (∀ r ∈ L, inc r → IsAbsorbed r → a ≤ totalOf nL r ∧ totalOf nL r ≤ b) →
      let F := L.filter fun r => decide (inc r)
      a * nOf L (fun r => inc r ∧ IsAbsorbed r) ≤ (F.map (totalOf nL)).sum ∧ (F.map (totalOf nL)).sum ≤ b * nOf L (fun r => inc r ∧ IsAbsorbed r) ∧
      a * (F.map (shareOf nL l)).sum ≤ (F.map fun r => totalOf nL r * shareOf nL l r).sum ∧
      (F.map fun r => totalOf nL r * shareOf nL l r).sum ≤ b * (F.map (shareOf nL l)).sum ∧ 0 ≤ (F.map (shareOf nL l)).sum := by
    intro L
    induction L with
    | nil => intro _ _; simp [nOf]
    | cons r L ih =>
      intro hok' hab'
      obtain ⟨i1, i2, i3, i4, i5⟩ := ih (fun r' h => hok' r' (by simp [h])) (fun r' h => hab' r' (by simp [h]))
      have hs := shareOf_nonneg (hok' r (by simp)) l
      have hcons : ∀ P : RTRay → Prop, nOf (r :: L) P = nOf L P + if P r then 1 else 0 := by
        intro P
        unfold nOf
        rw [List.countP_cons]
        by_cases h : P r <;> simp [h]
      by_cases hi : inc r
      · have hF : (r :: L).filter (fun r => decide (inc r)) = r :: L.filter fun r => decide (inc r) := by simp [hi]
        simp only [hF, List.map_cons, List.sum_cons, hcons]
        by_cases hab1 : IsAbsorbed r
        · obtain ⟨h1, h2⟩ := hab' r (by simp) hi hab1
          rw [if_pos ⟨hi, hab1⟩]
          refine ⟨by linarith, by linarith, ?_, ?_, by linarith⟩
          · have := mul_le_mul_of_nonneg_right h1 hs; linarith
          · have := mul_le_mul_of_nonneg_right h2 hs; linarith
        · have h0 : totalOf nL r = 0 ∧ shareOf nL l r = 0 := by
            unfold IsAbsorbed at hab1
            unfold totalOf shareOf
            rcases ho : r.out with ⟨θ, φ⟩ | ⟨A, θl⟩
            · exact ⟨rfl, rfl⟩
            · rw [ho] at hab1; simp at hab1
          rw [if_neg (fun h => hab1 h.2), h0.1, h0.2]
          simp only [zero_add, mul_zero, add_zero]
          exact ⟨i1, i2, i3, i4, i5⟩
      · have hF : (r :: L).filter (fun r => decide (inc r)) = L.filter fun r => decide (inc r) := by simp [hi]
        simp only [hF, hcons]
        rw [if_neg (fun h => hi h.1), add_zero]
        exact ⟨i1, i2, i3, i4, i5⟩
  obtain ⟨k1, k2, k3, k4, k5⟩ := key rays hok hab
  set F := rays.filter fun r => decide (inc r) with hF
  set T := (F.map (totalOf nL)).sum
  set S := (F.map (shareOf nL l)).sum with hS
  set W := (F.map fun r => totalOf nL r * shareOf nL l r).sum
  set K := nOf rays (fun r => inc r ∧ IsAbsorbed r)
  set N := nOf rays inc
  have hmean : mean = S / N := rfl
  have hK : 0 < K := by
    by_contra h
    have : K ≤ 0 := not_lt.mp h
    nlinarith
  have hA' : M.A l j = K * W / (N * T) := by rw [hA]; field_simp
  rw [hmean, hA']
  constructor
  · rw [div_mul_div_comm, div_le_div_iff₀ (by positivity) (by positivity)]
    have e1 : a * S * T ≤ W * (b * K) := mul_le_mul k3 k2 hT.le (le_trans (by positivity) k3)
    nlinarith
  · rw [div_mul_div_comm, div_le_div_iff₀ (by positivity) (by positivity)]
    have e1 : W * (a * K) ≤ b * S * T := mul_le_mul k4 k1 (by positivity) (by positivity)
    nlinarith

include hn hc hm in
open Classical in
/-- **C185 (partial), equal absorption.** If the absorption of all layers together is the same for all absorbed rays of the column (for instance if they all met the layers at the same angle and from the same side), the absorption of layer `l` in the
column is the mean, over the rays launched in that bin, of the part of the ray absorbed in layer `l`. -/
theorem C185_equal_partial (rays : List RTRay) (hok : ∀ r ∈ rays, RayOk (2 * π / m) tmm nL r)
    (u : RTJunk) (M : RTMat) (hM : rtMatrix (rtArgs n (2 * π / m) c sp tmm front nL) u rays = some M) (j : ℕ)
    (hj : ∃ r ∈ rays, IncidentIn n c (2 * π / m) sp front j r ∧ IsAbsorbed r) (l : ℕ) (a : ℝ)
    (hab : ∀ r ∈ rays, IncidentIn n c (2 * π / m) sp front j r → IsAbsorbed r → totalOf nL r = a) :
    M.A l j = ((rays.filter fun r => decide (IncidentIn n c (2 * π / m) sp front j r)).map (shareOf nL l)).sum /
      nOf rays (fun r => IncidentIn n c (2 * π / m) sp front j r) := by
  have ha : 0 < a := by
    obtain ⟨r, hr, hrj, hra⟩ := hj
    have ht := hab r hr hrj hra
    have ho := (hok r hr).out
    unfold IsAbsorbed at hra
    unfold totalOf at ht
    rcases h : r.out with ⟨θ, φ⟩ | ⟨A, θl⟩
    · rw [h] at hra; simp at hra
    · rw [h] at ho ht
      simp only at ht
      rw [← ht]; exact ho.2.2.2
  obtain ⟨h1, h2⟩ := C185_within_partial n hn c hc m hm sp tmm front nL rays hok u M hM j hj l a a ha
    (fun r hr h1 h2 => by rw [hab r hr h1 h2]; exact ⟨le_refl _, le_refl _⟩)
  rw [div_self ha.ne', one_mul] at h1 h2
  exact le_antisymm h2 h1

include hn hc hm in
open Classical in
/-- **C185 fails** if the absorbed rays met the layers at different angles. Two rays of the same incidence bin are absorbed, one of them wholly in the first layer, where the table has an absorption of one tenth, the other one wholly in the second layer, where the table has three tenths. Half of
the light is absorbed in each of the layers, but the matrix gives a quarter and three quarters. -/
theorem C185_fails (r1 r2 : RTRay) (θ1 θ2 : ℝ) (ho1 : r1.out = .absorbed (fun l => if l = 0 then 1 / 10 else 0) θ1)
    (ho2 : r2.out = .absorbed (fun l => if l = 1 then 3 / 10 else 0) θ2) (hok1 : RayOk (2 * π / m) tmm 2 r1) (hok2 : RayOk (2 * π / m) tmm 2 r2) (j : ℕ)
    (h1 : IncidentIn n c (2 * π / m) sp front j r1) (h2 : IncidentIn n c (2 * π / m) sp front j r2)
    (u : RTJunk) (M : RTMat) (hM : rtMatrix (rtArgs n (2 * π / m) c sp tmm front 2) u [r1, r2] = some M) :
    (shareOf 2 0 r1 = 1 ∧ shareOf 2 1 r1 = 0 ∧ shareOf 2 0 r2 = 0 ∧ shareOf 2 1 r2 = 1) ∧ M.A 0 j = 1 / 4 ∧ M.A 1 j = 3 / 4 := by
  have t1 : totalOf 2 r1 = 1 / 10 := by simp [totalOf, ho1, List.range_succ]
  have t2 : totalOf 2 r2 = 3 / 10 := by simp [totalOf, ho2, List.range_succ]
  have s10 : shareOf 2 0 r1 = 1 := by simp [shareOf, ho1, List.range_succ]
  have s11 : shareOf 2 1 r1 = 0 := by simp [shareOf, ho1]
  have s20 : shareOf 2 0 r2 = 0 := by simp [shareOf, ho2]
  have s21 : shareOf 2 1 r2 = 1 := by simp [shareOf, ho2, List.range_succ]
  have a1 : IsAbsorbed r1 := by simp [IsAbsorbed, ho1]
  have a2 : IsAbsorbed r2 := by simp [IsAbsorbed, ho2]
  have hok : ∀ r ∈ [r1, r2], RayOk (2 * π / m) tmm 2 r := by
    intro r hr
    rcases List.mem_pair.mp hr with rfl | rfl <;> assumption
  have hj : ∃ r ∈ [r1, r2], IncidentIn n c (2 * π / m) sp front j r ∧ IsAbsorbed r := ⟨r1, by simp, h1, a1⟩
  have hn1 : nOf [r1, r2] (fun r => IncidentIn n c (2 * π / m) sp front j r ∧ IsAbsorbed r) = 2 := by
    unfold nOf; simp [h1, h2, a1, a2]
  have hn2 : nOf [r1, r2] (fun r => IncidentIn n c (2 * π / m) sp front j r) = 2 := by
    unfold nOf; simp [h1, h2]
  have hF : [r1, r2].filter (fun r => decide (IncidentIn n c (2 * π / m) sp front j r)) = [r1, r2] := by simp [h1, h2]
  refine ⟨⟨s10, s11, s20, s21⟩, ?_, ?_⟩
  · rw [(C185_weighted_partial n hn c hc m hm sp tmm front 2 [r1, r2] hok u M hM j hj 0).2, hn1, hn2, hF]
    simp only [List.map_cons, List.map_nil, List.sum_cons, List.sum_nil, t1, t2, s10, s20]
    norm_num
  · rw [(C185_weighted_partial n hn c hc m hm sp tmm front 2 [r1, r2] hok u M hM j hj 1).2, hn1, hn2, hF]
    simp only [List.map_cons, List.map_nil, List.sum_cons, List.sum_nil, t1, t2, s11, s21]
    norm_num

end

/-- A ray launched at 45°, absorbed with absorption `x` in layer `k` of two layers, at local angle 30°. -/
private noncomputable def r45 (k : ℕ) (x : ℝ) : RTRay := { θin := π / 4, φin := π / 4, out := .absorbed (fun l => if l = k then x else 0) (π / 6) }

private theorem r45_ok (k : ℕ) (hk : k < 2) (x : ℝ) (hx : 0 < x) : RayOk (2 * π / (4 : ℕ)) true 2 (r45 k x) where
  pos := by have := Real.pi_pos; show 0 < π / 4; positivity
  lt := by have := Real.pi_pos; show π / 4 < π / 2; linarith
  edge := by
    intro q hq
    have hpi := Real.pi_pos
    have h1 : π * (q * 2 - 1) = 0 := by unfold r45 at hq; push_cast at hq; linarith
    rcases mul_eq_zero.mp h1 with h | h
    · linarith
    · have h2 : (q * 2 - 1 : ℤ) = 0 := by exact_mod_cast h
      omega
  out := by
    have := Real.pi_pos
    refine ⟨rfl, by rw [abs_of_pos (by positivity)]; linarith, fun l => ?_, ?_⟩
    · show 0 ≤ if l = k then x else 0
      by_cases h : l = k
      · rw [if_pos h]; exact hx.le
      · rw [if_neg h]
    · obtain rfl | rfl : k = 0 ∨ k = 1 := by omega
      · simpa [List.range_succ] using hx
      · simpa [List.range_succ] using hx

/-- The hypotheses of `C185_fails` are met, on every grid, by two rays launched at 45° (and so are those of the theorems before it, with `a = 1 / 10` and `b = 3 / 10`). -/
example (n : ℕ) (hn : 0 < n) (c : ℝ) (hc : 0 < c) (sp : Spacing) (u : RTJunk) :
    ∃ j M, rtMatrix (rtArgs n (2 * π / (4 : ℕ)) c sp true true 2) u [r45 0 (1 / 10), r45 1 (3 / 10)] = some M ∧ M.A 0 j = 1 / 4 ∧ M.A 1 j = 3 / 4 := by
  have k1 := r45_ok 0 (by norm_num) (1 / 10) (by norm_num)
  have k2 := r45_ok 1 (by norm_num) (3 / 10) (by norm_num)
  obtain ⟨rec, -, hrec⟩ := record_spec hn hc 4 (by norm_num) (sp := sp) (front := true) k1
  obtain ⟨f, -, hM⟩ := rt_counts n hn c hc 4 (by norm_num) sp true true 2 [r45 0 (1 / 10), r45 1 (3 / 10)] (by
    intro r hr
    rcases List.mem_pair.mp hr with rfl | rfl <;> assumption)
  obtain ⟨-, h⟩ := C185_fails n hn c hc 4 (by norm_num) sp true true _ _ (π / 6) (π / 6) rfl rfl k1 k2 rec.col hrec.col hrec.col u _ (hM u)
  exact ⟨rec.col, _, hM u, h⟩

end Rayflare
