import Verif.Lemmas.Binning
import Verif.Spec.RTMatrix
import Verif.Props.Angles

namespace Rayflare.Lemmas

open Rayflare.Np Rayflare.Model Rayflare.Spec Real

/-- The arguments of `RT_wl` for the grid of `make_angle_vector`. -/
noncomputable def rtArgs (n : ℕ) (s c : ℝ) (sp : Spacing) (tmm front : Bool) (nL : ℕ) : RTArgs :=
  { g := makeAngleVector n s c sp, phiSym := s, tmm := tmm, front := front, nLayers := nL }

section
variable {n : ℕ} (hn : 0 < n) {s c : ℝ} (hs : 0 < s) (hc : 0 < c) {sp : Spacing} {tmm front : Bool} {nL : ℕ}

theorem rt_tbin_le (x : ℝ) (hx : x ≤ π) : (rtArgs n s c sp tmm front nL).tbin x = thetaBin (makeAngleVector n s c sp) x := by
  unfold RTArgs.tbin thetaBin RTArgs.thetaIntv rtArgs
  cases tmm
  · simp
  · simp only [if_true]
    congr 2
    unfold digitizeRight
    rw [List.countP_append]
    have : ¬ (11 : ℝ) < x := by have := Real.pi_lt_four; linarith
    simp [this]

theorem rt_intv_length : (makeAngleVector n s c sp).thetaIntv.length = 2 * n + 1 := by
  show (Model.thetaIntv n sp).length = _
  cases sp <;> simp [Model.thetaIntv, linspace] <;> omega

include hn in
theorem rt_tbin_ten : (rtArgs n s c sp true front nL).tbin 10 = 2 * n := by
  unfold RTArgs.tbin RTArgs.thetaIntv rtArgs
  simp only [if_true]
  show (digitizeRight (10 : ℝ) (Model.thetaIntv n sp ++ [11]) : ℤ) - 1 = _
  rw [thetaIntv_eq n hn sp]
  unfold digitizeRight
  rw [List.countP_append]
  have h1 : ((List.range (2 * n + 1)).map (polarEdge n sp)).countP (fun b => decide (b < (10 : ℝ))) = 2 * n + 1 := by
    have : (((List.range (2 * n + 1)).map (polarEdge n sp)).countP (fun b => decide (b < (10 : ℝ)))) =
        ((List.range (2 * n + 1)).map (polarEdge n sp)).length := by
      rw [List.countP_eq_length]
      intro b hb
      obtain ⟨i, hi, rfl⟩ := List.mem_map.mp hb
      have hi' : i ≤ 2 * n := by have := List.mem_range.mp hi; omega
      have h4 := Real.pi_lt_four
      have : polarEdge n sp i ≤ π := by
        rcases Nat.lt_or_ge i (2 * n) with h | h
        · have := polarEdge_strictMono n hn sp i (2 * n) h (le_refl _)
          rw [polarEdge_last n hn sp] at this
          exact this.le
        · rw [show i = 2 * n by omega, polarEdge_last n hn sp]
      simp; linarith
    rw [this]; simp
  rw [h1]
  have : ¬ (11 : ℝ) < 10 := by norm_num
  simp [this]

theorem pyGet_append_left {α : Type*} (l : List α) (x : α) {i : ℕ} (hi : i < l.length) : pyGet (l ++ [x]) (i : ℤ) = pyGet l (i : ℤ) := by
  rw [pyGet_ofNat, pyGet_ofNat, List.getElem?_append_left hi]

include hn in
theorem rt_phiIntv_length : (makeAngleVector n s c sp).phiIntv.length = 2 * n := by
  rw [phiIntv_eq n hn]; simp

include hn in
theorem rt_overall {i : ℕ} (hi : i < 2 * n) (φ : ℝ) :
    overallBin (rtArgs n s c sp tmm front nL).phiIntv (rtArgs n s c sp tmm front nL).g.col0 (i : ℤ) φ =
    overallBin (makeAngleVector n s c sp).phiIntv (makeAngleVector n s c sp).col0 (i : ℤ) φ := by
  unfold overallBin RTArgs.phiIntv rtArgs
  cases tmm
  · simp
  · simp only [if_true]
    rw [pyGet_append_left _ _ (by rw [rt_phiIntv_length hn]; exact hi)]

include hn hs hc in
/-- The bin computed for a direction in general position. -/
theorem rt_bin_eq {i k : ℕ} {θ φ : ℝ} (hi : i < 2 * n) (hk : k < ringSize n c i) (h : InBin n c s sp i k θ φ) :
    (rtArgs n s c sp tmm front nL).bin θ φ = some ((ringStart n c i + k : ℕ) : ℤ) := by
  have hθ : θ ≤ π := by
    refine h.2.1.trans ?_
    rcases Nat.lt_or_ge (i + 1) (2 * n) with h1 | h1
    · have := polarEdge_strictMono n hn sp (i + 1) (2 * n) h1 (le_refl _)
      rw [polarEdge_last n hn sp] at this
      exact this.le
    · rw [show i + 1 = 2 * n by omega, polarEdge_last n hn sp]
  unfold RTArgs.bin
  rw [rt_tbin_le _ hθ, thetaBin_eq n hn s c sp hi h.1 h.2.1, rt_overall hn hi]
  exact overallBin_eq n hn s c hs hc sp hi hk h.2.2.1 h.2.2.2

include hn hs hc in
/-- The bin computed for any direction is a valid Python index. -/
theorem rt_bin_range {θ φ : ℝ} (h0 : 0 ≤ θ) (h1 : θ ≤ π) (p0 : 0 ≤ φ) (p1 : φ < s) :
    ∃ b, (rtArgs n s c sp tmm front nL).bin θ φ = some b ∧ -1 ≤ b ∧ b < ringStart n c (2 * n) := by
  have hlen : ∀ i, i < 2 * n → ringStart n c i + ringSize n c i ≤ ringStart n c (2 * n) := by
    intro i hi
    rw [← ringStart_succ]
    exact ringStart_mono n c (by omega)
  have hpos : 0 < ringStart n c (2 * n) := by
    have := hlen 0 (by omega)
    have := ringSize_pos n c hc (show 0 < 2 * n by omega)
    omega
  rcases h0.eq_or_lt with h | h
  · -- straight up
    subst h
    unfold RTArgs.bin
    have ht : (rtArgs n s c sp tmm front nL).tbin 0 = -1 := by
      rw [rt_tbin_le _ h1]
      unfold thetaBin
      show (digitizeRight (0 : ℝ) (Model.thetaIntv n sp) : ℤ) - 1 = -1
      rw [thetaIntv_eq n hn sp, digitizeRight_range_zero (polarEdge_strictMono n hn sp) (by rw [polarEdge_zero])]
      simp
    rw [ht]
    unfold overallBin
    have hr : ringRow (rtArgs n s c sp tmm front nL).g.col0 (-1) = 0 := ringRow_neg_one n hn s c hc sp
    rw [hr]
    cases tmm
    · have hp : pyGet (rtArgs n s c sp false front nL).phiIntv (-1) = some ((List.range (ringSize n c (2 * n - 1) + 1)).map (azimuthEdge n c s (2 * n - 1))) := by
        show pyGet (makeAngleVector n s c sp).phiIntv (-1) = _
        rw [phiIntv_eq n hn]
        unfold pyGet
        rw [if_neg (by norm_num), if_pos (by simp; omega)]
        have : (((List.map (fun i => List.map (azimuthEdge n c s i) (List.range (ringSize n c i + 1))) (List.range (2 * n))).length : ℤ) + -1).toNat = 2 * n - 1 := by
          simp; omega
        rw [this]
        simp [show 2 * n - 1 < 2 * n by omega]
      rw [hp]
      refine ⟨_, rfl, ?_, ?_⟩
      · push_cast; omega
      · have hle : digitizeRight φ ((List.range (ringSize n c (2 * n - 1) + 1)).map (azimuthEdge n c s (2 * n - 1))) ≤ ringSize n c (2 * n - 1) + 1 := by
          unfold digitizeRight
          refine (List.countP_le_length).trans ?_
          simp
        have := hlen (2 * n - 1) (by omega)
        have hpos' := ringSize_pos n c hc (show 2 * n - 1 < 2 * n by omega)
        rcases Nat.lt_or_ge (digitizeRight φ ((List.range (ringSize n c (2 * n - 1) + 1)).map (azimuthEdge n c s (2 * n - 1)))) (ringSize n c (2 * n - 1) + 1) with hlt | hge
        · push_cast; omega
        · exfalso
          have : digitizeRight φ ((List.range (ringSize n c (2 * n - 1) + 1)).map (azimuthEdge n c s (2 * n - 1))) =
              ((List.range (ringSize n c (2 * n - 1) + 1)).map (azimuthEdge n c s (2 * n - 1))).length := by
            simp; omega
          unfold digitizeRight at this
          rw [List.countP_eq_length] at this
          have h2 := this (azimuthEdge n c s (2 * n - 1) (ringSize n c (2 * n - 1))) (List.mem_map.mpr ⟨_, by simp, rfl⟩)
          rw [azimuthEdge_last n c s _ hpos'] at h2
          simp at h2
          linarith
    · have hp : pyGet (rtArgs n s c sp true front nL).phiIntv (-1) = some [0] := by
        show pyGet ((makeAngleVector n s c sp).phiIntv ++ [[0]]) (-1) = _
        unfold pyGet
        rw [if_neg (by norm_num), if_pos (by simp)]
        have : (((List.length ((makeAngleVector n s c sp).phiIntv ++ [[(0 : ℝ)]])) : ℤ) + -1).toNat = (makeAngleVector n s c sp).phiIntv.length := by
          simp
        rw [this]; simp
      rw [hp]
      refine ⟨_, rfl, ?_, ?_⟩
      · push_cast; omega
      · have hle : digitizeRight φ [(0 : ℝ)] ≤ 1 := by
          unfold digitizeRight
          exact (List.countP_le_length).trans (by simp)
        push_cast; omega
  · obtain ⟨i, hi, a1, a2⟩ := exists_interval (f := polarEdge n sp) (m := 2 * n) (x := θ) (by rw [polarEdge_zero]; exact h)
      (by rw [polarEdge_last n hn sp]; exact h1)
    have hpos' := ringSize_pos n c hc hi
    rcases p0.eq_or_lt with hp | hp
    · subst hp
      refine ⟨(ringStart n c i : ℤ) - 1, ?_, by omega, ?_⟩
      · unfold RTArgs.bin
        rw [rt_tbin_le _ h1, thetaBin_eq n hn s c sp hi a1 a2, rt_overall hn hi]
        exact overallBin_zero n hn s c hs hc sp hi
      · have := hlen i hi; omega
    · obtain ⟨k, hk, b1, b2⟩ := exists_interval (f := azimuthEdge n c s i) (m := ringSize n c i) (x := φ) (by rw [azimuthEdge_zero]; exact hp)
        (by rw [azimuthEdge_last n c s i hpos']; exact p1.le)
      refine ⟨_, rt_bin_eq hn hs hc hi hk ⟨a1, a2, b1, b2⟩, by omega, ?_⟩
      have := hlen i hi; omega

theorem pyIndex_of_range {len : ℕ} {b : ℤ} (h0 : 0 < len) (h1 : -1 ≤ b) (h2 : b < len) :
    ∃ k, pyIndex len b = some k ∧ k < len ∧ (0 ≤ b → (k : ℤ) = b) := by
  unfold pyIndex
  by_cases h : 0 ≤ b
  · exact ⟨b.toNat, by rw [if_pos ⟨h, h2⟩], by omega, fun _ => by omega⟩
  · refine ⟨((len : ℤ) + b).toNat, ?_, by omega, fun h' => absurd h' h⟩
    rw [if_neg (by omega), if_pos (by omega)]

end

/-! ## The counting loop -/

section count
open Classical

theorem foldl_add (recs : List RTRec) (s : RTAcc) :
    (∀ j, (recs.foldl RTAcc.add s).nRays j = s.nRays j + (recs.countP fun r => decide (r.col = j))) ∧
    (∀ j, (recs.foldl RTAcc.add s).nAbs j = s.nAbs j + (recs.countP fun r => decide (r.col = j ∧ r.row = none))) ∧
    (∀ i j, (recs.foldl RTAcc.add s).out i j = s.out i j + (recs.countP fun r => decide (r.col = j ∧ r.row = some i))) ∧
    (∀ l j, (recs.foldl RTAcc.add s).A l j = s.A l j + ((recs.filter fun r => decide (r.col = j ∧ r.row = none)).map fun r => r.A l).sum) ∧
    (∀ l j, (recs.foldl RTAcc.add s).loc l j = s.loc l j + (recs.countP fun r => decide (r.col = j ∧ r.row = none ∧ r.loc = l))) := by
  induction recs generalizing s with
  | nil => simp
  | cons r rs ih =>
    obtain ⟨h1, h2, h3, h4, h5⟩ := ih (s.add r)
    simp only [List.foldl_cons]
    refine ⟨?_, ?_, ?_, ?_, ?_⟩
    · intro j
      rw [h1]
      rcases hr : r.row with _ | row <;> rcases eq_or_ne r.col j with rfl | hj
      · simp [RTAcc.add, hr, List.countP_cons]; ring
      · simp [RTAcc.add, hr, List.countP_cons, hj, hj.symm]
      · simp [RTAcc.add, hr, List.countP_cons]; ring
      · simp [RTAcc.add, hr, List.countP_cons, hj, hj.symm]
    · intro j
      rw [h2]
      rcases hr : r.row with _ | row <;> rcases eq_or_ne r.col j with rfl | hj
      · simp [RTAcc.add, hr, List.countP_cons]; ring
      · simp [RTAcc.add, hr, List.countP_cons, hj, hj.symm]
      · simp [RTAcc.add, hr, List.countP_cons]
      · simp [RTAcc.add, hr, List.countP_cons, hj]
    · intro i j
      rw [h3]
      rcases hr : r.row with _ | row
      · rcases eq_or_ne r.col j with rfl | hj
        · simp [RTAcc.add, hr, List.countP_cons]
        · simp [RTAcc.add, hr, List.countP_cons, hj]
      · rcases eq_or_ne r.col j with rfl | hj <;> rcases eq_or_ne row i with rfl | hi
        · simp [RTAcc.add, hr, List.countP_cons]; ring
        · simp [RTAcc.add, hr, List.countP_cons, hi, hi.symm]
        · simp [RTAcc.add, hr, List.countP_cons, hj, hj.symm]
        · simp [RTAcc.add, hr, List.countP_cons, hj, hj.symm]
    · intro l j
      rw [h4]
      rcases hr : r.row with _ | row <;> rcases eq_or_ne r.col j with rfl | hj
      · simp [RTAcc.add, hr, List.filter_cons]; ring
      · simp [RTAcc.add, hr, List.filter_cons, hj, hj.symm]
      · simp [RTAcc.add, hr, List.filter_cons]
      · simp [RTAcc.add, hr, List.filter_cons, hj]
    · intro l j
      rw [h5]
      rcases hr : r.row with _ | row
      · rcases eq_or_ne r.col j with rfl | hj <;> rcases eq_or_ne r.loc l with rfl | hl
        · simp [RTAcc.add, hr, List.countP_cons]; ring
        · simp [RTAcc.add, hr, List.countP_cons, hl, hl.symm]
        · simp [RTAcc.add, hr, List.countP_cons, hj, hj.symm]
        · simp [RTAcc.add, hr, List.countP_cons, hj, hj.symm]
      · rcases eq_or_ne r.col j with rfl | hj
        · simp [RTAcc.add, hr, List.countP_cons]
        · simp [RTAcc.add, hr, List.countP_cons, hj]

/-- Rays of a column are absorbed or counted in exactly one row. -/
theorem count_rows (recs : List RTRec) (len j : ℕ) (h : ∀ r ∈ recs, ∀ i, r.row = some i → i < len) :
    (recs.countP fun r => decide (r.col = j)) = (recs.countP fun r => decide (r.col = j ∧ r.row = none)) +
      ∑ i ∈ Finset.range len, recs.countP fun r => decide (r.col = j ∧ r.row = some i) := by
  induction recs with
  | nil => simp
  | cons r rs ih =>
    have ih' := ih (fun r' hr' => h r' (by simp [hr']))
    simp only [List.countP_cons]
    rw [Finset.sum_add_distrib, ih']
    rcases hr : r.row with _ | row
    · by_cases hj : r.col = j
      · simp [hj]; ring
      · simp [hj]
    · have hrow : row < len := h r (by simp) row hr
      by_cases hj : r.col = j
      · have : ∑ i ∈ Finset.range len, (if decide (r.col = j ∧ some row = some i) = true then 1 else 0) = 1 := by
          rw [Finset.sum_eq_single row]
          · simp [hj]
          · intro b _ hb; simp [hb.symm]
          · intro hh; exact absurd (Finset.mem_range.mpr hrow) hh
        rw [this]
        simp [hj]; ring
      · simp [hj]

theorem mapM_some {α β : Type*} (f : α → Option β) (g : α → β) (l : List α) (h : ∀ x ∈ l, f x = some (g x)) : l.mapM f = some (l.map g) := by
  induction l with
  | nil => rfl
  | cons a l ih =>
    rw [List.mapM_cons, h a (by simp), ih (fun x hx => h x (by simp [hx]))]
    rfl

end count

end Rayflare.Lemmas
