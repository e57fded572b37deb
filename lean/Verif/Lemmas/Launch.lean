import Verif.Lemmas.Binning
import Verif.Model.Launch

namespace Rayflare.Lemmas

open Real Rayflare.Np Rayflare.Model Rayflare.Spec

theorem half_eq (n : ℕ) (hn : 0 < n) (s c : ℝ) (sp : Spacing) :
    (makeAngleVector n s c sp).half = ringStart n c n := by
  unfold Grid.half
  rw [angleVector_length n hn, ringStart_half]; omega

theorem half_two (n : ℕ) (hn : 0 < n) (s c : ℝ) (sp : Spacing) :
    (makeAngleVector n s c sp).angleVector.length = 2 * (makeAngleVector n s c sp).half := by
  rw [half_eq n hn, angleVector_length n hn, ringStart_half]

theorem thBinL (n : ℕ) (hn : 0 < n) (s c : ℝ) (sp : Spacing) {i : ℕ} {theta : ℝ} (hi : i < 2 * n)
    (h1 : polarEdge n sp i ≤ theta) (h2 : theta < polarEdge n sp (i + 1)) :
    (digitize theta (makeAngleVector n s c sp).thetaIntv : ℤ) - 1 = i := by
  have : (makeAngleVector n s c sp).thetaIntv = thetaIntv n sp := rfl
  rw [this, thetaIntv_eq n hn, digitize_range (polarEdge_strictMono n hn sp) hi h1 h2]
  push_cast; ring

theorem bin_lt_half (n : ℕ) (c : ℝ) {i k : ℕ} (hi : i < n) (hk : k < ringSize n c i) :
    ringStart n c i + k < ringStart n c n := by
  have := ringStart_mono n c (show i + 1 ≤ n from hi)
  rw [ringStart_succ] at this; omega

theorem bin_ge_half (n : ℕ) (c : ℝ) {i k : ℕ} (hi : n ≤ i) :
    ringStart n c n ≤ ringStart n c i + k := by
  have := ringStart_mono n c hi
  omega

theorem bin_lt_len (n : ℕ) (c : ℝ) {i k : ℕ} (hi : i < 2 * n) (hk : k < ringSize n c i) :
    ringStart n c i + k < ringStart n c (2 * n) := by
  have := ringStart_mono n c (show i + 1 ≤ 2 * n from hi)
  rw [ringStart_succ] at this; omega

theorem pyIndex_ofNat {len i : ℕ} (h : i < len) : pyIndex len (i : ℤ) = some i := by
  unfold pyIndex
  rw [if_pos ⟨by positivity, by exact_mod_cast h⟩]; simp

theorem row_decomp (n : ℕ) (hn : 0 < n) (s c : ℝ) (sp : Spacing) {r : ℕ} {row : Row}
    (h : (makeAngleVector n s c sp).angleVector[r]? = some row) :
    ∃ i k, i < 2 * n ∧ k < ringSize n c i ∧ r = ringStart n c i + k ∧
      row = { ring := i, theta := polarMid n sp i, phi := azimuthMid n c s i k } := by
  have hr : r < ringStart n c (2 * n) := by
    rw [← angleVector_length n hn s c sp]; exact (List.getElem?_eq_some_iff.mp h).1
  obtain ⟨i, k, hi, hk, e⟩ := exists_block (ringSize n c) (2 * n) r hr
  rw [← ringStart_eq'] at e
  refine ⟨i, k, hi, hk, e, ?_⟩
  rw [e, angleVector_get n hn s c sp hi hk] at h
  simp only [Option.some.injEq] at h
  exact h.symm

theorem sum_one_hot (m i : ℕ) (hi : i < m) :
    ((List.range m).map (fun r => if r = i then (1 : ℝ) else 0)).sum = 1 := by
  rw [sum_map_range]; simp [hi]

end Rayflare.Lemmas
