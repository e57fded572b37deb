import Verif.Lemmas.Launch
import Verif.Spec.Matrix
import Verif.Props.Angles
import Mathlib.Analysis.Real.Pi.Irrational

namespace Rayflare.Lemmas

open Real Rayflare.Np Rayflare.Model Rayflare.Spec

theorem preservesPower_of_unitColumns {h : ℕ} {M : ℕ → ℕ → ℝ}
    (hM : ∀ j < h, ∃ r, UnitColumn h M j r) : PreservesPower h M := by
  intro v
  rw [Finset.sum_comm]
  apply Finset.sum_congr rfl
  intro j hj
  obtain ⟨r, hr, hcol⟩ := hM j (Finset.mem_range.mp hj)
  rw [← Finset.sum_mul]
  have : ∑ i ∈ Finset.range h, M i j = 1 := by
    rw [Finset.sum_congr rfl (fun i hi => hcol i (Finset.mem_range.mp hi))]
    simp [hr]
  rw [this, one_mul]

theorem preservesNonneg_of_unitColumns {h : ℕ} {M : ℕ → ℕ → ℝ}
    (hM : ∀ j < h, ∃ r, UnitColumn h M j r) : PreservesNonneg h M := by
  intro v hv r hr
  apply Finset.sum_nonneg
  intro j hj
  obtain ⟨r0, _, hcol⟩ := hM j (Finset.mem_range.mp hj)
  rw [hcol r hr]
  split
  · simpa using hv j (Finset.mem_range.mp hj)
  · simp

theorem azimuthMid_range (n : ℕ) (c s : ℝ) (hs : 0 < s) {i k : ℕ} (hk : k < ringSize n c i) :
    0 < azimuthMid n c s i k ∧ azimuthMid n c s i k < s := by
  have hN : 0 < ringSize n c i := by omega
  have hmono := azimuthEdge_strictMono n c s hs i
  have h1 : 0 ≤ azimuthEdge n c s i k := by
    rcases Nat.eq_zero_or_pos k with h | h
    · subst h; rw [azimuthEdge_zero]
    · have := hmono 0 k h hk.le; rw [azimuthEdge_zero] at this; exact this.le
  have h2 := hmono k (k + 1) (by omega) (by omega)
  have h3 : azimuthEdge n c s i (k + 1) ≤ s := by
    rcases Nat.lt_or_ge (k + 1) (ringSize n c i) with h | h
    · have := hmono (k + 1) _ h le_rfl; rw [azimuthEdge_last n c s i hN] at this; exact this.le
    · rw [show k + 1 = ringSize n c i by omega, azimuthEdge_last n c s i hN]
  unfold azimuthMid
  constructor <;> linarith

theorem azimuthMid_eq (n : ℕ) (c s : ℝ) {i k : ℕ} (hk : k < ringSize n c i) :
    azimuthMid n c s i k = (2 * k + 1) * s / (2 * ringSize n c i) := by
  have : (0 : ℝ) < ringSize n c i := by
    have : 0 < ringSize n c i := by omega
    exact_mod_cast this
  unfold azimuthMid azimuthEdge
  push_cast; field_simp; ring

/-- the polar bin of the mirrored ring midpoint -/
theorem thetaBin_mirror (n : ℕ) (hn : 0 < n) (s c : ℝ) (sp : Spacing) {i : ℕ} (hi : i < 2 * n) :
    thetaBin (makeAngleVector n s c sp) (π - polarMid n sp i) = ((2 * n - 1 - i : ℕ) : ℤ) := by
  rw [← polarMid_symm n hn sp hi]
  have := polarEdge_strictMono n hn sp (2 * n - 1 - i) (2 * n - 1 - i + 1) (by omega) (by omega)
  apply thetaBin_eq n hn s c sp (by omega)
  · unfold polarMid; linarith
  · unfold polarMid; linarith

theorem thetaBin_mid (n : ℕ) (hn : 0 < n) (s c : ℝ) (sp : Spacing) {i : ℕ} (hi : i < 2 * n) :
    thetaBin (makeAngleVector n s c sp) (polarMid n sp i) = (i : ℤ) := by
  have := polarEdge_strictMono n hn sp i (i + 1) (by omega) (by omega)
  apply thetaBin_eq n hn s c sp (by omega)
  · unfold polarMid; linarith
  · unfold polarMid; linarith

theorem outBin_eq (n : ℕ) (hn : 0 < n) (s c : ℝ) (hs : 0 < s) (hc : 0 < c) (sp : Spacing)
    {i k k' : ℕ} (hi : i < 2 * n) (hk' : k' < ringSize n c i)
    (h1 : azimuthEdge n c s (2 * n - 1 - i) k' < foldPhi (azimuthMid n c s i k + π) (outToInSym s))
    (h2 : foldPhi (azimuthMid n c s i k + π) (outToInSym s)
      ≤ azimuthEdge n c s (2 * n - 1 - i) (k' + 1)) :
    outBin (makeAngleVector n s c sp) s
        { ring := i, theta := polarMid n sp i, phi := azimuthMid n c s i k }
      = some (ringStart n c (2 * n - 1 - i) + k') := by
  have hsym := ringSize_symm n c hi
  unfold outBin binOf
  simp only
  rw [thetaBin_mirror n hn s c sp hi,
    overallBin_eq n hn s c hs hc sp (show 2 * n - 1 - i < 2 * n by omega) (by omega) h1 h2]
  rw [Option.bind_some, angleVector_length n hn, pyIndex_ofNat]
  exact bin_lt_len n c (by omega) (by omega)

theorem outBin_exists (n : ℕ) (hn : 0 < n) (s c : ℝ) (hs : 0 < s) (hc : 0 < c) (sp : Spacing)
    {i k : ℕ} (hi : i < 2 * n)
    (h1 : 0 < foldPhi (azimuthMid n c s i k + π) (outToInSym s))
    (h2 : foldPhi (azimuthMid n c s i k + π) (outToInSym s) ≤ s) :
    ∃ k' < ringSize n c (2 * n - 1 - i), outBin (makeAngleVector n s c sp) s
        { ring := i, theta := polarMid n sp i, phi := azimuthMid n c s i k }
      = some (ringStart n c (2 * n - 1 - i) + k') := by
  have hN := ringSize_pos n c hc (show 2 * n - 1 - i < 2 * n by omega)
  obtain ⟨k', hk', a, b⟩ := exists_interval (f := azimuthEdge n c s (2 * n - 1 - i))
    (m := ringSize n c (2 * n - 1 - i))
    (by rw [azimuthEdge_zero]; exact h1) (by rw [azimuthEdge_last n c s _ hN]; exact h2)
  refine ⟨k', hk', outBin_eq n hn s c hs hc sp hi ?_ a b⟩
  rw [ringSize_symm n c hi] at hk'; exact hk'

theorem fold_add_pi_even (q : ℕ) (hq : 0 < q) (phi : ℝ) (h0 : 0 ≤ phi)
    (h1 : phi < 2 * π / ((2 * q : ℕ) : ℝ)) :
    foldPhi (phi + π) (2 * π / ((2 * q : ℕ) : ℝ)) = phi := by
  refine ((C05_fold (2 * q) (by omega) (phi + π)).2.2 phi h0 h1 ⟨-q, ?_⟩).symm
  have : (q : ℝ) ≠ 0 := by positivity
  push_cast; field_simp; ring

theorem outToInSym_even (q : ℕ) (hq : 0 < q) :
    outToInSym (2 * π / ((2 * q : ℕ) : ℝ)) = 2 * π / ((2 * q : ℕ) : ℝ) := by
  unfold outToInSym
  rw [if_neg]
  intro h
  have hq' : (1 : ℝ) ≤ q := by exact_mod_cast hq
  have hpi := pi_pos
  push_cast at h
  rw [div_eq_iff (by positivity)] at h
  nlinarith

/-- For `phi_sym = 2π` the shifted azimuth never folds to exactly 0: that would make π rational. -/
theorem fold_two_pi_pos (n : ℕ) (c : ℝ) {i k : ℕ} (hk : k < ringSize n c i) :
    0 < foldPhi (azimuthMid n c (2 * π) i k + π) (2 * π - 0.0001) := by
  have hpi := pi_pos
  have hpi3 := Real.pi_gt_three
  have hr := azimuthMid_range n c (2 * π) (by positivity) hk
  have heq := azimuthMid_eq n c (2 * π) hk
  set p := azimuthMid n c (2 * π) i k with hp
  have hN : (0 : ℝ) < ringSize n c i := by
    have : 0 < ringSize n c i := by omega
    exact_mod_cast this
  have hs : (0 : ℝ) < 2 * π - 0.0001 := by norm_num; linarith
  have hnn := (pyMod_range (|pyFloorDiv (p + π) π| * 2 * π + (p + π)) (2 * π - 0.0001) hs).1
  refine lt_of_le_of_ne hnn ?_
  intro hzero
  rcases lt_or_ge p π with hlt | hge
  · -- quotient 1
    have hq : ⌊(p + π) / π⌋ = 1 := by
      rw [Int.floor_eq_iff]
      constructor
      · rw [le_div_iff₀ hpi]; push_cast; linarith
      · rw [div_lt_iff₀ hpi]; push_cast; linarith
    unfold foldPhi pyFloorDiv at hzero
    rw [hq] at hzero
    unfold pyMod at hzero
    have hz : p + 3 * π = (2 * π - 0.0001) * ⌊(|((1 : ℤ) : ℝ)| * 2 * π + (p + π)) / (2 * π - 0.0001)⌋ := by
      have : |((1 : ℤ) : ℝ)| * 2 * π + (p + π) = p + 3 * π := by simp; ring
      rw [this] at hzero ⊢
      linarith
    generalize hzdef : ⌊(|((1 : ℤ) : ℝ)| * 2 * π + (p + π)) / (2 * π - 0.0001)⌋ = z at hz
    -- p * N rational multiple of pi
    have hpN : p * ringSize n c i = (2 * k + 1) * π := by
      rw [heq]; field_simp
    have hirr := irrational_pi
    -- π * (2k+1 + 3N - 2 z N) = -0.0001 * z * N
    have hcombo : π * (((2 * k + 1 + 3 * ringSize n c i : ℕ) : ℤ) - 2 * z * ringSize n c i : ℤ)
        = -(0.0001 * (z * ringSize n c i : ℤ)) := by
      push_cast
      have h3 : (p + 3 * π) * (ringSize n c i : ℝ) = (2 * π - 0.0001) * z * (ringSize n c i : ℝ) := by
        rw [hz]
      linear_combination h3 - hpN
    have hzpos : 0 < z := by
      by_contra hcon
      have : (z : ℝ) ≤ 0 := by exact_mod_cast not_lt.mp hcon
      nlinarith
    have hne : (((2 * k + 1 + 3 * ringSize n c i : ℕ) : ℤ) - 2 * z * ringSize n c i : ℤ) ≠ 0 := by
      intro h0
      rw [h0] at hcombo
      have : (0 : ℝ) < 0.0001 * ((z * ringSize n c i : ℤ) : ℝ) := by
        have h1 : (0 : ℝ) < (z : ℝ) := by exact_mod_cast hzpos
        push_cast
        positivity
      rw [Int.cast_zero, mul_zero] at hcombo
      linarith
    apply hirr
    refine ⟨(-(0.0001 * ((z * ringSize n c i : ℤ) : ℚ)))
      / ((((2 * k + 1 + 3 * ringSize n c i : ℕ) : ℤ) - 2 * z * ringSize n c i : ℤ) : ℚ), ?_⟩
    have hne' : ((((2 * k + 1 + 3 * ringSize n c i : ℕ) : ℤ) - 2 * z * ringSize n c i : ℤ) : ℝ) ≠ 0 := by
      exact_mod_cast hne
    push_cast at hcombo hne' ⊢
    rw [div_eq_iff hne']
    rw [hcombo]
  · have hq : ⌊(p + π) / π⌋ = 2 := by
      rw [Int.floor_eq_iff]
      constructor
      · rw [le_div_iff₀ hpi]; push_cast; linarith
      · rw [div_lt_iff₀ hpi]; push_cast; linarith
    unfold foldPhi pyFloorDiv at hzero
    rw [hq] at hzero
    unfold pyMod at hzero
    have h5 : |((2 : ℤ) : ℝ)| * 2 * π + (p + π) = p + 5 * π := by
      rw [abs_of_pos (by norm_num)]; push_cast; ring
    rw [h5] at hzero
    have hz : ⌊(p + 5 * π) / (2 * π - 0.0001)⌋ = 3 := by
      rw [Int.floor_eq_iff]
      constructor
      · rw [le_div_iff₀ hs]; push_cast; norm_num; linarith
      · rw [div_lt_iff₀ hs]; push_cast; norm_num; linarith
    rw [hz] at hzero
    push_cast at hzero
    norm_num at hzero
    linarith

end Rayflare.Lemmas
