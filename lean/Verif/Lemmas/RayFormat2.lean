import Verif.Lemmas.RayFormat

namespace Rayflare.Lemmas

open Real Rayflare.Np Rayflare.Model Rayflare.Spec

/-- Column `j` of `up_to_down` when the code's bin for that row is `h + r`. -/
theorem upToDown_unit (n : ℕ) (hn : 0 < n) (s c : ℝ) (sp : Spacing) {i k b : ℕ} (hi : i < n)
    (hk : k < ringSize n c i)
    (hb : outBin (makeAngleVector n s c sp) s
        { ring := i, theta := polarMid n sp i, phi := azimuthMid n c s i k } = some b)
    (hlo : ringStart n c n ≤ b) (hhi : b < ringStart n c (2 * n)) :
    UnitColumn (ringStart n c n) (upToDown (makeAngleVector n s c sp) s) (ringStart n c i + k)
      (b - ringStart n c n) := by
  have h2 := ringStart_half n c
  refine ⟨by omega, ?_⟩
  intro r' _
  unfold upToDown outToIn
  rw [half_eq n hn, angleVector_get n hn s c sp (by omega) hk, Option.bind_some, hb]
  by_cases h : r' = b - ringStart n c n
  · rw [if_pos h, if_pos]; simp only [Option.some.injEq]; omega
  · rw [if_neg h, if_neg]; simp only [Option.some.injEq]; omega

/-- Column `j` of `down_to_up`. -/
theorem downToUp_unit (n : ℕ) (hn : 0 < n) (s c : ℝ) (sp : Spacing) {i k b : ℕ} (hi : n ≤ i)
    (hi2 : i < 2 * n) (hk : k < ringSize n c i)
    (hb : outBin (makeAngleVector n s c sp) s
        { ring := i, theta := polarMid n sp i, phi := azimuthMid n c s i k } = some b)
    (hhi : b < ringStart n c n) :
    UnitColumn (ringStart n c n) (downToUp (makeAngleVector n s c sp) s)
      (ringStart n c i + k - ringStart n c n) b := by
  have h2 := ringStart_mono n c hi
  refine ⟨hhi, ?_⟩
  intro r' _
  unfold downToUp outToIn
  rw [half_eq n hn, show ringStart n c n + (ringStart n c i + k - ringStart n c n)
    = ringStart n c i + k by omega, angleVector_get n hn s c sp hi2 hk, Option.bind_some, hb]
  by_cases h : r' = b
  · rw [if_pos h, if_pos]; rw [h]
  · rw [if_neg h, if_neg]; simp only [Option.some.injEq]; omega

/-- Decompose a column index of the upper half. -/
theorem upper_decomp (n : ℕ) (c : ℝ) {j : ℕ} (hj : j < ringStart n c n) :
    ∃ i k, i < n ∧ k < ringSize n c i ∧ j = ringStart n c i + k :=
  exists_block (ringSize n c) n j hj

/-- Decompose a column index of the lower half. -/
theorem lower_decomp (n : ℕ) (c : ℝ) {j : ℕ} (hj : j < ringStart n c n) :
    ∃ i k, n ≤ i ∧ i < 2 * n ∧ k < ringSize n c i ∧ ringStart n c n + j = ringStart n c i + k := by
  obtain ⟨i, k, hi, hk, e⟩ := exists_block (ringSize n c) (2 * n) (ringStart n c n + j)
    (by have := ringStart_half n c; rw [ringStart_eq'] at *; omega)
  rw [← ringStart_eq'] at e
  refine ⟨i, k, ?_, hi, hk, e⟩
  by_contra h
  have := bin_lt_half n c (not_le.mp h) hk
  omega

/-- Folding the opposite azimuth of a bin centre gives a bin centre of a ring of the same size, for an even number
of sectors or an even number of bins in the ring. -/
theorem fold_opposite_centre (n m : ℕ) (hm : 0 < m) (c : ℝ) {i i' k : ℕ}
    (hN : ringSize n c i' = ringSize n c i) (hk : k < ringSize n c i)
    (heven : Even m ∨ Even (ringSize n c i)) :
    ∃ k' < ringSize n c i, foldPhi (azimuthMid n c (2 * π / m) i k + π) (2 * π / m)
        = azimuthMid n c (2 * π / m) i' k' ∧ (Even m → k' = k) ∧
        ∃ z : ℤ, azimuthMid n c (2 * π / m) i' k' = azimuthMid n c (2 * π / m) i k + π + z * (2 * π / m) := by
  have hs : 0 < 2 * π / m := by positivity
  have hm' : (m : ℝ) ≠ 0 := by positivity
  have hNpos : (0 : ℝ) < ringSize n c i := by
    have : 0 < ringSize n c i := by omega
    exact_mod_cast this
  have key : ∀ k' < ringSize n c i, ∀ z : ℤ, azimuthMid n c (2 * π / m) i' k'
      = azimuthMid n c (2 * π / m) i k + π + z * (2 * π / m) →
      foldPhi (azimuthMid n c (2 * π / m) i k + π) (2 * π / m) = azimuthMid n c (2 * π / m) i' k' := by
    intro k' hk' z hz
    have hr := azimuthMid_range n c (2 * π / m) hs (i := i') (k := k') (by omega)
    exact ((C05_fold m hm _).2.2 _ hr.1.le hr.2 ⟨z, hz⟩).symm
  rcases Nat.even_or_odd m with ⟨q, hq⟩ | ⟨q, hq⟩
  · have hz : azimuthMid n c (2 * π / m) i' k
        = azimuthMid n c (2 * π / m) i k + π + ((-q : ℤ) : ℝ) * (2 * π / m) := by
      rw [azimuthMid_eq n c _ (show k < ringSize n c i' by omega), azimuthMid_eq n c _ hk, hN]
      have : (m : ℝ) = q + q := by exact_mod_cast hq
      have hq' : (q : ℝ) ≠ 0 := by intro h; apply hm'; rw [this, h]; ring
      rw [this]; push_cast; field_simp; ring
    exact ⟨k, hk, key k hk _ hz, fun _ => rfl, _, hz⟩
  · have hodd : ¬ Even m := by rw [Nat.not_even_iff_odd]; exact ⟨q, hq⟩
    obtain ⟨p, hp⟩ := heven.resolve_left hodd
    have hmr : (m : ℝ) = 2 * q + 1 := by exact_mod_cast hq
    have hpr : (ringSize n c i : ℝ) = p + p := by exact_mod_cast hp
    have hp0 : (0 : ℝ) < p := by linarith
    have hq0 : (2 * (q : ℝ) + 1) ≠ 0 := by positivity
    rcases Nat.lt_or_ge k p with h | h
    · have hz : azimuthMid n c (2 * π / m) i' (k + p)
          = azimuthMid n c (2 * π / m) i k + π + ((-q : ℤ) : ℝ) * (2 * π / m) := by
        rw [azimuthMid_eq n c _ (show k + p < ringSize n c i' by omega), azimuthMid_eq n c _ hk, hN,
          hpr, hmr]
        push_cast; field_simp; ring
      exact ⟨k + p, by omega, key _ (by omega) _ hz, fun h => absurd h hodd, _, hz⟩
    · have hz : azimuthMid n c (2 * π / m) i' (k - p)
          = azimuthMid n c (2 * π / m) i k + π + ((-q - 1 : ℤ) : ℝ) * (2 * π / m) := by
        rw [azimuthMid_eq n c _ (show k - p < ringSize n c i' by omega), azimuthMid_eq n c _ hk, hN,
          hpr, hmr, Nat.cast_sub h]
        push_cast; field_simp; ring
      exact ⟨k - p, by omega, key _ (by omega) _ hz, fun h => absurd h hodd, _, hz⟩

/-- In a ring with an odd number of bins and an odd number of sectors the middle bin folds to 0. -/
theorem fold_opposite_zero (n m : ℕ) (hm : Odd m) (c : ℝ) {i k : ℕ}
    (hN : ringSize n c i = 2 * k + 1) :
    foldPhi (azimuthMid n c (2 * π / m) i k + π) (2 * π / m) = 0 := by
  obtain ⟨q, hq⟩ := hm
  have hs : 0 < 2 * π / m := by rw [hq]; positivity
  refine ((C05_fold m (by omega) _).2.2 0 le_rfl hs ⟨-q - 1, ?_⟩).symm
  rw [azimuthMid_eq n c _ (show k < ringSize n c i by omega), hN]
  have hmr : (m : ℝ) = 2 * q + 1 := by exact_mod_cast hq
  have h1 : (2 * (q : ℝ) + 1) ≠ 0 := by positivity
  have h2 : (2 * (k : ℝ) + 1) ≠ 0 := by positivity
  rw [hmr]; push_cast; field_simp; ring

theorem outToInSym_ne (m : ℕ) (hm : 1 < m) : outToInSym (2 * π / m) = 2 * π / m := by
  unfold outToInSym
  rw [if_neg]
  intro h
  have hm' : (1 : ℝ) < m := by exact_mod_cast hm
  have hpi := pi_pos
  rw [div_eq_iff (by positivity)] at h
  nlinarith

theorem outBin_centre (n : ℕ) (hn : 0 < n) (m : ℕ) (hm : 1 < m) (c : ℝ) (hc : 0 < c) (sp : Spacing)
    {i k : ℕ} (hi : i < 2 * n) (hk : k < ringSize n c i) (heven : Even m ∨ Even (ringSize n c i)) :
    ∃ k' < ringSize n c i, outBin (makeAngleVector n (2 * π / m) c sp) (2 * π / m)
        { ring := i, theta := polarMid n sp i, phi := azimuthMid n c (2 * π / m) i k }
      = some (ringStart n c (2 * n - 1 - i) + k') ∧ (Even m → k' = k) ∧
      ∃ z : ℤ, azimuthMid n c (2 * π / m) (2 * n - 1 - i) k'
        = azimuthMid n c (2 * π / m) i k + π + z * (2 * π / m) := by
  have hs : 0 < 2 * π / m := by positivity
  have hsym := ringSize_symm n c hi
  obtain ⟨k', hk', hf, he, hz⟩ := fold_opposite_centre n m (by omega) c hsym hk heven
  have hb := azimuthEdge_strictMono n c (2 * π / m) hs (2 * n - 1 - i) k' (k' + 1) (by omega) (by omega)
  refine ⟨k', hk', outBin_eq n hn _ c hs hc sp hi hk' ?_ ?_, he, hz⟩
  · rw [outToInSym_ne m hm, hf]; unfold azimuthMid; linarith
  · rw [outToInSym_ne m hm, hf]; unfold azimuthMid; linarith

/-- For `phi_sym = 2π` the fold used by the code is within 3e-4 of the opposite azimuth. -/
theorem fold_two_pi_near (p : ℝ) (h0 : 0 ≤ p) (h1 : p < 2 * π) :
    ∃ z : ℤ, |foldPhi (p + π) (2 * π - 0.0001) - (p + π + z * (2 * π))| ≤ 0.0003 := by
  have hpi := pi_pos
  have hpi3 := Real.pi_gt_three
  have hs : (0 : ℝ) < 2 * π - 0.0001 := by norm_num; linarith
  unfold foldPhi pyFloorDiv pyMod
  rcases lt_or_ge p π with hlt | hge
  · have hq : ⌊(p + π) / π⌋ = 1 := by
      rw [Int.floor_eq_iff]
      constructor
      · rw [le_div_iff₀ hpi]; push_cast; linarith
      · rw [div_lt_iff₀ hpi]; push_cast; linarith
    rw [hq]
    have h5 : |((1 : ℤ) : ℝ)| * 2 * π + (p + π) = p + 3 * π := by simp; ring
    rw [h5]
    rcases lt_or_ge (p + 3 * π) (2 * (2 * π - 0.0001)) with h | h
    · have hz : ⌊(p + 3 * π) / (2 * π - 0.0001)⌋ = 1 := by
        rw [Int.floor_eq_iff]
        constructor
        · rw [le_div_iff₀ hs]; push_cast; norm_num; linarith
        · rw [div_lt_iff₀ hs]; push_cast; norm_num at h ⊢; linarith
      rw [hz]
      refine ⟨0, ?_⟩
      rw [abs_le]; push_cast; constructor <;> norm_num <;> linarith
    · have hz : ⌊(p + 3 * π) / (2 * π - 0.0001)⌋ = 2 := by
        rw [Int.floor_eq_iff]
        constructor
        · rw [le_div_iff₀ hs]; push_cast; norm_num at h ⊢; linarith
        · rw [div_lt_iff₀ hs]; push_cast; norm_num; linarith
      rw [hz]
      refine ⟨-1, ?_⟩
      rw [abs_le]; push_cast; constructor <;> norm_num <;> linarith
  · have hq : ⌊(p + π) / π⌋ = 2 := by
      rw [Int.floor_eq_iff]
      constructor
      · rw [le_div_iff₀ hpi]; push_cast; linarith
      · rw [div_lt_iff₀ hpi]; push_cast; linarith
    rw [hq]
    have h5 : |((2 : ℤ) : ℝ)| * 2 * π + (p + π) = p + 5 * π := by
      rw [abs_of_pos (by norm_num)]; push_cast; ring
    rw [h5]
    have hz : ⌊(p + 5 * π) / (2 * π - 0.0001)⌋ = 3 := by
      rw [Int.floor_eq_iff]
      constructor
      · rw [le_div_iff₀ hs]; push_cast; norm_num; linarith
      · rw [div_lt_iff₀ hs]; push_cast; norm_num; linarith
    rw [hz]
    refine ⟨-1, ?_⟩
    rw [abs_le]; push_cast; constructor <;> norm_num <;> linarith

/-- For `phi_sym = 2π`: the bin found by `out_to_in_matrix` is in the mirrored ring, at an azimuth
within half a bin (plus 3e-4) of the opposite one. -/
theorem outBin_two_pi (n : ℕ) (hn : 0 < n) (c : ℝ) (hc : 0 < c) (sp : Spacing)
    {i k : ℕ} (hi : i < 2 * n) (hk : k < ringSize n c i) :
    ∃ k' < ringSize n c i, outBin (makeAngleVector n (2 * π) c sp) (2 * π)
        { ring := i, theta := polarMid n sp i, phi := azimuthMid n c (2 * π) i k }
      = some (ringStart n c (2 * n - 1 - i) + k') ∧
      ∃ z : ℤ, |azimuthMid n c (2 * π) (2 * n - 1 - i) k'
        - (azimuthMid n c (2 * π) i k + π + z * (2 * π))| ≤ π / ringSize n c i + 0.0003 := by
  have hpi := pi_pos
  have hs : 0 < 2 * π := by positivity
  have hsym := ringSize_symm n c hi
  have hos : outToInSym (2 * π) = 2 * π - 0.0001 := by unfold outToInSym; simp
  have hr := azimuthMid_range n c (2 * π) hs hk
  have hpos := fold_two_pi_pos n c hk
  obtain ⟨z, hz⟩ := fold_two_pi_near _ hr.1.le hr.2
  have hlt : foldPhi (azimuthMid n c (2 * π) i k + π) (2 * π - 0.0001) ≤ 2 * π := by
    have h3 := Real.pi_gt_three
    have := (C06_fold_general_partial (azimuthMid n c (2 * π) i k + π) (2 * π - 0.0001)
      (by norm_num; linarith)).1.2
    norm_num at this ⊢
    linarith
  have hN : 0 < ringSize n c i := by omega
  obtain ⟨k', hk', a, b⟩ := exists_interval (f := azimuthEdge n c (2 * π) (2 * n - 1 - i))
    (m := ringSize n c i)
    (by rw [azimuthEdge_zero]; exact hpos)
    (by rw [← hsym, azimuthEdge_last n c _ _ (by omega)]; exact hlt)
  refine ⟨k', hk', outBin_eq n hn _ c hs hc sp hi hk' (by rw [hos]; exact a) (by rw [hos]; exact b),
    z, ?_⟩
  have hw : azimuthEdge n c (2 * π) (2 * n - 1 - i) (k' + 1)
      = azimuthEdge n c (2 * π) (2 * n - 1 - i) k' + 2 * (π / ringSize n c i) := by
    unfold azimuthEdge; rw [hsym]; push_cast; ring
  rw [abs_le] at hz ⊢
  unfold azimuthMid at hz a b ⊢
  constructor <;> linarith [hz.1, hz.2]

end Rayflare.Lemmas
