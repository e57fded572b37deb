import Verif.Lemmas.RayFormat

/-!
# Properties C09-C11: where the incident light is launched
-/

namespace Rayflare

open Real Rayflare.Np Rayflare.Model Rayflare.Spec Rayflare.Lemmas

/-- helper: the row built by `make_v0` for numeric azimuth, in closed form -/
theorem makeV0Row_val (n : ℕ) (hn : 0 < n) (s c : ℝ) (hc : 0 < c) (sp : Spacing)
    (theta phi : ℝ) {i : ℕ} (hi : i < n) (h1 : polarEdge n sp i ≤ theta)
    (h2 : theta < polarEdge n sp (i + 1)) :
    makeV0Row (makeAngleVector n s c sp) theta (.val phi) =
      (pyIndex (ringStart n c n) ((ringStart n c i : ℤ)
        + ((digitize phi ((List.range (ringSize n c i + 1)).map (azimuthEdge n c s i)) : ℤ) - 1))).map
        fun r => (List.range (ringStart n c n)).map (fun r' => if r' = r then 1 else 0) := by
  unfold makeV0Row
  simp only
  rw [thBinL n hn s c sp (by omega) h1 h2, phiIntv_get n hn s c sp (by omega), Option.bind_some,
    ringRow_eq n hn s c hc sp (by omega), half_eq n hn]

theorem exists_ringL (n : ℕ) (hn : 0 < n) (sp : Spacing) (theta : ℝ) (h0 : 0 ≤ theta)
    (h1 : theta < π / 2) :
    ∃ i < n, polarEdge n sp i ≤ theta ∧ theta < polarEdge n sp (i + 1) := by
  obtain ⟨i, hi, a, b⟩ := exists_intervalL (f := polarEdge n sp) (m := n) (x := theta)
    (by rw [polarEdge_zero]; exact h0) (by rw [polarEdge_half n hn]; exact h1)
  exact ⟨i, hi, a, b⟩

theorem digitize_azimuth (n : ℕ) (c s : ℝ) (hs : 0 < s) {i k : ℕ} (hk : k < ringSize n c i)
    {phi : ℝ} (h1 : azimuthEdge n c s i k ≤ phi) (h2 : phi < azimuthEdge n c s i (k + 1)) :
    (digitize phi ((List.range (ringSize n c i + 1)).map (azimuthEdge n c s i)) : ℤ) - 1 = k := by
  rw [digitize_range (azimuthEdge_strictMono n c s hs i) hk h1 h2]
  push_cast; ring

/-! ## C09 -/

/-- **C09, single azimuth.** For `0 ≤ θ < π/2`, `0 ≤ φ < phi_sym`, the launched vector has unit power,
all of it in the one bin `(i,k)` that contains the direction (left-closed), at each wavelength. -/
theorem C09_launch_single (n : ℕ) (hn : 0 < n) (s c : ℝ) (hs : 0 < s) (hc : 0 < c) (sp : Spacing)
    (numWl : ℕ) (theta phi : ℝ) (ht0 : 0 ≤ theta) (ht1 : theta < π / 2) (hp0 : 0 ≤ phi)
    (hp1 : phi < s) :
    ∃ i k v, i < n ∧ k < ringSize n c i ∧ InBinL n c s sp i k theta phi ∧
      (∀ i' k', i' < n → k' < ringSize n c i' → InBinL n c s sp i' k' theta phi → i' = i ∧ k' = k) ∧
      makeV0 theta (.val phi) numWl n c s sp = some (List.replicate numWl v) ∧
      v.length = (makeAngleVector n s c sp).angleVector.length / 2 ∧ v.sum = 1 ∧
      v[ringStart n c i + k]? = some 1 ∧
      ∀ r x, v[r]? = some x → r ≠ ringStart n c i + k → x = 0 := by
  obtain ⟨i, hi, h1, h2⟩ := exists_ringL n hn sp theta ht0 ht1
  have hN := ringSize_pos n c hc (show i < 2 * n by omega)
  obtain ⟨k, hk, h3, h4⟩ := exists_intervalL (f := azimuthEdge n c s i) (m := ringSize n c i)
    (x := phi) (by rw [azimuthEdge_zero]; exact hp0) (by rw [azimuthEdge_last n c s i hN]; exact hp1)
  have hlt := bin_lt_half n c hi hk
  refine ⟨i, k, _, hi, hk, ⟨h1, h2, h3, h4⟩, ?_, ?_, ?_, sum_one_hot _ _ hlt, ?_, ?_⟩
  · intro i' k' hi' hk' ⟨a, b, d, e⟩
    have := interval_uniqueL (polarEdge_strictMono n hn sp) (show i' < 2 * n by omega)
      (show i < 2 * n by omega) a b h1 h2
    subst this
    exact ⟨rfl, interval_uniqueL (azimuthEdge_strictMono n c s hs i') hk' hk d e h3 h4⟩
  · unfold makeV0
    rw [makeV0Row_val n hn s c hc sp theta phi hi h1 h2, digitize_azimuth n c s hs hk h3 h4,
      show (ringStart n c i : ℤ) + (k : ℤ) = ((ringStart n c i + k : ℕ) : ℤ) by push_cast; ring,
      pyIndex_ofNat hlt, Option.map_some, Option.map_some]
  · rw [List.length_map, List.length_range, angleVector_length n hn, ringStart_half]; omega
  · simp [hlt]
  · intro r x hx hr
    rw [List.getElem?_map] at hx
    rcases Nat.lt_or_ge r (ringStart n c n) with h | h
    · rw [List.getElem?_range h, Option.map_some, Option.some.injEq, if_neg hr] at hx
      exact hx.symm
    · rw [List.getElem?_eq_none (by simpa using h)] at hx; simp at hx

/-- **C09, `phi_in = 'all'`.** Unit power, spread equally over the bins of the ring containing `θ`. -/
theorem C09_launch_all (n : ℕ) (hn : 0 < n) (s c : ℝ) (hc : 0 < c) (sp : Spacing)
    (numWl : ℕ) (theta : ℝ) (ht0 : 0 ≤ theta) (ht1 : theta < π / 2) :
    ∃ i v, i < n ∧ polarEdge n sp i ≤ theta ∧ theta < polarEdge n sp (i + 1) ∧
      makeV0 theta .all numWl n c s sp = some (List.replicate numWl v) ∧
      v.length = (makeAngleVector n s c sp).angleVector.length / 2 ∧ v.sum = 1 ∧
      (∀ k < ringSize n c i, v[ringStart n c i + k]? = some (1 / (ringSize n c i : ℝ))) ∧
      ∀ r x, v[r]? = some x → (r < ringStart n c i ∨ ringStart n c (i + 1) ≤ r) → x = 0 := by
  obtain ⟨i, hi, h1, h2⟩ := exists_ringL n hn sp theta ht0 ht1
  have hN := ringSize_pos n c hc (show i < 2 * n by omega)
  have hN' : (ringSize n c i : ℝ) ≠ 0 := by positivity
  have hend := ringStart_mono n c (show i + 1 ≤ n from hi)
  rw [ringStart_succ] at hend
  refine ⟨i, (List.range (ringStart n c n)).map (fun r => if ringStart n c i ≤ r ∧
      r < ringStart n c i + ringSize n c i then 1 / (ringSize n c i : ℝ) else 0),
      hi, h1, h2, ?_, ?_, ?_, ?_, ?_⟩
  · unfold makeV0 makeV0Row
    simp only
    rw [thBinL n hn s c sp (by omega) h1 h2, phiIntv_get n hn s c sp (by omega), Option.bind_some,
      ringRow_eq n hn s c hc sp (by omega), half_eq n hn, Option.map_some]
    simp
  · rw [List.length_map, List.length_range, angleVector_length n hn, ringStart_half]; omega
  · rw [sum_map_range, ← Finset.sum_filter, Finset.sum_const]
    have : (Finset.range (ringStart n c n)).filter (fun r => ringStart n c i ≤ r ∧
        r < ringStart n c i + ringSize n c i)
        = Finset.Ico (ringStart n c i) (ringStart n c i + ringSize n c i) := by
      ext r; simp only [Finset.mem_filter, Finset.mem_range, Finset.mem_Ico]; omega
    rw [this, Nat.card_Ico, nsmul_eq_mul, show ringStart n c i + ringSize n c i - ringStart n c i
      = ringSize n c i by omega]
    field_simp
  · intro k hk
    rw [List.getElem?_map, List.getElem?_range (by omega), Option.map_some, if_pos (by omega)]
  · intro r x hx hr
    rw [List.getElem?_map] at hx
    rw [ringStart_succ] at hr
    rcases Nat.lt_or_ge r (ringStart n c n) with h | h
    · rw [List.getElem?_range h, Option.map_some, Option.some.injEq, if_neg (by omega)] at hx
      exact hx.symm
    · rw [List.getElem?_eq_none (by simpa using h)] at hx; simp at hx

/-- Non-vacuity: default grid, 30° incidence, 20 wavelengths. -/
example : ∃ v : List ℝ, makeV0 (π / 6) (.val 1) 20 50 (1 / 4) (π / 2) .sin
    = some (List.replicate 20 v) ∧ v.sum = 1 := by
  obtain ⟨_, _, v, _, _, _, _, h, _, h', _⟩ := C09_launch_single 50 (by norm_num) (π / 2) (1 / 4)
    (by positivity) (by norm_num) .sin 20 (π / 6) 1 (by positivity) (by linarith [pi_pos])
    (by norm_num) (by linarith [Real.pi_gt_three])
  exact ⟨v, h, h'⟩

/-! ## C10 -/

/-- The calculation starts (no exception) with unit power, and all launched power is in bins of the
polar ring containing `θ`. -/
def LaunchedInOwnRing (n : ℕ) (s c : ℝ) (sp : Spacing) (numWl : ℕ) (theta phi : ℝ) : Prop :=
  ∃ v : List ℝ, launch theta (.val phi) numWl n c s sp = some (List.replicate numWl v) ∧ v.sum = 1 ∧
    ∀ (r : ℕ) (x : ℝ) (row : Row), v[r]? = some x → x ≠ 0 → (makeAngleVector n s c sp).angleVector[r]? = some row →
      polarEdge n sp row.ring ≤ theta ∧ theta < polarEdge n sp (row.ring + 1)

/-- **C10 (partial).** Non-negative azimuths other than exactly `phi_sym` are launched in their own
ring.  Missing: `φ = phi_sym` and negative `φ`, for which the property is false. -/
theorem C10_launch_any_azimuth_partial (n : ℕ) (hn : 0 < n) (s c : ℝ) (hs : 0 < s) (hc : 0 < c)
    (sp : Spacing) (numWl : ℕ) (theta phi : ℝ) (ht0 : 0 ≤ theta) (ht1 : theta < π / 2)
    (hp0 : 0 ≤ phi) (hp1 : phi ≠ s) : LaunchedInOwnRing n s c sp numWl theta phi := by
  have key : ∀ p, 0 ≤ p → p < s → launch theta (.val phi) numWl n c s sp
      = makeV0 theta (.val p) numWl n c s sp → LaunchedInOwnRing n s c sp numWl theta phi := by
    intro p a b e
    obtain ⟨i, k, v, hi, hk, hin, _, hv, _, hsum, _, hz⟩ :=
      C09_launch_single n hn s c hs hc sp numWl theta p ht0 ht1 a b
    refine ⟨v, by rw [e, hv], hsum, ?_⟩
    intro r x row hx hx0 hrow
    have hr : r = ringStart n c i + k := by
      by_contra h; exact hx0 (hz r x hx h)
    rw [hr, angleVector_get n hn s c sp (by omega) hk, Option.some.injEq] at hrow
    rw [← hrow]
    exact ⟨hin.1, hin.2.1⟩
  rcases lt_or_gt_of_ne hp1 with h | h
  · exact key phi hp0 h (by unfold launch launchPhi; simp [not_lt.mpr h.le])
  · have := (C06_fold_general_partial phi s hs).1
    exact key _ this.1 this.2 (by unfold launch launchPhi; simp [h])

/-- **C10 fails for `phi_in = phi_sym`**, for every grid and every polar angle: the light is launched in the
next ring (or the calculation stops with an IndexError in the last ring). -/
theorem C10_fails_at_symmetry_edge (n : ℕ) (hn : 0 < n) (s c : ℝ) (hs : 0 < s) (hc : 0 < c)
    (sp : Spacing) (numWl : ℕ) (hwl : 0 < numWl) (theta : ℝ) (ht0 : 0 ≤ theta) (ht1 : theta < π / 2) :
    ¬ LaunchedInOwnRing n s c sp numWl theta s := by
  rintro ⟨v, hv, hsum, hring⟩
  obtain ⟨i, hi, h1, h2⟩ := exists_ringL n hn sp theta ht0 ht1
  have hN := ringSize_pos n c hc (show i < 2 * n by omega)
  have hd : (digitize s ((List.range (ringSize n c i + 1)).map (azimuthEdge n c s i)) : ℤ) - 1
      = ringSize n c i := by
    rw [digitize_range_last (azimuthEdge_strictMono n c s hs i)
      (by rw [azimuthEdge_last n c s i hN])]
    push_cast; ring
  unfold launch launchPhi makeV0 at hv
  simp only [gt_iff_lt, lt_irrefl, if_false] at hv
  rw [makeV0Row_val n hn s c hc sp theta s hi h1 h2, hd,
    show (ringStart n c i : ℤ) + (ringSize n c i : ℤ) = ((ringStart n c (i + 1) : ℕ) : ℤ) by
      rw [ringStart_succ]; push_cast; ring] at hv
  rcases Nat.lt_or_ge (i + 1) n with h | h
  · have hN1 := ringSize_pos n c hc (show i + 1 < 2 * n by omega)
    have hlt : ringStart n c (i + 1) < ringStart n c n := by
      have := bin_lt_half n c h hN1; omega
    rw [pyIndex_ofNat hlt, Option.map_some, Option.map_some, Option.some.injEq] at hv
    have hvv := congrArg (fun l => l[0]?) hv
    simp only [List.getElem?_replicate, hwl, if_true, Option.some.injEq] at hvv
    have := hring (ringStart n c (i + 1)) 1 _ (by rw [← hvv]; simp [hlt]) one_ne_zero
      (angleVector_get n hn s c sp (show i + 1 < 2 * n by omega) hN1)
    simp only at this
    linarith [this.1]
  · rw [show i + 1 = n by omega] at hv
    have : pyIndex (ringStart n c n) ((ringStart n c n : ℕ) : ℤ) = none := by
      unfold pyIndex
      rw [if_neg (by simp), if_neg]
      rintro ⟨h, _⟩
      omega
    rw [this] at hv
    simp at hv

/-- **C10 fails for negative azimuths**, for every grid with at least two polar rings and every polar angle. -/
theorem C10_fails_negative (n : ℕ) (hn : 2 ≤ n) (s c : ℝ) (hs : 0 < s) (hc : 0 < c)
    (sp : Spacing) (numWl : ℕ) (hwl : 0 < numWl) (theta phi : ℝ) (ht0 : 0 ≤ theta)
    (ht1 : theta < π / 2) (hp : phi < 0) :
    ¬ LaunchedInOwnRing n s c sp numWl theta phi := by
  rintro ⟨v, hv, hsum, hring⟩
  have hn0 : 0 < n := by omega
  obtain ⟨i, hi, h1, h2⟩ := exists_ringL n hn0 sp theta ht0 ht1
  have hd : (digitize phi ((List.range (ringSize n c i + 1)).map (azimuthEdge n c s i)) : ℤ) - 1
      = -1 := by
    rw [digitize_range_zero (azimuthEdge_strictMono n c s hs i)
      (by rw [azimuthEdge_zero]; exact hp)]
    norm_num
  unfold launch launchPhi makeV0 at hv
  simp only [gt_iff_lt, not_lt.mpr (hp.le.trans hs.le), if_false] at hv
  rw [makeV0Row_val n hn0 s c hc sp theta phi hi h1 h2, hd] at hv
  -- the row hit: last row of ring i' ≠ i
  have key : ∃ i' < n, i' ≠ i ∧ pyIndex (ringStart n c n) ((ringStart n c i : ℤ) + -1)
      = some (ringStart n c i' + (ringSize n c i' - 1)) := by
    rcases Nat.eq_zero_or_pos i with h | h
    · subst h
      refine ⟨n - 1, by omega, by omega, ?_⟩
      have hS := ringStart_succ n c (n - 1)
      rw [show n - 1 + 1 = n by omega] at hS
      have hN := ringSize_pos n c hc (show n - 1 < 2 * n by omega)
      unfold pyIndex
      rw [ringStart_zero, if_neg (by norm_num), if_pos ⟨by push_cast; omega, by norm_num⟩]
      congr 1
      push_cast
      omega
    · refine ⟨i - 1, by omega, by omega, ?_⟩
      have hS := ringStart_succ n c (i - 1)
      rw [show i - 1 + 1 = i by omega] at hS
      have hN := ringSize_pos n c hc (show i - 1 < 2 * n by omega)
      rw [show (ringStart n c i : ℤ) + -1 = ((ringStart n c (i - 1) + (ringSize n c (i - 1) - 1) : ℕ) : ℤ)
        by push_cast; omega]
      exact pyIndex_ofNat (bin_lt_half n c (by omega) (by omega))
  obtain ⟨i', hi', hne, hidx⟩ := key
  have hN' := ringSize_pos n c hc (show i' < 2 * n by omega)
  have hlt := bin_lt_half n c hi' (show ringSize n c i' - 1 < ringSize n c i' by omega)
  rw [hidx, Option.map_some, Option.map_some, Option.some.injEq] at hv
  have hvv := congrArg (fun l => l[0]?) hv
  simp only [List.getElem?_replicate, hwl, if_true, Option.some.injEq] at hvv
  have := hring _ 1 _ (by rw [← hvv]; simp [hlt]) one_ne_zero
    (angleVector_get n hn0 s c sp (show i' < 2 * n by omega)
      (show ringSize n c i' - 1 < ringSize n c i' by omega))
  exact hne (interval_uniqueL (polarEdge_strictMono n hn0 sp) (show i' < 2 * n by omega)
    (show i < 2 * n by omega) this.1 this.2 h1 h2)

example : LaunchedInOwnRing 50 (π / 2) (1 / 4) .sin 20 0.5 4 ∧
    ¬ LaunchedInOwnRing 50 (π / 2) (1 / 4) .sin 20 0 (π / 2) ∧
    ¬ LaunchedInOwnRing 50 (π / 2) (1 / 4) .sin 20 0.5 (-1) := by
  have h3 := Real.pi_gt_three
  have h4 := Real.pi_lt_four
  refine ⟨?_, ?_, ?_⟩
  · exact C10_launch_any_azimuth_partial 50 (by norm_num) _ _ (by positivity) (by norm_num) _ _ _ _
      (by norm_num) (by norm_num; linarith) (by norm_num) (by intro h; linarith)
  · exact C10_fails_at_symmetry_edge 50 (by norm_num) _ _ (by positivity) (by norm_num) _ _
      (by norm_num) _ le_rfl (by positivity)
  · exact C10_fails_negative 50 (by norm_num) _ _ (by positivity) (by norm_num) _ _
      (by norm_num) _ _ (by norm_num) (by norm_num; linarith) (by norm_num)

/-! ## C11 -/

/-- The matrix column filled by ray tracing at the incidence direction is the bin in which the matrix
multiplication launches all its power. -/
def SameIncidenceBin (n : ℕ) (s c : ℝ) (sp : Spacing) (numWl : ℕ) (theta phi : ℝ) : Prop :=
  ∃ col v, rtIncidenceColumn (makeAngleVector n s c sp) s theta phi = some col ∧
    launch theta (.val phi) numWl n c s sp = some (List.replicate numWl v) ∧
    v[col]? = some 1 ∧ v.sum = 1

theorem launch_at (n : ℕ) (hn : 0 < n) (s c : ℝ) (hs : 0 < s) (hc : 0 < c) (sp : Spacing)
    (numWl : ℕ) (theta phi p : ℝ) {i k : ℕ} (hi : i < n) (hk : k < ringSize n c i)
    (hin : InBinL n c s sp i k theta p) (hp : launchPhi (.val phi) s = .val p) :
    launch theta (.val phi) numWl n c s sp = some (List.replicate numWl
      ((List.range (ringStart n c n)).map (fun r' => if r' = ringStart n c i + k then 1 else 0))) := by
  unfold launch makeV0
  rw [hp, makeV0Row_val n hn s c hc sp theta p hi hin.1 hin.2.1,
    digitize_azimuth n c s hs hk hin.2.2.1 hin.2.2.2,
    show (ringStart n c i : ℤ) + (k : ℤ) = ((ringStart n c i + k : ℕ) : ℤ) by push_cast; ring,
    pyIndex_ofNat (bin_lt_half n c hi hk), Option.map_some, Option.map_some]

theorem rtIncidenceColumn_at (n : ℕ) (hn : 0 < n) (s c : ℝ) (hs : 0 < s) (hc : 0 < c) (sp : Spacing)
    (theta phi th ph : ℝ) {i k : ℕ} (hi : i < n) (hk : k < ringSize n c i)
    (hth : (if theta = 0 then 0.0001 else theta) = th)
    (hph : foldPhi (if phi = 0 then 0.0001 else phi) s = ph)
    (hin : InBin n c s sp i k th ph) :
    rtIncidenceColumn (makeAngleVector n s c sp) s theta phi = some (ringStart n c i + k) := by
  unfold rtIncidenceColumn
  simp only [hth, hph]
  rw [binOf_eq n hn s c hs hc sp (by omega) hk hin, Option.bind_some, half_eq n hn,
    pyIndex_ofNat (bin_lt_half n c hi hk)]

/-- **C11 (partial), interior directions.** If `θ` and the folded azimuth are strictly inside a bin,
ray tracing fills exactly the column in which the light is launched.  Missing: directions on a bin edge. -/
theorem C11_same_bin_partial (n : ℕ) (hn : 0 < n) (m : ℕ) (hm : 0 < m) (c : ℝ) (hc : 0 < c)
    (sp : Spacing) (numWl : ℕ) (theta phi : ℝ) (hphi : 0 < phi)
    (i k : ℕ) (hi : i < n) (hk : k < ringSize n c i)
    (h1 : polarEdge n sp i < theta) (h2 : theta < polarEdge n sp (i + 1))
    (h3 : azimuthEdge n c (2 * π / m) i k < foldPhi phi (2 * π / m))
    (h4 : foldPhi phi (2 * π / m) < azimuthEdge n c (2 * π / m) i (k + 1)) :
    SameIncidenceBin n (2 * π / m) c sp numWl theta phi := by
  have hs : 0 < 2 * π / m := by positivity
  have hth0 : 0 < theta := by
    have : 0 ≤ polarEdge n sp i := by
      rcases Nat.eq_zero_or_pos i with h | h
      · subst h; rw [polarEdge_zero]
      · have := polarEdge_strictMono n hn sp 0 i h (by omega); rw [polarEdge_zero] at this
        exact this.le
    linarith
  have hf0 : 0 < foldPhi phi (2 * π / m) := by
    have : 0 ≤ azimuthEdge n c (2 * π / m) i k := by unfold azimuthEdge; positivity
    linarith
  have hl : launchPhi (.val phi) (2 * π / m) = .val (foldPhi phi (2 * π / m)) := by
    unfold launchPhi
    simp only
    split
    · rfl
    · rename_i h
      have hle := not_lt.mp h
      congr 1
      rcases lt_or_eq_of_le hle with hlt | heq
      · exact (C05_fold m hm phi).2.2 phi hphi.le hlt ⟨0, by simp⟩
      · exfalso
        have := (C05_fold m hm phi).2.2 0 le_rfl hs ⟨-1, by rw [heq]; push_cast; ring⟩
        linarith
  refine ⟨ringStart n c i + k, _, ?_, launch_at n hn _ c hs hc sp numWl theta phi _ hi hk
    ⟨h1.le, h2, h3.le, h4⟩ hl, ?_, sum_one_hot _ _ (bin_lt_half n c hi hk)⟩
  · exact rtIncidenceColumn_at n hn _ c hs hc sp theta phi theta _ hi hk (if_neg hth0.ne')
      (by rw [if_neg hphi.ne']) ⟨h1, h2.le, h3, h4.le⟩
  · simp [bin_lt_half n c hi hk]

/-- **C11 (partial), normal incidence** (the default `theta_in = phi_in = 0`): the columns agree
whenever the first bin is larger than the 1e-4 offset the ray tracer applies. -/
theorem C11_normal_incidence_partial (n : ℕ) (hn : 0 < n) (m : ℕ) (hm : 0 < m) (c : ℝ) (hc : 0 < c)
    (sp : Spacing) (numWl : ℕ) (h1 : 0.0001 ≤ polarEdge n sp 1)
    (h2 : 0.0001 ≤ azimuthEdge n c (2 * π / m) 0 1) :
    SameIncidenceBin n (2 * π / m) c sp numWl 0 0 := by
  have hs : 0 < 2 * π / m := by positivity
  have hN := ringSize_pos n c hc (show 0 < 2 * n by omega)
  have hpos : (0 : ℝ) < 0.0001 := by norm_num
  have hfold : foldPhi 0.0001 (2 * π / m) = 0.0001 ∨ (foldPhi 0.0001 (2 * π / m) = 0
      ∧ (0.0001 : ℝ) = 2 * π / m) := by
    have hle : (0.0001 : ℝ) ≤ 2 * π / m := by
      refine h2.trans ?_
      refine le_of_le_of_eq ?_ (azimuthEdge_last n c (2 * π / m) 0 hN)
      rcases Nat.lt_or_ge 1 (ringSize n c 0) with h | h
      · exact (azimuthEdge_strictMono n c (2 * π / m) hs 0 1 _ h le_rfl).le
      · rw [show ringSize n c 0 = 1 by omega]
    rcases lt_or_eq_of_le hle with h | h
    · left; exact ((C05_fold m hm 0.0001).2.2 _ hpos.le h ⟨0, by simp⟩).symm
    · right
      refine ⟨((C05_fold m hm 0.0001).2.2 0 le_rfl hs ⟨-1, ?_⟩).symm, h⟩
      rw [h]; push_cast; ring
  have hne : ¬ (0.0001 : ℝ) = 2 * π / m := by
    intro h
    apply irrational_pi
    refine ⟨0.0001 * m / 2, ?_⟩
    have hm' : (m : ℝ) ≠ 0 := by positivity
    rw [eq_div_iff hm'] at h
    push_cast
    linarith
  have hf : foldPhi 0.0001 (2 * π / m) = 0.0001 := by tauto
  have hl : launchPhi (.val 0) (2 * π / m) = .val 0 := by
    unfold launchPhi
    simp only [gt_iff_lt, not_lt.mpr hs.le, if_false]
  refine ⟨ringStart n c 0 + 0, _, ?_, launch_at n hn _ c hs hc sp numWl 0 0 0 hn hN
    ⟨by rw [polarEdge_zero], by linarith, by rw [azimuthEdge_zero], by linarith⟩ hl, ?_,
    sum_one_hot _ _ (bin_lt_half n c hn hN)⟩
  · refine rtIncidenceColumn_at n hn _ c hs hc sp 0 0 0.0001 0.0001 hn hN (if_pos rfl)
      (by rw [if_pos rfl]; exact hf) ⟨?_, h1, ?_, h2⟩
    · rw [polarEdge_zero]; norm_num
    · rw [azimuthEdge_zero]; norm_num
  · rw [List.getElem?_map, List.getElem?_range (bin_lt_half n c hn hN)]; simp

/-- **C11 fails on polar bin edges**: for every interior edge `θ` and every azimuth inside the
sector, the ray tracer fills a column in which no power is launched. -/
theorem C11_fails_on_edges (n : ℕ) (hn : 0 < n) (m : ℕ) (hm : 0 < m) (c : ℝ) (hc : 0 < c)
    (sp : Spacing) (numWl : ℕ) (hwl : 0 < numWl) (i : ℕ) (hi0 : 0 < i) (hi : i < n) (phi : ℝ)
    (hp0 : 0 < phi) (hp1 : phi < 2 * π / m) :
    ¬ SameIncidenceBin n (2 * π / m) c sp numWl (polarEdge n sp i) phi := by
  rintro ⟨col, v, hcol, hv, hvc, _⟩
  have hs : 0 < 2 * π / m := by positivity
  have hmono := polarEdge_strictMono n hn sp
  have e0 := hmono 0 i hi0 (by omega)
  rw [polarEdge_zero] at e0
  have hfold : foldPhi phi (2 * π / m) = phi :=
    ((C05_fold m hm phi).2.2 phi hp0.le hp1 ⟨0, by simp⟩).symm
  have hN := ringSize_pos n c hc (show i < 2 * n by omega)
  have hN' := ringSize_pos n c hc (show i - 1 < 2 * n by omega)
  obtain ⟨k, hk, h3, h4⟩ := exists_intervalL (f := azimuthEdge n c (2 * π / m) i)
    (m := ringSize n c i) (x := phi) (by rw [azimuthEdge_zero]; exact hp0.le)
    (by rw [azimuthEdge_last n c _ i hN]; exact hp1)
  obtain ⟨k', hk', h3', h4'⟩ := exists_interval (f := azimuthEdge n c (2 * π / m) (i - 1))
    (m := ringSize n c (i - 1)) (x := phi) (by rw [azimuthEdge_zero]; exact hp0)
    (by rw [azimuthEdge_last n c _ _ hN']; exact hp1.le)
  have hL := launch_at n hn _ c hs hc sp numWl (polarEdge n sp i) phi phi hi hk
    ⟨le_rfl, hmono i (i + 1) (by omega) (by omega), h3, h4⟩
    (by unfold launchPhi; simp [not_lt.mpr hp1.le])
  have hC := rtIncidenceColumn_at n hn _ c hs hc sp (polarEdge n sp i) phi (polarEdge n sp i) phi
    (show i - 1 < n by omega) hk' (if_neg e0.ne') (by rw [if_neg hp0.ne', hfold])
    ⟨hmono (i - 1) i (by omega) (by omega), by rw [show i - 1 + 1 = i by omega], h3', h4'⟩
  rw [hL, Option.some.injEq] at hv
  have hvv := congrArg (fun l => l[0]?) hv
  simp only [List.getElem?_replicate, hwl, if_true, Option.some.injEq] at hvv
  rw [hC, Option.some.injEq] at hcol
  rw [← hvv, ← hcol] at hvc
  have hlt := bin_lt_half n c (show i - 1 < n by omega) hk'
  have hS := ringStart_succ n c (i - 1)
  rw [show i - 1 + 1 = i by omega] at hS
  rw [List.getElem?_map, List.getElem?_range hlt, Option.map_some, if_neg (by omega)] at hvc
  simp at hvc

/-- **C11 (partial), exactly.** Let the ray tracer find the incidence direction (with its offset of 1e-4 in place of zero, and right-closed bins) in bin `(i', k')`, and the launched direction lie in bin `(i, k)` (left-closed).  The light is
launched in the column that is filled if and only if the two bins are the same. -/
theorem C11_exactly_partial (n : ℕ) (hn : 0 < n) (s c : ℝ) (hs : 0 < s) (hc : 0 < c) (sp : Spacing) (numWl : ℕ) (hwl : 0 < numWl) (theta phi p : ℝ)
    (hp : launchPhi (.val phi) s = .val p) (i k i' k' : ℕ) (hi : i < n) (hk : k < ringSize n c i) (hi' : i' < n) (hk' : k' < ringSize n c i')
    (hL : InBinL n c s sp i k theta p) (hR : InBin n c s sp i' k' (if theta = 0 then 0.0001 else theta) (foldPhi (if phi = 0 then 0.0001 else phi) s)) :
    SameIncidenceBin n s c sp numWl theta phi ↔ i = i' ∧ k = k' := by
  have hl := launch_at n hn s c hs hc sp numWl theta phi p hi hk hL hp
  have hr := rtIncidenceColumn_at n hn s c hs hc sp theta phi _ _ hi' hk' rfl rfl hR
  have hlt := bin_lt_half n c hi' hk'
  constructor
  · rintro ⟨col, v, hcol, hv, hvc, _⟩
    rw [hl, Option.some.injEq] at hv
    have hvv := congrArg (fun l => l[0]?) hv
    simp only [List.getElem?_replicate, hwl, if_true, Option.some.injEq] at hvv
    rw [hr, Option.some.injEq] at hcol
    rw [← hvv, ← hcol, List.getElem?_map, List.getElem?_range hlt, Option.map_some, Option.some.injEq] at hvc
    have he : ringStart n c i' + k' = ringStart n c i + k := by
      by_contra h
      rw [if_neg h] at hvc
      simp at hvc
    have hii : i = i' := by
      rcases lt_trichotomy i i' with h | h | h
      · have h1 := ringStart_mono n c (show i + 1 ≤ i' from h)
        rw [ringStart_succ] at h1
        omega
      · exact h
      · have h1 := ringStart_mono n c (show i' + 1 ≤ i from h)
        rw [ringStart_succ] at h1
        omega
    subst hii
    exact ⟨rfl, by omega⟩
  · rintro ⟨rfl, rfl⟩
    refine ⟨_, _, hr, hl, ?_, sum_one_hot _ _ hlt⟩
    rw [List.getElem?_map, List.getElem?_range hlt]
    simp

/-- **C11 fails on azimuth bin edges** as well: for every direction inside a ring whose azimuth is an interior edge of the bins of this ring. -/
theorem C11_fails_on_azimuth_edges (n : ℕ) (hn : 0 < n) (m : ℕ) (hm : 0 < m) (c : ℝ) (hc : 0 < c) (sp : Spacing) (numWl : ℕ) (hwl : 0 < numWl)
    (i k : ℕ) (hi : i < n) (hk0 : 0 < k) (hk : k < ringSize n c i) (theta : ℝ) (h1 : polarEdge n sp i < theta) (h2 : theta < polarEdge n sp (i + 1)) :
    ¬ SameIncidenceBin n (2 * π / m) c sp numWl theta (azimuthEdge n c (2 * π / m) i k) := by
  have hs : 0 < 2 * π / m := by positivity
  have hmono := azimuthEdge_strictMono n c (2 * π / m) hs i
  have hN := ringSize_pos n c hc (show i < 2 * n by omega)
  have e0 := hmono 0 k hk0 (by omega)
  have e1 := hmono k (ringSize n c i) hk le_rfl
  rw [azimuthEdge_zero] at e0
  rw [azimuthEdge_last n c _ i hN] at e1
  have hth0 : 0 < theta := by
    rcases Nat.eq_zero_or_pos i with h | h
    · subst h; rw [polarEdge_zero] at h1; exact h1
    · have := polarEdge_strictMono n hn sp 0 i h (by omega); rw [polarEdge_zero] at this
      linarith
  have hfold : foldPhi (azimuthEdge n c (2 * π / m) i k) (2 * π / m) = azimuthEdge n c (2 * π / m) i k :=
    ((C05_fold m hm _).2.2 _ e0.le e1 ⟨0, by simp⟩).symm
  rw [C11_exactly_partial n hn _ c hs hc sp numWl hwl theta _ (azimuthEdge n c (2 * π / m) i k) (by unfold launchPhi; simp [not_lt.mpr e1.le]) i k i (k - 1) hi hk hi
    (by omega) ⟨h1.le, h2, le_rfl, hmono k (k + 1) (by omega) (by omega)⟩
    (by
      rw [if_neg hth0.ne', if_neg e0.ne', hfold]
      exact ⟨h1, h2.le, hmono (k - 1) k (by omega) (by omega), by rw [show k - 1 + 1 = k by omega]⟩)]
  omega

/-- Non-vacuity: with linear spacing and 50 rings the edge 45° is `i = 25`. -/
example : polarEdge 50 .linear 25 = π / 4 ∧
    ¬ SameIncidenceBin 50 (2 * π / (4 : ℕ)) (1 / 4) .linear 1 (polarEdge 50 .linear 25) 1 := by
  refine ⟨by simp only [polarEdge]; push_cast; ring, ?_⟩
  exact C11_fails_on_edges 50 (by norm_num) 4 (by norm_num) _ (by norm_num) _ _ (by norm_num) 25
    (by norm_num) (by norm_num) 1 (by norm_num) (by push_cast; linarith [Real.pi_gt_three])

/-- Non-vacuity: the seventh ring of this grid has two azimuth bins, with the edge at 45 degrees between them. -/
example : ¬ SameIncidenceBin 50 (2 * π / (4 : ℕ)) (1 / 4) .linear 1 (6.5 * π / 100) (π / 4) := by
  have hN : ringSize 50 (1 / 4) 6 = 2 := by
    unfold ringSize
    rw [Nat.ceil_eq_iff (by norm_num)]
    norm_num
  have he : azimuthEdge 50 (1 / 4) (2 * π / (4 : ℕ)) 6 1 = π / 4 := by
    unfold azimuthEdge
    rw [hN]
    push_cast
    ring
  rw [← he]
  refine C11_fails_on_azimuth_edges 50 (by norm_num) 4 (by norm_num) _ (by norm_num) _ _ (by norm_num) 6 1 (by norm_num) (by norm_num) (by rw [hN]; norm_num) _ ?_ ?_
  · simp only [polarEdge]; push_cast; linarith [Real.pi_pos]
  · simp only [polarEdge]; push_cast; linarith [Real.pi_pos]

end Rayflare
