import Verif.Lemmas.Angles

namespace Rayflare.Lemmas

open Real Rayflare.Np Rayflare.Model Rayflare.Spec

theorem exists_interval {f : ℕ → ℝ} {m : ℕ} {x : ℝ} (hlo : f 0 < x) (hhi : x ≤ f m) :
    ∃ i, i < m ∧ f i < x ∧ x ≤ f (i + 1) := by
  induction m with
  | zero => exact absurd hlo (not_lt.mpr hhi)
  | succ m ih =>
    rcases le_or_gt x (f m) with h | h
    · obtain ⟨i, hi, a, b⟩ := ih h
      exact ⟨i, by omega, a, b⟩
    · exact ⟨m, by omega, h, hhi⟩

theorem exists_intervalL {f : ℕ → ℝ} {m : ℕ} {x : ℝ} (hlo : f 0 ≤ x) (hhi : x < f m) :
    ∃ i, i < m ∧ f i ≤ x ∧ x < f (i + 1) := by
  induction m with
  | zero => exact absurd hlo (not_le.mpr hhi)
  | succ m ih =>
    rcases lt_or_ge x (f m) with h | h
    · obtain ⟨i, hi, a, b⟩ := ih h
      exact ⟨i, by omega, a, b⟩
    · exact ⟨m, by omega, h, hhi⟩

theorem interval_unique {f : ℕ → ℝ} {m i j : ℕ} {x : ℝ}
    (hmono : ∀ a b, a < b → b ≤ m → f a < f b) (hi : i < m) (hj : j < m)
    (h1 : f i < x) (h2 : x ≤ f (i + 1)) (h3 : f j < x) (h4 : x ≤ f (j + 1)) : i = j := by
  have key : ∀ a b, a < b → b < m → x ≤ f (a + 1) → ¬ f b < x := by
    intro a b hab hb ha hfb
    rcases Nat.lt_or_ge (a + 1) b with h | h
    · have := hmono (a + 1) b h (by omega); linarith
    · rw [show b = a + 1 by omega] at hfb; linarith
  rcases lt_trichotomy i j with h | h | h
  · exact absurd h3 (key i j h hj h2)
  · exact h
  · exact absurd h1 (key j i h hi h4)

theorem interval_uniqueL {f : ℕ → ℝ} {m i j : ℕ} {x : ℝ}
    (hmono : ∀ a b, a < b → b ≤ m → f a < f b) (hi : i < m) (hj : j < m)
    (h1 : f i ≤ x) (h2 : x < f (i + 1)) (h3 : f j ≤ x) (h4 : x < f (j + 1)) : i = j := by
  have key : ∀ a b, a < b → b < m → x < f (a + 1) → ¬ f b ≤ x := by
    intro a b hab hb ha hfb
    rcases Nat.lt_or_ge (a + 1) b with h | h
    · have := hmono (a + 1) b h (by omega); linarith
    · rw [show b = a + 1 by omega] at hfb; linarith
  rcases lt_trichotomy i j with h | h | h
  · exact absurd h3 (key i j h hj h2)
  · exact h
  · exact absurd h1 (key j i h hi h4)

theorem azimuthEdge_strictMono (n : ℕ) (c s : ℝ) (hs : 0 < s) (i : ℕ) :
    ∀ a b, a < b → b ≤ ringSize n c i → azimuthEdge n c s i a < azimuthEdge n c s i b := by
  intro a b hab hb
  unfold azimuthEdge
  have : (0 : ℝ) < ringSize n c i := by
    have : 0 < ringSize n c i := by omega
    exact_mod_cast this
  have hab' : (a : ℝ) < b := by exact_mod_cast hab
  gcongr

theorem azimuthEdge_zero (n : ℕ) (c s : ℝ) (i : ℕ) : azimuthEdge n c s i 0 = 0 := by
  simp [azimuthEdge]

theorem azimuthEdge_last (n : ℕ) (c s : ℝ) (i : ℕ) (h : 0 < ringSize n c i) :
    azimuthEdge n c s i (ringSize n c i) = s := by
  have : (ringSize n c i : ℝ) ≠ 0 := by positivity
  unfold azimuthEdge; field_simp

theorem col0_get (n : ℕ) (hn : 0 < n) (s c : ℝ) (sp : Spacing) {i k : ℕ} (hi : i < 2 * n)
    (hk : k < ringSize n c i) :
    (makeAngleVector n s c sp).col0[ringStart n c i + k]? = some i := by
  unfold Grid.col0
  rw [List.getElem?_map, angleVector_get n hn s c sp hi hk]; rfl

theorem col0_length (n : ℕ) (hn : 0 < n) (s c : ℝ) (sp : Spacing) :
    (makeAngleVector n s c sp).col0.length = ringStart n c (2 * n) := by
  unfold Grid.col0
  rw [List.length_map, angleVector_length n hn]

theorem col0_cases (n : ℕ) (hn : 0 < n) (s c : ℝ) (sp : Spacing) {r : ℕ}
    (hr : r < (makeAngleVector n s c sp).col0.length) :
    ∃ i k, i < 2 * n ∧ k < ringSize n c i ∧ r = ringStart n c i + k ∧
      (makeAngleVector n s c sp).col0[r] = i := by
  rw [col0_length n hn] at hr
  obtain ⟨i, k, hi, hk, e⟩ := exists_block (ringSize n c) (2 * n) r hr
  refine ⟨i, k, hi, hk, e, ?_⟩
  have := col0_get n hn s c sp hi hk
  rw [List.getElem_eq_iff]
  rw [e]; exact this

theorem ringStart_mono (n : ℕ) (c : ℝ) {i j : ℕ} (h : i ≤ j) : ringStart n c i ≤ ringStart n c j :=
  blockStart_mono _ h

theorem ringStart_succ (n : ℕ) (c : ℝ) (i : ℕ) :
    ringStart n c (i + 1) = ringStart n c i + ringSize n c i := blockStart_succ _ _

theorem ringStart_zero (n : ℕ) (c : ℝ) : ringStart n c 0 = 0 := blockStart_zero _

theorem ringRow_eq (n : ℕ) (hn : 0 < n) (s c : ℝ) (hc : 0 < c) (sp : Spacing) {i : ℕ}
    (hi : i < 2 * n) :
    ringRow (makeAngleVector n s c sp).col0 (i : ℤ) = ringStart n c i := by
  have hN := ringSize_pos n c hc hi
  have hlen : ringStart n c i < (makeAngleVector n s c sp).col0.length := by
    rw [col0_length n hn]
    have := ringStart_mono n c (show i + 1 ≤ 2 * n from hi)
    rw [ringStart_succ] at this; omega
  have hval : (makeAngleVector n s c sp).col0[ringStart n c i] = i := by
    have := col0_get n hn s c sp hi hN
    rw [List.getElem_eq_iff]; simpa using this
  unfold ringRow
  apply argmin_eq (by simpa using hlen)
  · intro y hy
    rw [List.getElem_map, hval]
    rw [List.mem_map] at hy
    obtain ⟨r, _, rfl⟩ := hy
    simp
  · intro j hj
    rw [List.getElem_map, List.getElem_map, hval]
    obtain ⟨i', k', hi', hk', e, hv⟩ := col0_cases n hn s c sp (show j < _ from lt_trans hj hlen)
    rw [hv]
    have : i' < i := by
      by_contra hcon
      have := ringStart_mono n c (show i ≤ i' by omega)
      omega
    simp only [sub_self, abs_zero, abs_pos, ne_eq]
    omega

theorem ringRow_neg_one (n : ℕ) (hn : 0 < n) (s c : ℝ) (hc : 0 < c) (sp : Spacing) :
    ringRow (makeAngleVector n s c sp).col0 (-1) = 0 := by
  have hN := ringSize_pos n c hc (show 0 < 2 * n by omega)
  have hlen : 0 < (makeAngleVector n s c sp).col0.length := by
    rw [col0_length n hn]
    have := ringStart_mono n c (show 0 + 1 ≤ 2 * n by omega)
    rw [ringStart_succ] at this; omega
  have hval : (makeAngleVector n s c sp).col0[0] = 0 := by
    have := col0_get n hn s c sp (show 0 < 2 * n by omega) hN
    rw [List.getElem_eq_iff]; simpa [ringStart_zero] using this
  unfold ringRow
  apply argmin_eq (by simpa using hlen)
  · intro y hy
    rw [List.getElem_map, hval]
    rw [List.mem_map] at hy
    obtain ⟨r, _, rfl⟩ := hy
    have : (0 : ℤ) ≤ r := by positivity
    rw [abs_of_nonneg (by omega), abs_of_nonneg (by omega)]
    push_cast; omega
  · intro j hj; omega

theorem thetaBin_eq (n : ℕ) (hn : 0 < n) (s c : ℝ) (sp : Spacing) {i : ℕ} {theta : ℝ}
    (hi : i < 2 * n) (h1 : polarEdge n sp i < theta) (h2 : theta ≤ polarEdge n sp (i + 1)) :
    thetaBin (makeAngleVector n s c sp) theta = i := by
  unfold thetaBin
  have : (makeAngleVector n s c sp).thetaIntv = thetaIntv n sp := rfl
  rw [this, thetaIntv_eq n hn, digitizeRight_range (polarEdge_strictMono n hn sp) hi h1 h2]
  push_cast; ring

theorem phiIntv_get (n : ℕ) (hn : 0 < n) (s c : ℝ) (sp : Spacing) {i : ℕ} (hi : i < 2 * n) :
    pyGet (makeAngleVector n s c sp).phiIntv (i : ℤ)
      = some ((List.range (ringSize n c i + 1)).map (azimuthEdge n c s i)) := by
  rw [pyGet_ofNat, phiIntv_eq n hn]; simp [hi]

theorem overallBin_eq (n : ℕ) (hn : 0 < n) (s c : ℝ) (hs : 0 < s) (hc : 0 < c) (sp : Spacing)
    {i k : ℕ} {phi : ℝ} (hi : i < 2 * n) (hk : k < ringSize n c i)
    (h1 : azimuthEdge n c s i k < phi) (h2 : phi ≤ azimuthEdge n c s i (k + 1)) :
    overallBin (makeAngleVector n s c sp).phiIntv (makeAngleVector n s c sp).col0 (i : ℤ) phi
      = some ((ringStart n c i + k : ℕ) : ℤ) := by
  unfold overallBin
  rw [phiIntv_get n hn s c sp hi, Option.map_some, ringRow_eq n hn s c hc sp hi,
    digitizeRight_range (azimuthEdge_strictMono n c s hs i) hk h1 h2]
  push_cast; congr 1; ring

theorem overallBin_zero (n : ℕ) (hn : 0 < n) (s c : ℝ) (hs : 0 < s) (hc : 0 < c) (sp : Spacing)
    {i : ℕ} (hi : i < 2 * n) :
    overallBin (makeAngleVector n s c sp).phiIntv (makeAngleVector n s c sp).col0 (i : ℤ) 0
      = some ((ringStart n c i : ℤ) - 1) := by
  unfold overallBin
  rw [phiIntv_get n hn s c sp hi, Option.map_some, ringRow_eq n hn s c hc sp hi,
    digitizeRight_range_zero (azimuthEdge_strictMono n c s hs i) (azimuthEdge_zero n c s i).ge]
  push_cast; congr 1

theorem binOf_eq (n : ℕ) (hn : 0 < n) (s c : ℝ) (hs : 0 < s) (hc : 0 < c) (sp : Spacing)
    {i k : ℕ} {theta phi : ℝ} (hi : i < 2 * n) (hk : k < ringSize n c i)
    (h : InBin n c s sp i k theta phi) :
    binOf (makeAngleVector n s c sp) theta phi = some ((ringStart n c i + k : ℕ) : ℤ) := by
  unfold binOf
  rw [thetaBin_eq n hn s c sp hi h.1 h.2.1]
  exact overallBin_eq n hn s c hs hc sp hi hk h.2.2.1 h.2.2.2

theorem binOf_phi_zero (n : ℕ) (hn : 0 < n) (s c : ℝ) (hs : 0 < s) (hc : 0 < c) (sp : Spacing)
    {i : ℕ} {theta : ℝ} (hi : i < 2 * n)
    (h1 : polarEdge n sp i < theta) (h2 : theta ≤ polarEdge n sp (i + 1)) :
    binOf (makeAngleVector n s c sp) theta 0 = some ((ringStart n c i : ℤ) - 1) := by
  unfold binOf
  rw [thetaBin_eq n hn s c sp hi h1 h2]
  exact overallBin_zero n hn s c hs hc sp hi

theorem mid_inBin (n : ℕ) (hn : 0 < n) (s c : ℝ) (hs : 0 < s) (sp : Spacing)
    {i k : ℕ} (hi : i < 2 * n) (hk : k < ringSize n c i) :
    InBin n c s sp i k (polarMid n sp i) (azimuthMid n c s i k) := by
  have a := polarEdge_strictMono n hn sp i (i + 1) (by omega) (by omega)
  have b := azimuthEdge_strictMono n c s hs i k (k + 1) (by omega) (by omega)
  unfold InBin polarMid azimuthMid
  refine ⟨by linarith, by linarith, by linarith, by linarith⟩

theorem ringStart_half (n : ℕ) (c : ℝ) : ringStart n c (2 * n) = 2 * ringStart n c n := by
  have key : ∀ j, j ≤ n → ringStart n c (n + j) + ringStart n c (n - j) = 2 * ringStart n c n := by
    intro j
    induction j with
    | zero => intro _; simp; ring
    | succ j ih =>
      intro hj
      have h1 := ih (by omega)
      have h2 := ringStart_succ n c (n + j)
      have h3 := ringStart_succ n c (n - (j + 1))
      have h4 := ringSize_symm n c (show n + j < 2 * n by omega)
      rw [show 2 * n - 1 - (n + j) = n - (j + 1) by omega] at h4
      rw [show n - (j + 1) + 1 = n - j by omega] at h3
      rw [← add_assoc] 
      omega
  have := key n le_rfl
  rw [Nat.sub_self, ringStart_zero, ← two_mul] at this
  simpa using this

/-- the mirror image of row `ringStart i + k`, counted from the end -/
theorem ringStart_mirror (n : ℕ) (c : ℝ) {i : ℕ} (hi : i ≤ 2 * n) :
    ringStart n c (2 * n - i) + ringStart n c i = ringStart n c (2 * n) := by
  induction i with
  | zero => simp [ringStart_zero]
  | succ i ih =>
    have h1 := ih (by omega)
    have h2 := ringStart_succ n c i
    have h3 := ringStart_succ n c (2 * n - (i + 1))
    have h4 := ringSize_symm n c (show i < 2 * n by omega)
    rw [show 2 * n - 1 - i = 2 * n - (i + 1) by omega] at h4
    rw [show 2 * n - (i + 1) + 1 = 2 * n - i by omega] at h3
    omega

end Rayflare.Lemmas
