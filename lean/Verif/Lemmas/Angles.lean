import Verif.Model.Angles
import Verif.Spec.Angles
import Verif.Lemmas.Np

namespace Rayflare.Lemmas

open Real Rayflare.Np Rayflare.Model Rayflare.Spec

theorem linspace_zero_eq (s : ℝ) (N : ℕ) :
    linspace 0 s (N + 1) = (List.range (N + 1)).map (fun k : ℕ => (k : ℝ) * s / (N : ℝ)) := by
  unfold linspace
  apply List.map_congr_left
  intro k _
  simp; ring

theorem thetaIntv_eq (n : ℕ) (hn : 0 < n) (sp : Spacing) :
    thetaIntv n sp = (List.range (2 * n + 1)).map (polarEdge n sp) := by
  have hn' : (n : ℝ) ≠ 0 := by positivity
  cases sp with
  | sin =>
    unfold thetaIntv
    simp only [linspace_zero_eq]
    apply List.ext_getElem
    · simp; omega
    · intro i h1 h2
      simp only [List.length_map, List.length_range] at h2
      rw [List.getElem_append]
      split
      · rename_i h
        simp only [List.length_map, List.length_range] at h
        simp [polarEdge, show i ≤ n by omega]
      · rename_i h
        simp only [List.length_map, List.length_range] at h
        simp [polarEdge, show ¬ i ≤ n by omega]
        congr 3
        omega
  | linear =>
    unfold thetaIntv
    simp only [linspace_zero_eq]
    apply List.ext_getElem
    · simp; omega
    · intro i h1 h2
      simp only [List.length_map, List.length_range] at h2
      rw [List.getElem_append]
      split
      · rename_i h
        simp only [List.length_map, List.length_range] at h
        simp [polarEdge]; field_simp
      · rename_i h
        simp only [List.length_map, List.length_range] at h
        simp [polarEdge]
        rw [Nat.cast_sub (by omega), Nat.cast_sub (by omega), Nat.cast_sub (by omega)]
        push_cast
        field_simp; ring

theorem polarEdge_zero (n : ℕ) (sp : Spacing) : polarEdge n sp 0 = 0 := by
  cases sp <;> simp [polarEdge]

theorem polarEdge_half (n : ℕ) (hn : 0 < n) (sp : Spacing) : polarEdge n sp n = π / 2 := by
  have hn' : (n : ℝ) ≠ 0 := by positivity
  cases sp
  · simp [polarEdge, hn']
  · simp [polarEdge]; field_simp

theorem polarEdge_symm (n : ℕ) (hn : 0 < n) (sp : Spacing) (i : ℕ) (hi : i ≤ 2 * n) :
    polarEdge n sp (2 * n - i) = π - polarEdge n sp i := by
  have hn' : (n : ℝ) ≠ 0 := by positivity
  cases sp
  · simp only [polarEdge]
    rcases lt_trichotomy i n with h | h | h
    · rw [if_neg (by omega), if_pos (by omega)]
      congr 3; norm_cast; omega
    · subst h
      rw [if_pos (by omega), if_pos (by omega)]
      rw [show 2 * i - i = i by omega, div_self hn', arcsin_one]; ring
    · rw [if_pos (by omega), if_neg (by omega)]; ring
  · simp only [polarEdge]
    rw [Nat.cast_sub hi]; push_cast; field_simp

theorem polarEdge_last (n : ℕ) (hn : 0 < n) (sp : Spacing) : polarEdge n sp (2 * n) = π := by
  have := polarEdge_symm n hn sp 0 (by omega)
  rw [polarEdge_zero] at this
  simpa using this

theorem polarEdge_lt_of_le (n : ℕ) (hn : 0 < n) (sp : Spacing) {i j : ℕ} (hij : i < j) (hj : j ≤ n) :
    polarEdge n sp i < polarEdge n sp j := by
  have hn' : (0 : ℝ) < n := by positivity
  have hij' : (i : ℝ) < j := by exact_mod_cast hij
  have hj' : (j : ℝ) ≤ n := by exact_mod_cast hj
  have hi0 : (0 : ℝ) ≤ i := by positivity
  cases sp
  · simp only [polarEdge]
    rw [if_pos (by omega), if_pos hj]
    apply strictMonoOn_arcsin
    · constructor
      · have : (0 : ℝ) ≤ i / n := by positivity
        linarith
      · rw [div_le_one hn']; linarith
    · constructor
      · have : (0 : ℝ) ≤ j / n := by positivity
        linarith
      · rw [div_le_one hn']; linarith
    · gcongr
  · simp only [polarEdge]
    have := pi_pos
    gcongr

theorem polarEdge_strictMono (n : ℕ) (hn : 0 < n) (sp : Spacing) :
    ∀ i j, i < j → j ≤ 2 * n → polarEdge n sp i < polarEdge n sp j := by
  intro i j hij hj
  rcases Nat.le_total j n with h | h
  · exact polarEdge_lt_of_le n hn sp hij h
  · have e1 := polarEdge_symm n hn sp j hj
    have e2 := polarEdge_symm n hn sp i (by omega)
    rcases Nat.lt_or_ge i n with h' | h'
    · have a := polarEdge_lt_of_le n hn sp h' le_rfl
      rcases Nat.lt_or_ge n j with h2 | h2
      · have b := polarEdge_lt_of_le n hn sp (show 2 * n - j < n by omega) le_rfl
        rw [polarEdge_half n hn] at a b
        linarith
      · have : j = n := by omega
        subst this; exact a
    · have b := polarEdge_lt_of_le n hn sp (show 2 * n - j < 2 * n - i by omega) (by omega)
      linarith

/-- polar midpoint of ring `i` -/
noncomputable def polarMid (n : ℕ) (sp : Spacing) (i : ℕ) : ℝ :=
  (polarEdge n sp i + polarEdge n sp (i + 1)) / 2

theorem thetaMiddle_eq (n : ℕ) (hn : 0 < n) (sp : Spacing) :
    thetaMiddle n sp = (List.range (2 * n)).map (polarMid n sp) := by
  rw [thetaMiddle, thetaIntv_eq n hn, midpoints_range]; rfl

theorem polarMid_lt_half (n : ℕ) (hn : 0 < n) (sp : Spacing) {i : ℕ} (hi : i < n) :
    polarMid n sp i < π / 2 := by
  have a := polarEdge_strictMono n hn sp i (i + 1) (by omega) (by omega)
  have b : polarEdge n sp (i + 1) ≤ π / 2 := by
    rw [← polarEdge_half n hn sp]
    rcases Nat.lt_or_ge (i + 1) n with h | h
    · exact (polarEdge_strictMono n hn sp _ _ h (by omega)).le
    · rw [show i + 1 = n by omega]
  unfold polarMid; linarith

theorem polarMid_gt_half (n : ℕ) (hn : 0 < n) (sp : Spacing) {i : ℕ} (hi : n ≤ i) (hi2 : i < 2 * n) :
    π / 2 < polarMid n sp i := by
  have a := polarEdge_strictMono n hn sp i (i + 1) (by omega) (by omega)
  have b : π / 2 ≤ polarEdge n sp i := by
    rw [← polarEdge_half n hn sp]
    rcases Nat.lt_or_ge n i with h | h
    · exact (polarEdge_strictMono n hn sp _ _ h (by omega)).le
    · rw [show i = n by omega]
  unfold polarMid; linarith

theorem polarMid_symm (n : ℕ) (hn : 0 < n) (sp : Spacing) {i : ℕ} (hi : i < 2 * n) :
    polarMid n sp (2 * n - 1 - i) = π - polarMid n sp i := by
  have a := polarEdge_symm n hn sp i (by omega)
  have b := polarEdge_symm n hn sp (i + 1) (by omega)
  unfold polarMid
  rw [show 2 * n - 1 - i + 1 = 2 * n - i by omega, show 2 * n - 1 - i = 2 * n - (i + 1) by omega, a, b]
  ring

theorem ringInd_eq (n : ℕ) (hn : 0 < n) (sp : Spacing) {i : ℕ} (hi : i < 2 * n) :
    ringInd (2 * n + 1) i (polarMid n sp i) = min (i + 1) (2 * n - i) := by
  unfold ringInd
  rcases Nat.lt_or_ge i n with h | h
  · rw [if_neg (not_lt.mpr (polarMid_lt_half n hn sp h).le)]; omega
  · rw [if_pos (polarMid_gt_half n hn sp h hi)]; omega

theorem phiEdges_eq (n : ℕ) (hn : 0 < n) (sp : Spacing) (c s : ℝ) {i : ℕ} (hi : i < 2 * n) :
    phiEdges s c (ringInd (2 * n + 1) i (polarMid n sp i))
      = (List.range (ringSize n c i + 1)).map (azimuthEdge n c s i) := by
  unfold phiEdges
  rw [ringInd_eq n hn sp hi, linspace_zero_eq]
  rfl

/-- azimuth midpoint -/
noncomputable def azimuthMid (n : ℕ) (c s : ℝ) (i k : ℕ) : ℝ :=
  (azimuthEdge n c s i k + azimuthEdge n c s i (k + 1)) / 2

theorem zipIdx_map_range {α : Type*} (f : ℕ → α) (m : ℕ) :
    ((List.range m).map f).zipIdx = (List.range m).map (fun i => (f i, i)) := by
  apply List.ext_getElem
  · simp
  · intro i h1 h2; simp

theorem phiIntv_eq (n : ℕ) (hn : 0 < n) (s c : ℝ) (sp : Spacing) :
    (makeAngleVector n s c sp).phiIntv
      = (List.range (2 * n)).map
          (fun i => (List.range (ringSize n c i + 1)).map (azimuthEdge n c s i)) := by
  unfold makeAngleVector
  simp only [thetaMiddle_eq n hn, zipIdx_map_range, List.map_map]
  apply List.map_congr_left
  intro i hi
  simp only [Function.comp]
  rw [thetaIntv_eq n hn]
  simp only [List.length_map, List.length_range]
  exact phiEdges_eq n hn sp c s (List.mem_range.mp hi)

/-- the row list of ring `i` -/
noncomputable def ringRows (n : ℕ) (s c : ℝ) (sp : Spacing) (i : ℕ) : List Row :=
  (List.range (ringSize n c i)).map
    (fun k => { ring := i, theta := polarMid n sp i, phi := azimuthMid n c s i k })

theorem length_ringRows (n : ℕ) (s c : ℝ) (sp : Spacing) (i : ℕ) :
    (ringRows n s c sp i).length = ringSize n c i := by simp [ringRows]

theorem angleVector_eq (n : ℕ) (hn : 0 < n) (s c : ℝ) (sp : Spacing) :
    (makeAngleVector n s c sp).angleVector = (List.range (2 * n)).flatMap (ringRows n s c sp) := by
  unfold makeAngleVector
  simp only [thetaMiddle_eq n hn, zipIdx_map_range, List.flatMap_map]
  simp only [List.flatMap]
  congr 1
  apply List.map_congr_left
  intro i hi
  rw [thetaIntv_eq n hn]
  simp only [List.length_map, List.length_range]
  rw [phiEdges_eq n hn sp c s (List.mem_range.mp hi), midpoints_range, List.map_map]
  rfl

theorem ringStart_eq (n : ℕ) (s c : ℝ) (sp : Spacing) :
    blockStart (fun i => (ringRows n s c sp i).length) = ringStart n c := by
  funext i
  simp [blockStart, ringStart, length_ringRows]

theorem ringStart_eq' (n : ℕ) (c : ℝ) : ringStart n c = blockStart (ringSize n c) := rfl

theorem angleVector_length (n : ℕ) (hn : 0 < n) (s c : ℝ) (sp : Spacing) :
    (makeAngleVector n s c sp).angleVector.length = ringStart n c (2 * n) := by
  rw [angleVector_eq n hn, length_blocks, ringStart_eq]

theorem angleVector_get (n : ℕ) (hn : 0 < n) (s c : ℝ) (sp : Spacing) {i k : ℕ} (hi : i < 2 * n)
    (hk : k < ringSize n c i) :
    (makeAngleVector n s c sp).angleVector[ringStart n c i + k]?
      = some { ring := i, theta := polarMid n sp i, phi := azimuthMid n c s i k } := by
  rw [angleVector_eq n hn, ← ringStart_eq n s c sp,
    getElem?_blocks (hi := hi) (hk := by rw [length_ringRows]; exact hk)]
  simp [ringRows]

theorem ringSize_pos (n : ℕ) (c : ℝ) (hc : 0 < c) {i : ℕ} (hi : i < 2 * n) : 0 < ringSize n c i := by
  unfold ringSize
  rw [Nat.ceil_pos]
  have : (0 : ℝ) < ((min (i + 1) (2 * n - i) : ℕ) : ℝ) := by
    have : 0 < min (i + 1) (2 * n - i) := by omega
    exact_mod_cast this
  positivity

theorem ringSize_symm (n : ℕ) (c : ℝ) {i : ℕ} (hi : i < 2 * n) :
    ringSize n c (2 * n - 1 - i) = ringSize n c i := by
  unfold ringSize
  congr 3
  omega

end Rayflare.Lemmas
