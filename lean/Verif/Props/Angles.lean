import Verif.Lemmas.Binning
import Mathlib.Analysis.Real.Pi.Bounds

/-!
# Properties C01-C06: the angular grid, binning of directions, azimuth folding
-/

namespace Rayflare

open Real Rayflare.Np Rayflare.Model Rayflare.Spec Rayflare.Lemmas

/-! ## C01 -/

/-- **C01, polar edges.** `2n+1` strictly increasing edges, from 0 to π, symmetric about π/2;
equally spaced in `sin θ` (resp. in `θ`) on the upper hemisphere. -/
theorem C01_polar_edges (n : ℕ) (hn : 0 < n) (phiSym c : ℝ) (sp : Spacing) :
    let t := (makeAngleVector n phiSym c sp).thetaIntv
    t.length = 2 * n + 1 ∧ t.Pairwise (· < ·) ∧ t[0]? = some 0 ∧ t[2 * n]? = some π ∧
    (∀ i ≤ 2 * n, ∀ a b, t[i]? = some a → t[2 * n - i]? = some b → b = π - a) ∧
    (∀ i ≤ n, ∃ a, t[i]? = some a ∧ 0 ≤ a ∧ a ≤ π / 2 ∧
      match sp with
      | .sin => Real.sin a = (i : ℝ) / n
      | .linear => a = (i : ℝ) / n * (π / 2)) := by
  have ht : (makeAngleVector n phiSym c sp).thetaIntv
      = (List.range (2 * n + 1)).map (polarEdge n sp) := thetaIntv_eq n hn sp
  have hget : ∀ i, i ≤ 2 * n →
      (makeAngleVector n phiSym c sp).thetaIntv[i]? = some (polarEdge n sp i) := by
    intro i hi; rw [ht, List.getElem?_map, List.getElem?_range (by omega)]; rfl
  have hmono := polarEdge_strictMono n hn sp
  refine ⟨by rw [ht]; simp, ?_, by rw [hget 0 (by omega), polarEdge_zero],
    by rw [hget _ le_rfl, polarEdge_last n hn], ?_, ?_⟩
  · rw [ht, List.pairwise_map]
    refine (List.pairwise_lt_range).imp_of_mem ?_
    intro a b _ hb hab
    exact hmono a b hab (by have := List.mem_range.mp hb; omega)
  · intro i hi a b ha hb
    rw [hget i hi] at ha
    rw [hget _ (by omega)] at hb
    have := polarEdge_symm n hn sp i hi
    simp only [Option.some.injEq] at ha hb
    rw [← ha, ← hb, this]
  · intro i hi
    refine ⟨polarEdge n sp i, hget i (by omega), ?_, ?_, ?_⟩
    · rcases Nat.eq_zero_or_pos i with h | h
      · subst h; rw [polarEdge_zero]
      · have := hmono 0 i h (by omega); rw [polarEdge_zero] at this; exact this.le
    · rw [← polarEdge_half n hn sp]
      rcases Nat.lt_or_ge i n with h | h
      · exact (hmono i n h (by omega)).le
      · rw [show i = n by omega]
    · have hn' : (0 : ℝ) < n := by positivity
      have hi' : (i : ℝ) ≤ n := by exact_mod_cast hi
      cases sp
      · simp only [polarEdge, hi, if_true]
        have h0 : (0 : ℝ) ≤ i / n := by positivity
        exact Real.sin_arcsin (by linarith) (by rw [div_le_one hn']; exact hi')
      · simp only [polarEdge]; field_simp

/-- **C01, azimuth edges.** Ring `i` has `ceil(c*min(i+1,2n-i)) ≥ 1` equal azimuth bins from 0 to
`phi_sym`. -/
theorem C01_azimuth_edges (n : ℕ) (hn : 0 < n) (phiSym c : ℝ) (hc : 0 < c) (sp : Spacing) :
    let p := (makeAngleVector n phiSym c sp).phiIntv
    p.length = 2 * n ∧
    ∀ i < 2 * n, 1 ≤ ringSize n c i ∧ ∃ e, p[i]? = some e ∧ e.length = ringSize n c i + 1 ∧
      ∀ k ≤ ringSize n c i, e[k]? = some ((k : ℝ) / ringSize n c i * phiSym) := by
  have hp := phiIntv_eq n hn phiSym c sp
  refine ⟨by rw [hp]; simp, ?_⟩
  intro i hi
  refine ⟨ringSize_pos n c hc hi, (List.range (ringSize n c i + 1)).map (azimuthEdge n c phiSym i),
    ?_, by simp, ?_⟩
  · rw [hp]; simp [hi]
  · intro k hk
    rw [List.getElem?_map, List.getElem?_range (by omega)]
    simp [azimuthEdge]; ring

/-- **C01, rows.** `angle_vector` lists the bins ring by ring: row `ringStart i + k` is
(i, polar midpoint of ring i, azimuth midpoint of bin k), and there are no other rows. -/
theorem C01_rows (n : ℕ) (hn : 0 < n) (phiSym c : ℝ) (sp : Spacing) :
    let g := makeAngleVector n phiSym c sp
    g.angleVector.length = ringStart n c (2 * n) ∧
    ∀ i < 2 * n, ∀ k < ringSize n c i, ∀ lo hi plo phi e,
      g.thetaIntv[i]? = some lo → g.thetaIntv[i + 1]? = some hi → g.phiIntv[i]? = some e →
      e[k]? = some plo → e[k + 1]? = some phi →
      g.angleVector[ringStart n c i + k]?
        = some { ring := i, theta := (lo + hi) / 2, phi := (plo + phi) / 2 } := by
  refine ⟨angleVector_length n hn phiSym c sp, ?_⟩
  intro i hi k hk lo hi' plo phi e h1 h2 h3 h4 h5
  have ht : (makeAngleVector n phiSym c sp).thetaIntv
      = (List.range (2 * n + 1)).map (polarEdge n sp) := thetaIntv_eq n hn sp
  rw [ht, List.getElem?_map, List.getElem?_range (by omega)] at h1 h2
  rw [phiIntv_eq n hn, List.getElem?_map, List.getElem?_range hi] at h3
  simp only [Option.map_some, Option.some.injEq] at h1 h2 h3
  rw [← h3, List.getElem?_map, List.getElem?_range (by omega)] at h4 h5
  simp only [Option.map_some, Option.some.injEq] at h4 h5
  rw [angleVector_get n hn phiSym c sp hi hk, ← h1, ← h2, ← h4, ← h5]
  rfl

/-- Non-vacuity: the package defaults `n = 50`, `phi_sym = π/2`, `c = 1/4` satisfy the hypotheses,
and a 2-ring grid has the expected single bin per ring. -/
example : (0 : ℕ) < 50 ∧ (0 : ℝ) < 1 / 4 ∧ ringSize 1 (1 / 4) 0 = 1 ∧ ringSize 1 (1 / 4) 1 = 1 := by
  refine ⟨by norm_num, by norm_num, ?_, ?_⟩ <;>
  · unfold ringSize; rw [Nat.ceil_eq_iff (by norm_num)]; norm_num

/-! ## C02 -/

/-- **C02.** Even number of rows; the first half is exactly the rows with polar angle below π/2, the
second half exactly those above; and polar angles are mirrored about the middle of the list. -/
theorem C02_hemispheres (n : ℕ) (hn : 0 < n) (phiSym c : ℝ) (sp : Spacing) :
    let av := (makeAngleVector n phiSym c sp).angleVector
    let half := av.length / 2
    av.length = 2 * half ∧
    (∀ r row, av[r]? = some row →
      (r < half ↔ row.theta < π / 2) ∧ (half ≤ r ↔ π / 2 < row.theta)) ∧
    (∀ j < half, ∀ row row', av[half - 1 - j]? = some row → av[half + j]? = some row' →
      row'.theta = π - row.theta) := by
  have hlen := angleVector_length n hn phiSym c sp
  have hhalf := ringStart_half n c
  simp only [hlen]
  have hdiv : ringStart n c (2 * n) / 2 = ringStart n c n := by omega
  rw [hdiv]
  have hdec : ∀ r row, (makeAngleVector n phiSym c sp).angleVector[r]? = some row →
      ∃ i k, i < 2 * n ∧ k < ringSize n c i ∧ r = ringStart n c i + k ∧
        row.theta = polarMid n sp i := by
    intro r row h
    have hr : r < ringStart n c (2 * n) := by
      rw [← hlen]; exact (List.getElem?_eq_some_iff.mp h).1
    obtain ⟨i, k, hi, hk, e⟩ := exists_block (ringSize n c) (2 * n) r hr
    refine ⟨i, k, hi, hk, e, ?_⟩
    rw [e] at h
    have := angleVector_get n hn phiSym c sp hi hk
    rw [ringStart_eq'] at this
    rw [this] at h
    simp only [Option.some.injEq] at h
    rw [← h]
  refine ⟨by omega, ?_, ?_⟩
  · intro r row h
    obtain ⟨i, k, hi, hk, e, hth⟩ := hdec r row h
    rw [hth]
    rcases Nat.lt_or_ge i n with hin | hin
    · have a := polarMid_lt_half n hn sp hin
      have b : r < ringStart n c n := by
        have := ringStart_mono n c (show i + 1 ≤ n from hin)
        rw [ringStart_succ] at this; omega
      constructor
      · exact ⟨fun _ => a, fun _ => b⟩
      · constructor
        · intro h; omega
        · intro h; linarith
    · have a := polarMid_gt_half n hn sp hin hi
      have b : ringStart n c n ≤ r := by
        have := ringStart_mono n c hin
        omega
      constructor
      · constructor
        · intro h; omega
        · intro h; linarith
      · exact ⟨fun _ => a, fun _ => b⟩
  · intro j hj row row' h h'
    obtain ⟨i, k, hi, hk, e, hth⟩ := hdec _ _ h
    obtain ⟨i', k', hi', hk', e', hth'⟩ := hdec _ _ h'
    have hi'eq : i' = 2 * n - 1 - i := by
      have m1 := ringStart_mirror n c (show i + 1 ≤ 2 * n from hi)
      rw [ringStart_succ] at m1
      have hs := ringSize_symm n c hi
      have : blockStart (ringSize n c) i' + k'
          = blockStart (ringSize n c) (2 * n - 1 - i) + (ringSize n c i - 1 - k) := by
        rw [← ringStart_eq']
        rw [show 2 * n - (i + 1) = 2 * n - 1 - i by omega] at m1
        omega
      exact (block_unique (ringSize n c) hk' (by omega) this).1
    rw [hth, hth', hi'eq, polarMid_symm n hn sp hi]

example : ∃ row, (makeAngleVector 50 (π / 2) (1 / 4) .sin).angleVector[0]? = some row := by
  have h := angleVector_get 50 (by norm_num) (π / 2) (1 / 4) .sin (i := 0) (k := 0) (by norm_num)
    (ringSize_pos 50 (1 / 4) (by norm_num) (by norm_num))
  rw [ringStart_zero] at h
  exact ⟨_, h⟩

/-! ## C03 -/

/-- **C03.** Every direction `0 < θ ≤ π`, `0 < φ ≤ phi_sym` lies in exactly one bin `(i,k)` and the
number the code computes for it is the row of that bin. -/
theorem C03_unique_bin (n : ℕ) (hn : 0 < n) (phiSym c : ℝ) (hs : 0 < phiSym) (hc : 0 < c)
    (sp : Spacing) (theta phi : ℝ) (ht0 : 0 < theta) (ht1 : theta ≤ π) (hp0 : 0 < phi)
    (hp1 : phi ≤ phiSym) :
    ∃ i k, (i < 2 * n ∧ k < ringSize n c i ∧ InBin n c phiSym sp i k theta phi) ∧
      (∀ i' k', i' < 2 * n → k' < ringSize n c i' → InBin n c phiSym sp i' k' theta phi →
        i' = i ∧ k' = k) ∧
      binOf (makeAngleVector n phiSym c sp) theta phi = some ((ringStart n c i + k : ℕ) : ℤ) ∧
      ringStart n c i + k < (makeAngleVector n phiSym c sp).angleVector.length := by
  have hmono := polarEdge_strictMono n hn sp
  obtain ⟨i, hi, h1, h2⟩ := exists_interval (f := polarEdge n sp) (m := 2 * n) (x := theta)
    (by rw [polarEdge_zero]; exact ht0) (by rw [polarEdge_last n hn]; exact ht1)
  have hN := ringSize_pos n c hc hi
  obtain ⟨k, hk, h3, h4⟩ := exists_interval (f := azimuthEdge n c phiSym i) (m := ringSize n c i)
    (x := phi) (by rw [azimuthEdge_zero]; exact hp0)
    (by rw [azimuthEdge_last n c phiSym i hN]; exact hp1)
  have hin : InBin n c phiSym sp i k theta phi := ⟨h1, h2, h3, h4⟩
  refine ⟨i, k, ⟨hi, hk, hin⟩, ?_, binOf_eq n hn phiSym c hs hc sp hi hk hin, ?_⟩
  · intro i' k' hi' hk' hin'
    have e := interval_unique hmono hi' hi hin'.1 hin'.2.1 h1 h2
    subst e
    exact ⟨rfl, interval_unique (azimuthEdge_strictMono n c phiSym hs i') hk' hk hin'.2.2.1
      hin'.2.2.2 h3 h4⟩
  · rw [angleVector_length n hn]
    have := ringStart_mono n c (show i + 1 ≤ 2 * n from hi)
    rw [ringStart_succ] at this; omega

/-- **C03, round trip.** Re-binning the centre of row `r` of `angle_vector` gives `r`. -/
theorem C03_centre_round_trip (n : ℕ) (hn : 0 < n) (phiSym c : ℝ) (hs : 0 < phiSym) (hc : 0 < c)
    (sp : Spacing) (r : ℕ) (row : Row)
    (h : (makeAngleVector n phiSym c sp).angleVector[r]? = some row) :
    binOf (makeAngleVector n phiSym c sp) row.theta row.phi = some (r : ℤ) := by
  have hr : r < ringStart n c (2 * n) := by
    rw [← angleVector_length n hn phiSym c sp]; exact (List.getElem?_eq_some_iff.mp h).1
  obtain ⟨i, k, hi, hk, e⟩ := exists_block (ringSize n c) (2 * n) r hr
  rw [← ringStart_eq'] at e
  have := angleVector_get n hn phiSym c sp hi hk
  rw [e, this] at h
  simp only [Option.some.injEq] at h
  rw [← h, e]
  exact binOf_eq n hn phiSym c hs hc sp hi hk (mid_inBin n hn phiSym c hs sp hi hk)

example : ∃ i k, i < 2 * 50 ∧ InBin 50 (1 / 4) (π / 2) .sin i k 1 1 := by
  have hp : (1 : ℝ) < π / 2 := by linarith [Real.pi_gt_three]
  obtain ⟨i, k, h, _⟩ := C03_unique_bin 50 (by norm_num) (π / 2) (1 / 4) (by positivity) (by norm_num)
    .sin 1 1 (by norm_num) (by linarith [Real.pi_gt_three]) (by norm_num) hp.le
  exact ⟨i, k, h.1, h.2.2⟩

/-! ## C04 -/

/-- The direction is filed in a row (found with Python indexing) of the ring that contains `θ`. -/
def FiledInOwnRing (n : ℕ) (phiSym c : ℝ) (sp : Spacing) (theta phi : ℝ) : Prop :=
  ∃ b row, binOf (makeAngleVector n phiSym c sp) theta phi = some b ∧
    pyGet (makeAngleVector n phiSym c sp).angleVector b = some row ∧
    polarEdge n sp row.ring < theta ∧ theta ≤ polarEdge n sp (row.ring + 1)

/-- **C04 (partial).** For azimuths strictly above 0 the direction is filed in its own ring.
Missing: azimuth exactly 0, where the property is false, see `C04_fails`. -/
theorem C04_own_ring_partial (n : ℕ) (hn : 0 < n) (phiSym c : ℝ) (hs : 0 < phiSym) (hc : 0 < c)
    (sp : Spacing) (theta phi : ℝ) (ht0 : 0 < theta) (ht1 : theta ≤ π) (hp0 : 0 < phi)
    (hp1 : phi ≤ phiSym) : FiledInOwnRing n phiSym c sp theta phi := by
  obtain ⟨i, k, ⟨hi, hk, hin⟩, _, hb, _⟩ :=
    C03_unique_bin n hn phiSym c hs hc sp theta phi ht0 ht1 hp0 hp1
  refine ⟨_, { ring := i, theta := polarMid n sp i, phi := azimuthMid n c phiSym i k }, hb, ?_,
    hin.1, hin.2.1⟩
  rw [pyGet_ofNat]; exact angleVector_get n hn phiSym c sp hi hk

/-- **C04 fails for every grid and every polar angle**: at azimuth exactly 0 (which `fold_phi`
returns, e.g. for any multiple of `phi_sym`) the direction is filed in the *previous* ring, and for the first ring in the
last row of the whole list, i.e. in the opposite hemisphere. -/
theorem C04_fails (n : ℕ) (hn : 0 < n) (phiSym c : ℝ) (hs : 0 < phiSym) (hc : 0 < c)
    (sp : Spacing) (theta : ℝ) (ht0 : 0 < theta) (ht1 : theta ≤ π) :
    ¬ FiledInOwnRing n phiSym c sp theta 0 := by
  rintro ⟨b, row, hb, hrow, h1, h2⟩
  obtain ⟨i, hi, g1, g2⟩ := exists_interval (f := polarEdge n sp) (m := 2 * n) (x := theta)
    (by rw [polarEdge_zero]; exact ht0) (by rw [polarEdge_last n hn]; exact ht1)
  rw [binOf_phi_zero n hn phiSym c hs hc sp hi g1 g2, Option.some.injEq] at hb
  have hmono := polarEdge_strictMono n hn sp
  -- the row found
  rcases Nat.eq_zero_or_pos i with h0 | h0
  · subst h0
    rw [ringStart_zero] at hb
    rw [← hb] at hrow
    have hlen := angleVector_length n hn phiSym c sp
    have hpos : 0 < ringStart n c (2 * n) := by
      have := ringStart_mono n c (show 0 + 1 ≤ 2 * n by omega)
      rw [ringStart_succ] at this
      have := ringSize_pos n c hc (show 0 < 2 * n by omega)
      omega
    have hS := ringStart_succ n c (2 * n - 1)
    rw [show 2 * n - 1 + 1 = 2 * n by omega] at hS
    have hN := ringSize_pos n c hc (show 2 * n - 1 < 2 * n by omega)
    have hget := angleVector_get n hn phiSym c sp (show 2 * n - 1 < 2 * n by omega)
      (show ringSize n c (2 * n - 1) - 1 < ringSize n c (2 * n - 1) by omega)
    have : pyGet (makeAngleVector n phiSym c sp).angleVector ((0 : ℕ) - 1 : ℤ)
        = (makeAngleVector n phiSym c sp).angleVector[
            ringStart n c (2 * n - 1) + (ringSize n c (2 * n - 1) - 1)]? := by
      unfold pyGet
      rw [if_neg (by norm_num), hlen, if_pos (by push_cast; omega)]
      congr 1
      push_cast
      omega
    rw [this, hget, Option.some.injEq] at hrow
    rw [← hrow] at h1 h2
    simp only at h1 h2
    have := interval_unique hmono (show 2 * n - 1 < 2 * n by omega) hi h1 h2 g1 g2
    omega
  · rw [← hb] at hrow
    have hS := ringStart_succ n c (i - 1)
    rw [show i - 1 + 1 = i by omega] at hS
    have hN := ringSize_pos n c hc (show i - 1 < 2 * n by omega)
    have hget := angleVector_get n hn phiSym c sp (show i - 1 < 2 * n by omega)
      (show ringSize n c (i - 1) - 1 < ringSize n c (i - 1) by omega)
    have : pyGet (makeAngleVector n phiSym c sp).angleVector ((ringStart n c i : ℤ) - 1)
        = (makeAngleVector n phiSym c sp).angleVector[
            ringStart n c (i - 1) + (ringSize n c (i - 1) - 1)]? := by
      rw [← pyGet_ofNat]
      congr 1
      push_cast
      omega
    rw [this, hget, Option.some.injEq] at hrow
    rw [← hrow] at h1 h2
    simp only at h1 h2
    have := interval_unique hmono (show i - 1 < 2 * n by omega) hi h1 h2 g1 g2
    omega

example : ¬ FiledInOwnRing 50 (π / 2) (1 / 4) .sin 1 0 :=
  C04_fails 50 (by norm_num) (π / 2) (1 / 4) (by positivity) (by norm_num) .sin 1 (by norm_num)
    (by linarith [Real.pi_gt_three])

/-! ## C05, C06 -/

theorem pyMod_range (x s : ℝ) (hs : 0 < s) : 0 ≤ pyMod x s ∧ pyMod x s < s := by
  unfold pyMod
  have h1 := Int.floor_le (x / s)
  have h2 := Int.lt_floor_add_one (x / s)
  rw [le_div_iff₀ hs] at h1
  rw [div_lt_iff₀ hs] at h2
  constructor <;> nlinarith

theorem mod_unique {s x y : ℝ} (hs : 0 < s) (hx0 : 0 ≤ x) (hx1 : x < s) (hy0 : 0 ≤ y) (hy1 : y < s)
    (k : ℤ) (h : x = y + k * s) : x = y := by
  have hk : k = 0 := by
    have a : (k : ℝ) < 1 := by
      by_contra hc
      have : s ≤ (k : ℝ) * s := by nlinarith
      linarith
    have b : (-1 : ℝ) < k := by
      by_contra hc
      have : (k : ℝ) * s ≤ -s := by nlinarith
      linarith
    have a' : k < 1 := by exact_mod_cast a
    have b' : -1 < k := by exact_mod_cast b
    omega
  rw [hk] at h; simpa using h

/-- **C05.** For `phi_sym = 2π/m` the folded azimuth is the unique number in `[0, phi_sym)` that differs
from `φ` by a whole number of `phi_sym`. -/
theorem C05_fold (m : ℕ) (hm : 0 < m) (phi : ℝ) :
    let s := 2 * π / m
    (0 ≤ foldPhi phi s ∧ foldPhi phi s < s) ∧ (∃ k : ℤ, foldPhi phi s = phi + k * s) ∧
    (∀ x, 0 ≤ x → x < s → (∃ k : ℤ, x = phi + k * s) → x = foldPhi phi s) := by
  have hm' : (0 : ℝ) < m := by positivity
  have hs : 0 < 2 * π / m := by positivity
  have hr := pyMod_range (|pyFloorDiv phi π| * 2 * π + phi) (2 * π / m) hs
  have hex : ∃ k : ℤ, foldPhi phi (2 * π / m) = phi + k * (2 * π / m) := by
    refine ⟨|⌊phi / π⌋| * m - ⌊(|pyFloorDiv phi π| * 2 * π + phi) / (2 * π / m)⌋, ?_⟩
    unfold foldPhi pyMod
    push_cast
    have : |pyFloorDiv phi π| = |((⌊phi / π⌋ : ℤ) : ℝ)| := rfl
    rw [this]
    field_simp
    ring
  refine ⟨hr, hex, ?_⟩
  intro x hx0 hx1 ⟨k, hk⟩
  obtain ⟨k', hk'⟩ := hex
  refine mod_unique hs hx0 hx1 hr.1 hr.2 (k - k') ?_
  rw [hk', hk]
  push_cast; ring

/-- **C05, rotation invariance.** -/
theorem C05_fold_rotation (m : ℕ) (hm : 0 < m) (phi : ℝ) (j : ℤ) :
    foldPhi (phi + j * (2 * π / m)) (2 * π / m) = foldPhi phi (2 * π / m) := by
  obtain ⟨⟨a, b⟩, ⟨k, hk⟩, _⟩ := C05_fold m hm (phi + j * (2 * π / m))
  exact (C05_fold m hm phi).2.2 _ a b ⟨k + j, by rw [hk]; push_cast; ring⟩

/-- **C05, idempotence.** -/
theorem C05_fold_idempotent (m : ℕ) (hm : 0 < m) (phi : ℝ) :
    foldPhi (foldPhi phi (2 * π / m)) (2 * π / m) = foldPhi phi (2 * π / m) := by
  obtain ⟨⟨a, b⟩, _, _⟩ := C05_fold m hm phi
  exact ((C05_fold m hm (foldPhi phi (2 * π / m))).2.2 _ a b ⟨0, by simp⟩).symm

/-- Non-vacuity: a negative angle folded into a quadrant. -/
example : foldPhi (-π / 4) (2 * π / (4 : ℕ)) = π / 4 := by
  refine ((C05_fold 4 (by norm_num) (-π / 4)).2.2 (π / 4) (by positivity) ?_ ⟨1, ?_⟩).symm
  · push_cast; linarith [pi_pos]
  · push_cast; ring

/-- **C06 (partial).** For an arbitrary symmetry angle the result is in `[0, phi_sym)`, and it is the
reduction of `φ` modulo `phi_sym` as long as `0 ≤ φ < π`.  Missing: other angles, for which the
property is false when `phi_sym` does not divide a full turn (`C06_fails`). -/
theorem C06_fold_general_partial (phi s : ℝ) (hs : 0 < s) :
    (0 ≤ foldPhi phi s ∧ foldPhi phi s < s) ∧
    (0 ≤ phi → phi < π → ∃ k : ℤ, foldPhi phi s = phi + k * s) := by
  refine ⟨pyMod_range _ _ hs, ?_⟩
  intro h0 h1
  have hq : ⌊phi / π⌋ = 0 := by
    rw [Int.floor_eq_iff]
    constructor
    · simp; positivity
    · rw [div_lt_iff₀ pi_pos]; simpa using h1
  refine ⟨-⌊phi / s⌋, ?_⟩
  unfold foldPhi pyFloorDiv pyMod
  rw [hq]
  simp; ring

/-- **C06, exactly when.** For one angle `φ` (in half turns `⌊φ/π⌋`, counted without sign) the result is the reduction modulo `phi_sym` exactly if that many full turns are a multiple of `phi_sym`; hence all angles are
folded correctly exactly if `phi_sym` divides a full turn. -/
theorem C06_exactly_partial (s : ℝ) (hs : 0 < s) :
    (∀ phi, (∃ k : ℤ, foldPhi phi s = phi + k * s) ↔ ∃ k : ℤ, ((|⌊phi / π⌋| : ℤ) : ℝ) * (2 * π) = k * s) ∧
    ((∀ phi, ∃ k : ℤ, foldPhi phi s = phi + k * s) ↔ ∃ m : ℕ, 0 < m ∧ s = 2 * π / m) := by
  have hpi := pi_pos
  have key : ∀ phi, (∃ k : ℤ, foldPhi phi s = phi + k * s) ↔ ∃ k : ℤ, ((|⌊phi / π⌋| : ℤ) : ℝ) * (2 * π) = k * s := by
    intro phi
    set X : ℝ := (|pyFloorDiv phi π| * 2 * π + phi) with hX
    have e : foldPhi phi s = X - s * ((⌊X / s⌋ : ℤ) : ℝ) := rfl
    have hq : |pyFloorDiv phi π| = ((|⌊phi / π⌋| : ℤ) : ℝ) := by unfold pyFloorDiv; push_cast; rfl
    constructor
    · rintro ⟨k, hk⟩
      refine ⟨k + ⌊X / s⌋, ?_⟩
      rw [e, hX, hq] at hk
      push_cast
      push_cast at hk
      rw [hX, hq]
      push_cast
      linear_combination hk
    · rintro ⟨k, hk⟩
      refine ⟨k - ⌊X / s⌋, ?_⟩
      rw [e]
      push_cast
      have hX' : X = k * s + phi := by rw [hX, hq, ← hk]; ring
      linear_combination hX'
  refine ⟨key, ?_, ?_⟩
  · intro h
    obtain ⟨k, hk⟩ := (key (-(π / 2))).mp (h _)
    have hq : ⌊-(π / 2) / π⌋ = -1 := by
      rw [show -(π / 2) / π = -(1 / 2 : ℝ) by field_simp, Int.floor_eq_iff]; norm_num
    rw [hq] at hk
    norm_num at hk
    have hkpos : 0 < k := by
      by_contra hcon
      have : (k : ℝ) ≤ 0 := by exact_mod_cast not_lt.mp hcon
      have : (k : ℝ) * s ≤ 0 := mul_nonpos_of_nonpos_of_nonneg this hs.le
      linarith
    refine ⟨k.toNat, by omega, ?_⟩
    have hc : ((k.toNat : ℕ) : ℝ) = k := by exact_mod_cast Int.toNat_of_nonneg hkpos.le
    have hk0 : (k : ℝ) ≠ 0 := by exact_mod_cast hkpos.ne'
    rw [hc, hk]; field_simp
  · rintro ⟨m, hm, rfl⟩ phi
    rw [key]
    refine ⟨|⌊phi / π⌋| * m, ?_⟩
    have : (m : ℝ) ≠ 0 := by exact_mod_cast hm.ne'
    push_cast
    field_simp

/-- **C06 fails**: with `phi_sym = 3π/2`, the angle `-π/4` is folded to `π/4` instead of `5π/4`. -/
theorem C06_fails : ¬ ∀ phi s : ℝ, 0 < s → ∃ k : ℤ, foldPhi phi s = phi + k * s := by
  intro h
  have hpi := pi_pos
  obtain ⟨k, hk⟩ := h (-π / 4) (3 * π / 2) (by positivity)
  have hq : ⌊(-π / 4) / π⌋ = -1 := by
    rw [show (-π / 4) / π = -(1 / 4 : ℝ) by field_simp]
    rw [Int.floor_eq_iff]; norm_num
  have hv : foldPhi (-π / 4) (3 * π / 2) = π / 4 := by
    unfold foldPhi pyFloorDiv
    rw [hq]
    unfold pyMod
    have : ⌊(|((-1 : ℤ) : ℝ)| * 2 * π + -π / 4) / (3 * π / 2)⌋ = 1 := by
      rw [show (|((-1 : ℤ) : ℝ)| * 2 * π + -π / 4) / (3 * π / 2) = (7 / 6 : ℝ) by
        norm_num; field_simp; ring]
      rw [Int.floor_eq_iff]; norm_num
    rw [this]; norm_num; ring
  rw [hv] at hk
  have h2 : (1 : ℝ) = 3 * k := by
    have : π * 1 = π * (3 * k) := by linarith
    exact mul_left_cancel₀ hpi.ne' this
  have h3 : (1 : ℤ) = 3 * k := by exact_mod_cast h2
  omega

end Rayflare
