import Verif.Model.TMM
import Verif.Props.RTMatrix2

/-!
# Properties C51: redistribution matrices from the transfer-matrix method
-/

namespace Rayflare

open Rayflare.Np Rayflare.Model Rayflare.Spec Rayflare.Lemmas Real

section
variable (n : ℕ) (hn : 0 < n) (c : ℝ) (hc : 0 < c) (m : ℕ) (hm : 0 < m) (sp : Spacing) (front : Bool)

include hn hc in
theorem tmmBin_ring (s : ℝ) (hs : 0 < s) {i : ℕ} (hi : i < 2 * n) {φ : ℝ} (h0 : 0 < φ) (h1 : φ ≤ s) :
    ∃ k < ringSize n c i, azimuthEdge n c s i k < φ ∧ φ ≤ azimuthEdge n c s i (k + 1) ∧
      tmmBin (makeAngleVector n s c sp) (i : ℤ) φ = some (ringStart n c i + k) ∧ ringStart n c i + k < ringStart n c (2 * n) := by
  have hN := ringSize_pos n c hc hi
  obtain ⟨k, hk, a, b⟩ := exists_interval (f := azimuthEdge n c s i) (m := ringSize n c i) (x := φ)
    (by rw [azimuthEdge_zero]; exact h0) (by rw [azimuthEdge_last n c s i hN]; exact h1)
  have hlt : ringStart n c i + k < ringStart n c (2 * n) := by
    have := ringStart_mono n c (show i + 1 ≤ 2 * n from hi)
    rw [ringStart_succ] at this; omega
  refine ⟨k, hk, a, b, ?_, hlt⟩
  unfold tmmBin
  rw [overallBin_eq n hn s c hs hc sp hi hk a b, Option.bind_some]
  have h2 : 2 * (makeAngleVector n s c sp).half = ringStart n c (2 * n) := by
    unfold Grid.half; rw [half_eq n hn c sp s, ringStart_half]
  rw [h2]
  unfold pyIndex
  rw [if_pos ⟨by omega, by exact_mod_cast hlt⟩]
  simp only [Int.toNat_natCast]

theorem tmmPhiOut_range (hm : 0 < m) (hs : (1e-10 : ℝ) ≤ 2 * π / m) (φ : ℝ) : 0 < tmmPhiOut (2 * π / m) φ ∧ tmmPhiOut (2 * π / m) φ ≤ 2 * π / m ∧
    (OffEdge (2 * π / m) (φ + π) → ∃ q : ℤ, tmmPhiOut (2 * π / m) φ = φ + π + q * (2 * π / m)) := by
  obtain ⟨⟨f0, f1⟩, ⟨q, hq⟩, -⟩ := C05_fold m hm (φ + π)
  unfold tmmPhiOut
  simp only
  split_ifs with h
  · refine ⟨by norm_num, hs, fun hoff => ?_⟩
    rw [h] at hq
    exact absurd (show φ + π = ((-q : ℤ) : ℝ) * (2 * π / m) by push_cast; linarith) (hoff (-q))
  · exact ⟨lt_of_le_of_ne f0 (Ne.symm h), f1.le, fun _ => ⟨q, hq⟩⟩

include hn hc in
/-- The incident row of column `j` and the angle looked up for it. -/
theorem tmm_incident (s : ℝ) {j : ℕ} (hj : j < ringStart n c n) :
    ∃ i k row, i < 2 * n ∧ k < ringSize n c i ∧ (if front then 0 else ringStart n c n) + j = ringStart n c i + k ∧
      (front = true ↔ i < n) ∧ row = ({ ring := i, theta := polarMid n sp i, phi := azimuthMid n c s i k } : Row) ∧
      tmmRow (makeAngleVector n s c sp) front j = some row ∧
      tmmLookup (makeAngleVector n s c sp) front j = some (seen front row.theta) ∧
      0 < seen front row.theta ∧ seen front row.theta < π / 2 := by
  have hhalf : (makeAngleVector n s c sp).half = ringStart n c n := half_eq n hn c sp s
  have htot := ringStart_half n c
  have hlen := angleVector_length n hn s c sp
  have hpos : ∀ i < n, 0 < polarMid n sp i := by
    intro i hi
    have h1 := polarEdge_strictMono n hn sp i (i + 1) (by omega) (by omega)
    have h2 : 0 ≤ polarEdge n sp i := by
      rcases Nat.eq_zero_or_pos i with h | h
      · rw [h, polarEdge_zero]
      · have := polarEdge_strictMono n hn sp 0 i h (by omega)
        rw [polarEdge_zero] at this; exact this.le
    unfold polarMid; linarith
  have hth : ∀ r < ringStart n c n, ∃ i < n, ∃ k < ringSize n c i, r = ringStart n c i + k ∧
      ((makeAngleVector n s c sp).angleVector.take (makeAngleVector n s c sp).half |>.map Row.theta)[r]? = some (polarMid n sp i) := by
    intro r hr
    obtain ⟨i, k, hi, hk, he⟩ := exists_block (ringSize n c) n r (by rw [← ringStart_eq']; exact hr)
    rw [← ringStart_eq'] at he
    refine ⟨i, hi, k, hk, he, ?_⟩
    rw [hhalf, List.getElem?_map, List.getElem?_take_of_lt hr, he, angleVector_get n hn s c sp (by omega) hk]
    rfl
  cases front
  · have hr : ringStart n c n - 1 - j < ringStart n c n := by omega
    obtain ⟨i, hi, k, hk, he, hget⟩ := hth _ hr
    have hmir := ringStart_mirror n c (i := i + 1) (by omega)
    rw [ringStart_succ] at hmir
    have hup : ringStart n c i + ringSize n c i ≤ ringStart n c n := by
      rw [← ringStart_succ]; exact ringStart_mono n c (by omega)
    have hsz := ringSize_symm n c (show i < 2 * n by omega)
    have heq : ringStart n c n + j = ringStart n c (2 * n - 1 - i) + (ringSize n c i - 1 - k) := by
      rw [show 2 * n - 1 - i = 2 * n - (i + 1) by omega]; omega
    refine ⟨2 * n - 1 - i, ringSize n c i - 1 - k, _, by omega, by rw [hsz]; omega, by simpa using heq, by simp; omega, rfl, ?_, ?_, ?_, ?_⟩
    · unfold tmmRow
      simp only [Bool.false_eq_true, if_false]
      rw [hhalf, heq]
      exact angleVector_get n hn s c sp (by omega) (by rw [hsz]; omega)
    · unfold tmmLookup
      simp only [Bool.false_eq_true, if_false]
      rw [List.getElem?_reverse (by simp [hhalf, hlen]; omega)]
      have : ((List.take (makeAngleVector n s c sp).half (makeAngleVector n s c sp).angleVector).map Row.theta).length = ringStart n c n := by
        simp [hhalf, hlen]; omega
      rw [this, hget]
      simp [seen, polarMid_symm n hn sp (show i < 2 * n by omega)]
    · simp [seen, polarMid_symm n hn sp (show i < 2 * n by omega), hpos i hi]
    · simpa [seen, polarMid_symm n hn sp (show i < 2 * n by omega)] using polarMid_lt_half n hn sp hi
  · obtain ⟨i, hi, k, hk, he, hget⟩ := hth j hj
    refine ⟨i, k, _, by omega, hk, by simpa using he, by simp [hi], rfl, ?_, ?_, ?_, ?_⟩
    · unfold tmmRow
      simp only [if_true]
      rw [he]
      exact angleVector_get n hn s c sp (by omega) hk
    · unfold tmmLookup
      simp only [if_true]
      rw [hget]; simp [seen]
    · simpa [seen] using hpos i hi
    · simpa [seen] using polarMid_lt_half n hn sp hi

include hn in
theorem exists_ring {θ : ℝ} (h0 : 0 < θ) (h1 : θ ≤ π) : ∃ i < 2 * n, polarEdge n sp i < θ ∧ θ ≤ polarEdge n sp (i + 1) ∧ (θ ≤ π / 2 ↔ i < n) := by
  obtain ⟨i, hi, a, b⟩ := exists_interval (f := polarEdge n sp) (m := 2 * n) (x := θ)
    (by rw [polarEdge_zero]; exact h0) (by rw [polarEdge_last n hn]; exact h1)
  refine ⟨i, hi, a, b, ?_⟩
  rw [← polarEdge_half n hn sp]
  constructor
  · intro h
    by_contra hcon
    rcases Nat.lt_or_ge n i with h2 | h2
    · have := polarEdge_strictMono n hn sp n i h2 (by omega); linarith
    · have : i = n := by omega
      subst this; linarith
  · intro h
    refine b.trans ?_
    rcases Nat.lt_or_ge (i + 1) n with h2 | h2
    · exact (polarEdge_strictMono n hn sp (i + 1) n h2 (by omega)).le
    · rw [show i + 1 = n by omega]

/-- The direction of the transmitted beam, for an incident beam at angle `θ` and index ratio `ratio = n_in / n_out`: Snell's law, in the hemisphere opposite
to the incident one. -/
noncomputable def refracted (front : Bool) (ratio θ : ℝ) : ℝ := seen front (π - arcsin (ratio * Real.sin θ))

include hn hc hm in
/-- **C51, position of the entries.** Column `j` of the matrix: `R` in the bin of specular reflection, which is in the ring of the incident bin; `T` in a bin of the other hemisphere, which is that
of the refracted beam below the critical angle (always its ring; its azimuthal bin too if the azimuth is off the edge of the symmetry sector); zero elsewhere.  Beyond the critical angle a transmission of at most 1e-8 is dropped. (An incident angle exactly at the critical angle is excluded: there
the transmitted beam is exactly horizontal.) -/
theorem C51_entries (hs : (1e-10 : ℝ) ≤ 2 * π / m) (ratio : ℝ) (hratio : 0 < ratio) (res : TmmRes) (j : ℕ) (hj : j < ringStart n c n)
    (row : Row) (hrow : (makeAngleVector n (2 * π / m) c sp).angleVector[(if front then 0 else ringStart n c n) + j]? = some row)
    (hcrit : ratio * Real.sin (seen front row.theta) ≠ 1) :
    let s := 2 * π / m
    let θ := seen front row.theta
    ∃ col binR, tmmColumn (makeAngleVector n s c sp) s front ratio res j = some col ∧
      binR < ringStart n c (2 * n) ∧ (binR < ringStart n c n ↔ front = true) ∧ col binR = res.R θ ∧
      (∃ i k k', k < ringSize n c i ∧ k' < ringSize n c i ∧ (if front then 0 else ringStart n c n) + j = ringStart n c i + k ∧ binR = ringStart n c i + k') ∧
      (OffEdge s (row.phi + π) → DirInBin n c s sp binR row.theta (row.phi + π)) ∧
      (ratio * Real.sin θ < 1 ∨ 1e-8 < res.T θ → ∃ binT < ringStart n c (2 * n), (binT < ringStart n c n ↔ front = false) ∧ col binT = res.T θ ∧
        (ratio * Real.sin θ < 1 →
          (∃ it kT, it < 2 * n ∧ kT < ringSize n c it ∧ binT = ringStart n c it + kT ∧ polarEdge n sp it < refracted front ratio θ ∧ refracted front ratio θ ≤ polarEdge n sp (it + 1)) ∧
          (OffEdge s (row.phi + π) → DirInBin n c s sp binT (refracted front ratio θ) (row.phi + π))) ∧
        ∀ i, i ≠ binR → i ≠ binT → col i = 0) ∧
      (¬ (ratio * Real.sin θ < 1 ∨ 1e-8 < res.T θ) → ∀ i, i ≠ binR → col i = 0) := by
  intro s θ
  have hpi := Real.pi_pos
  have hs0 : 0 < s := lt_of_lt_of_le (by norm_num) hs
  obtain ⟨i, k, row', hi, hk, hjk, hfi, hrow', hget, hlook, hθ0, hθ1⟩ := tmm_incident n hn c hc sp front s hj
  have hrr : row = row' := by
    have h1 : tmmRow (makeAngleVector n s c sp) front j = some row := by
      unfold tmmRow
      rw [← hrow]
      have : (makeAngleVector n s c sp).half = ringStart n c n := half_eq n hn c sp s
      cases front <;> (simp [this]; rfl)
    rw [h1] at hget; exact Option.some.inj hget
  subst hrr
  obtain ⟨p0, p1, p2⟩ := tmmPhiOut_range m hm hs row.phi
  set φ := tmmPhiOut s row.phi with hφ
  have hth : thetaBin (makeAngleVector n s c sp) row.theta = i := by
    rw [hrow']
    have hb := mid_inBin n hn s c hs0 sp hi hk
    exact thetaBin_eq n hn s c sp hi hb.1 hb.2.1
  obtain ⟨kR, hkR, aR, bR, hbinR, hltR⟩ := tmmBin_ring n hn c hc sp s hs0 hi p0 p1
  have hhemi : ∀ i' k', i' < 2 * n → k' < ringSize n c i' → (ringStart n c i' + k' < ringStart n c n ↔ i' < n) := by
    intro i' k' hi' hk'
    constructor
    · intro h
      by_contra hcon
      have := ringStart_mono n c (show n ≤ i' by omega)
      omega
    · intro h
      have := ringStart_mono n c (show i' + 1 ≤ n from h)
      rw [ringStart_succ] at this; omega
  have hdir : ∀ i' k' θ', i' < 2 * n → k' < ringSize n c i' → polarEdge n sp i' < θ' → θ' ≤ polarEdge n sp (i' + 1) →
      azimuthEdge n c s i' k' < φ → φ ≤ azimuthEdge n c s i' (k' + 1) → OffEdge s (row.phi + π) →
      DirInBin n c s sp (ringStart n c i' + k') θ' (row.phi + π) := by
    intro i' k' θ' hi' hk' h1 h2 h3 h4 hoff
    obtain ⟨q, hq⟩ := p2 hoff
    refine ⟨i', k', q, hi', hk', rfl, h1, h2, ?_, ?_⟩
    · rw [← hq]; exact h3
    · rw [← hq]; exact h4
  have hrowmid : polarEdge n sp i < row.theta ∧ row.theta ≤ polarEdge n sp (i + 1) := by
    rw [hrow']
    have hb := mid_inBin n hn s c hs0 sp hi hk
    exact ⟨hb.1, hb.2.1⟩
  have hsin : 0 < Real.sin θ := Real.sin_pos_of_pos_of_lt_pi hθ0 (by linarith)
  set x := ratio * Real.sin θ with hx
  have hx0 : 0 < x := mul_pos hratio hsin
  have hcol : ∀ θt, tmmThetaT front ratio (res.T θ) θ = some θt → 0 < θt → θt ≤ π → (θt ≤ π / 2 ↔ front = false) →
      ∃ binT < ringStart n c (2 * n), (binT < ringStart n c n ↔ front = false) ∧ binT ≠ ringStart n c i + kR ∧
        tmmColumn (makeAngleVector n s c sp) s front ratio res j =
          some (fun i' => if i' = binT then res.T θ else if i' = ringStart n c i + kR then res.R θ else 0) ∧
        (∃ it kT, it < 2 * n ∧ kT < ringSize n c it ∧ binT = ringStart n c it + kT ∧ polarEdge n sp it < θt ∧ θt ≤ polarEdge n sp (it + 1)) ∧
        (OffEdge s (row.phi + π) → DirInBin n c s sp binT θt (row.phi + π)) := by
    intro θt ht h0 h1 h2
    obtain ⟨it, hit, e1, e2, e3⟩ := exists_ring n hn sp h0 h1
    obtain ⟨kT, hkT, aT, bT, hbinT, hltT⟩ := tmmBin_ring n hn c hc sp s hs0 hit p0 p1
    have hitn : it < n ↔ front = false := by rw [← e3, h2]
    refine ⟨_, hltT, by rw [hhemi it kT hit hkT, hitn], ?_, ?_, ⟨it, kT, hit, hkT, rfl, e1, e2⟩, hdir it kT θt hit hkT e1 e2 aT bT⟩
    · intro heq
      have h5 := hhemi it kT hit hkT
      have h6 := hhemi i kR hi hkR
      rw [heq, h6] at h5
      cases front
      · have : i < n := h5.mpr (hitn.mpr rfl)
        exact absurd (hfi.mpr this) (by simp)
      · have : it < n := h5.mp (hfi.mp rfl)
        exact absurd (hitn.mp this) (by simp)
    · unfold tmmColumn
      rw [hget, Option.bind_some, hlook, Option.bind_some]
      simp only
      rw [← hφ, hth, hbinR, Option.bind_some]
      rw [show seen front row.theta = θ from rfl, ht]
      simp only
      rw [thetaBin_eq n hn s c sp hit e1 e2, hbinT, Option.map_some]
  have hRin : (ringStart n c i + kR < ringStart n c n ↔ front = true) := by rw [hhemi i kR hi hkR, hfi]
  by_cases hT : x < 1 ∨ 1e-8 < res.T θ
  · -- there is a transmission angle
    have hex : ∃ θt, tmmThetaT front ratio (res.T θ) θ = some θt ∧ 0 < θt ∧ θt ≤ π ∧ (θt ≤ π / 2 ↔ front = false) ∧ (x < 1 → θt = refracted front ratio θ) := by
      by_cases hx1 : x < 1
      · have ha0 : 0 < arcsin x := Real.arcsin_pos.mpr hx0
        have ha1 : arcsin x < π / 2 := Real.arcsin_lt_pi_div_two.mpr hx1
        have habs : |ratio * Real.sin θ| ≤ 1 := by rw [← hx, abs_of_pos hx0]; exact hx1.le
        refine ⟨|-arcsin x + if front then π else 0|, ?_, ?_⟩
        · unfold tmmThetaT
          simp only
          rw [if_pos habs]
        · cases front
          · simp only [Bool.false_eq_true, if_false, add_zero, abs_neg, abs_of_pos ha0]
            refine ⟨ha0, by linarith, ⟨fun _ => trivial, fun _ => ha1.le⟩, fun _ => ?_⟩
            unfold refracted seen
            rw [← hx]; simp
          · simp only [if_true]
            rw [abs_of_pos (by linarith)]
            refine ⟨by linarith, by linarith, ⟨fun h => by linarith, fun h => by simp at h⟩, fun _ => ?_⟩
            unfold refracted seen
            rw [← hx]; simp; ring
      · have hx2 : 1 < x := lt_of_le_of_ne (not_lt.mp hx1) (Ne.symm hcrit)
        have hT' : res.T θ > 1e-8 := hT.resolve_left hx1
        have habs : ¬ |ratio * Real.sin θ| ≤ 1 := by rw [← hx, abs_of_pos hx0]; linarith
        have hpi3 := Real.pi_gt_three
        refine ⟨|π / 2 - 1e-5 - if front then π else 0|, ?_, ?_⟩
        · unfold tmmThetaT
          simp only
          rw [if_neg habs, if_pos hT']
        · cases front
          · simp only [Bool.false_eq_true, if_false, sub_zero]
            rw [abs_of_pos (by norm_num; linarith)]
            refine ⟨by norm_num; linarith, by norm_num; linarith, ⟨fun _ => trivial, fun _ => by norm_num⟩, fun h => absurd h hx1⟩
          · simp only [if_true]
            rw [abs_of_neg (by norm_num; linarith)]
            refine ⟨by norm_num; linarith, by norm_num; linarith, ⟨fun h => by norm_num at h; linarith, fun h => by simp at h⟩, fun h => absurd h hx1⟩
    obtain ⟨θt, ht, h0, h1, h2, h3⟩ := hex
    obtain ⟨binT, hlt, hhem, hne, hcl, hd⟩ := hcol θt ht h0 h1 h2
    refine ⟨_, ringStart n c i + kR, hcl, hltR, hRin, by simp [hne.symm], ⟨i, k, kR, hk, hkR, hjk, rfl⟩, ?_, ?_, fun h => absurd hT h⟩
    · exact hdir i kR row.theta hi hkR hrowmid.1 hrowmid.2 aR bR
    · intro _
      refine ⟨binT, hlt, hhem, by simp, ?_, ?_⟩
      · intro hx1
        rw [← h3 hx1]; exact hd
      · intro i' h1 h2; simp [h1, h2]
  · have hx1 : ¬ x < 1 := fun h => hT (Or.inl h)
    have hx2 : 1 < x := lt_of_le_of_ne (not_lt.mp hx1) (Ne.symm hcrit)
    have hT' : ¬ res.T θ > 1e-8 := fun h => hT (Or.inr h)
    have habs : ¬ |ratio * Real.sin θ| ≤ 1 := by rw [← hx, abs_of_pos hx0]; linarith
    have hcl : tmmColumn (makeAngleVector n s c sp) s front ratio res j = some (fun i' => if i' = ringStart n c i + kR then res.R θ else 0) := by
      unfold tmmColumn
      rw [hget, Option.bind_some, hlook, Option.bind_some]
      simp only
      rw [← hφ, hth, hbinR, Option.bind_some]
      have ht : tmmThetaT front ratio (res.T θ) θ = none := by
        unfold tmmThetaT
        simp only
        rw [if_neg habs, if_neg hT']
      rw [show seen front row.theta = θ from rfl, ht]
    refine ⟨_, ringStart n c i + kR, hcl, hltR, hRin, by simp, ⟨i, k, kR, hk, hkR, hjk, rfl⟩, ?_, fun h => absurd h hT, ?_⟩
    · exact hdir i kR row.theta hi hkR hrowmid.1 hrowmid.2 aR bR
    · intro _ i' h1; simp [h1]

include hn hc hm in
/-- **C51, energy.** The column total is `R + T`, except beyond the critical angle for transmissions of at most 1e-8. With absorption (stored unchanged) the total is what the solver reports. -/
theorem C51_energy (hs : (1e-10 : ℝ) ≤ 2 * π / m) (ratio : ℝ) (hratio : 0 < ratio) (res : TmmRes) (j : ℕ) (hj : j < ringStart n c n)
    (row : Row) (hrow : (makeAngleVector n (2 * π / m) c sp).angleVector[(if front then 0 else ringStart n c n) + j]? = some row)
    (hcrit : ratio * Real.sin (seen front row.theta) ≠ 1) (nL : ℕ) :
    let s := 2 * π / m
    let θ := seen front row.theta
    ∃ col abs, tmmColumn (makeAngleVector n s c sp) s front ratio res j = some col ∧ tmmAbsColumn (makeAngleVector n s c sp) front res j = some abs ∧
      (∑ i ∈ Finset.range (ringStart n c (2 * n)), col i + ∑ l ∈ Finset.range nL, abs l = res.R θ + res.T θ + ∑ l ∈ Finset.range nL, res.A θ l ∨
       (1 < ratio * Real.sin θ ∧ res.T θ ≤ 1e-8 ∧
        ∑ i ∈ Finset.range (ringStart n c (2 * n)), col i + ∑ l ∈ Finset.range nL, abs l = res.R θ + ∑ l ∈ Finset.range nL, res.A θ l)) := by
  intro s θ
  obtain ⟨col, binR, h1, h2, h3, h4, -, -, h7, h8⟩ := C51_entries n hn c hc m hm sp front hs ratio hratio res j hj row hrow hcrit
  have habs : tmmAbsColumn (makeAngleVector n s c sp) front res j = some (res.A θ) := by
    obtain ⟨i, k, row', hi, hk, hjk, hfi, hrow', hget, hlook, -, -⟩ := tmm_incident n hn c hc sp front s hj
    have hrr : row = row' := by
      have h1 : tmmRow (makeAngleVector n s c sp) front j = some row := by
        unfold tmmRow
        rw [← hrow]
        have : (makeAngleVector n s c sp).half = ringStart n c n := half_eq n hn c sp s
        cases front <;> (simp [this]; rfl)
      rw [h1] at hget; exact Option.some.inj hget
    subst hrr
    unfold tmmAbsColumn
    rw [hlook]; rfl
  refine ⟨col, res.A θ, h1, habs, ?_⟩
  by_cases hT : ratio * Real.sin θ < 1 ∨ 1e-8 < res.T θ
  · left
    obtain ⟨binT, t1, t2, t3, -, t5⟩ := h7 hT
    have hne : binR ≠ binT := by
      intro he
      rw [← he, h3] at t2
      cases front <;> simp at t2
    have : ∑ i ∈ Finset.range (ringStart n c (2 * n)), col i = col binR + col binT := by
      rw [← Finset.sum_pair hne]
      symm
      apply Finset.sum_subset
      · intro i hi
        simp only [Finset.mem_insert, Finset.mem_singleton] at hi
        rcases hi with rfl | rfl <;> simpa
      · intro i _ hi
        simp only [Finset.mem_insert, Finset.mem_singleton, not_or] at hi
        exact t5 i hi.1 hi.2
    rw [this, h4, t3]
  · right
    have hx1 : ¬ ratio * Real.sin θ < 1 := fun h => hT (Or.inl h)
    refine ⟨lt_of_le_of_ne (not_lt.mp hx1) (Ne.symm hcrit), not_lt.mp fun h => hT (Or.inr h), ?_⟩
    rw [Finset.sum_eq_single binR (fun i _ hi => h8 hT i hi) (fun h => absurd (Finset.mem_range.mpr h2) h), h4]

end

/-- The hypotheses of C51 for glass on air beyond the critical angle (index ratio 3/2, one ring, front). -/
example : ∃ row, (makeAngleVector 1 (2 * π / (1 : ℕ)) 1 .linear).angleVector[(if true then 0 else ringStart 1 1 1) + 0]? = some row ∧
    (1.5 : ℝ) * Real.sin (seen true row.theta) ≠ 1 ∧ (1e-10 : ℝ) ≤ 2 * π / (1 : ℕ) ∧ 0 < ringStart 1 1 1 := by
  have hr : ringSize 1 1 0 = 1 := by simp [ringSize]
  have hpi := Real.pi_gt_three
  refine ⟨{ ring := 0, theta := polarMid 1 .linear 0, phi := azimuthMid 1 1 (2 * π / (1 : ℕ)) 0 0 }, ?_, ?_, ?_, ?_⟩
  · have := angleVector_get 1 (by norm_num) (2 * π / (1 : ℕ)) 1 .linear (i := 0) (k := 0) (by norm_num) (by rw [hr]; norm_num)
    rw [ringStart_zero] at this
    simpa using this
  · have : polarMid 1 .linear 0 = π / 4 := by simp [polarMid, polarEdge]; ring
    simp only [seen, if_true, this, Real.sin_pi_div_four]
    intro h
    have h2 : Real.sqrt 2 = 4 / 3 := by linarith
    have h3 : Real.sqrt 2 * Real.sqrt 2 = 2 := Real.mul_self_sqrt (by norm_num)
    rw [h2] at h3; norm_num at h3
  · norm_num; linarith
  · rw [ringStart_succ, ringStart_zero, hr]; norm_num

end Rayflare
