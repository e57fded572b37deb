import Verif.Props.RTMatrix
import Mathlib.Data.Int.CardIntervalMod

/-!
# Properties C49, C50 and C80: unused incidence bins, launched rays
-/

namespace Rayflare

open Rayflare.Np Rayflare.Model Rayflare.Spec Rayflare.Lemmas Real

/-! ## Launched directions -/

theorem getElem?_tile {α : Type*} (l : List α) (hl : 0 < l.length) (reps k : ℕ) (hk : k < reps * l.length) :
    (tile l reps)[k]? = l[k % l.length]? := by
  induction reps generalizing k with
  | zero => simp at hk
  | succ reps ih =>
    have : tile l (reps + 1) = l ++ tile l reps := by simp [tile, List.replicate_succ]
    rw [this]
    rcases Nat.lt_or_ge k l.length with h | h
    · rw [List.getElem?_append_left h, Nat.mod_eq_of_lt h]
    · rw [List.getElem?_append_right h, ih (k - l.length) (by rw [Nat.succ_mul] at hk; omega)]
      congr 1
      rw [Nat.mod_eq_sub_mod h]

theorem length_tile {α : Type*} (l : List α) (reps : ℕ) : (tile l reps).length = reps * l.length := by
  simp [tile]

/-- The launched directions repeat the incidence bins in order. -/
theorem launched_get (g : Grid) (nAng : ℕ) (hpos : 0 < g.angleVector.length / 2) :
    (launched g nAng).length = nAng ∧
    ∀ l, l < nAng → ∃ row, g.angleVector[l % (g.angleVector.length / 2)]? = some row ∧ (launched g nAng)[l]? = some (row.theta, row.phi) := by
  set half := g.angleVector.length / 2 with hhalf
  set A := g.angleVector.take half with hA
  have hAl : A.length = half := by rw [hA, List.length_take]; omega
  set B := A.map fun r => (r.theta, r.phi) with hB
  have hBl : B.length = half := by rw [hB, List.length_map, hAl]
  have hle : nAng ≤ ⌈(nAng : ℝ) / (A.length : ℝ)⌉₊ * B.length := by
    rw [hBl, hAl]
    have h1 := Nat.le_ceil ((nAng : ℝ) / (half : ℝ))
    have h2 : (0 : ℝ) < half := by exact_mod_cast hpos
    rw [div_le_iff₀ h2] at h1
    exact_mod_cast h1
  have hL : launched g nAng = (tile B ⌈(nAng : ℝ) / (A.length : ℝ)⌉₊).take nAng := rfl
  constructor
  · rw [hL, List.length_take, length_tile]; omega
  · intro l hl
    have hmod : l % half < half := Nat.mod_lt _ hpos
    have hlt : l % half < g.angleVector.length := by omega
    refine ⟨g.angleVector[l % half], by simp [hlt], ?_⟩
    rw [hL, List.getElem?_take_of_lt hl, getElem?_tile B (by omega) _ _ (by omega), hBl, hB, List.getElem?_map, hA,
      List.getElem?_take_of_lt hmod]
    simp [hlt]

section
variable (n : ℕ) (hn : 0 < n) (c : ℝ) (hc : 0 < c) (m : ℕ) (hm : 0 < m) (sp : Spacing) (tmm front : Bool) (nL : ℕ)

include hn in
theorem half_eq (s : ℝ) : (makeAngleVector n s c sp).angleVector.length / 2 = ringStart n c n := by
  rw [angleVector_length n hn, ringStart_half]; omega

include hn hc in
theorem half_pos : 0 < ringStart n c n := by
  have h1 := ringSize_pos n c hc (show 0 < 2 * n by omega)
  have h2 : ringStart n c (0 + 1) ≤ ringStart n c n := ringStart_mono n c (by omega)
  rw [ringStart_succ] at h2
  omega

include hn hc hm in
/-- Every column belongs to exactly one launched bin, and rays from the bin centre are legitimate rays incident in that column. -/
theorem centre_incident :
    ∃ f : ℕ → ℕ, (∀ r < ringStart n c n, f r < ringStart n c n) ∧ (∀ j < ringStart n c n, ∃ r < ringStart n c n, f r = j) ∧
      (∀ r < ringStart n c n, ∀ r' < ringStart n c n, f r = f r' → r = r') ∧
      ∀ r < ringStart n c n, ∀ row, (makeAngleVector n (2 * π / m) c sp).angleVector[r]? = some row → ∀ o,
        0 < row.theta ∧ row.theta < π / 2 ∧ OffEdge (2 * π / m) row.phi ∧
        ∀ j, IncidentIn n c (2 * π / m) sp front j { θin := row.theta, φin := row.phi, out := o } ↔ j = f r := by
  set s : ℝ := 2 * π / m with hsdef
  have hpi := Real.pi_pos
  have hs : 0 < s := by rw [hsdef]; positivity
  set half := ringStart n c n with hhalf
  have hfull : ringStart n c (2 * n) = 2 * half := ringStart_half n c
  -- decomposition of a bin of the upper hemisphere
  have hdec : ∀ r < half, ∃ i k, i < n ∧ k < ringSize n c i ∧ r = ringStart n c i + k := by
    intro r hr
    obtain ⟨i, k, hi, hk, he⟩ := exists_block (ringSize n c) n r (by rw [← ringStart_eq']; exact hr)
    rw [← ringStart_eq'] at he
    exact ⟨i, k, hi, hk, he⟩
  have hmir : ∀ i < n, ringStart n c (2 * n - 1 - i) + ringStart n c (i + 1) = 2 * half := by
    intro i hi
    have := ringStart_mirror n c (i := i + 1) (by omega)
    rw [hfull] at this
    rw [show 2 * n - 1 - i = 2 * n - (i + 1) by omega]
    exact this
  have hrowdata : ∀ i k, i < n → k < ringSize n c i → ∀ row, (makeAngleVector n s c sp).angleVector[ringStart n c i + k]? = some row → ∀ o,
      0 < row.theta ∧ row.theta < π / 2 ∧ OffEdge s row.phi ∧
      IncidentIn n c s sp front (if front then ringStart n c i + k else half - ringStart n c (i + 1) + k)
        { θin := row.theta, φin := row.phi, out := o } := by
    intro i k hi hk row hrow o
    rw [angleVector_get n hn s c sp (by omega) hk] at hrow
    obtain rfl := Option.some.inj hrow
    have hb := mid_inBin n hn s c hs sp (show i < 2 * n by omega) hk
    have h0 : 0 < polarMid n sp i := by
      refine lt_of_le_of_lt ?_ hb.1
      rcases Nat.eq_zero_or_pos i with h | h
      · rw [h, polarEdge_zero]
      · have := polarEdge_strictMono n hn sp 0 i h (by omega)
        rw [polarEdge_zero] at this; exact this.le
    have hlt := polarMid_lt_half n hn sp hi
    have haz : 0 < azimuthMid n c s i k ∧ azimuthMid n c s i k < s := by
      have h1 := inBin_azimuth hs hk hb
      refine ⟨h1.1, lt_of_le_of_ne h1.2 ?_⟩
      have hsz : 0 < ringSize n c i := by omega
      have h2 : azimuthEdge n c s i (k + 1) ≤ s := by
        rcases Nat.lt_or_ge (k + 1) (ringSize n c i) with h3 | h3
        · have := azimuthEdge_strictMono n c s hs i (k + 1) _ h3 (le_refl _)
          rw [azimuthEdge_last n c s i hsz] at this; exact this.le
        · rw [show k + 1 = ringSize n c i by omega, azimuthEdge_last n c s i hsz]
      have h4 := azimuthEdge_strictMono n c s hs i k (k + 1) (by omega) hk
      have h5 : azimuthMid n c s i k = (azimuthEdge n c s i k + azimuthEdge n c s i (k + 1)) / 2 := rfl
      intro h6
      rw [h5] at h6
      linarith
    have hoff : OffEdge s (azimuthMid n c s i k) := by
      intro q hq
      rw [hq] at haz
      have h1 : (0 : ℝ) < q := by
        by_contra hcon; push Not at hcon; nlinarith [haz.1]
      have h2 : (q : ℝ) < 1 := by
        by_contra hcon; push Not at hcon; nlinarith [haz.2]
      have h3 : 0 < q := by exact_mod_cast h1
      have h4 : q < 1 := by exact_mod_cast h2
      omega
    refine ⟨h0, hlt, hoff, ?_⟩
    have hup : ringStart n c i + ringSize n c i ≤ half := by
      rw [← ringStart_succ]; exact ringStart_mono n c (by omega)
    cases hf : front
    · refine ⟨?_, 2 * n - 1 - i, k, 0, by omega, by rw [ringSize_symm n c (by omega)]; exact hk, ?_, ?_⟩
      · simp only [Bool.false_eq_true, if_false]
        rw [ringStart_succ]; omega
      · simp only [Bool.false_eq_true, if_false]
        have := hmir i hi
        have h2 : ringStart n c (i + 1) ≤ half := ringStart_mono n c (by omega)
        rw [← hhalf]; omega
      · have hb' := mid_inBin n hn s c hs sp (show 2 * n - 1 - i < 2 * n by omega) (k := k) (by rw [ringSize_symm n c (by omega)]; exact hk)
        rw [polarMid_symm n hn sp (by omega)] at hb'
        have h5 : azimuthMid n c s (2 * n - 1 - i) k = azimuthMid n c s i k := by
          show (azimuthEdge n c s (2 * n - 1 - i) k + azimuthEdge n c s (2 * n - 1 - i) (k + 1)) / 2 = (azimuthEdge n c s i k + azimuthEdge n c s i (k + 1)) / 2
          unfold azimuthEdge
          rw [ringSize_symm n c (by omega)]
        rw [h5] at hb'
        simpa [seen] using hb'
    · refine ⟨?_, i, k, 0, by omega, hk, ?_, ?_⟩
      · simp only [if_true]; omega
      · simp
      · simpa [seen] using hb
  -- the column map
  choose! fi fk hfi using hdec
  set F : ℕ → ℕ := fun r => if front then ringStart n c (fi r) + fk r else half - ringStart n c (fi r + 1) + fk r with hF
  have key : ∀ r < half, ∀ row, (makeAngleVector n s c sp).angleVector[r]? = some row → ∀ o,
      0 < row.theta ∧ row.theta < π / 2 ∧ OffEdge s row.phi ∧
      ∀ j, IncidentIn n c s sp front j { θin := row.theta, φin := row.phi, out := o } ↔ j = F r := by
    intro r hr row hrow o
    obtain ⟨h1, h2, h3⟩ := hfi r hr
    rw [h3] at hrow
    obtain ⟨a, b, e, d⟩ := hrowdata (fi r) (fk r) h1 h2 row hrow o
    refine ⟨a, b, e, ?_⟩
    intro j
    constructor
    · intro hj
      have := dirInBin_unique hn hs hj.2 d.2
      simp only [hF]; omega
    · intro hj
      rw [hj]; exact d
  have hFlt : ∀ r < half, F r < half := by
    intro r hr
    obtain ⟨h1, h2, h3⟩ := hfi r hr
    have hup : ringStart n c (fi r + 1) ≤ half := ringStart_mono n c (by omega)
    rw [ringStart_succ] at hup
    simp only [hF]
    split_ifs
    · omega
    · rw [ringStart_succ]; omega
  have hinj : ∀ r < half, ∀ r' < half, F r = F r' → r = r' := by
    intro r hr r' hr' he
    obtain ⟨h1, h2, h3⟩ := hfi r hr
    obtain ⟨h1', h2', h3'⟩ := hfi r' hr'
    simp only [hF] at he
    split_ifs at he with hf
    · omega
    · have e1 := hmir (fi r) h1
      have e2 := hmir (fi r') h1'
      have hup : ringStart n c (fi r + 1) ≤ half := ringStart_mono n c (by omega)
      have hup' : ringStart n c (fi r' + 1) ≤ half := ringStart_mono n c (by omega)
      have he' : ringStart n c (2 * n - 1 - fi r) + fk r = ringStart n c (2 * n - 1 - fi r') + fk r' := by omega
      rw [ringStart_eq'] at he'
      obtain ⟨g1, g2⟩ := block_unique (ringSize n c) (by rw [ringSize_symm n c (by omega)]; exact h2)
        (by rw [ringSize_symm n c (by omega)]; exact h2') he'
      have : fi r = fi r' := by omega
      rw [h3, h3', this, g2]
  have hsurj : ∀ j < half, ∃ r < half, F r = j := by
    intro j hj
    have h1 : Set.SurjOn F (Finset.range half) (Finset.range half) := by
      apply Finset.surjOn_of_injOn_of_card_le
      · intro r hr; simpa using hFlt r (by simpa using hr)
      · intro r hr r' hr' he; exact hinj r (by simpa using hr) r' (by simpa using hr') he
      · exact le_refl _
    obtain ⟨r, hr, he⟩ := h1 (show j ∈ (Finset.range half : Set ℕ) by simpa using hj)
    exact ⟨r, by simpa using hr, he⟩
  exact ⟨F, hFlt, hsurj, hinj, key⟩

/-! ## C49 -/

include hn hc hm in
/-- What an unused incidence bin contains: uninitialised memory in the outgoing part, zero in the absorbed part. -/
theorem rt_unused (rays : List RTRay) (hok : ∀ r ∈ rays, RayOk (2 * π / m) tmm nL r) (u : RTJunk) (M : RTMat)
    (hM : rtMatrix (rtArgs n (2 * π / m) c sp tmm front nL) u rays = some M) (j : ℕ)
    (hj : ∀ r ∈ rays, ¬ IncidentIn n c (2 * π / m) sp front j r) : (∀ i, M.out i j = u.out i j) ∧ (∀ l, M.A l j = 0) ∧ M.intgr j = 0 := by
  classical
  obtain ⟨f, hf, hM2⟩ := rt_counts n hn c hc m hm sp tmm front nL rays hok
  obtain ⟨e1, e2, e3, -, -, -⟩ := rt_acc n hn c hc m hm sp tmm front nL rays hok f hf
  set acc := (rays.map f).foldl RTAcc.add RTAcc.zero with hacc
  have hMe : M = acc.normalise (rtArgs n (2 * π / m) c sp tmm front nL) u := by rw [hM2 u] at hM; exact (Option.some.inj hM).symm
  have hN : acc.nRays j = 0 := by
    rw [e1 j, nOf_eq]
    have : (rays.countP fun r => decide (IncidentIn n c (2 * π / m) sp front j r)) = 0 := by
      rw [List.countP_eq_zero]; intro r hr; simpa using hj r hr
    exact_mod_cast this
  have hNa : acc.nAbs j = 0 := by
    rw [e2 j, nOf_eq]
    have : (rays.countP fun r => decide (IncidentIn n c (2 * π / m) sp front j r ∧ IsAbsorbed r)) = 0 := by
      rw [List.countP_eq_zero]; intro r hr; simp [hj r hr]
    exact_mod_cast this
  have hA : ∀ l, acc.A l j = 0 := by
    intro l
    rw [e3 l j]
    have : rays.filter (fun r => decide (IncidentIn n c (2 * π / m) sp front j r)) = [] := by
      rw [List.filter_eq_nil_iff]; intro r hr; simpa using hj r hr
    rw [this]; rfl
  rw [hMe]
  refine ⟨?_, ?_, ?_⟩
  · intro i; simp [RTAcc.normalise, divideWhere, hN]
  · intro l; simp [RTAcc.normalise, hA]
  · simp [RTAcc.normalise, hNa]

include hn hc hm in
/-- **C49 is violated.** If fewer directions are launched than there are incidence bins, there is a column of the returned matrix which is whatever the memory
contained, whatever the rays do.  (Any grid with at least two incidence bins; one launched direction suffices.) -/
theorem C49_unused_bins_fails (nAng nPos : ℕ) (hfew : nAng < ringStart n c n) (res : ℕ → ℕ → RTOut)
    (hres : ∀ l1 l2, match res l1 l2 with
      | .leaves θ _ => |θ| ≤ π
      | .absorbed A θl => tmm = true ∧ |θl| ≤ π / 2 ∧ (∀ l, 0 ≤ A l) ∧ 0 < ((List.range nL).map A).sum) :
    ∃ j < ringStart n c n, ∀ junk : ℕ → ℝ, ∃ u M,
      rtMatrix (rtArgs n (2 * π / m) c sp tmm front nL) u (traced (launched (makeAngleVector n (2 * π / m) c sp) nAng) nPos res) = some M ∧
      ∀ i, M.out i j = junk i := by
  obtain ⟨f, hf1, hf2, hf3, hf4⟩ := centre_incident n hn c hc m hm sp front
  have hhp := half_pos n hn c hc
  have hhalf := half_eq n hn c sp (2 * π / m)
  obtain ⟨hlen, hget⟩ := launched_get (makeAngleVector n (2 * π / m) c sp) nAng (by rw [hhalf]; exact hhp)
  rw [hhalf] at hget
  -- every traced ray comes from a centre with index below nAng
  have hray : ∀ r ∈ traced (launched (makeAngleVector n (2 * π / m) c sp) nAng) nPos res, ∃ l < nAng, ∃ l2 row,
      (makeAngleVector n (2 * π / m) c sp).angleVector[l]? = some row ∧ r = { θin := row.theta, φin := row.phi, out := res l l2 } := by
    intro r hr
    unfold traced at hr
    obtain ⟨p, hp, hr'⟩ := List.mem_flatMap.mp hr
    obtain ⟨l2, -, rfl⟩ := List.mem_map.mp hr'
    obtain ⟨d, l⟩ := p
    have hp' := List.mem_zipIdx_iff_getElem?.mp hp
    have hl : l < nAng := by
      rw [← hlen]
      by_contra hcon
      simp only at hp'
      rw [List.getElem?_eq_none (by omega)] at hp'
      simp at hp'
    obtain ⟨row, h1, h2⟩ := hget l hl
    rw [Nat.mod_eq_of_lt (by omega)] at h1
    refine ⟨l, hl, l2, row, h1, ?_⟩
    rw [h2] at hp'
    have : d = (row.theta, row.phi) := (Option.some.inj hp').symm
    simp [this]
  have hok : ∀ r ∈ traced (launched (makeAngleVector n (2 * π / m) c sp) nAng) nPos res, RayOk (2 * π / m) tmm nL r := by
    intro r hr
    obtain ⟨l, hl, l2, row, h1, rfl⟩ := hray r hr
    obtain ⟨a, b, e, -⟩ := hf4 l (by omega) row h1 (res l l2)
    exact ⟨a, b, e, hres l l2⟩
  refine ⟨f nAng, hf1 nAng hfew, ?_⟩
  intro junk
  obtain ⟨M, hM, -⟩ := C48_columns n hn c hc m hm sp tmm front nL _ hok ⟨fun i _ => junk i, fun _ => 0, fun _ => 0⟩
  refine ⟨_, M, hM, ?_⟩
  refine (rt_unused n hn c hc m hm sp tmm front nL _ hok _ M hM (f nAng) ?_).1
  intro r hr hinc
  obtain ⟨l, hl, l2, row, h1, rfl⟩ := hray r hr
  have := ((hf4 l (by omega) row h1 (res l l2)).2.2.2 (f nAng)).mp hinc
  have := hf3 nAng hfew l (by omega) this
  omega

/-- Fewer launched directions than incidence bins: two rings, symmetry element with one and two bins. -/
example : (1 : ℕ) < ringStart 2 1 2 := by
  rw [ringStart_succ, ringStart_succ, ringStart_zero]
  have h0 : ringSize 2 1 0 = 1 := by simp [ringSize]
  have h1 : ringSize 2 1 1 = 2 := by
    unfold ringSize
    norm_num
  rw [h0, h1]; norm_num

include hn hc hm in
/-- **C49, what does hold, column by column.** The column of an incidence bin that received a ray does not depend on uninitialised memory. -/
theorem C49_used_bin_partial (rays : List RTRay) (hok : ∀ r ∈ rays, RayOk (2 * π / m) tmm nL r) (j : ℕ)
    (hall : ∃ r ∈ rays, IncidentIn n c (2 * π / m) sp front j r) (u u' : RTJunk) (M M' : RTMat)
    (hM : rtMatrix (rtArgs n (2 * π / m) c sp tmm front nL) u rays = some M)
    (hM' : rtMatrix (rtArgs n (2 * π / m) c sp tmm front nL) u' rays = some M') :
    (∀ i, M.out i j = M'.out i j) ∧ (∀ l, M.A l j = M'.A l j) ∧ M.intgr j = M'.intgr j := by
  classical
  obtain ⟨f, hf, hM2⟩ := rt_counts n hn c hc m hm sp tmm front nL rays hok
  obtain ⟨r, hr, hrj⟩ := hall
  have e1 := (rt_acc n hn c hc m hm sp tmm front nL rays hok f hf).1
  set acc := (rays.map f).foldl RTAcc.add RTAcc.zero with hacc
  have hN : acc.nRays j ≠ 0 := by
    rw [e1 j, nOf_eq]
    have : 0 < rays.countP fun r => decide (IncidentIn n c (2 * π / m) sp front j r) := List.countP_pos_iff.mpr ⟨r, hr, by simp [hrj]⟩
    exact_mod_cast this.ne'
  have hA0 : ((List.range nL).map fun l => acc.A l j).sum = 0 → ∀ l, acc.A l j = 0 := by
    intro h0 l
    have e2 := (rt_acc n hn c hc m hm sp tmm front nL rays hok f hf).2.2.1
    obtain ⟨hp, hz⟩ := sum_abs_pos n hn c hc m hm tmm nL rays hok (fun r => IncidentIn n c (2 * π / m) sp front j r)
    rw [e2 l j]
    refine hz ?_ l
    by_contra hne
    have hpos : 0 < nOf rays fun r => IncidentIn n c (2 * π / m) sp front j r ∧ IsAbsorbed r := by
      refine lt_of_le_of_ne ?_ (Ne.symm hne)
      rw [nOf_eq]; positivity
    have := hp hpos
    rw [← List.map_congr_left fun l _ => e2 l j] at this
    linarith
  have hMe : M = acc.normalise (rtArgs n (2 * π / m) c sp tmm front nL) u := by rw [hM2 u] at hM; exact (Option.some.inj hM).symm
  have hMe' : M' = acc.normalise (rtArgs n (2 * π / m) c sp tmm front nL) u' := by rw [hM2 u'] at hM'; exact (Option.some.inj hM').symm
  rw [hMe, hMe']
  refine ⟨?_, ?_, ?_⟩
  · intro i; simp [RTAcc.normalise, divideWhere, hN]
  · intro l
    by_cases h0 : ((List.range nL).map fun l => acc.A l j).sum = 0
    · simp [RTAcc.normalise, hA0 h0 l]
    · have h0' : ((List.range (rtArgs n (2 * π / m) c sp tmm front nL).nLayers).map fun l => acc.A l j).sum ≠ 0 := h0
      simp [RTAcc.normalise, divideWhere, hN, h0']
  · rfl

include hn hc hm in
/-- **C49, what does hold.** If every incidence bin receives a ray, no column depends on uninitialised memory. -/
theorem C49_all_bins_used_partial (rays : List RTRay) (hok : ∀ r ∈ rays, RayOk (2 * π / m) tmm nL r)
    (hall : ∀ j < ringStart n c n, ∃ r ∈ rays, IncidentIn n c (2 * π / m) sp front j r) (u u' : RTJunk) (M M' : RTMat)
    (hM : rtMatrix (rtArgs n (2 * π / m) c sp tmm front nL) u rays = some M)
    (hM' : rtMatrix (rtArgs n (2 * π / m) c sp tmm front nL) u' rays = some M') :
    ∀ j < ringStart n c n, (∀ i, M.out i j = M'.out i j) ∧ (∀ l, M.A l j = M'.A l j) ∧ M.intgr j = M'.intgr j :=
  fun j hj => C49_used_bin_partial n hn c hc m hm sp tmm front nL rays hok j (hall j hj) u u' M M' hM hM'

/-! ## C50 -/

/-- **C50, number of rays.** At least the requested number of rays is traced, and fewer than `nx * ny` more. -/
theorem C50_number (nRays nx ny : ℕ) (hx : 0 < nx) (hy : 0 < ny) (g : Grid) (hg : 0 < g.angleVector.length / 2) (res : ℕ → ℕ → RTOut) :
    (traced (launched g (nAngles nRays nx ny)) (nx * ny) res).length = nAngles nRays nx ny * (nx * ny) ∧
    nRays ≤ nAngles nRays nx ny * (nx * ny) ∧ nAngles nRays nx ny * (nx * ny) < nRays + nx * ny := by
  have hx' : (0 : ℝ) < nx := by exact_mod_cast hx
  have hy' : (0 : ℝ) < ny := by exact_mod_cast hy
  have hxy : (0 : ℝ) < (nx : ℝ) * ny := by positivity
  have h1 := Nat.le_ceil ((nRays : ℝ) / ((nx : ℝ) * ny))
  have h2 := Nat.ceil_lt_add_one (show 0 ≤ (nRays : ℝ) / ((nx : ℝ) * ny) by positivity)
  refine ⟨?_, ?_, ?_⟩
  · unfold traced
    rw [List.length_flatMap]
    simp [(launched_get g _ hg).1]
  · rw [div_le_iff₀ hxy] at h1
    unfold nAngles
    exact_mod_cast h1
  · have h3 : (nRays : ℝ) / ((nx : ℝ) * ny) + 1 = (nRays + (nx : ℝ) * ny) / ((nx : ℝ) * ny) := by field_simp
    rw [h3, lt_div_iff₀ hxy] at h2
    unfold nAngles
    exact_mod_cast h2

theorem countP_traced (dirs : List (ℝ × ℝ)) (nPos : ℕ) (res : ℕ → ℕ → RTOut) (P : RTRay → Bool) (Q : ℝ × ℝ → Bool)
    (hPQ : ∀ d o, P { θin := d.1, φin := d.2, out := o } = Q d) : (traced dirs nPos res).countP P = dirs.countP Q * nPos := by
  unfold traced
  suffices h : ∀ k, ((dirs.zipIdx k).flatMap fun p => (List.range nPos).map fun l2 =>
      ({ θin := p.1.1, φin := p.1.2, out := res p.2 l2 } : RTRay)).countP P = dirs.countP Q * nPos from h 0
  induction dirs with
  | nil => intro k; simp
  | cons d ds ih =>
    intro k
    rw [List.zipIdx_cons, List.flatMap_cons, List.countP_append, ih (k + 1), List.countP_cons, List.countP_map]
    cases hq : Q d
    · rw [List.countP_eq_zero.mpr]
      · simp
      · intro l2 _; simp [hPQ d, hq]
    · rw [List.countP_eq_length.mpr]
      · simp; ring
      · intro l2 _; simp [hPQ d, hq]

theorem countP_range_eq (p : ℕ → Prop) [DecidablePred p] (N : ℕ) : (List.range N).countP (fun l => decide (p l)) = Nat.count p N := by
  induction N with
  | zero => simp
  | succ N ih => rw [List.range_succ, List.countP_append, ih, Nat.count_succ]; simp [List.countP_cons]

include hn hc hm in
/-- **C50, every bin.** Whatever happens to the rays, each incidence bin receives `⌊n_angles / bins⌋` repetitions of `nx * ny` rays, or one repetition more.  In particular every
incidence bin receives a ray if there are at least as many launched directions as bins. -/
theorem C50_even (nAng nPos : ℕ) (res : ℕ → ℕ → RTOut) (j : ℕ) (hj : j < ringStart n c n) :
    let N := nOf (traced (launched (makeAngleVector n (2 * π / m) c sp) nAng) nPos res) (fun r => IncidentIn n c (2 * π / m) sp front j r)
    N = (nAng / ringStart n c n * nPos : ℕ) ∨ (N = ((nAng / ringStart n c n + 1) * nPos : ℕ) ∧ nAng % ringStart n c n ≠ 0) := by
  classical
  intro N
  obtain ⟨f, hf1, hf2, hf3, hf4⟩ := centre_incident n hn c hc m hm sp front
  have hhp := half_pos n hn c hc
  have hhalf := half_eq n hn c sp (2 * π / m)
  obtain ⟨hlen, hget⟩ := launched_get (makeAngleVector n (2 * π / m) c sp) nAng (by rw [hhalf]; exact hhp)
  rw [hhalf] at hget
  obtain ⟨r0, hr0, hfr0⟩ := hf2 j hj
  set Q : ℝ × ℝ → Bool := fun d => decide (IncidentIn n c (2 * π / m) sp front j { θin := d.1, φin := d.2, out := .leaves 0 0 }) with hQ
  have hN : N = ((launched (makeAngleVector n (2 * π / m) c sp) nAng).countP Q * nPos : ℕ) := by
    show nOf _ _ = _
    rw [nOf_eq, countP_traced _ nPos res _ Q]
    intro d o
    rw [hQ]
    exact Bool.decide_congr Iff.rfl
  have hcount : (launched (makeAngleVector n (2 * π / m) c sp) nAng).countP Q = Nat.count (· ≡ r0 [MOD ringStart n c n]) nAng := by
    have hL : launched (makeAngleVector n (2 * π / m) c sp) nAng =
        (List.range nAng).map fun l => (launched (makeAngleVector n (2 * π / m) c sp) nAng).getD l (0, 0) := by
      apply List.ext_getElem?
      intro l
      rcases Nat.lt_or_ge l nAng with hl | hl
      · rw [List.getElem?_map, List.getElem?_range hl]
        simp [List.getElem?_eq_getElem (show l < (launched (makeAngleVector n (2 * π / m) c sp) nAng).length by omega)]
      · rw [List.getElem?_eq_none (by omega), List.getElem?_eq_none (by simp; omega)]
    rw [hL, List.countP_map, ← countP_range_eq]
    apply List.countP_congr
    intro l hl
    have hl' : l < nAng := List.mem_range.mp hl
    obtain ⟨row, h1, h2⟩ := hget l hl'
    have hmod : l % ringStart n c n < ringStart n c n := Nat.mod_lt _ hhp
    have key := (hf4 _ hmod row h1 (.leaves 0 0)).2.2.2 j
    have hd : (launched (makeAngleVector n (2 * π / m) c sp) nAng).getD l (0, 0) = (row.theta, row.phi) := by
      rw [List.getD_eq_getElem?_getD, h2]; rfl
    simp only [Function.comp, hd, hQ, decide_eq_true_eq, key]
    unfold Nat.ModEq
    rw [Nat.mod_eq_of_lt hr0, ← hfr0]
    constructor
    · intro h; exact (hf3 _ hr0 _ hmod h).symm
    · intro h; rw [h]
  rw [hN, hcount, Nat.count_modEq_card _ hhp, Nat.mod_eq_of_lt hr0]
  split_ifs with h
  · right; exact ⟨rfl, by omega⟩
  · left; simp

include hn hc hm in
/-- **C50, consequence.** With enough rays (`n_rays / (nx * ny)` at least the number of incidence bins) every incidence bin receives at least `nx * ny` rays, so that no column
of the matrix depends on uninitialised memory. -/
theorem C50_populated (nRays nx ny : ℕ) (hx : 0 < nx) (hy : 0 < ny) (henough : ringStart n c n * (nx * ny) ≤ nRays)
    (res : ℕ → ℕ → RTOut) (j : ℕ) (hj : j < ringStart n c n) :
    ((nx * ny : ℕ) : ℝ) ≤ nOf (traced (launched (makeAngleVector n (2 * π / m) c sp) (nAngles nRays nx ny)) (nx * ny) res)
      (fun r => IncidentIn n c (2 * π / m) sp front j r) := by
  have hhp := half_pos n hn c hc
  have hnum := (C50_number nRays nx ny hx hy (makeAngleVector n (2 * π / m) c sp)
    (by rw [half_eq n hn c sp (2 * π / m)]; exact hhp) res).2.1
  have hxy : 0 < nx * ny := Nat.mul_pos hx hy
  have hge : ringStart n c n ≤ nAngles nRays nx ny := Nat.le_of_mul_le_mul_right (henough.trans hnum) hxy
  have hdiv : 1 ≤ nAngles nRays nx ny / ringStart n c n := by
    rw [Nat.one_le_div_iff hhp]; exact hge
  rcases C50_even n hn c hc m hm sp front (nAngles nRays nx ny) (nx * ny) res j hj with h | ⟨h, -⟩
  · rw [h]; exact_mod_cast Nat.le_mul_of_pos_left _ hdiv
  · rw [h]; exact_mod_cast Nat.le_mul_of_pos_left _ (by omega)

end

/-- The hypotheses of C50 for two rings (three incidence bins), `nx = ny = 2` and twelve rays. -/
example : ringStart 2 1 2 * (2 * 2) ≤ 12 := by
  rw [ringStart_succ, ringStart_succ, ringStart_zero]
  have h0 : ringSize 2 1 0 = 1 := by simp [ringSize]
  have h1 : ringSize 2 1 1 = 2 := by
    unfold ringSize
    norm_num
  rw [h0, h1]

/-- A legitimate ray for C48: launched at 45° along azimuth `s / 2`, reflected. -/
example : RayOk (2 * π / (4 : ℕ)) false 0 { θin := π / 4, φin := π / 4, out := .leaves (π / 4) (5 * π / 4) } where
  pos := by have := Real.pi_pos; show 0 < π / 4; positivity
  lt := by have := Real.pi_pos; show π / 4 < π / 2; linarith
  edge := by
    intro q hq
    have hpi := Real.pi_pos
    have h1 : π * (q * 2 - 1) = 0 := by push_cast at hq; linarith
    rcases mul_eq_zero.mp h1 with h | h
    · linarith
    · have h2 : (q * 2 - 1 : ℤ) = 0 := by exact_mod_cast h
      omega
  out := by have := Real.pi_pos; show |π / 4| ≤ π; rw [abs_of_pos (by positivity)]; linarith

/-! ## C80 -/

/-- **C80.** Tracing a ray through the interface of a redistribution matrix ends at the first interaction with the first texture, without an index error, whatever happens there and
however many textures the interface has. -/
theorem C80_one_interaction (nSurf : ℕ) (h : 0 < nSurf) (o : Outcome) (os : List Outcome) :
    ∃ s, sriRun nSurf sriStart (o :: os) = some s ∧ s.stop = true ∧ s.nInt = 1 ∧ s.out = some o ∧
      s.mat = (match o with | .transmit _ => 1 | _ => 0) := by
  have hstop : ∀ (os : List Outcome) (s : Sri), s.stop = true → sriRun nSurf s os = some s := by
    intro os
    induction os with
    | nil => intro s _; rfl
    | cons o os ih => intro s hs; simp [sriRun, sriStep, hs, ih s hs]
  have h0 : pyIndex nSurf 0 = some 0 := by simp [pyIndex, h]
  have h1 : pyIndex (nSurf + 1) 0 = some 0 := by simp [pyIndex]
  have h2 : pyIndex (nSurf + 1) 1 = some 1 := by simp [pyIndex]; omega
  cases o <;> simp [sriRun, sriStep, sriStart, h0, h1, h2, hstop]

end Rayflare
