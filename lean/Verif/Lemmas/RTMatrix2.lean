import Verif.Lemmas.RTMatrix

namespace Rayflare.Lemmas

open Rayflare.Np Rayflare.Model Rayflare.Spec Real

theorem inBin_azimuth {n : ℕ} {c s : ℝ} (hs : 0 < s) {sp : Spacing} {i k : ℕ} {θ φ : ℝ} (hk : k < ringSize n c i) (h : InBin n c s sp i k θ φ) :
    0 < φ ∧ φ ≤ s := by
  have hpos : 0 < ringSize n c i := by omega
  constructor
  · rcases Nat.eq_zero_or_pos k with h0 | h0
    · subst h0; have := h.2.2.1; rwa [azimuthEdge_zero] at this
    · have := azimuthEdge_strictMono n c s hs i 0 k h0 hk.le
      rw [azimuthEdge_zero] at this
      exact this.trans h.2.2.1
  · rcases Nat.lt_or_ge (k + 1) (ringSize n c i) with h1 | h1
    · have := azimuthEdge_strictMono n c s hs i (k + 1) _ h1 (le_refl _)
      rw [azimuthEdge_last n c s i hpos] at this
      exact h.2.2.2.trans this.le
    · have h2 : k + 1 = ringSize n c i := by omega
      have := h.2.2.2
      rwa [h2, azimuthEdge_last n c s i hpos] at this

/-- A direction lies in at most one bin. -/
theorem dirInBin_unique {n : ℕ} (hn : 0 < n) {c s : ℝ} (hs : 0 < s) {sp : Spacing} {r r' : ℕ} {θ φ : ℝ}
    (h : DirInBin n c s sp r θ φ) (h' : DirInBin n c s sp r' θ φ) : r = r' := by
  obtain ⟨i, k, q, hi, hk, rfl, hb⟩ := h
  obtain ⟨i', k', q', hi', hk', rfl, hb'⟩ := h'
  have hii : i = i' := interval_unique (polarEdge_strictMono n hn sp) hi hi' hb.1 hb.2.1 hb'.1 hb'.2.1
  subst hii
  obtain ⟨a1, a2⟩ := inBin_azimuth hs hk hb
  obtain ⟨b1, b2⟩ := inBin_azimuth hs hk' hb'
  have hq : q = q' := by
    have h1 : ((q : ℝ) - q') * s < s := by linarith
    have h2 : -s < ((q : ℝ) - q') * s := by linarith
    have h3 : (q : ℝ) - q' < 1 := by
      by_contra hcon; push Not at hcon; nlinarith
    have h4 : -1 < (q : ℝ) - q' := by
      by_contra hcon; push Not at hcon; nlinarith
    have h5 : q - q' < 1 := by exact_mod_cast h3
    have h6 : -1 < q - q' := by exact_mod_cast h4
    omega
  subst hq
  have := interval_unique (azimuthEdge_strictMono n c s hs i) hk hk' hb.2.2.1 hb.2.2.2 hb'.2.2.1 hb'.2.2.2
  rw [this]

/-- A direction off the edges lies in a bin, and it is the one computed from the folded azimuth. -/
theorem dirInBin_fold {n : ℕ} (hn : 0 < n) {c : ℝ} (hc : 0 < c) (m : ℕ) (hm : 0 < m) {sp : Spacing} {θ φ : ℝ} (h0 : 0 < θ) (h1 : θ ≤ π)
    (he : OffEdge (2 * π / m) φ) (tmm front : Bool) (nL : ℕ) :
    ∃ i k, i < 2 * n ∧ k < ringSize n c i ∧ InBin n c (2 * π / m) sp i k θ (foldPhi φ (2 * π / m)) ∧
      DirInBin n c (2 * π / m) sp (ringStart n c i + k) θ φ ∧
      (rtArgs n (2 * π / m) c sp tmm front nL).bin θ (foldPhi φ (2 * π / m)) = some ((ringStart n c i + k : ℕ) : ℤ) := by
  have hs : (0 : ℝ) < 2 * π / m := by have := Real.pi_pos; positivity
  obtain ⟨⟨f0, f1⟩, ⟨q, hq⟩, -⟩ := C05_fold m hm φ
  have hne : foldPhi φ (2 * π / m) ≠ 0 := by
    intro hz
    rw [hz] at hq
    apply he (-q)
    push_cast
    linarith
  have hpos : 0 < foldPhi φ (2 * π / m) := lt_of_le_of_ne f0 (Ne.symm hne)
  obtain ⟨i, hi, a1, a2⟩ := exists_interval (f := polarEdge n sp) (m := 2 * n) (x := θ) (by rw [polarEdge_zero]; exact h0)
    (by rw [polarEdge_last n hn sp]; exact h1)
  have hsz := ringSize_pos n c hc hi
  obtain ⟨k, hk, b1, b2⟩ := exists_interval (f := azimuthEdge n c (2 * π / m) i) (m := ringSize n c i) (x := foldPhi φ (2 * π / m))
    (by rw [azimuthEdge_zero]; exact hpos) (by rw [azimuthEdge_last n c _ i hsz]; exact f1.le)
  have hb : InBin n c (2 * π / m) sp i k θ (foldPhi φ (2 * π / m)) := ⟨a1, a2, b1, b2⟩
  refine ⟨i, k, hi, hk, hb, ⟨i, k, q, hi, hk, rfl, ?_⟩, rt_bin_eq hn hs hc hi hk hb⟩
  rw [← hq]; exact hb

/-- What the counting loop does with a ray. -/
structure RecSpec (n : ℕ) (c s : ℝ) (sp : Spacing) (front : Bool) (r : RTRay) (rec : RTRec) : Prop where
  col : IncidentIn n c s sp front rec.col r
  row : ∀ i, rec.row = some i → i < ringStart n c (2 * n)
  leaves : ∀ θ φ, r.out = .leaves θ φ → ∃ i, rec.row = some i ∧ (OutOffEdge s front r → LeavesIn n c s sp front i r)
  absorbed : ∀ A θl, r.out = .absorbed A θl → rec.row = none ∧ rec.A = A ∧ rec.loc < n ∧
    (θl ≠ 0 → polarEdge n sp rec.loc < |θl| ∧ |θl| ≤ polarEdge n sp (rec.loc + 1)) ∧ (θl = 0 → rec.loc = n - 1)

theorem record_spec {n : ℕ} (hn : 0 < n) {c : ℝ} (hc : 0 < c) (m : ℕ) (hm : 0 < m) {sp : Spacing} {tmm front : Bool} {nL : ℕ} {r : RTRay}
    (h : RayOk (2 * π / m) tmm nL r) :
    ∃ rec, (rtArgs n (2 * π / m) c sp tmm front nL).record r = some rec ∧ RecSpec n c (2 * π / m) sp front r rec := by
  set s : ℝ := 2 * π / m with hsdef
  have hpi := Real.pi_pos
  have hpi4 := Real.pi_lt_four
  have hs : 0 < s := by rw [hsdef]; positivity
  set a := rtArgs n s c sp tmm front nL with ha
  have hlen : a.g.angleVector.length = ringStart n c (2 * n) := angleVector_length n hn s c sp
  have hhalf : a.half = ringStart n c n := by
    unfold RTArgs.half; rw [hlen, ringStart_half]; omega
  have hintv : a.g.thetaIntv.length = 2 * n + 1 := rt_intv_length
  have hposlen : 0 < ringStart n c (2 * n) := by
    have h1 := ringSize_pos n c hc (show 0 < 2 * n by omega)
    have h2 : ringStart n c (0 + 1) ≤ ringStart n c (2 * n) := ringStart_mono n c (by omega)
    rw [ringStart_succ] at h2
    omega
  -- incidence
  have hθin : a.thetaIn r.θin = seen front r.θin := rfl
  have hin0 : 0 < seen front r.θin := by
    unfold seen; split_ifs
    · exact h.pos
    · linarith [h.lt]
  have hin1 : seen front r.θin ≤ π := by
    unfold seen; split_ifs
    · linarith [h.lt]
    · linarith [h.pos]
  obtain ⟨i, k, hi, hk, hb, hdir, hbin⟩ := dirInBin_fold hn hc m hm (sp := sp) hin0 hin1 h.edge tmm front nL
  have hcol : ∃ col, pyIndex a.half (((ringStart n c i + k : ℕ) : ℤ) - if front then 0 else (a.half : ℤ)) = some col ∧
      col < ringStart n c n ∧ (if front then 0 else ringStart n c n) + col = ringStart n c i + k := by
    cases hf : front
    · -- rear
      have hni : n ≤ i := by
        by_contra hcon
        push Not at hcon
        have h1 : polarEdge n sp (i + 1) ≤ π / 2 := by
          rw [← polarEdge_half n hn sp]
          rcases Nat.lt_or_ge (i + 1) n with h2 | h2
          · exact (polarEdge_strictMono n hn sp _ _ h2 (by omega)).le
          · rw [show i + 1 = n by omega]
        have h2 := hb.2.1
        rw [show seen front r.θin = π - r.θin by simp [seen, hf]] at h2
        linarith [h.lt]
      have hle : ringStart n c n ≤ ringStart n c i := ringStart_mono n c hni
      have hup : ringStart n c i + ringSize n c i ≤ ringStart n c (2 * n) := by
        rw [← ringStart_succ]; exact ringStart_mono n c (by omega)
      rw [ringStart_half] at hup
      rw [hhalf]
      refine ⟨ringStart n c i + k - ringStart n c n, ?_, by omega, by simp; omega⟩
      unfold pyIndex
      rw [if_pos (by simp; omega)]
      simp; omega
    · have hni : i < n := by
        by_contra hcon
        push Not at hcon
        have h1 : π / 2 ≤ polarEdge n sp i := by
          rw [← polarEdge_half n hn sp]
          rcases Nat.lt_or_ge n i with h2 | h2
          · exact (polarEdge_strictMono n hn sp _ _ h2 (by omega)).le
          · rw [show i = n by omega]
        have h2 := hb.1
        rw [show seen front r.θin = r.θin by simp [seen, hf]] at h2
        linarith [h.lt]
      have hup : ringStart n c i + ringSize n c i ≤ ringStart n c n := by
        rw [← ringStart_succ]; exact ringStart_mono n c (by omega)
      rw [hhalf]
      refine ⟨ringStart n c i + k, ?_, by omega, by simp⟩
      unfold pyIndex
      rw [if_pos (by simp; omega)]
      simp; omega
  obtain ⟨col, hcol1, hcol2, hcol3⟩ := hcol
  have hinc : IncidentIn n c s sp front col r := ⟨hcol2, by rw [hcol3]; exact hdir⟩
  -- outgoing
  have hrec : ∀ bOut, a.bin (a.thetaOut r.out) (a.phiOut r.out) = some bOut →
      a.record r = if a.tbin (a.thetaOut r.out) ≤ (a.g.thetaIntv.length : ℤ) - 1 - 1 then
        (pyIndex a.g.angleVector.length bOut).map fun row => { col := col, row := some row, A := fun _ => 0, loc := 0 }
      else match r.out with
        | .absorbed A θl => (pyIndex ((a.thetaIntv.length - 1) / 2) (a.tbin |θl|)).map fun l => { col := col, row := none, A := A, loc := l }
        | .leaves _ _ => (pyIndex ((a.thetaIntv.length - 1) / 2) (a.tbin 10)).map fun l => { col := col, row := none, A := fun _ => 0, loc := l } := by
    intro bOut hb'
    unfold RTArgs.record
    rw [hθin]
    have e1 : a.bin (seen front r.θin) (foldPhi r.φin a.phiSym) = some ((ringStart n c i + k : ℕ) : ℤ) := hbin
    rw [e1, hb']
    simp only [Option.bind_some]
    have e2 : (if a.front then (0 : ℤ) else (a.half : ℤ)) = if front then 0 else (a.half : ℤ) := rfl
    rw [e2, hcol1]
    rfl
  rcases hout : r.out with ⟨θ, φ⟩ | ⟨A, θl⟩
  · -- leaves
    have ho := h.out
    rw [hout] at ho
    have ht01 : 0 ≤ (upright θ φ).1 ∧ (upright θ φ).1 ≤ π := by
      have := abs_le.mp ho
      unfold upright
      split_ifs with h1 <;> simp only <;> constructor <;> linarith
    obtain ⟨t0, t1⟩ := ht01
    have hθo : a.thetaOut r.out = seen front (upright θ φ).1 := by
      rw [hout]
      have e : (upright θ φ).1 = if θ < 0 then -θ else θ := by
        unfold upright; by_cases h1 : θ < 0 <;> simp [h1]
      show (if front = true then (if θ < 0 then -θ else θ) else if (if θ < 0 then -θ else θ) < π + 1 / 10 then π - (if θ < 0 then -θ else θ) else (if θ < 0 then -θ else θ)) = _
      rw [← e]
      unfold seen
      split_ifs with h1 h2
      · rfl
      · rfl
      · exact absurd (by linarith) h2
    have hφo : a.phiOut r.out = foldPhi (upright θ φ).2 s := by
      rw [hout]
      have e : (upright θ φ).2 = if θ < 0 then φ + π else φ := by
        unfold upright; by_cases h1 : θ < 0 <;> simp [h1]
      rw [e]; rfl
    have s0 : 0 ≤ seen front (upright θ φ).1 := by unfold seen; split_ifs <;> linarith
    have s1 : seen front (upright θ φ).1 ≤ π := by unfold seen; split_ifs <;> linarith
    obtain ⟨⟨f0, f1⟩, -⟩ := C05_fold m hm (upright θ φ).2
    obtain ⟨b, hb1, hb2, hb3⟩ := rt_bin_range hn hs hc (sp := sp) (tmm := tmm) (front := front) (nL := nL) s0 s1 f0 f1
    have hb1' : a.bin (a.thetaOut r.out) (a.phiOut r.out) = some b := by rw [hθo, hφo]; exact hb1
    obtain ⟨row, hrow1, hrow2, hrow3⟩ := pyIndex_of_range hposlen hb2 hb3
    have htb : a.tbin (a.thetaOut r.out) ≤ (a.g.thetaIntv.length : ℤ) - 1 - 1 := by
      rw [hθo, hintv]
      rcases s0.eq_or_lt with hz | hz
      · rw [← hz, ha, rt_tbin_le _ hpi.le]
        unfold thetaBin
        show (digitizeRight (0 : ℝ) (Model.thetaIntv n sp) : ℤ) - 1 ≤ _
        rw [thetaIntv_eq n hn sp, digitizeRight_range_zero (polarEdge_strictMono n hn sp) (by rw [polarEdge_zero])]
        push_cast; omega
      · obtain ⟨i', hi', c1, c2⟩ := exists_interval (f := polarEdge n sp) (m := 2 * n) (x := seen front (upright θ φ).1) (by rw [polarEdge_zero]; exact hz)
          (by rw [polarEdge_last n hn sp]; exact s1)
        rw [ha, rt_tbin_le _ s1, thetaBin_eq n hn s c sp hi' c1 c2]
        push_cast; omega
    refine ⟨{ col := col, row := some row, A := fun _ => 0, loc := 0 }, ?_, ?_⟩
    · rw [hrec b hb1', if_pos htb, hlen, hrow1]; rfl
    · refine ⟨hinc, ?_, ?_, ?_⟩
      · intro i' hi'
        simp only [Option.some.injEq] at hi'
        omega
      · intro θ' φ' heq
        rw [hout] at heq
        cases heq
        refine ⟨row, rfl, ?_⟩
        intro hoe
        unfold OutOffEdge at hoe
        rw [hout] at hoe
        simp only at hoe
        unfold LeavesIn
        rw [hout]
        simp only
        obtain ⟨i', k', hi', hk', hb', hdir', hbin'⟩ := dirInBin_fold hn hc m hm (sp := sp) hoe.1 s1 hoe.2 tmm front nL
        have hbeq : b = ((ringStart n c i' + k' : ℕ) : ℤ) := by
          have := hb1.symm.trans hbin'
          simpa using this
        have := hrow3 (by rw [hbeq]; positivity)
        have hrr : row = ringStart n c i' + k' := by rw [hbeq] at this; exact_mod_cast this
        rw [hrr]; exact hdir'
      · intro A θl heq; rw [hout] at heq; cases heq
  · -- absorbed
    have ho := h.out
    rw [hout] at ho
    obtain ⟨ht, hθl, hA, hAs⟩ := ho
    have hθo : a.thetaOut r.out = 10 := by
      rw [hout]
      unfold RTArgs.thetaOut
      simp only
      have : ¬ (10 : ℝ) < π + 1 / 10 := by linarith
      rw [if_neg this]; split_ifs <;> rfl
    have htb : a.tbin 10 = 2 * n := by
      rw [ha]; subst ht; exact rt_tbin_ten hn
    have hnb : ¬ a.tbin (a.thetaOut r.out) ≤ (a.g.thetaIntv.length : ℤ) - 1 - 1 := by
      rw [hθo, htb, hintv]; push_cast; omega
    have hbo : ∃ b, a.bin (a.thetaOut r.out) (a.phiOut r.out) = some b := by
      unfold RTArgs.bin
      rw [hθo, htb]
      unfold overallBin
      have hp : pyGet a.phiIntv ((2 * n : ℕ) : ℤ) = some [0] := by
        rw [ha]; subst ht
        show pyGet ((makeAngleVector n s c sp).phiIntv ++ [[0]]) _ = _
        rw [pyGet_ofNat]
        have := rt_phiIntv_length hn (s := s) (c := c) (sp := sp)
        rw [List.getElem?_append_right (by omega)]
        simp [this]
      push_cast at hp
      rw [hp]
      exact ⟨_, rfl⟩
    obtain ⟨b, hb'⟩ := hbo
    have hnl : (a.thetaIntv.length - 1) / 2 = n := by
      have : a.thetaIntv.length = 2 * n + 2 := by
        rw [ha]; subst ht
        show ((makeAngleVector n s c sp).thetaIntv ++ [11]).length = _
        rw [List.length_append, rt_intv_length]; rfl
      rw [this]; omega
    have hloc : ∃ l, pyIndex n (a.tbin |θl|) = some l ∧ l < n ∧ (θl ≠ 0 → polarEdge n sp l < |θl| ∧ |θl| ≤ polarEdge n sp (l + 1)) ∧
        (θl = 0 → l = n - 1) := by
      have hle : |θl| ≤ π := hθl.trans (by linarith)
      rcases (abs_nonneg θl).eq_or_lt with hz | hz
      · have : a.tbin |θl| = -1 := by
          rw [← hz, ha, rt_tbin_le _ hpi.le]
          unfold thetaBin
          show (digitizeRight (0 : ℝ) (Model.thetaIntv n sp) : ℤ) - 1 = _
          rw [thetaIntv_eq n hn sp, digitizeRight_range_zero (polarEdge_strictMono n hn sp) (by rw [polarEdge_zero])]
          simp
        rw [this]
        refine ⟨n - 1, ?_, by omega, fun h => absurd (abs_eq_zero.mp hz.symm) h, fun _ => rfl⟩
        unfold pyIndex
        rw [if_neg (by omega), if_pos (by omega)]
        congr 1
        omega
      · obtain ⟨i', hi', c1, c2⟩ := exists_interval (f := polarEdge n sp) (m := n) (x := |θl|) (by rw [polarEdge_zero]; exact hz)
          (by rw [polarEdge_half n hn sp]; exact hθl)
        rw [ha, rt_tbin_le _ hle, thetaBin_eq n hn s c sp (by omega) c1 c2]
        obtain ⟨l, h1, h2, h3⟩ := pyIndex_of_range hn (show (-1 : ℤ) ≤ (i' : ℤ) by omega) (by exact_mod_cast hi')
        have hli : l = i' := by exact_mod_cast h3 (by positivity)
        exact ⟨l, h1, h2, fun _ => hli ▸ ⟨c1, c2⟩, fun h => absurd hz (by simp [h])⟩
    obtain ⟨l, hl1, hl2, hl3⟩ := hloc
    refine ⟨{ col := col, row := none, A := A, loc := l }, ?_, ?_⟩
    · rw [hrec b hb', if_neg hnb, hout]
      simp only
      rw [hnl, hl1]; rfl
    · refine ⟨hinc, fun i' hi' => by simp at hi', fun θ φ heq => (by rw [hout] at heq; cases heq), ?_⟩
      intro A' θl' heq
      rw [hout] at heq
      cases heq
      exact ⟨rfl, rfl, hl2, hl3⟩

end Rayflare.Lemmas
