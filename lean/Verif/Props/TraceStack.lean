import Verif.Spec.TraceStack
import Verif.Props.TraceSurface
import Verif.Props.RayStack
import Verif.Props.Restart

/-!
# Property C130: ray tracing of a stack, from the geometry to R, A and T

C35–C38 are about any outcome at the surfaces.  Here the outcomes are those of the ray tracing itself.
-/

namespace Rayflare

open Rayflare.Np Rayflare.Model Rayflare.Spec Rayflare.Lemmas Real

/-! ## Helper lemmas -/

/-- How a meeting ends, in one form for all the ways it can end. -/
structure MeetEnd (tmm : Bool) (nL : ℕ) (d : V3) (side0 : ℤ) (res : SicRes) : Prop where
  cases : (∃ A, res.outcome = .absorb A ∧ endsIn res = none ∧ tmm = true ∧ A.length = nL ∧ (∀ a ∈ A, 0 ≤ a) ∧ 0 < A.sum) ∨
    (res.outcome = (if finalRes d res.dir = 0 then .reflect (polar res.dir) else .transmit (polar res.dir)) ∧ V3.norm res.dir = 1 ∧
      ∃ side, endsIn res = some side ∧ (side = 1 ∨ side = -1))

/-- Facts kept by the loop at a periodic surface, for a ray from either side. -/
structure MeetInv (d0 : V3) (side0 : ℤ) (s : Sic) : Prop where
  inv : SicInv d0 side0 0 s
  unit : V3.norm s.d = 1

theorem sicStep_meet {Lx Ly : ℝ} {d0 : V3} {side0 : ℤ} {tmm : Bool} {nL : ℕ} {w : Draw} (hw : FacetOk tmm nL w) {s s' : Sic} (h : MeetInv d0 side0 s)
    (hs : sicStep Lx Ly d0 w s = .inl s') : MeetInv d0 side0 s' := by
  refine ⟨(sicStep_inv hw.side h.inv (Nat.zero_le _) hs).1, ?_⟩
  have hu := h.unit
  unfold sicStep at hs
  simp only at hs
  split at hs
  · split_ifs at hs
    · simp only [Sum.inl.injEq] at hs; subst hs; exact hu
    · simp only [Sum.inl.injEq] at hs; subst hs; exact hu
    · split at hs
      · simp at hs
      · simp only [Sum.inl.injEq] at hs; subst hs; exact hu
  · rename_i p θ Nf hci
    obtain ⟨hN, hθ⟩ := hit_unit hci
    split at hs
    · simp at hs
    · simp only [Sum.inl.injEq] at hs
      subst hs
      rw [hθ]
      exact (hw.ok s.d Nf s.side hu hN h.inv.side).1

theorem finalRes_flip {d : V3} (hz : d.z ≠ 0) : finalRes d ⟨d.x, d.y, -d.z⟩ = 0 := by
  unfold finalRes npSign
  rcases lt_or_gt_of_ne hz with h | h
  · simp [h, h.not_gt]
  · simp [h, h.not_gt]

theorem flip_norm {d : V3} (h : V3.norm d = 1) : V3.norm ⟨d.x, d.y, -d.z⟩ = 1 := by
  rw [norm_one_iff] at h ⊢
  unfold V3.dot at h ⊢
  simp only; linarith

theorem sicStep_meetEnd {Lx Ly : ℝ} {d0 : V3} {side0 : ℤ} (hz : d0.z ≠ 0) {tmm : Bool} {nL : ℕ} {w : Draw} (hw : FacetOk tmm nL w) {s : Sic}
    (h : MeetInv d0 side0 s) {res : SicRes} (hs : sicStep Lx Ly d0 w s = .inr res) : MeetEnd tmm nL d0 side0 res := by
  have hu := h.unit
  constructor
  unfold sicStep at hs
  simp only at hs
  split at hs
  · right
    split_ifs at hs with h1 h2 h3 h4
    · simp only [Sum.inr.injEq] at hs
      subst hs
      have hi : s.i1 = 0 := by omega
      obtain ⟨e1, e2⟩ := h.inv.fresh hi
      refine ⟨?_, ?_, s.side, rfl, h.inv.side⟩
      · simp only [SicRes.outcome, SicRes.dir, e1, finalRes_flip hz, if_true]
      · simp only [SicRes.dir]; exact flip_norm hu
    · split at hs
      · simp only [Sum.inr.injEq] at hs
        subst hs
        exact ⟨rfl, hu, s.side, rfl, h.inv.side⟩
      · simp at hs
    · simp only [Sum.inr.injEq] at hs
      subst hs
      exact ⟨rfl, hu, s.side, rfl, h.inv.side⟩
  · rename_i p θ Nf hci
    left
    obtain ⟨hN, hθ⟩ := hit_unit hci
    split at hs
    · rename_i A hA
      simp only [Sum.inr.injEq] at hs
      subst hs
      exact ⟨A, rfl, rfl, (hw.ok s.d Nf s.side hu hN h.inv.side).2 A (by rw [← hθ]; exact hA)⟩
    · simp at hs

theorem sicRun_meetEnd {Lx Ly : ℝ} {d0 : V3} {side0 : ℤ} (hz : d0.z ≠ 0) {tmm : Bool} {nL : ℕ} : ∀ (ws : List Draw), (∀ w ∈ ws, FacetOk tmm nL w) →
    ∀ (s : Sic) (res : SicRes), MeetInv d0 side0 s → sicRun Lx Ly d0 ws s = .inr res → MeetEnd tmm nL d0 side0 res := by
  intro ws
  induction ws with
  | nil => intro _ s res _ h; simp [sicRun] at h
  | cons w ws ih =>
    intro hw s res hs h
    unfold sicRun at h
    split at h
    · rename_i s' hs'
      exact ih (fun w hw' => hw w (by simp [hw'])) s' res (sicStep_meet (hw w (by simp)) hs hs') h
    · rename_i r hr
      simp only [Sum.inr.injEq] at h
      subst h
      exact sicStep_meetEnd hz (hw w (by simp)) hs hr

theorem sccRun_meetEnd {d0 : V3} {side0 : ℤ} {tmm : Bool} {nL : ℕ} : ∀ (ws : List Draw), (∀ w ∈ ws, FacetOk tmm nL w) →
    ∀ (s : Scc) (res : SicRes), (s.side = 1 ∨ s.side = -1) → V3.norm s.d = 1 → sccRun d0 ws s = .inr res → MeetEnd tmm nL d0 side0 res := by
  intro ws
  induction ws with
  | nil => intro _ s res _ _ h; simp [sccRun] at h
  | cons w ws ih =>
    intro hw s res hside hu h
    unfold sccRun at h
    split at h
    · rename_i s' hs'
      have hwo := hw w (by simp)
      unfold sccStep at hs'
      split at hs'
      · simp at hs'
      · rename_i p θ Nf hci
        obtain ⟨hN, hθ⟩ := hit_unit hci
        simp only at hs'
        split at hs'
        · simp at hs'
        · simp only [Sum.inl.injEq] at hs'
          refine ih (fun w hw' => hw w (by simp [hw'])) s' res ?_ ?_ h
          · subst hs'
            rcases hwo.side θ s.d ((s.side : ℝ) • Nf) s.side with e | e <;> simp only [e] <;> omega
          · subst hs'
            rw [hθ]
            exact (hwo.ok s.d Nf s.side hu hN hside).1
    · rename_i r hr
      simp only [Sum.inr.injEq] at h
      subst h
      have hwo := hw w (by simp)
      constructor
      unfold sccStep at hr
      split at hr
      · simp only [Sum.inr.injEq] at hr
        subst hr
        exact Or.inr ⟨rfl, hu, s.side, rfl, hside⟩
      · rename_i p θ Nf hci
        obtain ⟨hN, hθ⟩ := hit_unit hci
        simp only at hr
        split at hr
        · rename_i A hA
          simp only [Sum.inr.injEq] at hr
          subst hr
          exact Or.inl ⟨A, rfl, rfl, (hwo.ok s.d Nf s.side hu hN hside).2 A (by rw [← hθ]; exact hA)⟩
        · simp at hr

theorem finalRes_self (d : V3) : finalRes d d = 1 := by simp [finalRes]

theorem iterDraw_ok {c : RTStack} {nl : ℕ → ℕ} (hc : PhysicalStack c nl) {k : ℕ} {tab : Option Table} (htab : c.tabs[k]? = some tab) {ni nj : ℂ}
    (hi : ni ∈ c.nks) (hj : nj ∈ c.nks) {w : IterDraw} (hr : w.rnd < 1) : FacetOk tab.isSome (nl k) (w.draw c.asin c.pol tab ni nj) := by
  refine facetDraw_ok (hc.re _ hi) (hc.re _ hj) (hc.im _ hi) (hc.im _ hj) ?_
  cases tab with
  | none => exact Or.inl ⟨rfl, refrAngle c.asin ni nj, c.pol, w.rnd, hr, rfl⟩
  | some tab => exact Or.inr ⟨rfl, tab, w.rnd, hr, rfl, hc.table k tab htab⟩

theorem meet_end {c : RTStack} {nl : ℕ → ℕ} (hc : PhysicalStack c nl) {k : ℕ} {cell : Cell} {tab : Option Table} (htab : c.tabs[k]? = some tab) {ni nj : ℂ}
    (hi : ni ∈ c.nks) (hj : nj ∈ c.nks) {m : Meeting} (hm : ∀ w ∈ m.ws, w.rnd < 1) {s : StackRay} (hu : V3.norm s.d = 1) (hz : s.d.z ≠ 0)
    (hside : s.ray.dir = 1 ∨ s.ray.dir = -1) {res : SicRes} (h : c.meet cell tab ni nj m s = some res) :
    MeetEnd tab.isSome (nl k) s.d s.ray.dir res := by
  have hd : (c.randomised cell m s).2 = s.d := by
    unfold RTStack.randomised
    split_ifs
    · simp [randDir, hz]
    · rfl
  have hok : ∀ w ∈ m.ws.map fun w => w.draw c.asin c.pol tab ni nj, FacetOk tab.isSome (nl k) w := by
    intro w hw
    rw [List.mem_map] at hw
    obtain ⟨w', hw', rfl⟩ := hw
    exact iterDraw_ok hc htab hi hj (hm w' hw')
  unfold RTStack.meet at h
  simp only [hd] at h
  split_ifs at h with hp
  · split at h
    · rename_i r hr
      rw [Sum.getRight?_eq_some_iff] at h
      exact sicRun_meetEnd hz _ hok _ _ ⟨sicStart_inv _ _ _ _ hside, hu⟩ h
    · split at h
      · simp at h
      · rename_i w ws he
        rw [Sum.getRight?_eq_some_iff] at h
        rw [he] at hok
        refine sicRun_meetEnd hz _ (fun w' hw' => hok w' (by simp [hw'])) _ _ ⟨?_, hu⟩ h
        exact ⟨hside, fun _ => ⟨rfl, rfl⟩, fun h0 => absurd rfl h0, fun hc => by simp [sicStartNaN, sicStart] at hc⟩
  · split at h
    · rename_i r hr
      rw [Sum.getRight?_eq_some_iff] at h
      exact sccRun_meetEnd _ hok _ _ hside hu h
    · split at h
      · simp at h
      simp only [Option.some.injEq] at h
      subst h
      exact ⟨Or.inr ⟨by simp [SicRes.outcome, SicRes.dir, finalRes_self], hu, _, rfl, hside⟩⟩

/-- What the label and the direction say together. -/
theorem meetEnd_tells {tmm : Bool} {nL : ℕ} {d : V3} {s : Ray} {res : SicRes} (hfrom : ComesFrom s.dir d) (h : MeetEnd tmm nL d s.dir res) (hz : res.dir.z ≠ 0) :
    Possible res.outcome ∧ AngleTells s res.outcome ∧
      ((∃ A, res.outcome = .absorb A ∧ endsIn res = none ∧ A.length = nL) ∨ V3.norm res.dir = 1 ∧ ComesFrom (s.interact res.outcome).dir res.dir ∧
        (∃ θ, res.outcome = .reflect θ ∧ (0 < res.dir.z ↔ s.dir = 1) ∨ res.outcome = .transmit θ ∧ (0 < res.dir.z ↔ s.dir = -1)) ∧
        ∃ side, endsIn res = some side) := by
  rcases h.cases with ⟨A, e, he, ht, hl, hA, hpos⟩ | ⟨e, hu, side, he, hs⟩
  · refine ⟨?_, ?_, Or.inl ⟨A, e, he, hl⟩⟩
    · rw [e]; exact ⟨hA, hpos⟩
    · rw [e]; trivial
  · have hcos : cos (polar res.dir) ≠ 0 := by
      have hd := (norm_one_iff res.dir).mp hu
      unfold V3.dot at hd
      unfold polar
      rw [hu, div_one, cos_arccos (by nlinarith [mul_self_nonneg res.dir.x, mul_self_nonneg res.dir.y]) (by nlinarith [mul_self_nonneg res.dir.x, mul_self_nonneg res.dir.y])]
      exact hz
    have hpol : polar res.dir ≤ π / 2 ↔ 0 < res.dir.z := by
      rw [polar_le_iff hu]
      exact ⟨fun h => lt_of_le_of_ne h (Ne.symm hz), fun h => h.le⟩
    have hneg : res.dir.z < 0 ↔ ¬ 0 < res.dir.z := ⟨fun h => by linarith, fun h => lt_of_le_of_ne (not_lt.mp h) hz⟩
    by_cases hf : finalRes d res.dir = 0
    · rw [if_pos hf] at e
      have key : 0 < res.dir.z ↔ s.dir = 1 := by
        unfold finalRes npSign at hf
        rcases hfrom with ⟨h1, h2⟩ | ⟨h1, h2⟩
        · simp only [h1, iff_true]
          by_contra hn
          have := hneg.mpr hn
          simp [h2, h2.not_gt, this, this.not_gt] at hf
        · simp only [h1]
          constructor
          · intro hn; simp [h2, hn] at hf
          · intro hn; norm_num at hn
      rw [e]
      refine ⟨hcos, ?_, Or.inr ⟨hu, ?_, ⟨_, Or.inl ⟨rfl, key⟩⟩, side, he⟩⟩
      · show polar res.dir ≤ π / 2 ↔ -s.dir = -1
        rw [hpol, key]; omega
      · show ComesFrom (-s.dir) res.dir
        rcases hfrom with ⟨h1, h2⟩ | ⟨h1, h2⟩
        · exact Or.inr ⟨by omega, key.mpr h1⟩
        · refine Or.inl ⟨by omega, hneg.mpr ?_⟩
          rw [key, h1]; norm_num
    · rw [if_neg hf] at e
      have key : 0 < res.dir.z ↔ s.dir = -1 := by
        unfold finalRes npSign at hf
        rcases hfrom with ⟨h1, h2⟩ | ⟨h1, h2⟩
        · simp only [h1]
          constructor
          · intro hn; simp [h2, h2.not_gt, hn] at hf
          · intro hn; norm_num at hn
        · simp only [h1, iff_true]
          by_contra hn
          have := hneg.mpr hn
          simp [h2, this, this.not_gt] at hf
      rw [e]
      refine ⟨hcos, ?_, Or.inr ⟨hu, ?_, ⟨_, Or.inr ⟨rfl, key⟩⟩, side, he⟩⟩
      · show polar res.dir ≤ π / 2 ↔ s.dir = -1
        rw [hpol, key]
      · show ComesFrom s.dir res.dir
        rcases hfrom with ⟨h1, h2⟩ | ⟨h1, h2⟩
        · refine Or.inl ⟨h1, hneg.mpr ?_⟩
          rw [key, h1]; norm_num
        · exact Or.inr ⟨h1, key.mpr h1⟩

/-- What is kept along a ray. -/
structure StackInv (c : RTStack) (nl : ℕ → ℕ) (s : StackRay) : Prop where
  track : OnTrack c.S s.ray
  dir : s.ray.stop = false ∨ s.ray.θ ≠ none → V3.norm s.d = 1 ∧ ComesFrom s.ray.dir s.d
  layers : ∀ j : ℕ, s.ray.aIdx = (j : ℤ) + 1 → s.ray.aInt.length = nl j

theorem pyGet_nat {α : Type*} (l : List α) {i : ℤ} {k : ℕ} (h : i = (k : ℤ)) : pyGet l i = l[k]? := by
  subst h
  simp [pyGet]

/-- The surface and the media of a meeting. -/
theorem step_media {c : RTStack} {nl : ℕ → ℕ} (hc : PhysicalStack c nl) {s : StackRay} (h : OnTrack c.S s.ray) (hs : s.ray.stop = false) :
    ∃ (k : ℕ) (cell : Cell) (tab : Option Table) (ni nj : ℂ), s.ray.surf = (k : ℤ) ∧ k < c.S.nSurf ∧ c.cells[k]? = some cell ∧ c.tabs[k]? = some tab ∧
      c.nks[k]? = some ni ∧ c.nks[k + 1]? = some nj ∧ (s.ray.dir = 1 → s.ray.mat = k) ∧ (s.ray.dir = -1 → s.ray.mat = k + 1) ∧
      ∀ m, c.step m s = c.advance s (c.meet cell tab ni nj m s) := by
  obtain ⟨h1, h2, h3, h4⟩ := h.surf hs
  have hn : c.S.nSurf = c.S.widths.length - 1 := rfl
  obtain ⟨k, hk⟩ := Int.eq_ofNat_of_zero_le h3
  have hk' : k < c.S.nSurf := by omega
  have hcells : k < c.cells.length := by rw [hc.cells]; exact hk'
  have htabs : k < c.tabs.length := by rw [hc.tabs]; exact hk'
  have hnk : k + 1 < c.nks.length := by rw [hc.nks]; omega
  refine ⟨k, c.cells[k], c.tabs[k], c.nks[k], c.nks[k + 1], hk, hk', by simp [hcells], by simp [htabs], by simp [(by omega : k < c.nks.length)], by simp [hnk],
    fun h => by have := h1 h; omega, fun h => by have := h2 h; omega, ?_⟩
  intro m
  have e1 : pyGet c.cells s.ray.surf = some c.cells[k] := by rw [pyGet_nat _ hk]; simp [hcells]
  have e2 : pyGet c.tabs s.ray.surf = some c.tabs[k] := by rw [pyGet_nat _ hk]; simp [htabs]
  have e3 : pyGet c.nks (if s.ray.dir = 1 then s.ray.mat else s.ray.mat - 1) = some c.nks[k] := by
    rw [pyGet_nat (k := k)]
    · simp [(by omega : k < c.nks.length)]
    · rcases h.dir with hd | hd
      · rw [if_pos hd]; have := h1 hd; omega
      · rw [if_neg (by omega)]; have := h2 hd; omega
  have e4 : pyGet c.nks (if s.ray.dir = 1 then s.ray.mat + 1 else s.ray.mat) = some c.nks[k + 1] := by
    rw [pyGet_nat (k := k + 1)]
    · simp [hnk]
    · rcases h.dir with hd | hd
      · rw [if_pos hd]; have := h1 hd; push_cast; omega
      · rw [if_neg (by omega)]; have := h2 hd; push_cast; omega
  unfold RTStack.step
  rw [if_neg (by simp [hs]), e1, e2, e3, e4]

theorem step_not_error {c : RTStack} {nl : ℕ → ℕ} (hc : PhysicalStack c nl) {s : StackRay} (h : OnTrack c.S s.ray) (m : Meeting) :
    c.step m s ≠ .indexError ∧ ∀ s', c.step m s = .next s' → OnTrack c.S s'.ray := by
  cases hs : s.ray.stop with
  | true =>
    have : c.step m s = .next s := by unfold RTStack.step; rw [if_pos hs]
    rw [this]
    refine ⟨by simp, fun s' h' => ?_⟩
    simp only [StackRes.next.injEq] at h'
    subst h'; exact h
  | false =>
    obtain ⟨k, cell, tab, ni, nj, -, -, -, -, -, -, -, -, e⟩ := step_media hc h hs
    rw [e m]
    cases hmeet : c.meet cell tab ni nj m s with
    | none => exact ⟨by simp [RTStack.advance], fun s' h' => by simp [RTStack.advance] at h'⟩
    | some res =>
      obtain ⟨s1, h1, h2⟩ := step_onTrack h res.outcome
      simp only [RTStack.advance, h1]
      refine ⟨by simp, fun s' h' => ?_⟩
      simp only [StackRes.next.injEq] at h'
      subst h'; exact h2

theorem run_not_error {c : RTStack} {nl : ℕ → ℕ} (hc : PhysicalStack c nl) : ∀ (ms : List Meeting) (s : StackRay), OnTrack c.S s.ray →
    c.run ms s ≠ .indexError := by
  intro ms
  induction ms with
  | nil => intro s _; simp [RTStack.run]
  | cons m ms ih =>
    intro s h
    have h1 := step_not_error hc h m
    unfold RTStack.run
    split
    · rename_i s' hs'; exact ih s' (h1.2 s' hs')
    · exact h1.1

/-- Fields not touched by the bookkeeping after the surface. -/
theorem stackStep_fields {S : Stack} {s s' : Ray} (h : OnTrack S s) (hs : s.stop = false) {o : Outcome} (hs' : S.step s o = some s') :
    s'.dir = (s.interact o).dir ∧ s'.mat = (s.interact o).mat ∧ s'.aIdx = (s.interact o).aIdx ∧ s'.aInt = (s.interact o).aInt := by
  rcases step_spec h hs o with ⟨A, -, e⟩ | ⟨θ, -, e, -⟩ | ⟨θ, m, -, -, -, -, e⟩ <;> rw [e] at hs' <;> simp only [Option.some.injEq] at hs' <;> subst hs' <;>
    exact ⟨rfl, rfl, rfl, rfl⟩

theorem step_inv_stack {c : RTStack} {nl : ℕ → ℕ} (hc : PhysicalStack c nl) {s s' : StackRay} (h : StackInv c nl s) {m : Meeting} (hm : ∀ w ∈ m.ws, w.rnd < 1)
    (hs : s.ray.stop = false) (hs' : c.step m s = .next s') (hz : s'.d.z ≠ 0) :
    StackInv c nl s' ∧ ∃ o, Possible o ∧ AngleTells s.ray o ∧ c.S.step s.ray o = some s'.ray := by
  obtain ⟨k, cell, tab, ni, nj, hk, hkn, -, htab, hi, hj, -, -, e⟩ := step_media hc h.track hs
  obtain ⟨hu, hfrom⟩ := h.dir (Or.inl hs)
  have hdz : s.d.z ≠ 0 := by rcases hfrom with ⟨-, h⟩ | ⟨-, h⟩ <;> linarith
  rw [e m] at hs'
  cases hmeet : c.meet cell tab ni nj m s with
  | none => rw [hmeet] at hs'; simp [RTStack.advance] at hs'
  | some res =>
    rw [hmeet] at hs'
    have hend := meet_end hc htab (List.mem_of_getElem? hi) (List.mem_of_getElem? hj) hm hu hdz h.track.dir hmeet
    obtain ⟨s1, h1, h2⟩ := step_onTrack h.track res.outcome
    simp only [RTStack.advance, h1, StackRes.next.injEq] at hs'
    subst hs'
    simp only at hz ⊢
    obtain ⟨hp, ha, hrest⟩ := meetEnd_tells hfrom hend hz
    obtain ⟨f1, f2, f3, f4⟩ := stackStep_fields h.track hs h1
    refine ⟨⟨h2, ?_, ?_⟩, res.outcome, hp, ha, h1⟩
    · intro hns
      rcases hrest with ⟨A, eA, -, -⟩ | ⟨g1, g2, -, -⟩
      · exfalso
        rcases step_spec h.track hs res.outcome with ⟨A', -, e'⟩ | ⟨θ, e', -⟩ | ⟨θ, m', e', -⟩
        · rw [e', eA] at h1
          simp only [Option.some.injEq] at h1
          subst h1
          simp [Ray.interact] at hns
        · rw [eA] at e'; simp at e'
        · rw [eA] at e'; simp at e'
      · refine ⟨g1, ?_⟩
        simp only
        rw [f1]; exact g2
    · intro j hj'
      simp only at hj' ⊢
      rw [f3] at hj'
      rw [f4]
      rcases hrest with ⟨A, eA, -, hl⟩ | ⟨-, -, ⟨θ, hθ⟩, -⟩
      · rw [eA] at hj' ⊢
        simp only [Ray.interact, List.length_map] at hj' ⊢
        rw [hl]
        congr 1
        omega
      · rcases hθ with ⟨eo, -⟩ | ⟨eo, -⟩ <;> rw [eo] at hj' ⊢ <;> exact h.layers j hj'

theorem run_cons {c : RTStack} {m : Meeting} {ms : List Meeting} {s s1 : StackRay} (h : c.step m s = .next s1) : c.run (m :: ms) s = c.run ms s1 := by
  rw [RTStack.run, h]

theorem neverLevel_cons {c : RTStack} {m : Meeting} {ms : List Meeting} {s s1 : StackRay} (h : c.step m s = .next s1) (hl : NeverLevel c s (m :: ms)) :
    s1.d.z ≠ 0 ∧ NeverLevel c s1 ms := by
  refine ⟨hl [m] (by simp) s1 (by rw [run_cons h]; rfl), fun ms1 hp s2 h2 => hl (m :: ms1) (by simpa using hp) s2 (by rw [run_cons h]; exact h2)⟩

/-- The run of a ray follows the bookkeeping of Model/RayStack for some possible outcomes. -/
theorem run_refines {c : RTStack} {nl : ℕ → ℕ} (hc : PhysicalStack c nl) : ∀ (ms : List Meeting) (s s' : StackRay), StackInv c nl s → DrawsBelowOne ms →
    NeverLevel c s ms → c.run ms s = .next s' →
    StackInv c nl s' ∧ ∃ os : List Outcome, os.length = ms.length ∧ (∀ o ∈ os, Possible o) ∧ AnglesTell c.S s.ray os ∧ c.S.trace s.ray os = some s'.ray := by
  intro ms
  induction ms with
  | nil =>
    intro s s' h _ _ hr
    simp only [RTStack.run, StackRes.next.injEq] at hr
    subst hr
    exact ⟨h, [], rfl, by simp, trivial, rfl⟩
  | cons m ms ih =>
    intro s s' h hd hl hr
    have hd1 : DrawsBelowOne ms := fun m' hm' => hd m' (by simp [hm'])
    cases hs : s.ray.stop with
    | true =>
      have e : c.step m s = .next s := by unfold RTStack.step; rw [if_pos hs]
      rw [run_cons e] at hr
      obtain ⟨h1, os, h2, h3, h4, h5⟩ := ih s s' h hd1 (neverLevel_cons e hl).2 hr
      refine ⟨h1, .absorb [1] :: os, by simp [h2], ?_, ⟨trivial, fun s1 hs1 => ?_⟩, ?_⟩
      · intro o ho
        rcases List.mem_cons.mp ho with rfl | ho
        · simp [Possible]
        · exact h3 o ho
      · rw [step_stopped hs] at hs1
        simp only [Option.some.injEq] at hs1
        subst hs1; exact h4
      · simp only [Stack.trace, step_stopped hs, Option.bind_some]; exact h5
    | false =>
      cases hst : c.step m s with
      | indexError => rw [RTStack.run, hst] at hr; simp at hr
      | running => rw [RTStack.run, hst] at hr; simp at hr
      | next s1 =>
        obtain ⟨hz, hl1⟩ := neverLevel_cons hst hl
        obtain ⟨i1, o, o1, o2, o3⟩ := step_inv_stack hc h (hd m (by simp)) hs hst hz
        rw [run_cons hst] at hr
        obtain ⟨h1, os, h2, h3, h4, h5⟩ := ih s1 s' i1 hd1 hl1 hr
        refine ⟨h1, o :: os, by simp [h2], ?_, ⟨o2, fun s2 hs2 => ?_⟩, ?_⟩
        · intro o' ho
          rcases List.mem_cons.mp ho with rfl | ho
          · exact o1
          · exact h3 o' ho
        · rw [o3] at hs2
          simp only [Option.some.injEq] at hs2
          subst hs2; exact h4
        · simp only [Stack.trace, o3, Option.bind_some]; exact h5

theorem start_inv {c : RTStack} (nl : ℕ → ℕ) {matI dirI : ℤ} (hv : ValidStart c.S matI dirI) {h θ φ : ℝ} (x y : ℝ) (hθ : 0 ≤ θ) (hθ' : θ < π / 2) (hh : h + 1e-8 ≠ 0) :
    StackInv c nl (c.start x y matI dirI (rA0 h θ φ)) := by
  have hc : 0 < cos θ := cos_pos_of_mem_Ioo ⟨by linarith [pi_pos], hθ'⟩
  obtain ⟨d1, d2, d3⟩ := C101_direction h θ φ x y hθ hθ' hh
  refine ⟨start_onTrack hv, fun _ => ?_, fun j hj => ?_⟩
  · rcases hv with ⟨rfl, -, -⟩ | ⟨rfl, -, -⟩
    · simp only [RTStack.start, Stack.start, d1]
      exact ⟨d3, Or.inl ⟨rfl, by simp [incoming, hc]⟩⟩
    · simp only [RTStack.start, Stack.start, d2]
      refine ⟨?_, Or.inr ⟨rfl, hc⟩⟩
      have := flip_norm d3
      simpa [incoming] using this
  · simp only [RTStack.start, Stack.start] at hj; omega

/-- How the loop at a periodic surface ends, for a ray that comes from its own side. -/
theorem sicStep_away {Lx Ly : ℝ} {d0 : V3} {side0 : ℤ} (hfrom : ComesFrom side0 d0) {w : Draw} {s : Sic} (h : SicInv d0 side0 0 s) {res : SicRes}
    (hs : sicStep Lx Ly d0 w s = .inr res) {side : ℤ} (hside : endsIn res = some side) : MovesAway side (finalDir res) ∨ (finalDir res).z = 0 ∨
      (side = 1 ∧ (finalDir res).z < 0 ∧ (finalHeight res = none ∨ ∃ z, finalHeight res = some z ∧ z ≤ w.zmin)) ∨
      (side = -1 ∧ 0 < (finalDir res).z ∧ (finalHeight res = none ∨ ∃ z, finalHeight res = some z ∧ w.zmax ≤ z)) := by
  unfold sicStep at hs
  simp only at hs
  split at hs
  · split_ifs at hs with h1 h2 h3 h4
    · simp only [Sum.inr.injEq] at hs
      subst hs
      have hi : s.i1 = 0 := by omega
      obtain ⟨e1, e2⟩ := h.fresh hi
      simp only [endsIn, Option.some.injEq] at hside
      subst hside
      left
      simp only [finalDir, e1, e2]
      rcases hfrom with ⟨a, b⟩ | ⟨a, b⟩
      · exact Or.inl ⟨a, by simpa using b⟩
      · exact Or.inr ⟨a, by simpa using b⟩
    · split at hs
      · simp only [Sum.inr.injEq] at hs
        subst hs
        simp only [endsIn, Option.some.injEq] at hside
        subst hside
        rcases h4 with ⟨g1, g2, -⟩ | ⟨g1, g2, -⟩
        · exact Or.inr (Or.inr (Or.inl ⟨g1, g2, Or.inl rfl⟩))
        · exact Or.inr (Or.inr (Or.inr ⟨g1, g2, Or.inl rfl⟩))
      · simp at hs
    · simp only [Sum.inr.injEq] at hs
      subst hs
      simp only [endsIn, Option.some.injEq] at hside
      subst hside
      push Not at h4
      simp only [finalDir, finalHeight, MovesAway]
      rcases lt_trichotomy s.d.z 0 with g | g | g
      · rcases h.side with e | e
        · exact Or.inr (Or.inr (Or.inl ⟨e, g, Or.inr ⟨_, rfl, h4.1 e g⟩⟩))
        · exact Or.inl (Or.inr ⟨e, g⟩)
      · exact Or.inr (Or.inl g)
      · rcases h.side with e | e
        · exact Or.inl (Or.inl ⟨e, g⟩)
        · exact Or.inr (Or.inr (Or.inr ⟨e, g, Or.inr ⟨_, rfl, h4.2 e g⟩⟩))
  · split at hs
    · simp only [Sum.inr.injEq] at hs
      subst hs
      simp [endsIn] at hside
    · simp at hs

/-! ## C130 -/

section
variable (c : RTStack) (nl : ℕ → ℕ) (hc : PhysicalStack c nl) (matI dirI : ℤ) (hv : ValidStart c.S matI dirI)
include hc hv

/-- **C130, no missing layer or surface.** Whatever is drawn, a ray traced through a stack never addresses a surface, lookup table or medium that does not exist. -/
theorem C130_no_error (ra0 : V3) (x y : ℝ) (ms : List Meeting) : c.run ms (c.start x y matI dirI ra0) ≠ .indexError :=
  run_not_error hc ms _ (start_onTrack hv)

variable (h θ φ : ℝ) (hθ : 0 ≤ θ) (hθ' : θ < π / 2) (hh : h + 1e-8 ≠ 0)
include hθ hθ' hh

theorem traced_finished {s : StackRay} (hs : TracedThrough c matI dirI h θ φ s) :
    FinishedFrom c.S matI dirI s.ray ∧ StackInv c nl s := by
  obtain ⟨x, y, ms, h1, h2, h3, h4⟩ := hs
  obtain ⟨i, os, -, o2, -, o4⟩ := run_refines hc ms _ s (start_inv nl hv x y hθ hθ' hh) h1 h2 h3
  exact ⟨⟨os, o2, o4, h4⟩, i⟩

/-- **C130, energy.** Rays are traced through textured surfaces of any shape, with Fresnel reflection or lookup tables, periodic or not, with or without random positions.  Reflection + transmission + absorption in the bulk
layers + absorption in the interface layers (`nl j` of them at surface `j`) is between `1 - I_thresh` and 1, and all the fractions are non-negative. -/
theorem C130_totals (rays : List StackRay) (hne : rays ≠ []) (hr : ∀ s ∈ rays, TracedThrough c matI dirI h θ φ s) :
    let rs := rays.map StackRay.ray
    let total := resR rs + resT rs + ∑ m ∈ Finset.Ico 1 (c.S.widths.length - 1), resA rs m
      + ∑ j ∈ Finset.range c.S.nSurf, ∑ l ∈ Finset.range (nl j), resAint rs j l
    1 - c.S.thresh ≤ total ∧ total ≤ 1 ∧ 0 ≤ resR rs ∧ 0 ≤ resT rs ∧ (∀ m, 0 ≤ resA rs m) ∧ (∀ j l, 0 ≤ resAint rs j l) := by
  intro rs total
  have hfin : ∀ s ∈ rs, FinishedFrom c.S matI dirI s := by
    intro s hs
    obtain ⟨t, ht, rfl⟩ := List.mem_map.mp hs
    exact (traced_finished c nl hc matI dirI hv h θ φ hθ hθ' hh (hr t ht)).1
  have hnl : ∀ s ∈ rs, ∀ j : ℕ, s.aIdx = (j : ℤ) + 1 → s.aInt.length = nl j := by
    intro s hs
    obtain ⟨t, ht, rfl⟩ := List.mem_map.mp hs
    exact (traced_finished c nl hc matI dirI hv h θ φ hθ hθ' hh (hr t ht)).2.layers
  obtain ⟨-, t1, t2⟩ := C37_totals c.S hc.passive matI dirI hv rs (by simpa [rs] using hne) hfin nl hnl
  obtain ⟨s1, s2, s3, s4, s5, -⟩ := C37_signs c.S hc.passive matI dirI hv rs hfin
  exact ⟨t1, t2, le_trans s1 s2, s3, s4, s5⟩

/-- **C130, what counts as reflected.** A traced ray counts towards `R` exactly if it is at the end in the incidence medium, travelling up, and towards `T` exactly if it is in the transmission
medium, travelling down; the rays that count towards neither have been absorbed. -/
theorem C130_classification (s : StackRay) (hs : TracedThrough c matI dirI h θ φ s) :
    (s.ray.isRefl = true ↔ s.ray.θ ≠ none ∧ 0 < s.d.z ∧ s.ray.mat = 0) ∧
    (s.ray.isTrns = true ↔ s.ray.θ ≠ none ∧ s.d.z < 0 ∧ s.ray.mat = (c.S.widths.length : ℤ) - 1) ∧
    (s.ray.isRefl = false ∧ s.ray.isTrns = false → s.ray.θ = none) := by
  obtain ⟨x, y, ms, h1, h2, h3, h4⟩ := hs
  obtain ⟨i, os, -, o2, o3, o4⟩ := run_refines hc ms _ s (start_inv nl hv x y hθ hθ' hh) h1 h2 h3
  obtain ⟨c1, c2⟩ := C37_classification c.S matI dirI hv os o2 o3 s.ray o4 h4
  refine ⟨?_, ?_, ?_⟩
  · rw [c1]
    constructor
    · rintro ⟨a, b, e⟩
      refine ⟨a, ?_, e⟩
      rcases (i.dir (Or.inr a)).2 with ⟨f, -⟩ | ⟨-, f⟩
      · omega
      · exact f
    · rintro ⟨a, b, e⟩
      refine ⟨a, ?_, e⟩
      rcases (i.dir (Or.inr a)).2 with ⟨-, f⟩ | ⟨f, -⟩
      · linarith
      · exact f
  · rw [c2]
    constructor
    · rintro ⟨a, b, e⟩
      refine ⟨a, ?_, e⟩
      rcases (i.dir (Or.inr a)).2 with ⟨-, f⟩ | ⟨f, -⟩
      · exact f
      · omega
    · rintro ⟨a, b, e⟩
      refine ⟨a, ?_, e⟩
      rcases (i.dir (Or.inr a)).2 with ⟨f, -⟩ | ⟨-, f⟩
      · exact f
      · linarith
  · rintro ⟨a, b⟩
    unfold Ray.isRefl at a
    unfold Ray.isTrns at b
    cases ht : s.ray.θ with
    | none => rfl
    | some t =>
      rw [ht] at a b
      simp only [decide_eq_false_iff_not] at a b
      exact absurd (not_le.mp a) b

/-- **C130, the right optics at every surface.** When a ray that has not ended meets a surface, it is surface `k` for some `k`, the media above and below are taken to be media `k` and `k+1`, and the lookup table is the one
of that surface.  When it leaves that surface moving away from it (up on the upper side, down on the lower side), the medium in which it is then attenuated is the one on the side of the surface it is on. -/
theorem C130_media (x y : ℝ) (ms : List Meeting) (hd : DrawsBelowOne ms) (hl : NeverLevel c (c.start x y matI dirI (rA0 h θ φ)) ms) (s : StackRay)
    (hs : c.run ms (c.start x y matI dirI (rA0 h θ φ)) = .next s) (hstop : s.ray.stop = false) :
    ∃ (k : ℕ) (cell : Cell) (tab : Option Table) (ni nj : ℂ), c.cells[k]? = some cell ∧ c.tabs[k]? = some tab ∧ c.nks[k]? = some ni ∧ c.nks[k + 1]? = some nj ∧
      ∀ m : Meeting, c.step m s = c.advance s (c.meet cell tab ni nj m s) ∧
        ((∀ w ∈ m.ws, w.rnd < 1) → ∀ res, c.meet cell tab ni nj m s = some res →
          ∃ s', c.step m s = .next s' ∧ s'.d = finalDir res ∧ s'.r.map V3.z = finalHeight res ∧
            ∀ side, endsIn res = some side → MovesAway side (finalDir res) → s'.ray.mat = if side = 1 then (k : ℤ) else k + 1) := by
  obtain ⟨i, -⟩ := run_refines hc ms _ s (start_inv nl hv x y hθ hθ' hh) hd hl hs
  obtain ⟨k, cell, tab, ni, nj, -, -, hcell, htab, hi, hj, k1, k2, e⟩ := step_media hc i.track hstop
  refine ⟨k, cell, tab, ni, nj, hcell, htab, hi, hj, fun m => ⟨e m, fun hm res hres => ?_⟩⟩
  obtain ⟨hu, hfrom⟩ := i.dir (Or.inl hstop)
  have hdz : s.d.z ≠ 0 := by rcases hfrom with ⟨-, h⟩ | ⟨-, h⟩ <;> linarith
  obtain ⟨s1, h1, h2⟩ := step_onTrack i.track res.outcome
  refine ⟨{ ray := s1, r := res.pos, d := res.dir }, by rw [e m, hres]; simp only [RTStack.advance, h1], by cases res <;> rfl, by cases res <;> rfl, ?_⟩
  intro side hside haway
  have hfd : finalDir res = res.dir := by cases res <;> rfl
  rw [hfd] at haway
  have hz : res.dir.z ≠ 0 := by rcases haway with ⟨-, h⟩ | ⟨-, h⟩ <;> linarith
  have hend := meet_end hc htab (List.mem_of_getElem? hi) (List.mem_of_getElem? hj) hm hu hdz i.track.dir hres
  obtain ⟨-, -, hrest⟩ := meetEnd_tells hfrom hend hz
  obtain ⟨-, f2, -, -⟩ := stackStep_fields i.track hstop h1
  simp only
  rw [f2]
  rcases hrest with ⟨A, -, h0, -⟩ | ⟨-, -, ⟨t, ht⟩, -⟩
  · rw [h0] at hside; simp at hside
  · rcases ht with ⟨eo, key⟩ | ⟨eo, key⟩ <;> rw [eo] <;> simp only [Ray.interact] <;> rcases haway with ⟨rfl, hp⟩ | ⟨rfl, hp⟩
    · rw [if_pos rfl]; exact k1 (key.mp hp)
    · rw [if_neg (by norm_num)]
      rcases i.track.dir with g | g
      · have := key.mpr g; linarith
      · exact k2 g
    · rw [if_pos rfl]
      have g := key.mp hp
      rw [k2 g, g]; ring
    · rw [if_neg (by norm_num)]
      rcases i.track.dir with g | g
      · rw [k1 g, g]
      · have := key.mpr g; linarith

/-- **C130, slipping.** At a periodic surface the ray does leave moving away from the surface, unless it is exactly horizontal or has slipped past the whole surface. -/
theorem C130_slipping (hper : c.periodic = true) (x y : ℝ) (ms : List Meeting) (hd : DrawsBelowOne ms) (hl : NeverLevel c (c.start x y matI dirI (rA0 h θ φ)) ms) (s : StackRay)
    (hs : c.run ms (c.start x y matI dirI (rA0 h θ φ)) = .next s) (hstop : s.ray.stop = false) (k : ℕ) (cell : Cell) (tab : Option Table) (ni nj : ℂ)
    (htab : c.tabs[k]? = some tab) (hi : c.nks[k]? = some ni) (hj : c.nks[k + 1]? = some nj) (m : Meeting) (hm : ∀ w ∈ m.ws, w.rnd < 1) (res : SicRes)
    (hres : c.meet cell tab ni nj m s = some res) (side : ℤ) (hside : endsIn res = some side) :
    MovesAway side (finalDir res) ∨ (finalDir res).z = 0 ∨ SlippedPast m res := by
  obtain ⟨i, -⟩ := run_refines hc ms _ s (start_inv nl hv x y hθ hθ' hh) hd hl hs
  obtain ⟨hu, hfrom⟩ := i.dir (Or.inl hstop)
  have hz : s.d.z ≠ 0 := by rcases hfrom with ⟨-, h⟩ | ⟨-, h⟩ <;> linarith
  have hdd : (c.randomised cell m s).2 = s.d := by
    unfold RTStack.randomised
    split_ifs
    · simp [randDir, hz]
    · rfl
  have hok : ∀ w ∈ m.ws.map fun w => w.draw c.asin c.pol tab ni nj, SideOk w := by
    intro w hw
    rw [List.mem_map] at hw
    obtain ⟨w', hw', rfl⟩ := hw
    exact (iterDraw_ok hc htab (List.mem_of_getElem? hi) (List.mem_of_getElem? hj) (hm w' hw')).side
  have key : ∀ ws s0, (∀ w ∈ ws, w ∈ m.ws.map fun w => w.draw c.asin c.pol tab ni nj) → SicInv s.d s.ray.dir 0 s0 → sicRun cell.Lx cell.Ly s.d ws s0 = .inr res →
      MovesAway side (finalDir res) ∨ (finalDir res).z = 0 ∨ SlippedPast m res := by
    intro ws s0 hws h0 hrun
    obtain ⟨w, hw, s1, g1, -, g2⟩ := sicRun_inv ws (fun w hw => hok w (hws w hw)) s0 res h0 (Nat.zero_le _) hrun
    obtain ⟨w', hw', rfl⟩ := List.mem_map.mp (hws w hw)
    rcases sicStep_away hfrom g1 g2 hside with e | e | ⟨e1, e2, e3⟩ | ⟨e1, e2, e3⟩
    · exact Or.inl e
    · exact Or.inr (Or.inl e)
    · refine Or.inr (Or.inr (Or.inl ⟨by rw [hside, e1], e2, ?_⟩))
      rcases e3 with e3 | ⟨z, z1, z2⟩
      · exact Or.inl e3
      · exact Or.inr ⟨w', hw', z, z1, z2⟩
    · refine Or.inr (Or.inr (Or.inr ⟨by rw [hside, e1], e2, ?_⟩))
      rcases e3 with e3 | ⟨z, z1, z2⟩
      · exact Or.inl e3
      · exact Or.inr ⟨w', hw', z, z1, z2⟩
  unfold RTStack.meet at hres
  simp only [hdd, hper, if_true] at hres
  split at hres
  · rw [Sum.getRight?_eq_some_iff] at hres
    exact key _ _ (fun w hw => hw) (sicStart_inv _ _ _ _ i.track.dir) hres
  · split at hres
    · simp at hres
    · rename_i w ws he
      rw [Sum.getRight?_eq_some_iff] at hres
      refine key _ _ (fun w' hw' => by rw [he]; simp [hw']) ?_ hres
      exact ⟨i.track.dir, fun _ => ⟨rfl, rfl⟩, fun h0 => absurd rfl h0, fun hc => by simp [sicStartNaN, sicStart] at hc⟩

/-- **C130, no ray is followed for ever.** If every inner medium has `α·w ≥ δ > 0`, a ray that has met more than `ln(1/I_thresh)/δ` surfaces has ended. -/
theorem C130_ends (δ : ℝ) (hδ : 0 < δ) (hI : 0 < c.S.thresh)
    (habs : ∀ m, 1 ≤ m → m + 1 < c.S.widths.length → δ ≤ c.S.alphas.getD m 0 * c.S.widths.getD m 0)
    (x y : ℝ) (ms : List Meeting) (hd : DrawsBelowOne ms) (hl : NeverLevel c (c.start x y matI dirI (rA0 h θ φ)) ms) (s : StackRay)
    (hs : c.run ms (c.start x y matI dirI (rA0 h θ φ)) = .next s) (hlen : log (1 / c.S.thresh) < δ * ms.length) (hpos : 0 < ms.length) : s.ray.stop = true := by
  obtain ⟨-, os, o1, o2, -, o4⟩ := run_refines hc ms _ s (start_inv nl hv x y hθ hθ' hh) hd hl hs
  obtain ⟨s1, t1, t2, -⟩ := C38_terminates c.S hc.passive matI dirI hv δ hδ hI habs os o2
  have : s1 = s.ray := by
    have := t1.symm.trans o4
    simpa using this
  rw [← this]
  exact t2 (by rw [o1]; exact hlen) (by rw [o1]; exact hpos)

end

/-! ## Positions -/

theorem backInto_mem {a L : ℝ} (hL : 0 < L) : 0 ≤ backInto a L ∧ backInto a L ≤ L := by
  unfold backInto
  split_ifs with hc
  · have h1 := Int.floor_le (a / L)
    have h2 := Int.lt_floor_add_one (a / L)
    rw [le_div_iff₀ hL] at h1
    rw [div_lt_iff₀ hL] at h2
    constructor <;> nlinarith
  · push Not at hc
    exact ⟨hc.2, hc.1⟩

/-- A ray which is sent back was started inside the unit cell. -/
structure PlaceInv (Lx Ly : ℝ) (s : Sic) : Prop where
  checked : s.checked = true → s.i1 ≠ 0
  fresh : s.i1 = 0 → s.misses ≠ 0 → InCell Lx Ly s.r

theorem relaunch_inCell {Lx Ly : ℝ} (hLx : 0 < Lx) (hLy : 0 < Ly) {w : Draw} (hw : 0 ≤ w.rx ∧ w.rx ≤ 1 ∧ 0 ≤ w.ry ∧ w.ry ≤ 1) (d : V3) : InCell Lx Ly (relaunch Lx Ly w d) := by
  obtain ⟨⟨a, b, c, e⟩, -⟩ := relaunch_side hLx.le hLy.le hw d
  exact ⟨a, b, c, e⟩

theorem sicStep_place {Lx Ly : ℝ} (hLx : 0 < Lx) (hLy : 0 < Ly) {d0 : V3} {w : Draw} (hw : 0 ≤ w.rx ∧ w.rx ≤ 1 ∧ 0 ≤ w.ry ∧ w.ry ≤ 1) {s s' : Sic} (h : PlaceInv Lx Ly s)
    (hs : sicStep Lx Ly d0 w s = .inl s') : PlaceInv Lx Ly s' := by
  unfold sicStep at hs
  simp only at hs
  split at hs
  · split_ifs at hs with h1 h2 h3 h4
    · simp only [Sum.inl.injEq] at hs
      subst hs
      exact ⟨fun _ => by simp, fun h => by simp at h⟩
    · simp only [Sum.inl.injEq] at hs
      subst hs
      exact ⟨fun hc => by simp_all, fun _ _ => relaunch_inCell hLx hLy hw _⟩
    · split at hs
      · simp at hs
      · simp only [Sum.inl.injEq] at hs
        subst hs
        exact ⟨fun _ => by simp, fun h => by simp at h⟩
  · split at hs
    · simp at hs
    · simp only [Sum.inl.injEq] at hs
      subst hs
      exact ⟨fun hc => by simp at hc, fun h => by simp at h⟩

theorem sicRun_place {Lx Ly : ℝ} (hLx : 0 < Lx) (hLy : 0 < Ly) {d0 : V3} : ∀ (ws : List Draw), (∀ w ∈ ws, 0 ≤ w.rx ∧ w.rx ≤ 1 ∧ 0 ≤ w.ry ∧ w.ry ≤ 1) → ∀ (s : Sic) (res : SicRes),
    PlaceInv Lx Ly s → sicRun Lx Ly d0 ws s = .inr res → (∃ A, res.outcome = .absorb A) ∨ res.pos = none ∨ ∃ r, res.pos = some r ∧ InCell Lx Ly r := by
  intro ws
  induction ws with
  | nil => intro _ s res _ h; simp [sicRun] at h
  | cons w ws ih =>
    intro hws s res hinv h
    have hw := hws w (by simp)
    simp only [sicRun] at h
    cases hstep : sicStep Lx Ly d0 w s with
    | inl s1 =>
      rw [hstep] at h
      exact ih (fun w' hw' => hws w' (by simp [hw'])) s1 res (sicStep_place hLx hLy hw hinv hstep) h
    | inr res' =>
      rw [hstep] at h
      simp only [Sum.inr.injEq] at h
      subst h
      unfold sicStep at hstep
      simp only at hstep
      split at hstep
      · split_ifs at hstep with h1 h2 h3 h4
        · simp only [Sum.inr.injEq] at hstep
          subst hstep
          exact Or.inr (Or.inr ⟨_, rfl, hinv.fresh (by omega) (by omega)⟩)
        · split at hstep
          · simp only [Sum.inr.injEq] at hstep
            subst hstep
            exact Or.inr (Or.inl rfl)
          · simp at hstep
        · simp only [Sum.inr.injEq] at hstep
          subst hstep
          exact Or.inr (Or.inr ⟨_, rfl, (backInto_mem hLx).1, (backInto_mem hLx).2, (backInto_mem hLy).1, (backInto_mem hLy).2⟩)
      · split at hstep
        · simp only [Sum.inr.injEq] at hstep
          subst hstep
          exact Or.inl ⟨_, rfl⟩
        · simp at hstep

theorem step_absorb_none {S : Stack} {s s' : Ray} {A : List ℝ} (h : S.step s (.absorb A) = some s') (hs : s.stop = false) : s'.θ = none := by
  have h1 : (S.checkEnd (s.interact (.absorb A))).stop = true ∧ (S.checkEnd (s.interact (.absorb A))).θ = none := by
    unfold Stack.checkEnd
    split_ifs <;> simp [Ray.interact]
  unfold Stack.step at h
  rw [if_neg (by simp [hs])] at h
  simp only [Option.bind_eq_some_iff, h1.1, if_true, Option.some.injEq] at h
  obtain ⟨-, -, -, -, -, -, rfl⟩ := h
  exact h1.2

/-- **C130, positions.** After a periodic surface a ray that was not absorbed there is inside the unit cell of this surface, unless its coordinates are no longer finite. -/
theorem C130_position (c : RTStack) (hper : c.periodic = true) (s s' : StackRay) (hstop : s.ray.stop = false) (cell : Cell) (hcell : pyGet c.cells s.ray.surf = some cell)
    (hLx : 0 < cell.Lx) (hLy : 0 < cell.Ly) (m : Meeting) (hm : ∀ w ∈ m.ws, 0 ≤ w.rx ∧ w.rx ≤ 1 ∧ 0 ≤ w.ry ∧ w.ry ≤ 1) (hs : c.step m s = .next s') (hθ : s'.ray.θ ≠ none) :
    s'.r = none ∨ ∃ r, s'.r = some r ∧ InCell cell.Lx cell.Ly r := by
  unfold RTStack.step at hs
  rw [if_neg (by simp [hstop])] at hs
  split at hs
  · rename_i cell' tab ni nj e1 e2 e3 e4
    rw [hcell, Option.some.injEq] at e1
    subst e1
    unfold RTStack.advance at hs
    split at hs
    · simp at hs
    · rename_i res hres
      split at hs
      · simp at hs
      · rename_i ray hray
        simp only [StackRes.next.injEq] at hs
        subst hs
        have hw : ∀ w ∈ m.ws.map fun w => w.draw c.asin c.pol tab ni nj, 0 ≤ w.rx ∧ w.rx ≤ 1 ∧ 0 ≤ w.ry ∧ w.ry ≤ 1 := by
          intro w hw
          obtain ⟨w', hw', rfl⟩ := List.mem_map.mp hw
          exact hm w' hw'
        have key : (∃ A, res.outcome = .absorb A) ∨ res.pos = none ∨ ∃ r, res.pos = some r ∧ InCell cell.Lx cell.Ly r := by
          unfold RTStack.meet at hres
          simp only [hper, if_true] at hres
          split at hres
          · rw [Sum.getRight?_eq_some_iff] at hres
            exact sicRun_place hLx hLy _ hw _ _ ⟨by simp [sicStart], by simp [sicStart]⟩ hres
          · split at hres
            · simp at hres
            · rename_i w ws he
              rw [Sum.getRight?_eq_some_iff] at hres
              rw [he] at hw
              exact sicRun_place hLx hLy _ (fun w' h' => hw w' (by simp [h'])) _ _ ⟨by simp [sicStartNaN, sicStart], fun _ _ => relaunch_inCell hLx hLy (hw w (by simp)) _⟩ hres
        rcases key with ⟨A, hA⟩ | h | h
        · rw [hA] at hray
          exact absurd (step_absorb_none hray hstop) hθ
        · exact Or.inl h
        · exact Or.inr h
  · simp at hs

/-! ## Examples -/

/-- One layer between two flat surfaces. -/
noncomputable def exRT : RTStack :=
  { S := exStack, cells := [⟨10, 10, 0, 0, 0⟩, ⟨10, 10, -2, -2, -2⟩], nks := [1, 2, 1], tabs := [none, none], asin := fun _ => 0, pol := .u, randomize := false, periodic := true }

theorem exRT_physical : PhysicalStack exRT (fun _ => 0) where
  passive := exStack_passive
  cells := rfl
  tabs := rfl
  nks := rfl
  re := by intro n hn; simp [exRT] at hn; rcases hn with rfl | rfl | rfl <;> norm_num
  im := by intro n hn; simp [exRT] at hn; rcases hn with rfl | rfl | rfl <;> norm_num
  table := by
    intro k tab h
    rcases k with _ | _ | k <;> simp [exRT] at h

noncomputable def exIter : IterDraw := { tris := [exTri], zmin := 0, zmax := 0, rx := 0, ry := 0, rnd := 0 }

theorem exIter_draw : exIter.draw (fun _ => 0) .u none 1 2 = exDraw := rfl

/-- A ray that falls perpendicularly on the first surface and is reflected. -/
theorem exRT_run (S : Stack) (hS : S.widths.length = 3) : ∃ ms s, DrawsBelowOne ms ∧ NeverLevel { exRT with S := S } ((RTStack.start { exRT with S := S }) 1 1 0 1 (rA0 (5 - 1e-8) 0 0)) ms ∧
    (RTStack.run { exRT with S := S }) ms ((RTStack.start { exRT with S := S }) 1 1 0 1 (rA0 (5 - 1e-8) 0 0)) = .next s ∧ s.ray.stop = true ∧ s.d = ⟨0, 0, 1⟩ ∧ s.ray.mat = 0 ∧ s.ray.θ ≠ none := by
  set c : RTStack := { exRT with S := S } with hc
  have hra : rA0 (5 - 1e-8) 0 0 = ⟨0, 0, 5⟩ := by
    unfold rA0; simp
  have hd : startDir 1 1 1 (rA0 (5 - 1e-8) 0 0) = ⟨0, 0, -1⟩ := by
    rw [(C101_direction (5 - 1e-8) 0 0 1 1 le_rfl (by positivity) (by norm_num)).1]
    simp [incoming]
  have hl : launchD 1 1 (⟨0, 0, 5⟩ : V3) = ⟨0, 0, -1⟩ := by
    have := hd
    simpa [startDir, hra] using this
  have hpos : S.startPos 1 1 0 1 (rA0 (5 - 1e-8) 0 0) = ⟨1, 1, 5⟩ := by
    rw [hra]
    simp only [Stack.startPos, hl, Stack.zOffset]
    simp [launchA]
  have hstart : c.start 1 1 0 1 (rA0 (5 - 1e-8) 0 0) = { ray := Stack.start 0 1, r := some ⟨1, 1, 5⟩, d := ⟨0, 0, -1⟩ } := by
    simp only [RTStack.start, hd, show c.S = S from rfl, hpos]
  obtain ⟨ot, r', t, hrun⟩ := exDraw_run_any 10 10
  have hw : wrapRay ⟨1, 1, 5⟩ ⟨0, 0, -1⟩ 10 10 0 = ⟨1, 1, 5⟩ := by
    unfold wrapRay
    simp
    norm_num
  set s0 : StackRay := { ray := Stack.start 0 1, r := some ⟨1, 1, 5⟩, d := ⟨0, 0, -1⟩ } with hs0
  have hmeet : c.meet ⟨10, 10, 0, 0, 0⟩ none 1 2 ⟨0, 0, [exIter, exIter, exIter]⟩ s0 = some (.out 0 ot r' ⟨0, 0, 1⟩ t 1 1) := by
    have hrd : c.randomised ⟨10, 10, 0, 0, 0⟩ ⟨0, 0, [exIter, exIter, exIter]⟩ s0 = (some ⟨1, 1, 5⟩, ⟨0, 0, -1⟩) := by
      simp [RTStack.randomised, hc, exRT, hs0]
    unfold RTStack.meet
    simp only [hrd]
    simp only [show c.periodic = true from rfl, if_true, wrapOpt, if_neg (show ¬ ((-1 : ℝ) = 0) by norm_num), Option.map_some, hw, List.map_cons, List.map_nil]
    simp only [show c.pol = .u from rfl, show c.asin = fun _ => 0 from rfl, exIter_draw, hs0, Stack.start]
    rw [hrun]; rfl
  have hstep : ∃ s, c.step ⟨0, 0, [exIter, exIter, exIter]⟩ s0 = .next s ∧ s.ray.stop = true ∧ s.d = ⟨0, 0, 1⟩ ∧ s.ray.mat = 0 ∧ s.ray.θ ≠ none := by
    have e : c.step ⟨0, 0, [exIter, exIter, exIter]⟩ s0 = c.advance s0 (c.meet ⟨10, 10, 0, 0, 0⟩ none 1 2 ⟨0, 0, [exIter, exIter, exIter]⟩ s0) := by
      unfold RTStack.step
      simp [hs0, Stack.start, hc, exRT, pyGet]
    rw [e, hmeet]
    simp only [RTStack.advance, SicRes.outcome]
    have : c.S.step s0.ray (.reflect ot) = some { (Stack.start 0 1).interact (.reflect ot) with stop := true } := by
      simp [Stack.step, hc, hS, hs0, Stack.start, Ray.interact, Stack.checkEnd, Stack.nSurf, pyIndex]
    simp only [if_true, this]
    exact ⟨_, rfl, rfl, rfl, rfl, by simp [Ray.interact]⟩
  obtain ⟨s, h1, h2, h3, h4, h5⟩ := hstep
  have hrun1 : c.run [⟨0, 0, [exIter, exIter, exIter]⟩] s0 = .next s := by rw [run_cons h1]; rfl
  refine ⟨[⟨0, 0, [exIter, exIter, exIter]⟩], s, ?_, ?_, by rw [hstart]; exact hrun1, h2, h3, h4, h5⟩
  · intro m hm w hw'
    simp only [List.mem_singleton] at hm
    subst hm
    have : w = exIter := by simpa using hw'
    subst this; norm_num [exIter]
  · rw [hstart]
    intro ms1 hp s1 hr
    rcases List.prefix_cons_iff.mp hp with rfl | ⟨l, rfl, hl'⟩
    · simp only [RTStack.run, StackRes.next.injEq] at hr
      subst hr; norm_num [hs0]
    · simp only [List.prefix_nil] at hl'
      subst hl'
      rw [hrun1] at hr
      simp only [StackRes.next.injEq] at hr
      subst hr; rw [h3]; norm_num

theorem exRT_traced : ∃ s, TracedThrough exRT 0 1 (5 - 1e-8) 0 0 s ∧ s.ray.isRefl = true := by
  obtain ⟨ms, s, h1, h2, h3, h4, h5, h6, h7⟩ := exRT_run exStack rfl
  have ht : TracedThrough exRT 0 1 (5 - 1e-8) 0 0 s := ⟨1, 1, ms, h1, h2, h3, h4⟩
  refine ⟨s, ht, ?_⟩
  rw [(C130_classification exRT (fun _ => 0) exRT_physical 0 1 (Or.inl ⟨rfl, by norm_num, by simp [exRT, exStack, Stack.nSurf]⟩) (5 - 1e-8) 0 0 le_rfl (by positivity) (by norm_num) s ht).1]
  exact ⟨h7, by rw [h5]; norm_num, h6⟩

example : ∃ rays : List StackRay, rays ≠ [] ∧ (∀ s ∈ rays, TracedThrough exRT 0 1 (5 - 1e-8) 0 0 s) ∧ PhysicalStack exRT (fun _ => 0) ∧ ValidStart exRT.S 0 1 := by
  obtain ⟨s, hs, -⟩ := exRT_traced
  exact ⟨[s, s], by simp, by simpa using hs, exRT_physical, Or.inl ⟨rfl, by norm_num, by simp [exRT, exStack, Stack.nSurf]⟩⟩

/-- The hypotheses of `C130_position` for the ray of `exRT_traced`. -/
example : exRT.periodic = true ∧ pyGet exRT.cells (Stack.start 0 1).surf = some ⟨10, 10, 0, 0, 0⟩ ∧ 0 ≤ exIter.rx ∧ exIter.rx ≤ 1 ∧ 0 ≤ exIter.ry ∧ exIter.ry ≤ 1 := by
  refine ⟨rfl, by simp [exRT, Stack.start, pyGet], ?_⟩
  norm_num [exIter]

/-- **C130, level rays.** A ray that is exactly parallel to the layers when it has crossed a layer: with random positions it meets the next surface exactly as a ray that is tilted by 0.001 towards that surface; without, at a periodic
surface, it meets it independently of where it was (the division by zero makes its position undefined, and it is started anew at a random place over the unit cell). -/
theorem C130_level (c : RTStack) (cell : Cell) (tab : Option Table) (ni nj : ℂ) (m : Meeting) (s : StackRay) (hz : s.d.z = 0) :
    (c.randomize = true → 0 < s.ray.nPasses → s.ray.dir = 1 → c.meet cell tab ni nj m s = c.meet cell tab ni nj m { s with d := ⟨s.d.x, s.d.y, -1e-3⟩ }) ∧
    (c.randomize = true → 0 < s.ray.nPasses → s.ray.dir = -1 → c.meet cell tab ni nj m s = c.meet cell tab ni nj m { s with d := ⟨s.d.x, s.d.y, 1e-3⟩ }) ∧
    (c.randomize = false → c.periodic = true → ∀ r, c.meet cell tab ni nj m s = c.meet cell tab ni nj m { s with r := r }) := by
  refine ⟨fun h1 h2 h3 => ?_, fun h1 h2 h3 => ?_, fun h1 h2 r => ?_⟩
  · have e : c.randomised cell m s = c.randomised cell m { s with d := ⟨s.d.x, s.d.y, -1e-3⟩ } := by
      simp only [RTStack.randomised, h1, h2, h3, randStart, randDir, hz, true_and, if_true]
      norm_num
    simp only [RTStack.meet, e]
  · have e : c.randomised cell m s = c.randomised cell m { s with d := ⟨s.d.x, s.d.y, 1e-3⟩ } := by
      simp only [RTStack.randomised, h1, h2, h3, randStart, randDir, hz, true_and, if_true]
      norm_num
    simp only [RTStack.meet, e]
  · simp [RTStack.meet, RTStack.randomised, h1, h2, wrapOpt, hz]

example : ∃ s : StackRay, s.d.z = 0 ∧ 0 < s.ray.nPasses ∧ s.ray.dir = 1 :=
  ⟨⟨{ Stack.start 0 1 with nPasses := 1 }, some ⟨1, 2, -3⟩, ⟨1, 0, 0⟩⟩, rfl, by norm_num, rfl⟩

/-- The absorption hypothesis of `C130_ends`. -/
example : ∀ m, 1 ≤ m → m + 1 < exRT.S.widths.length → (2 : ℝ) ≤ exRT.S.alphas.getD m 0 * exRT.S.widths.getD m 0 := by
  intro m h1 h2
  have : m = 1 := by simp [exRT, exStack] at h2; omega
  subst this; norm_num [exRT, exStack]

end Rayflare
