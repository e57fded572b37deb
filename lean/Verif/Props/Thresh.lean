import Verif.Spec.Thresh
import Verif.Props.FlatLayersRT
import Verif.Props.FrontTexture
import Verif.Props.Statistics

/-!
# Property C158: the threshold `I_thresh` in ray tracing
-/

namespace Rayflare

open Rayflare.Np Rayflare.Model Rayflare.Spec Rayflare.Lemmas MeasureTheory

/-! ## Helper lemmas -/

/-- What a facet can absorb. -/
def Absorbs (A : List ℝ) : Prop := (∀ a ∈ A, 0 ≤ a) ∧ 0 < A.sum

theorem draw_absorbs {asin : ℂ → ℂ} {pol : Pol} {tab : Option Table} (htab : SumToOne tab) {ni nj : ℂ} {w : IterDraw} (hw : w.rnd < 1) (θ : ℝ) (d N : V3) (side : ℤ) {A : List ℝ}
    (h : ((w.draw asin pol tab ni nj).dec θ d N side).2.2 = some A) : Absorbs A := by
  cases tab with
  | none => simp [IterDraw.draw, fresnelDec] at h
  | some t =>
    obtain ⟨-, -, h3, h4⟩ := htab t rfl side |θ|
    simp only [IterDraw.draw, tmmDec, decideTMM] at h
    by_cases h1 : w.rnd ≤ (t side |θ|).1
    · simp [h1] at h
    · rw [if_neg h1] at h
      by_cases h2 : w.rnd > (t side |θ|).1 ∧ w.rnd ≤ (t side |θ|).1 + (t side |θ|).2.1
      · simp [h2] at h
      · rw [if_neg h2] at h
        simp only [Option.some.injEq] at h
        subst h
        refine ⟨h3, ?_⟩
        have : ¬ w.rnd ≤ (t side |θ|).1 + (t side |θ|).2.1 := fun h => h2 ⟨not_le.mp h1, h⟩
        linarith [not_le.mp this]

/-- All draws of a meeting absorb in this way. -/
def DrawsAbsorb (ws : List Draw) : Prop := ∀ w ∈ ws, ∀ θ d N side A, (w.dec θ d N side).2.2 = some A → Absorbs A

theorem sicRun_absorbs {Lx Ly : ℝ} {d0 : V3} : ∀ (ws : List Draw), DrawsAbsorb ws → ∀ (s : Sic) (res : SicRes), sicRun Lx Ly d0 ws s = .inr res → ∀ A, res.outcome = .absorb A → Absorbs A := by
  intro ws
  induction ws with
  | nil => intro _ s res h; simp [sicRun] at h
  | cons w ws ih =>
    intro hw s res h A hA
    simp only [sicRun] at h
    cases hs : sicStep Lx Ly d0 w s with
    | inl s' => rw [hs] at h; exact ih (fun w' hw' => hw w' (by simp [hw'])) s' res h A hA
    | inr r =>
      rw [hs] at h
      simp only [Sum.inr.injEq] at h
      subst h
      unfold sicStep at hs
      simp only at hs
      split at hs
      · split_ifs at hs
        · simp only [Sum.inr.injEq] at hs; subst hs; simp [SicRes.outcome] at hA
        · split at hs
          · simp only [Sum.inr.injEq] at hs; subst hs
            simp only [SicRes.outcome] at hA
            split_ifs at hA
          · simp at hs
        · simp only [Sum.inr.injEq] at hs; subst hs
          simp only [SicRes.outcome] at hA
          split_ifs at hA
      · rename_i p θ Nf _
        split at hs
        · rename_i hdec
          simp only [Sum.inr.injEq] at hs; subst hs
          simp only [SicRes.outcome, Outcome.absorb.injEq] at hA
          subst hA
          exact hw w (by simp) θ s.d ((s.side : ℝ) • Nf) s.side _ hdec
        · simp at hs

theorem sccRun_absorbs {d0 : V3} : ∀ (ws : List Draw), DrawsAbsorb ws → ∀ (s : Scc) (res : SicRes), sccRun d0 ws s = .inr res → ∀ A, res.outcome = .absorb A → Absorbs A := by
  intro ws
  induction ws with
  | nil => intro _ s res h; simp [sccRun] at h
  | cons w ws ih =>
    intro hw s res h A hA
    simp only [sccRun] at h
    cases hs : sccStep d0 w s with
    | inl s' => rw [hs] at h; exact ih (fun w' hw' => hw w' (by simp [hw'])) s' res h A hA
    | inr r =>
      rw [hs] at h
      simp only [Sum.inr.injEq] at h
      subst h
      unfold sccStep at hs
      split at hs
      · simp only [Sum.inr.injEq] at hs; subst hs
        simp only [SicRes.outcome] at hA
        split_ifs at hA
      · rename_i p θ Nf _
        simp only at hs
        split at hs
        · rename_i hdec
          simp only [Sum.inr.injEq] at hs; subst hs
          simp only [SicRes.outcome, Outcome.absorb.injEq] at hA
          subst hA
          exact hw w (by simp) θ s.d ((s.side : ℝ) • Nf) s.side _ hdec
        · simp at hs

theorem meet_absorbs {c : RTStack} {cell : Cell} {tab : Option Table} (htab : SumToOne tab) {ni nj : ℂ} {m : Meeting} (hm : ∀ w ∈ m.ws, w.rnd < 1) {s : StackRay} {res : SicRes}
    (h : c.meet cell tab ni nj m s = some res) {A : List ℝ} (hA : res.outcome = .absorb A) : Absorbs A := by
  have hok : DrawsAbsorb (m.ws.map fun w => w.draw c.asin c.pol tab ni nj) := by
    intro w hw
    rw [List.mem_map] at hw
    obtain ⟨w', hw', rfl⟩ := hw
    intro θ d N side A
    exact draw_absorbs htab (hm w' hw') θ d N side
  unfold RTStack.meet at h
  simp only at h
  split_ifs at h with hp
  · split at h
    · rw [Sum.getRight?_eq_some_iff] at h
      exact sicRun_absorbs _ hok _ _ h A hA
    · split at h
      · simp at h
      · rename_i w ws he
        rw [Sum.getRight?_eq_some_iff] at h
        rw [he] at hok
        exact sicRun_absorbs _ (fun w' hw' => hok w' (by simp [hw'])) _ _ h A hA
  · split at h
    · rw [Sum.getRight?_eq_some_iff] at h
      exact sccRun_absorbs _ hok _ _ h A hA
    · split at h
      · simp at h
      · simp only [Option.some.injEq] at h
        subst h
        simp only [SicRes.outcome] at hA
        split_ifs at hA

/-- A step of an unfinished ray, taken apart. -/
theorem step_next {c : RTStack} (htab : ∀ tab ∈ c.tabs, SumToOne tab) {m : Meeting} (hm : ∀ w ∈ m.ws, w.rnd < 1) {s s' : StackRay} (hs : s.ray.stop = false) (h : c.step m s = .next s') :
    ∃ res : SicRes, c.S.step s.ray res.outcome = some s'.ray ∧ s'.r = res.pos ∧ s'.d = res.dir ∧ (∀ A, res.outcome = .absorb A → Absorbs A) ∧
      ∀ t, (withThresh c t).step m s = (withThresh c t).advance s (some res) := by
  have hst : ¬ s.ray.stop = true := by simp [hs]
  unfold RTStack.step at h
  rw [if_neg hst] at h
  split at h
  · rename_i cell tab ni nj h1 h2 h3 h4
    cases hmt : c.meet cell tab ni nj m s with
    | none => rw [hmt] at h; simp [RTStack.advance] at h
    | some res =>
      rw [hmt] at h
      simp only [RTStack.advance] at h
      cases hss : c.S.step s.ray res.outcome with
      | none => rw [hss] at h; simp at h
      | some ray =>
        rw [hss] at h
        simp only [StackRes.next.injEq] at h
        subst h
        refine ⟨res, hss, rfl, rfl, fun A hA => meet_absorbs (htab tab (pyGet_mem h2)) hm hmt hA, fun t => ?_⟩
        unfold RTStack.step
        rw [if_neg hst]
        have e1 : pyGet (withThresh c t).cells s.ray.surf = some cell := h1
        have e2 : pyGet (withThresh c t).tabs s.ray.surf = some tab := h2
        have e3 : pyGet (withThresh c t).nks (if s.ray.dir = 1 then s.ray.mat else s.ray.mat - 1) = some ni := h3
        have e4 : pyGet (withThresh c t).nks (if s.ray.dir = 1 then s.ray.mat + 1 else s.ray.mat) = some nj := h4
        rw [e1, e2, e3, e4]
        have e5 : (withThresh c t).meet cell tab ni nj m s = some res := hmt
        simp only [e5]
  · simp at h

/-- The threshold only decides whether the ray is given up after a pass. -/
theorem step_thresh {S : Stack} {t t' : ℝ} (htt : t' ≤ t) {s s' : Ray} (hs : s.stop = false) {o : Outcome} (h : ({ S with thresh := t' } : Stack).step s o = some s') :
    ({ S with thresh := t } : Stack).step s o = some s' ∨
    ({ S with thresh := t } : Stack).step s o = some { s' with stop := true, θ := none } ∧ s'.I < t ∧ s'.aIdx = s.aIdx ∧ s'.aInt = s.aInt ∧ 1 ≤ s'.nPasses := by
  have hst : ¬ s.stop = true := by simp [hs]
  unfold Stack.step at h ⊢
  rw [if_neg hst] at h ⊢
  simp only [Option.bind_eq_some_iff] at h
  obtain ⟨i1, e1, i2, e2, i3, e3, h⟩ := h
  have e1' : pyIndex ({ S with thresh := t } : Stack).nSurf s.surf = some i1 := e1
  have e2' : pyIndex ({ S with thresh := t } : Stack).widths.length s.mat = some i2 := e2
  have e3' : pyIndex ({ S with thresh := t } : Stack).widths.length (if s.dir = 1 then s.mat + 1 else s.mat - 1) = some i3 := e3
  simp only [e1', e2', e3', Option.bind_some]
  have ec : ({ S with thresh := t } : Stack).checkEnd (s.interact o) = ({ S with thresh := t' } : Stack).checkEnd (s.interact o) := rfl
  rw [ec]
  set y := ({ S with thresh := t' } : Stack).checkEnd (s.interact o) with hy
  by_cases h2 : y.stop
  · rw [if_pos h2] at h ⊢; exact Or.inl h
  · rw [if_neg h2] at h ⊢
    obtain ⟨m, hm, rfl⟩ := Option.map_eq_some_iff.mp h
    have hm' : pyIndex ({ S with thresh := t } : Stack).widths.length y.mat = some m := hm
    rw [hm', Option.map_some]
    have hay : y.aIdx = s.aIdx ∧ y.aInt = s.aInt := by
      cases o with
      | absorb A =>
        exfalso; apply h2
        rw [hy]; unfold Stack.checkEnd
        split_ifs <;> simp [Ray.interact]
      | reflect θ => rw [hy]; unfold Stack.checkEnd; split_ifs <;> exact ⟨rfl, rfl⟩
      | transmit θ => rw [hy]; unfold Stack.checkEnd; split_ifs <;> exact ⟨rfl, rfl⟩
    set I' := y.I * Real.exp (-(S.alphas.getD m 0 / |Real.cos (y.θ.getD 0)|) * S.widths.getD m 0) with hI'
    have f1 : (({ S with thresh := t' } : Stack).pass y m).I = I' := rfl
    by_cases ht : I' < t
    · by_cases ht' : I' < t'
      · left
        congr 1
        simp only [Stack.pass, Model.traverse, Ray.mk.injEq]
        simp only [← hI', ht, ht', decide_true]
        refine ⟨?_, ?_, ?_, ?_, ?_, ?_, ?_, ?_, ?_, ?_, ?_⟩ <;> first | trivial | rfl
      · right
        refine ⟨?_, by rw [f1]; exact ht, hay.1, hay.2, by simp [Stack.pass]⟩
        congr 1
        simp only [Stack.pass, Model.traverse, Ray.mk.injEq]
        simp only [← hI', ht, decide_true]
        refine ⟨?_, ?_, ?_, ?_, ?_, ?_, ?_, ?_, ?_, ?_, ?_⟩ <;> first | trivial | rfl
    · left
      have ht' : ¬ I' < t' := fun h => ht (h.trans_le htt)
      congr 1
      simp only [Stack.pass, Model.traverse, Ray.mk.injEq]
      simp only [← hI', ht, ht', decide_false]
      refine ⟨?_, ?_, ?_, ?_, ?_, ?_, ?_, ?_, ?_, ?_, ?_⟩ <;> first | trivial | rfl

/-- What was absorbed stays absorbed. -/
theorem step_profile_mono {S : Stack} (hS : Passive S) {s : Ray} (hI : 0 ≤ s.I) {o : Outcome} {s' : Ray} (h : S.step s o = some s') (k : ℕ) : s.profile k ≤ s'.profile k := by
  unfold Stack.step at h
  by_cases hst : s.stop
  · rw [if_pos hst] at h; cases h; rfl
  · rw [if_neg hst] at h
    simp only [Option.bind_eq_some_iff] at h
    obtain ⟨_, _, _, _, _, _, h⟩ := h
    have hp : (S.checkEnd (s.interact o)).profile = s.profile := by unfold Stack.checkEnd; split_ifs <;> cases o <;> rfl
    have hI' : 0 ≤ (S.checkEnd (s.interact o)).I := by
      unfold Stack.checkEnd
      cases o with
      | absorb A => split_ifs <;> simp [Ray.interact]
      | reflect θ => split_ifs <;> exact hI
      | transmit θ => split_ifs <;> exact hI
    by_cases h2 : (S.checkEnd (s.interact o)).stop
    · rw [if_pos h2] at h; cases h; rw [hp]
    · rw [if_neg h2] at h
      obtain ⟨m, -, rfl⟩ := Option.map_eq_some_iff.mp h
      simp only [Stack.pass, addAt, hp]
      split_ifs
      · have := getD_nonneg (traverse_nonneg (S.widths.getD m 0) ((S.checkEnd (s.interact o)).θ.getD 0) (S.alphas.getD m 0) (S.checkEnd (s.interact o)).I (S.depths m) S.thresh
          (decide ((S.checkEnd (s.interact o)).dir = -1)) (getD_nonneg hS.alphas m) hI' (getD_nonneg hS.widths m)) ((S.layerIdx m).idxOf k)
        linarith
      · exact le_rfl

/-- `s'` is a later state of the ray `s`. -/
structure Later (s s' : Ray) : Prop where
  I : s'.I ≤ s.I
  A : ∀ m, s.A m ≤ s'.A m
  profile : ∀ k, s.profile k ≤ s'.profile k
  passes : s.nPasses ≤ s'.nPasses

theorem Later.refl (s : Ray) : Later s s := ⟨le_rfl, fun _ => le_rfl, fun _ => le_rfl, le_rfl⟩
theorem Later.trans {a b c : Ray} (h : Later a b) (g : Later b c) : Later a c :=
  ⟨g.I.trans h.I, fun m => (h.A m).trans (g.A m), fun k => (h.profile k).trans (g.profile k), h.passes.trans g.passes⟩

section
variable {c : RTStack} (hS : Passive c.S) (htab : ∀ tab ∈ c.tabs, SumToOne tab)
include hS htab

theorem step_later {m : Meeting} (hm : ∀ w ∈ m.ws, w.rnd < 1) {s s' : StackRay} (ht : OnTrack c.S s.ray) (he : Energy c.S s.ray) (h : c.step m s = .next s') :
    OnTrack c.S s'.ray ∧ Energy c.S s'.ray ∧ Later s.ray s'.ray := by
  cases hs : s.ray.stop with
  | true =>
    unfold RTStack.step at h
    rw [if_pos hs] at h
    cases h
    exact ⟨ht, he, .refl _⟩
  | false =>
    obtain ⟨res, h1, -, -, h2, -⟩ := step_next htab hm hs h
    obtain ⟨y, h3, h4⟩ := step_onTrack ht res.outcome
    rw [h1] at h3; cases h3
    obtain ⟨e1, e2, e3⟩ := step_energy_of hS ht he res.outcome h2 _ h1
    exact ⟨h4, e1, e2, e3, step_profile_mono hS he.I0 h1, passes_step c.S h1⟩

theorem trace_later {n : ℕ} : ∀ (K : ℕ) (V : ℕ → Visit) (u : Fin K → Fin n → ℝ) (s s' : StackRay), (∀ i j, u i j < 1) → OnTrack c.S s.ray → Energy c.S s.ray →
    traceWith c K V u s = .next s' → Energy c.S s'.ray ∧ Later s.ray s'.ray := by
  intro K
  induction K with
  | zero =>
    intro V u s s' _ _ he h
    simp only [traceWith, StackRes.next.injEq] at h
    subst h
    exact ⟨he, .refl _⟩
  | succ K ih =>
    intro V u s s' hu ht he h
    have hm : ∀ w ∈ ((V 0).meeting s.ray.surf (u 0)).ws, w.rnd < 1 := by
      intro w hw
      obtain ⟨i, rfl⟩ := (List.mem_ofFn' _ _).mp hw
      exact hu 0 i
    cases hst : c.step ((V 0).meeting s.ray.surf (u 0)) s with
    | indexError => simp only [traceWith, hst] at h; simp at h
    | running => simp only [traceWith, hst] at h; simp at h
    | next s1 =>
      simp only [traceWith, hst] at h
      obtain ⟨t1, e1, l1⟩ := step_later hS htab hm ht he hst
      obtain ⟨e2, l2⟩ := ih (fun i => V (i + 1)) (Fin.tail u) s1 s' (fun i j => hu i.succ j) t1 e1 h
      exact ⟨e2, l1.trans l2⟩

end

/-- The ray has been given up because it is weaker than `t`. -/
structure GivenUp (t : ℝ) (s : Ray) : Prop where
  stop : s.stop = true
  θ : s.θ = none
  weak : s.I < t
  idx : s.aIdx = 0
  int : s.aInt = []
  passes : 1 ≤ s.nPasses

section
variable {c : RTStack} (htab : ∀ tab ∈ c.tabs, SumToOne tab) {t' : ℝ} (hS : Passive (withThresh c t').S) (htt : t' ≤ c.S.thresh)
include htab hS htt

theorem trace_thresh {n : ℕ} : ∀ (K : ℕ) (V : ℕ → Visit) (u : Fin K → Fin n → ℝ) (s s' : StackRay), (∀ i j, u i j < 1) → OnTrack c.S s.ray → Energy c.S s.ray →
    traceWith (withThresh c t') K V u s = .next s' → s'.ray.stop = true →
    ∃ s1, traceWith c K V u s = .next s1 ∧ (s1 = s' ∨ GivenUp c.S.thresh s1.ray ∧ Energy c.S s1.ray ∧ Energy c.S s'.ray ∧ Later s1.ray s'.ray) := by
  intro K
  induction K with
  | zero =>
    intro V u s s' _ _ he h _
    simp only [traceWith, StackRes.next.injEq] at h
    exact ⟨s, rfl, Or.inl h⟩
  | succ K ih =>
    intro V u s s' hu ht he h hstop
    have hm : ∀ w ∈ ((V 0).meeting s.ray.surf (u 0)).ws, w.rnd < 1 := by
      intro w hw
      obtain ⟨i, rfl⟩ := (List.mem_ofFn' _ _).mp hw
      exact hu 0 i
    have ht' : OnTrack (withThresh c t').S s.ray := ⟨ht.dir, ht.mat0, ht.mat1, ht.surf⟩
    have he' : Energy (withThresh c t').S s.ray := ⟨he.I0, he.I1, he.A0, he.first, he.last, he.int0, he.noInt, he.total⟩
    cases hs : s.ray.stop with
    | true =>
      rw [traceWith_stop _ hs] at h
      exact ⟨s, by rw [traceWith_stop _ hs], Or.inl (by simpa using h)⟩
    | false =>
      cases hst : (withThresh c t').step ((V 0).meeting s.ray.surf (u 0)) s with
      | indexError => simp only [traceWith, hst] at h; simp at h
      | running => simp only [traceWith, hst] at h; simp at h
      | next y =>
        simp only [traceWith, hst] at h
        obtain ⟨ty, ey, ly⟩ := step_later hS htab hm ht' he' hst
        have ty' : OnTrack c.S y.ray := ⟨ty.dir, ty.mat0, ty.mat1, ty.surf⟩
        have ey' : Energy c.S y.ray := ⟨ey.I0, ey.I1, ey.A0, ey.first, ey.last, ey.int0, ey.noInt, ey.total⟩
        obtain ⟨res, r1, r2, r3, -, r5⟩ := step_next (c := withThresh c t') htab hm hs hst
        have hadv : c.step ((V 0).meeting s.ray.surf (u 0)) s = c.advance s (some res) := r5 c.S.thresh
        simp only [traceWith, hadv, RTStack.advance]
        rcases step_thresh (S := c.S) htt hs r1 with g | ⟨g, g1, g2, g3, g4⟩
        · have g' : c.S.step s.ray res.outcome = some y.ray := g
          simp only [g', ← r2, ← r3]
          exact ih (fun i => V (i + 1)) (Fin.tail u) y s' (fun i j => hu i.succ j) ty' ey' h hstop
        · have g' : c.S.step s.ray res.outcome = some { y.ray with stop := true, θ := none } := g
          simp only [g']
          have hno : s.ray.aIdx = 0 ∧ s.ray.aInt = [] := by
            rcases he.noInt with h | ⟨h, _⟩
            · exact h
            · simp [hs] at h
          obtain ⟨ez, lz⟩ := trace_later hS htab K _ _ _ _ (fun i j => hu i.succ j) ty ey h
          refine ⟨_, traceWith_stop _ rfl _ _ _, Or.inr ⟨⟨rfl, rfl, g1, g2.trans hno.1, g3.trans hno.2, g4⟩, ?_, ?_, ?_⟩⟩
          · exact ⟨ey.I0, ey.I1, ey.A0, ey.first, ey.last, ey.int0, Or.inl ⟨g2.trans hno.1, g3.trans hno.2⟩, ey.total⟩
          · exact ⟨ez.I0, ez.I1, ez.A0, ez.first, ez.last, ez.int0, ez.noInt, ez.total⟩
          · exact ⟨lz.I, lz.A, lz.profile, lz.passes⟩

end

theorem shares (s : Ray) (hI : 0 ≤ s.I) : 0 ≤ Quantity.R.ofRay s ∧ 0 ≤ Quantity.T.ofRay s ∧ Quantity.R.ofRay s + Quantity.T.ofRay s ≤ s.I := by
  cases hθ : s.θ with
  | none => simp [Quantity.ofRay, Ray.isRefl, Ray.isTrns, hθ, hI]
  | some t =>
    by_cases ht : t ≤ Real.pi / 2
    · simp [Quantity.ofRay, Ray.isRefl, Ray.isTrns, hθ, ht, not_lt.mpr ht, hI]
    · simp [Quantity.ofRay, Ray.isRefl, Ray.isTrns, hθ, ht, not_le.mp ht, hI]

/-- A ray that is given up, and the same ray followed further. -/
theorem givenUp_compare {S : Stack} {t : ℝ} {s s' : Ray} (g : GivenUp t s) (e : Energy S s) (e' : Energy S s') (l : Later s s') :
    (∀ q : Quantity, JustBelow (q.ofRay s) (q.ofRay s') t) ∧ JustBelow (accounted S.widths.length s) (accounted S.widths.length s') t ∧ R0of s = R0of s' := by
  obtain ⟨r0, t0, rt⟩ := shares s' e'.I0
  have hR : Quantity.R.ofRay s = 0 := by simp [Quantity.ofRay, Ray.isRefl, g.θ]
  have hT : Quantity.T.ofRay s = 0 := by simp [Quantity.ofRay, Ray.isTrns, g.θ]
  have hi : s.aInt.sum = 0 := by rw [g.int]; rfl
  have hi' := List.sum_nonneg e'.int0
  have htot := e.total
  have htot' := e'.total
  have hA : ∑ m ∈ Finset.range S.widths.length, s.A m ≤ ∑ m ∈ Finset.range S.widths.length, s'.A m := Finset.sum_le_sum fun m _ => l.A m
  have hI' := e'.I0
  have hw := g.weak
  refine ⟨fun q => ?_, ?_, ?_⟩
  · cases q with
    | R => rw [hR]; exact ⟨by linarith [l.I], r0⟩
    | T => rw [hT]; exact ⟨by linarith [l.I], t0⟩
    | A i =>
      refine ⟨?_, l.A i⟩
      change s'.A i - t ≤ s.A i
      by_cases hm : i < S.widths.length
      · have : s'.A i - s.A i ≤ ∑ m ∈ Finset.range S.widths.length, (s'.A m - s.A m) :=
          Finset.single_le_sum (f := fun m => s'.A m - s.A m) (fun m _ => sub_nonneg.mpr (l.A m)) (Finset.mem_range.mpr hm)
        rw [Finset.sum_sub_distrib] at this
        linarith
      · rw [e.last i (by omega), e'.last i (by omega)]
        linarith [e.I0]
    | Aint j k =>
      have h0 : Quantity.ofRay (.Aint j k) s = 0 := by
        have : ¬ (0 : ℤ) = (j : ℤ) + 1 := by omega
        simp [Quantity.ofRay, g.idx, this]
      have h1 : 0 ≤ s'.aInt.getD k 0 ∧ s'.aInt.getD k 0 ≤ s'.aInt.sum := by
        refine ⟨getD_nonneg e'.int0 k, ?_⟩
        rw [List.getD_eq_getElem?_getD]
        cases hl : s'.aInt[k]? with
        | none => simpa using hi'
        | some a => simpa using List.single_le_sum e'.int0 a (List.mem_of_getElem? hl)
      rw [h0]
      simp only [Quantity.ofRay]
      split_ifs
      · exact ⟨by linarith, h1.1⟩
      · exact ⟨by linarith [e.I0], le_rfl⟩
  · unfold accounted
    rw [hR, hT, hi]
    exact ⟨by linarith, by linarith⟩
  · have h1 : ¬ s.nPasses = 0 := by have := g.passes; omega
    have h2 : ¬ s'.nPasses = 0 := by have := g.passes; have := l.passes; omega
    simp [R0of, h1, h2]

theorem JustBelow.self {t : ℝ} (ht : 0 ≤ t) (x : ℝ) : JustBelow x x t := ⟨by linarith, le_rfl⟩

theorem result_rayMean (q : Quantity) (rays : List Ray) : q.result rays = rayMean rays q.ofRay := by cases q <;> rfl

theorem rayMean_ofFn {N : ℕ} (r : Fin N → Ray) (f : Ray → ℝ) : rayMean (List.ofFn r) f = (∑ k, f (r k)) / N := by
  rw [rayMean_eq, List.map_ofFn, List.sum_ofFn, List.length_ofFn]; rfl

/-! ## The property -/

section
variable (c : RTStack) (htab : ∀ tab ∈ c.tabs, SumToOne tab) (hS : Passive c.S) (t' : ℝ) (ht0 : 0 ≤ t') (htt : t' ≤ c.S.thresh) (matI dirI : ℤ) (hv : ValidStart c.S matI dirI) (ra0 : V3)
include htab hS ht0 htt hv

/-- **C158, one ray.** A ray is traced through a stack of surfaces of any shape, with the same random numbers, once with `I_thresh` and once with a lower threshold `t'`.  If it has come to an end with the lower
threshold, it has also come to an end with the higher one.  Then each of the fractions it contributes to `R`, `T`, the absorption in each layer and in each layer of each interface is the same or lower by at most `I_thresh`; so is all the light accounted for, taken together; the profile
is nowhere higher, the ray has passed through no more layers, and the contribution to `R0` is the same. -/
theorem C158_ray {K n : ℕ} (V : ℕ → Visit) (u : Fin K → Fin n → ℝ) (hu : ∀ i j, u i j < 1) (x y : ℝ) (s' : StackRay)
    (h : traceWith (withThresh c t') K V u (c.start x y matI dirI ra0) = .next s') (hfin : s'.ray.stop = true) :
    ∃ s, traceWith c K V u (c.start x y matI dirI ra0) = .next s ∧ s.ray.stop = true ∧
      (∀ q : Quantity, JustBelow (q.ofRay s.ray) (q.ofRay s'.ray) c.S.thresh) ∧
      JustBelow (accounted c.S.widths.length s.ray) (accounted c.S.widths.length s'.ray) c.S.thresh ∧
      (∀ k, s.ray.profile k ≤ s'.ray.profile k) ∧ s.ray.nPasses ≤ s'.ray.nPasses ∧ R0of s.ray = R0of s'.ray := by
  have hS' : Passive (withThresh c t').S := ⟨hS.widths, hS.alphas, ht0⟩
  obtain ⟨s, h1, h2⟩ := trace_thresh htab hS' htt K V u _ s' hu (start_onTrack hv) (start_energy _ _ _) h hfin
  refine ⟨s, h1, ?_⟩
  rcases h2 with rfl | ⟨g, e, e', l⟩
  · exact ⟨hfin, fun q => .self hS.thresh _, .self hS.thresh _, fun _ => le_rfl, le_rfl, rfl⟩
  · obtain ⟨a, b, d⟩ := givenUp_compare g e e' l
    exact ⟨g.stop, a, b, l.profile, l.passes, d⟩

/-- **C158, the results.** The same for the results of `N` rays: `R`, `T` and each absorbed fraction are too low by at most `I_thresh`, compared with what the same random numbers give with any lower threshold, the profile is nowhere too high, and `R0` does not depend on the threshold. -/
theorem C158_results {N : ℕ} (hN : 0 < N) {K n : ℕ} (L : Fin N → StackLaunch) (U : Fin N → Fin K → Fin n → ℝ) (hU : ∀ k i j, U k i j < 1)
    (hfin : ∀ k, Finished (traceWith (withThresh c t') K (L k).V (U k) (c.start (L k).x (L k).y matI dirI ra0))) :
    let rays := fun c' : RTStack => List.ofFn fun k => recorded matI dirI (traceWith c' K (L k).V (U k) (c.start (L k).x (L k).y matI dirI ra0))
    (∀ q : Quantity, JustBelow (q.result (rays c)) (q.result (rays (withThresh c t'))) c.S.thresh) ∧
    (∀ k, resProfile (rays c) k ≤ resProfile (rays (withThresh c t')) k) ∧ resR0 (rays c) = resR0 (rays (withThresh c t')) := by
  intro rays
  have hray : ∀ k, ∃ s s' : Ray, recorded matI dirI (traceWith c K (L k).V (U k) (c.start (L k).x (L k).y matI dirI ra0)) = s ∧
      recorded matI dirI (traceWith (withThresh c t') K (L k).V (U k) (c.start (L k).x (L k).y matI dirI ra0)) = s' ∧
      (∀ q : Quantity, JustBelow (q.ofRay s) (q.ofRay s') c.S.thresh) ∧ (∀ k, s.profile k ≤ s'.profile k) ∧ R0of s = R0of s' := by
    intro k
    cases ht : traceWith (withThresh c t') K (L k).V (U k) (c.start (L k).x (L k).y matI dirI ra0) with
    | indexError => have := hfin k; rw [ht] at this; exact this.elim
    | running => have := hfin k; rw [ht] at this; exact this.elim
    | next s' =>
      have hst : s'.ray.stop = true := by have := hfin k; rw [ht] at this; exact this
      obtain ⟨s, h1, h2, h3, -, h5, -, h7⟩ := C158_ray c htab hS t' ht0 htt matI dirI hv ra0 (L k).V (U k) (hU k) (L k).x (L k).y s' ht hst
      refine ⟨s.ray, s'.ray, ?_, ?_, h3, h5, h7⟩
      · rw [h1]; simp [recorded, h2]
      · simp [recorded, hst]
  choose s s' e e' hq hp h0 using hray
  have er : rays c = List.ofFn s := by simp only [rays]; congr 1; funext k; exact e k
  have er' : rays (withThresh c t') = List.ofFn s' := by simp only [rays]; congr 1; funext k; exact e' k
  have hNr : (0 : ℝ) < N := by exact_mod_cast hN
  rw [er, er']
  refine ⟨fun q => ?_, fun k => ?_, ?_⟩
  · rw [result_rayMean, result_rayMean, rayMean_ofFn, rayMean_ofFn]
    have := justBelow_mean (N := N) hN (m := fun k => q.ofRay (s k) - q.ofRay (s' k)) (ε := fun _ => 0) (x := 0) (δ := c.S.thresh)
      (fun k => ⟨by linarith [(hq k q).1], by linarith [(hq k q).2]⟩)
    rw [Finset.sum_sub_distrib, sub_div] at this
    simp only [Finset.sum_const_zero, zero_div, add_zero] at this
    exact ⟨by linarith [this.1], by linarith [this.2]⟩
  · have hm : rayMean (List.ofFn s) (fun r => r.profile k) ≤ rayMean (List.ofFn s') (fun r => r.profile k) := by
      rw [rayMean_ofFn, rayMean_ofFn]
      exact div_le_div_of_nonneg_right (Finset.sum_le_sum fun i _ => hp i k) hNr.le
    simp only [resProfile]
    split_ifs with h1 h2 h2
    · exact le_rfl
    · exact not_lt.mp h2
    · exact absurd (hm.trans_lt h2) h1
    · exact hm
  · have : ∀ r : List Ray, resR0 r = rayMean r R0of := fun r => rfl
    rw [this, this, rayMean_ofFn, rayMean_ofFn]
    simp only [h0]

/-- **C158, the mean.** On average over the random numbers: compared with a lower threshold, `R`, `T` and each absorbed fraction are lower by at most `I_thresh`, and not higher except for what rays that have not come to an end with the lower threshold after `K` surfaces may still contribute. -/
theorem C158_mean {N : ℕ} (hN : 0 < N) {K n : ℕ} (L : Fin N → StackLaunch) (q : Quantity) :
    let rays := fun (c' : RTStack) (U : Fin N → Fin K → Fin n → ℝ) => List.ofFn fun k => recorded matI dirI (traceWith c' K (L k).V (U k) (c.start (L k).x (L k).y matI dirI ra0))
    let P : Measure (Fin N → Fin K → Fin n → ℝ) := Measure.pi fun _ => uniform2 K n
    let late := (∑ k, (uniform2 K n).real {u | ¬ Finished (traceWith (withThresh c t') K (L k).V u (c.start (L k).x (L k).y matI dirI ra0))}) / N
    ∫ U, q.result (rays (withThresh c t') U) ∂P - c.S.thresh ≤ ∫ U, q.result (rays c U) ∂P ∧
    ∫ U, q.result (rays c U) ∂P ≤ ∫ U, q.result (rays (withThresh c t') U) ∂P + late := by
  intro rays P late
  have hS' : Passive (withThresh c t').S := ⟨hS.widths, hS.alphas, ht0⟩
  have hcoat : ∀ t, some t ∈ c.tabs → ∀ side θ, 0 ≤ (t side θ).1 ∧ 0 ≤ (t side θ).2.1 ∧ (t side θ).1 + (t side θ).2.1 ≤ 1 := by
    intro t ht side θ
    obtain ⟨a, b, d, f⟩ := htab _ ht t rfl side θ
    exact ⟨a, b, by linarith [List.sum_nonneg d]⟩
  have hNr : (0 : ℝ) < N := by exact_mod_cast hN
  have hstart : ∀ x y, (withThresh c t').start x y matI dirI ra0 = c.start x y matI dirI ra0 := fun _ _ => rfl
  simp only [rays, P, result_rayMean]
  have m1 := rayMean_unbiased c hcoat K n matI dirI ra0 L q.ofRay
  have m2 := rayMean_unbiased (withThresh c t') hcoat K n matI dirI ra0 L q.ofRay
  simp only [hstart] at m2
  rw [m1, m2]
  have key : ∀ k, branchesStack (withThresh c t') n (fun o => q.ofRay (recorded matI dirI o)) K (L k).V (c.start (L k).x (L k).y matI dirI ra0) - c.S.thresh
        ≤ branchesStack c n (fun o => q.ofRay (recorded matI dirI o)) K (L k).V (c.start (L k).x (L k).y matI dirI ra0) ∧
      branchesStack c n (fun o => q.ofRay (recorded matI dirI o)) K (L k).V (c.start (L k).x (L k).y matI dirI ra0)
        ≤ branchesStack (withThresh c t') n (fun o => q.ofRay (recorded matI dirI o)) K (L k).V (c.start (L k).x (L k).y matI dirI ra0)
          + (uniform2 K n).real {u | ¬ Finished (traceWith (withThresh c t') K (L k).V u (c.start (L k).x (L k).y matI dirI ra0))} := by
    intro k
    set s0 := c.start (L k).x (L k).y matI dirI ra0 with hs0
    obtain ⟨f1, ⟨C1, b1⟩, i1⟩ := unbiased_stack c (n := n) hcoat (fun o => q.ofRay (recorded matI dirI o)) K (L k).V s0
    obtain ⟨f2, ⟨C2, b2⟩, i2⟩ := unbiased_stack (withThresh c t') (n := n) hcoat (fun o => q.ofRay (recorded matI dirI o)) K (L k).V s0
    have hp := C131_probability (withThresh c t') hcoat K n (L k).V s0 {o | ¬ Finished o}
    simp only [Set.mem_setOf_eq] at hp
    classical
    obtain ⟨f3, ⟨C3, b3⟩, i3⟩ := unbiased_stack (withThresh c t') (n := n) hcoat (fun o => if ¬ Finished o then (1 : ℝ) else 0) K (L k).V s0
    have g1 := Integrable.of_bound (μ := uniform2 K n) f1.aestronglyMeasurable C1 (Filter.Eventually.of_forall fun u => by rw [Real.norm_eq_abs]; exact b1 u)
    have g2 := Integrable.of_bound (μ := uniform2 K n) f2.aestronglyMeasurable C2 (Filter.Eventually.of_forall fun u => by rw [Real.norm_eq_abs]; exact b2 u)
    have g3 := Integrable.of_bound (μ := uniform2 K n) f3.aestronglyMeasurable C3 (Filter.Eventually.of_forall fun u => by rw [Real.norm_eq_abs]; exact b3 u)
    have hpt : ∀ᵐ u ∂uniform2 K n, q.ofRay (recorded matI dirI (traceWith (withThresh c t') K (L k).V u s0)) - c.S.thresh ≤ q.ofRay (recorded matI dirI (traceWith c K (L k).V u s0)) ∧
        q.ofRay (recorded matI dirI (traceWith c K (L k).V u s0)) ≤ q.ofRay (recorded matI dirI (traceWith (withThresh c t') K (L k).V u s0))
          + (if ¬ Finished (traceWith (withThresh c t') K (L k).V u s0) then 1 else 0) := by
      filter_upwards [inside_ae1 K n] with u hu
      have hu1 : ∀ i j, u i j < 1 := fun i j => (hu i j).2
      by_cases hf : Finished (traceWith (withThresh c t') K (L k).V u s0)
      · cases ht : traceWith (withThresh c t') K (L k).V u s0 with
        | indexError => rw [ht] at hf; exact hf.elim
        | running => rw [ht] at hf; exact hf.elim
        | next s' =>
          rw [ht] at hf
          have hst : s'.ray.stop = true := hf
          obtain ⟨s, h1, h2, h3, -⟩ := C158_ray c htab hS t' ht0 htt matI dirI hv ra0 (L k).V u hu1 (L k).x (L k).y s' ht hst
          rw [h1]
          have hfn : ¬ ¬ Finished (.next s') := not_not.mpr hf
          rw [if_neg hfn]
          simp only [recorded, h2, hst, if_true]
          exact ⟨(h3 q).1, by linarith [(h3 q).2]⟩
      · rw [if_pos hf]
        have hblank : recorded matI dirI (traceWith (withThresh c t') K (L k).V u s0) = Stack.start matI dirI := by
          cases ht : traceWith (withThresh c t') K (L k).V u s0 with
          | indexError => rfl
          | running => rfl
          | next s' =>
            rw [ht] at hf
            have : ¬ s'.ray.stop = true := hf
            simp only [recorded]; rw [if_neg this]
        rw [hblank]
        have hz : q.ofRay (Stack.start matI dirI) = 0 := by
          have hj : ∀ j : ℕ, ¬ (0 : ℤ) = (j : ℤ) + 1 := fun j => by omega
          cases q <;> simp [Quantity.ofRay, Stack.start, Ray.isRefl, Ray.isTrns]
        rw [hz]
        have hen : Energy c.S (recorded matI dirI (traceWith c K (L k).V u s0)) := by
          cases ht : traceWith c K (L k).V u s0 with
          | indexError => exact start_energy _ _ _
          | running => exact start_energy _ _ _
          | next s =>
            simp only [recorded]
            split_ifs
            · exact (trace_later hS htab K _ _ _ _ hu1 (start_onTrack hv) (start_energy _ _ _) ht).1
            · exact start_energy _ _ _
        have hb : 0 ≤ q.ofRay (recorded matI dirI (traceWith c K (L k).V u s0)) ∧ q.ofRay (recorded matI dirI (traceWith c K (L k).V u s0)) ≤ 1 := by
          generalize recorded matI dirI (traceWith c K (L k).V u s0) = y at hen ⊢
          obtain ⟨r0, t0, rt⟩ := shares y hen.I0
          have hA : 0 ≤ ∑ m ∈ Finset.range c.S.widths.length, y.A m := Finset.sum_nonneg fun m _ => hen.A0 m
          have hi := List.sum_nonneg hen.int0
          have ht := hen.total
          have hI := hen.I0
          cases q with
          | R => exact ⟨r0, by linarith⟩
          | T => exact ⟨t0, by linarith⟩
          | A i =>
            refine ⟨hen.A0 i, ?_⟩
            change y.A i ≤ 1
            by_cases hm : i < c.S.widths.length
            · have := Finset.single_le_sum (f := y.A) (fun m _ => hen.A0 m) (Finset.mem_range.mpr hm)
              linarith
            · rw [hen.last i (by omega)]; norm_num
          | Aint j l =>
            simp only [Quantity.ofRay]
            split_ifs
            · refine ⟨getD_nonneg hen.int0 l, ?_⟩
              rw [List.getD_eq_getElem?_getD]
              cases hl : y.aInt[l]? with
              | none => norm_num
              | some a =>
                have := List.single_le_sum hen.int0 a (List.mem_of_getElem? hl)
                simp only [Option.getD_some]
                linarith
            · norm_num
        exact ⟨by linarith [hb.1, hS.thresh], by linarith [hb.2]⟩
    have j1 : ∫ u, (q.ofRay (recorded matI dirI (traceWith (withThresh c t') K (L k).V u s0)) - c.S.thresh) ∂uniform2 K n
        ≤ ∫ u, q.ofRay (recorded matI dirI (traceWith c K (L k).V u s0)) ∂uniform2 K n :=
      integral_mono_ae (g2.sub (integrable_const _)) g1 (hpt.mono fun u hu => hu.1)
    have j2 : ∫ u, q.ofRay (recorded matI dirI (traceWith c K (L k).V u s0)) ∂uniform2 K n
        ≤ ∫ u, (q.ofRay (recorded matI dirI (traceWith (withThresh c t') K (L k).V u s0)) + (if ¬ Finished (traceWith (withThresh c t') K (L k).V u s0) then 1 else 0)) ∂uniform2 K n :=
      integral_mono_ae g1 (g2.add g3) (hpt.mono fun u hu => hu.2)
    rw [integral_sub g2 (integrable_const _), integral_const] at j1
    rw [integral_add g2 g3] at j2
    rw [i1, i2] at j1 j2
    rw [i3] at j2
    simp only [probReal_univ, smul_eq_mul, one_mul] at j1
    refine ⟨j1, j2.trans (le_of_eq ?_)⟩
    rw [hp]
    congr 1
    exact congrArg (fun g => branchesStack (withThresh c t') n g K (L k).V s0) (funext fun o => by by_cases hF : Finished o <;> simp [hF])
  refine ⟨?_, ?_⟩
  · have := Finset.sum_le_sum fun k (_ : k ∈ Finset.univ) => (key k).1
    rw [Finset.sum_sub_distrib, Finset.sum_const, Finset.card_univ, Fintype.card_fin, nsmul_eq_mul] at this
    rw [sub_le_iff_le_add, div_add' _ _ _ hNr.ne', div_le_div_iff_of_pos_right hNr]
    linarith
  · have := Finset.sum_le_sum fun k (_ : k ∈ Finset.univ) => (key k).2
    rw [Finset.sum_add_distrib] at this
    simp only [late]
    rw [← add_div, div_le_div_iff_of_pos_right hNr]
    exact this

end

/-- The hypotheses of C158 are met: three planar surfaces with absorbing layers between them, `I_thresh` lowered from 1/2 to 1/100; with enough surfaces there are random numbers below one for which the ray comes to an end with the lower threshold. -/
example : ∃ K, ∃ u : Fin K → Fin 3 → ℝ, (∀ i j, u i j < 1) ∧ Passive (withThresh exLayers (1 / 2)).S ∧ (∀ tab ∈ (withThresh exLayers (1 / 2)).tabs, SumToOne tab) ∧
    ValidStart (withThresh exLayers (1 / 2)).S 0 1 ∧ Finished (traceWith (withThresh (withThresh exLayers (1 / 2)) (1 / 100)) K exPlanes u ((withThresh exLayers (1 / 2)).start 1 1 0 1 (rA0 5 0 0))) := by
  obtain ⟨a, b, d⟩ := exLayers_flat 0 le_rfl (by positivity)
  obtain ⟨p, p0, p1, hp⟩ := pass_bound (F := flatStackOf exLayers 3 (fun _ => none) (fun i => (exIndex i : ℂ)) (exAngle 0)) (fun i hi => layers_pass a hi) d
  obtain ⟨K₀, hK₀⟩ := exists_pow_lt_of_lt_one (show (0 : ℝ) < exLayers.S.thresh by norm_num [exLayers]) p1
  have hl := (C157_late a (h := 5) (by norm_num [exHeight]) (by norm_num) 0 (N := 1) (fun _ => ⟨1, 1, _⟩) (fun _ => b) (K₀ + 1) (n := 3) le_rfl 0).2 p p0 hp (by omega) (by simpa using hK₀)
  have hnull : uniform2 (K₀ + 1) 3 {u | ¬ Finished (traceWith exLayers (K₀ + 1) exPlanes u (exLayers.start 1 1 0 1 (rA0 5 (exAngle 0 0) 0)))} = 0 := by
    have := hl
    rw [Measure.real, ENNReal.toReal_eq_zero_iff] at this
    exact this.resolve_right (measure_ne_top _ _)
  have hae : ∀ᵐ u ∂uniform2 (K₀ + 1) 3, Finished (traceWith exLayers (K₀ + 1) exPlanes u (exLayers.start 1 1 0 1 (rA0 5 (exAngle 0 0) 0))) := hnull
  obtain ⟨u, hu, hi⟩ := (hae.and (inside_ae1 (K₀ + 1) 3)).exists
  refine ⟨K₀ + 1, u, fun i j => (hi i j).2, ⟨?_, ?_, ?_⟩, ?_, Or.inl ⟨rfl, le_rfl, ?_⟩, hu⟩
  · intro w hw
    simp [withThresh, exLayers] at hw
    rcases hw with rfl | rfl | rfl | rfl <;> norm_num
  · intro w hw
    simp [withThresh, exLayers] at hw
    rcases hw with rfl | rfl | rfl <;> norm_num
  · norm_num [withThresh]
  · intro tab ht t e; simp [withThresh, exLayers] at ht; rw [ht] at e; cases e
  · simp [withThresh, exLayers, Stack.nSurf]

end Rayflare
