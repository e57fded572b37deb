import Verif.Lemmas.Files2

/-! # Helper lemmas: files cut off while being written -/

set_option linter.unusedSectionVars false

namespace Rayflare.Lemmas

open Rayflare.Model Rayflare.Spec

variable {γ σ : Type*}

/-- A step that can never be carried out again without overwriting: a file that exists and will be opened is unreadable. -/
def StuckAt (sp : Str) (fs : FS γ) : Step γ σ → Prop
  | .table i => fs (lutPath sp i.name) = some .torn
  | .mats i side =>
    (∃ c, fs (matPath sp i.name side .RT) = some c) ∧ (∃ c, fs (matPath sp i.name side .A) = some c) ∧
      (fs (matPath sp i.name side .RT) = some .torn ∨ fs (matPath sp i.name side .A) = some .torn ∨
        (i.calcProf = true ∧ fs (matPath sp i.name side .prof) = some .torn))

theorem stuck_saves {hp : γ → Bool} {sp : Str} {fs : FS γ} {s : Step γ σ} (h : StuckAt sp fs s) (seed : σ) :
    Step.saves hp sp false fs seed s = none := by
  cases s with
  | table i =>
    have h : fs (lutPath sp i.name) = some .torn := h
    simp [Step.saves, h, FS.load]
  | mats i side =>
    have key : getMatricesOrPaths fs sp i.name side i.calcProf false = .loadError := by
      obtain ⟨⟨c, h1⟩, ⟨d, h2⟩, h3⟩ := h
      unfold getMatricesOrPaths
      rcases c with x | _ <;> rcases d with y | _ <;> simp [h1, h2, FS.load] at h3 ⊢
      simp [h3]
    simp [Step.saves, key]

/-- Two steps of which one writes a file of the other are the same. -/
theorem step_eq_of_file {l : List (Iface γ σ)} (hl : NamesOk l) {sp : Str} {s t : Step γ σ} (hs : StepIn l s) (ht : StepIn l t) {p : Str}
    (h1 : p ∈ stepFiles sp s) (h2 : p ∈ stepFiles sp t) : s = t := by
  cases s with
  | table i =>
    simp only [stepFiles, List.mem_singleton] at h1
    cases t with
    | table j =>
      simp only [stepFiles, List.mem_singleton] at h2
      rw [lut_inj hl hs.1 ht.1 (h1.symm.trans h2)]
    | mats j side =>
      obtain ⟨k, -, e⟩ := List.mem_map.mp h2
      exact absurd (h1.symm.trans e.symm) (lut_ne_mat hl hs.1 ht hs.2)
  | mats i side =>
    obtain ⟨k, -, e⟩ := List.mem_map.mp h1
    cases t with
    | table j =>
      simp only [stepFiles, List.mem_singleton] at h2
      exact absurd (h2.symm.trans e.symm) (lut_ne_mat hl ht.1 hs ht.2)
    | mats j side' =>
      obtain ⟨k', -, e'⟩ := List.mem_map.mp h2
      obtain ⟨rfl, rfl, -⟩ := mat_inj hl hs ht (e.trans e'.symm)
      rfl

theorem stuck_congr {sp : Str} {fs fs' : FS γ} {s : Step γ σ} (h : ∀ p ∈ stepFiles sp s, fs' p = fs p) (hs : StuckAt sp fs s) : StuckAt sp fs' s := by
  cases s with
  | table i =>
    have := h (lutPath sp i.name) (by simp [stepFiles])
    exact this.trans hs
  | mats i side =>
    have hR := h (matPath sp i.name side .RT) (List.mem_map.mpr ⟨_, by cases i.calcProf <;> simp [requiredKinds], rfl⟩)
    have hA := h (matPath sp i.name side .A) (List.mem_map.mpr ⟨_, by cases i.calcProf <;> simp [requiredKinds], rfl⟩)
    unfold StuckAt at hs ⊢
    simp only at hs ⊢
    rw [hR, hA]
    refine ⟨hs.1, hs.2.1, hs.2.2.imp id (Or.imp id fun hh => ⟨hh.1, ?_⟩)⟩
    rw [h (matPath sp i.name side .prof) (List.mem_map.mpr ⟨_, by simp [requiredKinds, hh.1], rfl⟩)]
    exact hh.2

/-- Only files of the step itself are saved. -/
theorem saved_mem {hp : γ → Bool} {sp : Str} {ow : Bool} {fs : FS γ} {seed : σ} {s : Step γ σ} {w : List (Str × γ)}
    (h : Step.saves hp sp ow fs seed s = some w) {e : Str × γ} (he : e ∈ w) : e.1 ∈ stepFiles sp s := by
  rcases saves_fst hp h with ⟨rfl, -⟩ | h'
  · simp at he
  · rw [← h']; exact List.mem_map_of_mem he

section stuck
variable {l : List (Iface γ σ)} (hl : NamesOk l) {hp : γ → Bool} {sp : Str}
include hl

theorem stuck_ne {fs : FS γ} {seed : σ} {s t : Step γ σ} {w : List (Str × γ)} (hs : StepIn l s) (ht : StepIn l t) (hst : StuckAt sp fs s)
    (h : Step.saves hp sp false fs seed t = some w) {p : Str} (h1 : p ∈ stepFiles sp s) : p ∉ stepFiles sp t := by
  intro h2
  obtain rfl := step_eq_of_file hl hs ht h1 h2
  rw [stuck_saves hst] at h
  simp at h

theorem stuck_keep {fs : FS γ} {seed : σ} {s t : Step γ σ} {w w' : List (Str × γ)} (hs : StepIn l s) (ht : StepIn l t) (hst : StuckAt sp fs s)
    (h : Step.saves hp sp false fs seed t = some w) (hw : w' <+: w) : StuckAt sp (fs.writes w') s := by
  refine stuck_congr (fun p h1 => writes_of_not_mem fun hm => ?_) hst
  obtain ⟨e, he, rfl⟩ := List.mem_map.mp hm
  exact stuck_ne hl hs ht hst h h1 (saved_mem h (hw.subset he))

/-- No run without overwriting goes through. -/
theorem stuck_runs {s : Step γ σ} (hs : StepIn l s) {ss : List (Step γ σ)} {fs fs' : FS γ} (h : Runs hp sp false ss fs fs')
    (hss : ∀ t ∈ ss, StepIn l t) (hmem : s ∈ ss) : ¬ StuckAt sp fs s := by
  induction h with
  | nil => simp at hmem
  | @cons t ss fs w fs' seed h hr ih =>
    intro hst
    rcases List.mem_cons.mp hmem with rfl | hmem
    · rw [stuck_saves hst] at h; simp at h
    · exact ih (fun t ht => hss t (by simp [ht])) hmem (stuck_keep hl hs (hss t (by simp)) hst h (List.prefix_refl w))

theorem stuck_crashes {s : Step γ σ} (hs : StepIn l s) {ss : List (Step γ σ)} {fs fs' : FS γ} (h : Crashes hp sp false ss fs fs')
    (hss : ∀ t ∈ ss, StepIn l t) (hst : StuckAt sp fs s) : StuckAt sp fs' s := by
  induction h with
  | stop => exact hst
  | mid seed h hw => exact stuck_keep hl hs (hss _ (by simp)) hst h hw
  | next seed h _ ih => exact ih (fun t ht => hss t (by simp [ht])) (stuck_keep hl hs (hss _ (by simp)) hst h (List.prefix_refl _))

theorem stuck_cut {s : Step γ σ} (hs : StepIn l s) {ss : List (Step γ σ)} {fs fs' : FS γ} {p : Str} (h : CutOff hp sp false ss fs p fs')
    (hss : ∀ t ∈ ss, StepIn l t) (hst : StuckAt sp fs s) : StuckAt sp fs' s := by
  induction h with
  | @here t ss fs w w' p x seed h hw =>
    refine stuck_congr (fun q h1 => ?_) (stuck_keep hl hs (hss _ (by simp)) hst h ((List.prefix_append _ _).trans hw))
    have hq : q ≠ p := by
      rintro rfl
      exact stuck_ne hl hs (hss t (by simp)) hst h h1 (saved_mem (e := (q, x)) h (hw.subset (by simp)))
    simp [FS.write, hq]
  | next seed h _ ih => exact ih (fun t ht => hss t (by simp [ht])) (stuck_keep hl hs (hss _ (by simp)) hst h (List.prefix_refl _))

end stuck

/-- The file being written is the next one of the step, the earlier ones are saved. -/
theorem cut_prefix {b : Bool} {ks : List Kind} {k : Kind} (h : ks ++ [k] <+: requiredKinds b) :
    (ks = [] ∧ k = .RT) ∨ (ks = [.RT] ∧ k = .A) ∨ (ks = [.RT, .A] ∧ k = .prof ∧ b = true) := by
  cases b
  · simp only [requiredKinds, Bool.false_eq_true, if_false] at h
    match ks, h with
    | [], h => simp_all [List.prefix_cons_iff]
    | [a], h => simp_all [List.prefix_cons_iff]
    | a :: b :: t, h => simp_all [List.prefix_cons_iff]
  · simp only [requiredKinds, if_true] at h
    match ks, h with
    | [], h => simp_all [List.prefix_cons_iff]
    | [a], h => simp_all [List.prefix_cons_iff]
    | [a, b], h => simp_all [List.prefix_cons_iff]
    | a :: b :: c :: t, h => simp_all [List.prefix_cons_iff]

theorem cut_matWrites {sp : Str} {i : Iface γ σ} {side : Side} {f : Kind → γ} {w' : List (Str × γ)} {p : Str} {x : γ}
    (h : w' ++ [(p, x)] <+: matWrites sp i side f (requiredKinds i.calcProf)) :
    ∃ ks k, ks ++ [k] <+: requiredKinds i.calcProf ∧ w' = matWrites sp i side f ks ∧ p = matPath sp i.name side k := by
  obtain ⟨ms, hms, he⟩ := List.prefix_map_iff.mp h
  rcases List.eq_nil_or_concat ms with rfl | ⟨ks, k, rfl⟩
  · simp at he
  · rw [List.concat_eq_append, List.map_append] at he
    have := List.append_inj' he (by simp)
    refine ⟨ks, k, by simpa using hms, this.1, ?_⟩
    have h2 := this.2
    simp only [List.map_cons, List.map_nil, List.cons.injEq, Prod.mk.injEq, and_true] at h2
    exact h2.1

/-- Killed while writing: either the step is stuck, or it was an RT file and the A file is not there. -/
theorem cut_stuck {l : List (Iface γ σ)} (hl : NamesOk l) {hp : γ → Bool} {sp : Str} {ow : Bool} {ss : List (Step γ σ)} {fs fs' : FS γ} {p : Str}
    (h : CutOff hp sp ow ss fs p fs') (hss : ∀ t ∈ ss, StepIn l t) :
    (∃ s ∈ ss, StuckAt sp fs' s) ∨ ∃ i side, Step.mats i side ∈ ss ∧ p = matPath sp i.name side .RT ∧ fs' (matPath sp i.name side .A) = none := by
  induction h with
  | @here s ss fs w w' p x seed h hw =>
    cases s with
    | table i =>
      left
      refine ⟨.table i, by simp, ?_⟩
      rcases saves_table h with ⟨rfl, _⟩ | rfl
      · simp at hw
      · have : p = lutPath sp i.name := by
          have := hw.subset (show (p, x) ∈ w' ++ [(p, x)] by simp)
          simp only [List.mem_singleton, Prod.mk.injEq] at this
          exact this.1
        subst this
        simp [StuckAt, FS.write]
    | mats i side =>
      have hr : i.name.head? ≠ some '/' := hl.relative i (hss (.mats i side) (by simp))
      rcases saves_mats h with ⟨rfl, _⟩ | ⟨L, rfl, -, -⟩
      · simp at hw
      obtain ⟨ks, k, hks, rfl, rfl⟩ := cut_matWrites hw
      have hne : ∀ k' : Kind, k' ≠ k → matPath sp i.name side k' ≠ matPath sp i.name side k := by
        intro k' hk' he
        exact hk' ((matPath_inj hr hr).mp he).2.2
      have hn : ks.Nodup := by
        have := hks.sublist.nodup (requiredKinds_nodup _)
        exact (List.nodup_append.mp this).1
      rcases cut_prefix hks with ⟨rfl, rfl⟩ | ⟨rfl, rfl⟩ | ⟨rfl, rfl, hb⟩
      · by_cases hA : ∃ c, fs (matPath sp i.name side .A) = some c
        · left
          refine ⟨.mats i side, by simp, ⟨.torn, by simp [FS.write]⟩, ?_, Or.inl (by simp [FS.write])⟩
          obtain ⟨c, hc⟩ := hA
          exact ⟨c, by simp [FS.write, hne .A (by simp), matWrites, writes_nil, hc]⟩
        · right
          refine ⟨i, side, by simp, rfl, ?_⟩
          simp only [FS.write, hne .A (by simp), if_false, matWrites, List.map_nil, writes_nil]
          cases hc : fs (matPath sp i.name side .A) with
          | none => rfl
          | some c => exact absurd ⟨c, hc⟩ hA
      · left
        refine ⟨.mats i side, by simp, ⟨.whole (i.compute side seed L .RT), ?_⟩, ⟨.torn, by simp [FS.write]⟩, Or.inr (Or.inl (by simp [FS.write]))⟩
        · simp only [FS.write, hne .RT (by simp), if_false]
          rw [matWrites_at hr _ hn, if_pos (by simp)]
      · left
        refine ⟨.mats i side, by simp, ⟨.whole (i.compute side seed L .RT), ?_⟩, ⟨.whole (i.compute side seed L .A), ?_⟩, Or.inr (Or.inr ⟨hb, by simp [FS.write]⟩)⟩
        · simp only [FS.write, hne .RT (by simp), if_false]
          rw [matWrites_at hr _ hn, if_pos (by simp)]
        · simp only [FS.write, hne .A (by simp), if_false]
          rw [matWrites_at hr _ hn, if_pos (by simp)]
  | @next s ss fs w p fs' seed h _ ih =>
    rcases ih (fun t ht => hss t (by simp [ht])) with ⟨t, ht, hst⟩ | ⟨i, side, hm, e⟩
    · exact Or.inl ⟨t, by simp [ht], hst⟩
    · exact Or.inr ⟨i, side, by simp [hm], e⟩

/-- Killed while writing an RT file whose A file is not there: the invariant is kept. -/
theorem inv_cut {l : List (Iface γ σ)} (hl : NamesOk l) {hp : γ → Bool} {sp : Str} {ss : List (Step γ σ)} {fs fs' : FS γ} {p : Str}
    (h : CutOff hp sp false ss fs p fs') (hss : ∀ t ∈ ss, StepIn l t) (hI : Inv sp l fs) {i : Iface γ σ} {side : Side} (hi : i ∈ l)
    (hpath : p = matPath sp i.name side .RT) (hA : fs' (matPath sp i.name side .A) = none) : Inv sp l fs' := by
  induction h with
  | @here s ss fs w w' p x seed h hw =>
    have hpm : p ∈ stepFiles sp s := saved_mem (e := (p, x)) h (hw.subset (by simp))
    have hs := hss s (by simp)
    obtain rfl : s = .mats i side := step_eq_of_file hl hs (show StepIn l (.mats i side) from hi) hpm
      (List.mem_map.mpr ⟨.RT, by cases i.calcProf <;> simp [requiredKinds], hpath.symm⟩)
    have hr : i.name.head? ≠ some '/' := hl.relative i hi
    have hnc : ¬ Consistent sp fs i side := by
      intro hc
      rw [saves_nil hp seed (s := .mats i side) (consistent_whole hc)] at h
      simp only [Option.some.injEq] at h
      subst h
      simp at hw
    rcases saves_mats h with ⟨rfl, _⟩ | ⟨L, rfl, -, -⟩
    · simp at hw
    obtain ⟨ks, k, hks, rfl, rfl⟩ := cut_matWrites hw
    obtain rfl : k = .RT := ((matPath_inj hr hr).mp hpath).2.2
    obtain rfl : ks = [] := by
      rcases cut_prefix hks with ⟨h, -⟩ | ⟨-, h⟩ | ⟨-, h, -⟩
      · exact h
      · simp at h
      · simp at h
    simp only [matWrites, List.map_nil, writes_nil] at hA ⊢
    intro j hj
    refine ⟨fun hm => ?_, fun side' => ?_⟩
    · have : lutPath sp j.name ≠ matPath sp i.name side .RT := lut_ne_mat hl hj hi hm
      simp only [FS.write, this, if_false]
      exact (hI j hj).1 hm
    · by_cases hij : j = i ∧ side' = side
      · obtain ⟨rfl, rfl⟩ := hij
        refine Or.inr ⟨?_, Or.inl hA⟩
        rcases (hI j hj).2 side' with hc | ⟨g1, _⟩
        · exact absurd hc hnc
        · have : matPath sp j.name side' (lastKind j.calcProf) ≠ matPath sp j.name side' .RT := by
            intro he
            have := ((matPath_inj hr hr).mp he).2.2
            revert this
            cases j.calcProf <;> simp [lastKind]
          simp only [FS.write, this, if_false]
          exact g1
      · refine groupOk_congr (fun k => ?_) ((hI j hj).2 side')
        have : matPath sp j.name side' k ≠ matPath sp i.name side .RT := fun he => hij ⟨(mat_inj hl hj hi he).1, (mat_inj hl hj hi he).2.1⟩
        simp [FS.write, this]
  | next seed h _ ih =>
    exact ih (fun t ht => hss t (by simp [ht])) (inv_step hl hI (hss _ (by simp)) h (List.prefix_refl _)) hpath hA

end Rayflare.Lemmas
