import Verif.Lemmas.Files2
import Mathlib.Logic.Relation

/-! # C26-C34, C72-C74: stored results -/

set_option linter.unusedSectionVars false

namespace Rayflare

open Rayflare.Model Rayflare.Spec Rayflare.Lemmas

variable {γ σ : Type*}

/-! ## C26: cached matrices are reused exactly when complete -/

/-- All required files complete and `overwrite=False`: the stored contents are returned, in the order RT, A, profile. -/
theorem C26_reuse (fs : FS γ) (sp name : Str) (side : Side) (prof : Bool) (c : Kind → γ)
    (h : ∀ k ∈ requiredKinds prof, fs (matPath sp name side k) = some (.whole (c k))) :
    getMatricesOrPaths fs sp name side prof false = .existing ((requiredKinds prof).map c) := by
  have h1 := h .RT (by cases prof <;> simp [requiredKinds])
  have h2 := h .A (by cases prof <;> simp [requiredKinds])
  unfold getMatricesOrPaths
  cases prof
  · simp [h1, h2, FS.load, requiredKinds]
  · have h3 := h .prof (by simp [requiredKinds])
    simp [h1, h2, h3, FS.load, requiredKinds]

/-- `overwrite=True`, or a required file missing (and none half-written): exactly the paths to (re)compute are returned. -/
theorem C26_recompute (fs : FS γ) (sp name : Str) (side : Side) (prof ow : Bool)
    (hnotorn : ∀ k ∈ requiredKinds prof, fs (matPath sp name side k) ≠ some .torn)
    (h : ow = true ∨ ∃ k ∈ requiredKinds prof, fs (matPath sp name side k) = none) :
    getMatricesOrPaths fs sp name side prof ow = .paths ((requiredKinds prof).map (matPath sp name side)) := by
  have key : ∀ k ∈ requiredKinds prof, fs (matPath sp name side k) = none ∨
      ∃ x, fs (matPath sp name side k) = some (.whole x) := by
    intro k hk
    have := hnotorn k hk
    rcases hf : fs (matPath sp name side k) with _ | ⟨x⟩ | _
    · exact Or.inl rfl
    · exact Or.inr ⟨_, rfl⟩
    · exact absurd hf this
  have h1 := key .RT (by cases prof <;> simp [requiredKinds])
  have h2 := key .A (by cases prof <;> simp [requiredKinds])
  unfold getMatricesOrPaths
  cases prof
  · rcases h with rfl | ⟨k, hk, hn⟩
    · simp [requiredKinds]
    · simp only [requiredKinds, Bool.false_eq_true, if_false, List.mem_cons, List.not_mem_nil, or_false] at hk
      rcases hk with rfl | rfl <;> simp [hn, requiredKinds]
  · have h3 := key .prof (by simp [requiredKinds])
    rcases h with rfl | ⟨k, hk, hn⟩
    · simp [requiredKinds]
    · simp only [requiredKinds, if_true, List.mem_cons, List.not_mem_nil, or_false] at hk
      rcases hk with rfl | rfl | rfl
      · simp [hn, requiredKinds]
      · simp [hn, requiredKinds]
      · rcases h1 with h1 | ⟨x, h1⟩ <;> rcases h2 with h2 | ⟨y, h2⟩ <;> simp [hn, h1, h2, requiredKinds, FS.load]

/-- The decision itself. -/
theorem C26_iff (fs : FS γ) (sp name : Str) (side : Side) (prof ow : Bool) :
    (∃ ms, getMatricesOrPaths fs sp name side prof ow = .existing ms) ↔
      ow = false ∧ (∃ x, fs (matPath sp name side .RT) = some (.whole x)) ∧
      (∃ x, fs (matPath sp name side .A) = some (.whole x)) ∧
      (prof = true → ∃ x, fs (matPath sp name side .prof) = some (.whole x)) := by
  constructor
  · rintro ⟨ms, h⟩
    rcases getMats_existing_or (fs := fs) (sp := sp) (name := name) (side := side) (prof := prof) (ow := ow)
      with ⟨ms, h1, h2⟩ | h1 | h1
    · refine ⟨?_, h2 _ (by cases prof <;> simp [requiredPaths, requiredKinds]),
        h2 _ (by cases prof <;> simp [requiredPaths, requiredKinds]),
        fun hp => h2 _ (by subst hp; simp [requiredPaths, requiredKinds])⟩
      cases ow
      · rfl
      · exfalso
        simp only [getMatricesOrPaths, Bool.not_true, Bool.and_false, Bool.false_eq_true, if_false] at h
        split_ifs at h
    · rw [h1] at h; simp at h
    · rw [h1] at h; simp at h
  · rintro ⟨rfl, h1, h2, h3⟩
    apply getMats_of_whole
    intro p hp
    cases prof
    · simp only [requiredPaths, requiredKinds, Bool.false_eq_true, if_false, List.map_cons, List.map_nil, List.mem_cons,
        List.not_mem_nil, or_false] at hp
      rcases hp with rfl | rfl
      · exact h1
      · exact h2
    · simp only [requiredPaths, requiredKinds, if_true, List.map_cons, List.map_nil, List.mem_cons,
        List.not_mem_nil, or_false] at hp
      rcases hp with rfl | rfl | rfl
      · exact h1
      · exact h2
      · exact h3 rfl

/-! ## C27: re-running reuses results -/

/-- An interface and side whose files are complete is not computed again. -/
theorem C27_complete_not_recomputed (hp : γ → Bool) (sp : Str) (fs : FS γ) (i : Iface γ σ) (side : Side) (seed : σ)
    (h : ∀ k ∈ requiredKinds i.calcProf, ∃ x, fs (matPath sp i.name side k) = some (.whole x)) :
    Step.saves hp sp false fs seed (.mats i side) = some [] := by
  apply saves_nil
  intro p hpm
  obtain ⟨k, hk, rfl⟩ := List.mem_map.mp hpm
  exact h k hk

/-- After any completed `process_structure` (from any state of the disk, overwriting or not), any number of further
runs with `overwrite=False` change nothing on disk. -/
theorem C27_rerun_changes_nothing (hp : γ → Bool) (sp : Str) (ow : Bool) (l : List (Iface γ σ)) (fs fs' fs'' : FS γ)
    (h : Runs hp sp ow (allSteps l) fs fs')
    (hmore : Relation.ReflTransGen (fun a b => Runs hp sp false (allSteps l) a b) fs' fs'') : fs'' = fs' := by
  have hf := runs_files hp h
  induction hmore with
  | refl => rfl
  | tail _ hb ih => subst ih; exact runs_idle hp hf hb

/-- … no step of such a re-run computes or saves anything, and the re-run does not raise. -/
theorem C27_rerun_computes_nothing [Nonempty σ] (hp : γ → Bool) (sp : Str) (ow : Bool) (l : List (Iface γ σ)) (fs fs' : FS γ)
    (h : Runs hp sp ow (allSteps l) fs fs') :
    (∀ s ∈ allSteps l, ∀ seed, Step.saves hp sp false fs' seed s = some []) ∧ Runs hp sp false (allSteps l) fs' fs' :=
  ⟨fun s hs seed => saves_nil hp seed (runs_files hp h s hs), runs_idle_exists hp (runs_files hp h)⟩

/-! ## C28: everything `calculate_RAT` loads has been stored -/

theorem mats_front_mem {l : List (Iface γ σ)} {i : Iface γ σ} (hi : i ∈ l) : Step.mats i .front ∈ matSteps l := by
  induction l with
  | nil => simp at hi
  | cons a l ih =>
    rcases List.mem_cons.mp hi with rfl | hi
    · have : Side.front ∈ sidesOf i l.isEmpty := by
        unfold sidesOf; cases i.method <;> cases l.isEmpty <;> simp
      simp only [matSteps, List.mem_append, List.mem_map]
      exact Or.inl ⟨_, this, rfl⟩
    · simp only [matSteps, List.mem_append]
      exact Or.inr (ih hi)

theorem mats_rear_mem {l : List (Iface γ σ)} {i : Iface γ σ} (hi : i ∈ l.dropLast)
    (h1 : i.method ≠ .Mirror) (h2 : i.method ≠ .Lambertian) : Step.mats i .rear ∈ matSteps l := by
  induction l with
  | nil => simp at hi
  | cons a l ih =>
    cases l with
    | nil => simp at hi
    | cons b l =>
      simp only [List.dropLast_cons₂, List.mem_cons] at hi
      rcases hi with rfl | hi
      · have : Side.rear ∈ sidesOf i (b :: l).isEmpty := by
          unfold sidesOf; cases hm : i.method <;> simp_all
        rw [matSteps]
        simp only [List.mem_append, List.mem_map]
        exact Or.inl ⟨_, this, rfl⟩
      · rw [matSteps]
        simp only [List.mem_append]
        exact Or.inr (ih hi)

/-- Ideal interfaces (Mirror, Lambertian) occur only last, and profiles are requested only from interfaces whose method
computes them. -/
structure Loadable (l : List (Iface γ σ)) : Prop where
  ideal_last : ∀ i ∈ l.dropLast, i.method ≠ .Mirror ∧ i.method ≠ .Lambertian
  prof_methods : ∀ i ∈ l, i.prof = true → i.method = .TMM ∨ i.method = .RT_TMM ∨ i.method = .RCWA

theorem ratLoads_mem {sp : Str} {l : List (Iface γ σ)} {p : Str} (h : p ∈ ratLoads sp l) :
    ∃ i ∈ l, p ∈ requiredPaths sp i.name .front i.prof ∨ i ∈ l.dropLast ∧ p ∈ requiredPaths sp i.name .rear i.prof := by
  induction l with
  | nil => simp [ratLoads] at h
  | cons a l ih =>
    simp only [ratLoads, List.mem_append] at h
    rcases h with (h | h) | h
    · exact ⟨a, by simp, Or.inl h⟩
    · cases l with
      | nil => simp at h
      | cons b l =>
        simp only [List.isEmpty_cons, Bool.false_eq_true, if_false] at h
        exact ⟨a, by simp, Or.inr ⟨by simp, h⟩⟩
    · obtain ⟨i, hi, h⟩ := ih h
      refine ⟨i, by simp [hi], ?_⟩
      rcases h with h | ⟨h1, h2⟩
      · exact Or.inl h
      · refine Or.inr ⟨?_, h2⟩
        cases l with
        | nil => simp at h1
        | cons b l => simp only [List.dropLast_cons₂, List.mem_cons]; exact Or.inr h1

/-- For such structures, after `process_structure` has finished, from any state of the disk, every file `calculate_RAT` opens
can be loaded. -/
theorem C28_all_loads_succeed_partial (hp : γ → Bool) (sp : Str) (ow : Bool) (l : List (Iface γ σ)) (hl : Loadable l)
    (fs fs' : FS γ) (h : Runs hp sp ow (allSteps l) fs fs') :
    ∀ p ∈ ratLoads sp l, ∃ x, fs'.load p = some x := by
  intro p hpm
  rw [load_isSome]
  have hf := runs_files hp h
  have hprof : ∀ i ∈ l, i.calcProf = i.prof := by
    intro i hi
    cases hpr : i.prof
    · unfold Iface.calcProf; cases i.method <;> simp [hpr]
    · rcases hl.prof_methods i hi hpr with h | h | h <;> simp [Iface.calcProf, h, hpr]
  obtain ⟨i, hi, h | ⟨h1, h⟩⟩ := ratLoads_mem hpm
  · refine hf (.mats i .front) (mats_mem_all.mpr (mats_front_mem hi)) p ?_
    simpa [stepFiles, hprof i hi] using h
  · obtain ⟨m1, m2⟩ := hl.ideal_last i h1
    refine hf (.mats i .rear) (mats_mem_all.mpr (mats_rear_mem h1 m1 m2)) p ?_
    simpa [stepFiles, hprof i hi] using h

theorem not_mem_files {sp : Str} {l : List (Iface γ σ)} (hl : NamesOk l) {i : Iface γ σ} (hi : i ∈ l) {side : Side} {k : Kind}
    (h : ∀ s, Step.mats i s ∈ matSteps l → s = side → k ∉ requiredKinds i.calcProf) :
    ∀ s ∈ allSteps l, matPath sp i.name side k ∉ stepFiles sp s := by
  intro s hs hmem
  cases s with
  | table j =>
    obtain ⟨hj, hm⟩ := table_mem.mp hs
    simp only [stepFiles, List.mem_singleton] at hmem
    exact lut_ne_mat hl hj hi hm hmem.symm
  | mats j s =>
    have hj := mem_of_mats (mats_mem_all.mp hs)
    simp only [stepFiles, requiredPaths, List.mem_map] at hmem
    obtain ⟨k', hk', he⟩ := hmem
    obtain ⟨rfl, rfl, rfl⟩ := mat_inj hl hj hi he
    exact h s (mats_mem_all.mp hs) rfl hk'

theorem rear_not_ideal {l : List (Iface γ σ)} {i : Iface γ σ} (h : Step.mats i .rear ∈ matSteps l) : i.method ≠ .Mirror ∧ i.method ≠ .Lambertian := by
  induction l with
  | nil => simp [matSteps] at h
  | cons a l ih =>
    rw [matSteps] at h
    simp only [List.mem_append, List.mem_map] at h
    rcases h with ⟨s, h1, h2⟩ | h
    · simp only [Step.mats.injEq] at h2
      obtain ⟨rfl, rfl⟩ := h2
      unfold sidesOf at h1
      constructor <;> intro hm <;> simp [hm] at h1
    · exact ih h

/-- Violated in general, 1: a Mirror or Lambertian interface that is not the last one.  The rear RT file `calculate_RAT` opens for it is not there. -/
theorem C28_ideal_not_last_fails (hp : γ → Bool) (sp : Str) (ow : Bool) (l : List (Iface γ σ)) (i : Iface γ σ) (hi : i ∈ l.dropLast)
    (hm : i.method = .Mirror ∨ i.method = .Lambertian) (hl : NamesOk l)
    (fs fs' : FS γ) (hfresh : Fresh sp l fs) (h : Runs hp sp ow (allSteps l) fs fs') :
    matPath sp i.name .rear .RT ∈ ratLoads sp l ∧ fs'.load (matPath sp i.name .rear .RT) = none := by
  have hil := List.dropLast_subset l hi
  constructor
  · clear hl hfresh h hil
    induction l with
    | nil => simp at hi
    | cons a l ih =>
      cases l with
      | nil => simp at hi
      | cons b l =>
        rw [ratLoads]
        simp only [List.mem_append, List.isEmpty_cons, Bool.false_eq_true, if_false]
        simp only [List.dropLast_cons₂, List.mem_cons] at hi
        rcases hi with rfl | hi
        · refine Or.inl (Or.inr ?_)
          cases i.prof <;> simp [requiredPaths, requiredKinds]
        · exact Or.inr (ih hi)
  · have hno : ∀ s ∈ allSteps l, matPath sp i.name .rear .RT ∉ stepFiles sp s := by
      apply not_mem_files hl hil
      rintro s hs rfl
      exfalso
      obtain ⟨h1, h2⟩ := rear_not_ideal hs
      rcases hm with hm | hm
      · exact h1 hm
      · exact h2 hm
    have := runs_other hp h hno
    simp only [FS.load, this, (hfresh i hil).2]

/-- Violated in general, 2: profile layers requested for an RT_Fresnel, Mirror or Lambertian interface.  The profile file
`calculate_RAT` opens is not there. -/
theorem C28_profile_method_fails (hp : γ → Bool) (sp : Str) (ow : Bool) (l : List (Iface γ σ)) (i : Iface γ σ) (hi : i ∈ l)
    (hm : i.method = .RT_Fresnel ∨ i.method = .Mirror ∨ i.method = .Lambertian) (hpr : i.prof = true) (hl : NamesOk l)
    (fs fs' : FS γ) (hfresh : Fresh sp l fs) (h : Runs hp sp ow (allSteps l) fs fs') :
    matPath sp i.name .front .prof ∈ ratLoads sp l ∧ fs'.load (matPath sp i.name .front .prof) = none := by
  constructor
  · clear hl hfresh h
    induction l with
    | nil => simp at hi
    | cons a l ih =>
      simp only [ratLoads, List.mem_append]
      rcases List.mem_cons.mp hi with rfl | hi
      · refine Or.inl (Or.inl ?_)
        simp [requiredPaths, requiredKinds, hpr]
      · exact Or.inr (ih hi)
  · have hno : ∀ s ∈ allSteps l, matPath sp i.name .front .prof ∉ stepFiles sp s := by
      apply not_mem_files hl hi
      rintro s hs rfl
      rcases hm with hm | hm | hm <;> simp [Iface.calcProf, hm, requiredKinds]
    have := runs_other hp h hno
    simp only [FS.load, this, (hfresh i hi).2]

/-- Exactly these structures work: in a folder without results of them, all files `calculate_RAT` opens are there after `process_structure` if and only if Mirror and Lambertian interfaces are last and profiles are requested only
from TMM, RT_TMM and RCWA interfaces. -/
theorem C28_exactly_partial (hp : γ → Bool) (sp : Str) (ow : Bool) (l : List (Iface γ σ)) (hl : NamesOk l) (fs fs' : FS γ) (hfresh : Fresh sp l fs) (h : Runs hp sp ow (allSteps l) fs fs') :
    (∀ p ∈ ratLoads sp l, ∃ x, fs'.load p = some x) ↔ Loadable l := by
  refine ⟨fun hload => ⟨fun i hi => ⟨fun hm => ?_, fun hm => ?_⟩, fun i hi hpr => ?_⟩, fun hl => C28_all_loads_succeed_partial hp sp ow l hl fs fs' h⟩
  · obtain ⟨h1, h2⟩ := C28_ideal_not_last_fails hp sp ow l i hi (Or.inl hm) hl fs fs' hfresh h
    obtain ⟨x, hx⟩ := hload _ h1
    rw [h2] at hx; exact absurd hx (by simp)
  · obtain ⟨h1, h2⟩ := C28_ideal_not_last_fails hp sp ow l i hi (Or.inr hm) hl fs fs' hfresh h
    obtain ⟨x, hx⟩ := hload _ h1
    rw [h2] at hx; exact absurd hx (by simp)
  · by_contra hc
    push Not at hc
    have hm : i.method = .RT_Fresnel ∨ i.method = .Mirror ∨ i.method = .Lambertian := by
      obtain ⟨c1, c2, c3⟩ := hc
      cases hm : i.method <;> simp_all
    obtain ⟨h1, h2⟩ := C28_profile_method_fails hp sp ow l i hi hm hpr hl fs fs' hfresh h
    obtain ⟨x, hx⟩ := hload _ h1
    rw [h2] at hx; exact absurd hx (by simp)

/-! ## C29: distinct interfaces never share a file -/

/-- Two stored-matrix paths agree only if name, side and kind agree (names that are not absolute paths). -/
theorem C29_paths_distinct_partial (sp n n' : Str) (h : n.head? ≠ some '/') (h' : n'.head? ≠ some '/') (s s' : Side) (k k' : Kind) :
    matPath sp n s k = matPath sp n' s' k' ↔ n = n' ∧ s = s' ∧ k = k' := matPath_inj h h'

theorem pathJoin_append (sp n suf : Str) (hs : suf ≠ []) (h : suf.head? ≠ some '/') : pathJoin sp (n ++ suf) = pathJoin sp n ++ suf := by
  unfold pathJoin
  have hh : ((n ++ suf).head? = some '/') ↔ n.head? = some '/' := by
    cases n with
    | nil => simp [h]
    | cons a n => simp
  by_cases hn : n.head? = some '/'
  · rw [if_pos (hh.mpr hn), if_pos hn]
  · rw [if_neg (fun e => hn (hh.mp e)), if_neg hn]
    split_ifs <;> simp

/-- For all names, absolute paths included: two stored-matrix paths agree if and only if side and kind agree and the names stand for the same place, seen from the project folder. -/
theorem C29_exactly_partial (sp n n' : Str) (s s' : Side) (k k' : Kind) :
    matPath sp n s k = matPath sp n' s' k' ↔ pathJoin sp n = pathJoin sp n' ∧ s = s' ∧ k = k' := by
  have hne : ∀ (s : Side) (k : Kind), s.str ++ k.str ≠ [] ∧ (s.str ++ k.str).head? ≠ some '/' := by
    intro s k
    cases s <;> cases k <;> decide
  unfold matPath
  rw [List.append_assoc, List.append_assoc, pathJoin_append _ _ _ (hne s k).1 (hne s k).2, pathJoin_append _ _ _ (hne s' k').1 (hne s' k').2, ← List.append_assoc, ← List.append_assoc, suffix_inj]

/-- Without that restriction it fails: in project folder `/r`, names `/r/a` and `a` share all their files. -/
theorem C29_absolute_name_fails (s : Side) (k : Kind) :
    matPath "/r".toList "/r/a".toList s k = matPath "/r".toList "a".toList s k ∧ "/r/a".toList ≠ "a".toList := by
  cases s <;> cases k <;> decide

/-- After an uninterrupted run in a fresh folder, or after an uninterrupted overwriting run in any folder, every interface's
stored matrices are complete, are its own, and belong together; likewise its lookup table. -/
theorem C29_own_matrices (hp : γ → Bool) (sp : Str) (ow : Bool) (l : List (Iface γ σ)) (hl : NamesOk l)
    (fs fs' : FS γ) (hstart : ow = true ∨ Fresh sp l fs) (h : Runs hp sp ow (allSteps l) fs fs') :
    (∀ i ∈ l, Consistent sp fs' i .front) ∧
    (∀ i ∈ l.dropLast, i.method ≠ .Mirror → i.method ≠ .Lambertian → Consistent sp fs' i .rear) ∧
    (∀ i ∈ l, i.method = .RT_TMM → fs' (lutPath sp i.name) = some (.whole i.lut)) := by
  have hdone : ∀ t ∈ allSteps l, StepDone sp fs' t := by
    cases ow
    · rcases hstart with h' | h'
      · simp at h'
      · exact (inv_runs hl h (fun s hs => stepIn_of_mem hs) (inv_fresh hl h')).2.2
    · exact all_done_overwrite hl h
  refine ⟨fun i hi => hdone _ (mats_mem_all.mpr (mats_front_mem hi)),
    fun i hi h1 h2 => hdone _ (mats_mem_all.mpr (mats_rear_mem hi h1 h2)),
    fun i hi hm => hdone _ (table_mem.mpr ⟨hi, hm⟩)⟩

/-! ## C30: interfaces with the same name -/

/-- Two TMM interfaces carrying the same name, in a fresh folder: what is stored, and loaded by `calculate_RAT`, as the front RT
matrix of the second is the front RT matrix computed for the first. -/
theorem C30_same_name_fails (hp : γ → Bool) (sp : Str) (i j : Iface γ σ) (hname : j.name = i.name)
    (hrel : i.name.head? ≠ some '/') (hi : i.method = .TMM) (hj : j.method = .TMM) (hip : i.prof = j.prof)
    (fs fs' : FS γ) (hfresh : Fresh sp [i, j] fs) (h : Runs hp sp false (allSteps [i, j]) fs fs') :
    ∃ seed, fs' (matPath sp j.name .front .RT) = some (.whole (i.compute .front seed none .RT)) := by
  have hsteps : allSteps [i, j] = [Step.mats i .front, Step.mats i .rear, Step.mats j .front] := by
    simp [allSteps, tableSteps, matSteps, sidesOf, hi, hj]
  rw [hsteps] at h
  obtain _ | ⟨seed1, h1, h⟩ := h
  obtain _ | ⟨seed2, h2, h⟩ := h
  obtain _ | ⟨seed3, h3, h⟩ := h
  cases h
  rcases saves_mats h1 with ⟨_, hw, _⟩ | ⟨L, rfl, _, hL⟩
  · exfalso
    obtain ⟨x, hx⟩ := hw _ (List.mem_map.mpr ⟨_, lastKind_mem _, rfl⟩)
    rw [(hfresh i (by simp)).2] at hx
    simp at hx
  · obtain rfl := hL (by simp [hi])
    refine ⟨seed1, ?_⟩
    have hfiles : ∀ p ∈ stepFiles sp (Step.mats j .front), p ∈ stepFiles sp (Step.mats i .front) := by
      intro p hp'
      simpa [stepFiles, hname, Iface.calcProf, hi, hj, hip] using hp'
    rw [saves_nil hp seed3 (fun p hp' => whole_writes _ (files_after hp h1 p (hfiles p hp')))] at h3
    simp only [Option.some.injEq] at h3
    subst h3
    rw [writes_nil, hname]
    have hRT : Kind.RT ∈ requiredKinds i.calcProf := by cases i.calcProf <;> simp [requiredKinds]
    have hfirst := matWrites_at (sp := sp) (side := .front) hrel (i.compute .front seed1 none) (requiredKinds_nodup i.calcProf) fs .RT
    rw [if_pos hRT] at hfirst
    rcases saves_mats h2 with ⟨rfl, _⟩ | ⟨L2, rfl, _⟩
    · exact hfirst
    · rw [matWrites_other _ _ (fun k he => by simpa using ((matPath_inj hrel hrel).mp he).2.1)]
      exact hfirst

/-! ## C31: crashes between saves are repaired by re-running -/

/-- From a folder without results for the structure: after any number of runs (`overwrite=False`) each killed between two saves (or
not), the next run goes through and leaves, for every interface, complete matrices of one single calculation. -/
theorem C31_crash_repaired [Nonempty σ] (hp : γ → Bool) (sp : Str) (l : List (Iface γ σ)) (hl : NamesOk l) (hT : TablesOk hp l)
    (fs fs₁ : FS γ) (hfresh : Fresh sp l fs)
    (hcrash : Relation.ReflTransGen (fun a b => Crashes hp sp false (allSteps l) a b) fs fs₁) :
    (∃ fs₂, Runs hp sp false (allSteps l) fs₁ fs₂) ∧
    ∀ fs₂, Runs hp sp false (allSteps l) fs₁ fs₂ →
      (∀ i ∈ l, Consistent sp fs₂ i .front) ∧
      (∀ i ∈ l.dropLast, i.method ≠ .Mirror → i.method ≠ .Lambertian → Consistent sp fs₂ i .rear) ∧
      (∀ i ∈ l, i.method = .RT_TMM → fs₂ (lutPath sp i.name) = some (.whole i.lut)) := by
  have hI : Inv sp l fs₁ := by
    induction hcrash with
    | refl => exact inv_fresh hl hfresh
    | tail _ hb ih => exact inv_crashes hl hb (fun s hs => stepIn_of_mem hs) ih
  refine ⟨all_runs_exists hl hI hT, fun fs₂ h => ?_⟩
  have hdone := (inv_runs hl h (fun s hs => stepIn_of_mem hs) hI).2.2
  exact ⟨fun i hi => hdone _ (mats_mem_all.mpr (mats_front_mem hi)),
    fun i hi h1 h2 => hdone _ (mats_mem_all.mpr (mats_rear_mem hi h1 h2)),
    fun i hi hm => hdone _ (table_mem.mpr ⟨hi, hm⟩)⟩

theorem crashes_other (hp : γ → Bool) {sp : Str} {ow : Bool} {ss : List (Step γ σ)} {fs fs' : FS γ}
    (h : Crashes hp sp ow ss fs fs') {p : Str} (hp' : ∀ s ∈ ss, p ∉ stepFiles sp s) : fs' p = fs p := by
  have key : ∀ {s : Step γ σ} {fs : FS γ} {w w' : List (Str × γ)} {seed : σ},
      Step.saves hp sp ow fs seed s = some w → w' <+: w → p ∉ stepFiles sp s → fs.writes w' p = fs p := by
    intro s fs w w' seed hs hw hn
    rcases saves_fst hp hs with ⟨rfl, _⟩ | h'
    · obtain rfl : w' = [] := by simpa using hw
      rfl
    · apply writes_of_not_mem
      intro hm
      exact hn (h' ▸ (hw.map Prod.fst).subset hm)
  induction h with
  | stop => rfl
  | mid seed hs hw => exact key hs hw (hp' _ (by simp))
  | next seed hs _ ih =>
    rw [ih (fun t ht => hp' t (by simp [ht]))]
    exact key hs (List.prefix_refl _) (hp' _ (by simp))

/-- For calculations that are not random, the disk after crashes and a final run is identical to the disk after one
uninterrupted run. -/
theorem C31_identical (hp : γ → Bool) (sp : Str) (l : List (Iface γ σ)) (hl : NamesOk l)
    (hdet : ∀ i ∈ l, ∀ side seed seed' L k, i.compute side seed L k = i.compute side seed' L k)
    (fs fs₁ fs₂ fs' : FS γ) (hfresh : Fresh sp l fs)
    (hcrash : Relation.ReflTransGen (fun a b => Crashes hp sp false (allSteps l) a b) fs fs₁)
    (h : Runs hp sp false (allSteps l) fs₁ fs₂) (h' : Runs hp sp false (allSteps l) fs fs') : fs₂ = fs' := by
  have hI : Inv sp l fs₁ := by
    clear h
    induction hcrash with
    | refl => exact inv_fresh hl hfresh
    | tail _ hb ih => exact inv_crashes hl hb (fun s hs => stepIn_of_mem hs) ih
  have hd₂ := (inv_runs hl h (fun s hs => stepIn_of_mem hs) hI).2.2
  have hd' := (inv_runs hl h' (fun s hs => stepIn_of_mem hs) (inv_fresh hl hfresh)).2.2
  funext p
  by_cases hpm : ∃ s ∈ allSteps l, p ∈ stepFiles sp s
  · obtain ⟨s, hs, hps⟩ := hpm
    cases s with
    | table i =>
      simp only [stepFiles, List.mem_singleton] at hps
      subst hps
      exact (hd₂ _ hs).trans (hd' _ hs).symm
    | mats i side =>
      obtain ⟨k, hk, rfl⟩ := List.mem_map.mp hps
      obtain ⟨s1, c1⟩ := hd₂ _ hs
      obtain ⟨s2, c2⟩ := hd' _ hs
      rw [c1 k hk, c2 k hk, hdet i (mem_of_mats (mats_mem_all.mp hs)) side s1 s2]
  · simp only [not_exists, not_and] at hpm
    rw [runs_other hp h hpm, runs_other hp h' hpm]
    clear h hI hd₂
    induction hcrash with
    | refl => rfl
    | tail _ hb ih => rw [crashes_other hp hb hpm]; exact ih

/-! ## C32: a crash while overwriting -/

/-- Violated: for every TMM interface with complete old results, an overwriting run killed after the first save leaves a state which
every later run with `overwrite=False` accepts unchanged, with the new RT matrix next to the old A matrix. -/
theorem C32_crash_overwriting_fails (hp : γ → Bool) (sp : Str) (i : Iface γ σ) (hi : i.method = .TMM) (hpr : i.prof = false)
    (hrel : i.name.head? ≠ some '/') (fs : FS γ) (seed : σ) (rtOld aOld : γ)
    (h1 : fs (matPath sp i.name .front .RT) = some (.whole rtOld))
    (h2 : fs (matPath sp i.name .front .A) = some (.whole aOld)) :
    ∃ fs₁, Crashes hp sp true (allSteps [i]) fs fs₁ ∧
      ∀ fs₂, Runs hp sp false (allSteps [i]) fs₁ fs₂ → fs₂ = fs₁ ∧
        fs₂ (matPath sp i.name .front .RT) = some (.whole (i.compute .front seed none .RT)) ∧
        fs₂ (matPath sp i.name .front .A) = some (.whole aOld) := by
  have hc : i.calcProf = false := by simp [Iface.calcProf, hi, hpr]
  have hsteps : allSteps [i] = [Step.mats i .front] := by
    simp [allSteps, tableSteps, matSteps, sidesOf, hi]
  have hsave : Step.saves hp sp true fs seed (.mats i .front)
      = some [(matPath sp i.name .front .RT, i.compute .front seed none .RT),
              (matPath sp i.name .front .A, i.compute .front seed none .A)] := by
    simp [Step.saves, getMatricesOrPaths, hc, hi, requiredKinds]
  have hne : matPath sp i.name .front .A ≠ matPath sp i.name .front .RT := by
    intro he; simpa using ((matPath_inj hrel hrel).mp he).2.2
  set fs₁ := fs.writes [(matPath sp i.name .front .RT, i.compute .front seed none .RT)] with hfs₁
  have g1 : fs₁ (matPath sp i.name .front .RT) = some (.whole (i.compute .front seed none .RT)) := by
    simp [hfs₁, FS.writes, FS.write]
  have g2 : fs₁ (matPath sp i.name .front .A) = some (.whole aOld) := by
    simp [hfs₁, FS.writes, FS.write, hne, h2]
  refine ⟨fs₁, ?_, ?_⟩
  · rw [hsteps]
    exact .mid seed hsave (by simp)
  · intro fs₂ h
    have : fs₂ = fs₁ := by
      apply runs_idle hp _ h
      rw [hsteps]
      intro s hs p hpm
      simp only [List.mem_singleton] at hs
      subst hs
      simp only [stepFiles, requiredPaths, hc, requiredKinds, Bool.false_eq_true, if_false, List.map_cons, List.map_nil,
        List.mem_cons, List.not_mem_nil, or_false] at hpm
      rcases hpm with rfl | rfl
      · exact ⟨_, g1⟩
      · exact ⟨_, g2⟩
    subst this
    exact ⟨rfl, g1, g2⟩

/-- What does hold: re-running with `overwrite=True` repairs whatever any crashes (with either setting) have left. -/
theorem C32_overwrite_repairs_partial (hp : γ → Bool) (sp : Str) (l : List (Iface γ σ)) (hl : NamesOk l)
    (fs fs₁ fs₂ : FS γ)
    (_hcrash : Relation.ReflTransGen (fun a b => ∃ ow, Crashes hp sp ow (allSteps l) a b) fs fs₁)
    (h : Runs hp sp true (allSteps l) fs₁ fs₂) :
    (∀ i ∈ l, Consistent sp fs₂ i .front) ∧
    (∀ i ∈ l.dropLast, i.method ≠ .Mirror → i.method ≠ .Lambertian → Consistent sp fs₂ i .rear) ∧
    (∀ i ∈ l, i.method = .RT_TMM → fs₂ (lutPath sp i.name) = some (.whole i.lut)) :=
  C29_own_matrices hp sp true l hl fs₁ fs₂ (Or.inl rfl) h

/-! ## C33: result folder -/

theorem mkdir_spec {parent : Str → Str} {ex ex' : Str → Bool} {p : Str} (h : mkdirIfMissing parent ex p = some ex') :
    ex' p = true ∧ (∀ q, ex q = true → ex' q = true) ∧ ∀ q, ex' q = true → ex q = true ∨ q = p := by
  unfold mkdirIfMissing at h
  split_ifs at h with h1 h2
  · simp only [Option.some.injEq] at h
    subst h
    exact ⟨h1, fun _ h => h, fun _ h => Or.inl h⟩
  · simp only [Option.some.injEq] at h
    subst h
    refine ⟨by simp, fun q h => by simp [h], fun q h => ?_⟩
    simp only [Bool.or_eq_true, decide_eq_true_eq] at h
    exact h.symm

theorem mkdir_done {parent : Str → Str} {ex : Str → Bool} {p : Str} (h : ex p = true) :
    mkdirIfMissing parent ex p = some ex := by simp [mkdirIfMissing, h]

/-- The save location the user chose. -/
def saveLocation (cwd home : Str) : SaveLoc → Str
  | .current => cwd
  | .default => pathJoin home "RayFlare_results".toList
  | .path p => p

/-- The returned path is the save location joined with the project name; that folder exists afterwards; nothing that
existed is gone; and nothing other than that folder and the save location has been created. -/
theorem C33_path (ex : Str → Bool) (parent : Str → Str) (cwd home : Str) (loc : SaveLoc) (project : Str) (r : Str × (Str → Bool))
    (h : getSavepath ex parent cwd home loc project = some r) :
    r.1 = pathJoin (saveLocation cwd home loc) project ∧ r.2 r.1 = true ∧ (∀ q, ex q = true → r.2 q = true) ∧
    ∀ q, r.2 q = true → ex q = true ∨ q = r.1 ∨ q = saveLocation cwd home loc := by
  have hb : baseDir cwd home loc = saveLocation cwd home loc := by cases loc <;> rfl
  unfold getSavepath at h
  simp only at h
  obtain ⟨ex1, h1, h2⟩ := Option.bind_eq_some_iff.mp h
  obtain ⟨ex2, h3, rfl⟩ := Option.map_eq_some_iff.mp h2
  have key : (∀ q, ex q = true → ex1 q = true) ∧ ∀ q, ex1 q = true → ex q = true ∨ q = baseDir cwd home loc := by
    cases loc with
    | current =>
      simp only [makeBase, Option.some.injEq] at h1
      subst h1
      exact ⟨fun _ h => h, fun _ h => Or.inl h⟩
    | default => exact (mkdir_spec h1).2
    | path p => exact (mkdir_spec h1).2
  obtain ⟨a1, a2, a3⟩ := mkdir_spec h3
  rw [← hb]
  refine ⟨rfl, a1, fun q hq => a2 q (key.1 q hq), fun q hq => ?_⟩
  rcases a3 q hq with h | h
  · rcases key.2 q h with h | h
    · exact Or.inl h
    · exact Or.inr (Or.inr h)
  · exact Or.inr (Or.inl h)

/-- Calling it again returns the same path and creates nothing. -/
theorem C33_again (ex : Str → Bool) (parent : Str → Str) (cwd home : Str) (loc : SaveLoc) (project : Str) (r : Str × (Str → Bool))
    (h : getSavepath ex parent cwd home loc project = some r) :
    getSavepath r.2 parent cwd home loc project = some r := by
  unfold getSavepath at h ⊢
  simp only at h ⊢
  obtain ⟨ex1, h1, h2⟩ := Option.bind_eq_some_iff.mp h
  obtain ⟨ex2, h3, rfl⟩ := Option.map_eq_some_iff.mp h2
  obtain ⟨a1, a2, a3⟩ := mkdir_spec h3
  have : makeBase ex2 parent cwd home loc = some ex2 := by
    cases loc with
    | current => rfl
    | default => exact mkdir_done (a2 _ (mkdir_spec h1).1)
    | path p => exact mkdir_done (a2 _ (mkdir_spec h1).1)
  rw [this]
  simp only [Option.bind_some]
  rw [mkdir_done a1]
  rfl

/-- It succeeds whenever the save location or its parent exists and the project folder lies directly in the save location. -/
theorem C33_succeeds (ex : Str → Bool) (parent : Str → Str) (cwd home : Str) (loc : SaveLoc) (project : Str)
    (hproj : parent (pathJoin (saveLocation cwd home loc) project) = saveLocation cwd home loc)
    (hcwd : ex cwd = true)
    (hloc : ex (saveLocation cwd home loc) = true ∨ ex (parent (saveLocation cwd home loc)) = true) :
    ∃ r, getSavepath ex parent cwd home loc project = some r := by
  have hb : baseDir cwd home loc = saveLocation cwd home loc := by cases loc <;> rfl
  have hmk : ∃ ex1, mkdirIfMissing parent ex (saveLocation cwd home loc) = some ex1 := by
    unfold mkdirIfMissing
    split_ifs with h1 h2
    · exact ⟨_, rfl⟩
    · exact ⟨_, rfl⟩
    · simp [h1, h2] at hloc
  have key : ∃ ex1, makeBase ex parent cwd home loc = some ex1 ∧ ex1 (saveLocation cwd home loc) = true := by
    obtain ⟨ex1, h1⟩ := hmk
    cases loc with
    | current => exact ⟨ex, rfl, hcwd⟩
    | default => exact ⟨ex1, h1, (mkdir_spec h1).1⟩
    | path p => exact ⟨ex1, h1, (mkdir_spec h1).1⟩
  obtain ⟨ex1, h1, h2⟩ := key
  unfold getSavepath
  simp only
  rw [h1]
  simp only [Option.bind_some]
  unfold mkdirIfMissing
  rw [hb, hproj, h2]
  split_ifs with a b
  · simp
  · simp
  · exact absurd rfl b

/-- A project name such as `a/b` raises unless the intermediate folder already exists, although the save location exists. -/
theorem C33_nested_project_raises (ex : Str → Bool) (parent : Str → Str) (cwd home : Str) (loc : SaveLoc) (project : Str)
    (hloc : ex (saveLocation cwd home loc) = true)
    (h1 : ex (pathJoin (saveLocation cwd home loc) project) = false)
    (h2 : ex (parent (pathJoin (saveLocation cwd home loc) project)) = false) :
    getSavepath ex parent cwd home loc project = none := by
  have hb : baseDir cwd home loc = saveLocation cwd home loc := by cases loc <;> rfl
  have : makeBase ex parent cwd home loc = some ex := by
    cases loc with
    | current => rfl
    | default => exact mkdir_done hloc
    | path p => exact mkdir_done hloc
  unfold getSavepath
  simp only
  rw [this, hb]
  simp [mkdirIfMissing, h1, h2]

example : ∃ (ex : Str → Bool) (parent : Str → Str), ex "/home/u".toList = true ∧
    parent (pathJoin (saveLocation "/".toList "/home/u".toList .default) "p".toList) = "/home/u/RayFlare_results".toList ∧
    ex (parent "/home/u/RayFlare_results".toList) = true :=
  ⟨fun q => decide (q = "/home/u".toList),
   fun q => if q = "/home/u/RayFlare_results".toList then "/home/u".toList else "/home/u/RayFlare_results".toList, by decide⟩

/-! ## C34: `wavelengths` overrides `wavelength` -/

/-- Things that happen to an options object: `get_wavelength` is called by some function, or the user sets another key. -/
inductive OptionEvent (V : Type*)
  | getWavelength
  | set (k : Str) (v : V)

/-- Effect of an event. -/
def OptionEvent.run {V : Type*} (o : Str → Option V) : OptionEvent V → Str → Option V
  | .getWavelength => Model.getWavelength o
  | .set k v => fun q => if q = k then some v else o q

def wlKey : Str := "wavelength".toList
def wlsKey : Str := "wavelengths".toList

theorem getWavelength_other {V : Type*} (o : Str → Option V) (k : Str) (hk : k ≠ wlKey) : getWavelength o k = o k := by
  unfold getWavelength
  rcases h : o "wavelengths".toList with _ | v
  · rfl
  · exact if_neg hk

theorem getWavelength_wl {V : Type*} (o : Str → Option V) :
    getWavelength o wlKey = (o wlsKey).or (o wlKey) := by
  unfold getWavelength
  change (match o wlsKey with
    | some v => fun k => if k = wlKey then some v else o k
    | none => o) wlKey = _
  rcases h : o wlsKey with _ | v <;> simp

/-- One call: `wavelength` becomes `wavelengths` if present, otherwise stays; every other key is unchanged. -/
theorem C34_single_call {V : Type*} (o : Str → Option V) :
    (∀ v, o wlsKey = some v → getWavelength o wlKey = some v) ∧
    (o wlsKey = none → getWavelength o wlKey = o wlKey) ∧
    ∀ k, k ≠ wlKey → getWavelength o k = o k := by
  refine ⟨fun v h => ?_, fun h => ?_, fun k hk => getWavelength_other o k hk⟩
  · rw [getWavelength_wl, h]; rfl
  · rw [getWavelength_wl, h]; rfl

/-- Any history of calls and edits of other keys. -/
theorem C34_history {V : Type*} (es : List (OptionEvent V)) (o : Str → Option V)
    (hset : ∀ k v, OptionEvent.set k v ∈ es → k ≠ wlKey ∧ k ≠ wlsKey) (hcall : OptionEvent.getWavelength ∈ es) :
    es.foldl OptionEvent.run o wlKey = (o wlsKey).or (o wlKey) ∧
    es.foldl OptionEvent.run o wlsKey = o wlsKey ∧
    ∀ k, k ≠ wlKey → es.foldl OptionEvent.run o k
      = (es.filter (fun e => match e with | .set _ _ => true | .getWavelength => false)).foldl OptionEvent.run o k := by
  have hne : wlsKey ≠ wlKey := by decide
  -- values of the two keys along any history
  have inv : ∀ (es : List (OptionEvent V)) (o : Str → Option V),
      (∀ k v, OptionEvent.set k v ∈ es → k ≠ wlKey ∧ k ≠ wlsKey) →
      es.foldl OptionEvent.run o wlsKey = o wlsKey ∧
      (es.foldl OptionEvent.run o wlKey = (o wlsKey).or (o wlKey) ∨
        OptionEvent.getWavelength ∉ es ∧ es.foldl OptionEvent.run o wlKey = o wlKey) := by
    intro es
    induction es with
    | nil => intro o _; exact ⟨rfl, Or.inr ⟨by simp, rfl⟩⟩
    | cons e es ih =>
      intro o hset
      obtain ⟨i1, i2⟩ := ih (e.run o) (fun k v h => hset k v (by simp [h]))
      rw [List.foldl_cons]
      cases e with
      | getWavelength =>
        have hw : OptionEvent.run o .getWavelength wlsKey = o wlsKey := getWavelength_other o _ hne
        have hw' : OptionEvent.run o .getWavelength wlKey = (o wlsKey).or (o wlKey) := getWavelength_wl o
        rw [hw] at i1
        refine ⟨i1, Or.inl ?_⟩
        rcases i2 with i2 | ⟨_, i2⟩
        · rw [i2, hw, hw']; cases o wlsKey <;> rfl
        · rw [i2, hw']
      | set k v =>
        obtain ⟨k1, k2⟩ := hset k v (by simp)
        have hw : OptionEvent.run o (.set k v) wlsKey = o wlsKey := by simp [OptionEvent.run, k2.symm]
        have hw' : OptionEvent.run o (.set k v) wlKey = o wlKey := by simp [OptionEvent.run, k1.symm]
        rw [hw] at i1
        rw [hw, hw'] at i2
        refine ⟨i1, ?_⟩
        rcases i2 with i2 | ⟨h, i2⟩
        · exact Or.inl i2
        · exact Or.inr ⟨by simp [h], i2⟩
  obtain ⟨j1, j2⟩ := inv es o hset
  refine ⟨?_, j1, ?_⟩
  · rcases j2 with j2 | ⟨h, _⟩
    · exact j2
    · exact absurd hcall h
  · intro k hk
    clear inv j1 j2 hset hcall
    have : ∀ (es : List (OptionEvent V)) (o o' : Str → Option V), o k = o' k → es.foldl OptionEvent.run o k
      = (es.filter (fun e => match e with | .set _ _ => true | .getWavelength => false)).foldl OptionEvent.run o' k := by
      intro es
      induction es with
      | nil => intro o o' h; exact h
      | cons e es ih =>
        intro o o' h
        cases e with
        | getWavelength =>
          rw [List.filter_cons_of_neg (by simp), List.foldl_cons]
          exact ih _ _ ((getWavelength_other o k hk).trans h)
        | set q v =>
          rw [List.filter_cons_of_pos (by simp), List.foldl_cons, List.foldl_cons]
          apply ih
          simp only [OptionEvent.run]
          split_ifs
          · rfl
          · exact h
    exact this es o o rfl

example : (∀ k v, OptionEvent.set k v ∈ [OptionEvent.set "pol".toList 3, .getWavelength] → k ≠ wlKey ∧ k ≠ wlsKey) ∧
    (OptionEvent.getWavelength : OptionEvent ℕ) ∈ [OptionEvent.set "pol".toList 3, .getWavelength] := by
  constructor
  · intro k v h
    simp only [List.mem_cons, OptionEvent.set.injEq, reduceCtorEq, List.not_mem_nil, or_false] at h
    rw [h.1]
    decide
  · simp

/-! ## C72: a lookup table never shares its file with a profile -/

/-- It does, for names that are another name followed by `frontprofmat` or `rearprofmat`. -/
theorem C72_path_clash (sp n : Str) (side : Side) :
    lutPath sp (n ++ side.str ++ "profmat".toList) = matPath sp n side .prof := by
  unfold lutPath matPath
  congr 1
  rw [nc_str, prof_str, profmat_str]
  simp only [List.append_assoc, List.cons_append, List.nil_append]

/-- These are the only clashes between lookup tables and stored matrices (names that are not absolute paths). -/
theorem C72_only_clash_partial (sp n n' : Str) (h : n.head? ≠ some '/') (h' : n'.head? ≠ some '/') (side : Side) (k : Kind)
    (he : lutPath sp n = matPath sp n' side k) : k = .prof ∧ n = n' ++ side.str ++ "profmat".toList :=
  (lutPath_eq_matPath h h').mp he

/-- Consequence: a TMM interface `n` with a profile followed by an RT_TMM interface called `n ++ "frontprofmat"`.  After any
completed run in a fresh folder the lookup-table file of the second holds the absorption profile of the first. -/
theorem C72_lookup_table_overwritten_fails (hp : γ → Bool) (sp : Str) (i j : Iface γ σ)
    (hi : i.method = .TMM) (hip : i.prof = true) (hj : j.method = .RT_TMM) (hrel : i.name.head? ≠ some '/')
    (hname : j.name = i.name ++ Side.front.str ++ "profmat".toList)
    (fs fs' : FS γ) (hfresh : Fresh sp [i, j] fs) (h : Runs hp sp false (allSteps [i, j]) fs fs') :
    ∃ seed, fs' (lutPath sp j.name) = some (.whole (i.compute .front seed none .prof)) := by
  have hne : j.name ≠ i.name := by
    intro e
    have := congrArg List.length (hname.symm.trans e)
    simp [front_str] at this
  have hjrel : j.name.head? ≠ some '/' := by
    rw [hname, List.append_assoc]
    exact head_append hrel (by rw [front_str]; simp)
  have hsteps : allSteps [i, j] = [Step.table j, Step.mats i .front, Step.mats i .rear, Step.mats j .front] := by
    simp [allSteps, tableSteps, matSteps, sidesOf, hi, hj]
  have hlut : lutPath sp j.name = matPath sp i.name .front .prof := by rw [hname]; exact C72_path_clash sp i.name .front
  have hc : i.calcProf = true := by simp [Iface.calcProf, hi, hip]
  rw [hsteps] at h
  obtain _ | ⟨seed0, h0, h⟩ := h
  obtain _ | ⟨seed1, h1, h⟩ := h
  obtain _ | ⟨seed2, h2, h⟩ := h
  obtain _ | ⟨seed3, h3, h⟩ := h
  cases h
  refine ⟨seed1, ?_⟩
  rw [hlut]
  -- the step of `j` writes only files of `j`
  have e3 : ∀ (fs : FS γ) (w), Step.saves hp sp false fs seed3 (.mats j .front) = some w →
      fs.writes w (matPath sp i.name .front .prof) = fs (matPath sp i.name .front .prof) := by
    intro fs w hw
    rcases saves_mats hw with ⟨rfl, _⟩ | ⟨L, rfl, _⟩
    · rfl
    · exact matWrites_other _ _ (fun k he => hne ((matPath_inj hrel hjrel).mp he).1.symm)
  rw [e3 _ _ h3]
  have e2 : ∀ (fs : FS γ) (w), Step.saves hp sp false fs seed2 (.mats i .rear) = some w →
      fs.writes w (matPath sp i.name .front .prof) = fs (matPath sp i.name .front .prof) := by
    intro fs w hw
    rcases saves_mats hw with ⟨rfl, _⟩ | ⟨L, rfl, _⟩
    · rfl
    · exact matWrites_other _ _ (fun k he => by simpa using ((matPath_inj hrel hrel).mp he).2.1)
  rw [e2 _ _ h2]
  rcases saves_mats h1 with ⟨_, hw, _⟩ | ⟨L, rfl, _, hL⟩
  · exfalso
    obtain ⟨x, hx⟩ := hw (matPath sp i.name .front .RT) (by simp [requiredPaths, requiredKinds, hc])
    have : matPath sp i.name .front .RT ≠ lutPath sp j.name := by
      rw [hlut]; intro he; simpa using ((matPath_inj hrel hrel).mp he).2.2
    rcases saves_table h0 with ⟨rfl, _⟩ | rfl
    · rw [writes_nil, (hfresh i (by simp)).2] at hx; simp at hx
    · simp only [writes_cons, writes_nil, FS.write, if_neg this, (hfresh i (by simp)).2] at hx; simp at hx
  · obtain rfl := hL (by simp [hi])
    rw [matWrites_at hrel _ (requiredKinds_nodup _), if_pos (by simp [hc, requiredKinds])]

/-! ## C73: profiles belong to the stored matrices -/

/-- Violated: an overwriting run without `prof_layers` leaves the old profile file in place, and a later run with
`prof_layers` and `overwrite=False` accepts that old profile together with the new matrices. -/
theorem C73_stale_profile_fails (hp : γ → Bool) (sp : Str) (i i' : Iface γ σ) (hname : i'.name = i.name)
    (hi : i.method = .TMM) (hi' : i'.method = .TMM) (hpr : i.prof = false) (hpr' : i'.prof = true)
    (hrel : i.name.head? ≠ some '/') (fs fs₁ fs₂ : FS γ) (old : γ)
    (hold : fs (matPath sp i.name .front .prof) = some (.whole old))
    (h₁ : Runs hp sp true (allSteps [i]) fs fs₁) (h₂ : Runs hp sp false (allSteps [i']) fs₁ fs₂) :
    fs₂ (matPath sp i'.name .front .prof) = some (.whole old) ∧
    ∃ seed, fs₂ (matPath sp i'.name .front .RT) = some (.whole (i.compute .front seed none .RT)) := by
  have hc : i.calcProf = false := by simp [Iface.calcProf, hi, hpr]
  have hc' : i'.calcProf = true := by simp [Iface.calcProf, hi', hpr']
  have hsteps : ∀ i : Iface γ σ, i.method = .TMM → allSteps [i] = [Step.mats i .front] := by
    intro i hi
    simp [allSteps, tableSteps, matSteps, sidesOf, hi]
  rw [hsteps i hi] at h₁
  obtain _ | ⟨seed1, h1, h⟩ := h₁
  cases h
  rcases saves_mats h1 with ⟨_, _, hf⟩ | ⟨L, rfl, _, hL⟩
  · simp at hf
  · obtain rfl := hL (by simp [hi])
    have hat := matWrites_at (sp := sp) (side := .front) hrel (i.compute .front seed1 none) (requiredKinds_nodup i.calcProf) fs
    have hsame : fs₂ = fs.writes (matWrites sp i .front (i.compute .front seed1 none) (requiredKinds i.calcProf)) := by
      apply runs_idle hp _ h₂
      rw [hsteps i' hi']
      intro s hs p hpm
      simp only [List.mem_singleton] at hs
      subst hs
      simp only [stepFiles, requiredPaths, List.mem_map, hname] at hpm
      obtain ⟨k, hk, rfl⟩ := hpm
      unfold Whole
      rw [hat k]
      split_ifs with hk'
      · exact ⟨_, rfl⟩
      · cases k
        · simp [hc, requiredKinds] at hk'
        · simp [hc, requiredKinds] at hk'
        · exact ⟨_, hold⟩
    rw [hsame, hname, hat, hat]
    refine ⟨?_, seed1, ?_⟩
    · rw [if_neg (by simp [hc, requiredKinds])]; exact hold
    · rw [if_pos (by simp [hc, requiredKinds])]

/-! ## C74: requesting profiles later -/

/-- Violated: a lookup table made without profile layers is kept when profile layers are requested later
(`overwrite=False`), and `process_structure` then cannot complete: the profile coefficients are missing. -/
theorem C74_table_without_profile_fails (hp : γ → Bool) (sp : Str) (i : Iface γ σ) (hi : i.method = .RT_TMM) (hpr : i.prof = true)
    (fs : FS γ) (x : γ) (hx : hp x = false) (hlut : fs (lutPath sp i.name) = some (.whole x))
    (hno : ∀ k, fs (matPath sp i.name .front k) = none) :
    ¬ ∃ fs', Runs hp sp false (allSteps [i]) fs fs' := by
  rintro ⟨fs', h⟩
  have hsteps : allSteps [i] = [Step.table i, Step.mats i .front] := by
    simp [allSteps, tableSteps, matSteps, sidesOf, hi]
  rw [hsteps] at h
  obtain _ | ⟨seed1, h1, h⟩ := h
  obtain _ | ⟨seed2, h2, h⟩ := h
  rw [saves_nil hp seed1 (by
    intro p hp'
    simp only [stepFiles, List.mem_singleton] at hp'
    subst hp'
    exact ⟨_, hlut⟩)] at h1
  simp only [Option.some.injEq] at h1
  subst h1
  have hc : i.calcProf = true := by simp [Iface.calcProf, hi, hpr]
  simp [Step.saves, getMatricesOrPaths, writes_nil, hno, hc, hi, FS.load, hlut, hx] at h2

/-- The whole history: in a fresh folder an RT_TMM interface is calculated without `prof_layers`; then no run for the same interface with `prof_layers` (and `overwrite=False`) completes. -/
theorem C74_history_fails (hp : γ → Bool) (sp : Str) (i i' : Iface γ σ) (hname : i'.name = i.name) (hi : i.method = .RT_TMM) (hi' : i'.method = .RT_TMM)
    (hpr : i.prof = false) (hpr' : i'.prof = true) (hrel : i.name.head? ≠ some '/') (hlut : hp i.lut = false)
    (fs fs₁ : FS γ) (hfresh : Fresh sp [i] fs) (h₁ : Runs hp sp false (allSteps [i]) fs fs₁) :
    ¬ ∃ fs₂, Runs hp sp false (allSteps [i']) fs₁ fs₂ := by
  obtain ⟨hf1, hf2⟩ := hfresh i (by simp)
  have hc : i.calcProf = false := by simp [Iface.calcProf, hi, hpr]
  have hc' : i'.calcProf = true := by simp [Iface.calcProf, hi', hpr']
  have hsteps : ∀ i : Iface γ σ, i.method = .RT_TMM → allSteps [i] = [Step.table i, Step.mats i .front] := by
    intro i hi
    simp [allSteps, tableSteps, matSteps, sidesOf, hi]
  rw [hsteps i hi] at h₁
  obtain _ | ⟨seed1, h1, h⟩ := h₁
  obtain _ | ⟨seed2, h2, h⟩ := h
  cases h
  simp only [Step.saves, hf1, Option.isSome_none, Bool.false_and, Bool.false_eq_true, if_false, Option.some.injEq] at h1
  subst h1
  have hne : ∀ k, lutPath sp i.name ≠ matPath sp i.name .front k := by
    intro k h
    have := congrArg List.length ((lutPath_eq_matPath hrel hrel).mp h).2
    simp [Side.str] at this
  have hpre : ∀ k, fs.writes [(lutPath sp i.name, i.lut)] (matPath sp i.name .front k) = none := by
    intro k
    simp only [FS.writes, List.foldl_cons, List.foldl_nil, FS.write]
    rw [if_neg (hne k).symm]
    exact hf2 _ k
  rcases saves_mats h2 with ⟨_, hw, _⟩ | ⟨L, rfl, _, _⟩
  · obtain ⟨x, hx⟩ := hw (matPath sp i.name .front .RT) (by simp [requiredPaths, requiredKinds, hc])
    rw [hpre] at hx
    simp at hx
  · have hat := matWrites_at (sp := sp) (side := .front) hrel (i.compute .front seed2 L) (requiredKinds_nodup i.calcProf) (fs.writes [(lutPath sp i.name, i.lut)])
    rintro ⟨fs₂, h⟩
    have hl : ((fs.writes [(lutPath sp i.name, i.lut)]).writes (matWrites sp i .front (i.compute .front seed2 L) (requiredKinds i.calcProf))) (lutPath sp i.name)
        = some (.whole i.lut) := by
      rw [hc]
      simp only [matWrites, requiredKinds, Bool.false_eq_true, if_false, List.map_cons, List.map_nil, FS.writes, List.foldl_cons, List.foldl_nil, FS.write]
      rw [if_neg (hne _), if_neg (hne _), if_pos trivial]
    generalize (fs.writes [(lutPath sp i.name, i.lut)]).writes (matWrites sp i .front (i.compute .front seed2 L) (requiredKinds i.calcProf)) = fsB at h hat hl
    have hRT := hat .RT
    have hA := hat .A
    have hP := hat .prof
    rw [if_pos (by simp [hc, requiredKinds])] at hRT hA
    rw [if_neg (by simp [hc, requiredKinds]), hpre] at hP
    rw [hsteps i' hi'] at h
    obtain _ | ⟨seed3, h3, h⟩ := h
    obtain _ | ⟨seed4, h4, h⟩ := h
    simp only [Step.saves, hname, hl, FS.load, Option.isSome_some, Bool.not_false, Bool.and_self, if_true, Option.map_some, Option.some.injEq] at h3
    subst h3
    simp [Step.saves, getMatricesOrPaths, writes_nil, hname, hRT, hA, hP, hc', hi', FS.load, hl, hlut] at h4

/-- What holds: if every lookup table on disk is the right one or absent, requesting profiles goes through; in particular after
deleting the table (or in a fresh folder). -/
theorem C74_fresh_table_partial [Nonempty σ] (hp : γ → Bool) (sp : Str) (l : List (Iface γ σ)) (hl : NamesOk l) (hT : TablesOk hp l)
    (fs : FS γ) (hlut : ∀ i ∈ l, i.method = .RT_TMM → fs (lutPath sp i.name) = none ∨ fs (lutPath sp i.name) = some (.whole i.lut))
    (hno : ∀ i ∈ l, ∀ side k, fs (matPath sp i.name side k) = none) :
    ∃ fs', Runs hp sp false (allSteps l) fs fs' :=
  all_runs_exists hl (fun i hi => ⟨hlut i hi, fun side => Or.inr ⟨hno i hi _ _, Or.inl (hno i hi _ _)⟩⟩) hT

/-! ## The hypotheses are satisfiable -/

/-- A textured RT_TMM front surface with profile, an RCWA surface and a mirror. -/
def exIfaces : List (Iface ℕ ℕ) :=
  [⟨"pyr".toList, .RT_TMM, true, 7, fun s seed L k => 100 + seed⟩,
   ⟨"grating".toList, .RCWA, false, 0, fun s seed L k => 200⟩,
   ⟨"mirror".toList, .Mirror, false, 0, fun s seed L k => 300⟩]

theorem exIfaces_names : NamesOk exIfaces := by
  refine ⟨by decide, by decide, ?_⟩
  intro i hi j hj side hm h
  have hl := congrArg List.length h
  simp only [exIfaces, List.mem_cons, List.not_mem_nil, or_false] at hi
  rcases hi with rfl | rfl | rfl
  · rw [profmat_str] at hl
    simp at hl
    omega
  · simp at hm
  · simp at hm

example : Loadable exIfaces := ⟨by decide, by decide⟩
example : TablesOk (fun n => decide (n = 7)) exIfaces := by unfold TablesOk; decide
example : Fresh "/r".toList exIfaces (fun _ => none) := fun _ _ => ⟨rfl, fun _ _ => rfl⟩
example : ∃ fs' : FS ℕ, Runs (fun n => decide (n = 7)) "/r".toList false (allSteps exIfaces) (fun _ => none) fs' :=
  C74_fresh_table_partial _ _ _ exIfaces_names (by unfold TablesOk; decide) _ (fun _ _ _ => Or.inl rfl) (fun _ _ _ _ => rfl)

/-- An RT_TMM interface as in `C74_history_fails`: a first run in a fresh folder without `prof_layers`. -/
def exTable (prof : Bool) : Iface ℕ ℕ := { name := "t".toList, method := .RT_TMM, prof := prof, lut := 3, compute := fun _ s _ _ => s }
example : (∃ fs₁ : FS ℕ, Runs (fun n => decide (n = 7)) "/r".toList false (allSteps [exTable false]) (fun _ => none) fs₁) ∧
    (exTable true).name = (exTable false).name ∧ (exTable false).name.head? ≠ some '/' ∧ decide ((exTable false).lut = 7) = false ∧
    Fresh "/r".toList [exTable false] (fun _ => none) := by
  refine ⟨C74_fresh_table_partial _ _ _ ⟨by decide, by decide, ?_⟩ (by unfold TablesOk; decide) _ (fun _ _ _ => Or.inl rfl) (fun _ _ _ _ => rfl), rfl, by decide, by decide, fun _ _ => ⟨rfl, fun _ _ => rfl⟩⟩
  intro i hi j hj s _ h
  simp only [List.mem_singleton] at hi hj
  subst hi; subst hj
  have := congrArg List.length h
  simp [Side.str] at this

end Rayflare
