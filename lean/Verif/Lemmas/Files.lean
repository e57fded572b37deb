import Verif.Model.Files

/-! # Helper lemmas about stored results -/

namespace Rayflare.Lemmas

open Rayflare.Model

variable {γ σ : Type*}

/-- The file exists and is complete. -/
def Whole (fs : FS γ) (p : Str) : Prop := ∃ x, fs p = some (.whole x)

theorem load_eq_some {fs : FS γ} {p : Str} {x : γ} : fs.load p = some x ↔ fs p = some (.whole x) := by
  unfold FS.load
  rcases h : fs p with _ | ⟨y⟩ | _ <;> simp

theorem load_isSome {fs : FS γ} {p : Str} : (∃ x, fs.load p = some x) ↔ Whole fs p := by
  simp only [load_eq_some, Whole]

theorem writes_nil (fs : FS γ) : fs.writes [] = fs := rfl

theorem writes_cons (fs : FS γ) (e : Str × γ) (l : List (Str × γ)) :
    fs.writes (e :: l) = (fs.write e.1 (.whole e.2)).writes l := rfl

theorem writes_of_not_mem {fs : FS γ} {q : Str} : ∀ {l : List (Str × γ)}, q ∉ l.map Prod.fst →
    fs.writes l q = fs q := by
  intro l
  induction l generalizing fs with
  | nil => intro _; rfl
  | cons e l ih =>
    intro h
    simp only [List.map_cons, List.mem_cons, not_or] at h
    rw [writes_cons, ih h.2, FS.write, if_neg h.1]

theorem whole_writes {fs : FS γ} {q : Str} (l : List (Str × γ)) (h : Whole fs q) : Whole (fs.writes l) q := by
  induction l generalizing fs with
  | nil => exact h
  | cons e l ih =>
    rw [writes_cons]
    apply ih
    by_cases hq : q = e.1
    · exact ⟨e.2, by simp [FS.write, hq]⟩
    · obtain ⟨x, hx⟩ := h
      exact ⟨x, by simp [FS.write, hq, hx]⟩

theorem whole_writes_of_mem {fs : FS γ} {q : Str} {l : List (Str × γ)} (h : q ∈ l.map Prod.fst) :
    Whole (fs.writes l) q := by
  induction l generalizing fs with
  | nil => simp at h
  | cons e l ih =>
    rw [writes_cons]
    simp only [List.map_cons, List.mem_cons] at h
    rcases h with rfl | h
    · exact whole_writes l ⟨e.2, by simp [FS.write]⟩
    · exact ih h

theorem writes_get {fs : FS γ} {l : List (Str × γ)} (hn : (l.map Prod.fst).Nodup) {e : Str × γ} (he : e ∈ l) :
    fs.writes l e.1 = some (.whole e.2) := by
  induction l generalizing fs with
  | nil => simp at he
  | cons f l ih =>
    simp only [List.map_cons, List.nodup_cons] at hn
    rw [writes_cons]
    rcases List.mem_cons.mp he with rfl | h
    · rw [writes_of_not_mem hn.1]; simp [FS.write]
    · exact ih hn.2 h

/-- The files a step is responsible for. -/
def stepFiles (sp : Str) : Step γ σ → List Str
  | .table i => [lutPath sp i.name]
  | .mats i side => requiredPaths sp i.name side i.calcProf

theorem getMats_existing_or {fs : FS γ} {sp name : Str} {side : Side} {prof ow : Bool} :
    (∃ ms, getMatricesOrPaths fs sp name side prof ow = .existing ms ∧
      ∀ p ∈ requiredPaths sp name side prof, Whole fs p) ∨
    getMatricesOrPaths fs sp name side prof ow = .loadError ∨
    getMatricesOrPaths fs sp name side prof ow = .paths (requiredPaths sp name side prof) := by
  unfold getMatricesOrPaths requiredPaths requiredKinds
  cases prof <;> simp only [Bool.false_eq_true, if_false, if_true, List.map_cons, List.map_nil]
  · split_ifs with h
    · rcases h1 : fs.load (matPath sp name side .RT) with _ | x <;>
      rcases h2 : fs.load (matPath sp name side .A) with _ | y
      · simp
      · simp
      · simp
      · left
        refine ⟨_, rfl, ?_⟩
        intro p hp
        simp only [List.mem_cons, List.not_mem_nil, or_false] at hp
        rcases hp with rfl | rfl
        · exact load_isSome.mp ⟨_, h1⟩
        · exact load_isSome.mp ⟨_, h2⟩
    · simp
  · split_ifs with h h'
    · rcases h1 : fs.load (matPath sp name side .RT) with _ | x <;>
      rcases h2 : fs.load (matPath sp name side .A) with _ | y <;>
      rcases h3 : fs.load (matPath sp name side .prof) with _ | z <;> simp
      exact ⟨load_isSome.mp ⟨_, h1⟩, load_isSome.mp ⟨_, h2⟩, load_isSome.mp ⟨_, h3⟩⟩
    · rcases h1 : fs.load (matPath sp name side .RT) with _ | x <;>
      rcases h2 : fs.load (matPath sp name side .A) with _ | y <;> simp
    · simp

theorem getMats_of_whole {fs : FS γ} {sp name : Str} {side : Side} {prof : Bool}
    (h : ∀ p ∈ requiredPaths sp name side prof, Whole fs p) :
    ∃ ms, getMatricesOrPaths fs sp name side prof false = .existing ms := by
  have h1 : Whole fs (matPath sp name side .RT) := h _ (by cases prof <;> simp [requiredPaths, requiredKinds])
  have h2 : Whole fs (matPath sp name side .A) := h _ (by cases prof <;> simp [requiredPaths, requiredKinds])
  obtain ⟨x, hx⟩ := h1
  obtain ⟨y, hy⟩ := h2
  unfold getMatricesOrPaths
  cases prof
  · simp [hx, hy, FS.load]
  · obtain ⟨z, hz⟩ : Whole fs (matPath sp name side .prof) := h _ (by simp [requiredPaths, requiredKinds])
    simp [hx, hy, hz, FS.load]

theorem zip_fst (a : List Str) (b : List γ) (h : a.length = b.length) : (a.zip b).map Prod.fst = a :=
  List.map_fst_zip (by omega)

theorem saves_fst (hp : γ → Bool) {sp : Str} {ow : Bool} {fs : FS γ} {seed : σ} {s : Step γ σ} {w : List (Str × γ)}
    (h : Step.saves hp sp ow fs seed s = some w) :
    (w = [] ∧ ∀ p ∈ stepFiles sp s, Whole fs p) ∨ w.map Prod.fst = stepFiles sp s := by
  cases s with
  | table i =>
    unfold Step.saves at h
    simp only at h
    split_ifs at h with h1
    · left
      simp only [Option.map_eq_some_iff] at h
      obtain ⟨x, hx, rfl⟩ := h
      refine ⟨rfl, ?_⟩
      intro p hp
      simp only [stepFiles, List.mem_singleton] at hp
      subst hp
      exact load_isSome.mp ⟨x, hx⟩
    · right
      simp only [Option.some.injEq] at h
      subst h
      rfl
  | mats i side =>
    unfold Step.saves at h
    simp only at h
    rcases getMats_existing_or (fs := fs) (sp := sp) (name := i.name) (side := side) (prof := i.calcProf) (ow := ow)
      with ⟨ms, h1, h2⟩ | h1 | h1
    · rw [h1] at h
      simp only [Option.some.injEq] at h
      exact Or.inl ⟨h.symm, h2⟩
    · rw [h1] at h; simp at h
    · rw [h1] at h
      right
      simp only at h
      have key : ∀ L, ((requiredPaths sp i.name side i.calcProf).zip
          ((requiredKinds i.calcProf).map (i.compute side seed L))).map Prod.fst
          = stepFiles sp (Step.mats i side) := by
        intro L
        exact zip_fst _ _ (by simp [requiredPaths])
      split_ifs at h with h3
      · obtain ⟨L, _, hL⟩ := Option.bind_eq_some_iff.mp h
        split_ifs at hL
        simp only [Option.some.injEq] at hL
        subst hL
        exact key _
      · simp only [Option.some.injEq] at h
        subst h
        exact key _

/-- After a completed step all its files are there. -/
theorem files_after (hp : γ → Bool) {sp : Str} {ow : Bool} {fs : FS γ} {seed : σ} {s : Step γ σ} {w : List (Str × γ)}
    (h : Step.saves hp sp ow fs seed s = some w) : ∀ p ∈ stepFiles sp s, Whole (fs.writes w) p := by
  intro p hpm
  rcases saves_fst hp h with ⟨rfl, h'⟩ | h'
  · exact h' p hpm
  · exact whole_writes_of_mem (h' ▸ hpm)

/-- A step whose files are all there saves nothing (`overwrite=False`). -/
theorem saves_nil (hp : γ → Bool) {sp : Str} {fs : FS γ} (seed : σ) {s : Step γ σ}
    (h : ∀ p ∈ stepFiles sp s, Whole fs p) : Step.saves hp sp false fs seed s = some [] := by
  cases s with
  | table i =>
    obtain ⟨x, hx⟩ := h _ (List.mem_singleton.mpr rfl)
    simp [Step.saves, hx, FS.load]
  | mats i side =>
    obtain ⟨ms, hms⟩ := getMats_of_whole (sp := sp) (name := i.name) (side := side) (prof := i.calcProf) h
    simp [Step.saves, hms]

theorem runs_whole (hp : γ → Bool) {sp : Str} {ow : Bool} {ss : List (Step γ σ)} {fs fs' : FS γ}
    (h : Runs hp sp ow ss fs fs') {p : Str} (hw : Whole fs p) : Whole fs' p := by
  induction h with
  | nil => exact hw
  | cons seed hs _ ih => exact ih (whole_writes _ hw)

theorem runs_files (hp : γ → Bool) {sp : Str} {ow : Bool} {ss : List (Step γ σ)} {fs fs' : FS γ}
    (h : Runs hp sp ow ss fs fs') : ∀ s ∈ ss, ∀ p ∈ stepFiles sp s, Whole fs' p := by
  induction h with
  | nil => simp
  | @cons s ss fs w fs' seed hs ht ih =>
    intro t ht'
    rcases List.mem_cons.mp ht' with rfl | ht'
    · exact fun p hpm => runs_whole hp ht (files_after hp hs p hpm)
    · exact ih t ht'

theorem runs_idle (hp : γ → Bool) {sp : Str} {ss : List (Step γ σ)} {fs fs' : FS γ}
    (hf : ∀ s ∈ ss, ∀ p ∈ stepFiles sp s, Whole fs p) (h : Runs hp sp false ss fs fs') : fs' = fs := by
  induction h with
  | nil => rfl
  | @cons s ss fs w fs' seed hs ht ih =>
    rw [saves_nil hp seed (hf s (by simp))] at hs
    simp only [Option.some.injEq] at hs
    subst hs
    exact ih (fun t ht' => hf t (by simp [ht']))

theorem runs_idle_exists [Nonempty σ] (hp : γ → Bool) {sp : Str} {ss : List (Step γ σ)} {fs : FS γ}
    (hf : ∀ s ∈ ss, ∀ p ∈ stepFiles sp s, Whole fs p) : Runs hp sp false ss fs fs := by
  obtain ⟨seed⟩ := ‹Nonempty σ›
  induction ss with
  | nil => exact .nil fs
  | cons s ss ih =>
    exact .cons seed (saves_nil hp seed (hf s (by simp))) (ih (fun t ht => hf t (by simp [ht])))

/-- Files of no step are left alone. -/
theorem runs_other (hp : γ → Bool) {sp : Str} {ow : Bool} {ss : List (Step γ σ)} {fs fs' : FS γ}
    (h : Runs hp sp ow ss fs fs') {p : Str} (hp' : ∀ s ∈ ss, p ∉ stepFiles sp s) : fs' p = fs p := by
  induction h with
  | nil => rfl
  | @cons s ss fs w fs' seed hs ht ih =>
    rw [ih (fun t ht => hp' t (by simp [ht]))]
    rcases saves_fst hp hs with ⟨rfl, _⟩ | h'
    · rfl
    · exact writes_of_not_mem (h' ▸ hp' s (by simp))

/-! ## Paths -/

theorem pathJoin_inj {a b b' : Str} (h : b.head? ≠ some '/') (h' : b'.head? ≠ some '/') :
    pathJoin a b = pathJoin a b' ↔ b = b' := by
  unfold pathJoin
  rw [if_neg h, if_neg h']
  split_ifs <;> simp

theorem front_str : Side.str .front = ['f', 'r', 'o', 'n', 't'] := rfl
theorem rear_str : Side.str .rear = ['r', 'e', 'a', 'r'] := rfl
theorem RT_str : Kind.str .RT = ['R', 'T', '.', 'n', 'p', 'z'] := rfl
theorem A_str : Kind.str .A = ['A', '.', 'n', 'p', 'z'] := rfl
theorem prof_str : Kind.str .prof = ['p', 'r', 'o', 'f', 'm', 'a', 't', '.', 'n', 'c'] := rfl
theorem nc_str : ".nc".toList = ['.', 'n', 'c'] := rfl
theorem profmat_str : "profmat".toList = ['p', 'r', 'o', 'f', 'm', 'a', 't'] := rfl

theorem suffix_inj {n n' : Str} {s s' : Side} {k k' : Kind} :
    n ++ s.str ++ k.str = n' ++ s'.str ++ k'.str ↔ n = n' ∧ s = s' ∧ k = k' := by
  constructor
  · intro h
    have h := congrArg List.reverse h
    simp only [List.reverse_append] at h
    have hn : n.reverse = n'.reverse → n = n' := fun e => List.reverse_injective e
    generalize n.reverse = a at *
    generalize n'.reverse = b at *
    cases s <;> cases s' <;> cases k <;> cases k' <;>
      simp only [front_str, rear_str, RT_str, A_str, prof_str, List.reverse_cons, List.reverse_nil, List.nil_append,
        List.cons_append, List.cons.injEq, Char.reduceEq, false_and, and_false, true_and] at h <;>
      exact ⟨hn h, rfl, rfl⟩
  · rintro ⟨rfl, rfl, rfl⟩; rfl

theorem head_append {n m : Str} (h : n.head? ≠ some '/') (hm : m.head? ≠ some '/') : (n ++ m).head? ≠ some '/' := by
  cases n with
  | nil => simpa using hm
  | cons c n => simpa using h

theorem name_head {n : Str} (h : n.head? ≠ some '/') (s : Side) (k : Kind) :
    (n ++ s.str ++ k.str).head? ≠ some '/' := by
  rw [List.append_assoc]
  apply head_append h
  cases s <;> simp [Side.str]

theorem lut_head {n : Str} (h : n.head? ≠ some '/') : (n ++ ".nc".toList).head? ≠ some '/' := by
  apply head_append h
  simp

theorem matPath_inj {sp n n' : Str} (h : n.head? ≠ some '/') (h' : n'.head? ≠ some '/') {s s' : Side} {k k' : Kind} :
    matPath sp n s k = matPath sp n' s' k' ↔ n = n' ∧ s = s' ∧ k = k' := by
  unfold matPath
  rw [pathJoin_inj (name_head h s k) (name_head h' s' k'), suffix_inj]

theorem lutPath_inj {sp n n' : Str} (h : n.head? ≠ some '/') (h' : n'.head? ≠ some '/') :
    lutPath sp n = lutPath sp n' ↔ n = n' := by
  unfold lutPath
  rw [pathJoin_inj (lut_head h) (lut_head h')]; simp

theorem lutPath_eq_matPath {sp n n' : Str} (h : n.head? ≠ some '/') (h' : n'.head? ≠ some '/') {s : Side} {k : Kind} :
    lutPath sp n = matPath sp n' s k ↔ k = .prof ∧ n = n' ++ s.str ++ "profmat".toList := by
  unfold lutPath matPath
  rw [pathJoin_inj (lut_head h) (name_head h' s k)]
  constructor
  · intro e
    have e := congrArg List.reverse e
    cases k
    · simp only [nc_str, RT_str, List.reverse_append, List.reverse_cons, List.reverse_nil, List.nil_append,
        List.cons_append, List.cons.injEq, Char.reduceEq, false_and] at e
    · simp only [nc_str, A_str, List.reverse_append, List.reverse_cons, List.reverse_nil, List.nil_append,
        List.cons_append, List.cons.injEq, Char.reduceEq, false_and] at e
    · refine ⟨rfl, ?_⟩
      apply List.reverse_injective
      simp only [nc_str, prof_str, profmat_str, List.reverse_append, List.reverse_cons, List.reverse_nil, List.nil_append,
        List.cons_append, List.cons.injEq, true_and] at e ⊢
      exact e
  · rintro ⟨rfl, rfl⟩
    rw [nc_str, prof_str, profmat_str]
    simp only [List.append_assoc, List.cons_append, List.nil_append]

end Rayflare.Lemmas
