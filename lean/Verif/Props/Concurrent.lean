import Verif.Props.SharedFolder
import Mathlib.Data.Fintype.BigOperators
import Mathlib.Algebra.BigOperators.Group.Finset.Basic
import Mathlib.Algebra.Order.BigOperators.Group.Finset

/-!
# Property C137: several runs of `process_structure` in one project folder at the same time
-/

namespace Rayflare

open Rayflare.Model Rayflare.Spec Rayflare.Lemmas

variable {γ σ ι : Type*}

/-- `x` is a right content of the file `p`: the lookup table of the interface the file belongs to, or what is computed for this interface and side. -/
inductive Right (sp : Str) (U : List (Iface γ σ)) : Str → γ → Prop
  | table {i} (hi : i ∈ U) (hm : i.method = .RT_TMM) : Right sp U (lutPath sp i.name) i.lut
  | mat {i} (hi : i ∈ U) (side : Side) (seed : σ) (k : Kind) : Right sp U (matPath sp i.name side k) (i.compute side seed (ownTable i) k)

theorem right_lut {sp : Str} {U : List (Iface γ σ)} (hU : NamesOk U) {i : Iface γ σ} (hi : i ∈ U) (hm : i.method = .RT_TMM) {y : γ}
    (hy : Right sp U (lutPath sp i.name) y) : y = i.lut := by
  generalize hq : lutPath sp i.name = q at hy
  cases hy with
  | @table j hj hm' => rw [lut_inj hU hi hj hq]
  | @mat j hj side seed k => exact absurd hq (lut_ne_mat hU hi hj hm)

theorem right_mat {sp : Str} {U : List (Iface γ σ)} (hU : NamesOk U) {i : Iface γ σ} (hi : i ∈ U) {side : Side} {k : Kind} {y : γ}
    (hy : Right sp U (matPath sp i.name side k) y) : ∃ seed, y = i.compute side seed (ownTable i) k := by
  generalize hq : matPath sp i.name side k = q at hy
  cases hy with
  | @table j hj hm' => exact absurd hq.symm (lut_ne_mat hU hj hi hm')
  | @mat j hj side' seed k' =>
    obtain ⟨rfl, rfl, rfl⟩ := mat_inj hU hi hj hq
    exact ⟨seed, rfl⟩

def isTable : Step γ σ → Bool
  | .table _ => true
  | .mats _ _ => false

theorem tables_first (l : List (Iface γ σ)) : (allSteps l).Pairwise fun a b => isTable b = true → isTable a = true := by
  rw [allSteps, List.pairwise_append]
  refine ⟨List.pairwise_iff_forall_sublist.mpr ?_, List.pairwise_iff_forall_sublist.mpr ?_, ?_⟩
  · intro a b hs _
    obtain ⟨i, _, rfl⟩ := List.mem_map.mp (hs.subset (by simp : a ∈ [a, b]))
    rfl
  · intro a b hs h
    obtain ⟨i, s, rfl⟩ := matSteps_only (hs.subset (by simp : b ∈ [a, b]))
    simp [isTable] at h
  · intro a ha b hb h
    obtain ⟨i, s, rfl⟩ := matSteps_only hb
    simp [isTable] at h

/-- What holds at all times. -/
structure Sound (sp : Str) (U : List (Iface γ σ)) (ls : ι → List (Iface γ σ)) (w : World ι γ σ) : Prop where
  disk : ∀ p y, Right sp U p y → w.fs p = none ∨ ∃ x, Right sp U p x ∧ w.fs p = some (.whole x)
  pending : ∀ n, ∀ e ∈ (w.procs n).pending, Right sp U e.1 e.2
  suffix : ∀ n, (w.procs n).todo <:+ allSteps (ls n)
  done : ∀ n, ∀ s ∈ allSteps (ls n), s ∈ (w.procs n).todo ∨ ∀ p ∈ stepFiles sp s, Whole w.fs p ∨ p ∈ (w.procs n).pending.map Prod.fst

section
variable {hp : γ → Bool} {sp : Str} {U : List (Iface γ σ)} {ls : ι → List (Iface γ σ)} {w : World ι γ σ}

theorem Sound.whole (h : Sound sp U ls w) {p : Str} {y : γ} (hr : Right sp U p y) (hw : Whole w.fs p) :
    ∃ x, Right sp U p x ∧ w.fs p = some (.whole x) := by
  obtain ⟨x, hx⟩ := hw
  rcases h.disk p y hr with h' | h'
  · rw [h'] at hx; simp at hx
  · exact h'

/-- When a process comes to the matrices of an interface, the lookup table is there. -/
theorem Sound.table (hU : NamesOk U) (h : Sound sp U ls w) (hls : ∀ n, ls n ⊆ U) {n : ι} {i : Iface γ σ} {side : Side} {ss : List (Step γ σ)}
    (ht : (w.procs n).todo = .mats i side :: ss) (hpend : (w.procs n).pending = []) (hm : i.method = .RT_TMM) :
    w.fs (lutPath sp i.name) = some (.whole i.lut) := by
  have hsuf := h.suffix n
  rw [ht] at hsuf
  have hi : i ∈ ls n := mem_of_mats (mats_mem_all.mp (hsuf.subset (List.mem_cons_self (a := Step.mats i side))))
  rcases h.done n (.table i) (table_mem.mpr ⟨hi, hm⟩) with hin | hin
  · exfalso
    rw [ht] at hin
    have hpw := (tables_first (ls n)).sublist hsuf.sublist
    rw [List.pairwise_cons] at hpw
    rcases List.mem_cons.mp hin with e | hin
    · simp at e
    · have := hpw.1 _ hin rfl
      simp [isTable] at this
  · obtain ⟨x, hr, hx⟩ := h.whole (.table (hls n hi) hm) (by simpa [hpend] using hin (lutPath sp i.name) (by simp [stepFiles]))
    rw [hx, right_lut hU (hls n hi) hm hr]

theorem not_torn_getMats {fs : FS γ} {name : Str} {side : Side} {prof ow : Bool}
    (h : ∀ k, fs (matPath sp name side k) ≠ some .torn) : getMatricesOrPaths fs sp name side prof ow ≠ .loadError := by
  have hRT := h .RT
  have hA := h .A
  have hP := h .prof
  unfold getMatricesOrPaths FS.load
  rcases h1 : fs (matPath sp name side .RT) with _ | ⟨x⟩ | _ <;>
  rcases h2 : fs (matPath sp name side .A) with _ | ⟨y⟩ | _ <;>
  rcases h3 : fs (matPath sp name side .prof) with _ | ⟨z⟩ | _ <;>
  cases prof <;> cases ow <;> simp_all

/-- No process raises. -/
theorem Sound.saves (hU : NamesOk U) (h : Sound sp U ls w) (hls : ∀ n, ls n ⊆ U) (hT : TablesOk hp U) {n : ι} {s : Step γ σ} {ss : List (Step γ σ)}
    (ht : (w.procs n).todo = s :: ss) (hpend : (w.procs n).pending = []) (ow : Bool) (seed : σ) :
    ∃ l, Step.saves hp sp ow w.fs seed s = some l := by
  have hs : s ∈ allSteps (ls n) := (h.suffix n).subset (by simp [ht])
  cases s with
  | table i =>
    obtain ⟨hi, hm⟩ := table_mem.mp hs
    rcases h.disk _ _ (.table (hls n hi) hm) with h' | ⟨x, _, h'⟩ <;> cases ow <;> simp [Step.saves, h', FS.load]
  | mats i side =>
    have hi := hls n (mem_of_mats (mats_mem_all.mp hs))
    have hnt : getMatricesOrPaths w.fs sp i.name side i.calcProf ow ≠ .loadError := by
      refine not_torn_getMats fun k => ?_
      rcases h.disk _ _ (.mat hi side seed k) with h' | ⟨x, _, h'⟩ <;> simp [h']
    rcases getMats_existing_or (fs := w.fs) (sp := sp) (name := i.name) (side := side) (prof := i.calcProf) (ow := ow) with ⟨ms, h1, _⟩ | h1 | h1
    · exact ⟨[], by simp [Step.saves, h1]⟩
    · exact absurd h1 hnt
    · simp only [Step.saves, h1]
      split_ifs with hm
      · rw [load_eq_some.mpr (h.table hU hls ht hpend hm)]
        have : (i.calcProf && !hp i.lut) = false := by
          cases hpr : i.prof
          · simp [Iface.calcProf, hm, hpr]
          · simp [hT i hi hm hpr]
        simp only [Option.bind_some]
        rw [this]
        exact ⟨_, rfl⟩
      · exact ⟨_, rfl⟩

theorem Sound.next [DecidableEq ι] (hU : NamesOk U) (hls : ∀ n, ls n ⊆ U) {w' : World ι γ σ} (h : Sound sp U ls w)
    (hn : World.Next hp sp w w') : Sound sp U ls w' := by
  obtain ⟨n, p', hact, hprocs⟩ := hn
  obtain ⟨fs', procs'⟩ := w'
  simp only at hact hprocs
  subst hprocs
  generalize hp0 : w.procs n = p0 at hact
  cases hact with
  | @look ow s ss l seed hsave =>
    have ht : (w.procs n).todo = s :: ss := by rw [hp0]
    have hpend : (w.procs n).pending = [] := by rw [hp0]
    have hs : s ∈ allSteps (ls n) := (h.suffix n).subset (by simp [ht])
    refine ⟨h.disk, fun m => ?_, fun m => ?_, fun m => ?_⟩
    · by_cases hmn : m = n
      · subst hmn
        simp only [Function.update_self]
        intro e he
        cases s with
        | table i =>
          obtain ⟨hi, hm⟩ := table_mem.mp hs
          rcases saves_table hsave with ⟨rfl, _⟩ | rfl
          · simp at he
          · simp only [List.mem_singleton] at he
            subst he
            exact .table (hls m hi) hm
        | mats i side =>
          have hi := mem_of_mats (mats_mem_all.mp hs)
          rcases saves_mats hsave with ⟨rfl, _⟩ | ⟨L, rfl, h1, h2⟩
          · simp at he
          · rw [ownTable_eq (fun hm => h.table hU hls ht hpend hm) h1 h2] at he
            obtain ⟨k, _, rfl⟩ := List.mem_map.mp he
            exact .mat (hls m hi) side seed k
      · simp only [Function.update_of_ne hmn]
        exact h.pending m
    · by_cases hmn : m = n
      · subst hmn
        simp only [Function.update_self]
        exact (List.suffix_cons s ss).trans (ht ▸ h.suffix m)
      · simp only [Function.update_of_ne hmn]
        exact h.suffix m
    · by_cases hmn : m = n
      · subst hmn
        simp only [Function.update_self]
        intro t htm
        by_cases hts : t = s
        · subst hts
          right
          intro p hpm
          rcases saves_fst hp hsave with ⟨rfl, h'⟩ | h'
          · exact Or.inl (h' p hpm)
          · exact Or.inr (h' ▸ hpm)
        · rcases h.done m t htm with h' | h'
          · rw [ht] at h'
            exact Or.inl ((List.mem_cons.mp h').resolve_left hts)
          · right
            intro p hpm
            left
            simpa [hpend] using h' p hpm
      · simp only [Function.update_of_ne hmn]
        exact h.done m
  | @save ow ss e l =>
    have ht : (w.procs n).todo = ss := by rw [hp0]
    have hpend : (w.procs n).pending = e :: l := by rw [hp0]
    have hwhole : ∀ p, Whole w.fs p → Whole (w.fs.write e.1 (.whole e.2)) p := fun p hw => whole_writes [e] hw
    have he : Right sp U e.1 e.2 := h.pending n e (by simp [hpend])
    refine ⟨fun p y hr => ?_, fun m => ?_, fun m => ?_, fun m => ?_⟩
    · by_cases hpe : p = e.1
      · subst hpe
        right
        exact ⟨e.2, he, by simp [FS.write]⟩
      · simpa [FS.write, hpe] using h.disk p y hr
    · by_cases hmn : m = n
      · subst hmn
        simp only [Function.update_self]
        exact fun f hf => h.pending m f (by simp [hpend, hf])
      · simp only [Function.update_of_ne hmn]
        exact h.pending m
    · by_cases hmn : m = n
      · subst hmn
        simp only [Function.update_self]
        exact ht ▸ h.suffix m
      · simp only [Function.update_of_ne hmn]
        exact h.suffix m
    · by_cases hmn : m = n
      · subst hmn
        simp only [Function.update_self]
        intro t htm
        rcases h.done m t htm with h' | h'
        · exact Or.inl (ht ▸ h')
        · right
          intro p hpm
          rcases h' p hpm with h'' | h''
          · exact Or.inl (hwhole p h'')
          · rw [hpend, List.map_cons, List.mem_cons] at h''
            rcases h'' with rfl | h''
            · exact Or.inl ⟨e.2, by simp [FS.write]⟩
            · exact Or.inr h''
      · simp only [Function.update_of_ne hmn]
        intro t htm
        rcases h.done m t htm with h' | h'
        · exact Or.inl h'
        · exact Or.inr fun p hpm => (h' p hpm).imp (hwhole p) id

end

section reach
variable [DecidableEq ι] [Nonempty σ] (hp : γ → Bool) (sp : Str) (U : List (Iface γ σ)) (hU : NamesOk U) (hT : TablesOk hp U)
  (ls : ι → List (Iface γ σ)) (hls : ∀ n, ls n ⊆ U) (ow : ι → Bool) (fs : FS γ) (hfresh : Fresh sp U fs)
  (w : World ι γ σ) (hw : Relation.ReflTransGen (World.Next hp sp) ⟨fs, fun n => Proc.start (ow n) (ls n)⟩ w)
include hU hls hfresh hw

omit [Nonempty σ] in
theorem sound_reach : Sound sp U ls w := by
  induction hw with
  | refl =>
    refine ⟨fun p y hr => Or.inl ?_, fun n => by simp [Proc.start], fun n => List.suffix_refl _, fun n s hs => Or.inl hs⟩
    cases hr with
    | table hi hm => exact (hfresh _ hi).1
    | mat hi side seed k => exact (hfresh _ hi).2 side k
  | tail _ hn ih => exact ih.next hU hls hn

include hT in
/-- **C137.** Any number of processes work in the same project folder at the same time, each running `process_structure` for its own structure, overwriting or not; the same name always stands for the same interface (all interfaces are from the
list `U`), and at the start there are no results.  Whatever the order in which the processes look at the disk, compute and save, none raises: each can act until it is finished. -/
theorem C137_none_raises (n : ι) (hf : ¬ (w.procs n).finished) : ∃ fs' p', Acts hp sp w.fs (w.procs n) fs' p' := by
  have hS := sound_reach hp sp U hU ls hls ow fs hfresh w hw
  obtain ⟨seed⟩ := ‹Nonempty σ›
  rcases hp0 : w.procs n with ⟨o, todo, pending⟩
  cases pending with
  | cons e l => exact ⟨_, _, .save⟩
  | nil =>
    cases todo with
    | nil => exact absurd ⟨by rw [hp0], by rw [hp0]⟩ hf
    | cons s ss =>
      obtain ⟨l, hl⟩ := hS.saves (hp := hp) hU hls hT (n := n) (s := s) (ss := ss) (by rw [hp0]) (by rw [hp0]) o seed
      exact ⟨_, _, .look seed hl⟩

/-- … and as soon as a process is finished – whatever the others are doing, and even if they are killed – each file `calculate_RAT` loads for its structure is there and was computed for the interface in question (by one of the processes). -/
theorem C137_files_right (n : ι) (hf : (w.procs n).finished) :
    (∀ i ∈ ls n, ∀ k ∈ requiredKinds i.calcProf, ∃ seed : σ, w.fs.load (matPath sp i.name .front k) = some (i.compute .front seed (ownTable i) k)) ∧
    (∀ i ∈ (ls n).dropLast, i.method ≠ .Mirror → i.method ≠ .Lambertian →
      ∀ k ∈ requiredKinds i.calcProf, ∃ seed : σ, w.fs.load (matPath sp i.name .rear k) = some (i.compute .rear seed (ownTable i) k)) ∧
    ∀ i ∈ ls n, i.method = .RT_TMM → w.fs.load (lutPath sp i.name) = some i.lut := by
  have hS := sound_reach hp sp U hU ls hls ow fs hfresh w hw
  obtain ⟨seed⟩ := ‹Nonempty σ›
  have hall : ∀ s ∈ allSteps (ls n), ∀ p ∈ stepFiles sp s, Whole w.fs p := by
    intro s hs p hpm
    rcases hS.done n s hs with h | h
    · rw [hf.1] at h; simp at h
    · simpa [hf.2] using h p hpm
  have hmat : ∀ i ∈ U, ∀ side k, Whole w.fs (matPath sp i.name side k) →
      ∃ seed : σ, w.fs.load (matPath sp i.name side k) = some (i.compute side seed (ownTable i) k) := by
    intro i hi side k hw
    obtain ⟨x, hr, hx⟩ := hS.whole (.mat hi side seed k) hw
    obtain ⟨seed', rfl⟩ := right_mat hU hi hr
    exact ⟨seed', load_eq_some.mpr hx⟩
  refine ⟨fun i hi k hk => ?_, fun i hi h1 h2 k hk => ?_, fun i hi hm => ?_⟩
  · exact hmat i (hls n hi) .front k (hall _ (mats_mem_all.mpr (mats_front_mem hi)) _ (List.mem_map.mpr ⟨k, hk, rfl⟩))
  · exact hmat i (hls n (List.mem_of_mem_dropLast hi)) .rear k (hall _ (mats_mem_all.mpr (mats_rear_mem hi h1 h2)) _ (List.mem_map.mpr ⟨k, hk, rfl⟩))
  · obtain ⟨x, hr, hx⟩ := hS.whole (.table (hls n hi) hm) (hall _ (table_mem.mpr ⟨hi, hm⟩) _ (by simp [stepFiles]))
    rw [load_eq_some.mpr hx, right_lut hU (hls n hi) hm hr]

/-- **C137 (partial).** If the calculations do not depend on chance, what a finished process finds is what it would have found alone.  Missing: ray tracing of the same interface by several processes (`C137_random_fails`). -/
theorem C137_same_as_alone_partial (hdet : ∀ i ∈ U, ∀ side seed seed' L k, i.compute side seed L k = i.compute side seed' L k)
    (n : ι) (hf : (w.procs n).finished) (hn : ((ls n).map Iface.name).Nodup) (fs₁ : FS γ) (h : Runs hp sp (ow n) (allSteps (ls n)) fs fs₁) :
    ∀ s ∈ allSteps (ls n), ∀ p ∈ stepFiles sp s, w.fs.load p = fs₁.load p := by
  have hlN := namesOk_subset hU (hls n) hn
  have hdone : ∀ t ∈ allSteps (ls n), StepDone sp fs₁ t := by
    cases ho : ow n with
    | true => exact all_done_overwrite hlN (ho ▸ h)
    | false => exact (inv_runs hlN (ho ▸ h) (fun s hs => stepIn_of_mem hs) (inv_fresh hlN fun i hi => hfresh i (hls n hi))).2.2
  have hS := sound_reach hp sp U hU ls hls ow fs hfresh w hw
  intro s hs p hpm
  have hwhole : Whole w.fs p := by
    rcases hS.done n s hs with h' | h'
    · rw [hf.1] at h'; simp at h'
    · simpa [hf.2] using h' p hpm
  cases s with
  | table i =>
    obtain ⟨hi, hm⟩ := table_mem.mp hs
    simp only [stepFiles, List.mem_singleton] at hpm
    subst hpm
    obtain ⟨x, hr, hx⟩ := hS.whole (.table (hls n hi) hm) hwhole
    rw [load_eq_some.mpr hx, right_lut hU (hls n hi) hm hr]
    exact (load_eq_some.mpr (hdone _ hs)).symm
  | mats i side =>
    have hi := hls n (mem_of_mats (mats_mem_all.mp hs))
    obtain ⟨k, hk, rfl⟩ := List.mem_map.mp hpm
    obtain ⟨seed, hc⟩ : Consistent sp fs₁ i side := hdone _ hs
    obtain ⟨x, hr, hx⟩ := hS.whole (.mat hi side seed k) hwhole
    obtain ⟨seed', rfl⟩ := right_mat hU hi hr
    rw [load_eq_some.mpr hx, load_eq_some.mpr (hc k hk), hdet i hi side seed' seed]

end reach

/-! Processes that work on different interfaces. -/

/-- `p` is a file of one of the interfaces. -/
def FileOf (sp : Str) (l : List (Iface γ σ)) (p : Str) : Prop :=
  ∃ i ∈ l, (i.method = .RT_TMM ∧ p = lutPath sp i.name) ∨ ∃ side k, p = matPath sp i.name side k

theorem fileOf_step {sp : Str} {l : List (Iface γ σ)} {s : Step γ σ} (hs : s ∈ allSteps l) {p : Str} (hp : p ∈ stepFiles sp s) : FileOf sp l p := by
  cases s with
  | table i =>
    obtain ⟨hi, hm⟩ := table_mem.mp hs
    simp only [stepFiles, List.mem_singleton] at hp
    exact ⟨i, hi, Or.inl ⟨hm, hp⟩⟩
  | mats i side =>
    obtain ⟨k, _, rfl⟩ := List.mem_map.mp hp
    exact ⟨i, mem_of_mats (mats_mem_all.mp hs), Or.inr ⟨side, k, rfl⟩⟩

theorem fileOf_common {sp : Str} {U : List (Iface γ σ)} (hU : NamesOk U) {l l' : List (Iface γ σ)} (h : l ⊆ U) (h' : l' ⊆ U) {p : Str}
    (hp : FileOf sp l p) (hp' : FileOf sp l' p) : ∃ i, i ∈ l ∧ i ∈ l' := by
  obtain ⟨i, hi, ⟨hm, e⟩ | ⟨side, k, e⟩⟩ := hp <;> obtain ⟨j, hj, ⟨hm', e'⟩ | ⟨side', k', e'⟩⟩ := hp'
  · obtain rfl := lut_inj hU (h hi) (h' hj) (e.symm.trans e'); exact ⟨i, hi, hj⟩
  · exact absurd (e.symm.trans e') (lut_ne_mat hU (h hi) (h' hj) hm)
  · exact absurd (e'.symm.trans e) (lut_ne_mat hU (h' hj) (h hi) hm')
  · obtain ⟨rfl, -, -⟩ := mat_inj hU (h hi) (h' hj) (e.symm.trans e'); exact ⟨i, hi, hj⟩

theorem saves_congr {hp : γ → Bool} {sp : Str} {l : List (Iface γ σ)} {fs f : FS γ} (h : ∀ p, FileOf sp l p → fs p = f p) {s : Step γ σ} (hs : s ∈ allSteps l)
    (ow : Bool) (seed : σ) : Step.saves hp sp ow fs seed s = Step.saves hp sp ow f seed s := by
  cases s with
  | table i =>
    obtain ⟨hi, hm⟩ := table_mem.mp hs
    simp only [Step.saves, FS.load, h _ ⟨i, hi, Or.inl ⟨hm, rfl⟩⟩]
  | mats i side =>
    have hi := mem_of_mats (mats_mem_all.mp hs)
    have hk : ∀ k, fs (matPath sp i.name side k) = f (matPath sp i.name side k) := fun k => h _ ⟨i, hi, Or.inr ⟨side, k, rfl⟩⟩
    have hg : getMatricesOrPaths fs sp i.name side i.calcProf ow = getMatricesOrPaths f sp i.name side i.calcProf ow := by
      simp only [getMatricesOrPaths, FS.load, hk]
    simp only [Step.saves, hg]
    by_cases hm : i.method = .RT_TMM
    · have : fs.load (lutPath sp i.name) = f.load (lutPath sp i.name) := by simp only [FS.load, h _ ⟨i, hi, Or.inl ⟨hm, rfl⟩⟩]
      rw [this]
    · simp only [hm, if_false]

/-- Seen from process `n`: the disk is as if it had run alone. -/
structure Alone (hp : γ → Bool) (sp : Str) (l : List (Iface γ σ)) (ow : Bool) (fs₀ : FS γ) (fs : FS γ) (p : Proc γ σ) : Prop where
  flag : p.overwrite = ow
  own : ∀ e ∈ p.pending, FileOf sp l e.1
  run : (p.pending = [] ∧ ∃ ds f, allSteps l = ds ++ p.todo ∧ Runs hp sp ow ds fs₀ f ∧ ∀ q, FileOf sp l q → fs q = f q) ∨
    ∃ ds s f seed w₁, allSteps l = ds ++ s :: p.todo ∧ Runs hp sp ow ds fs₀ f ∧ Step.saves hp sp ow f seed s = some (w₁ ++ p.pending) ∧
      ∀ q, FileOf sp l q → fs q = f.writes w₁ q

theorem runs_snoc {hp : γ → Bool} {sp : Str} {ow : Bool} {ds : List (Step γ σ)} {s : Step γ σ} {fs f : FS γ} {w : List (Str × γ)} (h : Runs hp sp ow ds fs f) (seed : σ)
    (hs : Step.saves hp sp ow f seed s = some w) : Runs hp sp ow (ds ++ [s]) fs (f.writes w) := by
  induction h with
  | nil => exact .cons seed hs (.nil _)
  | cons seed' h' _ ih => exact .cons seed' h' (ih hs)

theorem Alone.settled {hp : γ → Bool} {sp : Str} {l : List (Iface γ σ)} {ow : Bool} {fs₀ fs : FS γ} {p : Proc γ σ} (h : Alone hp sp l ow fs₀ fs p) (hpend : p.pending = []) :
    ∃ ds f, allSteps l = ds ++ p.todo ∧ Runs hp sp ow ds fs₀ f ∧ ∀ q, FileOf sp l q → fs q = f q := by
  rcases h.run with ⟨_, h⟩ | ⟨ds, s, f, seed, w₁, h1, h2, h3, h4⟩
  · exact h
  · rw [hpend, List.append_nil] at h3
    exact ⟨ds ++ [s], f.writes w₁, by simp [h1], runs_snoc h2 seed h3, h4⟩

theorem Alone.acts {hp : γ → Bool} {sp : Str} {l : List (Iface γ σ)} {ow : Bool} {fs₀ fs fs' : FS γ} {p p' : Proc γ σ} (h : Alone hp sp l ow fs₀ fs p)
    (ha : Acts hp sp fs p fs' p') : Alone hp sp l ow fs₀ fs' p' := by
  cases ha with
  | @look o s ss w seed hs =>
    obtain rfl : o = ow := h.flag
    obtain ⟨ds, f, h1, h2, h3⟩ := h.settled rfl
    have hmem : s ∈ allSteps l := by rw [h1]; simp
    refine ⟨rfl, fun e he => ?_, Or.inr ⟨ds, s, f, seed, [], h1, h2, ?_, h3⟩⟩
    · rcases saves_fst hp hs with ⟨rfl, _⟩ | h'
      · simp at he
      · exact fileOf_step hmem (h' ▸ List.mem_map_of_mem he)
    · rw [← saves_congr h3 hmem, hs]; simp
  | @save o ss e w =>
    refine ⟨h.flag, fun f hf => h.own f (by simp only at hf ⊢; exact List.mem_cons_of_mem _ hf), Or.inr ?_⟩
    rcases h.run with ⟨h', _⟩ | ⟨ds, s, f, seed, w₁, h1, h2, h3, h4⟩
    · simp at h'
    · refine ⟨ds, s, f, seed, w₁ ++ [e], h1, h2, by simpa using h3, fun q hq => ?_⟩
      have : f.writes (w₁ ++ [e]) = (f.writes w₁).write e.1 (.whole e.2) := by simp [FS.writes]
      rw [this]
      simp only [FS.write, h4 q hq]

/-- **C137 (partial).** If no interface is used by two of the processes, each process works as if it were alone, random calculations included and whatever was on disk at the start: when it is finished, the files of its structure are
those left by some run of it alone from the same start. -/
theorem C137_different_interfaces_partial [DecidableEq ι] (hp : γ → Bool) (sp : Str) (U : List (Iface γ σ)) (hU : NamesOk U)
    (ls : ι → List (Iface γ σ)) (hls : ∀ n, ls n ⊆ U) (hdisj : ∀ m n, m ≠ n → ∀ i ∈ ls m, i ∉ ls n) (ow : ι → Bool) (fs : FS γ)
    (w : World ι γ σ) (hw : Relation.ReflTransGen (World.Next hp sp) ⟨fs, fun n => Proc.start (ow n) (ls n)⟩ w)
    (n : ι) (hf : (w.procs n).finished) :
    ∃ fs₁, Runs hp sp (ow n) (allSteps (ls n)) fs fs₁ ∧ ∀ s ∈ allSteps (ls n), ∀ p ∈ stepFiles sp s, w.fs p = fs₁ p := by
  have hA : ∀ n, Alone hp sp (ls n) (ow n) fs w.fs (w.procs n) := by
    clear hf n
    induction hw with
    | refl => exact fun n => ⟨rfl, by simp [Proc.start], Or.inl ⟨rfl, [], fs, rfl, .nil _, fun _ _ => rfl⟩⟩
    | @tail a b _ hn ih =>
      obtain ⟨m, p', ha, hb⟩ := hn
      intro n
      by_cases hmn : n = m
      · subst hmn
        rw [hb, Function.update_self]
        exact (ih n).acts ha
      · rw [hb, Function.update_of_ne hmn]
        -- what the other process does leaves the files of this one alone
        have hsame : ∀ q, FileOf sp (ls n) q → b.fs q = a.fs q := by
          intro q hq
          obtain ⟨fsb, pb⟩ := b
          simp only at ha ⊢
          have hown := (ih m).own
          generalize a.procs m = p0 at ha hown
          cases ha with
          | look => rfl
          | @save o ss e w' =>
            simp only [FS.write]
            rw [if_neg]
            rintro rfl
            obtain ⟨i, h1, h2⟩ := fileOf_common hU (hls m) (hls n) (hown e (by simp)) hq
            exact hdisj m n (Ne.symm hmn) i h1 h2
        refine ⟨(ih n).flag, (ih n).own, ?_⟩
        rcases (ih n).run with ⟨h0, ds, f, h1, h2, h3⟩ | ⟨ds, s, f, seed, w₁, h1, h2, h3, h4⟩
        · exact Or.inl ⟨h0, ds, f, h1, h2, fun q hq => (hsame q hq).trans (h3 q hq)⟩
        · exact Or.inr ⟨ds, s, f, seed, w₁, h1, h2, h3, fun q hq => (hsame q hq).trans (h4 q hq)⟩
  obtain ⟨ds, f, h1, h2, h3⟩ := (hA n).settled hf.2
  rw [hf.1, List.append_nil] at h1
  exact ⟨f, h1 ▸ h2, fun s hs p hpm => h3 p (fileOf_step hs hpm)⟩

/-- Two processes with different surfaces, one of them ray-traced, one overwriting, in one folder. -/
example : ∃ (U : List (Iface ℕ ℕ)) (ls : Bool → List (Iface ℕ ℕ)), NamesOk U ∧ (∀ n, ls n ⊆ U) ∧ (∀ m n, m ≠ n → ∀ i ∈ ls m, i ∉ ls n) ∧ (∀ n, ls n ≠ []) ∧
    ∃ i ∈ U, i.compute .front 0 none .RT ≠ i.compute .front 1 none .RT := by
  let i : Iface ℕ ℕ := ⟨"pyr".toList, .RT_Fresnel, false, 0, fun _ seed _ _ => seed⟩
  let j : Iface ℕ ℕ := ⟨"flat".toList, .TMM, false, 0, fun _ _ _ _ => 200⟩
  have hij : i ≠ j := fun e => by simpa [i, j] using congrArg Iface.method e
  refine ⟨[i, j], fun n => if n then [i] else [j], ⟨by decide, by decide, ?_⟩, ?_, ?_, ?_, i, by simp, by simp [i]⟩
  · intro a ha b hb side hm
    simp only [List.mem_cons, List.not_mem_nil, or_false] at ha
    rcases ha with rfl | rfl <;> simp [i, j] at hm
  · intro n; cases n <;> simp
  · intro m n hmn a ha
    cases m <;> cases n <;> simp_all [Ne.symm hij]
  · intro n; cases n <;> simp

/-! Every schedule ends. -/

def Proc.size (p : Proc γ σ) : ℕ := 4 * p.todo.length + p.pending.length

theorem acts_size {hp : γ → Bool} {sp : Str} {fs fs' : FS γ} {p p' : Proc γ σ} (h : Acts hp sp fs p fs' p') : Proc.size p' < Proc.size p := by
  cases h with
  | @look ow s ss w seed h =>
    have : w.length ≤ 3 := by
      rcases saves_fst hp h with ⟨rfl, _⟩ | h'
      · simp
      · have hl := congrArg List.length h'
        rw [List.length_map] at hl
        rw [hl]
        cases s with
        | table i => simp [stepFiles]
        | mats i side => cases hb : i.calcProf <;> simp [stepFiles, requiredPaths, requiredKinds, hb]
    simp [Proc.size]
    omega
  | save => simp [Proc.size]

/-- **C137.** Finitely many processes come to an end under every schedule: there is no infinite sequence of actions. -/
theorem C137_every_schedule_ends [DecidableEq ι] [Fintype ι] (hp : γ → Bool) (sp : Str) (f : ℕ → World ι γ σ) :
    ¬ ∀ t, World.Next hp sp (f t) (f (t + 1)) := by
  intro h
  have hdec : ∀ t, ∑ n, Proc.size ((f (t + 1)).procs n) < ∑ n, Proc.size ((f t).procs n) := by
    intro t
    obtain ⟨n, p', ha, hu⟩ := h t
    refine Finset.sum_lt_sum (fun m _ => ?_) ⟨n, Finset.mem_univ n, ?_⟩
    · rw [hu]
      by_cases hm : m = n
      · subst hm
        simpa using (acts_size ha).le
      · simp [Function.update_of_ne hm]
    · rw [hu]
      simpa using acts_size ha
  have hle : ∀ t, ∑ n, Proc.size ((f t).procs n) + t ≤ ∑ n, Proc.size ((f 0).procs n) := by
    intro t
    induction t with
    | zero => simp
    | succ t ih => have := hdec t; omega
  have := hle (∑ n, Proc.size ((f 0).procs n) + 1)
  omega

/-! Random calculations. -/

/-- **C137 fails for ray tracing.** Two processes trace the same surface in an empty folder at the same time.  Whatever their random numbers, there is a schedule after which both have returned and the stored R/T matrix is that of the one,
the stored absorption matrix that of the other. -/
theorem C137_random_fails (hp : γ → Bool) (sp : Str) (i : Iface γ σ) (hm : i.method = .RT_Fresnel) (hrel : i.name.head? ≠ some '/')
    (fs : FS γ) (hfresh : Fresh sp [i] fs) (a b : σ) :
    ∃ w : World Bool γ σ, Relation.ReflTransGen (World.Next hp sp) ⟨fs, fun _ => Proc.start false [i]⟩ w ∧ (∀ n, (w.procs n).finished) ∧
      w.fs.load (matPath sp i.name .front .RT) = some (i.compute .front a none .RT) ∧
      w.fs.load (matPath sp i.name .front .A) = some (i.compute .front b none .A) := by
  have hc : i.calcProf = false := by simp [Iface.calcProf, hm]
  have hsteps : allSteps [i] = [Step.mats i .front] := by simp [allSteps, tableSteps, matSteps, sidesOf, hm]
  have hf := (hfresh i (by simp)).2
  have hsave : ∀ seed, Step.saves hp sp false fs seed (.mats i .front) = some
      [(matPath sp i.name .front .RT, i.compute .front seed none .RT), (matPath sp i.name .front .A, i.compute .front seed none .A)] := by
    intro seed
    simp [Step.saves, getMatricesOrPaths, hc, hm, hf, requiredKinds]
  have hne : matPath sp i.name .front .RT ≠ matPath sp i.name .front .A := fun e => by
    simpa using ((matPath_inj hrel hrel).mp e).2.2
  let RT := matPath sp i.name .front .RT
  let A := matPath sp i.name .front .A
  let ra := i.compute .front a none .RT
  let rb := i.compute .front b none .RT
  let aa := i.compute .front a none .A
  let ab := i.compute .front b none .A
  let mk : List (Str × γ) → List (Str × γ) → Bool → Proc γ σ := fun x y n => if n then ⟨false, [], x⟩ else ⟨false, [], y⟩
  let f1 := fs.write RT (.whole rb)
  let f2 := f1.write RT (.whole ra)
  let f3 := f2.write A (.whole aa)
  let f4 := f3.write A (.whole ab)
  have upT : ∀ x y x' , Function.update (mk x y) true ⟨false, [], x'⟩ = mk x' y := by
    intro x y x'; funext n; cases n <;> simp [mk]
  have upF : ∀ x y y' , Function.update (mk x y) false ⟨false, [], y'⟩ = mk x y' := by
    intro x y y'; funext n; cases n <;> simp [mk]
  let s0 : Bool → Proc γ σ := fun _ => Proc.start false [i]
  let s1 : Bool → Proc γ σ := Function.update s0 true ⟨false, [], [(RT, ra), (A, aa)]⟩
  have e2 : Function.update s1 false ⟨false, [], [(RT, rb), (A, ab)]⟩ = mk [(RT, ra), (A, aa)] [(RT, rb), (A, ab)] := by
    funext n; cases n <;> simp [s1, mk]
  have h1 : World.Next hp sp ⟨fs, s0⟩ ⟨fs, s1⟩ := ⟨true, _, by
    simp only [s0, Proc.start, hsteps]; exact .look a (hsave a), rfl⟩
  have h2 : World.Next hp sp ⟨fs, s1⟩ ⟨fs, mk [(RT, ra), (A, aa)] [(RT, rb), (A, ab)]⟩ := ⟨false, _, by
    simp only [s1, s0, Proc.start, hsteps, ne_eq, Bool.false_eq_true, not_false_eq_true, Function.update_of_ne]; exact .look b (hsave b), e2.symm⟩
  have h3 : World.Next hp sp ⟨fs, mk [(RT, ra), (A, aa)] [(RT, rb), (A, ab)]⟩ ⟨f1, mk [(RT, ra), (A, aa)] [(A, ab)]⟩ := ⟨false, _, .save, (upF _ _ _).symm⟩
  have h4 : World.Next hp sp ⟨f1, mk [(RT, ra), (A, aa)] [(A, ab)]⟩ ⟨f2, mk [(A, aa)] [(A, ab)]⟩ := ⟨true, _, .save, (upT _ _ _).symm⟩
  have h5 : World.Next hp sp ⟨f2, mk [(A, aa)] [(A, ab)]⟩ ⟨f3, mk [] [(A, ab)]⟩ := ⟨true, _, .save, (upT _ _ _).symm⟩
  have h6 : World.Next hp sp ⟨f3, mk [] [(A, ab)]⟩ ⟨f4, mk [] []⟩ := ⟨false, _, .save, (upF _ _ _).symm⟩
  refine ⟨⟨f4, mk [] []⟩, ?_, ?_, ?_, ?_⟩
  · exact (((((Relation.ReflTransGen.single h1).tail h2).tail h3).tail h4).tail h5).tail h6
  · intro n; cases n <;> simp [mk, Proc.finished]
  · refine load_eq_some.mpr ?_
    simp [f4, f3, f2, FS.write, RT, A, hne, ra]
  · refine load_eq_some.mpr ?_
    simp [f4, FS.write, A, ab]

/-- The results of such a schedule need not belong to any calculation. -/
example : ∃ (i : Iface ℕ ℕ) (w : World Bool ℕ ℕ),
    Relation.ReflTransGen (World.Next (fun _ => true) "/r".toList) ⟨fun _ => none, fun _ => Proc.start false [i]⟩ w ∧ (∀ n, (w.procs n).finished) ∧
      ¬ Consistent "/r".toList w.fs i .front := by
  let i : Iface ℕ ℕ := ⟨"t".toList, .RT_Fresnel, false, 0, fun _ seed _ _ => seed⟩
  obtain ⟨w, h1, h2, h3, h4⟩ := C137_random_fails (fun _ => true) "/r".toList i rfl (by decide) (fun _ => none) (fun _ _ => ⟨rfl, fun _ _ => rfl⟩) 1 2
  refine ⟨i, w, h1, h2, ?_⟩
  rintro ⟨seed, hc⟩
  have c1 := hc .RT (by cases i.calcProf <;> simp [requiredKinds])
  have c2 := hc .A (by cases i.calcProf <;> simp [requiredKinds])
  rw [load_eq_some.mp h3] at c1
  rw [load_eq_some.mp h4] at c2
  simp only [Option.some.injEq, Content.whole.injEq, i] at c1 c2
  omega

/-- Two processes, one for a structure with a texture on a grating, one for the texture on a mirror, in one folder. -/
example : ∃ (U : List (Iface ℕ ℕ)) (ls : Bool → List (Iface ℕ ℕ)), NamesOk U ∧ TablesOk (fun n => decide (n = 7)) U ∧ (∀ i ∈ U, ∀ side seed seed' L k, i.compute side seed L k = i.compute side seed' L k) ∧ (∀ n, ls n ⊆ U) ∧
    ls true ≠ ls false ∧ (∃ i ∈ ls true, i ∈ ls false ∧ i.method = .RT_TMM) ∧ (∀ n, ((ls n).map Iface.name).Nodup) ∧ Fresh "/r".toList U (fun _ => none) := by
  let i : Iface ℕ ℕ := ⟨"pyr".toList, .RT_TMM, true, 7, fun _ _ _ _ => 100⟩
  let j : Iface ℕ ℕ := ⟨"grating".toList, .RCWA, false, 0, fun _ _ _ _ => 200⟩
  let k : Iface ℕ ℕ := ⟨"mirror".toList, .Mirror, false, 0, fun _ _ _ _ => 300⟩
  refine ⟨[i, j, k], fun n => if n then [i, j] else [i, k], ⟨by decide, by decide, ?_⟩, ?_, ?_, ?_, ?_, ⟨i, by simp, by simp, rfl⟩, fun n => by cases n <;> decide, fun _ _ => ⟨rfl, fun _ _ => rfl⟩⟩
  · intro a ha b hb side hm h
    have hl := congrArg List.length h
    simp only [List.mem_cons, List.not_mem_nil, or_false] at ha
    rcases ha with rfl | rfl | rfl
    · rw [profmat_str] at hl
      simp [i] at hl
      omega
    · simp [j] at hm
    · simp [k] at hm
  · intro a ha
    simp only [List.mem_cons, List.not_mem_nil, or_false] at ha
    rcases ha with rfl | rfl | rfl <;> simp [i, j, k]
  · intro a ha
    simp only [List.mem_cons, List.not_mem_nil, or_false] at ha
    rcases ha with rfl | rfl | rfl <;> simp [i, j, k]
  · intro n
    cases n <;> simp
  · intro h
    simp only [if_true, Bool.false_eq_true, if_false, List.cons.injEq, true_and, and_true] at h
    have := congrArg Iface.method h
    simp [j, k] at this

end Rayflare
