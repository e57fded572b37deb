import Verif.Lemmas.Files
import Verif.Spec.Files

/-! # Invariant of the stored results over runs, crashes and reruns -/

namespace Rayflare.Lemmas

open Rayflare.Model Rayflare.Spec

variable {γ σ : Type*}

theorem table_mem {l : List (Iface γ σ)} {i : Iface γ σ} :
    Step.table i ∈ allSteps l ↔ i ∈ l ∧ i.method = .RT_TMM := by
  have hm : ∀ l : List (Iface γ σ), Step.table i ∉ matSteps l := by
    intro l
    induction l with
    | nil => simp [matSteps]
    | cons a l ih => simp [matSteps, ih]
  simp [allSteps, tableSteps, hm]

theorem mem_of_mats {l : List (Iface γ σ)} {i : Iface γ σ} {side : Side} (h : Step.mats i side ∈ matSteps l) : i ∈ l := by
  induction l with
  | nil => simp [matSteps] at h
  | cons a l ih =>
    simp only [matSteps, List.mem_append, List.mem_map] at h
    rcases h with ⟨s, _, hs⟩ | h
    · simp only [Step.mats.injEq] at hs
      simp [hs.1]
    · exact List.mem_cons_of_mem _ (ih h)

theorem mats_mem_all {l : List (Iface γ σ)} {i : Iface γ σ} {side : Side} :
    Step.mats i side ∈ allSteps l ↔ Step.mats i side ∈ matSteps l := by
  simp [allSteps, tableSteps]

theorem matSteps_only {l : List (Iface γ σ)} {s : Step γ σ} (h : s ∈ matSteps l) : ∃ i side, s = .mats i side := by
  induction l with
  | nil => simp [matSteps] at h
  | cons a l ih =>
    simp only [matSteps, List.mem_append, List.mem_map] at h
    rcases h with ⟨s, _, hs⟩ | h
    · exact ⟨_, _, hs.symm⟩
    · exact ih h

/-- A step for an interface of the list. -/
def StepIn (l : List (Iface γ σ)) : Step γ σ → Prop
  | .table i => i ∈ l ∧ i.method = .RT_TMM
  | .mats i _ => i ∈ l

theorem stepIn_of_mem {l : List (Iface γ σ)} {s : Step γ σ} (h : s ∈ allSteps l) : StepIn l s := by
  cases s with
  | table i => exact table_mem.mp h
  | mats i side => exact mem_of_mats (mats_mem_all.mp h)

section names
variable {l : List (Iface γ σ)} (hl : NamesOk l) {sp : Str} {i j : Iface γ σ} (hi : i ∈ l) (hj : j ∈ l)
include hl hi hj

theorem eq_of_name (h : i.name = j.name) : i = j := List.inj_on_of_nodup_map hl.distinct hi hj h

theorem mat_inj {s s' : Side} {k k' : Kind} (h : matPath sp i.name s k = matPath sp j.name s' k') :
    i = j ∧ s = s' ∧ k = k' := by
  rw [matPath_inj (hl.relative i hi) (hl.relative j hj)] at h
  exact ⟨eq_of_name hl hi hj h.1, h.2⟩

theorem lut_inj (h : lutPath sp i.name = lutPath sp j.name) : i = j := by
  rw [lutPath_inj (hl.relative i hi) (hl.relative j hj)] at h
  exact eq_of_name hl hi hj h

theorem lut_ne_mat (hm : i.method = .RT_TMM) {s : Side} {k : Kind} :
    lutPath sp i.name ≠ matPath sp j.name s k := by
  intro h
  rw [lutPath_eq_matPath (hl.relative i hi) (hl.relative j hj)] at h
  exact hl.noClash i hi j hj s hm h.2

end names

/-- What a matrix step writes, as a map over kinds. -/
def matWrites (sp : Str) (i : Iface γ σ) (side : Side) (f : Kind → γ) (ks : List Kind) : List (Str × γ) :=
  ks.map fun k => (matPath sp i.name side k, f k)

theorem zip_eq_matWrites (sp : Str) (i : Iface γ σ) (side : Side) (f : Kind → γ) (b : Bool) :
    (requiredPaths sp i.name side b).zip ((requiredKinds b).map f) = matWrites sp i side f (requiredKinds b) := by
  unfold requiredPaths matWrites
  rw [List.zip_map']

theorem matWrites_at {sp : Str} {i : Iface γ σ} (hr : i.name.head? ≠ some '/') {side : Side} (f : Kind → γ)
    {ks : List Kind} (hn : ks.Nodup) (fs : FS γ) (k : Kind) :
    fs.writes (matWrites sp i side f ks) (matPath sp i.name side k)
      = if k ∈ ks then some (.whole (f k)) else fs (matPath sp i.name side k) := by
  have hinj : Function.Injective (fun k => matPath sp i.name side k) := by
    intro a b h
    exact ((matPath_inj hr hr).mp h).2.2
  have hfst : (matWrites sp i side f ks).map Prod.fst = ks.map (fun k => matPath sp i.name side k) := by
    simp [matWrites]
  split_ifs with hk
  · apply writes_get (e := (matPath sp i.name side k, f k))
    · rw [hfst]; exact hn.map hinj
    · exact List.mem_map.mpr ⟨k, hk, rfl⟩
  · apply writes_of_not_mem
    rw [hfst]
    intro hm
    obtain ⟨k', hk', he⟩ := List.mem_map.mp hm
    exact hk (hinj he ▸ hk')

theorem matWrites_other {sp : Str} {i : Iface γ σ} {side : Side} (f : Kind → γ)
    {ks : List Kind} (fs : FS γ) {p : Str} (hp : ∀ k, p ≠ matPath sp i.name side k) :
    fs.writes (matWrites sp i side f ks) p = fs p := by
  apply writes_of_not_mem
  simp only [matWrites, List.map_map, List.mem_map, not_exists, not_and]
  intro k _ h
  exact hp k h.symm

theorem requiredKinds_nodup (b : Bool) : (requiredKinds b).Nodup := by cases b <;> decide

/-- Exact form of the saves of a matrix step. -/
theorem saves_mats {hp : γ → Bool} {sp : Str} {ow : Bool} {fs : FS γ} {seed : σ} {i : Iface γ σ} {side : Side}
    {w : List (Str × γ)} (h : Step.saves hp sp ow fs seed (.mats i side) = some w) :
    w = [] ∧ (∀ p ∈ requiredPaths sp i.name side i.calcProf, Whole fs p) ∧ ow = false ∨
    ∃ L, w = matWrites sp i side (i.compute side seed L) (requiredKinds i.calcProf) ∧
      (i.method = .RT_TMM → ∃ x, L = some x ∧ fs (lutPath sp i.name) = some (.whole x)) ∧
      (i.method ≠ .RT_TMM → L = none) := by
  unfold Step.saves at h
  simp only at h
  rcases getMats_existing_or (fs := fs) (sp := sp) (name := i.name) (side := side) (prof := i.calcProf) (ow := ow)
    with ⟨ms, h1, h2⟩ | h1 | h1
  · rw [h1] at h
    simp only [Option.some.injEq] at h
    refine Or.inl ⟨h.symm, h2, ?_⟩
    cases ow
    · rfl
    · simp [getMatricesOrPaths] at h1
      split_ifs at h1
  · rw [h1] at h; simp at h
  · rw [h1] at h
    right
    simp only at h
    split_ifs at h with h3
    · obtain ⟨L, hL1, hL⟩ := Option.bind_eq_some_iff.mp h
      split_ifs at hL
      simp only [Option.some.injEq] at hL
      refine ⟨some L, ?_, fun _ => ⟨L, rfl, load_eq_some.mp hL1⟩, fun h => absurd h3 h⟩
      rw [← hL, zip_eq_matWrites]
    · simp only [Option.some.injEq] at h
      refine ⟨none, ?_, fun h => absurd h h3, fun _ => rfl⟩
      rw [← h, zip_eq_matWrites]

theorem saves_table {hp : γ → Bool} {sp : Str} {ow : Bool} {fs : FS γ} {seed : σ} {i : Iface γ σ}
    {w : List (Str × γ)} (h : Step.saves hp sp ow fs seed (.table i) = some w) :
    w = [] ∧ Whole fs (lutPath sp i.name) ∧ ow = false ∨ w = [(lutPath sp i.name, i.lut)] := by
  unfold Step.saves at h
  simp only at h
  split_ifs at h with h1
  · left
    simp only [Option.map_eq_some_iff] at h
    obtain ⟨x, hx, rfl⟩ := h
    simp only [Bool.and_eq_true, Bool.not_eq_true'] at h1
    exact ⟨rfl, load_isSome.mp ⟨x, hx⟩, h1.2⟩
  · right
    simp only [Option.some.injEq] at h
    exact h.symm

/-- A step's results are there and are the right ones. -/
def StepDone (sp : Str) (fs : FS γ) : Step γ σ → Prop
  | .table i => fs (lutPath sp i.name) = some (.whole i.lut)
  | .mats i side => Consistent sp fs i side

/-- The lookup table a matrix step will read is the right one. -/
def LutReady (sp : Str) (fs : FS γ) : Step γ σ → Prop
  | .table _ => True
  | .mats i _ => i.method = .RT_TMM → fs (lutPath sp i.name) = some (.whole i.lut)

theorem consistent_whole {sp : Str} {fs : FS γ} {i : Iface γ σ} {side : Side} (h : Consistent sp fs i side) :
    ∀ p ∈ requiredPaths sp i.name side i.calcProf, Whole fs p := by
  obtain ⟨seed, h⟩ := h
  intro p hp
  obtain ⟨k, hk, rfl⟩ := List.mem_map.mp hp
  exact ⟨_, h k hk⟩

theorem ownTable_eq {i : Iface γ σ} {sp : Str} {fs : FS γ} {L : Option γ}
    (hr : i.method = .RT_TMM → fs (lutPath sp i.name) = some (.whole i.lut))
    (h1 : i.method = .RT_TMM → ∃ x, L = some x ∧ fs (lutPath sp i.name) = some (.whole x))
    (h2 : i.method ≠ .RT_TMM → L = none) : L = ownTable i := by
  unfold ownTable
  split_ifs with h
  · obtain ⟨x, rfl, hx⟩ := h1 h
    rw [hr h] at hx
    simp only [Option.some.injEq, Content.whole.injEq] at hx
    rw [hx]
  · exact h2 h

section run
variable {l : List (Iface γ σ)} (hl : NamesOk l) {hp : γ → Bool} {sp : Str}
include hl

theorem consistent_after {i : Iface γ σ} (hi : i ∈ l) {side : Side} (fs : FS γ) (seed : σ) :
    Consistent sp (fs.writes (matWrites sp i side (i.compute side seed (ownTable i)) (requiredKinds i.calcProf))) i side := by
  refine ⟨seed, fun k hk => ?_⟩
  rw [matWrites_at (hl.relative i hi) _ (requiredKinds_nodup _), if_pos hk]

/-- Finished results stay finished, whatever step is carried out next. -/
theorem done_keep {ow : Bool} {fs : FS γ} {seed : σ} {s t : Step γ σ} {w : List (Str × γ)}
    (hs : StepIn l s) (ht : StepIn l t) (hr : LutReady sp fs s) (hd : StepDone sp fs t)
    (h : Step.saves hp sp ow fs seed s = some w) : StepDone sp (fs.writes w) t := by
  cases s with
  | table i =>
    obtain ⟨hi, hm⟩ := hs
    rcases saves_table h with ⟨rfl, _⟩ | rfl
    · exact hd
    · cases t with
      | table j =>
        obtain ⟨hj, _⟩ := ht
        by_cases hij : lutPath sp j.name = lutPath sp i.name
        · obtain rfl := lut_inj hl hj hi hij
          simp [StepDone, writes_cons, FS.write, FS.writes]
        · simp only [StepDone, writes_cons, FS.write, writes_nil, if_neg hij]
          exact hd
      | mats j side =>
        have hj := (show _ ∈ l from ht)
        obtain ⟨seed', hd⟩ := hd
        refine ⟨seed', fun k hk => ?_⟩
        simp only [writes_cons, FS.write, writes_nil, if_neg (lut_ne_mat hl hi hj hm).symm]
        exact hd k hk
  | mats i side =>
    have hi := (show _ ∈ l from hs)
    rcases saves_mats h with ⟨rfl, _⟩ | ⟨L, rfl, h1, h2⟩
    · exact hd
    · cases t with
      | table j =>
        obtain ⟨hj, hm⟩ := ht
        simp only [StepDone]
        rw [matWrites_other _ _ (fun k => lut_ne_mat hl hj hi hm)]
        exact hd
      | mats j side' =>
        have hj := (show _ ∈ l from ht)
        by_cases hij : j = i ∧ side' = side
        · obtain ⟨rfl, rfl⟩ := hij
          rw [ownTable_eq hr h1 h2]
          exact consistent_after hl hj fs seed
        · obtain ⟨seed', hd⟩ := hd
          refine ⟨seed', fun k hk => ?_⟩
          rw [matWrites_other _ _ (fun k' he => hij ⟨(mat_inj hl hj hi he).1, (mat_inj hl hj hi he).2.1⟩)]
          exact hd k hk

/-- With `overwrite=True` a step's own results are right afterwards. -/
theorem done_overwrite {fs : FS γ} {seed : σ} {s : Step γ σ} {w : List (Str × γ)}
    (hs : StepIn l s) (hr : LutReady sp fs s)
    (h : Step.saves hp sp true fs seed s = some w) : StepDone sp (fs.writes w) s := by
  cases s with
  | table i =>
    rcases saves_table h with ⟨_, _, h⟩ | rfl
    · simp at h
    · simp [StepDone, writes_cons, FS.write, FS.writes]
  | mats i side =>
    have hi := (show _ ∈ l from hs)
    rcases saves_mats h with ⟨_, _, h⟩ | ⟨L, rfl, h1, h2⟩
    · simp at h
    · rw [ownTable_eq hr h1 h2]
      exact consistent_after hl hi fs seed

theorem runs_append {ow : Bool} {a b : List (Step γ σ)} {fs fs' : FS γ} :
    Runs hp sp ow (a ++ b) fs fs' ↔ ∃ m, Runs hp sp ow a fs m ∧ Runs hp sp ow b m fs' := by
  clear hl
  induction a generalizing fs with
  | nil =>
    constructor
    · intro h; exact ⟨fs, .nil _, h⟩
    · rintro ⟨m, h1, h2⟩; cases h1; exact h2
  | cons s a ih =>
    constructor
    · intro h
      cases h with
      | cons seed h ht =>
        obtain ⟨m, h1, h2⟩ := ih.mp ht
        exact ⟨m, .cons seed h h1, h2⟩
    · rintro ⟨m, h1, h2⟩
      cases h1 with
      | cons seed h ht => exact .cons seed h (ih.mpr ⟨m, ht, h2⟩)

theorem runs_keep {ow : Bool} {ss : List (Step γ σ)} {fs fs' : FS γ} (h : Runs hp sp ow ss fs fs')
    (hss : ∀ s ∈ ss, StepIn l s)
    (hr : ∀ s ∈ ss, ∀ i side, s = .mats i side → i.method = .RT_TMM → StepDone sp fs (Step.table i))
    {t : Step γ σ} (ht : StepIn l t) (hd : StepDone sp fs t) : StepDone sp fs' t := by
  induction h with
  | nil => exact hd
  | @cons s ss fs w fs' seed hs hrest ih =>
    have hready : LutReady sp fs s := by
      cases s with
      | table => trivial
      | mats i side => exact fun hm => hr _ (by simp) i side rfl hm
    apply ih (fun s hs => hss s (by simp [hs]))
    · intro s' hs' i side e hm
      subst e
      have hi := (show _ ∈ l from hss _ (List.mem_cons_of_mem _ hs'))
      exact done_keep hl (hss s (by simp)) (show StepIn l (Step.table _) from ⟨hi, hm⟩) hready (hr _ (List.mem_cons_of_mem _ hs') i side rfl hm) hs
    · exact done_keep hl (hss s (by simp)) ht hready hd hs

theorem runs_done_overwrite {ss : List (Step γ σ)} {fs fs' : FS γ} (h : Runs hp sp true ss fs fs')
    (hss : ∀ s ∈ ss, StepIn l s)
    (hr : ∀ s ∈ ss, ∀ i side, s = .mats i side → i.method = .RT_TMM → StepDone sp fs (Step.table i)) :
    ∀ t ∈ ss, StepDone sp fs' t := by
  induction h with
  | nil => simp
  | @cons s ss fs w fs' seed hs hrest ih =>
    have hready : LutReady sp fs s := by
      cases s with
      | table => trivial
      | mats i side => exact fun hm => hr _ (by simp) i side rfl hm
    have hr' : ∀ s' ∈ ss, ∀ i side, s' = .mats i side → i.method = .RT_TMM →
        StepDone sp (fs.writes w) (Step.table i) := by
      intro s' hs' i side e hm
      subst e
      have hi := (show _ ∈ l from hss _ (List.mem_cons_of_mem _ hs'))
      exact done_keep hl (hss s (by simp)) (show StepIn l (Step.table _) from ⟨hi, hm⟩) hready (hr _ (List.mem_cons_of_mem _ hs') i side rfl hm) hs
    intro t ht
    rcases List.mem_cons.mp ht with rfl | ht
    · exact runs_keep hl hrest (fun s hs => hss s (by simp [hs])) hr' (hss t (by simp))
        (done_overwrite hl (hss t (by simp)) hready hs)
    · exact ih (fun s hs => hss s (by simp [hs])) hr' t ht

/-- After a completed run with `overwrite=True`, from whatever was on disk, everything is right. -/
theorem all_done_overwrite {fs fs' : FS γ} (h : Runs hp sp true (allSteps l) fs fs') :
    ∀ t ∈ allSteps l, StepDone sp fs' t := by
  obtain ⟨m, h1, h2⟩ := (runs_append hl).mp h
  have ht := runs_done_overwrite hl h1 (fun s hs => stepIn_of_mem (by simp [allSteps, hs]))
    (fun s hs i side e _ => by subst e; simp [tableSteps] at hs)
  have hr : ∀ s ∈ matSteps l, ∀ i side, s = .mats i side → i.method = .RT_TMM → StepDone sp m (Step.table i) := by
    rintro s hs i side rfl hm
    apply ht
    have hi := mem_of_mats hs
    simp [tableSteps, hi, hm]
  intro t htm
  rcases List.mem_append.mp htm with h' | h'
  · exact runs_keep hl h2 (fun s hs => stepIn_of_mem (by simp [allSteps, hs])) hr (stepIn_of_mem htm) (ht t h')
  · exact runs_done_overwrite hl h2 (fun s hs => stepIn_of_mem (by simp [allSteps, hs])) hr t h'

end run

/-! ## The invariant with `overwrite=False` -/

/-- The file saved last for a surface and side. -/
def lastKind (b : Bool) : Kind := if b then .prof else .A

/-- Either finished, or the file saved last is missing (and a file is cut off only if the second one is missing as well). -/
def GroupOk (sp : Str) (fs : FS γ) (i : Iface γ σ) (side : Side) : Prop :=
  Consistent sp fs i side ∨
    (fs (matPath sp i.name side (lastKind i.calcProf)) = none ∧
      (fs (matPath sp i.name side .A) = none ∨
        ∀ k ∈ requiredKinds i.calcProf, fs (matPath sp i.name side k) = none ∨ Whole fs (matPath sp i.name side k)))

/-- The invariant. -/
def Inv (sp : Str) (l : List (Iface γ σ)) (fs : FS γ) : Prop :=
  ∀ i ∈ l, (i.method = .RT_TMM → fs (lutPath sp i.name) = none ∨ fs (lutPath sp i.name) = some (.whole i.lut)) ∧
    ∀ side, GroupOk sp fs i side

theorem groupOk_congr {sp : Str} {fs fs' : FS γ} {i : Iface γ σ} {side : Side}
    (h : ∀ k, fs' (matPath sp i.name side k) = fs (matPath sp i.name side k)) (hg : GroupOk sp fs i side) :
    GroupOk sp fs' i side := by
  rcases hg with ⟨seed, hg⟩ | ⟨h1, h2⟩
  · exact Or.inl ⟨seed, fun k hk => by rw [h]; exact hg k hk⟩
  · refine Or.inr ⟨by rw [h]; exact h1, h2.imp (fun h2 => by rw [h]; exact h2) fun h2 k hk => ?_⟩
    unfold Whole
    rw [h]
    exact h2 k hk

theorem prefix_cases {b : Bool} {ks : List Kind} (h : ks <+: requiredKinds b) :
    ks = requiredKinds b ∨ lastKind b ∉ ks := by
  cases b
  · simp only [requiredKinds, Bool.false_eq_true, if_false, List.prefix_cons_iff, List.prefix_nil] at h
    rcases h with rfl | ⟨t, rfl, rfl | ⟨u, rfl, rfl⟩⟩ <;> simp [requiredKinds, lastKind]
  · simp only [requiredKinds, if_true, List.prefix_cons_iff, List.prefix_nil] at h
    rcases h with rfl | ⟨t, rfl, rfl | ⟨u, rfl, rfl | ⟨v, rfl, rfl⟩⟩⟩ <;> simp [requiredKinds, lastKind]

theorem prefix_rest {b : Bool} {ks : List Kind} {k : Kind} (h : ks <+: requiredKinds b) (hA : Kind.A ∈ ks) (hk : k ∈ requiredKinds b)
    (hk' : k ∉ ks) : k = lastKind b := by
  cases b
  · simp only [requiredKinds, Bool.false_eq_true, if_false, List.prefix_cons_iff, List.prefix_nil] at h hk
    rcases h with rfl | ⟨t, rfl, rfl | ⟨u, rfl, rfl⟩⟩ <;> simp_all [lastKind]
  · simp only [requiredKinds, if_true, List.prefix_cons_iff, List.prefix_nil] at h hk
    rcases h with rfl | ⟨t, rfl, rfl | ⟨u, rfl, rfl | ⟨v, rfl, rfl⟩⟩⟩ <;> simp_all [lastKind]

theorem lastKind_mem (b : Bool) : lastKind b ∈ requiredKinds b := by cases b <;> simp [lastKind, requiredKinds]

section inv
variable {l : List (Iface γ σ)} (hl : NamesOk l) {hp : γ → Bool} {sp : Str}
include hl

theorem inv_step {fs : FS γ} {seed : σ} {s : Step γ σ} {w w' : List (Str × γ)} (hI : Inv sp l fs)
    (hs : StepIn l s) (h : Step.saves hp sp false fs seed s = some w) (hw : w' <+: w) :
    Inv sp l (fs.writes w') := by
  cases s with
  | table i =>
    obtain ⟨hi, hm⟩ := hs
    have hw' : w' = [] ∨ w' = [(lutPath sp i.name, i.lut)] := by
      rcases saves_table h with ⟨rfl, _⟩ | rfl
      · left; simpa using hw
      · simp only [List.prefix_cons_iff, List.prefix_nil] at hw
        rcases hw with rfl | ⟨t, rfl, rfl⟩ <;> simp
    rcases hw' with rfl | rfl
    · exact hI
    · intro j hj
      refine ⟨fun hm' => ?_, fun side => ?_⟩
      · by_cases hij : lutPath sp j.name = lutPath sp i.name
        · obtain rfl := lut_inj hl hj hi hij
          right
          simp [writes_cons, FS.write, FS.writes]
        · simp only [writes_cons, FS.write, writes_nil, if_neg hij]
          exact (hI j hj).1 hm'
      · apply groupOk_congr _ ((hI j hj).2 side)
        intro k
        simp only [writes_cons, FS.write, writes_nil, if_neg (lut_ne_mat hl hi hj hm).symm]
  | mats i side =>
    have hi := (show _ ∈ l from hs)
    by_cases hc : Consistent sp fs i side
    · rw [saves_nil hp seed (s := .mats i side) (consistent_whole hc)] at h
      simp only [Option.some.injEq] at h
      subst h
      obtain rfl : w' = [] := by simpa using hw
      exact hI
    rcases saves_mats h with ⟨rfl, _⟩ | ⟨L, rfl, h1, h2⟩
    · obtain rfl : w' = [] := by simpa using hw
      exact hI
    · have hready : i.method = .RT_TMM → fs (lutPath sp i.name) = some (.whole i.lut) := by
        intro hm
        rcases (hI i hi).1 hm with h' | h'
        · obtain ⟨x, _, hx⟩ := h1 hm
          rw [h'] at hx; simp at hx
        · exact h'
      obtain rfl := ownTable_eq hready h1 h2
      obtain ⟨ks, hks, rfl⟩ : ∃ ks, ks <+: requiredKinds i.calcProf ∧
          w' = matWrites sp i side (i.compute side seed (ownTable i)) ks := by
        obtain ⟨ks, hks, he⟩ := List.prefix_map_iff.mp hw
        exact ⟨ks, hks, he⟩
      intro j hj
      refine ⟨fun hm' => ?_, fun side' => ?_⟩
      · rw [matWrites_other _ _ (fun k => lut_ne_mat hl hj hi hm')]
        exact (hI j hj).1 hm'
      · by_cases hij : j = i ∧ side' = side
        · obtain ⟨rfl, rfl⟩ := hij
          rcases prefix_cases hks with rfl | hlast
          · exact Or.inl (consistent_after hl hj fs seed)
          · have hn : ks.Nodup := hks.sublist.nodup (requiredKinds_nodup _)
            rcases (hI j hj).2 side' with hc' | ⟨g1, g2⟩
            · exact absurd hc' hc
            · refine Or.inr ⟨?_, ?_⟩
              · rw [matWrites_at (hl.relative j hj) _ hn, if_neg hlast]
                exact g1
              · by_cases hA : Kind.A ∈ ks
                · refine Or.inr fun k hk => ?_
                  unfold Whole
                  rw [matWrites_at (hl.relative j hj) _ hn]
                  split_ifs with hk'
                  · exact Or.inr ⟨_, rfl⟩
                  · obtain rfl := prefix_rest hks hA hk hk'
                    exact Or.inl g1
                · rcases g2 with g2 | g2
                  · left
                    rw [matWrites_at (hl.relative j hj) _ hn, if_neg hA]
                    exact g2
                  · refine Or.inr fun k hk => ?_
                    unfold Whole
                    rw [matWrites_at (hl.relative j hj) _ hn]
                    split_ifs
                    · exact Or.inr ⟨_, rfl⟩
                    · exact g2 k hk
        · apply groupOk_congr _ ((hI j hj).2 side')
          intro k
          exact matWrites_other _ _ (fun k' he => hij ⟨(mat_inj hl hj hi he).1, (mat_inj hl hj hi he).2.1⟩)

theorem done_step {fs : FS γ} {seed : σ} {s : Step γ σ} {w : List (Str × γ)} (hI : Inv sp l fs)
    (hs : StepIn l s) (h : Step.saves hp sp false fs seed s = some w) :
    LutReady sp fs s ∨ StepDone sp fs s ∧ w = [] := by
  cases s with
  | table i => exact Or.inl trivial
  | mats i side =>
    have hi := (show _ ∈ l from hs)
    by_cases hc : Consistent sp fs i side
    · rw [saves_nil hp seed (s := .mats i side) (consistent_whole hc)] at h
      simp only [Option.some.injEq] at h
      exact Or.inr ⟨hc, h.symm⟩
    rcases saves_mats h with ⟨rfl, hw, _⟩ | ⟨L, rfl, h1, h2⟩
    · exfalso
      rcases (hI i hi).2 side with hc' | ⟨g1, _⟩
      · exact hc hc'
      · obtain ⟨x, hx⟩ := hw _ (List.mem_map.mpr ⟨_, lastKind_mem _, rfl⟩)
        rw [g1] at hx; simp at hx
    · left
      intro hm
      rcases (hI i hi).1 hm with h' | h'
      · obtain ⟨x, _, hx⟩ := h1 hm
        rw [h'] at hx; simp at hx
      · exact h'

theorem inv_done {fs : FS γ} {seed : σ} {s : Step γ σ} {w : List (Str × γ)} (hI : Inv sp l fs)
    (hs : StepIn l s) (h : Step.saves hp sp false fs seed s = some w) : StepDone sp (fs.writes w) s := by
  have hI' := inv_step hl hI hs h (List.prefix_refl w)
  have hf := files_after hp h
  cases s with
  | table i =>
    obtain ⟨hi, hm⟩ := hs
    obtain ⟨x, hx⟩ := hf (lutPath sp i.name) (by simp [stepFiles])
    rcases (hI' i hi).1 hm with h' | h'
    · rw [h'] at hx; simp at hx
    · exact h'
  | mats i side =>
    have hi := (show _ ∈ l from hs)
    rcases (hI' i hi).2 side with hc | ⟨g1, _⟩
    · exact hc
    · obtain ⟨x, hx⟩ := hf _ (List.mem_map.mpr ⟨_, lastKind_mem _, rfl⟩)
      rw [g1] at hx; simp at hx

theorem inv_keep {fs : FS γ} {seed : σ} {s t : Step γ σ} {w : List (Str × γ)} (hI : Inv sp l fs)
    (hs : StepIn l s) (ht : StepIn l t) (hd : StepDone sp fs t)
    (h : Step.saves hp sp false fs seed s = some w) : StepDone sp (fs.writes w) t := by
  rcases done_step hl hI hs h with hr | ⟨_, rfl⟩
  · exact done_keep hl hs ht hr hd h
  · exact hd

theorem inv_runs {ss : List (Step γ σ)} {fs fs' : FS γ} (h : Runs hp sp false ss fs fs')
    (hss : ∀ s ∈ ss, StepIn l s) (hI : Inv sp l fs) :
    Inv sp l fs' ∧ (∀ t, StepIn l t → StepDone sp fs t → StepDone sp fs' t) ∧ ∀ t ∈ ss, StepDone sp fs' t := by
  induction h with
  | nil => exact ⟨hI, fun t _ h => h, by simp⟩
  | @cons s ss fs w fs' seed hs hrest ih =>
    obtain ⟨i1, i2, i3⟩ := ih (fun s hs => hss s (by simp [hs])) (inv_step hl hI (hss s (by simp)) hs (List.prefix_refl w))
    refine ⟨i1, fun t ht hd => i2 t ht (inv_keep hl hI (hss s (by simp)) ht hd hs), fun t ht => ?_⟩
    rcases List.mem_cons.mp ht with rfl | ht
    · exact i2 t (hss t (by simp)) (inv_done hl hI (hss t (by simp)) hs)
    · exact i3 t ht

theorem inv_crashes {ss : List (Step γ σ)} {fs fs' : FS γ} (h : Crashes hp sp false ss fs fs')
    (hss : ∀ s ∈ ss, StepIn l s) (hI : Inv sp l fs) : Inv sp l fs' := by
  induction h with
  | stop => exact hI
  | mid seed hs hw => exact inv_step hl hI (hss _ (by simp)) hs hw
  | next seed hs _ ih =>
    exact ih (fun s hs => hss s (by simp [hs])) (inv_step hl hI (hss _ (by simp)) hs (List.prefix_refl _))

theorem inv_fresh {fs : FS γ} (h : Fresh sp l fs) : Inv sp l fs := by
  intro i hi
  exact ⟨fun _ => Or.inl (h i hi).1, fun side => Or.inr ⟨(h i hi).2 _ _, Or.inl ((h i hi).2 _ _)⟩⟩

theorem saves_some {fs : FS γ} (seed : σ) {s : Step γ σ} (hI : Inv sp l fs) (hT : TablesOk hp l)
    (hs : StepIn l s) (hr : LutReady sp fs s) : ∃ w, Step.saves hp sp false fs seed s = some w := by
  cases s with
  | table i =>
    obtain ⟨hi, hm⟩ := hs
    rcases (hI i hi).1 hm with h | h
    · exact ⟨[(lutPath sp i.name, i.lut)], by simp [Step.saves, h]⟩
    · exact ⟨[], saves_nil hp seed (by intro p hp'; simp only [stepFiles, List.mem_singleton] at hp'; subst hp'; exact ⟨_, h⟩)⟩
  | mats i side =>
    have hi := (show _ ∈ l from hs)
    rcases (hI i hi).2 side with hc | ⟨g1, g2⟩
    · exact ⟨[], saves_nil hp seed (s := .mats i side) (consistent_whole hc)⟩
    · have hpaths : getMatricesOrPaths fs sp i.name side i.calcProf false
          = .paths (requiredPaths sp i.name side i.calcProf) := by
        rcases g2 with g2 | g2
        · unfold getMatricesOrPaths requiredPaths requiredKinds
          cases i.calcProf <;> simp [g2]
        have gRT := g2 .RT (by cases i.calcProf <;> simp [requiredKinds])
        have gA := g2 .A (by cases i.calcProf <;> simp [requiredKinds])
        unfold getMatricesOrPaths requiredPaths
        cases hb : i.calcProf
        · simp only [hb, lastKind, Bool.false_eq_true, if_false] at g1
          simp [g1, requiredKinds]
        · simp only [hb, lastKind, if_true] at g1
          rcases gRT with g | ⟨x, g⟩
          · simp [g, requiredKinds]
          · rcases gA with g' | ⟨y, g'⟩
            · simp [g', requiredKinds]
            · simp [g, g', g1, requiredKinds, FS.load]
      simp only [Step.saves, hpaths]
      split_ifs with hm
      · rw [load_eq_some.mpr (hr hm)]
        simp only [Option.bind_some]
        have : (i.calcProf && !hp i.lut) = false := by
          cases hpr : i.prof
          · simp [Iface.calcProf, hm, hpr]
          · simp [hT i hi hm hpr]
        rw [this]
        exact ⟨_, rfl⟩
      · exact ⟨_, rfl⟩

/-- From every state satisfying the invariant, a run with `overwrite=False` goes through. -/
theorem runs_exists [Nonempty σ] {ss : List (Step γ σ)} {fs : FS γ} (hI : Inv sp l fs) (hT : TablesOk hp l)
    (hss : ∀ s ∈ ss, StepIn l s)
    (hr : ∀ s ∈ ss, ∀ i side, s = .mats i side → i.method = .RT_TMM → StepDone sp fs (Step.table i)) :
    ∃ fs', Runs hp sp false ss fs fs' := by
  obtain ⟨seed⟩ := ‹Nonempty σ›
  induction ss generalizing fs with
  | nil => exact ⟨fs, .nil fs⟩
  | cons s ss ih =>
    have hready : LutReady sp fs s := by
      cases s with
      | table => trivial
      | mats i side => exact fun hm => hr _ (by simp) i side rfl hm
    obtain ⟨w, hw⟩ := saves_some hl seed hI hT (hss s (by simp)) hready
    obtain ⟨fs', h⟩ := ih (inv_step hl hI (hss s (by simp)) hw (List.prefix_refl w)) (fun s hs => hss s (by simp [hs]))
      (by
        rintro s' hs' i side rfl hm
        have hi := (show _ ∈ l from hss _ (List.mem_cons_of_mem _ hs'))
        exact inv_keep hl hI (hss s (by simp)) (show StepIn l (Step.table _) from ⟨hi, hm⟩) (hr _ (List.mem_cons_of_mem _ hs') i side rfl hm) hw)
    exact ⟨fs', .cons seed hw h⟩

theorem all_runs_exists [Nonempty σ] {fs : FS γ} (hI : Inv sp l fs) (hT : TablesOk hp l) :
    ∃ fs', Runs hp sp false (allSteps l) fs fs' := by
  obtain ⟨m, h1⟩ := runs_exists hl (ss := tableSteps l) hI hT (fun s hs => stepIn_of_mem (by simp [allSteps, hs]))
    (by rintro s hs i side rfl; simp [tableSteps] at hs)
  obtain ⟨i1, _, i3⟩ := inv_runs hl h1 (fun s hs => stepIn_of_mem (by simp [allSteps, hs])) hI
  obtain ⟨fs', h2⟩ := runs_exists hl (ss := matSteps l) i1 hT (fun s hs => stepIn_of_mem (by simp [allSteps, hs]))
    (by
      rintro s hs i side rfl hm
      apply i3
      have hi := mem_of_mats hs
      simp [tableSteps, hi, hm])
  exact ⟨fs', (runs_append hl).mpr ⟨m, h1, h2⟩⟩

end inv

end Rayflare.Lemmas
