import Verif.Props.Files2
import Verif.Lemmas.TornFiles

/-! # Property C75: a crash in the middle of writing a file -/

namespace Rayflare

open Rayflare.Model Rayflare.Spec Rayflare.Lemmas

variable {γ σ : Type*}

/-- A run with `overwrite=False` that does not come to its end: it is killed (or raises) between two saves, or it is killed while some file is being written. -/
def KilledRun (hp : γ → Bool) (sp : Str) (l : List (Iface γ σ)) (a b : FS γ) : Prop :=
  Crashes hp sp false (allSteps l) a b ∨ ∃ p, CutOff hp sp false (allSteps l) a p b

/-- **C75 fails.** For every structure and whatever was on disk before: let a run, overwriting or not, be killed while it is writing a file that is not an RT file, or that is an RT file beside an existing A file.  From then on no run with
`overwrite=False` goes through, however often it is tried. -/
theorem C75_torn_file_fails (hp : γ → Bool) (sp : Str) (l : List (Iface γ σ)) (hl : NamesOk l) (ow : Bool) (fs fs₁ fs₂ : FS γ) (p : Str)
    (hcut : CutOff hp sp ow (allSteps l) fs p fs₁)
    (hfile : ∀ i ∈ l, ∀ side, p = matPath sp i.name side .RT → fs₁ (matPath sp i.name side .A) ≠ none)
    (htries : Relation.ReflTransGen (KilledRun hp sp l) fs₁ fs₂) :
    ¬ ∃ fs₃, Runs hp sp false (allSteps l) fs₂ fs₃ := by
  have hin : ∀ t ∈ allSteps l, StepIn l t := fun t ht => stepIn_of_mem ht
  rcases cut_stuck hl hcut hin with ⟨s, hs, hst⟩ | ⟨i, side, hm, he, hA⟩
  · have hst₂ : StuckAt sp fs₂ s := by
      induction htries with
      | refl => exact hst
      | tail _ hb ih =>
        rcases hb with hb | ⟨q, hb⟩
        · exact stuck_crashes hl (hin s hs) hb hin ih
        · exact stuck_cut hl (hin s hs) hb hin ih
    rintro ⟨fs₃, h⟩
    exact stuck_runs hl (hin s hs) h hin hs hst₂
  · exact absurd hA (hfile i (hin _ hm) side he)

/-- **C75 (partial).** Start from a folder without results for the structure.  Runs with `overwrite=False` may be killed any number of times, between two saves or while an RT file is being written whose A file is not there yet; the next run goes
through and leaves, for every interface, complete matrices of one single calculation.  Missing: all other files, see `C75_torn_file_fails`. -/
theorem C75_torn_RT_repaired_partial [Nonempty σ] (hp : γ → Bool) (sp : Str) (l : List (Iface γ σ)) (hl : NamesOk l) (hT : TablesOk hp l)
    (fs fs₁ : FS γ) (hfresh : Fresh sp l fs)
    (hkills : Relation.ReflTransGen (fun a b => Crashes hp sp false (allSteps l) a b ∨
      ∃ i ∈ l, ∃ side, CutOff hp sp false (allSteps l) a (matPath sp i.name side .RT) b ∧ b (matPath sp i.name side .A) = none) fs fs₁) :
    (∃ fs₂, Runs hp sp false (allSteps l) fs₁ fs₂) ∧
    ∀ fs₂, Runs hp sp false (allSteps l) fs₁ fs₂ →
      (∀ i ∈ l, Consistent sp fs₂ i .front) ∧
      (∀ i ∈ l.dropLast, i.method ≠ .Mirror → i.method ≠ .Lambertian → Consistent sp fs₂ i .rear) ∧
      (∀ i ∈ l, i.method = .RT_TMM → fs₂ (lutPath sp i.name) = some (.whole i.lut)) := by
  have hin : ∀ t ∈ allSteps l, StepIn l t := fun t ht => stepIn_of_mem ht
  have hI : Inv sp l fs₁ := by
    induction hkills with
    | refl => exact inv_fresh hl hfresh
    | tail _ hb ih =>
      rcases hb with hb | ⟨i, hi, side, hb, hA⟩
      · exact inv_crashes hl hb hin ih
      · exact inv_cut hl hb hin ih hi rfl hA
  refine ⟨all_runs_exists hl hI hT, fun fs₂ h => ?_⟩
  have hd := (inv_runs hl h hin hI).2.2
  exact ⟨fun i hi => hd _ (mats_mem_all.mpr (mats_front_mem hi)), fun i hi h1 h2 => hd _ (mats_mem_all.mpr (mats_rear_mem hi h1 h2)),
    fun i hi hm => hd _ (table_mem.mpr ⟨hi, hm⟩)⟩

/-- A run with `overwrite=True` goes through whatever is on disk. -/
theorem overwrite_runs_exists [Nonempty σ] {hp : γ → Bool} {sp : Str} {l : List (Iface γ σ)} (hl : NamesOk l) (hT : TablesOk hp l) (fs : FS γ) :
    ∃ fs', Runs hp sp true (allSteps l) fs fs' := by
  obtain ⟨seed⟩ := ‹Nonempty σ›
  have key : ∀ (ss : List (Step γ σ)) (fs : FS γ), (∀ s ∈ ss, StepIn l s) →
      (∀ s ∈ ss, ∀ i side, s = .mats i side → i.method = .RT_TMM → StepDone sp fs (Step.table i)) → ∃ fs', Runs hp sp true ss fs fs' := by
    intro ss
    induction ss with
    | nil => exact fun fs _ _ => ⟨fs, .nil fs⟩
    | cons s ss ih =>
      intro fs hss hr
      have hready : LutReady sp fs s := by
        cases s with
        | table => trivial
        | mats i side => exact fun hm => hr _ (by simp) i side rfl hm
      obtain ⟨w, hw⟩ : ∃ w, Step.saves hp sp true fs seed s = some w := by
        cases s with
        | table i => exact ⟨[(lutPath sp i.name, i.lut)], by simp [Step.saves]⟩
        | mats i side =>
          have hpaths : getMatricesOrPaths fs sp i.name side i.calcProf true = .paths (requiredPaths sp i.name side i.calcProf) := by
            unfold getMatricesOrPaths requiredPaths requiredKinds
            cases i.calcProf <;> simp
          simp only [Step.saves, hpaths]
          split_ifs with hm
          · rw [load_eq_some.mpr (hready hm)]
            simp only [Option.bind_some]
            have : (i.calcProf && !hp i.lut) = false := by
              cases hpr : i.prof
              · simp [Iface.calcProf, hm, hpr]
              · simp [hT i (show i ∈ l from hss (.mats i side) (by simp)) hm hpr]
            rw [this]
            exact ⟨_, rfl⟩
          · exact ⟨_, rfl⟩
      obtain ⟨fs', h⟩ := ih (fs.writes w) (fun s hs => hss s (by simp [hs])) (by
        rintro s' hs' i side rfl hm
        have hi := (show _ ∈ l from hss _ (List.mem_cons_of_mem _ hs'))
        exact done_keep hl (hss s (by simp)) (show StepIn l (Step.table _) from ⟨hi, hm⟩) hready (hr _ (List.mem_cons_of_mem _ hs') i side rfl hm) hw)
      exact ⟨fs', .cons seed hw h⟩
  obtain ⟨m, h1⟩ := key (tableSteps l) fs (fun s hs => stepIn_of_mem (by simp [allSteps, hs])) (by rintro s hs i side rfl; simp [tableSteps] at hs)
  have ht := runs_done_overwrite hl h1 (fun s hs => stepIn_of_mem (by simp [allSteps, hs])) (fun s hs i side e _ => by subst e; simp [tableSteps] at hs)
  obtain ⟨fs', h2⟩ := key (matSteps l) m (fun s hs => stepIn_of_mem (by simp [allSteps, hs])) (by
    rintro s hs i side rfl hm
    apply ht
    have hi := mem_of_mats hs
    simp [tableSteps, hi, hm])
  exact ⟨fs', (runs_append hl).mpr ⟨m, h1, h2⟩⟩

/-- **C75 (partial).** With `overwrite=True` a run goes through and everything is right afterwards, whatever is on disk – also after any number of crashes in the middle of writing any file. -/
theorem C75_overwrite_repairs_partial [Nonempty σ] (hp : γ → Bool) (sp : Str) (l : List (Iface γ σ)) (hl : NamesOk l) (hT : TablesOk hp l) (fs : FS γ) :
    (∃ fs', Runs hp sp true (allSteps l) fs fs') ∧
    ∀ fs', Runs hp sp true (allSteps l) fs fs' →
      (∀ i ∈ l, Consistent sp fs' i .front) ∧
      (∀ i ∈ l.dropLast, i.method ≠ .Mirror → i.method ≠ .Lambertian → Consistent sp fs' i .rear) ∧
      (∀ i ∈ l, i.method = .RT_TMM → fs' (lutPath sp i.name) = some (.whole i.lut)) := by
  refine ⟨overwrite_runs_exists hl hT fs, fun fs' h => ?_⟩
  have hd := all_done_overwrite hl h
  exact ⟨fun i hi => hd _ (mats_mem_all.mpr (mats_front_mem hi)), fun i hi h1 h2 => hd _ (mats_mem_all.mpr (mats_rear_mem hi h1 h2)),
    fun i hi hm => hd _ (table_mem.mpr ⟨hi, hm⟩)⟩

/-! ## The hypotheses are satisfiable -/

/-- A TMM interface. -/
def exPlanar : Iface ℕ ℕ := { name := "arc".toList, method := .TMM, prof := true, lut := 0, compute := fun _ s _ _ => s }

theorem exPlanar_names : NamesOk [exPlanar] := by
  refine ⟨by simp, by decide, ?_⟩
  intro i hi j hj side hm
  simp only [List.mem_singleton] at hi
  subst hi
  simp [exPlanar] at hm

theorem exPlanar_saves (sp : Str) :
    Step.saves (fun _ => true) sp false (fun _ => none) 5 (.mats exPlanar .front)
      = some (matWrites sp exPlanar .front (fun _ => 5) [.RT, .A, .prof]) := by
  simp [Step.saves, getMatricesOrPaths, exPlanar, Iface.calcProf, requiredKinds, matWrites]

/-- In an empty folder: killed while the A file is written … -/
example (sp : Str) : ∃ fs₁, CutOff (fun _ => true) sp false (allSteps [exPlanar]) (fun _ => none) (matPath sp exPlanar.name .front .A) fs₁ ∧
    ∀ i ∈ [exPlanar], ∀ side, matPath sp exPlanar.name .front .A = matPath sp i.name side .RT → fs₁ (matPath sp i.name side .A) ≠ none := by
  refine ⟨_, .here 5 (exPlanar_saves _) (w' := matWrites sp exPlanar .front (fun _ => 5) [.RT]) (x := 5) (by simp [matWrites]), ?_⟩
  intro i hi side he
  simp only [List.mem_singleton] at hi
  subst hi
  have := ((matPath_inj (by decide) (by decide)).mp he).2.2
  simp at this

/-- … or while the RT file is written. -/
example (sp : Str) : ∃ fs₁, CutOff (fun _ => true) sp false (allSteps [exPlanar]) (fun _ => none) (matPath sp exPlanar.name .front .RT) fs₁ ∧
    fs₁ (matPath sp exPlanar.name .front .A) = none := by
  refine ⟨_, .here 5 (exPlanar_saves _) (w' := []) (x := 5) (by simp [matWrites]), ?_⟩
  have : matPath sp exPlanar.name .front .A ≠ matPath sp exPlanar.name .front .RT := fun he => by
    have := ((matPath_inj (by decide) (by decide)).mp he).2.2
    simp at this
  simp [FS.write, this, FS.writes]

end Rayflare
