import Verif.Props.Files

/-!
# Properties C30, C73: what holds over arbitrary histories of runs
-/

namespace Rayflare

open Rayflare.Model Rayflare.Spec Rayflare.Lemmas

variable {γ σ : Type*}

/-- One event in the life of a project folder: a completed run of `process_structure` (overwriting or not), or a run with `overwrite=False` that is killed between two saves. -/
def FolderEvent (hp : γ → Bool) (sp : Str) (l : List (Iface γ σ)) (a b : FS γ) : Prop :=
  (∃ ow, Runs hp sp ow (allSteps l) a b) ∨ Crashes hp sp false (allSteps l) a b

/-- A completed overwriting run keeps the invariant. -/
theorem inv_overwrite {hp : γ → Bool} {sp : Str} {l : List (Iface γ σ)} (hl : NamesOk l) {fs fs' : FS γ} (hI : Inv sp l fs)
    (h : Runs hp sp true (allSteps l) fs fs') : Inv sp l fs' := by
  have hd := all_done_overwrite hl h
  intro i hi
  refine ⟨fun hm => Or.inr (hd _ (table_mem.mpr ⟨hi, hm⟩)), fun side => ?_⟩
  by_cases hmem : Step.mats i side ∈ allSteps l
  · exact Or.inl (hd _ hmem)
  · refine groupOk_congr (fun k => ?_) ((hI i hi).2 side)
    refine runs_other hp h fun s hs hp' => ?_
    cases s with
    | table j =>
      obtain ⟨hj, hm⟩ := table_mem.mp hs
      simp only [stepFiles, List.mem_singleton] at hp'
      exact lut_ne_mat hl hj hi hm hp'.symm
    | mats j side' =>
      have hj := mem_of_mats (mats_mem_all.mp hs)
      obtain ⟨k', -, e⟩ := List.mem_map.mp hp'
      obtain ⟨rfl, rfl, -⟩ := mat_inj hl hj hi e
      exact hmem hs

theorem inv_history {hp : γ → Bool} {sp : Str} {l : List (Iface γ σ)} (hl : NamesOk l) {fs fs₁ : FS γ} (hfresh : Fresh sp l fs)
    (hh : Relation.ReflTransGen (FolderEvent hp sp l) fs fs₁) : Inv sp l fs₁ := by
  induction hh with
  | refl => exact inv_fresh hl hfresh
  | tail _ hb ih =>
    rcases hb with ⟨ow, hb⟩ | hb
    · cases ow with
      | true => exact inv_overwrite hl ih hb
      | false => exact (inv_runs hl hb (fun s hs => stepIn_of_mem hs) ih).1
    · exact inv_crashes hl hb (fun s hs => stepIn_of_mem hs) ih

/-- **C73 (partial).** Start from a folder without results for the structure. After any history of completed runs, overwriting or not, and of killed runs without overwriting – all for the same structure with the same profile
requests – a completed run leaves, for each interface and side, RT, A and (if requested) profile of one and the same calculation.  Missing: histories in which the profile request changes, see `C73_stale_profile_fails`; killed overwriting runs, see C32. -/
theorem C73_same_request_partial (hp : γ → Bool) (sp : Str) (l : List (Iface γ σ)) (hl : NamesOk l) (fs fs₁ fs₂ : FS γ) (hfresh : Fresh sp l fs)
    (hh : Relation.ReflTransGen (FolderEvent hp sp l) fs fs₁) (ow : Bool) (h : Runs hp sp ow (allSteps l) fs₁ fs₂) :
    (∀ i ∈ l, ∃ seed : σ, ∀ k ∈ requiredKinds i.calcProf, fs₂.load (matPath sp i.name .front k) = some (i.compute .front seed (ownTable i) k)) ∧
      ∀ i ∈ l.dropLast, i.method ≠ .Mirror → i.method ≠ .Lambertian →
        ∃ seed : σ, ∀ k ∈ requiredKinds i.calcProf, fs₂.load (matPath sp i.name .rear k) = some (i.compute .rear seed (ownTable i) k) := by
  have hdone : ∀ t ∈ allSteps l, StepDone sp fs₂ t := by
    cases ow with
    | true => exact all_done_overwrite hl h
    | false => exact (inv_runs hl h (fun s hs => stepIn_of_mem hs) (inv_history hl hfresh hh)).2.2
  refine ⟨fun i hi => ?_, fun i hi h1 h2 => ?_⟩
  · obtain ⟨seed, hs⟩ : Consistent sp fs₂ i .front := hdone _ (mats_mem_all.mpr (mats_front_mem hi))
    exact ⟨seed, fun k hk => load_eq_some.mpr (hs k hk)⟩
  · obtain ⟨seed, hs⟩ : Consistent sp fs₂ i .rear := hdone _ (mats_mem_all.mpr (mats_rear_mem hi h1 h2))
    exact ⟨seed, fun k hk => load_eq_some.mpr (hs k hk)⟩

/-- **C30 (partial).** If the interfaces carry different names, every file `calculate_RAT` loads for an interface was computed for this interface and side, for every history of completed runs and killed runs without overwriting that starts in a
folder without results and ends with a completed run.  Missing: interfaces with the same name, see `C30_same_name_fails`. -/
theorem C30_distinct_names_partial (hp : γ → Bool) (sp : Str) (l : List (Iface γ σ)) (hl : NamesOk l) (fs fs₁ fs₂ : FS γ) (hfresh : Fresh sp l fs)
    (hh : Relation.ReflTransGen (FolderEvent hp sp l) fs fs₁) (ow : Bool) (h : Runs hp sp ow (allSteps l) fs₁ fs₂) (i : Iface γ σ) (hi : i ∈ l) :
    (∀ k ∈ requiredKinds i.calcProf, ∃ seed : σ, fs₂.load (matPath sp i.name .front k) = some (i.compute .front seed (ownTable i) k)) ∧
      (i ∈ l.dropLast → i.method ≠ .Mirror → i.method ≠ .Lambertian →
        ∀ k ∈ requiredKinds i.calcProf, ∃ seed : σ, fs₂.load (matPath sp i.name .rear k) = some (i.compute .rear seed (ownTable i) k)) := by
  obtain ⟨h1, h2⟩ := C73_same_request_partial hp sp l hl fs fs₁ fs₂ hfresh hh ow h
  refine ⟨fun k hk => ?_, fun hd hm hL k hk => ?_⟩
  · obtain ⟨seed, hs⟩ := h1 i hi
    exact ⟨seed, hs k hk⟩
  · obtain ⟨seed, hs⟩ := h2 i hd hm hL
    exact ⟨seed, hs k hk⟩

/-- A history: a first run in an empty folder, then a second one. -/
example : ∃ fs₁ fs₂ : FS ℕ, Relation.ReflTransGen (FolderEvent (fun n => decide (n = 7)) "/r".toList exIfaces) (fun _ => none) fs₁ ∧
    Runs (fun n => decide (n = 7)) "/r".toList false (allSteps exIfaces) fs₁ fs₂ := by
  obtain ⟨fs₁, h⟩ := C74_fresh_table_partial (fun n => decide (n = 7)) "/r".toList _ exIfaces_names (by unfold TablesOk; decide) (fun _ => none) (fun _ _ _ => Or.inl rfl) (fun _ _ _ _ => rfl)
  exact ⟨fs₁, fs₁, Relation.ReflTransGen.single (Or.inl ⟨false, h⟩), (C27_rerun_computes_nothing _ _ _ _ _ _ h).2⟩

end Rayflare
