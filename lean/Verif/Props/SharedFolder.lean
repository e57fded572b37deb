import Verif.Props.Files2
import Verif.Model.Concurrent

/-!
# Properties C136 and C137: one project folder used for several structures, one after the other or at the same time
-/

namespace Rayflare

open Rayflare.Model Rayflare.Spec Rayflare.Lemmas

variable {γ σ : Type*}

/-! ## C136: one after the other -/

/-- Two structures with the same names, methods and profile requests; everything else – layers, textures, angles, wavelengths – may differ. -/
def SameLabels (l l' : List (Iface γ σ)) : Prop :=
  List.Forall₂ (fun i j => j.name = i.name ∧ j.method = i.method ∧ j.prof = i.prof) l l'

theorem sameLabels_matFiles (sp : Str) {l l' : List (Iface γ σ)} (h : SameLabels l l') :
    (matSteps l').map (stepFiles sp) = (matSteps l).map (stepFiles sp) := by
  induction h with
  | nil => rfl
  | @cons i j l l' hij h ih =>
    have he : l'.isEmpty = l.isEmpty := by cases h <;> rfl
    simp only [matSteps, List.map_append, List.map_map, ih, sidesOf, he, hij.2.1]
    congr 1
    apply List.map_congr_left
    intro s _
    simp [stepFiles, Iface.calcProf, hij.1, hij.2.1, hij.2.2]

theorem sameLabels_tableFiles (sp : Str) {l l' : List (Iface γ σ)} (h : SameLabels l l') :
    (tableSteps l').map (stepFiles sp) = (tableSteps l).map (stepFiles sp) := by
  induction h with
  | nil => rfl
  | @cons i j l l' hij h ih =>
    by_cases hm : i.method = .RT_TMM
    · simp only [tableSteps, List.filter_cons, hij.2.1, hm, decide_true, if_true, List.map_cons] at ih ⊢
      rw [ih]
      simp [stepFiles, hij.1]
    · simp only [tableSteps, List.filter_cons, hij.2.1, hm, decide_false, Bool.false_eq_true, if_false] at ih ⊢
      exact ih

theorem sameLabels_whole {sp : Str} {fs : FS γ} {l l' : List (Iface γ σ)} (h : SameLabels l l')
    (hf : ∀ s ∈ allSteps l, ∀ p ∈ stepFiles sp s, Whole fs p) : ∀ s ∈ allSteps l', ∀ p ∈ stepFiles sp s, Whole fs p := by
  have he : (allSteps l').map (stepFiles sp) = (allSteps l).map (stepFiles sp) := by
    simp only [allSteps, List.map_append, sameLabels_matFiles sp h, sameLabels_tableFiles sp h]
  intro s hs p hp
  have hm : stepFiles sp s ∈ (allSteps l).map (stepFiles sp) := he ▸ List.mem_map_of_mem hs
  obtain ⟨t, ht, e⟩ := List.mem_map.mp hm
  exact hf t ht p (e ▸ hp)

/-- **C136 fails.** Let a run for one structure be complete and then change anything about the structure or the options except names, methods and profile requests.
The run for the new structure with `overwrite=False` goes through, leaves the disk as it is, and what is loaded for each interface of the new structure is what was computed for the old one. -/
theorem C136_changed_structure_fails [Nonempty σ] (hp : γ → Bool) (sp : Str) (ow : Bool) (l l' : List (Iface γ σ)) (hl : NamesOk l)
    (hsame : SameLabels l l') (fs fs₁ : FS γ) (hfresh : ow = true ∨ Fresh sp l fs) (h : Runs hp sp ow (allSteps l) fs fs₁) :
    (∃ fs₂, Runs hp sp false (allSteps l') fs₁ fs₂) ∧
    ∀ fs₂, Runs hp sp false (allSteps l') fs₁ fs₂ → fs₂ = fs₁ ∧
      ∀ (n : ℕ) (i j : Iface γ σ), l[n]? = some i → l'[n]? = some j → ∃ seed : σ, ∀ k ∈ requiredKinds j.calcProf,
        fs₂.load (matPath sp j.name .front k) = some (i.compute .front seed (ownTable i) k) := by
  have hf := sameLabels_whole hsame (runs_files hp h)
  refine ⟨⟨fs₁, runs_idle_exists hp hf⟩, fun fs₂ h₂ => ?_⟩
  obtain rfl := runs_idle hp hf h₂
  refine ⟨rfl, fun n i j hi hj => ?_⟩
  obtain ⟨hl1, hg⟩ := List.forall₂_iff_get.mp hsame
  obtain ⟨hn, rfl⟩ := List.getElem?_eq_some_iff.mp hi
  obtain ⟨hn', rfl⟩ := List.getElem?_eq_some_iff.mp hj
  obtain ⟨h1, h2, h3⟩ := hg n hn hn'
  simp only [List.get_eq_getElem] at h1 h2 h3
  obtain ⟨seed, hc⟩ := (C29_own_matrices hp sp ow l hl fs _ hfresh h).1 l[n] (List.getElem_mem hn)
  refine ⟨seed, fun k hk => ?_⟩
  rw [h1]
  refine load_eq_some.mpr (hc k ?_)
  simpa [Iface.calcProf, h2, h3] using hk

/-- Two structures that differ, with the same labels: a planar stack with other layers. -/
example : ∃ l l' : List (Iface ℕ ℕ), NamesOk l ∧ SameLabels l l' ∧ l ≠ l' ∧
    ∃ fs₁, Runs (fun _ => true) "/r".toList false (allSteps l) (fun _ => none) fs₁ ∧
      fs₁.load (matPath "/r".toList "cell".toList .front .RT) = some 1 := by
  let i : Iface ℕ ℕ := ⟨"cell".toList, .TMM, false, 0, fun _ _ _ _ => 1⟩
  let j : Iface ℕ ℕ := ⟨"cell".toList, .TMM, false, 0, fun _ _ _ _ => 2⟩
  have hn : NamesOk [i] := ⟨by decide, by decide, by
    intro a ha b hb s hm
    simp only [List.mem_singleton] at ha
    subst ha
    simp [i] at hm⟩
  obtain ⟨fs₁, h⟩ := C74_fresh_table_partial (fun _ => true) "/r".toList [i] hn (fun _ _ _ _ => rfl) (fun _ => none) (fun _ _ _ => Or.inl rfl) (fun _ _ _ _ => rfl)
  refine ⟨[i], [j], hn, List.Forall₂.cons ⟨rfl, rfl, rfl⟩ .nil, ?_, fs₁, h, ?_⟩
  · intro e
    have := congrFun (congrFun (congrFun (congrFun (congrArg Iface.compute (List.cons.inj e).1) .front) 0) none) .RT
    simp [i, j] at this
  · obtain ⟨seed, hc⟩ := (C29_own_matrices (fun _ => true) "/r".toList false [i] hn _ _ (Or.inr fun _ _ => ⟨rfl, fun _ _ => rfl⟩) h).1 i (by simp)
    exact load_eq_some.mpr (hc .RT (by cases i.calcProf <;> simp [requiredKinds]))

/-- One event in the life of a project folder used for several structures, all made of interfaces from the list `U`: a completed run, overwriting or not, for
one of them, or a run with `overwrite=False` that is killed between two saves. -/
def SharedEvent (hp : γ → Bool) (sp : Str) (U : List (Iface γ σ)) (a b : FS γ) : Prop :=
  ∃ l, l ⊆ U ∧ (l.map Iface.name).Nodup ∧ ((∃ ow, Runs hp sp ow (allSteps l) a b) ∨ Crashes hp sp false (allSteps l) a b)

theorem namesOk_subset {U l : List (Iface γ σ)} (hU : NamesOk U) (h : l ⊆ U) (hn : (l.map Iface.name).Nodup) : NamesOk l :=
  ⟨hn, fun i hi => hU.relative i (h hi), fun i hi j hj => hU.noClash i (h hi) j (h hj)⟩

theorem stepIn_subset {U l : List (Iface γ σ)} (h : l ⊆ U) {s : Step γ σ} (hs : StepIn l s) : StepIn U s := by
  cases s with
  | table i => exact ⟨h hs.1, hs.2⟩
  | mats i side => exact h hs

/-- A completed overwriting run for some of the interfaces keeps the invariant for all. -/
theorem inv_overwrite_subset {hp : γ → Bool} {sp : Str} {U l : List (Iface γ σ)} (hU : NamesOk U) (h : l ⊆ U) (hn : (l.map Iface.name).Nodup)
    {fs fs' : FS γ} (hI : Inv sp U fs) (hr : Runs hp sp true (allSteps l) fs fs') : Inv sp U fs' := by
  have hd := all_done_overwrite (namesOk_subset hU h hn) hr
  intro i hi
  refine ⟨fun hm => ?_, fun side => ?_⟩
  · by_cases hil : i ∈ l
    · exact Or.inr (hd _ (table_mem.mpr ⟨hil, hm⟩))
    · rw [runs_other hp hr fun s hs hp' => ?_]
      · exact (hI i hi).1 hm
      · cases s with
        | table j =>
          have hj := (table_mem.mp hs).1
          simp only [stepFiles, List.mem_singleton] at hp'
          exact hil (lut_inj hU hi (h hj) hp' ▸ hj)
        | mats j side' =>
          have hj := mem_of_mats (mats_mem_all.mp hs)
          obtain ⟨k', -, e⟩ := List.mem_map.mp hp'
          exact lut_ne_mat hU hi (h hj) hm e.symm
  · by_cases hmem : Step.mats i side ∈ allSteps l
    · exact Or.inl (hd _ hmem)
    · refine groupOk_congr (fun k => ?_) ((hI i hi).2 side)
      refine runs_other hp hr fun s hs hp' => ?_
      cases s with
      | table j =>
        obtain ⟨hj, hm⟩ := table_mem.mp hs
        simp only [stepFiles, List.mem_singleton] at hp'
        exact lut_ne_mat hU (h hj) hi hm hp'.symm
      | mats j side' =>
        have hj := mem_of_mats (mats_mem_all.mp hs)
        obtain ⟨k', -, e⟩ := List.mem_map.mp hp'
        obtain ⟨rfl, rfl, -⟩ := mat_inj hU (h hj) hi e
        exact hmem hs

theorem inv_shared {hp : γ → Bool} {sp : Str} {U : List (Iface γ σ)} (hU : NamesOk U) {fs fs₁ : FS γ} (hfresh : Fresh sp U fs)
    (hh : Relation.ReflTransGen (SharedEvent hp sp U) fs fs₁) : Inv sp U fs₁ := by
  induction hh with
  | refl => exact inv_fresh hU hfresh
  | tail _ hb ih =>
    obtain ⟨l, hl, hn, ⟨ow, hb⟩ | hb⟩ := hb
    · cases ow with
      | true => exact inv_overwrite_subset hU hl hn ih hb
      | false => exact (inv_runs hU hb (fun s hs => stepIn_subset hl (stepIn_of_mem hs)) ih).1
    · exact inv_crashes hU hb (fun s hs => stepIn_subset hl (stepIn_of_mem hs)) ih

/-- **C136 (partial).** Structures that share interfaces may share a project folder, as long as the same name always stands for the same interface (all are made of interfaces from the list `U`, in
which names are different).  Start from a folder without results for these interfaces.  After any history of completed runs, overwriting or not, and killed runs without overwriting, for any of the structures, a run without
overwriting for any of them goes through, and after a completed run the results stored for each of its interfaces were computed for this interface, in one calculation.  Missing: the same name for different interfaces. -/
theorem C136_shared_folder_partial [Nonempty σ] (hp : γ → Bool) (sp : Str) (U : List (Iface γ σ)) (hU : NamesOk U) (hT : TablesOk hp U)
    (fs fs₁ : FS γ) (hfresh : Fresh sp U fs) (hh : Relation.ReflTransGen (SharedEvent hp sp U) fs fs₁)
    (l : List (Iface γ σ)) (hl : l ⊆ U) (hn : (l.map Iface.name).Nodup) :
    (∃ fs₂, Runs hp sp false (allSteps l) fs₁ fs₂) ∧
    ∀ ow fs₂, Runs hp sp ow (allSteps l) fs₁ fs₂ →
      (∀ i ∈ l, Consistent sp fs₂ i .front) ∧
      (∀ i ∈ l.dropLast, i.method ≠ .Mirror → i.method ≠ .Lambertian → Consistent sp fs₂ i .rear) ∧
      ∀ i ∈ l, i.method = .RT_TMM → fs₂ (lutPath sp i.name) = some (.whole i.lut) := by
  have hI := inv_shared hU hfresh hh
  have hlN := namesOk_subset hU hl hn
  have hIl : Inv sp l fs₁ := fun i hi => hI i (hl hi)
  refine ⟨all_runs_exists hlN hIl fun i hi => hT i (hl hi), fun ow fs₂ h => ?_⟩
  have hdone : ∀ t ∈ allSteps l, StepDone sp fs₂ t := by
    cases ow with
    | true => exact all_done_overwrite hlN h
    | false => exact (inv_runs hlN h (fun s hs => stepIn_of_mem hs) hIl).2.2
  exact ⟨fun i hi => hdone _ (mats_mem_all.mpr (mats_front_mem hi)),
    fun i hi h1 h2 => hdone _ (mats_mem_all.mpr (mats_rear_mem hi h1 h2)),
    fun i hi hm => hdone _ (table_mem.mpr ⟨hi, hm⟩)⟩

/-- A history for two structures in one folder: first the texture on the grating, then the texture on the mirror. -/
example : ∃ fs₁ : FS ℕ, Relation.ReflTransGen (SharedEvent (fun n => decide (n = 7)) "/r".toList exIfaces) (fun _ => none) fs₁ ∧
    (∃ i ∈ exIfaces, ∃ j ∈ exIfaces, i ≠ j ∧ [i, j] ⊆ exIfaces ∧ ([i, j].map Iface.name).Nodup ∧
      Runs (fun n => decide (n = 7)) "/r".toList false (allSteps [i, j]) (fun _ => none) fs₁) := by
  obtain ⟨fs₁, h⟩ := (C136_shared_folder_partial (fun n => decide (n = 7)) "/r".toList exIfaces exIfaces_names (by unfold TablesOk; decide)
    (fun _ => none) _ (fun _ _ => ⟨rfl, fun _ _ => rfl⟩) .refl [exIfaces[0], exIfaces[1]] (by simp [exIfaces]) (by decide)).1
  refine ⟨fs₁, Relation.ReflTransGen.single ⟨[exIfaces[0], exIfaces[1]], by simp [exIfaces], by decide, Or.inl ⟨false, h⟩⟩, exIfaces[0], by simp, exIfaces[1], by simp, ?_, by simp [exIfaces], by decide, h⟩
  intro e
  have := congrArg Iface.prof e
  simp [exIfaces] at this

end Rayflare
