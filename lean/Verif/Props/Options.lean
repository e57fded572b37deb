import Verif.Model.Options
import Mathlib.Tactic.Cases

/-!
# Properties C166, C167, C168: options
-/

namespace Rayflare

open Rayflare.Model

/-- Only as entries of a dictionary. -/
def OptRead.asEntry : OptRead → Bool
  | .item _ | .itemIf _ => true
  | _ => false

theorem read_asEntry {V : Type*} (s s' : Bool) (v : OptKey → Option V) (r : OptRead) (h : OptRead.asEntry r = true) : (⟨s, v⟩ : Opts V).read r = (⟨s', v⟩ : Opts V).read r := by
  cases r <;> simp_all [OptRead.asEntry, Opts.read]

theorem getWavelength_vals {V : Type*} (s s' : Bool) (v : OptKey → Option V) : ∃ w, (⟨s, v⟩ : Opts V).getWavelength = ⟨s, w⟩ ∧ (⟨s', v⟩ : Opts V).getWavelength = ⟨s', w⟩ := by
  cases h : v .wavelengths with
  | none => exact ⟨v, by simp [Opts.getWavelength, h], by simp [Opts.getWavelength, h]⟩
  | some x => exact ⟨fun k => if k = .wavelength then some x else v k, by simp [Opts.getWavelength, h], by simp [Opts.getWavelength, h]⟩

theorem mapM_congr_opt {A B : Type*} {f g : A → Option B} : ∀ {l : List A}, (∀ a ∈ l, f a = g a) → l.mapM f = l.mapM g
  | [], _ => rfl
  | a :: l, h => by
    rw [List.mapM_cons, List.mapM_cons, h a (by simp), mapM_congr_opt fun b hb => h b (by simp [hb])]

/-- **C166**, as far as it holds: for every function but `make_absorption_function` it makes no difference whether the options are a dictionary or a `State` object with the same entries. -/
theorem C166_dictionary_partial {V : Type*} (e : OptEntry) (he : e ≠ .absorptionFunction) (B : List OptRead) (hB : ∀ r ∈ B, r ∈ e.reads) (v : OptKey → Option V) :
    (e.call B ⟨false, v⟩).1 = (e.call B ⟨true, v⟩).1 := by
  by_cases hc : e.copies = true
  · simp only [OptEntry.call, hc, if_true]
  · have hr : ∀ r ∈ e.reads, OptRead.asEntry r = true := by
      cases e <;> first | exact absurd rfl hc | exact absurd rfl he | decide
    simp only [OptEntry.call, hc, Bool.false_eq_true, if_false]
    apply mapM_congr_opt
    intro r h
    by_cases hg : e.getsWavelength = true
    · obtain ⟨w, e1, e2⟩ := getWavelength_vals false true v
      simp only [hg, if_true, e1, e2]
      exact read_asEntry _ _ _ _ (hr r (hB r h))
    · simp only [hg, Bool.false_eq_true, if_false]
      exact read_asEntry _ _ _ _ (hr r (hB r h))

/-- **C166 fails** for `make_absorption_function`: a dictionary raises an error, wherever an option is read first; a `State` object with the same entries does not. -/
theorem C166_dictionary_fails {V : Type*} (v : OptKey → Option V) (B : List OptRead) (hB : ∀ r ∈ B, r ∈ OptEntry.absorptionFunction.reads) (hne : B ≠ []) :
    (OptEntry.absorptionFunction.call B ⟨false, v⟩).1 = none ∧ ((∀ k, k.hasDefault = true → (v k).isSome) → ((OptEntry.absorptionFunction.call B ⟨true, v⟩).1).isSome) := by
  obtain ⟨w, e1, e2⟩ := getWavelength_vals false true v
  constructor
  · obtain ⟨r, B, rfl⟩ := List.exists_cons_of_ne_nil hne
    simp only [OptEntry.call, OptEntry.copies, OptEntry.getsWavelength, Bool.false_eq_true, if_false, if_true, e1, List.mapM_cons]
    have : (⟨false, w⟩ : Opts V).read r = none := by
      have := hB r (by simp)
      simp only [OptEntry.reads, List.mem_cons, List.not_mem_nil, or_false] at this
      rcases this with rfl | rfl | rfl | rfl <;> rfl
    rw [this]; rfl
  · intro hd
    have hw : ∀ k, k.hasDefault = true → (w k).isSome := by
      intro k hk
      have : w = ((⟨true, v⟩ : Opts V).getWavelength).vals := by rw [e2]
      rw [this]
      unfold Opts.getWavelength
      cases h : v .wavelengths with
      | none => simp only [h]; exact hd k hk
      | some x =>
        simp only [h]
        split_ifs
        · rfl
        · exact hd k hk
    simp only [OptEntry.call, OptEntry.copies, OptEntry.getsWavelength, Bool.false_eq_true, if_false, if_true, e2]
    clear hne
    induction B with
    | nil => rfl
    | cons r B ih =>
      have hr : ((⟨true, w⟩ : Opts V).read r).isSome := by
        have := hB r (by simp)
        simp only [OptEntry.reads, List.mem_cons, List.not_mem_nil, or_false] at this
        rcases this with rfl | rfl | rfl | rfl <;> simp only [Opts.read, if_true, Option.isSome_map] <;> exact hw _ rfl
      obtain ⟨a, ha⟩ := Option.isSome_iff_exists.mp hr
      obtain ⟨b, hb⟩ := Option.isSome_iff_exists.mp (ih fun r' h => hB r' (by simp [h]))
      rw [List.mapM_cons, ha, hb]; rfl

/-- **C167**, as far as it holds: the object passed as options is as it was before the call, for `process_structure`, `calculate_RAT`, `rt_structure.calculate` and the functions for fields and permittivities of `rcwa_structure`, and for all functions if `wavelengths` is not used. -/
theorem C167_unchanged_partial {V : Type*} (e : OptEntry) (B : List OptRead) (o : Opts V) (h : e ∈ [OptEntry.processStructure, .calculateRAT, .rtCalculate, .rcwaFields] ∨ o.vals .wavelengths = none) : (e.call B o).2 = o := by
  rcases h with h | h
  · simp only [List.mem_cons, List.not_mem_nil, or_false] at h
    rcases h with rfl | rfl | rfl | rfl <;> rfl
  · simp only [OptEntry.call]
    split_ifs with h1 h2
    · rfl
    · simp only [Opts.getWavelength, h]
    · rfl

/-- In any case only the entry `wavelength` is changed, to what `wavelengths` is. -/
theorem C167_only_wavelength {V : Type*} (e : OptEntry) (B : List OptRead) (o : Opts V) : (e.call B o).2.isState = o.isState ∧ (∀ k, k ≠ .wavelength → (e.call B o).2.vals k = o.vals k) ∧
    ((e.call B o).2.vals .wavelength = o.vals .wavelength ∨ (e.call B o).2.vals .wavelength = o.vals .wavelengths) := by
  simp only [OptEntry.call]
  split_ifs with h1 h2
  · exact ⟨rfl, fun _ _ => rfl, Or.inl rfl⟩
  · unfold Opts.getWavelength
    cases h : o.vals .wavelengths with
    | none => exact ⟨rfl, fun _ _ => rfl, Or.inl rfl⟩
    | some w => exact ⟨rfl, fun k hk => if_neg hk, Or.inr (by simp)⟩
  · exact ⟨rfl, fun _ _ => rfl, Or.inl rfl⟩

/-- **C167 fails** for the other functions: the user's `wavelength` is replaced if `wavelengths` is given too. -/
theorem C167_unchanged_fails {V : Type*} (w w' : V) (hw : w ≠ w') (e : OptEntry) (he : e ∈ [OptEntry.tmmCalculate, .rcwaNew, .rcwaCalculate, .rcwaProfile, .lookupTable, .rtLookupTable, .absorptionFunction]) (B : List OptRead)
    (o : Opts V) (h1 : o.vals .wavelength = some w) (h2 : o.vals .wavelengths = some w') : (e.call B o).2.vals .wavelength = some w' ∧ (e.call B o).2 ≠ o := by
  have key : (e.call B o).2.vals .wavelength = some w' := by
    simp only [List.mem_cons, List.not_mem_nil, or_false] at he
    rcases he with rfl | rfl | rfl | rfl | rfl | rfl | rfl <;> simp [OptEntry.call, OptEntry.copies, OptEntry.getsWavelength, Opts.getWavelength, h2]
  refine ⟨key, fun h => ?_⟩
  rw [h, h1] at key
  exact hw (Option.some.inj key)

/-- The option a place reads, and whether it has to be there. -/
def OptRead.needs : OptRead → Option OptKey
  | .item k | .attr k => some k
  | _ => none

/-- **C168**, as far as it holds: with the default options, and whatever the user has added or changed, no function fails because an option is missing, if `project_name` has been given or the function does not need it. -/
theorem C168_defaults_partial {V : Type*} (e : OptEntry) (B : List OptRead) (hB : ∀ r ∈ B, r ∈ e.reads) (v : OptKey → Option V) (hv : ∀ k, k.hasDefault = true → (v k).isSome)
    (hp : (v .project_name).isSome ∨ e ∉ [OptEntry.processStructure, .calculateRAT, .rtLookupTable]) : ((e.call B ⟨true, v⟩).1).isSome := by
  obtain ⟨w, e1, -⟩ := getWavelength_vals true true v
  have hw : ∀ k, (v k).isSome → (w k).isSome := by
    intro k hk
    have : w = ((⟨true, v⟩ : Opts V).getWavelength).vals := by rw [e1]
    rw [this]
    unfold Opts.getWavelength
    cases h : v .wavelengths with
    | none => simpa only [h] using hk
    | some x =>
      simp only [h]
      split_ifs
      · rfl
      · exact hk
  have hreads : ∀ r ∈ e.reads, ∀ k, OptRead.needs r = some k → (v k).isSome := by
    intro r hr k hk
    by_cases hd : k.hasDefault = true
    · exact hv k hd
    · have hall : ∀ r ∈ e.reads, ∀ k, OptRead.needs r = some k → k.hasDefault = true ∨ (k = .project_name ∧ e ∈ [OptEntry.processStructure, .calculateRAT, .rtLookupTable]) := by
        have : ∀ r ∈ e.reads, match OptRead.needs r with
          | none => True
          | some k => k.hasDefault = true ∨ (k = .project_name ∧ e ∈ [OptEntry.processStructure, .calculateRAT, .rtLookupTable]) := by
          cases e <;> simp [OptEntry.reads, OptRead.needs, OptKey.hasDefault]
        intro r hr k hk
        have := this r hr
        rwa [hk] at this
      rcases hall r hr k hk with h | ⟨rfl, h⟩
      · exact absurd h hd
      · rcases hp with hp | hp
        · exact hp
        · exact absurd h hp
  have main : ∀ o2 : Opts V, o2.isState = true → (∀ k, (v k).isSome → (o2.vals k).isSome) → (B.mapM o2.read).isSome := by
    intro o2 hs ho
    induction B with
    | nil => rfl
    | cons r B ih =>
      have hr : (o2.read r).isSome := by
        have h := hreads r (hB r (by simp))
        cases r with
        | item k => simpa [Opts.read] using ho k (h k rfl)
        | attr k => simpa [Opts.read, hs] using ho k (h k rfl)
        | itemIf k => rfl
        | attrIf k =>
          simp only [Opts.read, hs]
          cases o2.vals k <;> rfl
      obtain ⟨a, ha⟩ := Option.isSome_iff_exists.mp hr
      obtain ⟨b, hb⟩ := Option.isSome_iff_exists.mp (ih fun r' h => hB r' (by simp [h]))
      rw [List.mapM_cons, ha, hb]; rfl
  simp only [OptEntry.call]
  apply main
  · split_ifs
    all_goals first | rw [e1] | rfl
  · intro k hk
    split_ifs
    all_goals first | (rw [e1]; exact hw k hk) | exact hk

/-- **C168 fails**: `project_name` has no default value; with the default options `process_structure` and `calculate_RAT` raise an error when they read it, which they always do, first. -/
theorem C168_defaults_fails {V : Type*} (v : OptKey → Option V) (hv : ∀ k, (v k).isSome ↔ k.hasDefault = true) (B : List OptRead) :
    (OptEntry.processStructure.call (.item .project_name :: B) ⟨true, v⟩).1 = none ∧ (OptEntry.calculateRAT.call (.attr .project_name :: B) ⟨true, v⟩).1 = none := by
  have h0 : ∀ k, k.hasDefault = false → v k = none := by
    intro k hk
    have := mt (hv k).mp (by simp [hk])
    simpa using this
  have hw : (⟨true, v⟩ : Opts V).getWavelength = ⟨true, v⟩ := by simp [Opts.getWavelength, h0 .wavelengths rfl]
  constructor <;>
  · simp only [OptEntry.call, OptEntry.copies, OptEntry.getsWavelength, if_true, hw, List.mapM_cons, Opts.read, h0 .project_name rfl]
    rfl

/-- The option that is read at a place. -/
def OptRead.key : OptRead → OptKey
  | .item k | .attr k | .itemIf k | .attrIf k => k

/-- **C168**, as far as it holds: every option that has a default value, except `avoid_edges`, is read by some function. -/
theorem C168_used_partial (k : OptKey) (hk : k.hasDefault = true) (hne : k ≠ .avoid_edges) : ∃ (e : OptEntry), ∃ r ∈ e.reads, OptRead.key r = k := by
  cases k <;> first | exact absurd rfl hne | exact absurd hk (by decide) |
    exact ⟨.processStructure, by decide⟩ | exact ⟨.calculateRAT, by decide⟩ | exact ⟨.rtCalculate, by decide⟩ | exact ⟨.rcwaCalculate, by decide⟩ | exact ⟨.tmmCalculate, by decide⟩

/-- **C168 fails**: `avoid_edges` has a default value, and no function reads it. -/
theorem C168_unused_fails : OptKey.hasDefault .avoid_edges = true ∧ ∀ (e : OptEntry), ∀ r ∈ e.reads, OptRead.key r ≠ .avoid_edges := by
  refine ⟨rfl, fun e => ?_⟩
  cases e <;> decide

/-- The default options, as numbers that stand for the values; the hypotheses of C166 to C168 are met. -/
example : (∀ k, k.hasDefault = true → ((fun k => if OptKey.hasDefault k then some 1 else none : OptKey → Option ℕ) k).isSome) ∧
    (∀ k, ((fun k => if OptKey.hasDefault k then some 1 else none : OptKey → Option ℕ) k).isSome ↔ k.hasDefault = true) ∧
    (OptEntry.tmmCalculate.call OptEntry.tmmCalculate.reads ⟨false, fun k => if k = .wavelengths then some 2 else if OptKey.hasDefault k then some 1 else none⟩).1 = some [some 2, some 1, some 1, some 1, some 1, some 1] ∧
    (OptEntry.rtLookupTable.call OptEntry.rtLookupTable.reads ⟨false, fun k => if OptKey.hasDefault k then some 1 else none⟩).1 = none := by
  refine ⟨fun k hk => by simp [hk], fun k => by by_cases h : k.hasDefault = true <;> simp [h], by decide, by decide⟩

end Rayflare
