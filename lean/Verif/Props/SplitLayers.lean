import Verif.Props.NoiseLayers
import Verif.Spec.SplitLayers

/-!
# Property C195: how the absorption of a surface is divided among its layers affects nothing else
-/

namespace Rayflare

open Rayflare.Np Rayflare.Model Rayflare.Spec Rayflare.Lemmas

set_option linter.unusedSectionVars false

section
variable {ω ι κ κ' κ₀ κ₁ κ₀' κ₁' : Type*} [Fintype ι] [DecidableEq ι] [Fintype κ] [Fintype κ'] [Fintype κ₀] [Fintype κ₁] [Fintype κ₀'] [Fintype κ₁']

/-! ## Helper lemmas -/

theorem same_of_merge {t : LoopState ω ι κ₀ κ₁} {t' : LoopState ω ι κ₀' κ₁'} (h : mergeState t = mergeState t') : SameButLayerRecords t t' := by
  obtain ⟨-, h2, h3, h4, h5, h6, h7⟩ := LoopState.mk.inj h
  refine ⟨h2, h3, h6, h7, fun w => ?_, fun w => ?_, fun w => ?_, fun n w => ?_, fun w => ?_, fun w => ?_⟩
  · simp only [LoopState.R, h2]
  · simp only [LoopState.T, h3]
  · simp only [LoopState.Abulk, h6]
  · simp only [LoopState.bulkProf, h7]
  · have := congrArg (fun l : List (ω → Fin 1 → ℝ) => (l.map fun v => v w 0).sum) h4
    simpa [LoopState.Aint0, Function.comp_def] using this
  · have := congrArg (fun l : List (ω → Fin 1 → ℝ) => (l.map fun v => v w 0).sum) h5
    simpa [LoopState.Aint1, Function.comp_def] using this

theorem merge_transfer {S : Sys ω ι κ₀ κ₁} {S' : Sys ω ι κ₀' κ₁'} (hm : mergeSys S = mergeSys S') {b : LoopState ω ι κ₀ κ₁ → LoopState ω ι κ₀ κ₁} {b' : LoopState ω ι κ₀' κ₁' → LoopState ω ι κ₀' κ₁'}
    {c : LoopState ω ι (Fin 1) (Fin 1) → LoopState ω ι (Fin 1) (Fin 1)} (hb : ∀ s, mergeState (b s) = c (mergeState s)) (hb' : ∀ s, mergeState (b' s) = c (mergeState s)) {k : ℕ} {t : LoopState ω ι κ₀ κ₁}
    (h : LoopExits S.Done b S.init k t) : ∃ t', LoopExits S'.Done b' S'.init k t' ∧ SameButLayerRecords t t' := by
  have hit : ∀ i, mergeState (b^[i] S.init) = mergeState (b'^[i] S'.init) := fun i => by
    rw [Function.Semiconj.iterate_right (f := mergeState) (ga := b) (gb := c) hb i, Function.Semiconj.iterate_right (f := mergeState) (ga := b') (gb := c) hb' i, ← merge_init, ← merge_init, hm]
  have hdone : ∀ i, S.Done (b^[i] S.init) ↔ S'.Done (b'^[i] S'.init) := fun i => by
    have e1 : (mergeSys S).Done (mergeState (b^[i] S.init)) ↔ (mergeSys S').Done (mergeState (b'^[i] S'.init)) := by rw [hm, hit]
    exact e1
  obtain ⟨rfl, h2, h3⟩ := h
  exact ⟨_, ⟨rfl, (hdone k).mp h2, fun i hi hd => h3 i hi ((hdone i).mpr hd)⟩, same_of_merge (hit k)⟩

theorem same_merged {h : ℕ} {m : Matrix (Fin (h + h)) (Fin h) ℝ × Matrix κ (Fin h) ℝ} {m' : Matrix (Fin (h + h)) (Fin h) ℝ × Matrix κ' (Fin h) ℝ} (hm : SameSurface m m') :
    ((m.1, fun (_ : Fin 1) j => ∑ l, m.2 l j) : Matrix (Fin (h + h)) (Fin h) ℝ × Matrix (Fin 1) (Fin h) ℝ) = (m'.1, fun (_ : Fin 1) j => ∑ l, m'.2 l j) :=
  Prod.ext (funext fun r => funext fun j => hm.1 r j) (funext fun _ => funext fun j => hm.2 j)

end

/-! ## The property -/

variable {ω ι κ κ' κ₀ κ₁ κ₀' κ₁' : Type*} [Fintype ι] [Fintype κ] [Fintype κ'] [Fintype κ₀] [Fintype κ₁] [Fintype κ₀'] [Fintype κ₁']

/-- **C195.** Two structures whose stored matrices differ only in how many layers each surface has and in how the absorption of a surface is divided among its layers: if one calculation runs, so does the other; they end after the same number
of passes, in both branches of the code, and return the same reflection, transmission, bulk absorption and bulk profile, for every pass and direction and in total, and the same total absorption in each surface. -/
theorem C195_layers (n : ℕ) (s c : ℝ) (sp : Spacing) (thIn : ℝ) (phiIn : PhiIn) (i : RatInput ω κ₀ κ₁ (makeAngleVector n s c sp).half) (i' : RatInput ω κ₀' κ₁' (makeAngleVector n s c sp).half) (h : SameButLayers i i')
    (S : Sys ω (Fin (makeAngleVector n s c sp).half) κ₀ κ₁) (hS : assemble n s c sp thIn phiIn i = some S) :
    ∃ S', assemble n s c sp thIn phiIn i' = some S' ∧ (∀ k t, S.Exits k t → ∃ t', S'.Exits k t' ∧ SameButLayerRecords t t') ∧
      ∀ o k t, S.ExitsProf o k t → ∃ t', S'.ExitsProf o k t' ∧ SameButLayerRecords t t' := by
  have hex : ∃ S', assemble n s c sp thIn phiIn i' = some S' := by
    unfold assemble at hS ⊢
    obtain ⟨v, hv, -⟩ := Option.map_eq_some_iff.mp hS
    simp only [hv, Option.map_some]
    exact ⟨_, rfl⟩
  obtain ⟨S', hS'⟩ := hex
  have e := merge_assemble hS
  have e' := merge_assemble hS'
  rw [funext fun w => same_merged (h.front0 w), funext fun w => same_merged (h.front1 w), funext fun w => same_merged (h.rear0 w), h.α, h.thick, h.thresh] at e
  have hm : mergeSys S = mergeSys S' := Option.some.inj (e.symm.trans e')
  refine ⟨S', hS', fun k t ht => ?_, fun o k t ht => ?_⟩
  · exact merge_transfer hm (merge_step S) (fun s => by rw [hm]; exact merge_step S' s) ht
  · exact merge_transfer hm (merge_stepProf S o) (fun s => by rw [hm]; exact merge_stepProf S' o s) ht

/-- **C195, profiles in the surfaces.** The profile of a surface follows from the stored profile and the total absorption alone. -/
theorem C195_interface_profile (A : Matrix κ ι ℝ) (A' : Matrix κ' ι ℝ) (hA : ∀ j, ∑ l, A l j = ∑ l, A' l j) (I P v inf : ι → ℝ) : interfaceProf A I P v inf = interfaceProf A' I P v inf := by
  unfold interfaceProf
  simp only [hA]

/-! ## Example: a coating that absorbs a quarter, as one layer or as two -/

/-- The absorption of every surface is `∑ l, a l`, divided among the layers according to `a`. -/
noncomputable def dividedInput (κ : ℕ) (a : Fin κ → ℝ) : RatInput Unit (Fin κ) (Fin κ) (makeAngleVector 1 (2 * Real.pi / (4 : ℕ)) 1 .sin).half :=
  ⟨fun _ => 1, 1, 1 / 100, fun _ => (fun _ _ => 3 / 8, fun l _ => a l), fun _ => (fun _ _ => 3 / 8, fun l _ => a l), fun _ => (fun _ _ => 3 / 8, fun l _ => a l)⟩

example : SameButLayers (dividedInput 1 fun _ => 1 / 4) (dividedInput 2 ![1 / 5, 1 / 20]) ∧
    ∃ S, assemble 1 (2 * Real.pi / (4 : ℕ)) 1 .sin 0 (.val 0) (dividedInput 1 fun _ => 1 / 4) = some S ∧ ∃ k t, S.Exits k t := by
  have hq : SameSurface (h := (makeAngleVector 1 (2 * Real.pi / (4 : ℕ)) 1 .sin).half) (fun _ _ => 3 / 8, fun (_ : Fin 1) _ => 1 / 4) (fun _ _ => 3 / 8, fun (l : Fin 2) _ => (![1 / 5, 1 / 20] : Fin 2 → ℝ) l) :=
    ⟨fun _ _ => rfl, fun j => by simp; norm_num⟩
  refine ⟨⟨rfl, rfl, rfl, fun _ => hq, fun _ => hq, fun _ => hq⟩, ?_⟩
  have hs : (∃ q : ℕ, 0 < q ∧ 2 * Real.pi / (4 : ℕ) = 2 * Real.pi / ((2 * q : ℕ) : ℝ)) ∨ 2 * Real.pi / (4 : ℕ) = 2 * Real.pi := Or.inl ⟨2, by norm_num, by norm_num⟩
  have hpi := Real.pi_pos
  have hok : StoredOk (h := (makeAngleVector 1 (2 * Real.pi / (4 : ℕ)) 1 .sin).half) (fun _ _ => 3 / 8, fun (_ : Fin 1) _ => 1 / 4) := by
    refine ⟨fun j => ?_, fun _ _ => by norm_num, fun _ _ => by norm_num⟩
    simp only [Finset.sum_const, Finset.card_univ, Fintype.card_fin, flat_half]
    norm_num
  obtain ⟨S, hS, he⟩ := C17_end_to_end 1 one_pos (2 * Real.pi / (4 : ℕ)) hs 1 one_pos .sin 0 le_rfl (by linarith) 0 le_rfl (by positivity) (dividedInput 1 fun _ => 1 / 4) 1 one_pos (fun _ => le_rfl)
    (by norm_num [dividedInput]) (by norm_num [dividedInput]) (fun _ => hok) (fun _ => hok) (fun _ => hok)
  obtain ⟨k, -, ⟨t, ht⟩, -⟩ := he ⟨false, [], fun _ _ _ => 0, fun _ _ => 0⟩
  exact ⟨S, hS, k, t, ht⟩

end Rayflare
