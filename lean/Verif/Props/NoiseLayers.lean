import Verif.Props.NoiseTraced
import Verif.Spec.NoiseTotals

/-!
# Property C192 for coatings of any number of layers: reflection, transmission and total absorption come out right
-/

namespace Rayflare

open Rayflare.Np Rayflare.Model Rayflare.Spec Rayflare.Lemmas MeasureTheory Real

set_option linter.unusedSectionVars false

/-! ## Helper lemmas: adding up the layers of each surface -/

section merge
variable {ω ι κ κ₀ κ₁ : Type*} [Fintype ι] [DecidableEq ι] [Fintype κ] [Fintype κ₀] [Fintype κ₁]

/-- The same surface with its layers taken together. -/
def mergeMats (M : Mats ι κ) : Mats ι (Fin 1) := ⟨M.R, M.T, fun _ j => ∑ l, M.A l j⟩

def mergeSys (S : Sys ω ι κ₀ κ₁) : Sys ω ι (Fin 1) (Fin 1) :=
  ⟨S.v0, S.up2down, S.down2up, S.α, S.thick, S.θ, fun w => mergeMats (S.front0 w), fun w => mergeMats (S.front1 w), fun w => mergeMats (S.rear0 w), S.thresh⟩

def mergeState (t : LoopState ω ι κ₀ κ₁) : LoopState ω ι (Fin 1) (Fin 1) :=
  ⟨t.vf1, t.vr, t.vt, t.a0.map fun v w _ => ∑ l, v w l, t.a1.map fun v w _ => ∑ l, v w l, t.A, t.Aprof⟩

theorem merge_dot (M : ω → Mats ι κ) (v : ω → ι → ℝ) : dotWl (fun w => (mergeMats (M w)).A) v = fun w _ => ∑ l, dotWl (fun w => (M w).A) v w l := by
  funext w i
  simp only [dotWl, mergeMats, Matrix.mulVec, dotProduct, Finset.sum_mul]
  exact Finset.sum_comm

theorem merge_init (S : Sys ω ι κ₀ κ₁) : (mergeSys S).init = mergeState S.init := by
  have h := merge_dot S.front0 S.v0
  simp only [Sys.init, mergeState, mergeSys, List.map_cons, List.map_nil]
  rw [h]
  rfl

theorem merge_append (S : Sys ω ι κ₀ κ₁) (a b : ω → ι → ℝ) (s : LoopState ω ι κ₀ κ₁) : (mergeSys S).appendPerPassInfo a b (mergeState s) = mergeState (S.appendPerPassInfo a b s) := by
  have h0 := merge_dot S.rear0 a
  have h1 := merge_dot S.front1 b
  simp only [Sys.appendPerPassInfo, mergeState, mergeSys, List.map_append, List.map_cons, List.map_nil]
  rw [h0, h1]
  rfl

theorem merge_step (S : Sys ω ι κ₀ κ₁) (s : LoopState ω ι κ₀ κ₁) : mergeState (S.step s) = (mergeSys S).step (mergeState s) := by
  unfold Sys.step
  rw [← merge_append]
  rfl

theorem merge_stepProf (S : Sys ω ι κ₀ κ₁) (o : ProfOpts ω ι) (s : LoopState ω ι κ₀ κ₁) : mergeState (S.stepProf o s) = (mergeSys S).stepProf o (mergeState s) := by
  unfold Sys.stepProf
  rw [← merge_append]
  rfl

theorem merge_exits {S : Sys ω ι κ₀ κ₁} {k : ℕ} {t : LoopState ω ι κ₀ κ₁} {body : LoopState ω ι κ₀ κ₁ → LoopState ω ι κ₀ κ₁} {body' : LoopState ω ι (Fin 1) (Fin 1) → LoopState ω ι (Fin 1) (Fin 1)}
    (hb : ∀ s, mergeState (body s) = body' (mergeState s)) (h : LoopExits S.Done body S.init k t) : LoopExits (mergeSys S).Done body' (mergeSys S).init k (mergeState t) := by
  have hit : ∀ i, body'^[i] (mergeSys S).init = mergeState (body^[i] S.init) := fun i => by
    rw [merge_init]
    exact ((Function.Semiconj.iterate_right (f := mergeState) (ga := body) (gb := body') hb i) S.init).symm
  obtain ⟨h1, h2, h3⟩ := h
  refine ⟨by rw [hit, h1], h2, fun i hi => ?_⟩
  rw [hit]
  exact h3 i hi

theorem merge_run {S : Sys ω ι κ₀ κ₁} {o : ProfOpts ω ι} {k : ℕ} {t : LoopState ω ι κ₀ κ₁} (h : S.Exits k t ∨ S.ExitsProf o k t) : (mergeSys S).Exits k (mergeState t) ∨ (mergeSys S).ExitsProf o k (mergeState t) :=
  h.imp (merge_exits (merge_step S)) (merge_exits (merge_stepProf S o))

theorem merge_totals {B : ℝ} {t : LoopState ω ι κ₀ κ₁} {w : ω} {t₀ : LoopState ω ι (Fin 1) (Fin 1)} (h : ResultsWithin B (mergeState t) w t₀ w) : TotalsWithin B t w t₀ w := by
  obtain ⟨h1, h2, h3, h4, h5, h6, h7⟩ := h
  refine ⟨h1, h2, ?_, ?_, h5, h6, h7⟩
  · have := h3 0
    simpa [recA0, mergeState, LoopState.Aint0, Function.comp_def] using this
  · have := h4 0
    simpa [recA1, mergeState, LoopState.Aint1, Function.comp_def] using this

end merge

theorem merge_assemble {ω κ₀ κ₁ : Type*} [Fintype κ₀] [Fintype κ₁] {n : ℕ} {s c : ℝ} {sp : Spacing} {thIn : ℝ} {phiIn : PhiIn} {inp : RatInput ω κ₀ κ₁ (makeAngleVector n s c sp).half}
    {S : Sys ω (Fin (makeAngleVector n s c sp).half) κ₀ κ₁} (h : assemble n s c sp thIn phiIn inp = some S) :
    assemble n s c sp thIn phiIn ⟨inp.α, inp.thick, inp.thresh, fun w => ((inp.front0 w).1, fun (_ : Fin 1) j => ∑ l, (inp.front0 w).2 l j), fun w => ((inp.front1 w).1, fun (_ : Fin 1) j => ∑ l, (inp.front1 w).2 l j),
      fun w => ((inp.rear0 w).1, fun (_ : Fin 1) j => ∑ l, (inp.rear0 w).2 l j)⟩ = some (mergeSys S) := by
  unfold assemble at h ⊢
  obtain ⟨v, hv, rfl⟩ := Option.map_eq_some_iff.mp h
  simp only [hv, Option.map_some]
  rfl

namespace RandomSurface

variable {n : ℕ} {cz : ℝ} {m : ℕ} {sp : Spacing} {front : Bool} {nL Nr : ℕ} (X : RandomSurface n cz m sp front nL Nr)

/-- The exact matrices with the layers taken together: following all the branches of the rays; the single absorption entry is the weight of the branches that end with absorption in the coating. -/
noncomputable def exactTotal : Matrix (Fin ((makeAngleVector n (2 * π / m) cz sp).half + (makeAngleVector n (2 * π / m) cz sp).half)) (Fin (makeAngleVector n (2 * π / m) cz sp).half) ℝ ×
    Matrix (Fin 1) (Fin (makeAngleVector n (2 * π / m) cz sp).half) ℝ := (fun r j => X.branchMean j (LeavesIn n cz (2 * π / m) sp front r), fun _ j => X.branchMean j IsAbsorbed)

/-- What is stored, with the layers added up. -/
def storedTotal (u : Fin X.K → Fin X.N → ℝ) : Matrix (Fin ((makeAngleVector n (2 * π / m) cz sp).half + (makeAngleVector n (2 * π / m) cz sp).half)) (Fin (makeAngleVector n (2 * π / m) cz sp).half) ℝ ×
    Matrix (Fin 1) (Fin (makeAngleVector n (2 * π / m) cz sp).half) ℝ := ((X.stored u).1, fun _ j => ∑ l, (X.stored u).2 l j)

section
variable (hn : 0 < n) (hc : 0 < cz) (hm : 0 < m) (hNr : 0 < Nr)
include hn hc hm hNr

theorem storedTotal_ok (u : Fin X.K → Fin X.N → ℝ) (hu : Inside u) : StoredOk (X.storedTotal u) := by
  obtain ⟨h1, h2, h3⟩ := X.stored_ok hn hc hm hNr u hu
  refine ⟨fun j => ?_, h2, fun _ j => (Finset.sum_nonneg fun l _ => h3 l j : 0 ≤ ∑ l, (X.stored u).2 l j)⟩
  rw [← h1 j]
  simp [storedTotal]

theorem exactTotal_ok : StoredOk X.exactTotal := by
  have hP : IsProbabilityMeasure X.numbers := by unfold numbers; infer_instance
  have hin : ∀ᵐ u ∂X.numbers, Inside u := inside_ae X.K X.N
  refine ⟨fun j => ?_, fun r j => ?_, fun l j => ?_⟩
  · obtain ⟨h1, h2, h3⟩ := X.mean_integral hn hc hm hNr j
    simp only [exactTotal, Finset.univ_unique, Finset.sum_const, Finset.card_singleton, one_smul]
    rw [← h3]
    simp only [← (h1 _).2]
    rw [← integral_finset_sum _ fun r _ => (h1 _).1, ← integral_add (integrable_finset_sum _ fun r _ => (h1 _).1) h2]
    have : ∫ u, (∑ r : Fin ((makeAngleVector n (2 * π / m) cz sp).half + (makeAngleVector n (2 * π / m) cz sp).half), (X.M u).out r j + ∑ l ∈ Finset.range nL, (X.M u).A l j) ∂X.numbers = ∫ _, (1 : ℝ) ∂X.numbers := by
      refine integral_congr_ae ?_
      filter_upwards [hin] with u hu
      have := (X.stored_ok hn hc hm hNr u hu).1 j
      simp only [stored] at this
      rw [Finset.sum_range]
      exact this
    rw [this]; simp
  · rw [show X.exactTotal.1 r j = _ from (((X.mean_integral hn hc hm hNr j).1 r).2).symm]
    refine integral_nonneg_of_ae ?_
    filter_upwards [hin] with u hu
    exact (X.stored_ok hn hc hm hNr u hu).2.1 r j
  · rw [show X.exactTotal.2 l j = _ from ((X.mean_integral hn hc hm hNr j).2.2).symm]
    refine integral_nonneg_of_ae ?_
    filter_upwards [hin] with u hu
    have h3 := (X.stored_ok hn hc hm hNr u hu).2.2
    simp only [Pi.zero_apply]
    rw [Finset.sum_range]
    exact Finset.sum_nonneg fun i _ => h3 i j

open Classical in
theorem noisyTotal {Ω : Type*} [MeasurableSpace Ω] (P : Measure Ω) [IsProbabilityMeasure P] (u : Ω → Fin X.K → Fin X.N → ℝ) (hu : MeasurePreserving u P X.numbers) (side : Side) (ε : ℝ) (hε : 0 ≤ ε) :
    NoisyEntries P (fun x => loadMats side (X.storedTotal (u x)).1 (X.storedTotal (u x)).2) (loadMats side X.exactTotal.1 X.exactTotal.2) ε (2 * exp (-2 * Nr * ε ^ 2)) := by
  have hP : IsProbabilityMeasure X.numbers := by unfold numbers; infer_instance
  have htr : ∀ s : Set (Fin X.K → Fin X.N → ℝ), P.real {x | u x ∈ s} ≤ X.numbers.real s := by
    intro s
    have h1 := Measure.le_map_apply (μ := P) hu.measurable.aemeasurable s
    rw [hu.map_eq] at h1
    exact ENNReal.toReal_mono (measure_ne_top _ _) h1
  have hmono : ∀ j : Fin (makeAngleVector n (2 * π / m) cz sp).half, 2 * exp (-2 * ((Finset.univ.filter fun k => IncidentIn n cz (2 * π / m) sp front j ((X.L k).ray none)).card : ℕ) * ε ^ 2) ≤ 2 * exp (-2 * Nr * ε ^ 2) := by
    intro j
    have h1 : (Nr : ℝ) ≤ ((Finset.univ.filter fun k => IncidentIn n cz (2 * π / m) sp front j ((X.L k).ray none)).card : ℕ) := by exact_mod_cast X.rays' j j.2
    have h2 := mul_le_mul_of_nonneg_right h1 (sq_nonneg ε)
    have h3 := exp_le_exp.mpr (show -2 * (((Finset.univ.filter fun k => IncidentIn n cz (2 * π / m) sp front j ((X.L k).ray none)).card : ℕ) : ℝ) * ε ^ 2 ≤ -2 * Nr * ε ^ 2 by linarith)
    linarith
  have herr := fun j : Fin (makeAngleVector n (2 * π / m) cz sp).half =>
    matrix_error X.c X.nAbove X.nBelow X.ha X.hb X.ka X.kb X.hh X.tmm nL n hn cz hc m hm sp front X.dec X.law X.hlaw X.hdec X.L X.hL X.hfin X.junk X.M X.hM j (X.some_ray hNr j j.2) ε hε
  have hout : ∀ (r : Fin ((makeAngleVector n (2 * π / m) cz sp).half + (makeAngleVector n (2 * π / m) cz sp).half)) (j : Fin (makeAngleVector n (2 * π / m) cz sp).half),
      P.real {x | ε ≤ |(X.storedTotal (u x)).1 r j - X.exactTotal.1 r j|} ≤ 2 * exp (-2 * Nr * ε ^ 2) :=
    fun r j => (htr {v | ε ≤ |(X.M v).out r j - X.branchMean j (LeavesIn n cz (2 * π / m) sp front r)|}).trans (((herr j).1 r).trans (hmono j))
  have habs : ∀ (l : Fin 1) (j : Fin (makeAngleVector n (2 * π / m) cz sp).half), P.real {x | ε ≤ |(X.storedTotal (u x)).2 l j - X.exactTotal.2 l j|} ≤ 2 * exp (-2 * Nr * ε ^ 2) := by
    intro l j
    have h1 := (herr j).2.trans (hmono j)
    simp only [Finset.sum_range] at h1
    exact (htr {v | ε ≤ |∑ l : Fin nL, (X.M v).A l j - X.branchMean j IsAbsorbed|}).trans h1
  cases side
  · exact ⟨fun r j => hout _ j, fun r j => hout _ j, habs⟩
  · exact ⟨fun r j => hout _ j, fun r j => hout _ j, habs⟩

end

end RandomSurface

/-! ## The property -/

variable {Ω ω : Type*} [MeasurableSpace Ω] [Countable ω]

/-- The same for the layers taken together. -/
theorem totals_traced (P : Measure Ω) [IsProbabilityMeasure P] (n : ℕ) (hn : 0 < n) (m : ℕ) (hm : 0 < m) (hsym : Even m ∨ m = 1) (cz : ℝ) (hc : 0 < cz) (sp : Spacing) (thIn : ℝ) (ht0 : 0 ≤ thIn) (ht1 : thIn < π / 2) (phiIn : PhiIn)
    (nL₀ nL₁ Nr : ℕ) (hNr : 0 < Nr) (α : ω → ℝ) (thick thresh : ℝ) (hα : ∀ w, 0 ≤ α w) (hd : 0 ≤ thick)
    (X0 : ω → RandomSurface n cz m sp true nL₀ Nr) (X1 : ω → RandomSurface n cz m sp true nL₁ Nr) (X2 : ω → RandomSurface n cz m sp false nL₀ Nr)
    (u0 : ∀ w, Ω → Fin (X0 w).K → Fin (X0 w).N → ℝ) (u1 : ∀ w, Ω → Fin (X1 w).K → Fin (X1 w).N → ℝ) (u2 : ∀ w, Ω → Fin (X2 w).K → Fin (X2 w).N → ℝ)
    (hu0 : ∀ w, MeasurePreserving (u0 w) P (X0 w).numbers) (hu1 : ∀ w, MeasurePreserving (u1 w) P (X1 w).numbers) (hu2 : ∀ w, MeasurePreserving (u2 w) P (X2 w).numbers)
    (S : Ω → Sys ω (Fin (makeAngleVector n (2 * π / m) cz sp).half) (Fin 1) (Fin 1)) (S₀ : Sys ω (Fin (makeAngleVector n (2 * π / m) cz sp).half) (Fin 1) (Fin 1))
    (hS : ∀ x, assemble n (2 * π / m) cz sp thIn phiIn ⟨α, thick, thresh, fun w => (X0 w).storedTotal (u0 w x), fun w => (X1 w).storedTotal (u1 w x), fun w => (X2 w).storedTotal (u2 w x)⟩ = some (S x))
    (hS₀ : assemble n (2 * π / m) cz sp thIn phiIn ⟨α, thick, thresh, fun w => (X0 w).exactTotal, fun w => (X1 w).exactTotal, fun w => (X2 w).exactTotal⟩ = some S₀)
    (o o₀ : ProfOpts ω (Fin (makeAngleVector n (2 * π / m) cz sp).half)) (k : Ω → ℕ) (t : Ω → LoopState ω (Fin (makeAngleVector n (2 * π / m) cz sp).half) (Fin 1) (Fin 1))
    (ht : ∀ᵐ x ∂P, (S x).Exits (k x) (t x) ∨ (S x).ExitsProf o (k x) (t x))
    (k₀ : ℕ) (t₀ : LoopState ω (Fin (makeAngleVector n (2 * π / m) cz sp).half) (Fin 1) (Fin 1)) (ht₀ : S₀.Exits k₀ t₀ ∨ S₀.ExitsProf o₀ k₀ t₀)
    (w : ω) (habs : 0 < α w * thick) (tol δ : ℝ) (htol : 0 < tol) (hδ : 0 < δ)
    (hN : let h := ((makeAngleVector n (2 * π / m) cz sp).half : ℝ)
      log (6 * h * (2 * h + 1) / δ) * ((2 * h + 1) * (1 + 2 / (1 - exp (-(2 * (α w * thick)))))) ^ 2 / (2 * tol ^ 2) ≤ Nr) :
    P.real {x | ¬ ResultsWithin (tol + thresh) (t x) w t₀ w} ≤ δ := by
  have hs : (∃ q : ℕ, 0 < q ∧ 2 * π / m = 2 * π / ((2 * q : ℕ) : ℝ)) ∨ 2 * π / m = 2 * π := by
    rcases hsym with ⟨q, hq⟩ | rfl
    · refine Or.inl ⟨q, by omega, ?_⟩
      rw [hq, show q + q = 2 * q by omega]
    · right; simp
  obtain ⟨c1, c2, c3, c4⟩ := C15_assembled n hn (2 * π / m) hs cz hc sp thIn ht0 ht1 phiIn _ hα hd (fun w => (X0 w).exactTotal_ok hn hc hm hNr) (fun w => (X1 w).exactTotal_ok hn hc hm hNr)
    (fun w => (X2 w).exactTotal_ok hn hc hm hNr) S₀ hS₀
  have hae : ∀ᵐ x ∂P, EnergyConserving (S x) ∧ NonnegData (S x) ∧ ((S x).Exits (k x) (t x) ∨ (S x).ExitsProf o (k x) (t x)) := by
    have a0 : ∀ᵐ x ∂P, ∀ w, Inside (u0 w x) := ae_all_iff.mpr fun w => (hu0 w).quasiMeasurePreserving.ae (inside_ae (X0 w).K (X0 w).N)
    have a1 : ∀ᵐ x ∂P, ∀ w, Inside (u1 w x) := ae_all_iff.mpr fun w => (hu1 w).quasiMeasurePreserving.ae (inside_ae (X1 w).K (X1 w).N)
    have a2 : ∀ᵐ x ∂P, ∀ w, Inside (u2 w x) := ae_all_iff.mpr fun w => (hu2 w).quasiMeasurePreserving.ae (inside_ae (X2 w).K (X2 w).N)
    filter_upwards [a0, a1, a2, ht] with x x0 x1 x2 htx
    obtain ⟨d1, d2, -, -⟩ := C15_assembled n hn (2 * π / m) hs cz hc sp thIn ht0 ht1 phiIn _ hα hd (fun w => (X0 w).storedTotal_ok hn hc hm hNr _ (x0 w)) (fun w => (X1 w).storedTotal_ok hn hc hm hNr _ (x1 w))
      (fun w => (X2 w).storedTotal_ok hn hc hm hNr _ (x2 w)) (S x) (hS x)
    exact ⟨d1, d2, htx⟩
  unfold assemble at hS₀
  obtain ⟨v, hv, rfl⟩ := Option.map_eq_some_iff.mp hS₀
  have hSx : ∀ x, S x = _ := fun x => by
    have h1 := hS x
    unfold assemble at h1
    simp only [hv, Option.map_some] at h1
    exact (Option.some.inj h1).symm
  have hh : (0 : ℝ) < (makeAngleVector n (2 * π / m) cz sp).half := by
    have h1 : (makeAngleVector n (2 * π / m) cz sp).half = ringStart n cz n := half_eq n hn cz sp (2 * π / m)
    rw [h1]
    exact_mod_cast half_pos n hn cz hc
  have hq : exp (-(2 * (α w * thick))) < 1 := by rw [exp_lt_one_iff]; linarith
  have hfac : 0 < 1 + 2 / (1 - exp (-(2 * (α w * thick)))) := by have := sub_pos.mpr hq; positivity
  simp only at hN
  obtain ⟨h, hhe⟩ : ∃ h, ((makeAngleVector n (2 * π / m) cz sp).half : ℝ) = h := ⟨_, rfl⟩
  rw [hhe] at hh hN
  refine C192_enough P S _ w c1 c2 (fun x => ?_) c3 habs o o₀ k t hae k₀ t₀ ht₀ Nr (fun ε hε => ?_) (fun ε hε => ?_) (fun ε hε => ?_) tol δ htol hδ
    ((2 * h + 1) * (1 + 2 / (1 - exp (-(2 * (α w * thick)))))) (3 * h * (2 * h + 1)) (by positivity) (by positivity) ?_ ?_ ?_
  · rw [hSx x]; exact ⟨rfl, rfl, rfl, rfl, rfl, rfl, rfl⟩
  · simp only [hSx]; exact (X0 w).noisyTotal hn hc hm hNr P (u0 w) (hu0 w) .front ε hε
  · simp only [hSx]; exact (X1 w).noisyTotal hn hc hm hNr P (u1 w) (hu1 w) .front ε hε
  · simp only [hSx]; exact (X2 w).noisyTotal hn hc hm hNr P (u2 w) (hu2 w) .rear ε hε
  · rw [c4 w, mul_one, Fintype.card_fin, Fintype.card_fin, hhe]
    exact mul_le_mul_of_nonneg_right (by norm_num) hfac.le
  · rw [Fintype.card_fin, Fintype.card_fin, hhe]
    push_cast
    linarith
  · rw [show 2 * (3 * h * (2 * h + 1)) / δ = 6 * h * (2 * h + 1) / δ by ring]
    exact hN

/-- **C192, coatings of any number of layers.** The same (with the same number of rays) when the surfaces have coatings of any number of layers, except that the absorption of each surface is that of all its layers together:
reflection and transmission into every direction and in total, absorption in the bulk layer and the total absorption in each surface are within `tol + I_thresh` of those found by following all the branches of the rays. -/
theorem C192_any_coating (P : Measure Ω) [IsProbabilityMeasure P] (n : ℕ) (hn : 0 < n) (m : ℕ) (hm : 0 < m) (hsym : Even m ∨ m = 1) (cz : ℝ) (hc : 0 < cz) (sp : Spacing) (thIn : ℝ) (ht0 : 0 ≤ thIn) (ht1 : thIn < π / 2) (phiIn : PhiIn)
    (nL₀ nL₁ Nr : ℕ) (hNr : 0 < Nr) (α : ω → ℝ) (thick thresh : ℝ) (hα : ∀ w, 0 ≤ α w) (hd : 0 ≤ thick)
    (X0 : ω → RandomSurface n cz m sp true nL₀ Nr) (X1 : ω → RandomSurface n cz m sp true nL₁ Nr) (X2 : ω → RandomSurface n cz m sp false nL₀ Nr)
    (u0 : ∀ w, Ω → Fin (X0 w).K → Fin (X0 w).N → ℝ) (u1 : ∀ w, Ω → Fin (X1 w).K → Fin (X1 w).N → ℝ) (u2 : ∀ w, Ω → Fin (X2 w).K → Fin (X2 w).N → ℝ)
    (hu0 : ∀ w, MeasurePreserving (u0 w) P (X0 w).numbers) (hu1 : ∀ w, MeasurePreserving (u1 w) P (X1 w).numbers) (hu2 : ∀ w, MeasurePreserving (u2 w) P (X2 w).numbers)
    (S : Ω → Sys ω (Fin (makeAngleVector n (2 * π / m) cz sp).half) (Fin nL₀) (Fin nL₁)) (S₀ : Sys ω (Fin (makeAngleVector n (2 * π / m) cz sp).half) (Fin 1) (Fin 1))
    (hS : ∀ x, assemble n (2 * π / m) cz sp thIn phiIn ⟨α, thick, thresh, fun w => (X0 w).stored (u0 w x), fun w => (X1 w).stored (u1 w x), fun w => (X2 w).stored (u2 w x)⟩ = some (S x))
    (hS₀ : assemble n (2 * π / m) cz sp thIn phiIn ⟨α, thick, thresh, fun w => (X0 w).exactTotal, fun w => (X1 w).exactTotal, fun w => (X2 w).exactTotal⟩ = some S₀)
    (o o₀ : ProfOpts ω (Fin (makeAngleVector n (2 * π / m) cz sp).half)) (k : Ω → ℕ) (t : Ω → LoopState ω (Fin (makeAngleVector n (2 * π / m) cz sp).half) (Fin nL₀) (Fin nL₁))
    (ht : ∀ᵐ x ∂P, (S x).Exits (k x) (t x) ∨ (S x).ExitsProf o (k x) (t x))
    (k₀ : ℕ) (t₀ : LoopState ω (Fin (makeAngleVector n (2 * π / m) cz sp).half) (Fin 1) (Fin 1)) (ht₀ : S₀.Exits k₀ t₀ ∨ S₀.ExitsProf o₀ k₀ t₀)
    (w : ω) (habs : 0 < α w * thick) (tol δ : ℝ) (htol : 0 < tol) (hδ : 0 < δ)
    (hN : let h := ((makeAngleVector n (2 * π / m) cz sp).half : ℝ)
      log (6 * h * (2 * h + 1) / δ) * ((2 * h + 1) * (1 + 2 / (1 - exp (-(2 * (α w * thick)))))) ^ 2 / (2 * tol ^ 2) ≤ Nr) :
    P.real {x | ¬ TotalsWithin (tol + thresh) (t x) w t₀ w} ≤ δ := by
  have key := totals_traced P n hn m hm hsym cz hc sp thIn ht0 ht1 phiIn nL₀ nL₁ Nr hNr α thick thresh hα hd X0 X1 X2 u0 u1 u2 hu0 hu1 hu2 (fun x => mergeSys (S x)) S₀ (fun x => merge_assemble (hS x)) hS₀ o o₀ k
    (fun x => mergeState (t x)) (ht.mono fun x hx => merge_run hx) k₀ t₀ ht₀ w habs tol δ htol hδ hN
  have hsub : {x | ¬ TotalsWithin (tol + thresh) (t x) w t₀ w} ⊆ {x | ¬ ResultsWithin (tol + thresh) (mergeState (t x)) w t₀ w} := fun x hx hr => hx (merge_totals hr)
  exact (measureReal_mono hsub).trans key

/-- **C192, any coating, all wavelengths at once.** The same for coatings of any number of layers and finitely many wavelengths; the number of rays then depends on the logarithm of the number of wavelengths. -/
theorem C192_any_coating_all {Ω ω : Type*} [MeasurableSpace Ω] [Fintype ω] [Nonempty ω] (P : Measure Ω) [IsProbabilityMeasure P] (n : ℕ) (hn : 0 < n) (m : ℕ) (hm : 0 < m) (hsym : Even m ∨ m = 1) (cz : ℝ) (hc : 0 < cz) (sp : Spacing) (thIn : ℝ) (ht0 : 0 ≤ thIn) (ht1 : thIn < π / 2) (phiIn : PhiIn)
    (nL₀ nL₁ Nr : ℕ) (hNr : 0 < Nr) (α : ω → ℝ) (thick thresh : ℝ) (hα : ∀ w, 0 ≤ α w) (hd : 0 ≤ thick)
    (X0 : ω → RandomSurface n cz m sp true nL₀ Nr) (X1 : ω → RandomSurface n cz m sp true nL₁ Nr) (X2 : ω → RandomSurface n cz m sp false nL₀ Nr)
    (u0 : ∀ w, Ω → Fin (X0 w).K → Fin (X0 w).N → ℝ) (u1 : ∀ w, Ω → Fin (X1 w).K → Fin (X1 w).N → ℝ) (u2 : ∀ w, Ω → Fin (X2 w).K → Fin (X2 w).N → ℝ)
    (hu0 : ∀ w, MeasurePreserving (u0 w) P (X0 w).numbers) (hu1 : ∀ w, MeasurePreserving (u1 w) P (X1 w).numbers) (hu2 : ∀ w, MeasurePreserving (u2 w) P (X2 w).numbers)
    (S : Ω → Sys ω (Fin (makeAngleVector n (2 * π / m) cz sp).half) (Fin nL₀) (Fin nL₁)) (S₀ : Sys ω (Fin (makeAngleVector n (2 * π / m) cz sp).half) (Fin 1) (Fin 1))
    (hS : ∀ x, assemble n (2 * π / m) cz sp thIn phiIn ⟨α, thick, thresh, fun w => (X0 w).stored (u0 w x), fun w => (X1 w).stored (u1 w x), fun w => (X2 w).stored (u2 w x)⟩ = some (S x))
    (hS₀ : assemble n (2 * π / m) cz sp thIn phiIn ⟨α, thick, thresh, fun w => (X0 w).exactTotal, fun w => (X1 w).exactTotal, fun w => (X2 w).exactTotal⟩ = some S₀)
    (o o₀ : ProfOpts ω (Fin (makeAngleVector n (2 * π / m) cz sp).half)) (k : Ω → ℕ) (t : Ω → LoopState ω (Fin (makeAngleVector n (2 * π / m) cz sp).half) (Fin nL₀) (Fin nL₁))
    (ht : ∀ᵐ x ∂P, (S x).Exits (k x) (t x) ∨ (S x).ExitsProf o (k x) (t x))
    (k₀ : ℕ) (t₀ : LoopState ω (Fin (makeAngleVector n (2 * π / m) cz sp).half) (Fin 1) (Fin 1)) (ht₀ : S₀.Exits k₀ t₀ ∨ S₀.ExitsProf o₀ k₀ t₀)
    (habs : ∀ w, 0 < α w * thick) (tol δ : ℝ) (htol : 0 < tol) (hδ : 0 < δ)
    (hN : let h := ((makeAngleVector n (2 * π / m) cz sp).half : ℝ)
      ∀ w, log (6 * h * (2 * h + 1) * Fintype.card ω / δ) * ((2 * h + 1) * (1 + 2 / (1 - exp (-(2 * (α w * thick)))))) ^ 2 / (2 * tol ^ 2) ≤ Nr) :
    P.real {x | ¬ ∀ w, TotalsWithin (tol + thresh) (t x) w t₀ w} ≤ δ := by
  have hW : (0 : ℝ) < Fintype.card ω := by exact_mod_cast Fintype.card_pos
  have key := fun w => C192_any_coating P n hn m hm hsym cz hc sp thIn ht0 ht1 phiIn nL₀ nL₁ Nr hNr α thick thresh hα hd X0 X1 X2 u0 u1 u2 hu0 hu1 hu2 S S₀ hS hS₀ o o₀ k t ht k₀ t₀ ht₀ w (habs w) tol
    (δ / Fintype.card ω) htol (div_pos hδ hW) (by
      intro h
      have h1 := hN w
      rwa [show 6 * h * (2 * h + 1) / (δ / Fintype.card ω) = 6 * h * (2 * h + 1) * Fintype.card ω / δ from by rw [div_div_eq_mul_div]])
  have hset : {x | ¬ ∀ w, TotalsWithin (tol + thresh) (t x) w t₀ w} = ⋃ w, {x | ¬ TotalsWithin (tol + thresh) (t x) w t₀ w} := by
    ext x
    simp
  rw [hset]
  refine (measureReal_iUnion_fintype_le _).trans ((Finset.sum_le_sum fun w _ => key w).trans ?_)
  rw [Finset.sum_const, Finset.card_univ, nsmul_eq_mul, mul_div_cancel₀ _ hW.ne']

/-! ## Example: a planar surface of the package with a coating of two layers, which reflects half and absorbs an eighth in each layer -/

/-- Reflected, transmitted and absorbed fractions. -/
noncomputable def eighthTab : ℤ → ℝ → ℝ × ℝ × List ℝ := fun _ _ => (1 / 2, 1 / 4, [1 / 8, 1 / 8])

theorem eighth_ok : ∀ side θ, 0 ≤ (eighthTab side θ).1 ∧ 0 ≤ (eighthTab side θ).2.1 ∧ (eighthTab side θ).2.2.length = 2 ∧ (∀ a ∈ (eighthTab side θ).2.2, 0 ≤ a) ∧
      (eighthTab side θ).1 + (eighthTab side θ).2.1 + (eighthTab side θ).2.2.sum = 1 := by intro side θ; simp [eighthTab]; norm_num

theorem eighth_crit : (eighthTab 1 flatLaunch.θ).2.1 = 0 ∨ sinRefr true 1 2 flatLaunch.θ < 1 := by
  right
  have : Real.sin (Real.pi / 4) ≤ 1 := Real.sin_le_one _
  have hn : ‖(1 / 2 : ℂ)‖ = 1 / 2 := by simp
  simp only [sinRefr, flatLaunch, if_true, hn]
  linarith

theorem layers_runs (front : Bool) (Nr : ℕ) (u : Fin Nr → Fin 3 → ℝ) (hu : Inside u) : ∃ M, rtMatrix (rtArgs 1 (2 * π / (4 : ℕ)) 1 .sin true front 2) ⟨fun _ _ => 0, fun _ => 0, fun _ => 0⟩
    (List.ofFn fun k => flatLaunch.ray (flatLaunch.trace exTexture (tmmDraw 1 2 eighthTab) (u k))) = some M :=
  (C152_runs exTexture 1 2 (by simp) (by simp) (by simp) (by simp) (by norm_num [exTexture]) (by norm_num [exTexture]) (by norm_num [exTexture]) (by norm_num [exTexture]) 2 1 one_pos 1 one_pos 4 (by norm_num) .sin front
    eighthTab eighth_ok (K := Nr) (N := 3) le_rfl (fun _ => flatLaunch) (fun _ => flatLaunch_ok) (fun _ => eighth_crit) u hu ⟨fun _ _ => 0, fun _ => 0, fun _ => 0⟩).2

/-- `Nr` rays at 45° on a planar surface coated with two layers, each with three random numbers; one bin per hemisphere. -/
noncomputable def layersRandom (front : Bool) (Nr : ℕ) : RandomSurface 1 1 4 .sin front 2 Nr where
  K := Nr
  N := 3
  c := exTexture
  nAbove := 1
  nBelow := 2
  tmm := true
  dec := tmmDraw 1 2 eighthTab
  law := tmmLaw 1 2 eighthTab
  L := fun _ => flatLaunch
  junk := fun _ => ⟨fun _ _ => 0, fun _ => 0, fun _ => 0⟩
  M := fun u => @Classical.epsilon RTMat someMat fun M => rtMatrix (rtArgs 1 (2 * π / (4 : ℕ)) 1 .sin true front 2) ⟨fun _ _ => 0, fun _ => 0, fun _ => 0⟩
    (List.ofFn fun k => flatLaunch.ray (flatLaunch.trace exTexture (tmmDraw 1 2 eighthTab) (u k))) = some M
  ha := by simp
  hb := by simp
  ka := by simp
  kb := by simp
  hh := by norm_num [exTexture]
  hlaw := tmm_byThresholds fun side θ => by
    obtain ⟨h1, h2, -, h4, h5⟩ := eighth_ok side θ
    have := List.sum_nonneg h4
    exact ⟨h1, h2, by linarith⟩
  hdec := fun u hu w hw => Or.inr ⟨rfl, eighthTab, u, hu, hw, fun side θ => (eighth_ok side θ).2.2⟩
  hL := fun _ => ⟨flatLaunch_ok.angle.1, flatLaunch_ok.angle.2, flatLaunch_ok.azimuth.1⟩
  hfin := fun u hu k => (flat_ray exTexture (by norm_num [exTexture]) (by norm_num [exTexture]) (by norm_num [exTexture]) (by norm_num [exTexture]) 4 (by norm_num) front flatLaunch_ok
    (coated_odds (by simp) (by simp) (by simp) (by simp) eighthTab flatLaunch_ok eighth_crit) le_rfl).2 (u k) (hu k)
  hM := fun u hu => @Classical.epsilon_spec_aux RTMat someMat _ (layers_runs front Nr u hu)
  rays := fun j hj => by
    rw [flat_half] at hj
    obtain rfl : j = 0 := by omega
    rw [Nat.card_congr (Equiv.subtypeUnivEquiv fun _ => flat_incident front)]
    simp

/-- With this surface at the front and at the rear of an absorbing layer, all the hypotheses of `C192_any_coating` are met, for any number of rays: the random numbers may be shared, both systems can be put together and the loops end. -/
example (Nr : ℕ) (hNr : 0 < Nr) : ∃ (S : (Fin Nr → Fin 3 → ℝ) → Sys Unit (Fin (makeAngleVector 1 (2 * π / (4 : ℕ)) 1 .sin).half) (Fin 2) (Fin 2)) (S₀ : Sys Unit (Fin (makeAngleVector 1 (2 * π / (4 : ℕ)) 1 .sin).half) (Fin 1) (Fin 1)),
    MeasurePreserving id (layersRandom true Nr).numbers (layersRandom true Nr).numbers ∧
    (∀ x, assemble 1 (2 * π / (4 : ℕ)) 1 .sin 0 (.val 0) ⟨fun _ => 1, 1, 1 / 100, fun _ => (layersRandom true Nr).stored x, fun _ => (layersRandom true Nr).stored x, fun _ => (layersRandom false Nr).stored x⟩ = some (S x)) ∧
    assemble 1 (2 * π / (4 : ℕ)) 1 .sin 0 (.val 0) ⟨fun _ => 1, 1, 1 / 100, fun _ => (layersRandom true Nr).exactTotal, fun _ => (layersRandom true Nr).exactTotal, fun _ => (layersRandom false Nr).exactTotal⟩ = some S₀ ∧
    (∀ᵐ x ∂(layersRandom true Nr).numbers, ∃ k t, (S x).Exits k t) ∧ ∃ k t, S₀.Exits k t := by
  have hs : (∃ q : ℕ, 0 < q ∧ 2 * π / (4 : ℕ) = 2 * π / ((2 * q : ℕ) : ℝ)) ∨ 2 * π / (4 : ℕ) = 2 * π := Or.inl ⟨2, by norm_num, by norm_num⟩
  have hpi := Real.pi_pos
  have hend := fun (κ : ℕ) (inp : RatInput Unit (Fin κ) (Fin κ) (makeAngleVector 1 (2 * π / (4 : ℕ)) 1 .sin).half) ha hd ht h0 h1 h2 =>
    C17_end_to_end 1 one_pos (2 * π / (4 : ℕ)) hs 1 one_pos .sin 0 le_rfl (by linarith) 0 le_rfl (by positivity) inp 1 one_pos ha hd ht h0 h1 h2
  obtain ⟨S₀, hS₀, he₀⟩ := hend 1 ⟨fun _ => 1, 1, 1 / 100, fun _ => (layersRandom true Nr).exactTotal, fun _ => (layersRandom true Nr).exactTotal, fun _ => (layersRandom false Nr).exactTotal⟩ (fun _ => le_rfl) one_pos (by norm_num)
    (fun _ => (layersRandom true Nr).exactTotal_ok one_pos one_pos (by norm_num) hNr) (fun _ => (layersRandom true Nr).exactTotal_ok one_pos one_pos (by norm_num) hNr)
    (fun _ => (layersRandom false Nr).exactTotal_ok one_pos one_pos (by norm_num) hNr)
  have hex : ∀ inp : RatInput Unit (Fin 2) (Fin 2) (makeAngleVector 1 (2 * π / (4 : ℕ)) 1 .sin).half, ∃ S, assemble 1 (2 * π / (4 : ℕ)) 1 .sin 0 (.val 0) inp = some S := by
    intro inp
    unfold assemble at hS₀ ⊢
    obtain ⟨v, hv, -⟩ := Option.map_eq_some_iff.mp hS₀
    simp only [hv, Option.map_some]
    exact ⟨_, rfl⟩
  choose S hS using fun x => hex ⟨fun _ => 1, 1, 1 / 100, fun _ => (layersRandom true Nr).stored x, fun _ => (layersRandom true Nr).stored x, fun _ => (layersRandom false Nr).stored x⟩
  refine ⟨S, S₀, MeasurePreserving.id _, hS, hS₀, ?_, ?_⟩
  · filter_upwards [inside_ae Nr 3] with x hx
    obtain ⟨S', hS', he⟩ := hend 2 ⟨fun _ => 1, 1, 1 / 100, fun _ => (layersRandom true Nr).stored x, fun _ => (layersRandom true Nr).stored x, fun _ => (layersRandom false Nr).stored x⟩ (fun _ => le_rfl) one_pos (by norm_num)
      (fun _ => (layersRandom true Nr).stored_ok one_pos one_pos (by norm_num) hNr x hx) (fun _ => (layersRandom true Nr).stored_ok one_pos one_pos (by norm_num) hNr x hx)
      (fun _ => (layersRandom false Nr).stored_ok one_pos one_pos (by norm_num) hNr x hx)
    rw [hS x] at hS'
    obtain rfl := Option.some.inj hS'
    obtain ⟨k, -, ⟨t, ht⟩, -⟩ := he ⟨false, [], fun _ _ _ => 0, fun _ _ => 0⟩
    exact ⟨k, t, ht⟩
  · obtain ⟨k, -, ⟨t, ht⟩, -⟩ := he₀ ⟨false, [], fun _ _ _ => 0, fun _ _ => 0⟩
    exact ⟨k, t, ht⟩

end Rayflare
