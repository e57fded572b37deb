import Verif.Props.Noise
import Verif.Props.Statistics
import Verif.Props.EndToEndMethods
import Verif.Props.FlatMatrix2

/-!
# Property C192 for ray-traced surfaces: with enough rays, R, A and T come out right
-/

namespace Rayflare

open Rayflare.Np Rayflare.Model Rayflare.Spec Rayflare.Lemmas MeasureTheory Real

set_option linter.unusedSectionVars false

/-- One side of a textured surface, bare or coated, at one wavelength, ray-traced with random numbers for the matrix method: the texture, the media, the launched rays (at least `Nr` in every incidence bin, all traced to
the end, none travelling exactly along an edge of the angular grid), how a random number `u` decides at a facet (`dec u`; for a bare surface `fresnelDraw`, for a coated one `tmmDraw`), the corresponding probabilities
(`law`; `fresnelLaw`, `tmmLaw`), and the matrices `M` calculated by `RT` for each possible outcome of the random numbers. -/
structure RandomSurface (n : ℕ) (cz : ℝ) (m : ℕ) (sp : Spacing) (front : Bool) (nL Nr : ℕ) where
  K : ℕ
  N : ℕ
  c : Texture
  nAbove : ℂ
  nBelow : ℂ
  tmm : Bool
  dec : ℝ → ℝ → V3 → V3 → ℤ → V3 × ℤ × Option (List ℝ)
  law : FacetLaw
  L : Fin K → Launch
  junk : (Fin K → Fin N → ℝ) → RTJunk
  M : (Fin K → Fin N → ℝ) → RTMat
  ha : 0 < nAbove.re
  hb : 0 < nBelow.re
  ka : 0 ≤ nAbove.im
  kb : 0 ≤ nBelow.im
  hh : c.h + 1e-8 ≠ 0
  hlaw : ByThresholds dec law
  hdec : ∀ u < 1, ∀ w : Draw, w.dec = dec u → FacetDraw nAbove nBelow tmm nL w
  hL : ∀ k, 0 < (L k).θ ∧ (L k).θ < π / 2 ∧ OffEdge (2 * π / m) (L k).φ
  hfin : ∀ u : Fin K → Fin N → ℝ, Inside u → ∀ k, (L k).trace c dec (u k) ≠ none ∧ OutOffEdge (2 * π / m) front ((L k).ray ((L k).trace c dec (u k)))
  hM : ∀ u, Inside u → rtMatrix (rtArgs n (2 * π / m) cz sp tmm front nL) (junk u) (List.ofFn fun k => (L k).ray ((L k).trace c dec (u k))) = some (M u)
  rays : ∀ j < (makeAngleVector n (2 * π / m) cz sp).half, Nr ≤ Nat.card {k // IncidentIn n cz (2 * π / m) sp front j ((L k).ray none)}

namespace RandomSurface

variable {n : ℕ} {cz : ℝ} {m : ℕ} {sp : Spacing} {front : Bool} {nL Nr : ℕ} (X : RandomSurface n cz m sp front nL Nr)

/-- What is stored, for the random numbers `u`. -/
def stored (u : Fin X.K → Fin X.N → ℝ) : Matrix (Fin ((makeAngleVector n (2 * π / m) cz sp).half + (makeAngleVector n (2 * π / m) cz sp).half)) (Fin (makeAngleVector n (2 * π / m) cz sp).half) ℝ ×
    Matrix (Fin nL) (Fin (makeAngleVector n (2 * π / m) cz sp).half) ℝ := (fun r j => (X.M u).out r j, fun l j => (X.M u).A l j)

open Classical in
/-- The mean over the rays launched in incidence bin `j` of the total weight of the branches that end in the given way. -/
noncomputable def branchMean (j : ℕ) (E : RTRay → Prop) : ℝ :=
  (∑ k with IncidentIn n cz (2 * π / m) sp front j ((X.L k).ray none), branchesInterface X.c X.law (fun o => if E ((X.L k).ray o) then 1 else 0) (X.L k).θ (X.L k).φ (X.L k).x (X.L k).y (List.ofFn fun i : Fin X.N => (X.L k).D i)) /
    (Finset.univ.filter fun k => IncidentIn n cz (2 * π / m) sp front j ((X.L k).ray none)).card

/-- The exact matrices: following all the branches of the same rays instead of drawing random numbers. -/
noncomputable def exact : Matrix (Fin ((makeAngleVector n (2 * π / m) cz sp).half + (makeAngleVector n (2 * π / m) cz sp).half)) (Fin (makeAngleVector n (2 * π / m) cz sp).half) ℝ ×
    Matrix (Fin nL) (Fin (makeAngleVector n (2 * π / m) cz sp).half) ℝ := (fun r j => X.branchMean j (LeavesIn n cz (2 * π / m) sp front r), fun _ j => X.branchMean j IsAbsorbed)

/-- The distribution of the random numbers: independent and uniform. -/
noncomputable def numbers : Measure (Fin X.K → Fin X.N → ℝ) := Measure.pi fun _ => uniform X.N

/-! ## Helper lemmas -/

open Classical in
theorem rays' (j : ℕ) (hj : j < (makeAngleVector n (2 * π / m) cz sp).half) : Nr ≤ (Finset.univ.filter fun k => IncidentIn n cz (2 * π / m) sp front j ((X.L k).ray none)).card := by
  have := X.rays j hj
  rwa [Nat.card_eq_fintype_card, Fintype.card_subtype] at this

theorem some_ray (hNr : 0 < Nr) (j : ℕ) (hj : j < (makeAngleVector n (2 * π / m) cz sp).half) : ∃ k, IncidentIn n cz (2 * π / m) sp front j ((X.L k).ray none) := by
  classical
  have h := lt_of_lt_of_le hNr (X.rays' j hj)
  obtain ⟨k, hk⟩ := Finset.card_pos.mp h
  exact ⟨k, (Finset.mem_filter.mp hk).2⟩

section
variable (hn : 0 < n) (hc : 0 < cz) (hm : 0 < m) (hNr : 0 < Nr)
include hn hc hm hNr

theorem stored_ok (u : Fin X.K → Fin X.N → ℝ) (hu : Inside u) : StoredOk (X.stored u) := by
  have hhalf : (makeAngleVector n (2 * π / m) cz sp).half = ringStart n cz n := half_eq n hn cz sp (2 * π / m)
  have htot : ringStart n cz (2 * n) = 2 * (makeAngleVector n (2 * π / m) cz sp).half := by rw [hhalf]; exact ringStart_half n cz
  obtain ⟨M', hM', hcol⟩ := C48_columns n hn cz hc m hm sp X.tmm front nL (List.ofFn fun k => (X.L k).ray ((X.L k).trace X.c X.dec (u k)))
    (by
      intro r hr
      obtain ⟨k, rfl⟩ := (List.mem_ofFn' _ _).mp hr
      obtain ⟨res, hres⟩ := Option.ne_none_iff_exists'.mp (X.hfin u hu k).1
      refine trace_ok X.c X.nAbove X.nBelow X.ha X.hb X.ka X.kb X.hh X.tmm nL
        { ray := (X.L k).ray ((X.L k).trace X.c X.dec (u k)), res := res, ws := drawsOf (X.L k).D X.dec (u k) } ⟨?_, (X.L k).x, (X.L k).y, ?_, ?_⟩ (X.hL k).1 (X.hL k).2.1 (X.hL k).2.2
      · intro w hw
        obtain ⟨i, rfl⟩ := (List.mem_ofFn' _ _).mp hw
        exact X.hdec _ (hu k i).2 _ rfl
      · exact hres
      · rw [hres]; rfl) (X.junk u)
  have hMM : M' = X.M u := Option.some.inj (hM'.symm.trans (X.hM u hu))
  subst hMM
  have key : ∀ j : Fin (makeAngleVector n (2 * π / m) cz sp).half, _ := fun j => hcol (j : ℕ) (by
    obtain ⟨k, hk⟩ := X.some_ray hNr j j.2
    exact ⟨_, (List.mem_ofFn' _ _).mpr ⟨k, rfl⟩, hk⟩)
  refine ⟨fun j => ?_, fun r j => (key j).1 r, fun l j => (key j).2.1 l⟩
  have := (key j).2.2
  rw [htot] at this
  simp only [stored]
  rw [sum_fin_add _ (fun r => (X.M u).out r j), ← Finset.sum_range (fun l => (X.M u).A l j)]
  exact this

open Classical in
theorem mean_integral (j : Fin (makeAngleVector n (2 * π / m) cz sp).half) :
    (∀ i, Integrable (fun u => (X.M u).out i j) X.numbers ∧ ∫ u, (X.M u).out i j ∂X.numbers = X.branchMean j (LeavesIn n cz (2 * π / m) sp front i)) ∧
    Integrable (fun u => ∑ l ∈ Finset.range nL, (X.M u).A l j) X.numbers ∧ ∫ u, ∑ l ∈ Finset.range nL, (X.M u).A l j ∂X.numbers = X.branchMean j IsAbsorbed := by
  have hj := X.some_ray hNr j j.2
  have hmean := matrix_mean X.c X.nAbove X.nBelow X.ha X.hb X.ka X.kb X.hh X.tmm nL n hn cz hc m hm sp front X.dec X.law X.hlaw X.hdec X.L X.hL X.hfin X.junk X.M X.hM j hj
  have hent := fun u hu => matrix_entries X.c X.nAbove X.nBelow X.ha X.hb X.ka X.kb X.hh X.tmm nL n hn cz hc m hm sp front X.dec X.hdec X.L X.hL u hu (X.hfin u hu) (X.junk u) (X.M u) (X.hM u hu) j hj
  have hint : ∀ E : RTRay → Prop, Integrable (fun u : Fin X.K → Fin X.N → ℝ => (∑ k with IncidentIn n cz (2 * π / m) sp front j ((X.L k).ray none), (fun o => if E ((X.L k).ray o) then (1 : ℝ) else 0) ((X.L k).trace X.c X.dec (u k))) /
      ((Finset.univ.filter fun k => IncidentIn n cz (2 * π / m) sp front j ((X.L k).ray none)).card : ℝ)) X.numbers := by
    intro E
    refine Integrable.div_const ?_ _
    exact integrable_finset_sum _ fun k _ => (mean_one X.c X.dec X.law X.hlaw (X.L k) k (fun o => if E ((X.L k).ray o) then (1 : ℝ) else 0)).1
  refine ⟨fun i => ⟨?_, hmean.1 i⟩, ?_, hmean.2⟩
  · refine (hint (LeavesIn n cz (2 * π / m) sp front i)).congr ?_
    filter_upwards [inside_ae X.K X.N] with u hu
    exact ((hent u hu).1 i).symm
  · refine (hint IsAbsorbed).congr ?_
    filter_upwards [inside_ae X.K X.N] with u hu
    exact (hent u hu).2.symm

theorem absorbed_one (hnL : nL ≤ 1) (f : ℕ → ℝ) (l : Fin nL) : ∑ i ∈ Finset.range nL, f i = f l := by
  have hl : (l : ℕ) < nL := l.2
  obtain rfl : nL = 1 := by omega
  have : (l : ℕ) = 0 := by omega
  rw [this]; simp

theorem exact_ok (hnL : nL ≤ 1) : StoredOk X.exact := by
  have hP : IsProbabilityMeasure X.numbers := by unfold numbers; infer_instance
  have hin : ∀ᵐ u ∂X.numbers, Inside u := inside_ae X.K X.N
  have hsum : ∀ j, ∑ l, X.exact.2 l j = X.branchMean j IsAbsorbed := by
    intro j
    rcases Nat.le_one_iff_eq_zero_or_eq_one.mp hnL with rfl | rfl
    · have := (X.mean_integral hn hc hm hNr j).2.2
      simp only [Finset.range_zero, Finset.sum_empty, integral_zero] at this
      rw [← this]; simp
    · simp [exact]
  refine ⟨fun j => ?_, fun r j => ?_, fun l j => ?_⟩
  · rw [hsum j]
    obtain ⟨h1, h2, h3⟩ := X.mean_integral hn hc hm hNr j
    simp only [exact]
    rw [← h3]
    simp only [← (h1 _).2]
    rw [← integral_finset_sum _ fun r _ => (h1 _).1, ← integral_add (integrable_finset_sum _ fun r _ => (h1 _).1) h2]
    have : ∫ u, (∑ r : Fin ((makeAngleVector n (2 * π / m) cz sp).half + (makeAngleVector n (2 * π / m) cz sp).half), (X.M u).out r j + ∑ l ∈ Finset.range nL, (X.M u).A l j) ∂X.numbers = ∫ _, (1 : ℝ) ∂X.numbers := by
      refine integral_congr_ae ?_
      filter_upwards [hin] with u hu
      have := (X.stored_ok hn hc hm hNr u hu).1 j
      simp only [stored] at this
      rw [Finset.sum_range]
      exact this
    rw [this]; simp
  · rw [show X.exact.1 r j = _ from (((X.mean_integral hn hc hm hNr j).1 r).2).symm]
    refine integral_nonneg_of_ae ?_
    filter_upwards [hin] with u hu
    exact (X.stored_ok hn hc hm hNr u hu).2.1 r j
  · rw [show X.exact.2 l j = _ from ((X.mean_integral hn hc hm hNr j).2.2).symm]
    refine integral_nonneg_of_ae ?_
    filter_upwards [hin] with u hu
    simp only [absorbed_one hn hc hm hNr hnL (fun i => (X.M u).A i j) l]
    exact (X.stored_ok hn hc hm hNr u hu).2.2 l j

open Classical in
theorem noisy (hnL : nL ≤ 1) {Ω : Type*} [MeasurableSpace Ω] (P : Measure Ω) [IsProbabilityMeasure P] (u : Ω → Fin X.K → Fin X.N → ℝ) (hu : MeasurePreserving u P X.numbers) (side : Side) (ε : ℝ) (hε : 0 ≤ ε) :
    NoisyEntries P (fun x => loadMats side (X.stored (u x)).1 (X.stored (u x)).2) (loadMats side X.exact.1 X.exact.2) ε (2 * exp (-2 * Nr * ε ^ 2)) := by
  have hP : IsProbabilityMeasure X.numbers := by unfold numbers; infer_instance
  have htr : ∀ s : Set (Fin X.K → Fin X.N → ℝ), P.real {x | u x ∈ s} ≤ X.numbers.real s := by
    intro s
    have h1 := Measure.le_map_apply (μ := P) hu.measurable.aemeasurable s
    rw [hu.map_eq] at h1
    exact ENNReal.toReal_mono (measure_ne_top _ _) h1
  have hmono : ∀ j : Fin (makeAngleVector n (2 * π / m) cz sp).half, 2 * exp (-2 * ((Finset.univ.filter fun k => IncidentIn n cz (2 * π / m) sp front j ((X.L k).ray none)).card : ℕ) * ε ^ 2) ≤ 2 * exp (-2 * Nr * ε ^ 2) := by
    intro j
    have h1 : (Nr : ℝ) ≤ ((Finset.univ.filter fun k => IncidentIn n cz (2 * π / m) sp front j ((X.L k).ray none)).card : ℕ) := by exact_mod_cast X.rays' j j.2
    have h2 := mul_le_mul_of_nonneg_right h1 (sq_nonneg ε)
    have h3 := exp_le_exp.mpr (show -2 * (((Finset.univ.filter fun k => IncidentIn n cz (2 * π / m) sp front j ((X.L k).ray none)).card : ℕ) : ℝ) * ε ^ 2 ≤ -2 * Nr * ε ^ 2 by linarith)
    linarith
  have herr := fun j : Fin (makeAngleVector n (2 * π / m) cz sp).half =>
    matrix_error X.c X.nAbove X.nBelow X.ha X.hb X.ka X.kb X.hh X.tmm nL n hn cz hc m hm sp front X.dec X.law X.hlaw X.hdec X.L X.hL X.hfin X.junk X.M X.hM j (X.some_ray hNr j j.2) ε hε
  have hout : ∀ (r : Fin ((makeAngleVector n (2 * π / m) cz sp).half + (makeAngleVector n (2 * π / m) cz sp).half)) (j : Fin (makeAngleVector n (2 * π / m) cz sp).half),
      P.real {x | ε ≤ |(X.stored (u x)).1 r j - X.exact.1 r j|} ≤ 2 * exp (-2 * Nr * ε ^ 2) :=
    fun r j => (htr {v | ε ≤ |(X.M v).out r j - X.branchMean j (LeavesIn n cz (2 * π / m) sp front r)|}).trans (((herr j).1 r).trans (hmono j))
  have habs : ∀ (l : Fin nL) (j : Fin (makeAngleVector n (2 * π / m) cz sp).half), P.real {x | ε ≤ |(X.stored (u x)).2 l j - X.exact.2 l j|} ≤ 2 * exp (-2 * Nr * ε ^ 2) := by
    intro l j
    have h1 := (herr j).2.trans (hmono j)
    simp only [fun v => absorbed_one hn hc hm hNr hnL (fun i => (X.M v).A i j) l] at h1
    exact (htr {v | ε ≤ |(X.M v).A l j - X.branchMean j IsAbsorbed|}).trans h1
  cases side
  · exact ⟨fun r j => hout _ j, fun r j => hout _ j, habs⟩
  · exact ⟨fun r j => hout _ j, fun r j => hout _ j, habs⟩

end

end RandomSurface

/-! ## The property -/

variable {Ω ω : Type*} [MeasurableSpace Ω] [Countable ω]

/-- **C192, ray-traced surfaces.** The surfaces of a structure, bare or coated with one layer, are ray-traced with random numbers, with at least `Nr` rays in each of the `h` incidence directions, and used in `calculate_RAT` with an
absorbing bulk layer.  For every tolerance and probability of failure, if `Nr` is at least `ln(6 h (2 h + 1) / δ) C² / (2 tol²)` with `C = (2 h + 1) (1 + 2 / (1 - exp (-2 α d)))`, then, except with probability `δ`, all results at that wavelength
(for every direction, layer and in total) are within `tol + I_thresh` of the results with the exact matrices, found by following all the branches of the rays.  The random numbers of the different surfaces and wavelengths need not be
independent of each other. -/
theorem C192_traced (P : Measure Ω) [IsProbabilityMeasure P] (n : ℕ) (hn : 0 < n) (m : ℕ) (hm : 0 < m) (hsym : Even m ∨ m = 1) (cz : ℝ) (hc : 0 < cz) (sp : Spacing) (thIn : ℝ) (ht0 : 0 ≤ thIn) (ht1 : thIn < π / 2) (phiIn : PhiIn)
    (nL₀ nL₁ Nr : ℕ) (hnL₀ : nL₀ ≤ 1) (hnL₁ : nL₁ ≤ 1) (hNr : 0 < Nr) (α : ω → ℝ) (thick thresh : ℝ) (hα : ∀ w, 0 ≤ α w) (hd : 0 ≤ thick)
    (X0 : ω → RandomSurface n cz m sp true nL₀ Nr) (X1 : ω → RandomSurface n cz m sp true nL₁ Nr) (X2 : ω → RandomSurface n cz m sp false nL₀ Nr)
    (u0 : ∀ w, Ω → Fin (X0 w).K → Fin (X0 w).N → ℝ) (u1 : ∀ w, Ω → Fin (X1 w).K → Fin (X1 w).N → ℝ) (u2 : ∀ w, Ω → Fin (X2 w).K → Fin (X2 w).N → ℝ)
    (hu0 : ∀ w, MeasurePreserving (u0 w) P (X0 w).numbers) (hu1 : ∀ w, MeasurePreserving (u1 w) P (X1 w).numbers) (hu2 : ∀ w, MeasurePreserving (u2 w) P (X2 w).numbers)
    (S : Ω → Sys ω (Fin (makeAngleVector n (2 * π / m) cz sp).half) (Fin nL₀) (Fin nL₁)) (S₀ : Sys ω (Fin (makeAngleVector n (2 * π / m) cz sp).half) (Fin nL₀) (Fin nL₁))
    (hS : ∀ x, assemble n (2 * π / m) cz sp thIn phiIn ⟨α, thick, thresh, fun w => (X0 w).stored (u0 w x), fun w => (X1 w).stored (u1 w x), fun w => (X2 w).stored (u2 w x)⟩ = some (S x))
    (hS₀ : assemble n (2 * π / m) cz sp thIn phiIn ⟨α, thick, thresh, fun w => (X0 w).exact, fun w => (X1 w).exact, fun w => (X2 w).exact⟩ = some S₀)
    (o o₀ : ProfOpts ω (Fin (makeAngleVector n (2 * π / m) cz sp).half)) (k : Ω → ℕ) (t : Ω → LoopState ω (Fin (makeAngleVector n (2 * π / m) cz sp).half) (Fin nL₀) (Fin nL₁))
    (ht : ∀ᵐ x ∂P, (S x).Exits (k x) (t x) ∨ (S x).ExitsProf o (k x) (t x))
    (k₀ : ℕ) (t₀ : LoopState ω (Fin (makeAngleVector n (2 * π / m) cz sp).half) (Fin nL₀) (Fin nL₁)) (ht₀ : S₀.Exits k₀ t₀ ∨ S₀.ExitsProf o₀ k₀ t₀)
    (w : ω) (habs : 0 < α w * thick) (tol δ : ℝ) (htol : 0 < tol) (hδ : 0 < δ)
    (hN : let h := ((makeAngleVector n (2 * π / m) cz sp).half : ℝ)
      log (6 * h * (2 * h + 1) / δ) * ((2 * h + 1) * (1 + 2 / (1 - exp (-(2 * (α w * thick)))))) ^ 2 / (2 * tol ^ 2) ≤ Nr) :
    P.real {x | ¬ ResultsWithin (tol + thresh) (t x) w t₀ w} ≤ δ := by
  have hs : (∃ q : ℕ, 0 < q ∧ 2 * π / m = 2 * π / ((2 * q : ℕ) : ℝ)) ∨ 2 * π / m = 2 * π := by
    rcases hsym with ⟨q, hq⟩ | rfl
    · refine Or.inl ⟨q, by omega, ?_⟩
      rw [hq, show q + q = 2 * q by omega]
    · right; simp
  obtain ⟨c1, c2, c3, c4⟩ := C15_assembled n hn (2 * π / m) hs cz hc sp thIn ht0 ht1 phiIn _ hα hd (fun w => (X0 w).exact_ok hn hc hm hNr hnL₀) (fun w => (X1 w).exact_ok hn hc hm hNr hnL₁)
    (fun w => (X2 w).exact_ok hn hc hm hNr hnL₀) S₀ hS₀
  have hae : ∀ᵐ x ∂P, EnergyConserving (S x) ∧ NonnegData (S x) ∧ ((S x).Exits (k x) (t x) ∨ (S x).ExitsProf o (k x) (t x)) := by
    have a0 : ∀ᵐ x ∂P, ∀ w, Inside (u0 w x) := ae_all_iff.mpr fun w => (hu0 w).quasiMeasurePreserving.ae (inside_ae (X0 w).K (X0 w).N)
    have a1 : ∀ᵐ x ∂P, ∀ w, Inside (u1 w x) := ae_all_iff.mpr fun w => (hu1 w).quasiMeasurePreserving.ae (inside_ae (X1 w).K (X1 w).N)
    have a2 : ∀ᵐ x ∂P, ∀ w, Inside (u2 w x) := ae_all_iff.mpr fun w => (hu2 w).quasiMeasurePreserving.ae (inside_ae (X2 w).K (X2 w).N)
    filter_upwards [a0, a1, a2, ht] with x x0 x1 x2 htx
    obtain ⟨d1, d2, -, -⟩ := C15_assembled n hn (2 * π / m) hs cz hc sp thIn ht0 ht1 phiIn _ hα hd (fun w => (X0 w).stored_ok hn hc hm hNr _ (x0 w)) (fun w => (X1 w).stored_ok hn hc hm hNr _ (x1 w))
      (fun w => (X2 w).stored_ok hn hc hm hNr _ (x2 w)) (S x) (hS x)
    exact ⟨d1, d2, htx⟩
  unfold assemble at hS₀
  obtain ⟨v, hv, rfl⟩ := Option.map_eq_some_iff.mp hS₀
  have hSx : ∀ x, S x = _ := fun x => by
    have h1 := hS x
    unfold assemble at h1
    simp only [hv, Option.map_some] at h1
    exact (Option.some.inj h1).symm
  have hh : (0 : ℝ) < (makeAngleVector n (2 * π / m) cz sp).half := by
    have h1 : (makeAngleVector n (2 * π / m) cz sp).half = ringStart n cz n := half_eq n hn cz sp (2 * π / m)
    rw [h1]
    exact_mod_cast half_pos n hn cz hc
  have hq : exp (-(2 * (α w * thick))) < 1 := by rw [exp_lt_one_iff]; linarith
  have hfac : 0 < 1 + 2 / (1 - exp (-(2 * (α w * thick)))) := by have := sub_pos.mpr hq; positivity
  have hmax : max (nL₀ : ℝ) (nL₁ : ℝ) ≤ 1 := max_le (by exact_mod_cast hnL₀) (by exact_mod_cast hnL₁)
  have e0 : (nL₀ : ℝ) ≤ 1 := by exact_mod_cast hnL₀
  have e1 : (nL₁ : ℝ) ≤ 1 := by exact_mod_cast hnL₁
  simp only at hN
  obtain ⟨h, hhe⟩ : ∃ h, ((makeAngleVector n (2 * π / m) cz sp).half : ℝ) = h := ⟨_, rfl⟩
  rw [hhe] at hh hN
  refine C192_enough P S _ w c1 c2 (fun x => ?_) c3 habs o o₀ k t hae k₀ t₀ ht₀ Nr (fun ε hε => ?_) (fun ε hε => ?_) (fun ε hε => ?_) tol δ htol hδ
    ((2 * h + 1) * (1 + 2 / (1 - exp (-(2 * (α w * thick)))))) (3 * h * (2 * h + 1)) (by positivity) (by positivity) ?_ ?_ ?_
  · rw [hSx x]; exact ⟨rfl, rfl, rfl, rfl, rfl, rfl, rfl⟩
  · simp only [hSx]; exact (X0 w).noisy hn hc hm hNr hnL₀ P (u0 w) (hu0 w) .front ε hε
  · simp only [hSx]; exact (X1 w).noisy hn hc hm hNr hnL₁ P (u1 w) (hu1 w) .front ε hε
  · simp only [hSx]; exact (X2 w).noisy hn hc hm hNr hnL₀ P (u2 w) (hu2 w) .rear ε hε
  · rw [c4 w, mul_one, Fintype.card_fin, Fintype.card_fin, Fintype.card_fin, hhe]
    exact mul_le_mul_of_nonneg_right (by linarith) hfac.le
  · rw [Fintype.card_fin, Fintype.card_fin, Fintype.card_fin, hhe]
    have f0 := mul_le_mul_of_nonneg_right e0 hh.le
    have f1 := mul_le_mul_of_nonneg_right e1 hh.le
    linarith
  · rw [show 2 * (3 * h * (2 * h + 1)) / δ = 6 * h * (2 * h + 1) / δ by ring]
    exact hN

/-- **C192, all wavelengths at once.** The same for finitely many wavelengths; the number of rays then depends on the logarithm of the number of wavelengths. -/
theorem C192_all_wavelengths {Ω ω : Type*} [MeasurableSpace Ω] [Fintype ω] [Nonempty ω] (P : Measure Ω) [IsProbabilityMeasure P] (n : ℕ) (hn : 0 < n) (m : ℕ) (hm : 0 < m) (hsym : Even m ∨ m = 1) (cz : ℝ) (hc : 0 < cz) (sp : Spacing) (thIn : ℝ) (ht0 : 0 ≤ thIn) (ht1 : thIn < π / 2) (phiIn : PhiIn)
    (nL₀ nL₁ Nr : ℕ) (hnL₀ : nL₀ ≤ 1) (hnL₁ : nL₁ ≤ 1) (hNr : 0 < Nr) (α : ω → ℝ) (thick thresh : ℝ) (hα : ∀ w, 0 ≤ α w) (hd : 0 ≤ thick)
    (X0 : ω → RandomSurface n cz m sp true nL₀ Nr) (X1 : ω → RandomSurface n cz m sp true nL₁ Nr) (X2 : ω → RandomSurface n cz m sp false nL₀ Nr)
    (u0 : ∀ w, Ω → Fin (X0 w).K → Fin (X0 w).N → ℝ) (u1 : ∀ w, Ω → Fin (X1 w).K → Fin (X1 w).N → ℝ) (u2 : ∀ w, Ω → Fin (X2 w).K → Fin (X2 w).N → ℝ)
    (hu0 : ∀ w, MeasurePreserving (u0 w) P (X0 w).numbers) (hu1 : ∀ w, MeasurePreserving (u1 w) P (X1 w).numbers) (hu2 : ∀ w, MeasurePreserving (u2 w) P (X2 w).numbers)
    (S : Ω → Sys ω (Fin (makeAngleVector n (2 * π / m) cz sp).half) (Fin nL₀) (Fin nL₁)) (S₀ : Sys ω (Fin (makeAngleVector n (2 * π / m) cz sp).half) (Fin nL₀) (Fin nL₁))
    (hS : ∀ x, assemble n (2 * π / m) cz sp thIn phiIn ⟨α, thick, thresh, fun w => (X0 w).stored (u0 w x), fun w => (X1 w).stored (u1 w x), fun w => (X2 w).stored (u2 w x)⟩ = some (S x))
    (hS₀ : assemble n (2 * π / m) cz sp thIn phiIn ⟨α, thick, thresh, fun w => (X0 w).exact, fun w => (X1 w).exact, fun w => (X2 w).exact⟩ = some S₀)
    (o o₀ : ProfOpts ω (Fin (makeAngleVector n (2 * π / m) cz sp).half)) (k : Ω → ℕ) (t : Ω → LoopState ω (Fin (makeAngleVector n (2 * π / m) cz sp).half) (Fin nL₀) (Fin nL₁))
    (ht : ∀ᵐ x ∂P, (S x).Exits (k x) (t x) ∨ (S x).ExitsProf o (k x) (t x))
    (k₀ : ℕ) (t₀ : LoopState ω (Fin (makeAngleVector n (2 * π / m) cz sp).half) (Fin nL₀) (Fin nL₁)) (ht₀ : S₀.Exits k₀ t₀ ∨ S₀.ExitsProf o₀ k₀ t₀)
    (habs : ∀ w, 0 < α w * thick) (tol δ : ℝ) (htol : 0 < tol) (hδ : 0 < δ)
    (hN : let h := ((makeAngleVector n (2 * π / m) cz sp).half : ℝ)
      ∀ w, log (6 * h * (2 * h + 1) * Fintype.card ω / δ) * ((2 * h + 1) * (1 + 2 / (1 - exp (-(2 * (α w * thick)))))) ^ 2 / (2 * tol ^ 2) ≤ Nr) :
    P.real {x | ¬ ∀ w, ResultsWithin (tol + thresh) (t x) w t₀ w} ≤ δ := by
  have hW : (0 : ℝ) < Fintype.card ω := by exact_mod_cast Fintype.card_pos
  have key := fun w => C192_traced P n hn m hm hsym cz hc sp thIn ht0 ht1 phiIn nL₀ nL₁ Nr hnL₀ hnL₁ hNr α thick thresh hα hd X0 X1 X2 u0 u1 u2 hu0 hu1 hu2 S S₀ hS hS₀ o o₀ k t ht k₀ t₀ ht₀ w (habs w) tol
    (δ / Fintype.card ω) htol (div_pos hδ hW) (by
      intro h
      have h1 := hN w
      rwa [show 6 * h * (2 * h + 1) / (δ / Fintype.card ω) = 6 * h * (2 * h + 1) * Fintype.card ω / δ from by rw [div_div_eq_mul_div]])
  have hset : {x | ¬ ∀ w, ResultsWithin (tol + thresh) (t x) w t₀ w} = ⋃ w, {x | ¬ ResultsWithin (tol + thresh) (t x) w t₀ w} := by
    ext x
    simp
  rw [hset]
  refine (measureReal_iUnion_fintype_le _).trans ((Finset.sum_le_sum fun w _ => key w).trans ?_)
  rw [Finset.sum_const, Finset.card_univ, nsmul_eq_mul, mul_div_cancel₀ _ hW.ne']

/-! ## Example: a planar surface of the package with a coating that reflects half and absorbs a quarter -/

theorem quarter_ok : ∀ side θ, 0 ≤ (quarterTab side θ).1 ∧ 0 ≤ (quarterTab side θ).2.1 ∧ (quarterTab side θ).2.2.length = 1 ∧ (∀ a ∈ (quarterTab side θ).2.2, 0 ≤ a) ∧
      (quarterTab side θ).1 + (quarterTab side θ).2.1 + (quarterTab side θ).2.2.sum = 1 := by intro side θ; simp [quarterTab]; norm_num

theorem quarter_crit : (quarterTab 1 flatLaunch.θ).2.1 = 0 ∨ sinRefr true 1 2 flatLaunch.θ < 1 := by
  right
  have : Real.sin (Real.pi / 4) ≤ 1 := Real.sin_le_one _
  have hn : ‖(1 / 2 : ℂ)‖ = 1 / 2 := by simp
  simp only [sinRefr, flatLaunch, if_true, hn]
  linarith

theorem flat_half : (makeAngleVector 1 (2 * π / (4 : ℕ)) 1 .sin).half = 1 := by
  have h1 : (makeAngleVector 1 (2 * π / (4 : ℕ)) 1 .sin).half = ringStart 1 1 1 := half_eq 1 one_pos 1 .sin _
  rw [h1]
  simp [ringStart, ringSize]

theorem flat_incident (front : Bool) : IncidentIn 1 1 (2 * π / (4 : ℕ)) .sin front 0 (flatLaunch.ray none) := by
  have hr1 : ringStart 1 1 1 = 1 := by simp [ringStart, ringSize]
  have hr2 : ringStart 1 1 (2 * 1) = 2 := by simp [ringStart, ringSize, Finset.sum_range_succ]
  obtain ⟨h0, h1⟩ := flatLaunch_ok.angle
  have hpi := Real.pi_pos
  refine ⟨by rw [hr1]; norm_num, ?_⟩
  cases front
  · obtain ⟨i, k, -, -, -, hd, -⟩ := dirInBin_fold (n := 1) one_pos (c := 1) one_pos 4 (by norm_num) (sp := .sin) (θ := π - flatLaunch.θ) (by linarith) (by linarith) flatLaunch_ok.azimuth.1 true true 0
    have hh := dirInBin_half one_pos hd
    rw [hr1, hr2] at hh
    have h2 : ¬ ringStart 1 1 i + k < 1 := fun h => by have := hh.2.mp h; linarith
    have h3 : ringStart 1 1 i + k = 1 := by have := hh.1; omega
    rw [h3] at hd
    simpa [seen, Launch.ray, hr1] using hd
  · obtain ⟨i, k, -, -, -, hd, -⟩ := dirInBin_fold (n := 1) one_pos (c := 1) one_pos 4 (by norm_num) (sp := .sin) h0 (by linarith) flatLaunch_ok.azimuth.1 true true 0
    have hh := (dirInBin_half one_pos hd).2.mpr h1.le
    rw [hr1] at hh
    have h3 : ringStart 1 1 i + k = 0 := by omega
    rw [h3] at hd
    simpa [seen, Launch.ray] using hd

theorem flat_runs' (front : Bool) (Nr : ℕ) (u : Fin Nr → Fin 3 → ℝ) (hu : Inside u) : ∃ M, rtMatrix (rtArgs 1 (2 * π / (4 : ℕ)) 1 .sin true front 1) ⟨fun _ _ => 0, fun _ => 0, fun _ => 0⟩
    (List.ofFn fun k => flatLaunch.ray (flatLaunch.trace exTexture (tmmDraw 1 2 quarterTab) (u k))) = some M :=
  (C152_runs exTexture 1 2 (by simp) (by simp) (by simp) (by simp) (by norm_num [exTexture]) (by norm_num [exTexture]) (by norm_num [exTexture]) (by norm_num [exTexture]) 1 1 one_pos 1 one_pos 4 (by norm_num) .sin front
    quarterTab quarter_ok (K := Nr) (N := 3) le_rfl (fun _ => flatLaunch) (fun _ => flatLaunch_ok) (fun _ => quarter_crit) u hu ⟨fun _ _ => 0, fun _ => 0, fun _ => 0⟩).2

theorem someMat : Nonempty RTMat := by
  obtain ⟨M, -⟩ := flat_runs' true 1 (fun _ _ => 1 / 2) (fun _ _ => by norm_num)
  exact ⟨M⟩

/-- `Nr` rays at 45° on a coated planar surface, each with three random numbers; one bin per hemisphere. -/
noncomputable def flatRandom (front : Bool) (Nr : ℕ) : RandomSurface 1 1 4 .sin front 1 Nr where
  K := Nr
  N := 3
  c := exTexture
  nAbove := 1
  nBelow := 2
  tmm := true
  dec := tmmDraw 1 2 quarterTab
  law := tmmLaw 1 2 quarterTab
  L := fun _ => flatLaunch
  junk := fun _ => ⟨fun _ _ => 0, fun _ => 0, fun _ => 0⟩
  M := fun u => @Classical.epsilon RTMat someMat fun M => rtMatrix (rtArgs 1 (2 * π / (4 : ℕ)) 1 .sin true front 1) ⟨fun _ _ => 0, fun _ => 0, fun _ => 0⟩
    (List.ofFn fun k => flatLaunch.ray (flatLaunch.trace exTexture (tmmDraw 1 2 quarterTab) (u k))) = some M
  ha := by simp
  hb := by simp
  ka := by simp
  kb := by simp
  hh := by norm_num [exTexture]
  hlaw := tmm_byThresholds fun side θ => by
    obtain ⟨h1, h2, -, h4, h5⟩ := quarter_ok side θ
    have := List.sum_nonneg h4
    exact ⟨h1, h2, by linarith⟩
  hdec := fun u hu w hw => Or.inr ⟨rfl, quarterTab, u, hu, hw, fun side θ => (quarter_ok side θ).2.2⟩
  hL := fun _ => ⟨flatLaunch_ok.angle.1, flatLaunch_ok.angle.2, flatLaunch_ok.azimuth.1⟩
  hfin := fun u hu k => (flat_ray exTexture (by norm_num [exTexture]) (by norm_num [exTexture]) (by norm_num [exTexture]) (by norm_num [exTexture]) 4 (by norm_num) front flatLaunch_ok
    (coated_odds (by simp) (by simp) (by simp) (by simp) quarterTab flatLaunch_ok quarter_crit) le_rfl).2 (u k) (hu k)
  hM := fun u hu => @Classical.epsilon_spec_aux RTMat someMat _ (flat_runs' front Nr u hu)
  rays := fun j hj => by
    rw [flat_half] at hj
    obtain rfl : j = 0 := by omega
    rw [Nat.card_congr (Equiv.subtypeUnivEquiv fun _ => flat_incident front)]
    simp

/-- With this surface at the front and at the rear of an absorbing layer, all the hypotheses of `C192_traced` are met, for any number of rays: the random numbers may be shared, both systems can be put together and the loops end. -/
example (Nr : ℕ) (hNr : 0 < Nr) : ∃ (S : (Fin Nr → Fin 3 → ℝ) → Sys Unit (Fin (makeAngleVector 1 (2 * π / (4 : ℕ)) 1 .sin).half) (Fin 1) (Fin 1)) (S₀ : Sys Unit (Fin (makeAngleVector 1 (2 * π / (4 : ℕ)) 1 .sin).half) (Fin 1) (Fin 1)),
    MeasurePreserving id (flatRandom true Nr).numbers (flatRandom true Nr).numbers ∧
    (∀ x, assemble 1 (2 * π / (4 : ℕ)) 1 .sin 0 (.val 0) ⟨fun _ => 1, 1, 1 / 100, fun _ => (flatRandom true Nr).stored x, fun _ => (flatRandom true Nr).stored x, fun _ => (flatRandom false Nr).stored x⟩ = some (S x)) ∧
    assemble 1 (2 * π / (4 : ℕ)) 1 .sin 0 (.val 0) ⟨fun _ => 1, 1, 1 / 100, fun _ => (flatRandom true Nr).exact, fun _ => (flatRandom true Nr).exact, fun _ => (flatRandom false Nr).exact⟩ = some S₀ ∧
    (∀ᵐ x ∂(flatRandom true Nr).numbers, ∃ k t, (S x).Exits k t) ∧ ∃ k t, S₀.Exits k t := by
  have hs : (∃ q : ℕ, 0 < q ∧ 2 * π / (4 : ℕ) = 2 * π / ((2 * q : ℕ) : ℝ)) ∨ 2 * π / (4 : ℕ) = 2 * π := Or.inl ⟨2, by norm_num, by norm_num⟩
  have hpi := Real.pi_pos
  have hend := fun (inp : RatInput Unit (Fin 1) (Fin 1) (makeAngleVector 1 (2 * π / (4 : ℕ)) 1 .sin).half) ha hd ht h0 h1 h2 =>
    C17_end_to_end 1 one_pos (2 * π / (4 : ℕ)) hs 1 one_pos .sin 0 le_rfl (by linarith) 0 le_rfl (by positivity) inp 1 one_pos ha hd ht h0 h1 h2
  obtain ⟨S₀, hS₀, he₀⟩ := hend ⟨fun _ => 1, 1, 1 / 100, fun _ => (flatRandom true Nr).exact, fun _ => (flatRandom true Nr).exact, fun _ => (flatRandom false Nr).exact⟩ (fun _ => le_rfl) one_pos (by norm_num)
    (fun _ => (flatRandom true Nr).exact_ok one_pos one_pos (by norm_num) hNr le_rfl) (fun _ => (flatRandom true Nr).exact_ok one_pos one_pos (by norm_num) hNr le_rfl)
    (fun _ => (flatRandom false Nr).exact_ok one_pos one_pos (by norm_num) hNr le_rfl)
  have hex : ∀ inp : RatInput Unit (Fin 1) (Fin 1) (makeAngleVector 1 (2 * π / (4 : ℕ)) 1 .sin).half, ∃ S, assemble 1 (2 * π / (4 : ℕ)) 1 .sin 0 (.val 0) inp = some S := by
    intro inp
    unfold assemble at hS₀ ⊢
    obtain ⟨v, hv, -⟩ := Option.map_eq_some_iff.mp hS₀
    simp only [hv, Option.map_some]
    exact ⟨_, rfl⟩
  choose S hS using fun x => hex ⟨fun _ => 1, 1, 1 / 100, fun _ => (flatRandom true Nr).stored x, fun _ => (flatRandom true Nr).stored x, fun _ => (flatRandom false Nr).stored x⟩
  refine ⟨S, S₀, MeasurePreserving.id _, hS, hS₀, ?_, ?_⟩
  · filter_upwards [inside_ae Nr 3] with x hx
    obtain ⟨S', hS', he⟩ := hend ⟨fun _ => 1, 1, 1 / 100, fun _ => (flatRandom true Nr).stored x, fun _ => (flatRandom true Nr).stored x, fun _ => (flatRandom false Nr).stored x⟩ (fun _ => le_rfl) one_pos (by norm_num)
      (fun _ => (flatRandom true Nr).stored_ok one_pos one_pos (by norm_num) hNr x hx) (fun _ => (flatRandom true Nr).stored_ok one_pos one_pos (by norm_num) hNr x hx)
      (fun _ => (flatRandom false Nr).stored_ok one_pos one_pos (by norm_num) hNr x hx)
    rw [hS x] at hS'
    obtain rfl := Option.some.inj hS'
    obtain ⟨k, -, ⟨t, ht⟩, -⟩ := he ⟨false, [], fun _ _ _ => 0, fun _ _ => 0⟩
    exact ⟨k, t, ht⟩
  · obtain ⟨k, -, ⟨t, ht⟩, -⟩ := he₀ ⟨false, [], fun _ _ _ => 0, fun _ _ => 0⟩
    exact ⟨k, t, ht⟩

end Rayflare
