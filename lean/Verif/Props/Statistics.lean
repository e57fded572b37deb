import Mathlib.Analysis.Complex.ExponentialBounds
import Verif.Lemmas.Hoeffding
import Verif.Props.UnbiasedStack

/-!
# Property C138: the statistical error of ray tracing decreases with the number of rays
-/

namespace Rayflare

open Rayflare.Np Rayflare.Model Rayflare.Spec Rayflare.Lemmas MeasureTheory Real

/-- After none of the surfaces met with these random numbers is the ray exactly parallel to the layers. -/
def NeverLevelWith (c : RTStack) {n : ℕ} (K : ℕ) (V : ℕ → Visit) (u : Fin K → Fin n → ℝ) (s : StackRay) : Prop :=
  ∀ (K' : ℕ) (h : K' ≤ K) (s1 : StackRay), traceWith c K' V (fun i => u (Fin.castLE h i)) s = .next s1 → s1.d.z ≠ 0

/-! ## Helper lemmas -/

theorem traceWith_energy {c : RTStack} {nl : ℕ → ℕ} (hc : PhysicalStack c nl) {n : ℕ} : ∀ (K : ℕ) (V : ℕ → Visit) (u : Fin K → Fin n → ℝ) (s s' : StackRay),
    (∀ i j, u i j < 1) → NeverLevelWith c K V u s → StackInv c nl s → Energy c.S s.ray → traceWith c K V u s = .next s' → Energy c.S s'.ray := by
  intro K
  induction K with
  | zero =>
    intro V u s s' _ _ _ he ht
    simp only [traceWith, StackRes.next.injEq] at ht
    rw [← ht]; exact he
  | succ K ih =>
    intro V u s s' hu hl hi he ht
    cases hs : s.ray.stop with
    | true =>
      rw [traceWith_stop c hs] at ht
      simp only [StackRes.next.injEq] at ht
      rw [← ht]; exact he
    | false =>
      cases hst : c.step ((V 0).meeting s.ray.surf (u 0)) s with
      | indexError => simp only [traceWith, hst] at ht; simp at ht
      | running => simp only [traceWith, hst] at ht; simp at ht
      | next s1 =>
        have hz : s1.d.z ≠ 0 := by
          refine hl 1 (by omega) s1 ?_
          change (match c.step ((V 0).meeting s.ray.surf (u (Fin.castLE _ 0))) s with
            | .next s' => traceWith c 0 _ _ s'
            | e => e) = _
          rw [show (Fin.castLE (by omega : 0 + 1 ≤ K + 1) 0 : Fin (K + 1)) = 0 from rfl, hst]
          rfl
        have hm : ∀ w ∈ ((V 0).meeting s.ray.surf (u 0)).ws, w.rnd < 1 := by
          intro w hw
          obtain ⟨i, rfl⟩ := (List.mem_ofFn' _ _).mp hw
          exact hu 0 i
        obtain ⟨i1, o, o1, -, o3⟩ := step_inv_stack hc hi hm hs hst hz
        have e1 := (step_energy hc.passive hi.track he o o1 _ o3).1
        simp only [traceWith, hst] at ht
        refine ih (fun i => V (i + 1)) (Fin.tail u) s1 s' (fun i j => hu i.succ j) ?_ i1 e1 ht
        intro K' hK' s2 h2
        refine hl (K' + 1) (by omega) s2 ?_
        change (match c.step ((V 0).meeting s.ray.surf (u (Fin.castLE _ 0))) s with
            | .next s' => traceWith c K' (fun i => V (i + 1)) (Fin.tail fun i => u (Fin.castLE _ i)) s'
            | e => e) = _
        rw [show (Fin.castLE (by omega : K' + 1 ≤ K + 1) 0 : Fin (K + 1)) = 0 from rfl, hst]
        exact h2

theorem inside_ae1 (K n : ℕ) : ∀ᵐ u ∂uniform2 K n, Inside u := inside_ae K n

/-! ## The property -/

section
variable (c : RTStack) (hcoat : ∀ t, some t ∈ c.tabs → ∀ side θ, 0 ≤ (t side θ).1 ∧ 0 ≤ (t side θ).2.1 ∧ (t side θ).1 + (t side θ).2.1 ≤ 1)
include hcoat

theorem rayMean_error {N : ℕ} (hN : 0 < N) (K n : ℕ) (matI dirI : ℤ) (ra0 : V3) (L : Fin N → StackLaunch) (f : Ray → ℝ)
    (hf : ∀ k, ∀ᵐ u ∂uniform2 K n, 0 ≤ f (recorded matI dirI (traceWith c K (L k).V u (c.start (L k).x (L k).y matI dirI ra0))) ∧
      f (recorded matI dirI (traceWith c K (L k).V u (c.start (L k).x (L k).y matI dirI ra0))) ≤ 1) {ε : ℝ} (hε : 0 ≤ ε) :
    (Measure.pi fun _ : Fin N => uniform2 K n).real {U |
      ε ≤ |rayMean (List.ofFn fun k => recorded matI dirI (traceWith c K (L k).V (U k) (c.start (L k).x (L k).y matI dirI ra0))) f
        - (∑ k, branchesStack c n (fun o => f (recorded matI dirI o)) K (L k).V (c.start (L k).x (L k).y matI dirI ra0)) / N|}
      ≤ 2 * exp (-2 * N * ε ^ 2) := by
  have hub := fun k : Fin N => unbiased_stack c (n := n) hcoat (fun o => f (recorded matI dirI o)) K (L k).V (c.start (L k).x (L k).y matI dirI ra0)
  have h := hoeffding_mean (uniform2 K n) (fun (k : Fin N) u => f (recorded matI dirI (traceWith c K (L k).V u (c.start (L k).x (L k).y matI dirI ra0))))
    (fun k => (hub k).1) hf Finset.univ ⟨⟨0, hN⟩, Finset.mem_univ _⟩ hε
  rw [Finset.card_univ, Fintype.card_fin] at h
  refine le_trans (le_of_eq ?_) h
  congr 1
  ext U
  simp only [Set.mem_ofPred_eq]
  have e1 : rayMean (List.ofFn fun k => recorded matI dirI (traceWith c K (L k).V (U k) (c.start (L k).x (L k).y matI dirI ra0))) f
      = (∑ k, f (recorded matI dirI (traceWith c K (L k).V (U k) (c.start (L k).x (L k).y matI dirI ra0)))) / N := by
    simp only [rayMean, List.length_ofFn, List.map_ofFn, List.sum_ofFn, Function.comp, Finset.sum_div]
  have e2 : ∀ k : Fin N, branchesStack c n (fun o => f (recorded matI dirI o)) K (L k).V (c.start (L k).x (L k).y matI dirI ra0)
      = ∫ u, f (recorded matI dirI (traceWith c K (L k).V u (c.start (L k).x (L k).y matI dirI ra0))) ∂uniform2 K n := fun k => (hub k).2.2.symm
  rw [e1]
  simp only [e2]

open Classical in
/-- **C138, frequencies.** `N` rays are launched at given points and traced with independent uniform random numbers.  The probability that the fraction of the rays that end in a given way (reflected,
transmitted, absorbed somewhere, leaving in some range of directions, ...) differs by `ε` or more from the weight found by following all the branches is at most `2 exp(-2 N ε²)`. -/
theorem C138_frequency {N : ℕ} (hN : 0 < N) (K n : ℕ) (s : Fin N → StackRay) (V : Fin N → ℕ → Visit) (E : Set StackRes) (ε : ℝ) (hε : 0 ≤ ε) :
    (Measure.pi fun _ : Fin N => uniform2 K n).real {U : Fin N → Fin K → Fin n → ℝ |
      ε ≤ |((Finset.univ.filter fun k => traceWith c K (V k) (U k) (s k) ∈ E).card : ℝ) / N
        - (∑ k, branchesStack c n (fun o => if o ∈ E then 1 else 0) K (V k) (s k)) / N|}
      ≤ 2 * exp (-2 * N * ε ^ 2) := by
  have hub := fun k : Fin N => unbiased_stack c (n := n) hcoat (fun o => if o ∈ E then (1 : ℝ) else 0) K (V k) (s k)
  have h := hoeffding_mean (uniform2 K n) (fun (k : Fin N) u => if traceWith c K (V k) u (s k) ∈ E then (1 : ℝ) else 0)
    (fun k => (hub k).1) (fun k => Filter.Eventually.of_forall fun u => by split_ifs <;> norm_num) Finset.univ ⟨⟨0, hN⟩, Finset.mem_univ _⟩ hε
  rw [Finset.card_univ, Fintype.card_fin] at h
  refine le_trans (le_of_eq ?_) h
  congr 1
  ext U
  simp only [Set.mem_ofPred_eq]
  have e2 : ∀ k : Fin N, branchesStack c n (fun o => if o ∈ E then (1 : ℝ) else 0) K (V k) (s k)
      = ∫ u, (if traceWith c K (V k) u (s k) ∈ E then (1 : ℝ) else 0) ∂uniform2 K n := fun k => (hub k).2.2.symm
  simp only [e2]
  rw [Finset.sum_boole]

/-- **C138, R, T and A.** For light incident at the angles (θ, φ) on a stack that conserves energy: the reflected and transmitted fractions, the fraction absorbed in each layer and the fraction absorbed in each
layer of each interface, as returned for `N` rays, each differ by `ε` or more from the values found by following all the branches with probability at most `2 exp(-2 N ε²)`, as long as no ray comes to be
exactly parallel to the layers. -/
theorem C138_RAT (nl : ℕ → ℕ) (hc : PhysicalStack c nl) {N : ℕ} (hN : 0 < N) (K n : ℕ) (matI dirI : ℤ) (hv : ValidStart c.S matI dirI)
    (h θ φ : ℝ) (hθ : 0 ≤ θ) (hθ' : θ < π / 2) (hh : h + 1e-8 ≠ 0) (L : Fin N → StackLaunch)
    (hlevel : ∀ k (u : Fin K → Fin n → ℝ), Inside u → NeverLevelWith c K (L k).V u (c.start (L k).x (L k).y matI dirI (rA0 h θ φ))) (ε : ℝ) (hε : 0 ≤ ε) :
    let rays := fun U : Fin N → Fin K → Fin n → ℝ =>
      List.ofFn fun k => recorded matI dirI (traceWith c K (L k).V (U k) (c.start (L k).x (L k).y matI dirI (rA0 h θ φ)))
    let P : Measure (Fin N → Fin K → Fin n → ℝ) := Measure.pi fun _ => uniform2 K n
    let all := fun f : Ray → ℝ => (∑ k, branchesStack c n (fun o => f (recorded matI dirI o)) K (L k).V (c.start (L k).x (L k).y matI dirI (rA0 h θ φ))) / N
    P.real {U | ε ≤ |resR (rays U) - all (fun s => if s.isRefl then s.I else 0)|} ≤ 2 * exp (-2 * N * ε ^ 2) ∧
    P.real {U | ε ≤ |resT (rays U) - all (fun s => if s.isTrns then s.I else 0)|} ≤ 2 * exp (-2 * N * ε ^ 2) ∧
    (∀ m, P.real {U | ε ≤ |resA (rays U) m - all (fun s => s.A m)|} ≤ 2 * exp (-2 * N * ε ^ 2)) ∧
    ∀ j l, P.real {U | ε ≤ |resAint (rays U) j l - all (fun s => if s.aIdx = (j : ℤ) + 1 then s.aInt.getD l 0 else 0)|} ≤ 2 * exp (-2 * N * ε ^ 2) := by
  intro rays P all
  have hE : ∀ k, ∀ᵐ u ∂uniform2 K n, Energy c.S (recorded matI dirI (traceWith c K (L k).V u (c.start (L k).x (L k).y matI dirI (rA0 h θ φ)))) := by
    intro k
    filter_upwards [inside_ae1 K n] with u hu
    cases ht : traceWith c K (L k).V u (c.start (L k).x (L k).y matI dirI (rA0 h θ φ)) with
    | indexError => exact start_energy _ _ _
    | running => exact start_energy _ _ _
    | next s' =>
      have := traceWith_energy hc K (L k).V u _ s' (fun i j => (hu i j).2) (hlevel k u hu) (start_inv nl hv _ _ hθ hθ' hh) (start_energy _ _ _) ht
      simp only [recorded]
      split_ifs
      · exact this
      · exact start_energy _ _ _
  have hbound : ∀ {s : Ray}, Energy c.S s → (0 ≤ s.I ∧ s.I ≤ 1) ∧ (∀ m, 0 ≤ s.A m ∧ s.A m ≤ 1) ∧ ∀ l, 0 ≤ s.aInt.getD l 0 ∧ s.aInt.getD l 0 ≤ 1 := by
    intro s he
    have hA : 0 ≤ ∑ m ∈ Finset.range c.S.widths.length, s.A m := Finset.sum_nonneg fun m _ => he.A0 m
    have hi := List.sum_nonneg he.int0
    have ht := he.total
    have h0 := he.I0
    refine ⟨⟨h0, he.I1⟩, fun m => ⟨he.A0 m, ?_⟩, fun l => ⟨getD_nonneg he.int0 l, ?_⟩⟩
    · by_cases hm : m < c.S.widths.length
      · have := Finset.single_le_sum (f := s.A) (fun m _ => he.A0 m) (Finset.mem_range.mpr hm)
        linarith
      · rw [he.last m (by omega)]; norm_num
    · rw [List.getD_eq_getElem?_getD]
      cases hl : s.aInt[l]? with
      | none => norm_num
      | some a =>
        have := List.single_le_sum he.int0 a (List.mem_of_getElem? hl)
        simp only [Option.getD_some]
        linarith
  refine ⟨rayMean_error c hcoat hN K n matI dirI _ L _ ?_ hε, rayMean_error c hcoat hN K n matI dirI _ L _ ?_ hε,
    fun m => rayMean_error c hcoat hN K n matI dirI _ L _ ?_ hε, fun j l => rayMean_error c hcoat hN K n matI dirI _ L _ ?_ hε⟩
  all_goals
    intro k
    filter_upwards [hE k] with u hu
    obtain ⟨b1, b2, b3⟩ := hbound hu
  · split_ifs
    · exact b1
    · norm_num
  · split_ifs
    · exact b1
    · norm_num
  · exact b2 m
  · split_ifs
    · exact b3 l
    · norm_num

end

/-- **C138, how many rays are enough.** With `log(2 / δ) / (2 ε²)` rays or more, the bound of the theorems above is at most `δ`. -/
theorem C138_enough (N : ℕ) (ε δ : ℝ) (hε : 0 < ε) (hδ : 0 < δ) (h : log (2 / δ) / (2 * ε ^ 2) ≤ N) : 2 * exp (-2 * N * ε ^ 2) ≤ δ :=
  hoeffding_enough hε hδ h

section
variable (c : Texture) (nAbove nBelow : ℂ) (ha : 0 < nAbove.re) (hb : 0 < nBelow.re) (ka : 0 ≤ nAbove.im) (kb : 0 ≤ nBelow.im) (hh : c.h + 1e-8 ≠ 0)
  (tmm : Bool) (nL : ℕ) (n : ℕ) (hn : 0 < n) (cz : ℝ) (hc : 0 < cz) (m : ℕ) (hm : 0 < m) (sp : Spacing) (front : Bool)

include ha hb ka kb hh hn hc hm in
open Classical in
theorem matrix_error (dec : ℝ → ℝ → V3 → V3 → ℤ → V3 × ℤ × Option (List ℝ)) (law : FacetLaw) (hlaw : ByThresholds dec law)
    (hdec : ∀ u < 1, ∀ w : Draw, w.dec = dec u → FacetDraw nAbove nBelow tmm nL w) {K N : ℕ} (L : Fin K → Launch)
    (hL : ∀ k, 0 < (L k).θ ∧ (L k).θ < π / 2 ∧ OffEdge (2 * π / m) (L k).φ)
    (hfin : ∀ u : Fin K → Fin N → ℝ, Inside u → ∀ k, (L k).trace c dec (u k) ≠ none ∧ OutOffEdge (2 * π / m) front ((L k).ray ((L k).trace c dec (u k))))
    (junk : (Fin K → Fin N → ℝ) → RTJunk) (M : (Fin K → Fin N → ℝ) → RTMat)
    (hM : ∀ u, Inside u → rtMatrix (rtArgs n (2 * π / m) cz sp tmm front nL) (junk u) (List.ofFn fun k => (L k).ray ((L k).trace c dec (u k))) = some (M u))
    (j : ℕ) (hj : ∃ k, IncidentIn n cz (2 * π / m) sp front j ((L k).ray none)) (ε : ℝ) (hε : 0 ≤ ε) :
    let inc := fun k => IncidentIn n cz (2 * π / m) sp front j ((L k).ray none)
    let Nj : ℕ := (Finset.univ.filter inc).card
    let mean := fun (k : Fin K) (P : RTRay → Prop) => branchesInterface c law (fun o => if P ((L k).ray o) then 1 else 0) (L k).θ (L k).φ (L k).x (L k).y
      (List.ofFn fun i : Fin N => (L k).D i)
    (∀ i, (Measure.pi fun _ : Fin K => uniform N).real {u | ε ≤ |(M u).out i j - (∑ k with inc k, mean k (LeavesIn n cz (2 * π / m) sp front i)) / Nj|} ≤ 2 * exp (-2 * Nj * ε ^ 2)) ∧
    (Measure.pi fun _ : Fin K => uniform N).real {u | ε ≤ |∑ l ∈ Finset.range nL, (M u).A l j - (∑ k with inc k, mean k IsAbsorbed) / Nj|} ≤ 2 * exp (-2 * Nj * ε ^ 2) := by
  intro inc Nj mean
  have hne : (Finset.univ.filter inc).Nonempty := by
    obtain ⟨k, hk⟩ := hj
    exact ⟨k, by simp only [Finset.mem_filter, Finset.mem_univ, true_and]; exact hk⟩
  have hub := fun (k : Fin K) (g : Option SicRes → ℝ) => trace_mean (n := N) c dec law hlaw (L k) g
  have key : ∀ (P : RTRay → Prop) (F : (Fin K → Fin N → ℝ) → ℝ),
      (∀ u, Inside u → F u = (∑ k with inc k, (fun o => if P ((L k).ray o) then (1 : ℝ) else 0) ((L k).trace c dec (u k))) / Nj) →
      (Measure.pi fun _ : Fin K => uniform N).real {u | ε ≤ |F u - (∑ k with inc k, mean k P) / Nj|} ≤ 2 * exp (-2 * Nj * ε ^ 2) := by
    intro P F hF
    have h := hoeffding_mean (uniform N) (fun (k : Fin K) v => (fun o => if P ((L k).ray o) then (1 : ℝ) else 0) ((L k).trace c dec v))
      (fun k => (hub k fun o => if P ((L k).ray o) then (1 : ℝ) else 0).1) (fun k => Filter.Eventually.of_forall fun u => by simp only; split_ifs <;> norm_num) (Finset.univ.filter inc) hne hε
    refine le_trans (le_of_eq ?_) h
    apply measureReal_congr
    filter_upwards [inside_ae K N] with u hu
    change (ε ≤ _) = (ε ≤ _)
    rw [hF u hu]
    have e2 : ∀ k : Fin K, mean k P = ∫ v, (fun o => if P ((L k).ray o) then (1 : ℝ) else 0) ((L k).trace c dec v) ∂uniform N := fun k => ((hub k _).2.1).symm
    simp only [e2]
    rfl
  refine ⟨fun i => key _ _ fun u hu => ?_, key _ _ fun u hu => ?_⟩
  · exact (matrix_entries c nAbove nBelow ha hb ka kb hh tmm nL n hn cz hc m hm sp front dec hdec L hL u hu (hfin u hu) (junk u) (M u) (hM u hu) j hj).1 i
  · exact (matrix_entries c nAbove nBelow ha hb ka kb hh tmm nL n hn cz hc m hm sp front dec hdec L hL u hu (hfin u hu) (junk u) (M u) (hM u hu) j hj).2

include ha hb ka kb hh hn hc hm in
open Classical in
/-- **C138, matrices of coated surfaces.** Entry `(i, j)` of a redistribution matrix differs by `ε` or more from the value found by following all the branches with probability at most `2 exp(-2 N_j ε²)`,
where `N_j` is the number of rays launched in incidence bin `j`; likewise the absorbed fraction. -/
theorem C138_matrix (tab : ℤ → ℝ → ℝ × ℝ × List ℝ)
    (htab : ∀ side θ, 0 ≤ (tab side θ).1 ∧ 0 ≤ (tab side θ).2.1 ∧ (tab side θ).2.2.length = nL ∧ (∀ a ∈ (tab side θ).2.2, 0 ≤ a) ∧
      (tab side θ).1 + (tab side θ).2.1 + (tab side θ).2.2.sum = 1)
    {K N : ℕ} (L : Fin K → Launch) (hL : ∀ k, 0 < (L k).θ ∧ (L k).θ < π / 2 ∧ OffEdge (2 * π / m) (L k).φ)
    (hfin : ∀ u : Fin K → Fin N → ℝ, Inside u → ∀ k, (L k).trace c (tmmDraw nAbove nBelow tab) (u k) ≠ none ∧
      OutOffEdge (2 * π / m) front ((L k).ray ((L k).trace c (tmmDraw nAbove nBelow tab) (u k))))
    (junk : (Fin K → Fin N → ℝ) → RTJunk) (M : (Fin K → Fin N → ℝ) → RTMat)
    (hM : ∀ u, Inside u → rtMatrix (rtArgs n (2 * π / m) cz sp true front nL) (junk u)
      (List.ofFn fun k => (L k).ray ((L k).trace c (tmmDraw nAbove nBelow tab) (u k))) = some (M u))
    (j : ℕ) (hj : ∃ k, IncidentIn n cz (2 * π / m) sp front j ((L k).ray none)) (ε : ℝ) (hε : 0 ≤ ε) :
    let inc := fun k => IncidentIn n cz (2 * π / m) sp front j ((L k).ray none)
    let Nj : ℕ := (Finset.univ.filter inc).card
    let mean := fun (k : Fin K) (P : RTRay → Prop) => branchesInterface c (tmmLaw nAbove nBelow tab) (fun o => if P ((L k).ray o) then 1 else 0)
      (L k).θ (L k).φ (L k).x (L k).y (List.ofFn fun i : Fin N => (L k).D i)
    (∀ i, (Measure.pi fun _ : Fin K => uniform N).real {u | ε ≤ |(M u).out i j - (∑ k with inc k, mean k (LeavesIn n cz (2 * π / m) sp front i)) / Nj|} ≤ 2 * exp (-2 * Nj * ε ^ 2)) ∧
    (Measure.pi fun _ : Fin K => uniform N).real {u | ε ≤ |∑ l ∈ Finset.range nL, (M u).A l j - (∑ k with inc k, mean k IsAbsorbed) / Nj|} ≤ 2 * exp (-2 * Nj * ε ^ 2) := by
  refine matrix_error c nAbove nBelow ha hb ka kb hh true nL n hn cz hc m hm sp front _ _ (tmm_byThresholds ?_) ?_ L hL hfin junk M hM j hj ε hε
  · intro side θ
    obtain ⟨h1, h2, -, h4, h5⟩ := htab side θ
    have := List.sum_nonneg h4
    exact ⟨h1, h2, by linarith⟩
  · intro u hu w hw
    exact Or.inr ⟨rfl, tab, u, hu, hw, fun side θ => (htab side θ).2.2⟩

end

section
variable (c : Texture) (nAbove nBelow : ℝ) (ha : 0 < nAbove) (hb : 0 < nBelow) (hh : c.h + 1e-8 ≠ 0)
  (nL : ℕ) (n : ℕ) (hn : 0 < n) (cz : ℝ) (hc : 0 < cz) (m : ℕ) (hm : 0 < m) (sp : Spacing) (front : Bool)

include ha hb hh hn hc hm in
open Classical in
/-- **C138, matrices of bare surfaces** between transparent media. -/
theorem C138_matrix_bare (arc : ℤ → ℝ → ℂ) (pol : Pol)
    (harc : ∀ side θ, IsArcsin (((if side = 1 then nAbove else nBelow : ℝ) : ℂ) / ((if side = 1 then nBelow else nAbove : ℝ) : ℂ) * Complex.sin ((|θ| : ℝ) : ℂ)) (arc side θ))
    {K N : ℕ} (L : Fin K → Launch) (hL : ∀ k, 0 < (L k).θ ∧ (L k).θ < π / 2 ∧ OffEdge (2 * π / m) (L k).φ)
    (hfin : ∀ u : Fin K → Fin N → ℝ, Inside u → ∀ k, (L k).trace c (fresnelDraw nAbove nBelow arc pol) (u k) ≠ none ∧
      OutOffEdge (2 * π / m) front ((L k).ray ((L k).trace c (fresnelDraw nAbove nBelow arc pol) (u k))))
    (junk : (Fin K → Fin N → ℝ) → RTJunk) (M : (Fin K → Fin N → ℝ) → RTMat)
    (hM : ∀ u, Inside u → rtMatrix (rtArgs n (2 * π / m) cz sp false front nL) (junk u)
      (List.ofFn fun k => (L k).ray ((L k).trace c (fresnelDraw nAbove nBelow arc pol) (u k))) = some (M u))
    (j : ℕ) (hj : ∃ k, IncidentIn n cz (2 * π / m) sp front j ((L k).ray none)) (ε : ℝ) (hε : 0 ≤ ε) :
    let inc := fun k => IncidentIn n cz (2 * π / m) sp front j ((L k).ray none)
    let Nj : ℕ := (Finset.univ.filter inc).card
    let mean := fun (k : Fin K) (P : RTRay → Prop) => branchesInterface c (fresnelLaw nAbove nBelow arc pol) (fun o => if P ((L k).ray o) then 1 else 0)
      (L k).θ (L k).φ (L k).x (L k).y (List.ofFn fun i : Fin N => (L k).D i)
    ∀ i, (Measure.pi fun _ : Fin K => uniform N).real {u | ε ≤ |(M u).out i j - (∑ k with inc k, mean k (LeavesIn n cz (2 * π / m) sp front i)) / Nj|} ≤ 2 * exp (-2 * Nj * ε ^ 2) := by
  refine (matrix_error c nAbove nBelow (by simpa using ha) (by simpa using hb) (by simp) (by simp) hh false nL n hn cz hc m hm sp front _ _ (fresnel_byThresholds ?_) ?_
    L hL hfin junk M hM j hj ε hε).1
  · intro d N side
    have h := harc side (localTheta N d)
    by_cases hs : side = 1
    · simp only [hs, if_true] at h ⊢
      exact decideR_le_one ha hb (localTheta_le N d) h pol
    · simp only [hs, if_false] at h ⊢
      exact decideR_le_one hb ha (localTheta_le N d) h pol
  · intro u hu w hw
    exact Or.inl ⟨rfl, arc, pol, u, hu, hw⟩

end

/-! ## The hypotheses can be met -/

/-- `exRT` with coated surfaces that absorb all the light. -/
noncomputable def exBlack : RTStack := { exRT with tabs := [some fun _ _ => (0, 0, [1]), some fun _ _ => (0, 0, [1])] }

theorem exBlack_physical : PhysicalStack exBlack (fun _ => 1) where
  passive := exStack_passive
  cells := rfl
  tabs := rfl
  nks := rfl
  re := exRT_physical.re
  im := exRT_physical.im
  table := by
    intro k tab h
    have h' : tab = fun _ _ => (0, 0, [1]) := by
      rcases k with _ | _ | k <;> simp [exBlack, exRT] at h <;> exact h.symm
    subst h'
    intro side θ
    norm_num

/-- Rays that fall perpendicularly on `exBlack` meet the hypotheses of `C138_RAT`, however many surfaces are allowed for. -/
theorem exBlack_level (K : ℕ) (u : Fin K → Fin 1 → ℝ) (hu : Inside u) :
    NeverLevelWith exBlack K (fun _ => ⟨0, 0, fun _ _ => exIter⟩) u (exBlack.start 1 1 0 1 (rA0 (5 - 1e-8) 0 0)) := by
  have hra : rA0 (5 - 1e-8) 0 0 = ⟨0, 0, 5⟩ := by
    unfold rA0; simp
  have hd : startDir 1 1 1 (rA0 (5 - 1e-8) 0 0) = ⟨0, 0, -1⟩ := by
    rw [(C101_direction (5 - 1e-8) 0 0 1 1 le_rfl (by positivity) (by norm_num)).1]
    simp [incoming]
  have hl : launchD 1 1 (⟨0, 0, 5⟩ : V3) = ⟨0, 0, -1⟩ := by
    have := hd
    simpa [startDir, hra] using this
  have hpos : exStack.startPos 1 1 0 1 (rA0 (5 - 1e-8) 0 0) = ⟨1, 1, 5⟩ := by
    rw [hra]
    simp only [Stack.startPos, hl, Stack.zOffset]
    simp [launchA]
  have hstart : exBlack.start 1 1 0 1 (rA0 (5 - 1e-8) 0 0) = { ray := Stack.start 0 1, r := some ⟨1, 1, 5⟩, d := ⟨0, 0, -1⟩ } := by
    simp only [RTStack.start, hd, show exBlack.S = exStack from rfl, hpos]
  have hw : wrapRay ⟨1, 1, 5⟩ ⟨0, 0, -1⟩ 10 10 0 = ⟨1, 1, 5⟩ := by
    unfold wrapRay
    simp
    norm_num
  rw [hstart]
  set s0 : StackRay := { ray := Stack.start 0 1, r := some ⟨1, 1, 5⟩, d := ⟨0, 0, -1⟩ } with hs0
  have hstep : ∀ v : Fin 1 → ℝ, 0 < v 0 → ∃ s, exBlack.step ((⟨0, 0, fun _ _ => exIter⟩ : Visit).meeting s0.ray.surf v) s0 = .next s ∧ s.ray.stop = true ∧ s.d.z ≠ 0 := by
    intro v hv
    have e : ∀ m, exBlack.step m s0 = exBlack.advance s0 (exBlack.meet ⟨10, 10, 0, 0, 0⟩ (some fun _ _ => (0, 0, [1])) 1 2 m s0) := by
      intro m
      unfold RTStack.step
      simp [hs0, Stack.start, exBlack, exRT, pyGet]
    rw [e]
    have hmeet : ∃ r t k side, exBlack.meet ⟨10, 10, 0, 0, 0⟩ (some fun _ _ => (0, 0, [1])) 1 2 ((⟨0, 0, fun _ _ => exIter⟩ : Visit).meeting s0.ray.surf v) s0
        = some (.absorbed [1] r ⟨0, 0, -1⟩ t k side) := by
      have hrd : ∀ m, exBlack.randomised ⟨10, 10, 0, 0, 0⟩ m s0 = (some ⟨1, 1, 5⟩, ⟨0, 0, -1⟩) := by
        intro m
        simp [RTStack.randomised, exBlack, exRT, hs0]
      unfold RTStack.meet
      simp only [hrd]
      simp only [show exBlack.periodic = true from rfl, if_true, wrapOpt, if_neg (show ¬ ((-1 : ℝ) = 0) by norm_num), Option.map_some, hw, Visit.meeting, List.ofFn_succ, List.ofFn_zero,
        List.map_cons, List.map_nil]
      simp only [sicRun]
      have hchk : checkIntersect (sicStart ⟨1, 1, 5⟩ ⟨0, 0, -1⟩ s0.ray.dir 0).r (sicStart ⟨1, 1, 5⟩ ⟨0, 0, -1⟩ s0.ray.dir 0).d [exTri] = _ := checkIntersect_single_hit exTri_hit.1
      rw [sicStep_facet (w := IterDraw.draw _ _ _ _ _ _) hchk]
      have hdec : ∀ t d N side, (IterDraw.draw exBlack.asin exBlack.pol (some fun _ _ => (0, 0, [1])) 1 2 { exIter with rnd := v 0 }).dec t d N side = (d, side, some [1]) := by
        intro t d N side
        simp only [IterDraw.draw, tmmDec, decideTMM]
        rw [if_neg (not_le.mpr hv), if_neg (fun h => by linarith [h.2])]
      rw [show (IterDraw.draw exBlack.asin exBlack.pol (some fun _ _ => (0, 0, [1])) 1 2 { exIter with rnd := v 0 }).dec _ _ _ _ = _ from hdec _ _ _ _]
      simp only [afterFacet]
      exact ⟨_, _, _, _, rfl⟩
    obtain ⟨r, t, k, side, hm⟩ := hmeet
    rw [hm]
    simp only [RTStack.advance, SicRes.outcome]
    have : exBlack.S.step s0.ray (.absorb [1]) = some { (Stack.start 0 1).interact (.absorb [1]) with stop := true } := by
      simp [Stack.step, exBlack, exRT, exStack, hs0, Stack.start, Ray.interact, Stack.checkEnd, Stack.nSurf, pyIndex]
    simp only [this]
    exact ⟨_, rfl, rfl, by norm_num [SicRes.dir]⟩
  intro K' hK' s1 h1
  cases K' with
  | zero =>
    simp only [traceWith, StackRes.next.injEq] at h1
    subst h1
    simp [hs0]
  | succ K' =>
    obtain ⟨s2, e1, e2, e3⟩ := hstep (u (Fin.castLE hK' 0)) (hu _ 0).1
    simp only [traceWith, e1] at h1
    rw [traceWith_stop _ e2, StackRes.next.injEq] at h1
    subst h1
    exact e3

example : (∀ t, some t ∈ exBlack.tabs → ∀ side θ, 0 ≤ (t side θ).1 ∧ 0 ≤ (t side θ).2.1 ∧ (t side θ).1 + (t side θ).2.1 ≤ 1) ∧ PhysicalStack exBlack (fun _ => 1) ∧ ValidStart exBlack.S 0 1 := by
  refine ⟨?_, exBlack_physical, Or.inl ⟨rfl, by norm_num, by simp [exBlack, exRT, exStack, Stack.nSurf]⟩⟩
  intro t ht
  simp [exBlack] at ht
  subst ht
  intro side θ
  norm_num

/-- For an error below 0.01 with probability 0.99, 27000 rays are enough. -/
example : 2 * exp (-2 * (27000 : ℕ) * (0.01 : ℝ) ^ 2) ≤ 0.01 := by
  refine C138_enough 27000 0.01 0.01 (by norm_num) (by norm_num) ?_
  have h1 : (200 : ℝ) ≤ exp 5.4 := by
    have e : exp (5.4 : ℝ) = exp 1 ^ 5 * exp 0.4 := by
      rw [← exp_nat_mul, ← exp_add]; norm_num
    have a := exp_one_gt_d9
    have b := add_one_le_exp (0.4 : ℝ)
    rw [e]
    have c : (2.7 : ℝ) ^ 5 ≤ exp 1 ^ 5 := pow_le_pow_left₀ (by norm_num) (by linarith) 5
    nlinarith
  have h2 : log (2 / 0.01) ≤ 5.4 := by
    rw [log_le_iff_le_exp (by norm_num)]
    norm_num at h1 ⊢
    exact h1
  rw [div_le_iff₀ (by norm_num)]
  norm_num at h2 ⊢
  linarith

end Rayflare
