import Verif.Props.MatMul

/-!
# Properties C20, C21 (bulk profile), C71 (interface profiles)
-/

namespace Rayflare

open Rayflare.Np Rayflare.Model Rayflare.Spec Rayflare.Lemmas Matrix

set_option linter.unusedSectionVars false

variable {ω ι κ₀ κ₁ : Type*} [Fintype ι] [DecidableEq ι] [Fintype κ₀] [Fintype κ₁]

/-! ## C20 -/

/-- **C20, one pass.** The trapezoidal integral of the profile returned by `bulk_profile_calc` is the power lost in
the pass, for all contents of uninitialised memory. -/
theorem C20_one_pass (α d : ℝ) (θ v : ι → ℝ) (hα : 0 ≤ α) (hd : 0 < d)
    (hc : ∀ j, Real.cos (θ j) ≠ 0) (hv : ∀ j, 0 ≤ v j) (spacing : ℝ) (hs : 0 < spacing) (hs' : spacing < d)
    (junk : ι → ℝ) (junk' : ℝ) :
    let v2 := makeD α d θ *ᵥ v
    let A := ∑ j, v j - ∑ j, v2 j
    trapz (bulkProfileCalc v v2 α θ d (arange d spacing) A junk junk') (arange d spacing) = A := by
  intro v2 A
  refine trapz_bulkProfileCalc hα hd hc hv (arange_pairwise _ _ hs) ?_ junk junk' rfl
  rw [arange_length]
  have h1 : 1 < d / spacing := by rwa [lt_div_iff₀ hs, one_mul]
  have : 1 < ⌈d / spacing⌉₊ := Nat.lt_ceil.mpr (by exact_mod_cast h1)
  omega

theorem trapz_foldl (n : ℕ) (x : List ℝ) (w : ω) :
    ∀ (ps : List (ω → List ℝ)) (acc : List ℝ), acc.length = n → (∀ p ∈ ps, (p w).length = n) →
    trapz (ps.foldl (fun acc p => List.zipWith (· + ·) acc (p w)) acc) x
      = trapz acc x + (ps.map (fun p => trapz (p w) x)).sum
  | [], acc, _, _ => by simp
  | p :: ps, acc, ha, hp => by
    have hpl := hp p (by simp)
    rw [List.foldl_cons, trapz_foldl n x w ps _ (by simp [ha, hpl]) (fun q hq => hp q (by simp [hq])),
      trapz_add _ _ _ (by rw [ha, hpl])]
    simp only [List.map_cons, List.sum_cons]; ring

/-- **C20.** After any number of passes, the trapezoidal integral over depth of the summed bulk profile is `A_bulk`, at
every wavelength and for all contents of uninitialised memory, provided the bulk is sampled at two or
more depths (`depth_spacing_bulk < thickness`). -/
theorem C20_profile_integral (S : Sys ω ι κ₀ κ₁) (hS : EnergyConserving S) (hp : NonnegData S)
    (hcos : ∀ j, Real.cos (S.θ j) ≠ 0) (hd : 0 < S.thick) (spacing : ℝ) (hs : 0 < spacing) (hs' : spacing < S.thick)
    (o : ProfOpts ω ι) (ho : o.bulkProfile = true) (hdep : o.depths = arange S.thick spacing) (k : ℕ) (w : ω) :
    let t := (S.stepProf o)^[k] S.init
    trapz (t.bulkProf o.depths.length w) o.depths = t.Abulk w := by
  intro t
  have hone : ∀ w (v : ι → ℝ), (∀ j, 0 ≤ v j) → ∀ junk junk',
      trapz (bulkProfileCalc v (S.D w *ᵥ v) (S.α w) S.θ S.thick o.depths (∑ j, v j - ∑ j, (S.D w *ᵥ v) j) junk junk')
        o.depths = ∑ j, v j - ∑ j, (S.D w *ᵥ v) j := by
    intro w v hv junk junk'
    rw [hdep]
    exact C20_one_pass (S.α w) S.thick S.θ v (hp.α w) hd hcos hv spacing hs hs' junk junk'
  have key : ∀ k, let t := (S.stepProf o)^[k] S.init
      (∀ p ∈ t.Aprof, (p w).length = o.depths.length) ∧
      (t.Aprof.map (fun p => trapz (p w) o.depths)).sum = t.Abulk w := by
    intro k
    induction k with
    | zero => simp [Sys.init, LoopState.Abulk]
    | succ k ih =>
      have hn := (C15_nonneg S hS hp o k _ (Or.inr rfl)).1 w
      rw [Function.iterate_succ_apply']
      generalize (S.stepProf o)^[k] S.init = s at ih hn ⊢
      obtain ⟨ih1, ih2⟩ := ih
      have b1 := mulVec_nonneg hp.d2u hn
      have b2 := D_nonneg S (w := w) b1
      have b3 := mulVec_nonneg (hp.f1 w).1 b2
      simp only [Sys.stepProf, Sys.appendPerPassInfo, ho, if_true, LoopState.Abulk, dotWl, dotWlU2d, power] at ih2 ⊢
      constructor
      · intro p hp'
        simp only [List.mem_append, List.mem_singleton] at hp'
        rcases hp' with (hp' | rfl) | rfl
        · exact ih1 p hp'
        · exact bulkProfileCalc_length
        · rw [List.length_reverse]; exact bulkProfileCalc_length
      · simp only [sum_map_append_singleton]
        rw [ih2, hone w _ b1]
        congr 1
        rw [trapz_flip _ (by rw [hdep]; exact arange_reverse _ _) bulkProfileCalc_length, hone w _ b3]
  obtain ⟨h1, h2⟩ := key k
  simp only [LoopState.bulkProf]
  rw [trapz_foldl o.depths.length o.depths w _ _ (by simp) h1, trapz_replicate_zero, zero_add, h2]

example : ∃ o : ProfOpts (Fin 2) (Fin 2), o.bulkProfile = true ∧ o.depths = arange exSys.thick (1 / 2) ∧
    (0 : ℝ) < 1 / 2 ∧ 1 / 2 < exSys.thick ∧ 0 < exSys.thick :=
  ⟨⟨true, arange 2 (1 / 2), fun _ _ _ => 7, fun _ _ => 9⟩, rfl, rfl, by norm_num, by norm_num [exSys], by norm_num [exSys]⟩

/-! ## C21 -/

/-- **C21, positive part.** With two or more depth samples the profile does not depend on
uninitialised memory. -/
theorem C21_deterministic_partial (α d : ℝ) (θ v1 v2 : ι → ℝ) (hα : 0 ≤ α) (hd : 0 < d)
    (hc : ∀ j, Real.cos (θ j) ≠ 0) (hv : ∀ j, v2 j ≤ v1 j) (spacing : ℝ) (hs : 0 < spacing) (hs' : spacing < d)
    (A : ℝ) (junk₁ junk₂ : ι → ℝ) (junk₁' junk₂' : ℝ) :
    bulkProfileCalc v1 v2 α θ d (arange d spacing) A junk₁ junk₁'
      = bulkProfileCalc v1 v2 α θ d (arange d spacing) A junk₂ junk₂' := by
  have hlen : 2 ≤ (arange d spacing).length := by
    rw [arange_length]
    have h1 : 1 < d / spacing := by rwa [lt_div_iff₀ hs, one_mul]
    have : 1 < ⌈d / spacing⌉₊ := Nat.lt_ceil.mpr (by exact_mod_cast h1)
    omega
  rcases bulkProfileCalc_cases hα hd hc hv (arange_pairwise _ _ hs) hlen A junk₁ junk₁' with ⟨h, e⟩ | ⟨h, e, _⟩ <;>
  rcases bulkProfileCalc_cases hα hd hc hv (arange_pairwise _ _ hs) hlen A junk₂ junk₂' with ⟨h', e'⟩ | ⟨h', e', _⟩
  · rw [e, e']
  · exact absurd h' h
  · exact absurd h h'
  · rw [e, e']

/-- **C21 (violated).** With one depth sample (`depth_spacing_bulk ≥ thickness`) and any absorbed power, *every* number can
be returned as the profile, depending on what the uninitialised memory contains. -/
theorem C21_one_sample_fails (α d : ℝ) (θ v1 v2 : ι → ℝ) (hα : 0 < α) (hd : 0 < d)
    (hc : ∀ j, Real.cos (θ j) ≠ 0) (hv : ∀ j, v2 j ≤ v1 j) (j0 : ι) (hj0 : v2 j0 < v1 j0)
    (spacing : ℝ) (hs : d ≤ spacing) (A : ℝ) (junk : ι → ℝ) (x : ℝ) :
    ∃ junk', bulkProfileCalc v1 v2 α θ d (arange d spacing) A junk junk' = [x] := by
  have hspos : 0 < spacing := hd.trans_le hs
  have hone : ⌈d / spacing⌉₊ = 1 := by
    rw [Nat.ceil_eq_iff (by norm_num)]
    constructor
    · simp; positivity
    · rw [Nat.cast_one, div_le_one hspos]; exact hs
  have har : arange d spacing = [0] := by simp [arange, hone]
  have hraw : profRaw v1 v2 α θ d junk 0 ≠ 0 := by
    intro h
    have := profRaw_eq_zero hα hd hc hv junk h j0
    linarith
  refine ⟨x / profRaw v1 v2 α θ d junk 0, ?_⟩
  simp only [bulkProfileCalc, har, List.map_cons, List.map_nil, trapz_single_left, divideWhere]
  simp [div_mul_cancel₀ _ hraw]

example : ∃ (θ v1 v2 : Fin 2 → ℝ), (∀ j, Real.cos (θ j) ≠ 0) ∧ (∀ j, v2 j ≤ v1 j) ∧ v2 0 < v1 0 :=
  ⟨exSys.θ, fun _ => 1, fun _ => 1 / 2, exSys_cos, by intro j; norm_num, by norm_num⟩

/-! ## C71 -/

/-- **C71.** The interface profile added in a pass is the stored per-bin profile weighted with the
power arriving in each bin - no rescaling - whenever the stored integral is the stored total absorption (as `TMM` and `RCWA` write
it), so its integral (any linear functional of depth, here a finite sum with weights) is the absorbed power if
the stored profiles integrate to the stored absorption. -/
theorem C71_interface_profile {κ ζ : Type*} [Fintype κ] [Fintype ζ] (A : Matrix κ ι ℝ) (I v : ι → ℝ) (P : ζ → ι → ℝ)
    (inf : ι → ℝ) (hI : ∀ j, I j = ∑ l, A l j) (hP : ∀ z j, I j = 0 → P z j = 0) :
    (∀ z, interfaceProf A I (P z) v inf = ∑ j, P z j * v j) ∧
    ∀ weight : ζ → ℝ, (∀ j, ∑ z, weight z * P z j = ∑ l, A l j) →
      ∑ z, weight z * interfaceProf A I (P z) v inf = ∑ l, (A *ᵥ v) l := by
  have h1 : ∀ z, interfaceProf A I (P z) v inf = ∑ j, P z j * v j := by
    intro z
    unfold interfaceProf
    refine Finset.sum_congr rfl fun j _ => ?_
    by_cases h : I j = 0
    · rw [hP z j h]; simp
    · simp only [h, if_false]
      rw [← hI j, mul_div_assoc, mul_comm (I j), div_mul_cancel₀ _ h]; ring
  refine ⟨h1, fun weight hw => ?_⟩
  simp only [h1, Finset.mul_sum]
  rw [Finset.sum_comm, Lemmas.sum_mulVec]
  refine Finset.sum_congr rfl fun j _ => ?_
  rw [← hw j, Finset.sum_mul]
  exact Finset.sum_congr rfl fun z _ => by ring

example : ∃ (A : Matrix (Fin 1) (Fin 2) ℝ) (I : Fin 2 → ℝ) (P : Fin 2 → Fin 2 → ℝ) (weight : Fin 2 → ℝ),
    (∀ j, I j = ∑ l, A l j) ∧ (∀ z j, I j = 0 → P z j = 0) ∧
    (∀ j, ∑ z, weight z * P z j = ∑ l, A l j) ∧ I 0 = 0 ∧ I 1 ≠ 0 :=
  ⟨fun _ j => if j = 0 then 0 else 1, fun j => if j = 0 then 0 else 1, fun _ j => if j = 0 then 0 else 1,
    fun _ => 1 / 2, by intro j; simp, by intro z j; by_cases h : j = 0 <;> simp [h],
    by intro j; by_cases h : j = 0 <;> simp [h], by simp, by simp⟩

end Rayflare
