import Verif.Lemmas.MatMul
import Verif.Lemmas.Profile
import Verif.Model.Assemble
import Verif.Props.Angles
import Verif.Props.RayFormat
import Verif.Props.Launch

/-!
# Properties C14-C19, C22: the matrix multiplication of the angular redistribution method
-/

namespace Rayflare

open Rayflare.Np Rayflare.Model Rayflare.Spec Rayflare.Lemmas Matrix

set_option linter.unusedSectionVars false

variable {ω ι κ₀ κ₁ : Type*} [Fintype ι] [DecidableEq ι] [Fintype κ₀] [Fintype κ₁]

/-! ## A concrete non-trivial system used for the examples: two wavelengths, two bins -/

/-- Half of the light is reflected into the other bin, a quarter transmitted, a quarter absorbed. -/
noncomputable def exMats : Mats (Fin 2) (Fin 1) where
  R := fun r j => if r ≠ j then 1 / 2 else 0
  T := fun r j => if r = j then 1 / 4 else 0
  A := fun _ _ => 1 / 4

noncomputable def exSys : Sys (Fin 2) (Fin 2) (Fin 1) (Fin 1) where
  v0 := fun _ j => if j = 0 then 1 else 0
  up2down := fun r j => if r ≠ j then 1 else 0
  down2up := fun r j => if r ≠ j then 1 else 0
  α := fun w => if w = 0 then 3 else 5
  thick := 2
  θ := fun j => if j = 0 then 0 else 1
  front0 := fun _ => exMats
  front1 := fun _ => exMats
  rear0 := fun _ => exMats
  thresh := 1 / 100

theorem exMats_conserves : Conserves exMats.R exMats.T exMats.A := by
  intro j; fin_cases j <;> simp [exMats, Fin.sum_univ_two] <;> norm_num

theorem exMats_fractions : Fractions exMats.R exMats.T exMats.A := by
  refine ⟨?_, ?_, ?_⟩ <;> intro r j <;> simp only [exMats] <;> (try split_ifs) <;> norm_num

theorem exSys_conserving : EnergyConserving exSys where
  u2d := by intro j; fin_cases j <;> simp [exSys, Fin.sum_univ_two]
  d2u := by intro j; fin_cases j <;> simp [exSys, Fin.sum_univ_two]
  f0 := fun _ => exMats_conserves
  f1 := fun _ => exMats_conserves
  r0 := fun _ => exMats_conserves

theorem exSys_nonneg : NonnegData exSys where
  v0 := by intro w j; simp only [exSys]; split_ifs <;> norm_num
  u2d := by intro w j; simp only [exSys]; split_ifs <;> norm_num
  d2u := by intro w j; simp only [exSys]; split_ifs <;> norm_num
  α := by intro w; simp only [exSys]; split_ifs <;> norm_num
  thick := by norm_num [exSys]
  f0 := fun _ => exMats_fractions
  f1 := fun _ => exMats_fractions
  r0 := fun _ => exMats_fractions

theorem exSys_cos : ∀ j, Real.cos (exSys.θ j) ≠ 0 := by
  intro j
  fin_cases j
  · simp [exSys]
  · simp only [exSys, Fin.mk_one, one_ne_zero, if_false]
    exact (Real.cos_pos_of_mem_Ioo ⟨by linarith [Real.pi_gt_three], by linarith [Real.pi_gt_three]⟩).ne'

/-! ## C14 -/

/-- **C14.** The factor of every bin is `exp(-α d / |cos θ|)`, in `(0, 1]`, `1` exactly when `α d = 0`;
it is multiplicative in the thickness, decreasing in `α`, `d` and in obliqueness; off-diagonal entries vanish. -/
theorem C14_attenuation (θ : ι → ℝ) (hc : ∀ j, Real.cos (θ j) ≠ 0) (α d : ℝ) (hα : 0 ≤ α) (hd : 0 ≤ d) :
    (∀ i j, i ≠ j → makeD α d θ i j = 0) ∧
    (∀ j, makeD α d θ j j = Real.exp (-(α * (d / |Real.cos (θ j)|)))) ∧
    (∀ j, 0 < makeD α d θ j j ∧ makeD α d θ j j ≤ 1) ∧
    (∀ j, makeD α d θ j j = 1 ↔ α = 0 ∨ d = 0) ∧
    (∀ d', makeD α (d + d') θ = makeD α d θ * makeD α d' θ) ∧
    (∀ α' d', α ≤ α' → d ≤ d' → ∀ j, makeD α' d' θ j j ≤ makeD α d θ j j) ∧
    (∀ i j, |Real.cos (θ j)| ≤ |Real.cos (θ i)| → makeD α d θ j j ≤ makeD α d θ i i) := by
  have hE : ∀ α d j, makeD α d θ j j = Real.exp (-(α * (d / |Real.cos (θ j)|))) := by
    intro α d j; simp only [makeD, Matrix.diagonal_apply_eq]; congr 1; ring
  have hpos : ∀ j, 0 < |Real.cos (θ j)| := fun j => abs_pos.mpr (hc j)
  refine ⟨?_, hE α d, ?_, ?_, ?_, ?_, ?_⟩
  · intro i j h; simp [makeD, Matrix.diagonal_apply_ne _ h]
  · intro j
    rw [hE]
    refine ⟨Real.exp_pos _, Real.exp_le_one_iff.mpr ?_⟩
    have := hpos j
    have : 0 ≤ α * (d / |Real.cos (θ j)|) := by positivity
    linarith
  · intro j
    rw [hE, Real.exp_eq_one_iff, neg_eq_zero, mul_eq_zero, div_eq_zero_iff]
    simp [(hpos j).ne']
  · intro d'
    simp only [makeD, Matrix.diagonal_mul_diagonal]
    congr 1; funext j
    rw [← Real.exp_add]; congr 1; ring
  · intro α' d' h1 h2 j
    rw [hE, hE]
    refine Real.exp_le_exp.mpr (neg_le_neg ?_)
    have := hpos j
    have h3 : d / |Real.cos (θ j)| ≤ d' / |Real.cos (θ j)| := by gcongr
    have h4 : 0 ≤ d / |Real.cos (θ j)| := by positivity
    exact mul_le_mul h1 h3 h4 (hα.trans h1)
  · intro i j h
    rw [hE, hE]
    refine Real.exp_le_exp.mpr (neg_le_neg ?_)
    have := hpos j
    exact mul_le_mul_of_nonneg_left (div_le_div_of_nonneg_left hd this h) hα

/-- **C14, on power vectors.** A bulk pass keeps non-negativity and never increases any bin or the total. -/
theorem C14_pass (θ : ι → ℝ) (α d : ℝ) (hα : 0 ≤ α) (hd : 0 ≤ d)
    (v : ι → ℝ) (hv : ∀ j, 0 ≤ v j) :
    (∀ j, 0 ≤ (makeD α d θ *ᵥ v) j ∧ (makeD α d θ *ᵥ v) j ≤ v j) ∧
    ∑ j, (makeD α d θ *ᵥ v) j ≤ ∑ j, v j := by
  have h : ∀ j, 0 ≤ (makeD α d θ *ᵥ v) j ∧ (makeD α d θ *ᵥ v) j ≤ v j := by
    intro j
    rw [makeD_mulVec]
    exact ⟨mul_nonneg (Real.exp_pos _).le (hv j), mul_le_of_le_one_left (hv j) (att_le_one hα hd _)⟩
  exact ⟨h, Finset.sum_le_sum fun j _ => (h j).2⟩

example : ∃ θ : Fin 2 → ℝ, (∀ j, Real.cos (θ j) ≠ 0) ∧ θ 0 ≠ θ 1 :=
  ⟨exSys.θ, exSys_cos, by simp [exSys]⟩

/-- The angles used by `matrix_multiplication` always satisfy the hypothesis of C14. -/
theorem C14_grid_angles (n : ℕ) (hn : 0 < n) (s c : ℝ) (sp : Spacing) :
    ∀ r row, r < (makeAngleVector n s c sp).angleVector.length / 2 →
      (makeAngleVector n s c sp).angleVector[r]? = some row → Real.cos row.theta ≠ 0 := by
  intro r row hr hrow
  have h2 := ((C02_hemispheres n hn s c sp).2.1 r _ hrow).1.mp hr
  rw [show (makeAngleVector n s c sp).angleVector.length / 2 = ringStart n c n from half_eq n hn s c sp] at hr
  obtain ⟨i, k, hi, hk, rfl⟩ := upper_decomp n c hr
  rw [angleVector_get n hn s c sp (by omega) hk, Option.some.injEq] at hrow
  subst hrow
  have e0 := polarEdge_strictMono n hn sp 0 (i + 1) (by omega) (by omega)
  have e1 : 0 ≤ polarEdge n sp i := by
    rcases Nat.eq_zero_or_pos i with h | h
    · subst h; rw [polarEdge_zero]
    · have := polarEdge_strictMono n hn sp 0 i h (by omega); rw [polarEdge_zero] at this
      exact this.le
  rw [polarEdge_zero] at e0
  refine (Real.cos_pos_of_mem_Ioo ⟨?_, h2⟩).ne'
  simp only [polarMid]
  linarith [Real.pi_pos]

/-! ## C15 -/

/-- **C15.** After any number `k` of passes, in both branches: what was reflected, transmitted,
absorbed in the bulk and in the two interfaces, plus what is still travelling, is what was launched. -/
theorem C15_energy_balance (S : Sys ω ι κ₀ κ₁) (hS : EnergyConserving S) (o : ProfOpts ω ι) (k : ℕ) (w : ω) :
    (let t := S.step^[k] S.init
     t.R w + t.T w + t.Abulk w + t.Aint0 w + t.Aint1 w + ∑ j, t.vf1 w j = ∑ j, S.v0 w j) ∧
    (let t := (S.stepProf o)^[k] S.init
     t.R w + t.T w + t.Abulk w + t.Aint0 w + t.Aint1 w + ∑ j, t.vf1 w j = ∑ j, S.v0 w j) := by
  have h := total_iter S hS.d2u hS.f0 hS.f1 hS.r0 k w
  refine ⟨h, ?_⟩
  have e := iterProf_forget S hS.u2d o S.init [] k
  have e' : S.step^[k] { S.init with Aprof := [] } = S.step^[k] S.init := rfl
  rw [e'] at e
  rw [← e] at h
  exact h

/-- **C15, signs.** With non-negative data every recorded quantity is non-negative, pass by pass. -/
theorem C15_nonneg (S : Sys ω ι κ₀ κ₁) (hS : EnergyConserving S) (hp : NonnegData S) (o : ProfOpts ω ι) (k : ℕ) :
    (∀ t, t = S.step^[k] S.init ∨ t = (S.stepProf o)^[k] S.init →
      (∀ w j, 0 ≤ t.vf1 w j) ∧ (∀ v ∈ t.vr, ∀ w j, 0 ≤ v w j) ∧ (∀ v ∈ t.vt, ∀ w j, 0 ≤ v w j) ∧
      (∀ v ∈ t.a0, ∀ w l, 0 ≤ v w l) ∧ (∀ v ∈ t.a1, ∀ w l, 0 ≤ v w l) ∧ (∀ v ∈ t.A, ∀ w, 0 ≤ v w) ∧
      ∀ w, 0 ≤ t.R w ∧ 0 ≤ t.T w ∧ 0 ≤ t.Abulk w ∧ 0 ≤ t.Aint0 w ∧ 0 ≤ t.Aint1 w) := by
  have h := nonneg_iter S hp hS.u2d k
  have h' : AllNonneg ((S.stepProf o)^[k] S.init) := by
    have e := iterProf_forget S hS.u2d o S.init [] k
    have e' : S.step^[k] { S.init with Aprof := [] } = S.step^[k] S.init := rfl
    rw [e'] at e
    rw [← e] at h
    exact h
  rintro t (rfl | rfl)
  · refine ⟨h.1, h.2.1, h.2.2.1, h.2.2.2.1, h.2.2.2.2.1, h.2.2.2.2.2, fun w => ?_⟩
    have := totals_nonneg h w
    exact ⟨this.1, this.2.1, this.2.2.1, this.2.2.2.1, this.2.2.2.2.1⟩
  · refine ⟨h'.1, h'.2.1, h'.2.2.1, h'.2.2.2.1, h'.2.2.2.2.1, h'.2.2.2.2.2, fun w => ?_⟩
    have := totals_nonneg h' w
    exact ⟨this.1, this.2.1, this.2.2.1, this.2.2.2.1, this.2.2.2.2.1⟩

example : EnergyConserving exSys ∧ NonnegData exSys := ⟨exSys_conserving, exSys_nonneg⟩

/-! ## C19 -/

/-- **C19.** Both branches make the same number of passes and return the same reflection,
transmission, bulk and interface absorption, pass by pass. -/
theorem C19_branches_agree (S : Sys ω ι κ₀ κ₁) (hu : Relabels S.up2down) (o : ProfOpts ω ι) (k : ℕ) :
    (∀ t, S.ExitsProf o k t → ∃ t', S.Exits k t' ∧ t'.vr = t.vr ∧ t'.vt = t.vt ∧ t'.a0 = t.a0 ∧ t'.a1 = t.a1 ∧
      t'.A = t.A ∧ t'.vf1 = t.vf1) ∧
    (∀ t', S.Exits k t' → ∃ t, S.ExitsProf o k t ∧ t'.vr = t.vr ∧ t'.vt = t.vt ∧ t'.a0 = t.a0 ∧ t'.a1 = t.a1 ∧
      t'.A = t.A ∧ t'.vf1 = t.vf1) := by
  have e : ∀ i, { (S.stepProf o)^[i] S.init with Aprof := [] } = S.step^[i] S.init := fun i =>
    iterProf_forget S hu o S.init [] i
  have ed : ∀ i, S.Done ((S.stepProf o)^[i] S.init) ↔ S.Done (S.step^[i] S.init) := by
    intro i; rw [← e i]; rfl
  constructor
  · rintro t ⟨rfl, h1, h2⟩
    refine ⟨S.step^[k] S.init, ⟨rfl, (ed k).mp h1, fun i hi => (ed i).not.mp (h2 i hi)⟩, ?_⟩
    rw [← e k]; exact ⟨rfl, rfl, rfl, rfl, rfl, rfl⟩
  · rintro t ⟨rfl, h1, h2⟩
    refine ⟨(S.stepProf o)^[k] S.init, ⟨rfl, (ed k).mpr h1, fun i hi => (ed i).not.mpr (h2 i hi)⟩, ?_⟩
    rw [← e k]; exact ⟨rfl, rfl, rfl, rfl, rfl, rfl⟩

example : Relabels exSys.up2down := exSys_conserving.u2d

/-! ## C16 -/

/-- **C16.** When the loop ends, the returned totals at every wavelength lie between launched power minus `I_thresh`
and launched power (both branches). -/
theorem C16_total (S : Sys ω ι κ₀ κ₁) (hS : EnergyConserving S) (hp : NonnegData S) (o : ProfOpts ω ι) (k : ℕ)
    (t : LoopState ω ι κ₀ κ₁) (ht : S.Exits k t ∨ S.ExitsProf o k t) (w : ω) :
    ∑ j, S.v0 w j - S.thresh ≤ t.R w + t.T w + t.Abulk w + t.Aint0 w + t.Aint1 w ∧
    t.R w + t.T w + t.Abulk w + t.Aint0 w + t.Aint1 w ≤ ∑ j, S.v0 w j := by
  have hb := C15_energy_balance S hS o k w
  have hn := C15_nonneg S hS hp o k
  rcases ht with ⟨rfl, h, _⟩ | ⟨rfl, h, _⟩
  · have h1 : ∑ j, (S.step^[k] S.init).vf1 w j ≤ S.thresh := h w
    have h2 : 0 ≤ ∑ j, (S.step^[k] S.init).vf1 w j :=
      Finset.sum_nonneg fun j _ => (hn _ (Or.inl rfl)).1 w j
    have := hb.1
    simp only at this
    constructor <;> linarith
  · have h1 : ∑ j, ((S.stepProf o)^[k] S.init).vf1 w j ≤ S.thresh := h w
    have h2 : 0 ≤ ∑ j, ((S.stepProf o)^[k] S.init).vf1 w j :=
      Finset.sum_nonneg fun j _ => (hn _ (Or.inr rfl)).1 w j
    have := hb.2
    simp only at this
    constructor <;> linarith

/-! ## C17 -/

/-- **C17.** If a round trip (format change, bulk, rear reflection, bulk, format change, front
reflection) keeps at most a fraction `ρ` of any power distribution, the loop ends after at most `K` passes for any
`K` with `ρ^K · (launched power) ≤ I_thresh`. -/
theorem C17_terminates (S : Sys ω ι κ₀ κ₁) (hS : EnergyConserving S) (hp : NonnegData S) (ρ : ℝ) (h0 : 0 ≤ ρ)
    (hρ : ∀ w (v : ι → ℝ), (∀ j, 0 ≤ v j) →
      ∑ j, ((S.rear0 w).R *ᵥ (S.up2down *ᵥ (makeD (S.α w) S.thick S.θ *ᵥ ((S.front1 w).R *ᵥ
        (makeD (S.α w) S.thick S.θ *ᵥ (S.down2up *ᵥ v)))))) j ≤ ρ * ∑ j, v j)
    (K : ℕ) (hK : ∀ w, ρ ^ K * ∑ j, S.v0 w j ≤ S.thresh) (o : ProfOpts ω ι) :
    ∃ k ≤ K, (∃ t, S.Exits k t) ∧ ∃ t, S.ExitsProf o k t := by
  have hdone : S.Done (S.step^[K] S.init) := by
    intro w
    refine (power_decay S hp hS.u2d ρ h0 hρ K w).trans (le_trans ?_ (hK w))
    exact mul_le_mul_of_nonneg_left (init_power_le S hp hS.f0 w) (pow_nonneg h0 K)
  obtain ⟨k, t, hk, h⟩ := exists_exit (done := S.Done) hdone
  obtain ⟨t', ht', _⟩ := (C19_branches_agree S hS.u2d o k).2 t h
  exact ⟨k, hk, ⟨t, h⟩, t', ht'⟩

/-- **C17, existence of a bound.** With `ρ < 1` and a positive threshold such a `K` exists. -/
theorem C17_terminates_exists [Finite ω] (S : Sys ω ι κ₀ κ₁) (hS : EnergyConserving S) (hp : NonnegData S) (ρ : ℝ)
    (h0 : 0 ≤ ρ) (h1 : ρ < 1) (hthr : 0 < S.thresh)
    (hρ : ∀ w (v : ι → ℝ), (∀ j, 0 ≤ v j) →
      ∑ j, ((S.rear0 w).R *ᵥ (S.up2down *ᵥ (makeD (S.α w) S.thick S.θ *ᵥ ((S.front1 w).R *ᵥ
        (makeD (S.α w) S.thick S.θ *ᵥ (S.down2up *ᵥ v)))))) j ≤ ρ * ∑ j, v j) (o : ProfOpts ω ι) :
    ∃ k, (∃ t, S.Exits k t) ∧ ∃ t, S.ExitsProf o k t := by
  obtain ⟨M, hM⟩ : ∃ M : ℝ, ∀ w, ∑ j, S.v0 w j ≤ M := by
    obtain ⟨M, hM⟩ := (Set.finite_range (fun w => ∑ j, S.v0 w j)).bddAbove
    exact ⟨M, fun w => hM ⟨w, rfl⟩⟩
  obtain ⟨K, hK⟩ := exists_pow_lt_of_lt_one (show 0 < S.thresh / (|M| + 1) by positivity) h1
  have hKK : ∀ w, ρ ^ K * ∑ j, S.v0 w j ≤ S.thresh := by
    intro w
    have hpos : 0 < |M| + 1 := by positivity
    rw [lt_div_iff₀ hpos] at hK
    have : ∑ j, S.v0 w j ≤ |M| + 1 := (hM w).trans (by linarith [le_abs_self M])
    exact (mul_le_mul_of_nonneg_left this (pow_nonneg h0 K)).trans hK.le
  obtain ⟨k, _, h⟩ := C17_terminates S hS hp ρ h0 hρ K hKK o
  exact ⟨k, h⟩

/-- **C17, absorbing bulk.** If the bulk absorbs at every wavelength (`α ≥ a > 0`, `d > 0`) and unit power is launched,
at most `⌈ln(1/I_thresh) / (2 a d)⌉` passes are made, whatever the interfaces. -/
theorem C17_absorbing_bulk (S : Sys ω ι κ₀ κ₁) (hS : EnergyConserving S) (hp : NonnegData S)
    (hcos : ∀ j, Real.cos (S.θ j) ≠ 0) (a : ℝ) (ha : 0 < a) (hα : ∀ w, a ≤ S.α w) (hd : 0 < S.thick)
    (hv0 : ∀ w, ∑ j, S.v0 w j ≤ 1) (hthr : 0 < S.thresh) (o : ProfOpts ω ι) :
    ∃ k ≤ ⌈Real.log (1 / S.thresh) / (2 * (a * S.thick))⌉₊,
      (∃ t, S.Exits k t) ∧ ∃ t, S.ExitsProf o k t := by
  refine C17_terminates S hS hp (Real.exp (-(2 * (a * S.thick)))) (Real.exp_pos _).le ?_ _ ?_ o
  · exact fun w v hv => roundTrip_le S hp hS.u2d hS.d2u hS.f1 hS.r0 hcos a ha.le w (hα w) v hv
  · intro w
    have hx : 0 < 2 * (a * S.thick) := by positivity
    have h1 := Nat.le_ceil (Real.log (1 / S.thresh) / (2 * (a * S.thick)))
    rw [div_le_iff₀ hx] at h1
    set K := ⌈Real.log (1 / S.thresh) / (2 * (a * S.thick))⌉₊
    have h2 : Real.exp (-(2 * (a * S.thick))) ^ K ≤ S.thresh := by
      rw [← Real.exp_nat_mul, ← Real.le_log_iff_exp_le hthr]
      rw [one_div, Real.log_inv] at h1
      linarith
    calc Real.exp (-(2 * (a * S.thick))) ^ K * ∑ j, S.v0 w j
        ≤ Real.exp (-(2 * (a * S.thick))) ^ K * 1 :=
          mul_le_mul_of_nonneg_left (hv0 w) (pow_nonneg (Real.exp_pos _).le _)
      _ ≤ S.thresh := by rw [mul_one]; exact h2

example (o : ProfOpts (Fin 2) (Fin 2)) : ∃ k, (∃ t, exSys.Exits k t) ∧ ∃ t, exSys.ExitsProf o k t := by
  obtain ⟨k, _, h⟩ := C17_absorbing_bulk exSys exSys_conserving exSys_nonneg exSys_cos 3 (by norm_num)
    (by intro w; simp only [exSys]; split_ifs <;> norm_num) (by norm_num [exSys])
    (by intro w; simp [exSys]) (by norm_num [exSys]) o
  exact ⟨k, h⟩

/-! ## C18 -/

/-- The bulk is transparent at wavelength `w` and both interfaces reflect everything internally: the power never
drops. -/
theorem trapped_power (S : Sys ω ι κ₀ κ₁) (hu : Relabels S.up2down) (hd : Relabels S.down2up) (w : ω)
    (hα : S.α w = 0) (h1 : Relabels (S.front1 w).R) (h2 : Relabels (S.rear0 w).R) (k : ℕ) :
    ∑ j, (S.step^[k] S.init).vf1 w j = ∑ j, ((S.front0 w).T *ᵥ S.v0 w) j := by
  have hD : ∀ v : ι → ℝ, S.D w *ᵥ v = v := by
    intro v; funext j; rw [Sys.D, makeD_mulVec, hα]; simp
  induction k with
  | zero => rfl
  | succ k ih =>
    rw [Function.iterate_succ_apply', step_vf1, roundTrip, sum_relabel h2, sum_relabel hu, hD, sum_relabel h1, hD,
      sum_relabel hd, ih]

/-- **C18 (violated).** Light that entered a transparent bulk between two interfaces that are perfect
reflectors from inside is never given up: the loop does not end, in either branch. -/
theorem C18_lossless_never_ends_fails (S : Sys ω ι κ₀ κ₁) (hS : EnergyConserving S) (w : ω)
    (hα : S.α w = 0) (h1 : Relabels (S.front1 w).R) (h2 : Relabels (S.rear0 w).R)
    (hP : S.thresh < ∑ j, ((S.front0 w).T *ᵥ S.v0 w) j) (o : ProfOpts ω ι) :
    ∀ k, (¬ ∃ t, S.Exits k t) ∧ ¬ ∃ t, S.ExitsProf o k t := by
  intro k
  have key : ¬ ∃ t, S.Exits k t := by
    rintro ⟨t, rfl, h, _⟩
    have h3 : ∑ j, (S.step^[k] S.init).vf1 w j ≤ S.thresh := h w
    rw [trapped_power S hS.u2d hS.d2u w hα h1 h2] at h3
    linarith
  refine ⟨key, ?_⟩
  rintro ⟨t, ht⟩
  obtain ⟨t', ht', _⟩ := (C19_branches_agree S hS.u2d o k).1 t ht
  exact key ⟨t', ht'⟩

/-- A physically valid input on which `calculate_RAT` never returns: a transparent bulk, an ideal mirror at the back and a
front surface transmitting everything from outside and reflecting everything from inside. -/
noncomputable def trapSys : Sys (Fin 1) (Fin 1) (Fin 1) (Fin 1) where
  v0 := fun _ _ => 1
  up2down := fun _ _ => 1
  down2up := fun _ _ => 1
  α := fun _ => 0
  thick := 1
  θ := fun _ => 0
  front0 := fun _ => ⟨fun _ _ => 0, fun _ _ => 1, fun _ _ => 0⟩
  front1 := fun _ => ⟨fun _ _ => 1, fun _ _ => 0, fun _ _ => 0⟩
  rear0 := fun _ => ⟨fun _ _ => 1, fun _ _ => 0, fun _ _ => 0⟩
  thresh := 1 / 100

/-- … and such a system exists: a lossless mirror at the rear, a front surface that lets all light in and none out. -/
theorem C18_fails : ∃ S : Sys (Fin 1) (Fin 1) (Fin 1) (Fin 1), EnergyConserving S ∧ NonnegData S ∧ 0 < S.thresh ∧
    ∀ o k, (¬ ∃ t, S.Exits k t) ∧ ¬ ∃ t, S.ExitsProf o k t := by
  have hS : EnergyConserving trapSys := by
    constructor <;> simp [trapSys, Relabels, Conserves]
  refine ⟨trapSys, hS, ?_, by norm_num [trapSys], fun o => ?_⟩
  · constructor <;> simp [trapSys, Fractions]
  · refine C18_lossless_never_ends_fails trapSys hS 0 rfl ?_ ?_ ?_ o
    · simp [trapSys, Relabels]
    · simp [trapSys, Relabels]
    · simp [trapSys, Matrix.mulVec, dotProduct]; norm_num

/-! ## C22 -/

/-- **C22.** The reflected block is in the hemisphere of incidence, the transmitted one in the other: row `r` of the
block is row `r` (upper) or `h + r` (lower) of the stored matrix, whose direction is above resp.
below the horizon; together the blocks use every row once. -/
theorem C22_blocks (n : ℕ) (hn : 0 < n) (s c : ℝ) (sp : Spacing) {κ : Type*} [Fintype κ] {h : ℕ}
    (hh : h = (makeAngleVector n s c sp).angleVector.length / 2)
    (full : Matrix (Fin (h + h)) (Fin h) ℝ) (absm : Matrix κ (Fin h) ℝ) (side : Side) :
    let av := (makeAngleVector n s c sp).angleVector
    let M := loadMats side full absm
    (∀ r : Fin h, ∃ R : Fin (h + h), ∃ row, av[(R : ℕ)]? = some row ∧ (∀ j, M.R r j = full R j) ∧
      (side = .front → (R : ℕ) = r ∧ row.theta < Real.pi / 2) ∧
      (side = .rear → (R : ℕ) = h + r ∧ Real.pi / 2 < row.theta)) ∧
    (∀ r : Fin h, ∃ R : Fin (h + h), ∃ row, av[(R : ℕ)]? = some row ∧ (∀ j, M.T r j = full R j) ∧
      (side = .front → (R : ℕ) = h + r ∧ Real.pi / 2 < row.theta) ∧
      (side = .rear → (R : ℕ) = r ∧ row.theta < Real.pi / 2)) ∧
    M.A = absm ∧
    (∀ j, ∑ r, M.R r j + ∑ r, M.T r j = ∑ r, full r j) := by
  intro av M
  obtain ⟨hlen, hsplit, _⟩ := C02_hemispheres n hn s c sp
  have hL : av.length = h + h := by simp only [av]; omega
  have hup : ∀ r : Fin h, ∃ row, av[((Fin.castAdd h r : Fin (h + h)) : ℕ)]? = some row ∧ row.theta < Real.pi / 2 := by
    intro r
    have hlt : ((Fin.castAdd h r : Fin (h + h)) : ℕ) < av.length := by rw [hL]; exact (Fin.castAdd h r).2
    refine ⟨av[((Fin.castAdd h r : Fin (h + h)) : ℕ)], List.getElem?_eq_getElem hlt, ?_⟩
    refine (hsplit _ _ (List.getElem?_eq_getElem hlt)).1.mp ?_
    rw [← hh]; simp
  have hdn : ∀ r : Fin h, ∃ row, av[((Fin.natAdd h r : Fin (h + h)) : ℕ)]? = some row ∧ Real.pi / 2 < row.theta := by
    intro r
    have hlt : ((Fin.natAdd h r : Fin (h + h)) : ℕ) < av.length := by rw [hL]; exact (Fin.natAdd h r).2
    refine ⟨av[((Fin.natAdd h r : Fin (h + h)) : ℕ)], List.getElem?_eq_getElem hlt, ?_⟩
    refine (hsplit _ _ (List.getElem?_eq_getElem hlt)).2.mp ?_
    rw [← hh]; simp
  cases side
  · refine ⟨fun r => ?_, fun r => ?_, rfl, fun j => ?_⟩
    · obtain ⟨row, h1, h2⟩ := hup r
      exact ⟨_, row, h1, fun j => rfl, fun _ => ⟨by simp, h2⟩, fun h => by cases h⟩
    · obtain ⟨row, h1, h2⟩ := hdn r
      exact ⟨_, row, h1, fun j => rfl, fun _ => ⟨by simp [add_comm], h2⟩, fun h => by cases h⟩
    · rw [Fin.sum_univ_add]; rfl
  · refine ⟨fun r => ?_, fun r => ?_, rfl, fun j => ?_⟩
    · obtain ⟨row, h1, h2⟩ := hdn r
      exact ⟨_, row, h1, fun j => rfl, fun h => (by cases h), fun _ => ⟨by simp [add_comm], h2⟩⟩
    · obtain ⟨row, h1, h2⟩ := hup r
      exact ⟨_, row, h1, fun j => rfl, fun h => (by cases h), fun _ => ⟨by simp, h2⟩⟩
    · rw [Fin.sum_univ_add, add_comm]; rfl

/-- **C22, energy.** If each column of the stored matrix plus the stored absorption sums to one, the
loaded blocks conserve energy. -/
theorem C22_conserves {κ : Type*} [Fintype κ] {h : ℕ} (full : Matrix (Fin (h + h)) (Fin h) ℝ)
    (absm : Matrix κ (Fin h) ℝ) (side : Side) (hcol : ∀ j, ∑ r, full r j + ∑ l, absm l j = 1) :
    Conserves (loadMats side full absm).R (loadMats side full absm).T (loadMats side full absm).A := by
  intro j
  rw [← hcol j]
  cases side
  · rw [Fin.sum_univ_add]; rfl
  · rw [Fin.sum_univ_add, add_comm (∑ i, full (Fin.castAdd h i) j)]; rfl

/-- The blocks taken from stored matrices without negative entries have none either. -/
theorem C22_fractions {κ : Type*} [Fintype κ] {h : ℕ} (full : Matrix (Fin (h + h)) (Fin h) ℝ)
    (absm : Matrix κ (Fin h) ℝ) (side : Side) (h1 : ∀ r j, 0 ≤ full r j) (h2 : ∀ l j, 0 ≤ absm l j) :
    Fractions (loadMats side full absm).R (loadMats side full absm).T (loadMats side full absm).A := by
  cases side <;> exact ⟨fun r j => h1 _ _, fun r j => h1 _ _, h2⟩

example : ∃ (full : Matrix (Fin (1 + 1)) (Fin 1) ℝ) (absm : Matrix (Fin 1) (Fin 1) ℝ),
    (∀ j, ∑ r, full r j + ∑ l, absm l j = 1) ∧ full 0 0 ≠ full 1 0 ∧ 0 < absm 0 0 :=
  ⟨fun r _ => if r = 0 then 1 / 2 else 1 / 4, fun _ _ => 1 / 4,
    by intro j; simp [Fin.sum_univ_two]; norm_num, by norm_num, by norm_num⟩

end Rayflare
