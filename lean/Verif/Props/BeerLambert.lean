import Verif.Spec.BeerLambert
import Verif.Props.Steady
import Verif.Props.Profile
import Mathlib.Analysis.SpecialFunctions.ExpDeriv
import Mathlib.Analysis.Calculus.Deriv.Mul

/-!
# Property C190: the bulk profile follows the law of Beer and Lambert
-/

namespace Rayflare

open Rayflare.Np Rayflare.Model Rayflare.Spec Rayflare.Lemmas Matrix

set_option linter.unusedSectionVars false

variable {ω ι κ₀ κ₁ : Type*} [Fintype ι] [DecidableEq ι] [Fintype κ₀] [Fintype κ₁]

/-! ## Helper lemmas: the trapezoidal rule -/

/-- A decreasing function with antiderivative `G`, sampled at `0, s, 2 s, …`. -/
theorem trapz_antitone (g G : ℝ → ℝ) (hG : ∀ a b, 0 ≤ a → a ≤ b → (b - a) * g b ≤ G b - G a ∧ G b - G a ≤ (b - a) * g a) {s : ℝ} (hs : 0 < s) (N : ℕ) :
    |trapz ((List.range (N + 1)).map fun i : ℕ => g (i * s)) ((List.range (N + 1)).map fun i : ℕ => (i : ℝ) * s) - (G (N * s) - G 0)| ≤ s * (g 0 - g (N * s)) := by
  induction N with
  | zero => simp
  | succ N ih =>
    have e : trapz ((List.range (N + 1 + 1)).map fun i : ℕ => g (i * s)) ((List.range (N + 1 + 1)).map fun i : ℕ => (i : ℝ) * s) =
        trapz ((List.range (N + 1)).map fun i : ℕ => g (i * s)) ((List.range (N + 1)).map fun i : ℕ => (i : ℝ) * s) + s * (g ((N + 1 : ℕ) * s) + g (N * s)) / 2 := by
      have h := trapz_snoc ((List.range N).map fun i : ℕ => g (i * s)) ((List.range N).map fun i : ℕ => (i : ℝ) * s) (g (N * s)) (g ((N + 1 : ℕ) * s)) (N * s) ((N + 1 : ℕ) * s) (by simp)
      have e1 : ∀ f : ℕ → ℝ, (List.range (N + 1 + 1)).map f = (List.range N).map f ++ [f N, f (N + 1)] := by
        intro f; rw [List.range_succ, List.range_succ]; simp
      have e2 : ∀ f : ℕ → ℝ, (List.range (N + 1)).map f = (List.range N).map f ++ [f N] := by
        intro f; rw [List.range_succ]; simp
      rw [e1, e1, e2, e2, h]
      push_cast
      ring
    have h0 : (0 : ℝ) ≤ N * s := by positivity
    obtain ⟨h1, h2⟩ := hG (N * s) ((N + 1 : ℕ) * s) h0 (by push_cast; nlinarith)
    rw [show ((N + 1 : ℕ) : ℝ) * s - N * s = s by push_cast; ring] at h1 h2
    rw [e]
    rw [abs_le] at ih ⊢
    constructor <;> linarith [ih.1, ih.2]

/-! ## Helper lemmas: one pass -/

/-- Absorption per unit of length at distance `z` from the surface where light starts with powers `v`. -/
noncomputable def beam (α : ℝ) (θ v : ι → ℝ) (z : ℝ) : ℝ := ∑ j, α / |Real.cos (θ j)| * (v j * Real.exp (-α * z / |Real.cos (θ j)|))

theorem beam_nonneg {α : ℝ} {θ v : ι → ℝ} (hα : 0 ≤ α) (hv : ∀ j, 0 ≤ v j) (z : ℝ) : 0 ≤ beam α θ v z :=
  Finset.sum_nonneg fun j _ => mul_nonneg (div_nonneg hα (abs_nonneg _)) (mul_nonneg (hv j) (Real.exp_pos _).le)

theorem beam_add (α : ℝ) (θ v v' : ι → ℝ) (z : ℝ) : beam α θ (v + v') z = beam α θ v z + beam α θ v' z := by
  unfold beam
  rw [← Finset.sum_add_distrib]
  exact Finset.sum_congr rfl fun j _ => by rw [Pi.add_apply]; ring

theorem exp_step {k a b : ℝ} (hk : 0 ≤ k) (hab : a ≤ b) :
    (b - a) * (k * Real.exp (-k * b)) ≤ Real.exp (-k * a) - Real.exp (-k * b) ∧ Real.exp (-k * a) - Real.exp (-k * b) ≤ (b - a) * (k * Real.exp (-k * a)) := by
  have e1 : Real.exp (-k * a) = Real.exp (-k * b) * Real.exp (k * (b - a)) := by rw [← Real.exp_add]; ring_nf
  have e2 : Real.exp (-k * b) = Real.exp (-k * a) * Real.exp (-(k * (b - a))) := by rw [← Real.exp_add]; ring_nf
  have h1 := Real.add_one_le_exp (k * (b - a))
  have h2 := Real.add_one_le_exp (-(k * (b - a)))
  have p1 := Real.exp_pos (-k * a)
  have p2 := Real.exp_pos (-k * b)
  constructor
  · rw [e1]; nlinarith
  · rw [e2]; nlinarith

theorem beam_step {α : ℝ} {θ v : ι → ℝ} (hα : 0 ≤ α) (hv : ∀ j, 0 ≤ v j) (a b : ℝ) (_ha : 0 ≤ a) (hab : a ≤ b) :
    (b - a) * beam α θ v b ≤ -(∑ j, v j * Real.exp (-α * b / |Real.cos (θ j)|)) - -(∑ j, v j * Real.exp (-α * a / |Real.cos (θ j)|)) ∧
    -(∑ j, v j * Real.exp (-α * b / |Real.cos (θ j)|)) - -(∑ j, v j * Real.exp (-α * a / |Real.cos (θ j)|)) ≤ (b - a) * beam α θ v a := by
  have e : ∀ z, ∀ j, -α * z / |Real.cos (θ j)| = -(α / |Real.cos (θ j)|) * z := fun z j => by ring
  rw [neg_sub_neg, ← Finset.sum_sub_distrib]
  unfold beam
  rw [Finset.mul_sum, Finset.mul_sum]
  constructor <;> refine Finset.sum_le_sum fun j _ => ?_ <;> rw [e, e]
  · have := mul_le_mul_of_nonneg_left (exp_step (div_nonneg hα (abs_nonneg (Real.cos (θ j)))) hab).1 (hv j)
    linarith
  · have := mul_le_mul_of_nonneg_left (exp_step (div_nonneg hα (abs_nonneg (Real.cos (θ j)))) hab).2 (hv j)
    linarith

/-- The part of the light in each direction that is lost in a layer of thickness `d`, per unit of length at most: `K` bounds the ratio of the two. -/
def DecayBound (α d : ℝ) (θ : ι → ℝ) (K : ℝ) : Prop := ∀ j, α / |Real.cos (θ j)| ≤ K * (1 - Real.exp (-α * d / |Real.cos (θ j)|))

/-- The same for the directions that `v` has light in. -/
def DecayOn (α d : ℝ) (θ v : ι → ℝ) (K : ℝ) : Prop := ∀ j, v j ≠ 0 → α / |Real.cos (θ j)| ≤ K * (1 - Real.exp (-α * d / |Real.cos (θ j)|))

theorem DecayBound.on {α d K : ℝ} {θ : ι → ℝ} (h : DecayBound α d θ K) (v : ι → ℝ) : DecayOn α d θ v K := fun j _ => h j

theorem beam_le {α d K : ℝ} {θ v : ι → ℝ} (hα : 0 ≤ α) (hK : DecayOn α d θ v K) (hv : ∀ j, 0 ≤ v j) {z : ℝ} (hz : 0 ≤ z) :
    beam α θ v z ≤ K * (∑ j, v j - ∑ j, (makeD α d θ *ᵥ v) j) := by
  rw [← Finset.sum_sub_distrib, Finset.mul_sum]
  unfold beam
  refine Finset.sum_le_sum fun j _ => ?_
  rw [makeD_mulVec]
  have h1 : Real.exp (-α * z / |Real.cos (θ j)|) ≤ 1 := by
    rw [Real.exp_le_one_iff]
    exact div_nonpos_of_nonpos_of_nonneg (by nlinarith) (abs_nonneg _)
  have h2 := div_nonneg hα (abs_nonneg (Real.cos (θ j)))
  have h3 : α / |Real.cos (θ j)| * v j ≤ K * (1 - Real.exp (-α * d / |Real.cos (θ j)|)) * v j := by
    by_cases h : v j = 0
    · rw [h]; simp
    · exact mul_le_mul_of_nonneg_right (hK j h) (hv j)
  have h4 : α / |Real.cos (θ j)| * (v j * Real.exp (-α * z / |Real.cos (θ j)|)) ≤ α / |Real.cos (θ j)| * (v j * 1) :=
    mul_le_mul_of_nonneg_left (mul_le_mul_of_nonneg_left h1 (hv j)) h2
  linarith

theorem decay_le {α d K : ℝ} {θ : ι → ℝ} (hα : 0 ≤ α) (hd : 0 ≤ d) {v : ι → ℝ} (hK : DecayOn α d θ v K) (j : ι) (hj : v j ≠ 0) : 0 ≤ α / |Real.cos (θ j)| ∧ α / |Real.cos (θ j)| ≤ |K| := by
  have h0 := div_nonneg hα (abs_nonneg (Real.cos (θ j)))
  have h1 := hK j hj
  have e1 := att_le_one hα hd (Real.cos (θ j))
  have e2 := Real.exp_pos (-α * d / |Real.cos (θ j)|)
  refine ⟨h0, h1.trans ?_⟩
  have := le_abs_self K
  have := abs_nonneg K
  nlinarith

/-- How much the absorption density changes over a distance. -/
theorem beam_lipschitz {α d K : ℝ} {θ v : ι → ℝ} (hα : 0 ≤ α) (hd : 0 ≤ d) (hK0 : 0 ≤ K) (hK : DecayOn α d θ v K) (hv : ∀ j, 0 ≤ v j) {a b : ℝ} (ha : 0 ≤ a) (hab : a ≤ b) :
    |beam α θ v a - beam α θ v b| ≤ (b - a) * (K ^ 2 * (∑ j, v j - ∑ j, (makeD α d θ *ᵥ v) j)) := by
  have hb := beam_le hα hK hv ha
  have hs := beam_step (θ := θ) hα (v := fun j => α / |Real.cos (θ j)| * v j) (fun j => mul_nonneg (div_nonneg hα (abs_nonneg _)) (hv j)) a b ha hab
  have e : ∀ z, ∑ j, α / |Real.cos (θ j)| * v j * Real.exp (-α * z / |Real.cos (θ j)|) = beam α θ v z := fun z => Finset.sum_congr rfl fun j _ => by ring
  rw [e, e] at hs
  have h1 : beam α θ (fun j => α / |Real.cos (θ j)| * v j) a ≤ K * beam α θ v a := by
    unfold beam
    rw [Finset.mul_sum]
    refine Finset.sum_le_sum fun j _ => ?_
    by_cases hj : v j = 0
    · simp [hj]
    obtain ⟨d1, d2⟩ := decay_le hα hd hK j hj
    rw [abs_of_nonneg hK0] at d2
    have : 0 ≤ α / |Real.cos (θ j)| * (v j * Real.exp (-α * a / |Real.cos (θ j)|)) := mul_nonneg d1 (mul_nonneg (hv j) (Real.exp_pos _).le)
    nlinarith
  have h0 : 0 ≤ beam α θ (fun j => α / |Real.cos (θ j)| * v j) b := beam_nonneg hα (fun j => mul_nonneg (div_nonneg hα (abs_nonneg _)) (hv j)) b
  have h2 : K * beam α θ v a ≤ K ^ 2 * (∑ j, v j - ∑ j, (makeD α d θ *ᵥ v) j) := by
    have := mul_le_mul_of_nonneg_left hb hK0
    linarith
  have h3 : 0 ≤ b - a := sub_nonneg.mpr hab
  have h4 := mul_nonneg h3 h0
  have h5 := mul_le_mul_of_nonneg_left (h1.trans h2) h3
  rw [abs_le]
  constructor <;> nlinarith [hs.1, hs.2]

/-- One pass: the entries of the profile are close to the absorption density at their depths. -/
theorem profile_close {α d s K : ℝ} {θ v : ι → ℝ} (hα : 0 ≤ α) (hd : 0 < d) (hc : ∀ j, Real.cos (θ j) ≠ 0) (hv : ∀ j, 0 ≤ v j) (hs : 0 < s) (hs' : s < d) (hK0 : 0 ≤ K)
    (hK : DecayOn α d θ v K) (hsK : s * K ≤ 1 / 2) (junk : ι → ℝ) (junk' : ℝ) (m : ℕ) (hm : m < ⌈d / s⌉₊) :
    |(bulkProfileCalc v (makeD α d θ *ᵥ v) α θ d (arange d s) (∑ j, v j - ∑ j, (makeD α d θ *ᵥ v) j) junk junk').getD m 0 - beam α θ v (m * s)|
      ≤ 2 * s * K ^ 2 * (∑ j, v j - ∑ j, (makeD α d θ *ᵥ v) j) := by
  have hle : ∀ j, (makeD α d θ *ᵥ v) j ≤ v j := by
    intro j; rw [makeD_mulVec]; exact mul_le_of_le_one_left (hv j) (att_le_one hα hd.le _)
  have hlen : 2 ≤ (arange d s).length := by
    rw [arange_length]
    have h1 : 1 < d / s := by rwa [lt_div_iff₀ hs, one_mul]
    have : 1 < ⌈d / s⌉₊ := Nat.lt_ceil.mpr (by exact_mod_cast h1)
    omega
  have hraw : ∀ z, profRaw v (makeD α d θ *ᵥ v) α θ d (fun _ => 0) z = beam α θ v z := by
    intro z
    rw [profRaw_eq hα hd hc]
    refine Finset.sum_congr rfl fun j _ => ?_
    rcases hα.eq_or_lt with rfl | hα'
    · simp
    · have := denom_pos hα' hd (hc j)
      rw [makeD_mulVec, show v j - Real.exp (-α * d / |Real.cos (θ j)|) * v j = v j * (1 - Real.exp (-α * d / |Real.cos (θ j)|)) by ring, mul_div_cancel_right₀ _ this.ne']
      ring
  have hA0 : 0 ≤ ∑ j, v j - ∑ j, (makeD α d θ *ᵥ v) j := sub_nonneg.mpr (Finset.sum_le_sum fun j _ => hle j)
  have g0 := beam_le hα hK hv (le_refl 0)
  have gm0 := beam_nonneg (θ := θ) hα hv (m * s)
  have hms : (0 : ℝ) ≤ m * s := by positivity
  have gm := beam_le hα hK hv hms
  have hmem : (arange d s).getD m 0 = m * s := by simp [arange, hm]
  generalize hAA : ∑ j, v j - ∑ j, (makeD α d θ *ᵥ v) j = A at *
  rcases bulkProfileCalc_cases hα hd hc hle (arange_pairwise _ _ hs) hlen A junk junk' with ⟨h, e⟩ | ⟨h, e, h'⟩
  · rw [e]
    have e1 : (arange d s).map (profRaw v (makeD α d θ *ᵥ v) α θ d fun _ => 0) = (arange d s).map (beam α θ v) := List.map_congr_left fun z _ => hraw z
    rw [e1] at h ⊢
    obtain ⟨N, hN⟩ : ∃ N, ⌈d / s⌉₊ = N + 1 := ⟨⌈d / s⌉₊ - 1, by omega⟩
    have hT := trapz_antitone (beam α θ v) (fun z => -∑ j, v j * Real.exp (-α * z / |Real.cos (θ j)|)) (beam_step hα hv) hs N
    have eT : trapz ((arange d s).map (beam α θ v)) (arange d s) = trapz ((List.range (N + 1)).map fun i : ℕ => beam α θ v (i * s)) ((List.range (N + 1)).map fun i : ℕ => (i : ℝ) * s) := by
      unfold arange
      rw [hN, List.map_map]; rfl
    rw [← eT] at hT
    have hNd : (N : ℝ) * s ≤ d := by
      have : (N : ℝ) < d / s := Nat.lt_ceil.mp (by omega)
      rw [lt_div_iff₀ hs] at this; exact this.le
    have hNd' : d - N * s ≤ s := by
      have : d / s ≤ (N + 1 : ℕ) := by rw [← hN]; exact Nat.le_ceil _
      rw [div_le_iff₀ hs] at this; push_cast at this; linarith
    have hE := beam_step (θ := θ) hα hv (N * s) d (by positivity) hNd
    have hGA : -(∑ j, v j * Real.exp (-α * d / |Real.cos (θ j)|)) - -(∑ j, v j * Real.exp (-α * 0 / |Real.cos (θ j)|)) = A := by
      rw [← hAA]
      simp only [mul_zero, zero_div, Real.exp_zero, mul_one]
      have : ∑ j, (makeD α d θ *ᵥ v) j = ∑ j, v j * Real.exp (-α * d / |Real.cos (θ j)|) := Finset.sum_congr rfl fun j _ => by rw [makeD_mulVec]; ring
      rw [this]; ring
    have gN := beam_nonneg (θ := θ) hα hv (N * s)
    have gd := beam_nonneg (θ := θ) hα hv d
    have k1 : (d - N * s) * beam α θ v (N * s) ≤ s * beam α θ v (N * s) := mul_le_mul_of_nonneg_right hNd' gN
    have k2 : 0 ≤ (d - N * s) * beam α θ v d := mul_nonneg (by linarith) gd
    have hcheck : |trapz ((arange d s).map (beam α θ v)) (arange d s) - A| ≤ s * K * A := by
      have k3 : s * beam α θ v 0 ≤ s * K * A := by
        have := mul_le_mul_of_nonneg_left g0 hs.le
        linarith
      rw [abs_le] at hT ⊢
      constructor <;> linarith [hT.1, hT.2, hE.1, hE.2]
    generalize trapz ((arange d s).map (beam α θ v)) (arange d s) = C at h hcheck
    have e2 : (((arange d s).map (beam α θ v)).map fun x => A / C * x).getD m 0 = A / C * beam α θ v (m * s) := by
      have hm' : m < (arange d s).length := by rw [arange_length]; exact hm
      rw [List.getD_eq_getElem _ _ hm'] at hmem
      rw [List.getD_eq_getElem _ _ (by simpa using hm')]
      simp only [List.getElem_map, hmem]
    rw [e2]
    have hsA : s * K * A ≤ 1 / 2 * A := mul_le_mul_of_nonneg_right hsK hA0
    rcases hA0.eq_or_lt with hA | hA
    · rw [← hA] at gm ⊢
      have : beam α θ v (m * s) = 0 := le_antisymm (by linarith) gm0
      rw [this]; simp
    · have hC : A / 2 ≤ C := by rw [abs_le] at hcheck; linarith [hcheck.1]
      have hC0 : 0 < C := by linarith
      have e3 : A / C * beam α θ v (m * s) - beam α θ v (m * s) = -(C - A) / C * beam α θ v (m * s) := by field_simp; ring
      rw [e3, abs_mul, abs_div, abs_neg, abs_of_pos hC0, abs_of_nonneg gm0]
      have k4 : |C - A| / C ≤ 2 * s * K := by
        rw [div_le_iff₀ hC0]
        have : 0 ≤ s * K := mul_nonneg hs.le hK0
        nlinarith
      have k5 := mul_le_mul k4 gm gm0 (by positivity)
      calc |C - A| / C * beam α θ v (m * s) ≤ 2 * s * K * (K * A) := k5
        _ = 2 * s * K ^ 2 * A := by ring
  · rw [e]
    have hz : beam α θ v (m * s) = 0 := by
      unfold beam
      refine Finset.sum_eq_zero fun j _ => ?_
      rcases h' with h' | h'
      · rw [h']; simp
      · rcases hα.eq_or_lt with rfl | hα'
        · simp
        · have h1 := h' j
          rw [makeD_mulVec] at h1
          have h2 := denom_pos hα' hd (hc j)
          have : v j = 0 := by
            have : v j * (1 - Real.exp (-α * d / |Real.cos (θ j)|)) = 0 := by linarith
            exact (mul_eq_zero.mp this).resolve_right h2.ne'
          rw [this]; simp
    rw [hz]
    have : ((arange d s).map fun _ => (0 : ℝ)).getD m 0 = 0 := by
      simp [List.getD_eq_getElem?_getD]
    rw [this, sub_zero, abs_zero]
    positivity

/-- The same for light on its way up: the profile is turned over, and the density is that at the distance from the rear surface. -/
theorem profile_close_up {α d s K : ℝ} {θ v : ι → ℝ} (hα : 0 ≤ α) (hd : 0 < d) (hc : ∀ j, Real.cos (θ j) ≠ 0) (hv : ∀ j, 0 ≤ v j) (hs : 0 < s) (hs' : s < d) (hK0 : 0 ≤ K)
    (hK : DecayOn α d θ v K) (hsK : s * K ≤ 1 / 2) (junk : ι → ℝ) (junk' : ℝ) (m : ℕ) (hm : m < ⌈d / s⌉₊) :
    |(bulkProfileCalc v (makeD α d θ *ᵥ v) α θ d (arange d s) (∑ j, v j - ∑ j, (makeD α d θ *ᵥ v) j) junk junk').reverse.getD m 0 - beam α θ v (d - m * s)|
      ≤ 3 * s * K ^ 2 * (∑ j, v j - ∑ j, (makeD α d θ *ᵥ v) j) := by
  have h1 := profile_close hα hd hc hv hs hs' hK0 hK hsK junk junk' (⌈d / s⌉₊ - 1 - m) (by omega)
  have hl : (bulkProfileCalc v (makeD α d θ *ᵥ v) α θ d (arange d s) (∑ j, v j - ∑ j, (makeD α d θ *ᵥ v) j) junk junk').length = ⌈d / s⌉₊ := by
    rw [bulkProfileCalc_length, arange_length]
  have e : (bulkProfileCalc v (makeD α d θ *ᵥ v) α θ d (arange d s) (∑ j, v j - ∑ j, (makeD α d θ *ᵥ v) j) junk junk').reverse.getD m 0 =
      (bulkProfileCalc v (makeD α d θ *ᵥ v) α θ d (arange d s) (∑ j, v j - ∑ j, (makeD α d θ *ᵥ v) j) junk junk').getD (⌈d / s⌉₊ - 1 - m) 0 := by
    rw [List.getD_eq_getElem _ _ (by rw [List.length_reverse, hl]; exact hm), List.getD_eq_getElem _ _ (by rw [hl]; omega), List.getElem_reverse]
    simp only [hl]
  have e1 : ((⌈d / s⌉₊ - 1 - m : ℕ) : ℝ) = (⌈d / s⌉₊ : ℝ) - 1 - m := by
    rw [Nat.cast_sub (by omega), Nat.cast_sub (by omega)]; simp
  have c1 : (⌈d / s⌉₊ : ℝ) * s < d + s := by
    have := Nat.ceil_lt_add_one (div_pos hd hs).le
    have := mul_lt_mul_of_pos_right this hs
    rw [add_mul, div_mul_cancel₀ _ hs.ne'] at this
    linarith
  have c2 : d ≤ (⌈d / s⌉₊ : ℝ) * s := by
    have := mul_le_mul_of_nonneg_right (Nat.le_ceil (d / s)) hs.le
    rwa [div_mul_cancel₀ _ hs.ne'] at this
  have hL := beam_lipschitz hα hd.le hK0 hK hv (a := ((⌈d / s⌉₊ - 1 - m : ℕ) : ℝ) * s) (b := d - m * s) (by positivity) (by rw [e1]; linarith)
  have hle : ∀ j, (makeD α d θ *ᵥ v) j ≤ v j := by
    intro j; rw [makeD_mulVec]; exact mul_le_of_le_one_left (hv j) (att_le_one hα hd.le _)
  have hA0 : 0 ≤ ∑ j, v j - ∑ j, (makeD α d θ *ᵥ v) j := sub_nonneg.mpr (Finset.sum_le_sum fun j _ => hle j)
  rw [e]
  refine (abs_sub_le _ _ _).trans ((add_le_add h1 hL).trans ?_)
  have : d - m * s - ((⌈d / s⌉₊ - 1 - m : ℕ) : ℝ) * s ≤ s := by rw [e1]; linarith
  have h3 : (d - m * s - ((⌈d / s⌉₊ - 1 - m : ℕ) : ℝ) * s) * (K ^ 2 * (∑ j, v j - ∑ j, (makeD α d θ *ᵥ v) j)) ≤ s * (K ^ 2 * (∑ j, v j - ∑ j, (makeD α d θ *ᵥ v) j)) :=
    mul_le_mul_of_nonneg_right this (mul_nonneg (sq_nonneg K) hA0)
  linarith

/-! ## Helper lemmas: all passes -/

theorem getD_foldl (n : ℕ) (w : ω) (m : ℕ) (hm : m < n) :
    ∀ (ps : List (ω → List ℝ)) (acc : List ℝ), acc.length = n → (∀ p ∈ ps, (p w).length = n) →
    (ps.foldl (fun acc p => List.zipWith (· + ·) acc (p w)) acc).getD m 0 = acc.getD m 0 + (ps.map (fun p => (p w).getD m 0)).sum
  | [], acc, _, _ => by simp
  | p :: ps, acc, ha, hp => by
    have hpl := hp p (by simp)
    rw [List.foldl_cons, getD_foldl n w m hm ps _ (by simp [ha, hpl]) (fun q hq => hp q (by simp [hq]))]
    have e : (List.zipWith (· + ·) acc (p w)).getD m 0 = acc.getD m 0 + (p w).getD m 0 := by
      rw [List.getD_eq_getElem _ _ (by simp [ha, hpl, hm]), List.getD_eq_getElem _ _ (by omega), List.getD_eq_getElem _ _ (by omega), List.getElem_zipWith]
    rw [e]
    simp only [List.map_cons, List.sum_cons]; ring

theorem foldl_length (w : ω) (n : ℕ) (ps : List (ω → List ℝ)) : ∀ (acc : List ℝ), acc.length = n → (∀ p ∈ ps, (p w).length = n) →
    (ps.foldl (fun acc p => List.zipWith (· + ·) acc (p w)) acc).length = n := by
  induction ps with
  | nil => intro acc h _; simpa using h
  | cons p ps ih => intro acc h hp; exact ih _ (by simp [h, hp p (by simp)]) fun q hq => hp q (by simp [hq])

theorem density_eq (S : Sys ω ι κ₀ κ₁) (w : ω) (f : Flows ι) (z : ℝ) :
    f.density S w z = beam (S.α w) S.θ (S.down2up *ᵥ f.down0) z + beam (S.α w) S.θ f.up1 (S.thick - z) := rfl

theorem density_add (S : Sys ω ι κ₀ κ₁) (w : ω) (y y' : ι → ℝ) (z : ℝ) :
    (flowsOf S w (y + y')).density S w z = (flowsOf S w y).density S w z + (flowsOf S w y').density S w z := by
  simp only [density_eq, flowsOf, Matrix.mulVec_add, beam_add]
  ring

/-- The density is at most `K` times the absorbed power. -/
theorem density_le {S : Sys ω ι κ₀ κ₁} (hS : EnergyConserving S) (hp : NonnegData S) {w : ω} {K : ℝ} (hK : DecayBound (S.α w) S.thick S.θ K) {y : ι → ℝ} (hy : ∀ j, 0 ≤ y j) {z : ℝ}
    (h0 : 0 ≤ z) (h1 : z ≤ S.thick) : 0 ≤ (flowsOf S w y).density S w z ∧ (flowsOf S w y).density S w z ≤ K * (flowsOf S w y).bulk := by
  have b1 := mulVec_nonneg hp.d2u hy
  have b2 := D_nonneg S (w := w) b1
  have b3 := mulVec_nonneg (hp.f1 w).1 b2
  have l1 := beam_le (hp.α w) (hK.on _) b1 h0
  have l2 := beam_le (hp.α w) (hK.on _) b3 (z := S.thick - z) (by linarith)
  have e3 := sum_relabel hS.d2u y
  have e4 := sum_relabel hS.u2d (S.D w *ᵥ ((S.front1 w).R *ᵥ (S.D w *ᵥ (S.down2up *ᵥ y))))
  refine ⟨add_nonneg (beam_nonneg (hp.α w) b1 _) (beam_nonneg (hp.α w) b3 _), ?_⟩
  rw [density_eq]
  have e : (flowsOf S w y).bulk = (∑ j, (S.down2up *ᵥ y) j - ∑ j, (makeD (S.α w) S.thick S.θ *ᵥ (S.down2up *ᵥ y)) j)
      + (∑ j, ((S.front1 w).R *ᵥ (S.D w *ᵥ (S.down2up *ᵥ y))) j - ∑ j, (makeD (S.α w) S.thick S.θ *ᵥ ((S.front1 w).R *ᵥ (S.D w *ᵥ (S.down2up *ᵥ y)))) j) := by
    simp only [Flows.bulk, flowsOf]
    rw [e3, e4]; rfl
  rw [e, mul_add]
  exact add_le_add l1 l2

/-- One pass: what it adds to the profile is close to the density of the light of that pass. -/
theorem profile_pass {S : Sys ω ι κ₀ κ₁} (hS : EnergyConserving S) (hp : NonnegData S) (hcos : ∀ j, Real.cos (S.θ j) ≠ 0) (hd : 0 < S.thick) {s : ℝ} (hs : 0 < s) (hs' : s < S.thick)
    {w : ω} {K : ℝ} (hK0 : 0 ≤ K) (hsK : s * K ≤ 1 / 2) (o : ProfOpts ω ι) (ho : o.bulkProfile = true) (hdep : o.depths = arange S.thick s) (t t0 : LoopState ω ι κ₀ κ₁) (hv : t.vf1 = t0.vf1) (hn : ∀ j, 0 ≤ t0.vf1 w j)
    (k1 : DecayOn (S.α w) S.thick S.θ (S.down2up *ᵥ t0.vf1 w) K) (k2 : DecayOn (S.α w) S.thick S.θ ((S.front1 w).R *ᵥ (S.D w *ᵥ (S.down2up *ᵥ t0.vf1 w))) K) (m : ℕ) (hm : m < ⌈S.thick / s⌉₊) :
    ((∀ p ∈ t.Aprof, (p w).length = ⌈S.thick / s⌉₊) → ∀ p ∈ (S.stepProf o t).Aprof, (p w).length = ⌈S.thick / s⌉₊) ∧
    |((S.stepProf o t).Aprof.map fun p => (p w).getD m 0).sum - ((t.Aprof.map fun p => (p w).getD m 0).sum + (flowsOf S w (t0.vf1 w)).density S w (m * s))| ≤
      3 * s * K ^ 2 * ((S.step t0).Abulk w - t0.Abulk w) := by
  have b1 := mulVec_nonneg hp.d2u hn
  have b2 := D_nonneg S (w := w) b1
  have b3 := mulVec_nonneg (hp.f1 w).1 b2
  have hb : (S.step t0).Abulk w = t0.Abulk w + ((∑ j, (S.down2up *ᵥ t0.vf1 w) j - ∑ j, (S.D w *ᵥ (S.down2up *ᵥ t0.vf1 w)) j) +
      (∑ j, ((S.front1 w).R *ᵥ (S.D w *ᵥ (S.down2up *ᵥ t0.vf1 w))) j - ∑ j, (S.D w *ᵥ ((S.front1 w).R *ᵥ (S.D w *ᵥ (S.down2up *ᵥ t0.vf1 w)))) j)) := by
    have e4 := sum_relabel hS.u2d (S.D w *ᵥ ((S.front1 w).R *ᵥ (S.D w *ᵥ (S.down2up *ᵥ t0.vf1 w))))
    rw [← e4]
    simp [LoopState.Abulk, Sys.step, Sys.appendPerPassInfo, dotWl, dotWlU2d, power]
  have c1 := profile_close (hp.α w) hd hcos b1 hs hs' hK0 k1 hsK (o.junk t.Aprof.length w) (o.junk' t.Aprof.length w) m hm
  have c2 := profile_close_up (hp.α w) hd hcos b3 hs hs' hK0 k2 hsK (o.junk (t.Aprof.length + 1) w) (o.junk' (t.Aprof.length + 1) w) m hm
  rw [← hdep] at c1 c2
  refine ⟨?_, ?_⟩
  · simp only [Sys.stepProf, Sys.appendPerPassInfo, ho, if_true]
    intro h2 p hp'
    simp only [List.mem_append, List.mem_singleton] at hp'
    rcases hp' with (hp' | rfl) | rfl
    · exact h2 p hp'
    · rw [bulkProfileCalc_length, hdep, arange_length]
    · rw [List.length_reverse, bulkProfileCalc_length, hdep, arange_length]
  · have ep : (((S.stepProf o t).Aprof).map fun p => (p w).getD m 0).sum = (t.Aprof.map fun p => (p w).getD m 0).sum +
        (bulkProfileCalc (S.down2up *ᵥ t0.vf1 w) (S.D w *ᵥ (S.down2up *ᵥ t0.vf1 w)) (S.α w) S.θ S.thick o.depths (∑ j, (S.down2up *ᵥ t0.vf1 w) j - ∑ j, (S.D w *ᵥ (S.down2up *ᵥ t0.vf1 w)) j)
          (o.junk t.Aprof.length w) (o.junk' t.Aprof.length w)).getD m 0 +
        (bulkProfileCalc ((S.front1 w).R *ᵥ (S.D w *ᵥ (S.down2up *ᵥ t0.vf1 w))) (S.D w *ᵥ ((S.front1 w).R *ᵥ (S.D w *ᵥ (S.down2up *ᵥ t0.vf1 w)))) (S.α w) S.θ S.thick o.depths
          (∑ j, ((S.front1 w).R *ᵥ (S.D w *ᵥ (S.down2up *ᵥ t0.vf1 w))) j - ∑ j, (S.D w *ᵥ ((S.front1 w).R *ᵥ (S.D w *ᵥ (S.down2up *ᵥ t0.vf1 w)))) j)
          (o.junk (t.Aprof.length + 1) w) (o.junk' (t.Aprof.length + 1) w)).reverse.getD m 0 := by
      simp only [Sys.stepProf, Sys.appendPerPassInfo, ho, if_true, sum_map_append_singleton, dotWl, dotWlU2d, power, hv]
    rw [ep, hb, show (flowsOf S w (t0.vf1 w)).density S w (m * s) = beam (S.α w) S.θ (S.down2up *ᵥ t0.vf1 w) (m * s) +
      beam (S.α w) S.θ ((S.front1 w).R *ᵥ (S.D w *ᵥ (S.down2up *ᵥ t0.vf1 w))) (S.thick - m * s) from rfl] at *
    have q1 : 0 ≤ ∑ j, (S.down2up *ᵥ t0.vf1 w) j - ∑ j, (S.D w *ᵥ (S.down2up *ᵥ t0.vf1 w)) j := sub_nonneg.mpr (Finset.sum_le_sum fun j _ => D_le S hp b1 j)
    have q2 : 0 ≤ s * K ^ 2 * (∑ j, (S.down2up *ᵥ t0.vf1 w) j - ∑ j, (S.D w *ᵥ (S.down2up *ᵥ t0.vf1 w)) j) := mul_nonneg (by positivity) q1
    change |_ - _| ≤ 2 * s * K ^ 2 * (∑ j, (S.down2up *ᵥ t0.vf1 w) j - ∑ j, (S.D w *ᵥ (S.down2up *ᵥ t0.vf1 w)) j) at c1
    change |_ - _| ≤ 3 * s * K ^ 2 * (∑ j, ((S.front1 w).R *ᵥ (S.D w *ᵥ (S.down2up *ᵥ t0.vf1 w))) j - ∑ j, (S.D w *ᵥ ((S.front1 w).R *ᵥ (S.D w *ᵥ (S.down2up *ᵥ t0.vf1 w)))) j) at c2
    simp only [Sys.D] at *
    rw [abs_le] at c1 c2 ⊢
    obtain ⟨c1, c1'⟩ := c1
    obtain ⟨c2, c2'⟩ := c2
    constructor <;> linarith

/-- What has been put into the profile after `k` passes, together with the density caused by the light that is left, is close to the density of the steady state. -/
theorem profile_iter {S : Sys ω ι κ₀ κ₁} (hS : EnergyConserving S) (hp : NonnegData S) (hcos : ∀ j, Real.cos (S.θ j) ≠ 0) (hd : 0 < S.thick) {s : ℝ} (hs : 0 < s) (hs' : s < S.thick)
    {w : ω} {K : ℝ} (hK0 : 0 ≤ K) (hK : DecayBound (S.α w) S.thick S.θ K) (hsK : s * K ≤ 1 / 2) (o : ProfOpts ω ι) (ho : o.bulkProfile = true) (hdep : o.depths = arange S.thick s)
    {f : Flows ι} (hf : IsSteady S w f) (m : ℕ) (hm : m < ⌈S.thick / s⌉₊) (k : ℕ) :
    ∃ y, Left S w f (S.step^[k] S.init) y ∧ (∀ p ∈ ((S.stepProf o)^[k] S.init).Aprof, (p w).length = ⌈S.thick / s⌉₊) ∧
      |(((S.stepProf o)^[k] S.init).Aprof.map fun p => (p w).getD m 0).sum + (flowsOf S w y).density S w (m * s) - f.density S w (m * s)|
        ≤ 3 * s * K ^ 2 * (S.step^[k] S.init).Abulk w := by
  induction k with
  | zero =>
    refine ⟨_, left_init hf, by simp [Sys.init], ?_⟩
    rw [← steady_eq hf]
    simp [Sys.init, LoopState.Abulk]
  | succ k ih =>
    obtain ⟨y, h1, h2, h3⟩ := ih
    have e := iterProf_forget S hS.u2d o S.init [] k
    have e' : S.step^[k] { S.init with Aprof := [] } = S.step^[k] S.init := rfl
    rw [e'] at e
    have hn := (C15_nonneg S hS hp o k _ (Or.inl rfl)).1 w
    refine ⟨_, by rw [Function.iterate_succ_apply']; exact left_step hS hp h1, ?_⟩
    rw [Function.iterate_succ_apply', Function.iterate_succ_apply']
    have hv : ((S.stepProf o)^[k] S.init).vf1 = (S.step^[k] S.init).vf1 := by rw [← e]
    generalize (S.stepProf o)^[k] S.init = t at h2 h3 hv ⊢
    generalize S.step^[k] S.init = t0 at h1 h3 hn hv ⊢
    have hy : (flowsOf S w y).density S w (m * s) = (flowsOf S w (t0.vf1 w)).density S w (m * s) + (flowsOf S w (roundTrip S w y)).density S w (m * s) := by
      conv_lhs => rw [h1.fix]
      exact density_add S w _ _ _
    obtain ⟨g1, g2⟩ := profile_pass hS hp hcos hd hs hs' hK0 hsK o ho hdep t t0 hv hn (hK.on _) (hK.on _) m hm
    refine ⟨g1 h2, ?_⟩
    rw [hy] at h3
    rw [abs_le] at g2 h3 ⊢
    constructor <;> linarith [g2.1, g2.2, h3.1, h3.2]

/-- There is always such a `K`. -/
theorem decayBound_exists {α d : ℝ} (hα : 0 ≤ α) (hd : 0 < d) {θ : ι → ℝ} (hc : ∀ j, Real.cos (θ j) ≠ 0) : ∃ K, 0 ≤ K ∧ DecayBound α d θ K := by
  rcases hα.eq_or_lt with rfl | hα'
  · exact ⟨0, le_rfl, fun j => by simp⟩
  · have hp : ∀ j, 0 ≤ α / |Real.cos (θ j)| / (1 - Real.exp (-α * d / |Real.cos (θ j)|)) := fun j => div_nonneg (div_nonneg hα (abs_nonneg _)) (denom_pos hα' hd (hc j)).le
    refine ⟨∑ j, α / |Real.cos (θ j)| / (1 - Real.exp (-α * d / |Real.cos (θ j)|)), Finset.sum_nonneg fun j _ => hp j, fun j => ?_⟩
    rw [← div_le_iff₀ (denom_pos hα' hd (hc j))]
    exact Finset.single_le_sum (fun i _ => hp i) (Finset.mem_univ j)

/-! ## C190 -/

/-- **C190, the exact profile.** The exact absorption density is what the net flux of light loses per unit of length, and over the whole layer the flux loses what is absorbed in the bulk layer. -/
theorem C190_density (S : Sys ω ι κ₀ κ₁) (hS : EnergyConserving S) (w : ω) (f : Flows ι) (hf : IsSteady S w f) :
    (∀ z, HasDerivAt (f.flux S w) (-f.density S w z) z) ∧ f.flux S w 0 - f.flux S w S.thick = f.bulk := by
  constructor
  · intro z
    have h1 : ∀ j, HasDerivAt (fun z => (S.down2up *ᵥ f.down0) j * Real.exp (-S.α w * z / |Real.cos (S.θ j)|))
        ((S.down2up *ᵥ f.down0) j * (Real.exp (-S.α w * z / |Real.cos (S.θ j)|) * (-S.α w * 1 / |Real.cos (S.θ j)|))) z := fun j =>
      ((((hasDerivAt_id z).const_mul (-S.α w)).div_const _).exp).const_mul _
    have h2 : ∀ j, HasDerivAt (fun z => f.up1 j * Real.exp (-S.α w * (S.thick - z) / |Real.cos (S.θ j)|))
        (f.up1 j * (Real.exp (-S.α w * (S.thick - z) / |Real.cos (S.θ j)|) * (-S.α w * (-1) / |Real.cos (S.θ j)|))) z := fun j =>
      (((((hasDerivAt_id z).const_sub S.thick).const_mul (-S.α w)).div_const _).exp).const_mul _
    have h := (HasDerivAt.fun_sum (u := Finset.univ) fun j _ => h1 j).sub (HasDerivAt.fun_sum (u := Finset.univ) fun j _ => h2 j)
    have e : -f.density S w z = ∑ j, (S.down2up *ᵥ f.down0) j * (Real.exp (-S.α w * z / |Real.cos (S.θ j)|) * (-S.α w * 1 / |Real.cos (S.θ j)|)) -
        ∑ j, f.up1 j * (Real.exp (-S.α w * (S.thick - z) / |Real.cos (S.θ j)|) * (-S.α w * (-1) / |Real.cos (S.θ j)|)) := by
      rw [Flows.density, ← Finset.sum_add_distrib, ← Finset.sum_neg_distrib, ← Finset.sum_sub_distrib]
      exact Finset.sum_congr rfl fun j _ => by ring
    rw [e]; exact h
  · have e1 : ∑ j, (S.down2up *ᵥ f.down0) j = ∑ j, f.down0 j := sum_relabel hS.d2u _
    have e2 : ∑ j, (S.down2up *ᵥ f.down0) j * Real.exp (-S.α w * S.thick / |Real.cos (S.θ j)|) = ∑ j, f.down1 j := by
      rw [hf.down]
      exact Finset.sum_congr rfl fun j _ => by rw [Sys.D, makeD_mulVec]; ring
    have e3 : ∑ j, f.up1 j * Real.exp (-S.α w * S.thick / |Real.cos (S.θ j)|) = ∑ j, f.up0 j := by
      rw [hf.up, sum_relabel hS.u2d]
      exact Finset.sum_congr rfl fun j _ => by rw [Sys.D, makeD_mulVec]; ring
    simp only [Flows.flux, mul_zero, zero_div, Real.exp_zero, mul_one, sub_zero, sub_self, e1, e2, e3, Flows.bulk]
    ring

/-- **C190, error bound.** Whenever the loop of `calculate_RAT` ends, entry `m` of the bulk profile differs from the exact absorption density at depth `m` times `depth_spacing_bulk` by at most `3 s K² A_bulk + K I_thresh`, where `s` is the spacing and `K` is any number
with `α / |cos θ| ≤ K (1 - exp(-α d / |cos θ|))` for all directions and `s K ≤ 1/2`; for all contents of uninitialised memory. -/
theorem C190_bound (S : Sys ω ι κ₀ κ₁) (hS : EnergyConserving S) (hp : NonnegData S) (hcos : ∀ j, Real.cos (S.θ j) ≠ 0) (hd : 0 < S.thick) (s : ℝ) (hs : 0 < s) (hs' : s < S.thick)
    (w : ω) (K : ℝ) (hK0 : 0 ≤ K) (hK : ∀ j, S.α w / |Real.cos (S.θ j)| ≤ K * (1 - Real.exp (-S.α w * S.thick / |Real.cos (S.θ j)|))) (hsK : s * K ≤ 1 / 2)
    (o : ProfOpts ω ι) (ho : o.bulkProfile = true) (hdep : o.depths = arange S.thick s) (f : Flows ι) (hf : IsSteady S w f) (k : ℕ) (t : LoopState ω ι κ₀ κ₁) (ht : S.ExitsProf o k t) :
    (t.bulkProf o.depths.length w).length = o.depths.length ∧
    ∀ m < o.depths.length, |(t.bulkProf o.depths.length w).getD m 0 - f.density S w (m * s)| ≤ 3 * s * K ^ 2 * t.Abulk w + K * S.thresh := by
  have hlen : o.depths.length = ⌈S.thick / s⌉₊ := by rw [hdep, arange_length]
  have ht1 : t = (S.stepProf o)^[k] S.init := ht.1
  have e := iterProf_forget S hS.u2d o S.init [] k
  have e' : S.step^[k] { S.init with Aprof := [] } = S.step^[k] S.init := rfl
  rw [e', ← ht1] at e
  have hA : (S.step^[k] S.init).Abulk w = t.Abulk w := by rw [← e]; rfl
  have acc := C133_accuracy S hS hp o k t (Or.inr ht) w f hf
  obtain ⟨-, -, -, -, ⟨a1, a2, a3, a4, a5⟩, a6⟩ := acc
  have hn0 : 0 < ⌈S.thick / s⌉₊ := Nat.ceil_pos.mpr (div_pos hd hs)
  refine ⟨?_, fun m hm => ?_⟩
  · obtain ⟨-, -, h2, -⟩ := profile_iter hS hp hcos hd hs hs' hK0 hK hsK o ho hdep hf 0 hn0 k
    rw [← ht1, ← hlen] at h2
    exact foldl_length w _ _ _ (by simp) h2
  · rw [hlen] at hm
    obtain ⟨y, h1, h2, h3⟩ := profile_iter hS hp hcos hd hs hs' hK0 hK hsK o ho hdep hf m hm k
    rw [← ht1] at h2 h3
    rw [hA] at h3
    have hm2 : (m : ℝ) * s ≤ S.thick := by
      have : (m : ℝ) < S.thick / s := Nat.lt_ceil.mp hm
      rw [lt_div_iff₀ hs] at this; exact this.le
    obtain ⟨d0, d1⟩ := density_le hS hp hK h1.nonneg (z := m * s) (by positivity) hm2
    have hb : (flowsOf S w y).bulk ≤ S.thresh := by
      have := h1.bulk
      rw [hA] at this
      linarith
    have d2 := mul_le_mul_of_nonneg_left hb hK0
    unfold LoopState.bulkProf
    rw [hlen, getD_foldl _ w m hm _ _ (by simp) h2]
    have e0 : (List.replicate ⌈S.thick / s⌉₊ (0 : ℝ)).getD m 0 = 0 := by simp [List.getD_eq_getElem?_getD]
    rw [e0, zero_add]
    rw [abs_le] at h3 ⊢
    constructor <;> linarith [h3.1, h3.2]

/-- **C190, limit.** For every tolerance, with `depth_spacing_bulk` and `I_thresh` small enough, every entry of the bulk profile is within the tolerance of the exact absorption density at its depth. -/
theorem C190_converges (S : Sys ω ι κ₀ κ₁) (hS : EnergyConserving S) (hp : NonnegData S) (hcos : ∀ j, Real.cos (S.θ j) ≠ 0) (hd : 0 < S.thick) (w : ω) (f : Flows ι) (hf : IsSteady S w f)
    (ε : ℝ) (hε : 0 < ε) :
    ∃ δ > 0, ∃ η > 0, ∀ s, 0 < s → s < δ → ∀ thr ≤ η, ∀ (o : ProfOpts ω ι), o.bulkProfile = true → o.depths = arange S.thick s → ∀ k t, ({ S with thresh := thr } : Sys ω ι κ₀ κ₁).ExitsProf o k t →
      ∀ m < o.depths.length, |(t.bulkProf o.depths.length w).getD m 0 - f.density S w (m * s)| < ε := by
  obtain ⟨K, hK0, hK⟩ := decayBound_exists (hp.α w) hd hcos
  have hV : 0 ≤ ∑ j, S.v0 w j := Finset.sum_nonneg fun j _ => hp.v0 w j
  refine ⟨min (S.thick) (min (1 / (2 * (K + 1))) (ε / (2 * (3 * K ^ 2 * ∑ j, S.v0 w j + 1)))), lt_min hd (lt_min (by positivity) (by positivity)), ε / (2 * (K + 1)), by positivity, ?_⟩
  intro s hs hsδ thr hthr o ho hdep k t ht m hm
  have s1 := hsδ.trans_le (min_le_left _ _)
  have s2 := hsδ.trans_le ((min_le_right _ _).trans (min_le_left _ _))
  have s3 := hsδ.trans_le ((min_le_right _ _).trans (min_le_right _ _))
  rw [lt_div_iff₀ (by positivity)] at s2 s3
  have hS' : EnergyConserving ({ S with thresh := thr } : Sys ω ι κ₀ κ₁) := ⟨hS.1, hS.2, hS.3, hS.4, hS.5⟩
  have hp' : NonnegData ({ S with thresh := thr } : Sys ω ι κ₀ κ₁) := ⟨hp.1, hp.2, hp.3, hp.4, hp.5, hp.6, hp.7, hp.8⟩
  have hf' : IsSteady ({ S with thresh := thr } : Sys ω ι κ₀ κ₁) w f := ⟨hf.1, hf.2, hf.3, hf.4, hf.5⟩
  have hb := (C190_bound ({ S with thresh := thr } : Sys ω ι κ₀ κ₁) hS' hp' hcos hd s hs s1 w K hK0 hK (by nlinarith) o ho hdep f hf' k t ht).2 m hm
  have hE := (C15_energy_balance ({ S with thresh := thr } : Sys ω ι κ₀ κ₁) hS' o k w).2
  obtain ⟨n1, -, -, -, -, -, n7⟩ := C15_nonneg ({ S with thresh := thr } : Sys ω ι κ₀ κ₁) hS' hp' o k t (Or.inr ht.1)
  obtain ⟨p1, p2, p3, p4, p5⟩ := n7 w
  have p6 : 0 ≤ ∑ j, t.vf1 w j := Finset.sum_nonneg fun j _ => n1 w j
  simp only [← ht.1] at hE
  have hA : t.Abulk w ≤ ∑ j, S.v0 w j := by linarith
  refine lt_of_le_of_lt hb ?_
  have q1 : 3 * s * K ^ 2 * t.Abulk w ≤ s * (3 * K ^ 2 * ∑ j, S.v0 w j) := by
    have := mul_le_mul_of_nonneg_left hA (show 0 ≤ 3 * s * K ^ 2 by positivity)
    linarith
  have q2 : K * thr ≤ ε / 2 := by
    rw [le_div_iff₀ (by positivity)] at hthr
    by_cases h : 0 ≤ thr
    · nlinarith
    · nlinarith
  change 3 * s * K ^ 2 * t.Abulk w + K * thr < ε
  nlinarith

example : ∃ (f : Flows (Fin 2)) (s K : ℝ) (o : ProfOpts (Fin 2) (Fin 2)), IsSteady exSys 0 f ∧ 0 < s ∧ s < exSys.thick ∧ 0 ≤ K ∧
    (∀ j, exSys.α 0 / |Real.cos (exSys.θ j)| ≤ K * (1 - Real.exp (-exSys.α 0 * exSys.thick / |Real.cos (exSys.θ j)|))) ∧ s * K ≤ 1 / 2 ∧ o.bulkProfile = true ∧ o.depths = arange exSys.thick s := by
  obtain ⟨f, hf⟩ := (C133_exists_iff exSys exSys_conserving exSys_nonneg 0).mpr fun j _ => exSys_leaks 0 j
  obtain ⟨K, hK0, hK⟩ := decayBound_exists (exSys_nonneg.α 0) (show (0 : ℝ) < exSys.thick by norm_num [exSys]) exSys_cos
  refine ⟨f, 1 / (2 * (K + 1)), K, ⟨true, arange exSys.thick (1 / (2 * (K + 1))), fun _ _ _ => 7, fun _ _ => 9⟩, hf, by positivity, ?_, hK0, hK, ?_, rfl, rfl⟩
  · have : exSys.thick = 2 := rfl
    rw [this, div_lt_iff₀ (by positivity)]; linarith
  · rw [one_div_mul_eq_div, div_le_iff₀ (by positivity)]; linarith

end Rayflare
