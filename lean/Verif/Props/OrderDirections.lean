import Verif.Model.OrderDirections
import Verif.Props.RCWA3

/-!
# Property C106: directions of diffraction orders
-/

namespace Rayflare

open Rayflare.Np Rayflare.Model Rayflare.Spec Real

theorem mem_orderAxis (M : ℕ) (a : ℤ) : a ∈ orderAxis M ↔ |a| ≤ M := by
  unfold orderAxis
  rw [abs_le]
  simp only [List.mem_map, List.mem_range]
  constructor
  · rintro ⟨i, hi, rfl⟩; omega
  · rintro ⟨h1, h2⟩; exact ⟨(a + M).toNat, by omega, by omega⟩

theorem orderAxis_nodup (M : ℕ) : (orderAxis M).Nodup :=
  List.nodup_range.map fun a b h => by simpa using h

/-- **C106, list of orders.** Every pair of indices up to `m_max` in magnitude is listed exactly once. -/
theorem C106_orders (nIn nOut wl : ℝ) (rl : (ℝ × ℝ) × (ℝ × ℝ)) (M : ℕ) (θ φ s : ℝ) :
    (((orderDirections nIn nOut wl rl M θ φ s).map OrderDir.index).Nodup) ∧
    (∀ g : ℤ × ℤ, g ∈ (orderDirections nIn nOut wl rl M θ φ s).map OrderDir.index ↔ |g.1| ≤ M ∧ |g.2| ≤ M) ∧
    (orderDirections nIn nOut wl rl M θ φ s).length = (2 * M + 1) ^ 2 := by
  have e : (orderDirections nIn nOut wl rl M θ φ s).map OrderDir.index = orderPairs M := by
    unfold orderDirections
    rw [List.map_map]
    conv_rhs => rw [← List.map_id (orderPairs M)]
    rfl
  refine ⟨?_, ?_, ?_⟩
  · rw [e]
    unfold orderPairs
    rw [List.nodup_flatMap]
    refine ⟨fun b _ => (orderAxis_nodup M).map fun a a' h => by simpa using h, ?_⟩
    refine (orderAxis_nodup M).imp ?_
    intro b b' hne p hp hp'
    simp only [List.mem_map] at hp hp'
    obtain ⟨a, -, rfl⟩ := hp
    obtain ⟨a', -, h⟩ := hp'
    exact hne (by simpa using (congrArg Prod.snd h).symm)
  · intro g
    rw [e]
    unfold orderPairs
    simp only [List.mem_flatMap, List.mem_map]
    constructor
    · rintro ⟨b, hb, a, ha, rfl⟩
      exact ⟨(mem_orderAxis M a).mp ha, (mem_orderAxis M b).mp hb⟩
    · rintro ⟨h1, h2⟩
      exact ⟨g.2, (mem_orderAxis M _).mpr h2, g.1, (mem_orderAxis M _).mpr h1, rfl⟩
  · unfold orderDirections orderPairs
    rw [List.length_map, List.length_flatMap]
    simp [orderAxis, sq, Function.comp_def]

/-- **C106, grating equation.** The reported in-plane frequency is that of the incident light plus the reciprocal lattice vector of the order; a reflected (transmitted) order that propagates is reported at the polar angle
below (above) 90 degrees at which its in-plane frequency is this one; the others are reported at exactly 90 degrees. -/
theorem C106_grating (nIn nOut wl : ℝ) (rl : (ℝ × ℝ) × (ℝ × ℝ)) (M : ℕ) (θ φ s : ℝ) (hin : 0 < nIn) (hout : 0 < nOut) (hwl : 0 < wl) :
    ∀ o ∈ orderDirections nIn nOut wl rl M θ φ s,
      o.fr = (nIn / wl * sin θ * sin φ + (o.index.1 * rl.1.1 + o.index.2 * rl.2.1), nIn / wl * sin θ * cos φ + (o.index.1 * rl.1.2 + o.index.2 * rl.2.2)) ∧
      (√(o.fr.1 ^ 2 + o.fr.2 ^ 2) < nIn / wl → 0 ≤ o.thetaR ∧ o.thetaR < π / 2 ∧ nIn / wl * sin o.thetaR = √(o.fr.1 ^ 2 + o.fr.2 ^ 2)) ∧
      (nIn / wl ≤ √(o.fr.1 ^ 2 + o.fr.2 ^ 2) → o.thetaR = π / 2) ∧
      (√(o.fr.1 ^ 2 + o.fr.2 ^ 2) < nOut / wl → π / 2 < o.thetaT ∧ o.thetaT ≤ π ∧ nOut / wl * sin o.thetaT = √(o.fr.1 ^ 2 + o.fr.2 ^ 2)) ∧
      (nOut / wl ≤ √(o.fr.1 ^ 2 + o.fr.2 ^ 2) → o.thetaT = π / 2) := by
  have key : ∀ (n : ℝ) (f : ℝ × ℝ), 0 < n → (√(f.1 ^ 2 + f.2 ^ 2) < n / wl → 0 ≤ polarOf (n ^ 2) wl f ∧ polarOf (n ^ 2) wl f < π / 2 ∧ n / wl * sin (polarOf (n ^ 2) wl f) = √(f.1 ^ 2 + f.2 ^ 2)) ∧
      (n / wl ≤ √(f.1 ^ 2 + f.2 ^ 2) → polarOf (n ^ 2) wl f = π / 2) := by
    intro n f hn
    have hnw : 0 < n / wl := by positivity
    have hq : 0 ≤ f.1 ^ 2 + f.2 ^ 2 := by positivity
    have e : n ^ 2 / wl ^ 2 = (n / wl) ^ 2 := by rw [div_pow]
    refine ⟨fun h => ?_, fun h => ?_⟩
    · have hp : Propagates (n ^ 2) wl f := by
        unfold Propagates
        rw [e]
        exact (Real.sqrt_lt' hnw).mp h
      obtain ⟨h1, h2, h3⟩ := C85_polar (n ^ 2) wl hwl f hp
      rw [Real.sqrt_sq hn.le] at h3
      exact ⟨h1, h2, h3⟩
    · unfold polarOf
      have h' : (n / wl) ^ 2 ≤ f.1 ^ 2 + f.2 ^ 2 := (Real.le_sqrt hnw.le hq).mp h
      rcases h'.lt_or_eq with hlt | heq
      · rw [if_neg (by rw [e]; linarith)]
      · rw [if_pos (by rw [e, heq]), e, heq]
        have : f.1 ^ 2 + f.2 ^ 2 - f.1 ^ 2 - f.2 ^ 2 = 0 := by ring
        rw [this, Real.sqrt_zero, zero_div, Real.arccos_zero]
  intro o ho
  unfold orderDirections at ho
  simp only [List.mem_map] at ho
  obtain ⟨g, -, rfl⟩ := ho
  simp only
  obtain ⟨a1, a2⟩ := key nIn (dirFreq nIn wl rl θ φ g) hin
  obtain ⟨b1, b2⟩ := key nOut (dirFreq nIn wl rl θ φ g) hout
  refine ⟨rfl, a1, a2, fun h => ?_, fun h => ?_⟩
  · obtain ⟨c1, c2, c3⟩ := b1 h
    refine ⟨by linarith, by linarith, ?_⟩
    rw [Real.sin_pi_sub]; exact c3
  · rw [b2 h]; ring

/-- **C106, zeroth order.** The zeroth order is reported in the specular direction (reflection) and in the direction given by Snell's law (transmission, unless there is total internal reflection). -/
theorem C106_zeroth (nIn nOut wl : ℝ) (rl : (ℝ × ℝ) × (ℝ × ℝ)) (M : ℕ) (θ φ s : ℝ) (hin : 0 < nIn) (hout : 0 < nOut) (hwl : 0 < wl) (hθ : 0 ≤ θ) (hθ' : θ < π / 2) :
    ∃ o ∈ orderDirections nIn nOut wl rl M θ φ s, o.index = (0, 0) ∧ o.thetaR = θ ∧
      (nIn * sin θ < nOut → π / 2 < o.thetaT ∧ o.thetaT ≤ π ∧ nOut * sin o.thetaT = nIn * sin θ) ∧ (nOut ≤ nIn * sin θ → o.thetaT = π / 2) := by
  have hmem : ((0, 0) : ℤ × ℤ) ∈ (orderDirections nIn nOut wl rl M θ φ s).map OrderDir.index :=
    ((C106_orders nIn nOut wl rl M θ φ s).2.1 (0, 0)).mpr (by simp)
  obtain ⟨o, ho, hidx⟩ := List.mem_map.mp hmem
  obtain ⟨hf, h1, -, h3, h4⟩ := C106_grating nIn nOut wl rl M θ φ s hin hout hwl o ho
  have hs0 : 0 ≤ sin θ := sin_nonneg_of_nonneg_of_le_pi hθ (by linarith [pi_pos])
  have hnorm : √(o.fr.1 ^ 2 + o.fr.2 ^ 2) = nIn / wl * sin θ := by
    rw [hf, hidx]
    have : (nIn / wl * sin θ * sin φ + (((0 : ℤ) : ℝ) * rl.1.1 + ((0 : ℤ) : ℝ) * rl.2.1)) ^ 2 + (nIn / wl * sin θ * cos φ + (((0 : ℤ) : ℝ) * rl.1.2 + ((0 : ℤ) : ℝ) * rl.2.2)) ^ 2 = (nIn / wl * sin θ) ^ 2 := by
      have := sin_sq_add_cos_sq φ
      push_cast
      linear_combination (nIn / wl * sin θ) ^ 2 * this
    rw [this, Real.sqrt_sq (by positivity)]
  have hk : 0 < nIn / wl := by positivity
  have hs1 : sin θ < 1 := by
    have := strictMonoOn_sin (show θ ∈ Set.Icc (-(π / 2)) (π / 2) from ⟨by linarith [pi_pos], hθ'.le⟩) (show π / 2 ∈ Set.Icc (-(π / 2)) (π / 2) from ⟨by linarith [pi_pos], le_rfl⟩) hθ'
    rwa [sin_pi_div_two] at this
  refine ⟨o, ho, hidx, ?_, fun h => ?_, fun h => ?_⟩
  · obtain ⟨a, b, c⟩ := h1 (by rw [hnorm]; nlinarith)
    rw [hnorm] at c
    exact injOn_sin ⟨by linarith [pi_pos], b.le⟩ ⟨by linarith [pi_pos], hθ'.le⟩ (mul_left_cancel₀ hk.ne' c)
  · obtain ⟨a, b, c⟩ := h3 (by rw [hnorm, div_mul_eq_mul_div]; exact div_lt_div_of_pos_right h hwl)
    refine ⟨a, b, ?_⟩
    rw [hnorm] at c
    field_simp at c
    exact c
  · exact h4 (by rw [hnorm, div_mul_eq_mul_div]; exact div_le_div_of_nonneg_right h hwl.le)

example : ∃ (nIn nOut wl θ : ℝ), 0 < nIn ∧ 0 < nOut ∧ 0 < wl ∧ 0 ≤ θ ∧ θ < π / 2 ∧ nIn * sin θ < nOut :=
  ⟨1, 3.5, 600, 0.5, by norm_num, by norm_num, by norm_num, by norm_num, by linarith [pi_gt_three], by linarith [sin_le_one 0.5]⟩

end Rayflare
