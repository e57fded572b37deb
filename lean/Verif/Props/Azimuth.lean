import Verif.Props.RTStart
import Verif.Props.RCWA3
import Verif.Model.TMM

/-!
# Properties C104, C105: do the methods agree on what an azimuth means?
-/

namespace Rayflare

open Rayflare.Np Rayflare.Model Rayflare.Spec Real

/-! ## Helper lemmas -/

theorem arg_polar (ρ α : ℝ) (hρ : 0 < ρ) : ∃ k : ℤ, Complex.arg ⟨ρ * cos α, ρ * sin α⟩ = α + k * (2 * π) := by
  have e : (⟨ρ * cos α, ρ * sin α⟩ : ℂ) = ρ * (Complex.cos α + Complex.sin α * Complex.I) := by
    apply Complex.ext
    · simp [← Complex.ofReal_cos, ← Complex.ofReal_sin]
    · simp [← Complex.ofReal_cos, ← Complex.ofReal_sin]
  rw [e, Complex.arg_mul_cos_add_sin_mul_I_eq_toIocMod hρ]
  refine ⟨-(toIocDiv Real.two_pi_pos (-π) α), ?_⟩
  have := self_sub_toIocDiv_zsmul Real.two_pi_pos (-π) α
  rw [zsmul_eq_mul] at this
  rw [← this]
  push_cast
  ring

/-- Two numbers of `[0, s)` that are equal modulo `s` to the same angle are equal; used with `foldPhi`. -/
theorem fold_congr (m : ℕ) (hm : 0 < m) (a b : ℝ) (h : ∃ k : ℤ, a = b + k * (2 * π / m)) : foldPhi a (2 * π / m) = foldPhi b (2 * π / m) := by
  obtain ⟨k, rfl⟩ := h
  exact C05_fold_rotation m hm b k

theorem fold_congr_iff (m : ℕ) (hm : 0 < m) (a b : ℝ) : foldPhi a (2 * π / m) = foldPhi b (2 * π / m) ↔ ∃ k : ℤ, a = b + k * (2 * π / m) := by
  refine ⟨fun h => ?_, fold_congr m hm a b⟩
  obtain ⟨-, ⟨k, hk⟩, -⟩ := C05_fold m hm a
  obtain ⟨-, ⟨l, hl⟩, -⟩ := C05_fold m hm b
  refine ⟨l - k, ?_⟩
  rw [hk, hl] at h
  push_cast
  linarith

/-! ## C104 -/

/-- **C104 (partial).** Ray tracing and the transfer-matrix method file specularly reflected light under the same azimuth: a ray launched for polar angle `θ` and azimuth `φ` and reflected by a
horizontal facet (its vertical direction component is reversed) is filed at the azimuth `fold(φ + π)` used by the transfer-matrix method. -/
theorem C104_rt_tmm_partial (m : ℕ) (hm : 0 < m) (h θ φ x y : ℝ) (hθ : 0 < θ) (hθ' : θ < π / 2) (hh : h + 1e-8 ≠ 0) :
    let d := startDir x y 1 (rA0 h θ φ)
    rtPhiOut (2 * π / m) ⟨d.x, d.y, -d.z⟩ = foldPhi (φ + π) (2 * π / m) := by
  intro d
  have hd : d = incoming θ φ := (C101_direction h θ φ x y hθ.le hθ' hh).1
  rw [hd]
  have hs : 0 < sin θ := sin_pos_of_pos_of_lt_pi hθ (by linarith)
  unfold rtPhiOut incoming
  simp only
  obtain ⟨k, hk⟩ := arg_polar (sin θ) (φ + π) hs
  have e : (⟨-(sin θ * cos φ), -(sin θ * sin φ)⟩ : ℂ) = ⟨sin θ * cos (φ + π), sin θ * sin (φ + π)⟩ := by
    rw [cos_add_pi, sin_add_pi]; simp
  rw [e, hk]
  apply fold_congr m hm
  refine ⟨k * m, ?_⟩
  have : (m : ℝ) ≠ 0 := by positivity
  push_cast
  field_simp

/-- **C104 (partial).** If the symmetry angle divides 180 degrees, the zeroth reflected order of RCWA is filed there too. -/
theorem C104_rcwa_even_partial (m : ℕ) (hm : 0 < m) (heven : Even m) (cell : RcwaCell) (hwl : 0 < cell.wl) (heps : 0 < cell.eps) (θ φ : ℝ)
    (hθ : 0 < θ) (hθ' : θ < π / 2) :
    rcwaPhi (2 * π / m) (rcwaFreq cell θ φ (0, 0)) = foldPhi (φ + π) (2 * π / m) := by
  have hs : 0 < sin θ := sin_pos_of_pos_of_lt_pi hθ (by linarith)
  have haz : IsAzimuth (rcwaFreq cell θ φ (0, 0)) φ := ⟨√cell.eps / cell.wl * sin θ, by positivity, by simp [rcwaFreq]⟩
  obtain ⟨k, hk⟩ := arctan_azimuth _ _ haz
  unfold rcwaPhi
  apply fold_congr m hm
  obtain ⟨p, hp⟩ := heven
  refine ⟨(k - 1) * p, ?_⟩
  rw [hk]
  have hm' : (m : ℝ) ≠ 0 := by positivity
  have : π = p * (2 * π / m) := by
    field_simp
    rw [hp]; push_cast; ring
  push_cast
  linear_combination ((k : ℝ) - 1) * this

/-- **C104 fails for RCWA without such a symmetry** (`phi_symmetry = 2π/m` with odd `m`, in particular a full circle): for every angle of incidence with azimuth in the first quadrant the specular order is filed on the opposite side,
under the azimuth of the incident light itself. -/
theorem C104_rcwa_odd_fails (m : ℕ) (hm : Odd m) (cell : RcwaCell) (hwl : 0 < cell.wl) (heps : 0 < cell.eps) (θ φ : ℝ)
    (hθ : 0 < θ) (hθ' : θ < π / 2) (hφ : 0 < φ) (hφ' : φ < π / 2) :
    rcwaPhi (2 * π / m) (rcwaFreq cell θ φ (0, 0)) = foldPhi φ (2 * π / m) ∧
      rcwaPhi (2 * π / m) (rcwaFreq cell θ φ (0, 0)) ≠ foldPhi (φ + π) (2 * π / m) := by
  have hm0 : 0 < m := hm.pos
  have hm' : (m : ℝ) ≠ 0 := by positivity
  have hs : 0 < sin θ := sin_pos_of_pos_of_lt_pi hθ (by linarith)
  have hc : 0 < cos φ := cos_pos_of_mem_Ioo ⟨by linarith, hφ'⟩
  have hρ : 0 < √cell.eps / cell.wl * sin θ := by positivity
  have e : rcwaPhi (2 * π / m) (rcwaFreq cell θ φ (0, 0)) = foldPhi φ (2 * π / m) := by
    unfold rcwaPhi rcwaArctan
    have h2 : (rcwaFreq cell θ φ (0, 0)).2 = √cell.eps / cell.wl * sin θ * cos φ := by simp [rcwaFreq]
    have h1 : (rcwaFreq cell θ φ (0, 0)).1 = √cell.eps / cell.wl * sin θ * sin φ := by simp [rcwaFreq]
    rw [if_neg (by rw [h2]; positivity), h1, h2, mul_div_mul_left _ _ hρ.ne', ← tan_eq_sin_div_cos, arctan_tan (by linarith) hφ']
  refine ⟨e, ?_⟩
  rw [e]
  intro h
  obtain ⟨k, hk⟩ := (fold_congr_iff m hm0 _ _).mp h
  have h1 : π * m + k * (2 * π) = 0 := by
    have : π + k * (2 * π / m) = 0 := by linarith
    field_simp at this
    linear_combination this
  have h2 : (m : ℝ) + k * 2 = 0 := by
    have : π * ((m : ℝ) + k * 2) = 0 := by linarith
    rcases mul_eq_zero.mp this with h | h
    · exact absurd h pi_pos.ne'
    · exact h
  have h3 : (m : ℤ) + k * 2 = 0 := by exact_mod_cast h2
  obtain ⟨q, hq⟩ := hm
  omega

example : ∃ (m : ℕ) (cell : RcwaCell) (θ φ : ℝ), Odd m ∧ 0 < cell.wl ∧ 0 < cell.eps ∧ 0 < θ ∧ θ < π / 2 ∧ 0 < φ ∧ φ < π / 2 :=
  ⟨1, ⟨0.5, 1, (1, 0), (0, 1), fun _ _ => 0⟩, 1, 1, by decide, by norm_num, by norm_num, by norm_num, by linarith [pi_gt_three], by norm_num, by linarith [pi_gt_three]⟩

/-! ## C105 -/

/-- **C105 (partial).** What the azimuths mean: light travelling in the in-plane direction at angle `α` from the x axis is filed by ray tracing at `α`, and by RCWA – if the symmetry angle divides 180 degrees – at `π/2 - α`, the
angle from the y axis (both modulo the symmetry angle). The two agree exactly for directions for which `2α` is `π/2` modulo the symmetry angle (the diagonal and its images). -/
theorem C105_meaning_partial (m : ℕ) (hm : 0 < m) (heven : Even m) (α ρ z : ℝ) (hρ : 0 < ρ) :
    rtPhiOut (2 * π / m) ⟨ρ * cos α, ρ * sin α, z⟩ = foldPhi α (2 * π / m) ∧
      rcwaPhi (2 * π / m) (ρ * cos α, ρ * sin α) = foldPhi (π / 2 - α) (2 * π / m) ∧
      (rtPhiOut (2 * π / m) ⟨ρ * cos α, ρ * sin α, z⟩ = rcwaPhi (2 * π / m) (ρ * cos α, ρ * sin α) ↔ ∃ k : ℤ, 2 * α = π / 2 + k * (2 * π / m)) := by
  have hm' : (m : ℝ) ≠ 0 := by positivity
  have e1 : rtPhiOut (2 * π / m) ⟨ρ * cos α, ρ * sin α, z⟩ = foldPhi α (2 * π / m) := by
    unfold rtPhiOut
    obtain ⟨k, hk⟩ := arg_polar ρ α hρ
    simp only
    rw [hk]
    exact fold_congr m hm _ _ ⟨k * m, by push_cast; field_simp⟩
  have e2 : rcwaPhi (2 * π / m) (ρ * cos α, ρ * sin α) = foldPhi (π / 2 - α) (2 * π / m) := by
    have haz : IsAzimuth (ρ * cos α, ρ * sin α) (π / 2 - α) := ⟨ρ, hρ, by rw [sin_pi_div_two_sub, cos_pi_div_two_sub]⟩
    obtain ⟨k, hk⟩ := arctan_azimuth _ _ haz
    unfold rcwaPhi
    rw [hk]
    obtain ⟨p, hp⟩ := heven
    refine fold_congr m hm _ _ ⟨k * p, ?_⟩
    have : π = p * (2 * π / m) := by
      field_simp
      rw [hp]; push_cast; ring
    push_cast
    linear_combination (k : ℝ) * this
  refine ⟨e1, e2, ?_⟩
  rw [e1, e2, fold_congr_iff m hm]
  constructor
  · rintro ⟨k, hk⟩; exact ⟨k, by linarith⟩
  · rintro ⟨k, hk⟩; exact ⟨k, by linarith⟩

/-- **C105 fails**: whatever the symmetry (dividing 180 degrees), light travelling at the angle `π/4 + phi_sym/4` from the x axis is filed under different azimuths by ray tracing and by RCWA, so when the two methods are combined in one structure the light
leaving an interface calculated with one method arrives at an interface calculated with the other in a different direction. -/
theorem C105_rt_rcwa_fails (m : ℕ) (hm : 0 < m) (heven : Even m) (ρ z : ℝ) (hρ : 0 < ρ) :
    let α := π / 4 + 2 * π / m / 4
    rtPhiOut (2 * π / m) ⟨ρ * cos α, ρ * sin α, z⟩ ≠ rcwaPhi (2 * π / m) (ρ * cos α, ρ * sin α) := by
  intro α h
  obtain ⟨k, hk⟩ := (C105_meaning_partial m hm heven α ρ z hρ).2.2.mp h
  have hs : 0 < 2 * π / (m : ℝ) := by positivity
  have h1 : 2 * π / (m : ℝ) * (1 - 2 * k) = 0 := by
    simp only [α] at hk
    linarith
  have h2 : (1 : ℝ) - 2 * k = 0 := by
    rcases mul_eq_zero.mp h1 with h | h
    · exact absurd h hs.ne'
    · exact h
  have h3 : (1 : ℤ) - 2 * k = 0 := by exact_mod_cast h2
  omega

end Rayflare
