import Verif.Model.RTStart
import Verif.Lemmas.RayStack2
import Verif.Spec.Ray
import Mathlib.Analysis.Real.Pi.Bounds
import Mathlib.Tactic.Linarith
import Mathlib.Tactic.FieldSimp
import Mathlib.Tactic.Ring
import Mathlib.Tactic.NormNum

/-!
# Properties C101, C102: where rays start
-/

namespace Rayflare

open Rayflare.Np Rayflare.Model Rayflare.Spec Rayflare.Lemmas Real

/-! ## Vocabulary -/

/-- Depth of the top of medium `m` of a stack: total thickness of the media above it. -/
noncomputable def topOf (S : Stack) (m : ℕ) : ℝ := (S.widths.take m).sum

/-- The unit vector that travels down towards the surface, for light coming from polar angle `θ` and azimuth `φ`. -/
noncomputable def incoming (θ φ : ℝ) : V3 := ⟨-(sin θ * cos φ), -(sin θ * sin φ), -cos θ⟩

/-! ## Helper lemmas -/

theorem rA0_vec {h θ φ : ℝ} (hc : 0 < cos θ) :
    rA0 h θ φ = ⟨|h + 1e-8| / cos θ * sin θ * cos φ, |h + 1e-8| / cos θ * sin θ * sin φ, |h + 1e-8|⟩ := by
  unfold rA0
  rw [abs_div, abs_of_pos hc]
  ext <;> simp [div_mul_cancel₀ _ hc.ne']

theorem launchD_eq {h θ φ : ℝ} (x y : ℝ) (hc : 0 < cos θ) (hh : h + 1e-8 ≠ 0) :
    launchD x y (rA0 h θ φ) = incoming θ φ := by
  have hr : 0 < |h + 1e-8| / cos θ := div_pos (abs_pos.mpr hh) hc
  set r := |h + 1e-8| / cos θ with hrdef
  have e : rA0 h θ φ = ⟨r * sin θ * cos φ, r * sin θ * sin φ, r * cos θ⟩ := by
    rw [rA0_vec hc, hrdef, div_mul_cancel₀ _ hc.ne']
  have hw : ((⟨x, y, 0⟩ : V3) - launchA x y (rA0 h θ φ)) = ⟨-(r * sin θ * cos φ), -(r * sin θ * sin φ), -(r * cos θ)⟩ := by
    rw [e, launchA]; ext <;> simp
  have hn : (⟨-(r * sin θ * cos φ), -(r * sin θ * sin φ), -(r * cos θ)⟩ : V3).norm = r := by
    unfold V3.norm V3.dot
    have : -(r * sin θ * cos φ) * -(r * sin θ * cos φ) + -(r * sin θ * sin φ) * -(r * sin θ * sin φ) + -(r * cos θ) * -(r * cos θ) = r ^ 2 := by
      have h1 := sin_sq_add_cos_sq θ
      have h2 := sin_sq_add_cos_sq φ
      linear_combination r ^ 2 * h1 + r ^ 2 * sin θ ^ 2 * h2
    rw [this, sqrt_sq hr.le]
  unfold launchD incoming
  simp only [hw, hn]
  ext <;> field_simp

/-! ## C101 -/

/-- **C101.** The ray travels in the direction asked for: along the incidence direction given by `θ` and `φ`, mirrored in the
horizontal plane if it is to start upwards, with unit length. -/
theorem C101_direction (h θ φ x y : ℝ) (hθ : 0 ≤ θ) (hθ' : θ < π / 2) (hh : h + 1e-8 ≠ 0) :
    startDir x y 1 (rA0 h θ φ) = incoming θ φ ∧
      startDir x y (-1) (rA0 h θ φ) = ⟨-(sin θ * cos φ), -(sin θ * sin φ), cos θ⟩ ∧
      (incoming θ φ).norm = 1 := by
  have hc : 0 < cos θ := cos_pos_of_mem_Ioo ⟨by linarith [pi_pos], hθ'⟩
  refine ⟨by simp [startDir, launchD_eq x y hc hh], by simp [startDir, launchD_eq x y hc hh, incoming], ?_⟩
  unfold V3.norm V3.dot incoming
  have h1 := sin_sq_add_cos_sq θ
  have h2 := sin_sq_add_cos_sq φ
  rw [show -(sin θ * cos φ) * -(sin θ * cos φ) + -(sin θ * sin φ) * -(sin θ * sin φ) + -cos θ * -cos θ = 1 by
    linear_combination h1 + sin θ ^ 2 * h2, sqrt_one]

/-- **C101.** A ray that starts in the incidence medium starts at the requested `x`, `y`, above the highest point `h` of the
first surface. -/
theorem C101_above_first_surface (S : Stack) (h θ φ x y : ℝ) (hθ : 0 ≤ θ) (hθ' : θ < π / 2) (hh : h + 1e-8 ≠ 0) :
    (S.startPos x y 0 1 (rA0 h θ φ)).x = x ∧ (S.startPos x y 0 1 (rA0 h θ φ)).y = y ∧ h < (S.startPos x y 0 1 (rA0 h θ φ)).z := by
  have hc : 0 < cos θ := cos_pos_of_mem_Ioo ⟨by linarith [pi_pos], hθ'⟩
  have hr : 0 < |h + 1e-8| := abs_pos.mpr hh
  have e := rA0_vec (h := h) (φ := φ) hc
  refine ⟨?_, ?_, ?_⟩
  · simp only [Stack.startPos, launchD_eq x y hc hh]
    simp [launchA, e, incoming]
    field_simp
    ring
  · simp only [Stack.startPos, launchD_eq x y hc hh]
    simp [launchA, e, incoming]
    field_simp
    ring
  · simp only [Stack.startPos, Stack.zOffset]
    simp only [e]
    norm_num
    have := le_abs_self (h + 1e-8)
    norm_num at this
    linarith

/-- **C101 (partial).** A ray that starts in a layer of the stack (not in the incidence or transmission medium) starts at the
requested `x`, `y`, strictly inside that layer, whichever way it is to travel; with flat surfaces the layer `m` occupies
heights from `-topOf (m+1)` to `-topOf m`.  A ray that starts downwards from a layer starts just below its top, one that starts upwards just above
its bottom.  Missing: rays that start upwards in the transmission medium, see `C101_from_below_fails`. -/
theorem C101_inside_layer_partial (S : Stack) (h θ φ x y : ℝ) (m : ℕ) (dir : ℤ) (hd : dir = 1 ∨ dir = -1)
    (hm : 1 ≤ m) (hmn : m < S.nSurf) (hw : (1e-8 : ℝ) < S.widths.getD m 0)
    (hθ : 0 ≤ θ) (hθ' : θ < π / 2) (hh : h + 1e-8 ≠ 0) :
    (S.startPos x y m dir (rA0 h θ φ)).x = x ∧ (S.startPos x y m dir (rA0 h θ φ)).y = y ∧
      -topOf S (m + 1) < (S.startPos x y m dir (rA0 h θ φ)).z ∧ (S.startPos x y m dir (rA0 h θ φ)).z < -topOf S m ∧
      (dir = 1 → (S.startPos x y m dir (rA0 h θ φ)).z = -topOf S m - 1e-8) ∧
      (dir = -1 → (S.startPos x y m dir (rA0 h θ φ)).z = -topOf S (m + 1) + 1e-8) := by
  have hc : 0 < cos θ := cos_pos_of_mem_Ioo ⟨by linarith [pi_pos], hθ'⟩
  have hr : 0 < |h + 1e-8| := abs_pos.mpr hh
  have e := rA0_vec (h := h) (φ := φ) hc
  have hml : m < S.widths.length := by unfold Stack.nSurf at hmn; omega
  have hsum : topOf S (m + 1) = topOf S m + S.widths.getD m 0 := by
    unfold topOf
    rw [List.take_add_one, List.sum_append]
    simp [List.getElem?_eq_getElem hml, List.getD_eq_getElem?_getD]
  have hw' : (1e-8 : ℝ) < topOf S (m + 1) - topOf S m := by rw [hsum]; linarith
  have c1 : S.cum m = topOf S (m + 1) := cum_nat S hml
  have c2 : S.cum ((m : ℤ) - 1) = topOf S m := cum_pred S hm hml
  have hz : (S.startPos x y m dir (rA0 h θ φ)).z = if dir = 1 then -topOf S m - 1e-8 else -topOf S (m + 1) + 1e-8 := by
    simp only [Stack.startPos, Stack.zOffset, c1, c2]
    rcases hd with rfl | rfl
    · rw [if_pos ⟨rfl, by omega⟩]; simp
    · rw [if_neg (by simp), if_neg (by simp)]; simp
  refine ⟨?_, ?_, ?_, ?_, ?_, ?_⟩
  · simp only [Stack.startPos, launchD_eq x y hc hh]
    simp [launchA, e, incoming]
    field_simp
    ring
  · simp only [Stack.startPos, launchD_eq x y hc hh]
    simp [launchA, e, incoming]
    field_simp
    ring
  · rw [hz]; rcases hd with rfl | rfl <;> norm_num at hw' ⊢ <;> linarith
  · rw [hz]; rcases hd with rfl | rfl <;> norm_num at hw' ⊢ <;> linarith
  · rintro rfl; simp [hz]
  · rintro rfl; simp [hz]

/-- **C101 fails for rays that are to start upwards in the transmission medium** (the last medium, whose width is 0): for every
stack they start *above* the last surface, on the wrong side of it. -/
theorem C101_from_below_fails (S : Stack) (h θ φ x y : ℝ) (hn : 1 ≤ S.nSurf) (hlast : S.widths.getD S.nSurf 0 = 0) :
    -topOf S S.nSurf < (S.startPos x y S.nSurf (-1) (rA0 h θ φ)).z := by
  have hml : S.nSurf < S.widths.length := by unfold Stack.nSurf at *; omega
  have hsum : topOf S (S.nSurf + 1) = topOf S S.nSurf + S.widths.getD S.nSurf 0 := by
    unfold topOf
    rw [List.take_add_one, List.sum_append]
    simp [List.getElem?_eq_getElem hml, List.getD_eq_getElem?_getD]
  have c1 : S.cum S.nSurf = topOf S (S.nSurf + 1) := cum_nat S hml
  simp only [Stack.startPos, Stack.zOffset, c1, hsum, hlast]
  norm_num

example : ∃ (S : Stack), 1 < S.nSurf ∧ (1e-8 : ℝ) < S.widths.getD 1 0 ∧ S.widths.getD S.nSurf 0 = 0 ∧ (5 : ℝ) + 1e-8 ≠ 0 ∧ (0.3 : ℝ) < π / 2 :=
  ⟨⟨[0, 100, 0], [0, 1, 0], [], 0⟩, by simp [Stack.nSurf], by norm_num, by simp [Stack.nSurf], by norm_num, by linarith [pi_gt_three]⟩

/-! ## C102 -/

/-- **C102.** With randomised positions the ray is aimed at the random point of the unit cell at the coverage height: the
straight line from the new starting point along the direction of travel passes through it, and the random numbers in [0,1) select a point of the cell;
the direction is left alone unless the ray travels exactly horizontally. -/
theorem C102_aims_into_cell (c : Cell) (d : V3) (dir : ℤ) (u v : ℝ) (hx : 0 < c.Lx) (hy : 0 < c.Ly)
    (hu : 0 ≤ u ∧ u < 1) (hv : 0 ≤ v ∧ v < 1) :
    (∃ t : ℝ, 0 ≤ t ∧ randStart c d dir u v + t • randDir d dir = ⟨u * c.Lx, v * c.Ly, c.zcov⟩) ∧
      0 ≤ u * c.Lx ∧ u * c.Lx < c.Lx ∧ 0 ≤ v * c.Ly ∧ v * c.Ly < c.Ly ∧ (d.z ≠ 0 → randDir d dir = d) := by
  refine ⟨⟨(⌈|(c.zmax - c.zmin + 0.1) / (randDir d dir).z|⌉ : ℤ), ?_, ?_⟩, mul_nonneg hu.1 hx.le, by nlinarith, mul_nonneg hv.1 hy.le, by nlinarith, fun h => by simp [randDir, h]⟩
  · exact_mod_cast Int.ceil_nonneg (abs_nonneg _)
  · unfold randStart
    ext <;> simp

/-- **C102.** … and it starts clear of the surface on the side it comes from: above the highest point if it travels down, below the
lowest point if it travels up, for every surface whose coverage height lies between its lowest and highest point. A horizontal ray is first tilted towards the
side it is said to travel to (`dir = 1` down, `-1` up). -/
theorem C102_starts_clear (c : Cell) (d : V3) (dir : ℤ) (u v : ℝ) (h1 : c.zmin ≤ c.zcov) (h2 : c.zcov ≤ c.zmax) (hdir : dir = 1 ∨ dir = -1) :
    ((randDir d dir).z < 0 → c.zmax < (randStart c d dir u v).z) ∧ (0 < (randDir d dir).z → (randStart c d dir u v).z < c.zmin) ∧
      (randDir d dir).z ≠ 0 ∧ (d.z = 0 → ((randDir d dir).z < 0 ↔ dir = 1)) := by
  have key : ∀ z : ℝ, z ≠ 0 → c.zmax - c.zmin + 0.1 ≤ (⌈|(c.zmax - c.zmin + 0.1) / z|⌉ : ℤ) * |z| := by
    intro z hz
    have hz' : 0 < |z| := abs_pos.mpr hz
    have := Int.le_ceil |(c.zmax - c.zmin + 0.1) / z|
    rw [abs_div, div_le_iff₀ hz'] at this
    rw [abs_div]
    exact (le_abs_self _).trans this
  refine ⟨?_, ?_, ?_, ?_⟩
  · intro hz
    have := key _ hz.ne
    rw [abs_of_neg hz] at this
    have e : (randStart c d dir u v).z = c.zcov - (⌈|(c.zmax - c.zmin + 0.1) / (randDir d dir).z|⌉ : ℤ) * (randDir d dir).z := rfl
    rw [e]; norm_num at this ⊢; linarith
  · intro hz
    have := key _ hz.ne'
    rw [abs_of_pos hz] at this
    have e : (randStart c d dir u v).z = c.zcov - (⌈|(c.zmax - c.zmin + 0.1) / (randDir d dir).z|⌉ : ℤ) * (randDir d dir).z := rfl
    rw [e]; norm_num at this ⊢; linarith
  · unfold randDir
    split
    · rcases hdir with rfl | rfl <;> norm_num
    · assumption
  · intro hz
    rcases hdir with rfl | rfl <;> simp [randDir, hz] <;> norm_num

example : ∃ (c : Cell) (d : V3), 0 < c.Lx ∧ 0 < c.Ly ∧ c.zmin ≤ c.zcov ∧ c.zcov ≤ c.zmax ∧ c.zmin < c.zmax ∧ d.z < 0 :=
  ⟨⟨2, 2, 0, 1, 0⟩, ⟨0, 0.6, -0.8⟩, by norm_num, by norm_num, by norm_num, by norm_num, by norm_num, by norm_num⟩

end Rayflare
