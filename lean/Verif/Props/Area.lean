import Verif.Model.Area
import Verif.Lemmas.Fresnel
import Verif.Lemmas.Absorption
import Mathlib.Tactic.Linarith
import Mathlib.Tactic.NormNum

/-!
# Property C113: the surface area reported for a texture
-/

namespace Rayflare

open Rayflare.Model Rayflare.Lemmas

/-- Area of a triangle: half the length of the vector product of two of its edges. -/
noncomputable def Spec.triArea (τ : Tri) : ℝ := 1 / 2 * V3.norm (V3.cross (τ.P1 - τ.P0) (τ.P2 - τ.P0))

/-- Developed area relative to the area of the unit cell. -/
noncomputable def Spec.relArea (tris : List Tri) (Lx Ly : ℝ) : ℝ := (tris.map Spec.triArea).sum / (Lx * Ly)

theorem lagrange (a b : V3) : V3.dot (V3.cross a b) (V3.cross a b) = V3.dot a a * V3.dot b b - V3.dot a b ^ 2 := by
  unfold V3.dot V3.cross; ring

theorem cross_corner (τ : Tri) : V3.dot (V3.cross (τ.P1 - τ.P0) (τ.P2 - τ.P0)) (V3.cross (τ.P1 - τ.P0) (τ.P2 - τ.P0)) =
    V3.dot (V3.cross (τ.P0 - τ.P1) (τ.P2 - τ.P1)) (V3.cross (τ.P0 - τ.P1) (τ.P2 - τ.P1)) := by
  unfold V3.dot V3.cross
  simp only [V3.sub_x, V3.sub_y, V3.sub_z]
  ring

/-- The facet has a right angle at its second corner, or both its edges there have length 1. -/
def Spec.SpecialFacet (τ : Tri) : Prop :=
  V3.dot (τ.P0 - τ.P1) (τ.P2 - τ.P1) = 0 ∨ (V3.norm (τ.P0 - τ.P1) = 1 ∧ V3.norm (τ.P2 - τ.P1) = 1)

theorem areaTerm_special (τ : Tri) (h : Spec.SpecialFacet τ) : τ.areaTerm = some (Spec.triArea τ) := by
  set a := τ.P0 - τ.P1 with ha
  set b := τ.P2 - τ.P1 with hb
  have hc : V3.norm (V3.cross (τ.P1 - τ.P0) (τ.P2 - τ.P0)) = Real.sqrt (V3.dot a a * V3.dot b b - V3.dot a b ^ 2) := by
    unfold V3.norm
    rw [cross_corner, lagrange]
  have hcos : τ.cosTheta = V3.dot a b := rfl
  unfold Tri.areaTerm Spec.triArea
  rw [hc, hcos]
  rcases h with h | ⟨h1, h2⟩
  · rw [h]
    rw [if_pos (by simp)]
    simp only [Real.arccos_zero, Real.sin_pi_div_two, mul_one]
    have e : V3.dot a a * V3.dot b b - 0 ^ 2 = (V3.norm a * V3.norm b) ^ 2 := by
      rw [mul_pow, norm_sq, norm_sq]; ring
    rw [e, Real.sqrt_sq (mul_nonneg (norm_nonneg' _) (norm_nonneg' _))]
    congr 1
    ring
  · have d1 := (norm_one_iff a).mp h1
    have d2 := (norm_one_iff b).mp h2
    have hnn : 0 ≤ V3.dot (V3.cross a b) (V3.cross a b) := by rw [← norm_sq]; positivity
    rw [lagrange, d1, d2] at hnn
    have hle : |V3.dot a b| ≤ 1 := abs_le_one_iff_mul_self_le_one.mpr (by nlinarith)
    rw [if_pos hle, ← ha, ← hb, h1, h2, Real.sin_arccos, d1, d2]
    norm_num

/-- **C113 (partial).** `find_area` is right if every facet has, at its second corner, a right angle or two edges of length 1. Missing: all other surfaces, where it is wrong or NaN (`C113_area_fails`). -/
theorem C113_area_partial (tris : List Tri) (Lx Ly : ℝ) (h : ∀ τ ∈ tris, Spec.SpecialFacet τ) : findArea tris Lx Ly = some (Spec.relArea tris Lx Ly) := by
  unfold findArea Spec.relArea
  rw [mapM_eq_some Tri.areaTerm Spec.triArea tris fun τ hτ => areaTerm_special τ (h τ hτ)]
  rfl

/-- The two halves of a square of side `s`; the order of the corners is up to the triangulation: `good` has the right angle second, `bad` has it first. -/
def squareGood (s : ℝ) : List Tri := [⟨⟨0, 0, 0⟩, ⟨s, 0, 0⟩, ⟨s, s, 0⟩⟩, ⟨⟨0, 0, 0⟩, ⟨0, s, 0⟩, ⟨s, s, 0⟩⟩]
def squareBad (s : ℝ) : List Tri := [⟨⟨s, 0, 0⟩, ⟨s, s, 0⟩, ⟨0, 0, 0⟩⟩, ⟨⟨0, s, 0⟩, ⟨0, 0, 0⟩, ⟨s, s, 0⟩⟩]

example : findArea (squareGood 3) 3 3 = some (Spec.relArea (squareGood 3) 3 3) :=
  C113_area_partial _ _ _ (by
    intro τ hτ
    left
    simp only [squareGood, List.mem_cons, List.not_mem_nil, or_false] at hτ
    rcases hτ with rfl | rfl <;> norm_num [V3.dot])

theorem relArea_square (s : ℝ) (hs : 0 < s) : Spec.relArea (squareBad s) s s = 1 := by
  have h1 : Spec.triArea ⟨⟨s, 0, 0⟩, ⟨s, s, 0⟩, ⟨0, 0, 0⟩⟩ = s ^ 2 / 2 := by
    unfold Spec.triArea V3.norm
    have : V3.dot (V3.cross ((⟨s, s, 0⟩ : V3) - ⟨s, 0, 0⟩) ((⟨0, 0, 0⟩ : V3) - ⟨s, 0, 0⟩)) (V3.cross ((⟨s, s, 0⟩ : V3) - ⟨s, 0, 0⟩) ((⟨0, 0, 0⟩ : V3) - ⟨s, 0, 0⟩)) = (s ^ 2) ^ 2 := by
      simp only [V3.dot, V3.cross, V3.sub_x, V3.sub_y, V3.sub_z]; ring
    rw [this, Real.sqrt_sq (by positivity)]
    ring
  have h2 : Spec.triArea ⟨⟨0, s, 0⟩, ⟨0, 0, 0⟩, ⟨s, s, 0⟩⟩ = s ^ 2 / 2 := by
    unfold Spec.triArea V3.norm
    have : V3.dot (V3.cross ((⟨0, 0, 0⟩ : V3) - ⟨0, s, 0⟩) ((⟨s, s, 0⟩ : V3) - ⟨0, s, 0⟩)) (V3.cross ((⟨0, 0, 0⟩ : V3) - ⟨0, s, 0⟩) ((⟨s, s, 0⟩ : V3) - ⟨0, s, 0⟩)) = (s ^ 2) ^ 2 := by
      simp only [V3.dot, V3.cross, V3.sub_x, V3.sub_y, V3.sub_z]; ring
    rw [this, Real.sqrt_sq (by positivity)]
    ring
  unfold Spec.relArea squareBad
  simp only [List.map_cons, List.map_nil, List.sum_cons, List.sum_nil, h1, h2]
  rw [div_eq_one_iff_eq (by positivity)]
  ring

/-- **C113 fails.** The flat unit square, whose relative area is 1, is reported with area 0, and flat squares larger than 1 with NaN, if the triangulation does not list the corner with the right angle second: the scalar product of the edges is not divided by their
lengths. -/
theorem C113_area_fails :
    (findArea (squareBad 1) 1 1 = some 0 ∧ Spec.relArea (squareBad 1) 1 1 = 1) ∧
    (∀ s : ℝ, 1 < s → findArea (squareBad s) s s = none ∧ Spec.relArea (squareBad s) s s = 1) := by
  have hc1 : ∀ s, Tri.cosTheta ⟨⟨s, 0, 0⟩, ⟨s, s, 0⟩, ⟨0, 0, 0⟩⟩ = s ^ 2 := by
    intro s; simp only [Tri.cosTheta, V3.dot, V3.sub_x, V3.sub_y, V3.sub_z]; ring
  have hc2 : ∀ s, Tri.cosTheta ⟨⟨0, s, 0⟩, ⟨0, 0, 0⟩, ⟨s, s, 0⟩⟩ = s ^ 2 := by
    intro s; simp only [Tri.cosTheta, V3.dot, V3.sub_x, V3.sub_y, V3.sub_z]; ring
  refine ⟨⟨?_, relArea_square 1 one_pos⟩, fun s hs => ⟨?_, relArea_square s (by linarith)⟩⟩
  · unfold findArea squareBad
    rw [mapM_eq_some Tri.areaTerm (fun _ => 0)]
    · simp
    · intro τ hτ
      simp only [List.mem_cons, List.not_mem_nil, or_false] at hτ
      rcases hτ with rfl | rfl
      · unfold Tri.areaTerm; rw [hc1]; simp
      · unfold Tri.areaTerm; rw [hc2]; simp
  · unfold findArea squareBad
    have : Tri.areaTerm ⟨⟨s, 0, 0⟩, ⟨s, s, 0⟩, ⟨0, 0, 0⟩⟩ = none := by
      unfold Tri.areaTerm
      rw [hc1, if_neg]
      rw [abs_of_nonneg (by positivity)]
      nlinarith
    rw [List.mapM_cons, this]
    rfl

end Rayflare
