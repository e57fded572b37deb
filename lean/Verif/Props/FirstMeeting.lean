import Verif.Props.Supercell

/-!
# Property C183: a ray that arrives at a texture meets the first facet in its way
-/

namespace Rayflare

open Rayflare.Model Rayflare.Spec Rayflare.Lemmas

variable {Lx Ly lo hi : ℝ} {tris : List Tri}

/-! ## C183 -/

/-- **C183, what holds.** The reference height of a periodic surface (at which the ray is put into the unit cell) lies on the side from which the ray comes, not below its highest point for light from above and not above its lowest point for light from below, and the ray starts
on this side of it. If the ray meets the surface in its unit cell, the facet it meets is the first in its way on the periodically continued surface. Missing: textures with another reference height, such as upright pyramids and grooves, where the claim is false (`C183_fails`), and rays that miss their unit cell (C132). -/
theorem C183_first_partial (hLx : 0 < Lx) (hLy : 0 < Ly) (hover : OverCell Lx Ly lo hi tris) {zcov : ℝ} {side : ℤ} {r d : V3}
    (hside : side = 1 ∧ d.z < 0 ∧ hi ≤ zcov ∧ zcov ≤ r.z ∨ side = -1 ∧ 0 < d.z ∧ zcov ≤ lo ∧ r.z ≤ zcov)
    {p N : V3} {θ : ℝ} (h : checkIntersect (wrapRay r d Lx Ly zcov) d tris = some (p, θ, N)) : FirstFacet Lx Ly tris r d p N := by
  have hd : d.z ≠ 0 := by rcases hside with h | h <;> [exact h.2.1.ne; exact h.2.1.ne']
  obtain ⟨⟨m, n, e1, e2, e3⟩, hcross⟩ := C47_wrap Lx Ly zcov hLx hLy r d hd
  have hw : wrapRay r d Lx Ly zcov = fromCell Lx Ly m n r := by
    ext
    · exact e1
    · exact e2
    · exact e3
  rw [hw] at h hcross
  obtain ⟨τ, hτ, t, ht, hp, htri, hN, -, hnear⟩ := C45_sound_nearest _ _ _ _ _ _ h
  rw [fromCell_ray] at hp
  refine ⟨t, ht, ⟨m, n, hp⟩, ⟨τ, hτ, htri, hN⟩, ?_⟩
  rintro u ⟨m', n', hm⟩
  by_contra hlt
  push Not at hlt
  -- the reference height is crossed in the cell `(m, n)`
  obtain ⟨T, hTd⟩ : ∃ T, T = (zcov - r.z) / d.z := ⟨_, rfl⟩
  have hTz : r.z + T * d.z = zcov := by rw [hTd, div_mul_cancel₀ _ hd]; ring
  have hT := hcross T (by simp only [fromCell, V3.add_z, V3.smul_z]; exact hTz)
  have hTu : T ≤ u := by
    obtain ⟨-, -, τ', hτ', -, hin'⟩ := hm
    obtain ⟨g1, g2⟩ := InTri.height hover hτ' hin'
    simp only [fromCell, V3.add_z, V3.smul_z] at g1 g2
    rcases hside with ⟨-, h1, h2, -⟩ | ⟨-, h1, h2, -⟩
    · by_contra hlt'
      push Not at hlt'
      have := mul_lt_mul_of_neg_right hlt' h1
      linarith
    · by_contra hlt'
      push Not at hlt'
      have := mul_lt_mul_of_pos_right hlt' h1
      linarith
  have hcellT : InCell Lx Ly (fromCell Lx Ly m n (r + T • d)) := by
    rw [← fromCell_ray]
    exact ⟨hT.1, hT.2.1.le, hT.2.2.1, hT.2.2.2.le⟩
  have hnear' := nearly_between (m := m) (n := n) (r := r) (d := d) hTu hlt.le (InCell.nearly hLx hLy hcellT) (by rw [← hp]; exact InTri.nearly hover hτ htri)
  obtain ⟨rfl, rfl⟩ := cell_unique hLx hLy hm.2.1 hnear'
  obtain ⟨hu0, -, τ', hτ', hpar, hin'⟩ := hm
  have := hnear τ' hτ' hpar u hu0 (by rw [fromCell_ray]; exact hin')
  linarith

/-- The points of a surface of regular pyramids. -/
theorem pyramid_over (h L : ℝ) (h0 : 0 ≤ h) (hL : 0 ≤ L) (upright : Bool) : OverCell L L (if upright then 0 else -h) (if upright then h else 0) (pyramidFacets h L upright) := by
  intro τ hτ p hp
  have hpt : p ∈ pyramidPoints h L upright := by
    simp only [pyramidFacets, pyramidPoints, List.mem_cons, List.not_mem_nil, or_false] at hτ ⊢
    rcases hτ with rfl | rfl | rfl | rfl <;> simp at hp <;> rcases hp with rfl | rfl | rfl <;> simp
  simp only [pyramidPoints, List.mem_cons, List.not_mem_nil, or_false] at hpt
  rcases hpt with rfl | rfl | rfl | rfl | rfl <;> cases upright <;> refine ⟨⟨?_, ?_, ?_, ?_⟩, ?_, ?_⟩ <;> simp only [if_true, Bool.false_eq_true, if_false] <;> linarith

/-- **C183, regular pyramids.** The reference height of `regular_pyramids` is the height of the base. So light from above on inverted pyramids, and light from below on upright ones, of any base and height, meets the first facet in its way. -/
theorem C183_pyramids_partial (h L : ℝ) (h0 : 0 ≤ h) (hL : 0 < L) (upright : Bool) : zcovGuess (pyramidPoints h L upright) = some 0 ∧
    ∀ (side : ℤ) (r d : V3), (side = 1 ∧ d.z < 0 ∧ upright = false ∧ 0 ≤ r.z ∨ side = -1 ∧ 0 < d.z ∧ upright = true ∧ r.z ≤ 0) →
      ∀ p θ N, checkIntersect (wrapRay r d L L 0) d (pyramidFacets h L upright) = some (p, θ, N) → FirstFacet L L (pyramidFacets h L upright) r d p N := by
  constructor
  · have hm : pyMin [0, L / 2, L, 0, L] = 0 := by simp [pyMin, hL.le, show (0 : ℝ) ≤ L / 2 by linarith]
    have hm' : pyMin [0, L / 2, 0, L, L] = 0 := by simp [pyMin, hL.le, show (0 : ℝ) ≤ L / 2 by linarith]
    simp [zcovGuess, pyramidPoints, hm, hm']
  · intro side r d hside p θ N hc
    refine C183_first_partial (side := side) hL hL (pyramid_over h L h0 hL.le upright) ?_ hc
    rcases hside with ⟨a, b, rfl, e⟩ | ⟨a, b, rfl, e⟩
    · exact Or.inl ⟨a, b, by simp, e⟩
    · exact Or.inr ⟨a, b, by simp, e⟩

/-- A ray from below on the V-groove texture meets the first facet in its way. -/
example : ∃ p N, FirstFacet 1 1 vGroove ⟨1 / 2, -(13 / 20), -1⟩ ⟨0, 3 / 5, 4 / 5⟩ p N := by
  have hwrap : wrapRay ⟨1 / 2, -(13 / 20), -1⟩ ⟨0, 3 / 5, 4 / 5⟩ 1 1 0 = ⟨1 / 2, -(13 / 20), -1⟩ := by
    have f1 : ⌊((1 : ℝ) / 2 + 0 * (0 - -1) / (4 / 5)) / 1⌋ = 0 := by rw [Int.floor_eq_iff]; norm_num
    have f2 : ⌊(-(13 / 20) + (3 : ℝ) / 5 * (0 - -1) / (4 / 5)) / 1⌋ = 0 := by rw [Int.floor_eq_iff]; norm_num
    ext
    · simp only [wrapRay, f1]; norm_num
    · simp only [wrapRay, f2]; norm_num
    · simp [wrapRay]
  have hhit : vg2.hit ⟨1 / 2, -(13 / 20), -1⟩ ⟨0, 3 / 5, 4 / 5⟩ = true := by
    norm_num [Tri.hit, Tri.t, Tri.u, Tri.v, Tri.det, Tri.crossP, V3.cross, V3.dot, vg2]
  obtain ⟨p, θ, N, hc⟩ := checkIntersect_isSome (tris := vGroove) (by rw [vGroove_eq]; simp) hhit
  exact ⟨p, N, C183_first_partial (zcov := 0) (side := -1) one_pos one_pos vGroove_over (Or.inr ⟨rfl, by norm_num, le_rfl, by norm_num⟩) (by rw [hwrap]; exact hc)⟩

/-- The direction of the light in `C183_fails`: 53 degrees from the vertical, across the grooves. -/
noncomputable def slanted : V3 := ⟨0, 4 / 5, -(3 / 5)⟩

/-- **C183 is violated.** The front surface of the V-groove texture (45 degrees, period 1; its reference height is the bottom of the grooves), light from above, 53 degrees from the vertical. The rays that cross the bottom of the grooves in the first sixth of a period meet the surface, in the program, low in the groove, at height 3/7 of this distance.
But there they are in the shade: in the period before they pass through a ridge, whose facet is the first in their way. -/
theorem C183_fails (y : ℝ) (h0 : 0 < y) (h1 : y < 1 / 6) : let r : V3 := ⟨1 / 2, y - 8 / 5, 6 / 5⟩
    zcovGuess (groovePoints 45 1 .alongX) = some 0 ∧ OverCell 1 1 0 (1 / 2) vGroove ∧ (r + (2 : ℝ) • slanted).z = 0 ∧ (r + (2 : ℝ) • slanted).y = y ∧
    (∃ p N, p.z = 3 / 7 * y ∧ (∀ (d0 : V3) (w : Draw) (ws : List Draw) (n : ℕ), w.tris = vGroove → MeetsNext 1 1 d0 (w :: ws) (sicStart (wrapRay r slanted 1 1 0) slanted 1 n) p N) ∧ ¬ FirstFacet 1 1 vGroove r slanted p N) ∧
    ∃ t, MeetsIn 1 1 vGroove r slanted t 0 (-1) ∧ t < 2 - 5 / 7 * y := by
  intro r
  have hmeet : MeetsIn 1 1 vGroove r slanted (6 / 5 * (5 / 3) - (3 * y + 3) / 7 * (5 / 3)) 0 (-1) := by
    refine ⟨by linarith, ?_, vg2, by rw [vGroove_eq]; simp, ?_, ?_⟩
    · simp only [WellInside, fromCell, r, slanted, V3.add_x, V3.add_y, V3.add_z, V3.smul_x, V3.smul_y, V3.smul_z]
      push_cast
      refine ⟨by norm_num, by norm_num, by norm_num; linarith, by norm_num; linarith⟩
    · norm_num [Parallel, V3.cross, V3.dot, vg2, slanted]
    · refine ⟨1 / 2, 2 * ((3 * y + 3) / 7) - 1 / 2, by norm_num, by linarith, by linarith, ?_⟩
      ext
      · simp [fromCell, r, slanted, vg2]
      · simp [fromCell, r, slanted, vg2]; ring
      · simp [fromCell, r, slanted, vg2]; ring
  have hwrap : wrapRay r slanted 1 1 0 = r := by
    have f1 : ⌊((1 : ℝ) / 2 + 0 * (0 - 6 / 5) / -(3 / 5)) / 1⌋ = 0 := by rw [Int.floor_eq_iff]; norm_num
    have f2 : ⌊(y - 8 / 5 + 4 / 5 * (0 - 6 / 5) / -(3 / 5)) / 1⌋ = 0 := by
      rw [Int.floor_eq_iff]; constructor <;> norm_num <;> linarith
    ext
    · simp only [wrapRay, r, slanted, f1]; norm_num
    · simp only [wrapRay, r, slanted, f2]; norm_num
    · simp [wrapRay]
  have hin : InTri 0 (if y ≤ 7 / 12 then vg1 else vg2) (r + (2 - 5 / 7 * y) • slanted) := by
    rw [if_pos (by linarith)]
    refine ⟨1 / 2 - 6 / 7 * y, 6 / 7 * y, by linarith, by linarith, by linarith, ?_⟩
    ext
    · simp [r, slanted, vg1]
    · simp [r, slanted, vg1]; ring
    · simp [r, slanted, vg1]; ring
  rw [if_pos (by linarith)] at hin
  have hpar : ¬ Parallel vg1 slanted := by norm_num [Parallel, V3.cross, V3.dot, vg1, slanted]
  obtain ⟨hhit, htt⟩ := hit_of_inTri hpar (by linarith) hin
  obtain ⟨p, θ, N, hc⟩ := checkIntersect_isSome (tris := vGroove) (by rw [vGroove_eq]; simp) hhit
  obtain ⟨τ, hτ, hhit', hp, -, -, hmin⟩ := checkIntersect_some hc
  have ht : τ.t r slanted = 2 - 5 / 7 * y := by
    refine le_antisymm ((hmin vg1 (by rw [vGroove_eq]; simp) hhit).trans htt.le) ?_
    rw [vGroove_eq] at hτ
    simp only [List.mem_cons, List.not_mem_nil, or_false] at hτ
    rcases hτ with rfl | rfl | rfl | rfl
    · exact htt.ge
    · refine le_of_eq ?_
      norm_num [Tri.t, Tri.det, Tri.crossP, V3.cross, V3.dot, vg2, r, slanted]
      ring
    · have : vg3.t r slanted = 7 - 5 * y := by
        norm_num [Tri.t, Tri.det, Tri.crossP, V3.cross, V3.dot, vg3, r, slanted]
        ring
      linarith
    · have : vg4.t r slanted = 7 - 5 * y := by
        norm_num [Tri.t, Tri.det, Tri.crossP, V3.cross, V3.dot, vg4, r, slanted]
        ring
      linarith
  rw [ht] at hp
  have hpz : p.z = 3 / 7 * y := by rw [hp]; simp [r, slanted]; ring
  refine ⟨?_, vGroove_over, by simp [r, slanted]; norm_num, by simp [r, slanted]; ring, ⟨p, N, hpz, ?_, ?_⟩, _, hmeet, by linarith⟩
  · norm_num [zcovGuess, groovePoints, pyMin]
  · intro d0 w ws n hw
    exact ⟨[], w, ws, _, θ, rfl, rfl, rfl, by rw [hw]; simp only [sicStart]; rw [hwrap]; exact hc⟩
  · rintro ⟨t, -, ⟨m, n, hpt⟩, -, hfirst⟩
    have hle := hfirst _ ⟨_, _, hmeet⟩
    have hz := congrArg V3.z hpt
    rw [hpz] at hz
    simp only [fromCell, r, slanted, V3.add_z, V3.smul_z] at hz
    linarith

end Rayflare
