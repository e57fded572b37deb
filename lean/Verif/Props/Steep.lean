import Verif.Spec.Steep
import Verif.Props.FirstMeeting
import Mathlib.Algebra.Order.Round

/-!
# Property C183: light steeper than the slopes of the texture
-/

namespace Rayflare

open Rayflare.Model Rayflare.Spec Rayflare.Lemmas

/-! ## Helper lemmas -/

/-- A ray steeper than the slopes meets the surface at most once. -/
theorem steep_unique {f : ℝ → ℝ → ℝ} {s : ℝ} (hf : SlopeAtMost s f) {r d : V3} (hd : SteeperThan s d) {t t' : ℝ}
    (h : (r + t • d).z = f (r + t • d).x (r + t • d).y) (h' : (r + t' • d).z = f (r + t' • d).x (r + t' • d).y) : t = t' := by
  by_contra hne
  have k := hf (r + t • d).x (r + t • d).y (r + t' • d).x (r + t' • d).y
  rw [← h, ← h'] at k
  simp only [V3.add_x, V3.add_y, V3.add_z, V3.smul_x, V3.smul_y, V3.smul_z] at k
  rw [show r.z + t * d.z - (r.z + t' * d.z) = (t - t') * d.z by ring, show r.x + t * d.x - (r.x + t' * d.x) = (t - t') * d.x by ring,
    show r.y + t * d.y - (r.y + t' * d.y) = (t - t') * d.y by ring, abs_mul, abs_mul, abs_mul, ← mul_max_of_nonneg _ _ (abs_nonneg (t - t'))] at k
  have hpos : 0 < |t - t'| := abs_pos.mpr (sub_ne_zero.mpr hne)
  have := mul_lt_mul_of_pos_left hd hpos
  linarith

/-- Distance to the nearest multiple of the period, in periods. -/
noncomputable def toLattice (L x : ℝ) : ℝ := |x / L - round (x / L)|

theorem toLattice_lip {L : ℝ} (hL : 0 < L) (x x' : ℝ) : |toLattice L x - toLattice L x'| ≤ |x - x'| / L := by
  have key : ∀ a b : ℝ, toLattice L a ≤ |a - b| / L + toLattice L b := by
    intro a b
    calc toLattice L a ≤ |a / L - (round (b / L) : ℤ)| := round_le _ _
      _ = |(a - b) / L + (b / L - round (b / L))| := by congr 1; ring
      _ ≤ |(a - b) / L| + |b / L - round (b / L)| := abs_add_le _ _
      _ = |a - b| / L + toLattice L b := by rw [abs_div, abs_of_pos hL]; rfl
  rw [abs_sub_le_iff]
  have k1 := key x x'
  have k2 := key x' x
  rw [abs_sub_comm x' x] at k2
  constructor <;> linarith

theorem toLattice_shift {L : ℝ} (hL : 0 < L) (x : ℝ) (m : ℤ) : toLattice L (x - m * L) = toLattice L x := by
  unfold toLattice
  rw [show (x - m * L) / L = x / L - m by field_simp, round_sub_intCast]
  push_cast
  congr 1
  ring

theorem toLattice_unit {L a : ℝ} (hL : 0 < L) (h0 : 0 ≤ a) (h1 : a ≤ 1) : toLattice L (a * L) = min a (1 - a) := by
  unfold toLattice
  rw [mul_div_cancel_right₀ _ hL.ne', abs_sub_round_eq_min]
  rcases h1.eq_or_lt with rfl | h
  · simp
  · rw [Int.fract_eq_self.mpr ⟨h0, h⟩]

theorem min_lip (a b a' b' : ℝ) : |min a b - min a' b'| ≤ max |a - a'| |b - b'| := abs_min_sub_min_le_max a b a' b'

/-- The height of regular pyramids of height `h` (negative for inverted ones) and period `L` over any point of the plane. -/
noncomputable def pyramidGraph (h L x y : ℝ) : ℝ := 2 * h * min (toLattice L x) (toLattice L y)

theorem pyramidGraph_slope (h : ℝ) {L : ℝ} (hL : 0 < L) : SlopeAtMost (2 * |h| / L) (pyramidGraph h L) := by
  intro x y x' y'
  unfold pyramidGraph
  rw [← mul_sub, abs_mul, abs_mul, abs_two]
  have k := (min_lip (toLattice L x) (toLattice L y) (toLattice L x') (toLattice L y')).trans (max_le_max (toLattice_lip hL x x') (toLattice_lip hL y y'))
  rw [max_div_div_right hL.le] at k
  calc 2 * |h| * _ ≤ 2 * |h| * (max |x - x'| |y - y'| / L) := mul_le_mul_of_nonneg_left k (by positivity)
    _ = _ := by ring

theorem pyramid_graph (h : ℝ) {L : ℝ} (hL : 0 < L) (upright : Bool) : GraphOf L L (pyramidFacets h L upright) (pyramidGraph (if upright then h else -h) L) := by
  intro τ hτ m n p hp
  have key : ∀ a b c k : ℝ, 0 ≤ a → a ≤ 1 → 0 ≤ b → b ≤ 1 → (fromCell L L m n p).x = a * L → (fromCell L L m n p).y = b * L → (fromCell L L m n p).z = k * c →
      k = 2 * min (min a (1 - a)) (min b (1 - b)) → p.z = 2 * c * min (toLattice L p.x) (toLattice L p.y) := by
    intro a b c k a0 a1 b0 b1 ex ey ez ek
    rw [← toLattice_shift hL p.x m, ← toLattice_shift hL p.y n]
    have ex' : p.x - m * L = a * L := ex
    have ey' : p.y - n * L = b * L := ey
    have ez' : p.z = k * c := ez
    rw [ex', ey', toLattice_unit hL a0 a1, toLattice_unit hL b0 b1, ez', ek]
    ring
  unfold pyramidGraph
  obtain ⟨c, hc⟩ : ∃ c, c = if upright = true then h else -h := ⟨_, rfl⟩
  simp only [pyramidFacets, pyramidPoints, ← hc] at hτ ⊢
  simp only [List.mem_cons, List.not_mem_nil, or_false, List.getD_cons_zero, List.getD_cons_succ] at hτ
  obtain ⟨u, v, hu, hv, huv, e⟩ := hp
  rw [neg_zero] at hu hv
  rcases hτ with rfl | rfl | rfl | rfl
  · refine key (u + v / 2) (v / 2) c v (by linarith) (by linarith) (by linarith) (by linarith) (by rw [e]; simp; ring) (by rw [e]; simp; ring) (by rw [e]; simp) ?_
    rw [min_eq_left (by linarith : v / 2 ≤ 1 - v / 2), min_eq_right (le_min (by linarith) (by linarith))]; ring
  · refine key (1 - v / 2) (u + v / 2) c v (by linarith) (by linarith) (by linarith) (by linarith) (by rw [e]; simp; ring) (by rw [e]; simp; ring) (by rw [e]; simp) ?_
    rw [min_eq_right (by linarith : 1 - (1 - v / 2) ≤ 1 - v / 2), min_eq_left (le_min (by linarith) (by linarith))]; ring
  · refine key (1 - u - v / 2) (1 - v / 2) c v (by linarith) (by linarith) (by linarith) (by linarith) (by rw [e]; simp; ring) (by rw [e]; simp; ring) (by rw [e]; simp) ?_
    rw [min_eq_right (by linarith : 1 - (1 - v / 2) ≤ 1 - v / 2), min_eq_right (le_min (by linarith) (by linarith))]; ring
  · refine key (v / 2) (1 - u - v / 2) c v (by linarith) (by linarith) (by linarith) (by linarith) (by rw [e]; simp; ring) (by rw [e]; simp; ring) (by rw [e]; simp) ?_
    rw [min_eq_left (by linarith : v / 2 ≤ 1 - v / 2), min_eq_left (le_min (by linarith) (by linarith))]; ring

/-! ## C183 -/

/-- **C183, steep light.** A periodic surface without overhangs, with slopes of at most `s`, and light steeper than this slope, from above or below, whatever the reference height. If the ray meets the surface in its unit cell (in a facet, not only within the tolerance of the test beside one), this is the first facet in its way
on the periodically continued surface. Missing: less steep light, for which it is false (`C183_fails`), and rays that miss their unit cell (C132). -/
theorem C183_steep_partial {Lx Ly s : ℝ} {tris : List Tri} {f : ℝ → ℝ → ℝ} (hLx : 0 < Lx) (hLy : 0 < Ly) (hgraph : GraphOf Lx Ly tris f) (hslope : SlopeAtMost s f) {zcov : ℝ} {r d : V3} (hz : d.z ≠ 0)
    (hsteep : SteeperThan s d) {p N : V3} {θ : ℝ} (h : checkIntersect (wrapRay r d Lx Ly zcov) d tris = some (p, θ, N)) (hexact : ∃ τ ∈ tris, InTri 0 τ p) : FirstFacet Lx Ly tris r d p N := by
  obtain ⟨⟨m, n, e1, e2, e3⟩, -⟩ := C47_wrap Lx Ly zcov hLx hLy r d hz
  have hw : wrapRay r d Lx Ly zcov = fromCell Lx Ly m n r := by
    ext
    · exact e1
    · exact e2
    · exact e3
  rw [hw] at h
  obtain ⟨τ, hτ, t, ht, hp, htri, hN, -, -⟩ := C45_sound_nearest _ _ _ _ _ _ h
  rw [fromCell_ray] at hp
  refine ⟨t, ht, ⟨m, n, hp⟩, ⟨τ, hτ, htri, hN⟩, ?_⟩
  rintro u ⟨m', n', -, -, τ', hτ', -, hin'⟩
  obtain ⟨σ, hσ, hin⟩ := hexact
  rw [hp] at hin
  exact (steep_unique hslope hsteep (hgraph σ hσ m n _ hin) (hgraph τ' hτ' m' n' _ hin')).le

/-- **C183, regular pyramids and steep light.** Pyramids, upright or inverted, of any base and height, and light from above or below that is steeper than their facets: the facet that is met is the first in the way of the ray. For upright pyramids and light from above the limit matters: for less steep light the reference height, at the
base, is on the wrong side. -/
theorem C183_pyramids_steep_partial (h L : ℝ) (h0 : 0 ≤ h) (hL : 0 < L) (upright : Bool) (zcov : ℝ) (r d : V3) (hsteep : 2 * h / L * max |d.x| |d.y| < |d.z|) (p N : V3) (θ : ℝ)
    (hc : checkIntersect (wrapRay r d L L zcov) d (pyramidFacets h L upright) = some (p, θ, N)) (hexact : ∃ τ ∈ pyramidFacets h L upright, InTri 0 τ p) : FirstFacet L L (pyramidFacets h L upright) r d p N := by
  have hz : d.z ≠ 0 := by
    intro e
    rw [e, abs_zero] at hsteep
    have : 0 ≤ 2 * h / L * max |d.x| |d.y| := mul_nonneg (by positivity) (le_max_of_le_left (abs_nonneg _))
    linarith
  refine C183_steep_partial hL hL (pyramid_graph h hL upright) (pyramidGraph_slope _ hL) hz ?_ hc hexact
  have : |if upright = true then h else -h| = h := by cases upright <;> simp [abs_of_nonneg h0]
  unfold SteeperThan
  rw [this]
  exact hsteep

/-- The facets of upright pyramids of 45 degrees and base 1. -/
theorem pyramidFacets_unit : pyramidFacets (1 / 2) 1 true = [⟨⟨0, 0, 0⟩, ⟨1, 0, 0⟩, ⟨1 / 2, 1 / 2, 1 / 2⟩⟩, ⟨⟨1, 0, 0⟩, ⟨1, 1, 0⟩, ⟨1 / 2, 1 / 2, 1 / 2⟩⟩,
    ⟨⟨1, 1, 0⟩, ⟨0, 1, 0⟩, ⟨1 / 2, 1 / 2, 1 / 2⟩⟩, ⟨⟨0, 1, 0⟩, ⟨0, 0, 0⟩, ⟨1 / 2, 1 / 2, 1 / 2⟩⟩] := by
  simp [pyramidFacets, pyramidPoints]

/-- Light 37 degrees from the vertical on upright pyramids of 45 degrees: the hypotheses of `C183_pyramids_steep_partial` are met. -/
example : ∃ p N, FirstFacet 1 1 (pyramidFacets (1 / 2) 1 true) ⟨1 / 2, 1 / 4 - 3 / 4, 1 + 1 / 4⟩ ⟨0, 3 / 5, -(4 / 5)⟩ p N := by
  obtain ⟨r, hr⟩ : ∃ r : V3, r = ⟨1 / 2, 1 / 4 - 3 / 4, 1 + 1 / 4⟩ := ⟨_, rfl⟩
  obtain ⟨d, hd⟩ : ∃ d : V3, d = ⟨0, 3 / 5, -(4 / 5)⟩ := ⟨_, rfl⟩
  obtain ⟨τ, hτd⟩ : ∃ τ : Tri, τ = ⟨⟨0, 0, 0⟩, ⟨1, 0, 0⟩, ⟨1 / 2, 1 / 2, 1 / 2⟩⟩ := ⟨_, rfl⟩
  have hτ : τ ∈ pyramidFacets (1 / 2) 1 true := by rw [pyramidFacets_unit, hτd]; simp
  have hwrap : wrapRay r d 1 1 0 = r := by
    have f1 : ⌊((1 : ℝ) / 2 + 0 * (0 - (1 + 1 / 4)) / -(4 / 5)) / 1⌋ = 0 := by rw [Int.floor_eq_iff]; norm_num
    have f2 : ⌊((1 : ℝ) / 4 - 3 / 4 + 3 / 5 * (0 - (1 + 1 / 4)) / -(4 / 5)) / 1⌋ = 0 := by rw [Int.floor_eq_iff]; norm_num
    subst hr hd
    ext
    · simp only [wrapRay, f1]; norm_num
    · simp only [wrapRay, f2]; norm_num
    · simp [wrapRay]
  have hin : InTri 0 τ (r + (5 / 4 : ℝ) • d) := by
    refine ⟨1 / 4, 1 / 2, by norm_num, by norm_num, by norm_num, ?_⟩
    subst hr hd hτd
    ext <;> norm_num
  obtain ⟨hhit, htt⟩ := hit_of_inTri (by subst hτd hd; norm_num [Parallel, V3.cross, V3.dot]) (by norm_num) hin
  obtain ⟨p, θ, N, hc⟩ := checkIntersect_isSome hτ hhit
  obtain ⟨σ, hσ, hhit', hp, -, -, hmin⟩ := checkIntersect_some hc
  have ht : σ.t r d = 5 / 4 := by
    refine le_antisymm ((hmin τ hτ hhit).trans htt.le) ?_
    rw [pyramidFacets_unit] at hσ
    simp only [List.mem_cons, List.not_mem_nil, or_false] at hσ
    subst hr hd
    rcases hσ with rfl | rfl | rfl | rfl
    · norm_num [Tri.t, Tri.det, Tri.crossP, V3.cross, V3.dot]
    · norm_num [Tri.hit, Tri.t, Tri.u, Tri.v, Tri.det, Tri.crossP, V3.cross, V3.dot] at hhit'
    · norm_num [Tri.hit, Tri.t, Tri.u, Tri.v, Tri.det, Tri.crossP, V3.cross, V3.dot] at hhit'
    · norm_num [Tri.hit, Tri.t, Tri.u, Tri.v, Tri.det, Tri.crossP, V3.cross, V3.dot] at hhit'
  refine ⟨p, N, ?_⟩
  rw [← hr, ← hd]
  refine C183_pyramids_steep_partial (1 / 2) 1 (by norm_num) one_pos true 0 r d (by subst hd; norm_num [abs_of_nonneg]) p N θ (by rw [hwrap]; exact hc) ⟨τ, hτ, ?_⟩
  rw [hp, ht]
  exact hin

/-- **C183 is violated for upright pyramids too** (45 degrees, base 1), light from above, 53 degrees from the vertical, in the plane through the tips: rays that cross the base in the first sixth of a period meet, in the program, the first facet of the pyramid at height 3/7 of this distance, although the pyramid before is in their way. -/
theorem C183_pyramids_fails (y : ℝ) (h0 : 0 < y) (h1 : y < 1 / 6) : let r : V3 := ⟨1 / 2, y - 8 / 5, 6 / 5⟩
    zcovGuess (pyramidPoints (1 / 2) 1 true) = some 0 ∧ (r + (2 : ℝ) • slanted).z = 0 ∧ (r + (2 : ℝ) • slanted).y = y ∧
    (∃ p N, p.z = 3 / 7 * y ∧ (∀ (d0 : V3) (w : Draw) (ws : List Draw) (n : ℕ), w.tris = pyramidFacets (1 / 2) 1 true → MeetsNext 1 1 d0 (w :: ws) (sicStart (wrapRay r slanted 1 1 0) slanted 1 n) p N) ∧
      ¬ FirstFacet 1 1 (pyramidFacets (1 / 2) 1 true) r slanted p N) ∧
    ∃ t, MeetsIn 1 1 (pyramidFacets (1 / 2) 1 true) r slanted t 0 (-1) ∧ t < 2 - 5 / 7 * y := by
  intro r
  have hmeet : MeetsIn 1 1 (pyramidFacets (1 / 2) 1 true) r slanted (6 / 5 * (5 / 3) - (3 * y + 3) / 7 * (5 / 3)) 0 (-1) := by
    refine ⟨by linarith, ?_, ⟨⟨0, 0, 0⟩, ⟨1, 0, 0⟩, ⟨1 / 2, 1 / 2, 1 / 2⟩⟩, by rw [pyramidFacets_unit]; simp, ?_, ?_⟩
    · simp only [WellInside, fromCell, r, slanted, V3.add_x, V3.add_y, V3.add_z, V3.smul_x, V3.smul_y, V3.smul_z]
      push_cast
      refine ⟨by norm_num, by norm_num, by norm_num; linarith, by norm_num; linarith⟩
    · norm_num [Parallel, V3.cross, V3.dot, slanted]
    · refine ⟨1 / 2 - (3 * y + 3) / 7, 2 * ((3 * y + 3) / 7), by linarith, by linarith, by linarith, ?_⟩
      ext
      · simp [fromCell, r, slanted]; ring
      · simp [fromCell, r, slanted]; ring
      · simp [fromCell, r, slanted]; ring
  have hwrap : wrapRay r slanted 1 1 0 = r := by
    have f1 : ⌊((1 : ℝ) / 2 + 0 * (0 - 6 / 5) / -(3 / 5)) / 1⌋ = 0 := by rw [Int.floor_eq_iff]; norm_num
    have f2 : ⌊(y - 8 / 5 + 4 / 5 * (0 - 6 / 5) / -(3 / 5)) / 1⌋ = 0 := by
      rw [Int.floor_eq_iff]; constructor <;> norm_num <;> linarith
    ext
    · simp only [wrapRay, r, slanted, f1]; norm_num
    · simp only [wrapRay, r, slanted, f2]; norm_num
    · simp [wrapRay]
  obtain ⟨τ, hτd⟩ : ∃ τ : Tri, τ = ⟨⟨0, 0, 0⟩, ⟨1, 0, 0⟩, ⟨1 / 2, 1 / 2, 1 / 2⟩⟩ := ⟨_, rfl⟩
  have hτ : τ ∈ pyramidFacets (1 / 2) 1 true := by rw [pyramidFacets_unit, hτd]; simp
  have hin : InTri 0 τ (r + (2 - 5 / 7 * y) • slanted) := by
    refine ⟨1 / 2 - 3 / 7 * y, 6 / 7 * y, by linarith, by linarith, by linarith, ?_⟩
    subst hτd
    ext
    · simp [r, slanted]; ring
    · simp [r, slanted]; ring
    · simp [r, slanted]; ring
  obtain ⟨hhit, htt⟩ := hit_of_inTri (by subst hτd; norm_num [Parallel, V3.cross, V3.dot, slanted]) (by linarith) hin
  obtain ⟨p, θ, N, hc⟩ := checkIntersect_isSome hτ hhit
  obtain ⟨σ, hσ, hhit', hp, -, -, hmin⟩ := checkIntersect_some hc
  have ht : σ.t r slanted = 2 - 5 / 7 * y := by
    refine le_antisymm ((hmin τ hτ hhit).trans htt.le) ?_
    rw [pyramidFacets_unit] at hσ
    simp only [List.mem_cons, List.not_mem_nil, or_false] at hσ
    rcases hσ with rfl | rfl | rfl | rfl
    · rw [← hτd]; exact htt.ge
    · exfalso
      simp only [Tri.hit, decide_eq_true_eq] at hhit'
      have := hhit'.2.2.1.1
      norm_num [Tri.u, Tri.det, Tri.crossP, V3.cross, V3.dot, r, slanted] at this
      linarith
    · have : Tri.t ⟨⟨1, 1, 0⟩, ⟨0, 1, 0⟩, ⟨1 / 2, 1 / 2, 1 / 2⟩⟩ r slanted = 7 - 5 * y := by
        norm_num [Tri.t, Tri.det, Tri.crossP, V3.cross, V3.dot, r, slanted]
        ring
      linarith
    · exfalso
      simp only [Tri.hit, decide_eq_true_eq] at hhit'
      have := hhit'.2.1
      norm_num [Tri.u, Tri.v, Tri.det, Tri.crossP, V3.cross, V3.dot, r, slanted] at this
      linarith
  rw [ht] at hp
  have hpz : p.z = 3 / 7 * y := by rw [hp]; simp [r, slanted]; ring
  refine ⟨(C183_pyramids_partial (1 / 2) 1 (by norm_num) one_pos true).1, by simp [r, slanted]; norm_num, by simp [r, slanted]; ring, ⟨p, N, hpz, ?_, ?_⟩, _, hmeet, by linarith⟩
  · intro d0 w ws n hw
    exact ⟨[], w, ws, _, θ, rfl, rfl, rfl, by rw [hw]; simp only [sicStart]; rw [hwrap]; exact hc⟩
  · rintro ⟨t, -, ⟨m, n, hpt⟩, -, hfirst⟩
    have hle := hfirst _ ⟨_, _, hmeet⟩
    have hz := congrArg V3.z hpt
    rw [hpz] at hz
    simp only [fromCell, r, slanted, V3.add_z, V3.smul_z] at hz
    linarith

end Rayflare
