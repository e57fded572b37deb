import Verif.Props.Geometry

/-!
# Concrete runs of the surface interaction, and property C78 (non-periodic surfaces)
-/

namespace Rayflare

open Rayflare.Model Rayflare.Spec Rayflare.Lemmas

theorem decideR_nonneg (n0 n1 : ℂ) (θ : ℝ) (θt : ℂ) (pol : Pol) : 0 ≤ decideR n0 n1 θ θt pol := by
  unfold decideR
  split_ifs
  · norm_num
  · cases pol <;> simp only [calcR, fresnelRs, fresnelRp] <;> positivity

/-- With the random number 0 the Fresnel decision is always a reflection. -/
theorem fresnelDec_zero (nA nB : ℂ) (arc : ℤ → ℝ → ℂ) (pol : Pol) (θ : ℝ) (d N : V3) (side : ℤ) :
    fresnelDec nA nB arc pol 0 θ d N side = (normalise (reflectDir d N), side, none) := by
  unfold fresnelDec decideFresnel
  simp only
  rw [if_pos (decideR_nonneg _ _ _ _ _)]

/-- The surface `exTri` with a reflecting random number. -/
noncomputable def exDraw : Draw :=
  { tris := [exTri], zmin := 0, zmax := 0, rx := 0, ry := 0, dec := fresnelDec 1 2 (fun _ _ => 0) .u 0 }

theorem exTri_reflect : normalise (reflectDir ⟨0, 0, -1⟩ ((((1 : ℤ) : ℝ)) • exTri.N)) = ⟨0, 0, 1⟩ := by
  have : reflectDir ⟨0, 0, -1⟩ ((((1 : ℤ) : ℝ)) • exTri.N) = ⟨0, 0, 1⟩ := by
    rw [exTri_N]
    ext <;> simp [reflectDir, V3.dot] <;> norm_num
  rw [this]
  apply normalise_unit
  rw [norm_one_iff]; simp [V3.dot]

/-- A run that returns: a ray falls onto the horizontal triangle, is reflected, leaves.  It meets the hypotheses of C76, C77 and C79. -/
theorem exDraw_run_any (Lx Ly : ℝ) : ∃ ot r' θ, sicRun Lx Ly ⟨0, 0, -1⟩ [exDraw, exDraw, exDraw] (sicStart ⟨1, 1, 5⟩ ⟨0, 0, -1⟩ 1 0)
    = .inr (.out 0 ot r' ⟨0, 0, 1⟩ θ 1 1) := by
  have h1 : ∃ θ r, sicStep Lx Ly ⟨0, 0, -1⟩ exDraw (sicStart ⟨1, 1, 5⟩ ⟨0, 0, -1⟩ 1 0)
      = .inl { r := r, d := ⟨0, 0, 1⟩, side := 1, checked := false, misses := 0, i1 := 1, nInt := 1, θ := some θ } ∧ 0 < r.z := by
    refine ⟨localTheta exTri.N ⟨0, 0, -1⟩, (⟨1, 1, 5⟩ + (5 : ℝ) • ⟨0, 0, -1⟩ : V3) + (1 / 10 ^ 9 : ℝ) • ⟨0, 0, 1⟩, ?_, ?_⟩
    · unfold sicStep
      simp only [sicStart, exDraw]
      rw [checkIntersect_single_hit exTri_hit.1, exTri_hit.2]
      simp only [fresnelDec_zero, exTri_reflect]
    · simp
  obtain ⟨θ, r, h1, hr⟩ := h1
  have h2 : ∃ r2, sicStep Lx Ly ⟨0, 0, -1⟩ exDraw { r := r, d := ⟨0, 0, 1⟩, side := 1, checked := false, misses := 0, i1 := 1, nInt := 1, θ := some θ }
      = .inl { r := r2, d := ⟨0, 0, 1⟩, side := 1, checked := true, misses := 0, i1 := 2, nInt := 1, θ := some θ } ∧ 0 < r2.z := by
    refine ⟨r + translation Lx Ly (exitSide r ⟨0, 0, 1⟩ Lx Ly).1, ?_, ?_⟩
    · unfold sicStep
      simp only [exDraw]
      rw [checkIntersect_single_miss (exTri_miss r hr)]
      simp only [Bool.not_false, if_true, if_pos (show (1 + 1 : ℕ) > 1 by norm_num)]
    · rw [V3.add_z]
      have : (translation Lx Ly (exitSide r ⟨0, 0, 1⟩ Lx Ly).1).z = 0 := by
        rcases (exitSide r ⟨0, 0, 1⟩ Lx Ly).1 with _ | _ | _ | _ <;> rfl
      rw [this]; linarith
  obtain ⟨r2, h2, hr2⟩ := h2
  refine ⟨polar ⟨0, 0, 1⟩, ⟨backInto r2.x Lx, backInto r2.y Ly, r2.z⟩, some θ, ?_⟩
  unfold sicRun
  rw [h1]
  simp only
  unfold sicRun
  rw [h2]
  simp only
  unfold sicRun sicStep
  simp only [exDraw]
  rw [checkIntersect_single_miss (exTri_miss r2 hr2)]
  have hf : finalRes ⟨0, 0, -1⟩ ⟨0, 0, 1⟩ = 0 := by simp [finalRes, npSign]
  simp [hf, show ¬ ((1 : ℝ) < 0) by norm_num]

theorem exDraw_run : ∃ ot r' θ, sicRun 1 1 ⟨0, 0, -1⟩ [exDraw, exDraw, exDraw] (sicStart ⟨1, 1, 5⟩ ⟨0, 0, -1⟩ 1 0)
    = .inr (.out 0 ot r' ⟨0, 0, 1⟩ θ 1 1) := exDraw_run_any 1 1

example : ComesFrom 1 ⟨0, 0, -1⟩ ∧ (∀ w ∈ [exDraw, exDraw, exDraw], SideOk w) ∧ V3.norm ⟨0, 0, 1⟩ = 1 := by
  refine ⟨Or.inl ⟨rfl, by norm_num⟩, ?_, ?_⟩
  · intro w hw
    have : w = exDraw := by simpa using hw
    subst this
    exact fresnelDec_side _ _ _ _ _ _ _ _ _ _
  · rw [norm_one_iff]; simp [V3.dot]

/-! ## C78: the non-periodic surface -/

/-- A steep facet: its plane is 2x + z = 2. -/
noncomputable def steepTri : Tri := ⟨⟨0, -1, 2⟩, ⟨1, -1, 0⟩, ⟨0, 2, 2⟩⟩

theorem steepTri_cross : steepTri.crossP = ⟨6, 0, 3⟩ := by
  ext <;> simp [Tri.crossP, steepTri, V3.cross] <;> norm_num

theorem steepTri_hit : steepTri.hit ⟨1/4, 0, 10⟩ ⟨0, 0, -1⟩ = true ∧ steepTri.t ⟨1/4, 0, 10⟩ ⟨0, 0, -1⟩ = 17/2 := by
  apply hit_of_inTri
  · unfold Parallel; simp only [steepTri, V3.dot, V3.cross, V3.sub_x, V3.sub_y, V3.sub_z]; norm_num
  · norm_num
  · refine ⟨1 / 4, 1 / 3, by norm_num, by norm_num, by norm_num, ?_⟩
    ext <;> simp [steepTri] <;> norm_num

theorem steepTri_reflect : normalise (reflectDir ⟨0, 0, -1⟩ (((1 : ℤ) : ℝ) • steepTri.N)) = ⟨4/5, 0, -3/5⟩ := by
  have hn : V3.norm steepTri.crossP ^ 2 = 45 := by
    rw [norm_sq, steepTri_cross]; simp [V3.dot]; norm_num
  have hn' : (1 / V3.norm steepTri.crossP) ^ 2 = 1 / 45 := by rw [div_pow, hn]; norm_num
  have : reflectDir ⟨0, 0, -1⟩ (((1 : ℤ) : ℝ) • steepTri.N) = ⟨4/5, 0, -3/5⟩ := by
    unfold Tri.N
    set c := 1 / V3.norm steepTri.crossP with hc
    rw [steepTri_cross]
    ext
    · simp [reflectDir, V3.dot]; nlinarith
    · simp [reflectDir, V3.dot]
    · simp [reflectDir, V3.dot]; nlinarith
  rw [this]
  apply normalise_unit
  rw [norm_one_iff]; simp [V3.dot]; norm_num

theorem steepTri_miss : steepTri.hit ((⟨1/4, 0, 10⟩ + (17/2 : ℝ) • ⟨0, 0, -1⟩ : V3) + (1 / 10 ^ 9 : ℝ) • ⟨4/5, 0, -3/5⟩) ⟨4/5, 0, -3/5⟩ = false := by
  unfold Tri.hit
  rw [decide_eq_false_iff_not]
  rintro ⟨-, -, -, ht⟩
  unfold Tri.t Tri.det at ht
  rw [steepTri_cross] at ht
  simp only [steepTri, V3.dot, V3.neg_x, V3.neg_y, V3.neg_z, V3.sub_x, V3.sub_y, V3.sub_z, V3.add_x, V3.add_y, V3.add_z, V3.smul_x, V3.smul_y,
    V3.smul_z] at ht
  norm_num at ht

noncomputable def steepDraw : Draw :=
  { tris := [steepTri], zmin := 0, zmax := 2, rx := 0, ry := 0, dec := fresnelDec 1 2 (fun _ _ => 0) .u 0 }

/-- **C78 is violated.** On a non-periodic surface the label only compares the signs of the vertical direction components.  A ray from above that is reflected by a steep
facet and then misses the rest of the surface is still going down: it is labelled transmitted (`1`), although it has never left the upper medium (`side' = 1`). -/
theorem C78_nonperiodic_label_fails :
    ∃ (r d : V3) (ws : List Draw) (ot : ℝ) (r' d' : V3) (θ : Option ℝ), ComesFrom 1 d ∧ V3.norm d = 1 ∧ (∀ w ∈ ws, SideOk w) ∧
      sccRun d ws { r := r, d := d, side := 1, nInt := 0, θ := 0 } = .inr (.out 1 ot r' d' θ 1 1) := by
  refine ⟨⟨1/4, 0, 10⟩, ⟨0, 0, -1⟩, [steepDraw, steepDraw], polar ⟨4/5, 0, -3/5⟩,
    (⟨1/4, 0, 10⟩ + (17/2 : ℝ) • ⟨0, 0, -1⟩ : V3) + (1 / 10 ^ 9 : ℝ) • ⟨4/5, 0, -3/5⟩, ⟨4/5, 0, -3/5⟩,
    some (localTheta steepTri.N ⟨0, 0, -1⟩), Or.inl ⟨rfl, by norm_num⟩, ?_, ?_, ?_⟩
  · rw [norm_one_iff]; simp [V3.dot]
  · intro w hw
    have : w = steepDraw := by simpa using hw
    subst this
    exact fresnelDec_side _ _ _ _ _ _ _ _ _ _
  · have h1 : sccStep ⟨0, 0, -1⟩ steepDraw { r := ⟨1/4, 0, 10⟩, d := ⟨0, 0, -1⟩, side := 1, nInt := 0, θ := 0 }
        = .inl { r := (⟨1/4, 0, 10⟩ + (17/2 : ℝ) • ⟨0, 0, -1⟩ : V3) + (1 / 10 ^ 9 : ℝ) • ⟨4/5, 0, -3/5⟩, d := ⟨4/5, 0, -3/5⟩, side := 1,
                 nInt := 1, θ := localTheta steepTri.N ⟨0, 0, -1⟩ } := by
      unfold sccStep
      simp only [steepDraw]
      rw [checkIntersect_single_hit steepTri_hit.1, steepTri_hit.2]
      simp only [fresnelDec_zero, steepTri_reflect]
    unfold sccRun
    rw [h1]
    simp only
    unfold sccRun sccStep
    simp only [steepDraw]
    rw [checkIntersect_single_miss steepTri_miss]
    have hf : finalRes ⟨0, 0, -1⟩ ⟨4/5, 0, -3/5⟩ = 1 := by simp [finalRes, npSign]; norm_num
    simp [hf]

/-- **C78, what does hold.** The label is right whenever the ray leaves away from the surface on the side it is in (up in the upper medium, down in the lower
one). -/
theorem C78_label_partial (r d : V3) (side : ℤ) (hfrom : ComesFrom side d) (n : ℕ) (θ0 : ℝ) (ws : List Draw)
    (res : ℕ) (ot : ℝ) (r' d' : V3) (θ : Option ℝ) (n' : ℕ) (side' : ℤ)
    (h : sccRun d ws { r := r, d := d, side := side, nInt := n, θ := θ0 } = .inr (.out res ot r' d' θ n' side'))
    (haway : ComesFrom side' (-d')) : (res = 1 ∨ res = 0) ∧ (res = 1 ↔ side' = -side) ∧ (res = 0 ↔ side' = side) := by
  have key : ∀ (ws : List Draw) (s : Scc), sccRun d ws s = .inr (.out res ot r' d' θ n' side') → res = finalRes d d' := by
    intro ws
    induction ws with
    | nil => intro s h; simp [sccRun] at h
    | cons w ws ih =>
      intro s h
      unfold sccRun at h
      rcases hs : sccStep d w s with s' | r1
      · rw [hs] at h; exact ih s' h
      · rw [hs] at h
        simp only [Sum.inr.injEq] at h
        subst h
        unfold sccStep at hs
        split at hs
        · simp only [Sum.inr.injEq, SicRes.out.injEq] at hs
          obtain ⟨e1, _, _, e4, _⟩ := hs
          rw [← e1, e4]
        · simp only at hs
          split at hs <;> simp at hs
  have hr := key ws _ h
  rcases hfrom with ⟨a, b⟩ | ⟨a, b⟩ <;> rcases haway with ⟨c, e⟩ | ⟨c, e⟩ <;> simp only [V3.neg_z] at e
  · have : res = 0 := by rw [hr]; simp [finalRes, npSign, b, not_lt.mpr b.le, show 0 < d'.z by linarith]
    rw [this, a, c]; simp
  · have : res = 1 := by rw [hr]; simp [finalRes, npSign, b, not_lt.mpr b.le, show d'.z < 0 by linarith, show ¬ 0 < d'.z by linarith]
    rw [this, a, c]; simp
  · have : res = 1 := by rw [hr]; simp [finalRes, npSign, b, show 0 < d'.z by linarith]
    rw [this, a, c]; simp
  · have : res = 0 := by rw [hr]; simp [finalRes, npSign, b, show d'.z < 0 by linarith, show ¬ 0 < d'.z by linarith]
    rw [this, a, c]; simp

end Rayflare
