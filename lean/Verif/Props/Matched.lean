import Verif.Spec.Matched
import Verif.Props.Reverse
import Verif.Props.Gentle
import Verif.Props.Wander
import Verif.Props.RTStart
import Verif.Props.FlatTrace
import Verif.Props.Unbiased
import Verif.Lemmas.RayStack2

/-! # C160: textures between media with the same refractive index -/

namespace Rayflare

open Model Spec Np Lemmas

/-! ## One facet -/

theorem calcR_matched {n : ℂ} {θ : ℝ} (pol : Pol) : calcR n n θ (θ : ℂ) pol = 0 := by
  cases pol <;> simp [calcR, fresnelRs, fresnelRp]

/-- Refraction between equal media, at a facet met from its own side, leaves the direction as it is. -/
theorem refract_matched {d N : V3} (hd : V3.dot d d = 1) (hN : V3.dot N N = 1) (h : V3.dot d N < 0) : normalise (refractDir 1 d N) = d := by
  have hn : V3.norm (trPar 1 d N) ^ 2 = 1 - V3.dot d N ^ 2 := by
    rw [norm_sq]
    have : V3.dot (trPar 1 d N) (trPar 1 d N) = V3.dot d d - 2 * V3.dot d N ^ 2 + V3.dot d N ^ 2 * V3.dot N N := by
      unfold trPar V3.dot; simp only [V3.sub_x, V3.sub_y, V3.sub_z, V3.smul_x, V3.smul_y, V3.smul_z]; ring
    rw [this, hd, hN]; ring
  have hs : Real.sqrt (1 - V3.norm (trPar 1 d N) ^ 2) = -V3.dot d N := by
    rw [hn, sub_sub_cancel, Real.sqrt_sq_eq_abs, abs_of_neg h]
  have e : refractDir 1 d N = d := by
    unfold refractDir
    rw [hs]
    unfold trPar
    ext <;> simp only [V3.add_x, V3.add_y, V3.add_z, V3.sub_x, V3.sub_y, V3.sub_z, V3.smul_x, V3.smul_y, V3.smul_z] <;> ring
  rw [e]
  have : V3.norm d = 1 := by unfold V3.norm; rw [hd, Real.sqrt_one]
  unfold normalise
  rw [this]
  ext <;> simp

theorem decide_matched {asin : ℂ → ℂ} (hasin : ∀ z, IsArcsin z (asin z)) {n : ℂ} (hn : 0 < n.re) {d Nf : V3} (hd : V3.dot d d = 1) (hN : V3.dot Nf Nf = 1) {side : ℤ} (hside : side = 1 ∨ side = -1)
    (h : (side : ℝ) * V3.dot d Nf < 0) {pol : Pol} {rnd : ℝ} (h0 : 0 < rnd) :
    fresnelDec n n (refrAngle asin n n) pol rnd (localTheta Nf d) d ((side : ℝ) • Nf) side = (d, -side, none) := by
  have hne : n ≠ 0 := by rintro rfl; simp at hn
  have hsq : (side : ℝ) * side = 1 := by rcases hside with rfl | rfl <;> norm_num
  have hN' : V3.dot ((side : ℝ) • Nf) ((side : ℝ) • Nf) = 1 := by
    have : V3.dot ((side : ℝ) • Nf) ((side : ℝ) • Nf) = (side : ℝ) * side * V3.dot Nf Nf := by unfold V3.dot; simp only [V3.smul_x, V3.smul_y, V3.smul_z]; ring
    rw [this, hsq, hN, one_mul]
  have hdN : V3.dot d ((side : ℝ) • Nf) < 0 := by
    have : V3.dot d ((side : ℝ) • Nf) = (side : ℝ) * V3.dot d Nf := by unfold V3.dot; simp only [V3.smul_x, V3.smul_y, V3.smul_z]; ring
    rw [this]; exact h
  have hlt : |localTheta Nf d| < Real.pi / 2 := abs_localTheta_lt hN hd (by rintro e; rw [e, mul_zero] at h; exact lt_irrefl _ h)
  have harc : refrAngle asin n n side (localTheta Nf d) = ((|localTheta Nf d| : ℝ) : ℂ) := by
    apply arcsin_unique (abs_nonneg _) hlt
    have := hasin ((if side = 1 then n else n) / (if side = 1 then n else n) * Complex.sin ((|localTheta Nf d| : ℝ) : ℂ))
    unfold refrAngle
    rw [ite_self, div_self hne, one_mul] at this ⊢
    exact this
  have hR : decideR n n (localTheta Nf d) ((|localTheta Nf d| : ℝ) : ℂ) pol = 0 := by
    unfold decideR clipRatio
    rw [div_self hn.ne', min_self, max_eq_right (by norm_num), Real.arcsin_one, if_neg (not_lt.mpr hlt.le), calcR_matched]
  unfold fresnelDec
  simp only [ite_self, harc]
  unfold decideFresnel
  rw [hR, if_neg (not_le.mpr h0), div_self hn.ne', refract_matched hd hN' hdN]

/-! ## A surface of any shape -/

/-- The decision at a facet between equal media. -/
def MatchedDraw (asin : ℂ → ℂ) (n : ℂ) (pol : Pol) (w : Draw) : Prop :=
  (∃ rnd, 0 < rnd ∧ w.dec = fresnelDec n n (refrAngle asin n n) pol rnd) ∧ ∀ τ ∈ w.tris, V3.dot τ.crossP τ.crossP ≠ 0

theorem checkIntersect_N {r d : V3} {tris : List Tri} (ht : ∀ τ ∈ tris, V3.dot τ.crossP τ.crossP ≠ 0) {p N : V3} {θ : ℝ} (h : checkIntersect r d tris = some (p, θ, N)) :
    V3.dot N N = 1 ∧ θ = localTheta N d := by
  unfold checkIntersect at h
  simp only at h
  split at h
  · simp at h
  · rename_i τ hτ
    simp only [Option.some.injEq, Prod.mk.injEq] at h
    obtain ⟨-, h2, h3⟩ := h
    have hm : τ ∈ tris := (List.mem_filter.mp (List.mem_of_getElem? hτ)).1
    have hn : V3.norm τ.N = 1 := normalise_norm (ht τ hm)
    subst h3
    refine ⟨?_, h2.symm⟩
    have : V3.norm τ.N ^ 2 = V3.dot τ.N τ.N := norm_sq _
    rw [← this, hn]; norm_num

section
variable {asin : ℂ → ℂ} (hasin : ∀ z, IsArcsin z (asin z)) {n : ℂ} (hn : 0 < n.re) {pol : Pol}
include hasin hn

/-- **C160, any surface.** Periodic surface, any shape, any start, any direction, any number of facets met: between media with the same refractive index the ray is reported as transmitted, in its old direction, if it meets every facet from the side on which it is (and does not miss the surface
a hundred times). -/
theorem C160_straight (Lx Ly : ℝ) (r d : V3) (hd : V3.dot d d = 1) (side : ℤ) (hside : side = 1 ∨ side = -1) (k : ℕ) (ws : List Draw) (hw : ∀ w ∈ ws, MatchedDraw asin n pol w)
    (hown : ∀ ws1 w, ws1 ++ [w] <+: ws → ∀ s, sicRun Lx Ly d ws1 (sicStart r d side k) = .inl s → FromOwnSide w s) (res : SicRes) (hres : sicRun Lx Ly d ws (sicStart r d side k) = .inr res) :
    (∃ r' θ n' side', res = .out 1 (polar d) r' d θ n' side') ∨ (∃ side', res = .lost 1 (polar d) d side') ∨ ∃ ot r' d' n' side', res = .gaveUp ot r' d' n' side' := by
  suffices key : ∀ (ws : List Draw) (s : Sic), (∀ w ∈ ws, MatchedDraw asin n pol w) → s.d = d → (s.side = 1 ∨ s.side = -1) →
      (∀ ws1 w, ws1 ++ [w] <+: ws → ∀ s', sicRun Lx Ly d ws1 s = .inl s' → FromOwnSide w s') → sicRun Lx Ly d ws s = .inr res →
      (∃ r' θ n' side', res = .out 1 (polar d) r' d θ n' side') ∨ (∃ side', res = .lost 1 (polar d) d side') ∨ ∃ ot r' d' n' side', res = .gaveUp ot r' d' n' side' from
    key ws _ hw rfl hside hown hres
  intro ws
  induction ws with
  | nil => intro s _ _ _ _ h; simp [sicRun] at h
  | cons w ws ih =>
    intro s hw hsd hss hown h
    have hfrom : FromOwnSide w s := hown [] w (by simp) s rfl
    have hrest : ∀ s1, sicStep Lx Ly d w s = .inl s1 → ∀ ws1 w', ws1 ++ [w'] <+: ws → ∀ s', sicRun Lx Ly d ws1 s1 = .inl s' → FromOwnSide w' s' := by
      intro s1 h1 ws1 w' hp s' hs'
      refine hown (w :: ws1) w' (by rw [List.cons_append]; exact (List.cons_prefix_cons).mpr ⟨rfl, hp⟩) s' ?_
      simp only [sicRun, h1, hs']
    simp only [sicRun] at h
    rcases hst : sicStep Lx Ly d w s with s1 | res1
    · rw [hst] at h
      simp only at h
      refine ih s1 (fun w' hw' => hw w' (List.mem_cons_of_mem _ hw')) ?_ ?_ (hrest s1 hst) h
      · rcases sicStep_moves hst with ⟨-, e, -⟩ | ⟨p, θ, N, hc, hdec⟩
        · rw [e, hsd]
        · obtain ⟨⟨rnd, h0, hdec'⟩, htri⟩ := hw w List.mem_cons_self
          obtain ⟨hN, rfl⟩ := checkIntersect_N htri hc
          have := decide_matched hasin hn (pol := pol) (by rw [hsd]; exact hd) hN hss (hfrom _ _ _ hc) h0
          rw [hdec', this] at hdec
          simp only [Prod.mk.injEq] at hdec
          rw [← hdec.1, hsd]
      · rcases sicStep_moves hst with ⟨-, -, e⟩ | ⟨p, θ, N, hc, hdec⟩
        · rw [e]; exact hss
        · obtain ⟨⟨rnd, h0, hdec'⟩, htri⟩ := hw w List.mem_cons_self
          obtain ⟨hN, rfl⟩ := checkIntersect_N htri hc
          have := decide_matched hasin hn (pol := pol) (by rw [hsd]; exact hd) hN hss (hfrom _ _ _ hc) h0
          rw [hdec', this] at hdec
          simp only [Prod.mk.injEq] at hdec
          rw [← hdec.2.1]
          rcases hss with e | e <;> rw [e] <;> simp
    · rw [hst] at h
      simp only [Sum.inr.injEq] at h
      subst h
      rcases hc : checkIntersect s.r s.d w.tris with _ | ⟨p, θ, Nf⟩
      · simp only [sicStep, hc] at hst
        split_ifs at hst
        · simp only [Sum.inr.injEq] at hst
          exact Or.inr (Or.inr ⟨_, _, _, _, _, hst.symm⟩)
        · split at hst
          · simp only [Sum.inr.injEq] at hst
            rw [hsd, finalRes_self] at hst
            exact Or.inr (Or.inl ⟨_, hst.symm⟩)
          · simp at hst
        · simp only [Sum.inr.injEq] at hst
          rw [hsd, finalRes_self] at hst
          exact Or.inl ⟨_, _, _, _, hst.symm⟩
      · obtain ⟨⟨rnd, h0, hdec'⟩, htri⟩ := hw w List.mem_cons_self
        obtain ⟨hN, rfl⟩ := checkIntersect_N htri hc
        have := decide_matched hasin hn (pol := pol) (by rw [hsd]; exact hd) hN hss (hfrom _ _ _ hc) h0
        rw [← hdec'] at this
        simp only [sicStep, hc, this] at hst
        simp at hst

omit hasin hn in
theorem scc_prefix {d0 : V3} {w : Draw} {ws : List Draw} {s s1 : Scc} (h1 : sccStep d0 w s = .inl s1) {P : Draw → Scc → Prop}
    (hown : ∀ ws1 w', ws1 ++ [w'] <+: w :: ws → ∀ s', sccRun d0 ws1 s = .inl s' → P w' s') : ∀ ws1 w', ws1 ++ [w'] <+: ws → ∀ s', sccRun d0 ws1 s1 = .inl s' → P w' s' := by
  intro ws1 w' hp s' hs'
  refine hown (w :: ws1) w' (by rw [List.cons_append]; exact (List.cons_prefix_cons).mpr ⟨rfl, hp⟩) s' ?_
  simp only [sccRun, h1, hs']

/-- **C160, any surface that does not repeat.** The same for a surface of one unit cell. -/
theorem C160_straight_cell (r d : V3) (hd : V3.dot d d = 1) (side : ℤ) (hside : side = 1 ∨ side = -1) (k : ℕ) (ws : List Draw) (hw : ∀ w ∈ ws, MatchedDraw asin n pol w)
    (hown : ∀ ws1 w, ws1 ++ [w] <+: ws → ∀ s, sccRun d ws1 { r := r, d := d, side := side, nInt := k, θ := 0 } = .inl s →
      ∀ p θ N, checkIntersect s.r s.d w.tris = some (p, θ, N) → (s.side : ℝ) * V3.dot s.d N < 0) (res : SicRes)
    (hres : sccRun d ws { r := r, d := d, side := side, nInt := k, θ := 0 } = .inr res) : ∃ r' θ n' side', res = .out 1 (polar d) r' d θ n' side' := by
  suffices key : ∀ (ws : List Draw) (s : Scc), (∀ w ∈ ws, MatchedDraw asin n pol w) → s.d = d → (s.side = 1 ∨ s.side = -1) →
      (∀ ws1 w, ws1 ++ [w] <+: ws → ∀ s', sccRun d ws1 s = .inl s' → ∀ p θ N, checkIntersect s'.r s'.d w.tris = some (p, θ, N) → (s'.side : ℝ) * V3.dot s'.d N < 0) → sccRun d ws s = .inr res →
      ∃ r' θ n' side', res = .out 1 (polar d) r' d θ n' side' from key ws _ hw rfl hside hown hres
  intro ws
  induction ws with
  | nil => intro s _ _ _ _ h; simp [sccRun] at h
  | cons w ws ih =>
    intro s hw hsd hss hown h
    have hfrom := hown [] w (by simp) s rfl
    simp only [sccRun] at h
    rcases hc : checkIntersect s.r s.d w.tris with _ | ⟨p, θ, N⟩
    · have hst : sccStep d w s = .inr (.out 1 (polar d) s.r d (some s.θ) s.nInt s.side) := by
        simp only [sccStep, hc]
        rw [hsd, finalRes_self]
      rw [hst] at h
      simp only [Sum.inr.injEq] at h
      exact ⟨_, _, _, _, h.symm⟩
    · obtain ⟨⟨rnd, h0, hdec'⟩, htri⟩ := hw w List.mem_cons_self
      obtain ⟨hN, rfl⟩ := checkIntersect_N htri hc
      have hdec := decide_matched hasin hn (pol := pol) (by rw [hsd]; exact hd) hN hss (hfrom _ _ _ hc) h0
      rw [← hdec'] at hdec
      have hst : sccStep d w s = .inl { r := p + (1 / 10 ^ 9 : ℝ) • s.d, d := s.d, side := -s.side, nInt := s.nInt + 1, θ := localTheta N s.d } := by
        simp only [sccStep, hc, hdec]
      rw [hst] at h
      simp only at h
      refine ih { r := p + (1 / 10 ^ 9 : ℝ) • s.d, d := s.d, side := -s.side, nInt := s.nInt + 1, θ := localTheta N s.d } (fun w' hw' => hw w' (List.mem_cons_of_mem _ hw')) hsd ?_ (scc_prefix hst hown) h
      rcases hss with e | e <;> rw [e] <;> simp

/-! ## A height map on which the ray falls steeply -/

omit hasin hn in
/-- A ray steeper than the height map meets every facet from above. -/
theorem steep_facet {Lx Ly s ℓ κ : ℝ} {h : ℝ → ℝ → ℝ} {tris : List Tri} (H : HeightMap Lx Ly s ℓ h tris) (hs : 0 ≤ s) {d : V3} (hdz : d.z < 0) (hsteep : s * horiz d + κ ≤ |d.z|) (hκ0 : 0 < κ) {τ : Tri} (hτ : τ ∈ tris) :
    V3.dot d τ.N < 0 := by
  obtain ⟨N, hN⟩ : ∃ N, N = τ.N := ⟨_, rfl⟩
  have hz : 0 < N.z := hN ▸ facet_up H hτ
  have hsl : N.x ^ 2 + N.y ^ 2 ≤ (s * N.z) ^ 2 := by
    have h2 := facet_slope H hs hτ
    have : (1 / V3.norm τ.crossP) ^ 2 * (τ.crossP.x ^ 2 + τ.crossP.y ^ 2) ≤ (1 / V3.norm τ.crossP) ^ 2 * (s ^ 2 * τ.crossP.z ^ 2) := by gcongr
    rw [hN]
    unfold Tri.N
    simp only [V3.smul_x, V3.smul_y, V3.smul_z]
    calc _ = (1 / V3.norm τ.crossP) ^ 2 * (τ.crossP.x ^ 2 + τ.crossP.y ^ 2) := by ring
      _ ≤ _ := this
      _ = _ := by ring
  rw [← hN]
  have hcs : d.x * N.x + d.y * N.y ≤ horiz d * (s * N.z) := by
    refine abs_le_of_sq_le_sq' (a := d.x * N.x + d.y * N.y) (b := horiz d * (s * N.z)) ?_ (mul_nonneg (horiz_nonneg d) (by positivity)) |>.2
    calc (d.x * N.x + d.y * N.y) ^ 2 ≤ (d.x ^ 2 + d.y ^ 2) * (N.x ^ 2 + N.y ^ 2) := by nlinarith [sq_nonneg (d.x * N.y - d.y * N.x)]
      _ ≤ (d.x ^ 2 + d.y ^ 2) * (s * N.z) ^ 2 := by gcongr
      _ = (horiz d * (s * N.z)) ^ 2 := by rw [mul_pow (horiz d), horiz_sq]
  rw [abs_of_neg hdz] at hsteep
  have : N.z * (s * horiz d + κ) ≤ N.z * -d.z := by gcongr
  have hk : 0 < N.z * κ := mul_pos hz hκ0
  unfold V3.dot
  nlinarith

/-- After the first facet there is no other. -/
theorem steep_hits {Lx Ly s ℓ κ : ℝ} {h : ℝ → ℝ → ℝ} {tris : List Tri} (H : HeightMap Lx Ly s ℓ h tris) (hs : 0 ≤ s) {d : V3} (hd : V3.dot d d = 1) (hdz : d.z < 0)
    (hsteep : s * horiz d + κ ≤ |d.z|) (hκ : 2 / 5 * s * ℓ ≤ κ) (hκ0 : 0 < κ) (ws : List Draw) (hw : ∀ w ∈ ws, MatchedDraw asin n pol w ∧ w.tris = tris)
    (s0 : Sic) (h1 : s0.d = d) (h2 : s0.side = 1) (h4 : s0.i1 = 0) {p N : V3} {θ : ℝ} (hc : checkIntersect s0.r d tris = some (p, θ, N)) :
    (3 ≤ ws.length → ∃ res, sicRun Lx Ly d ws s0 = .inr res) ∧ ∀ res, sicRun Lx Ly d ws s0 = .inr res → ∃ r', r'.z = p.z + 1 / 10 ^ 9 * d.z ∧ res = .out 1 (polar d) r' d (some θ) (s0.nInt + 1) (-1) := by
  rcases ws with _ | ⟨w, ws⟩
  · simp [sicRun]
  obtain ⟨⟨⟨rnd, h0, hdec'⟩, htri⟩, etris⟩ := hw w List.mem_cons_self
  obtain ⟨τ, hτ, t, -, -, hin, eN, -⟩ := C45_sound_nearest s0.r d tris p θ N hc
  obtain ⟨hN, hθ⟩ := checkIntersect_N (by rw [← etris]; exact htri) hc
  have hNz : V3.dot d N < 0 := by
    rw [eN]
    exact steep_facet H hs hdz hsteep hκ0 hτ
  have hp := near_graph H hs hτ (by norm_num) (by norm_num) hin
  have hdec := decide_matched hasin hn (pol := pol) hd hN (Or.inl (rfl : (1 : ℤ) = 1)) (by simpa using hNz) h0
  rw [← hdec', ← hθ] at hdec
  obtain ⟨r1, hr1⟩ : ∃ r1, r1 = p + (1 / 10 ^ 9 : ℝ) • d := ⟨_, rfl⟩
  have s1 : sicStep Lx Ly d w s0 = .inl { r := r1, d := d, side := -1, checked := false, misses := s0.misses, i1 := 1, nInt := s0.nInt + 1, θ := some θ } := by
    simp only [sicStep, h1, h2, h4, etris, hc, hdec, ← hr1]
  have m2 : checkIntersect r1 d tris = none := no_second H hs hp hsteep hκ hκ0 (c := 0) (by intro x y; simp) rfl (by rw [hr1]; ext <;> simp)
  have e1 : sicRun Lx Ly d (w :: ws) s0 = sicRun Lx Ly d ws { r := r1, d := d, side := -1, checked := false, misses := s0.misses, i1 := 1, nInt := s0.nInt + 1, θ := some θ } := by simp only [sicRun, s1]
  rw [e1]
  rcases ws with _ | ⟨w2, ws⟩
  · simp [sicRun]
  obtain ⟨k, hk⟩ : ∃ k, k = (exitSide r1 d Lx Ly).1 := ⟨_, rfl⟩
  have s2 : sicStep Lx Ly d w2 { r := r1, d := d, side := -1, checked := false, misses := s0.misses, i1 := 1, nInt := s0.nInt + 1, θ := some θ } =
      .inl { r := r1 + translation Lx Ly k, d := d, side := -1, checked := true, misses := s0.misses, i1 := 2, nInt := s0.nInt + 1, θ := some θ } := by
    simp [sicStep, (hw w2 (by simp)).2, m2, hk]
  simp only [sicRun, s2]
  rcases ws with _ | ⟨w3, ws⟩
  · simp [sicRun]
  obtain ⟨g1, g2⟩ := translation_period H k
  have m3 : checkIntersect (r1 + translation Lx Ly k) d tris = none := no_second H hs hp hsteep hκ hκ0 g1 g2 (by rw [hr1])
  obtain ⟨r', hr'⟩ : ∃ r' : V3, r' = ⟨backInto (r1 + translation Lx Ly k).x Lx, backInto (r1 + translation Lx Ly k).y Ly, (r1 + translation Lx Ly k).z⟩ := ⟨_, rfl⟩
  have s3 : sicStep Lx Ly d w3 { r := r1 + translation Lx Ly k, d := d, side := -1, checked := true, misses := s0.misses, i1 := 2, nInt := s0.nInt + 1, θ := some θ } =
      .inr (.out 1 (polar d) r' d (some θ) (s0.nInt + 1) (-1)) := by
    simp only [sicStep, (hw w3 (by simp)).2, m3, Bool.not_true, Bool.false_eq_true, if_false, finalRes_self, hr']
    rw [if_neg (by rintro (⟨a, -⟩ | ⟨-, b, -⟩); · norm_num at a
                   · linarith)]
  simp only [sicRun, s3]
  refine ⟨fun _ => ⟨_, rfl⟩, fun res hres => ⟨r', ?_, ?_⟩⟩
  · rw [hr']; simp only [V3.add_z, g2, hr1, V3.smul_z]; ring
  · simpa using hres.symm

/-- **C160, height maps.** A ray that goes down more steeply than a height map rises anywhere passes it, between media with the same refractive index, in a straight line, after one facet. -/
theorem C160_steep {Lx Ly s ℓ κ : ℝ} {h : ℝ → ℝ → ℝ} {tris : List Tri} (H : HeightMap Lx Ly s ℓ h tris) (hs : 0 ≤ s) {d : V3} (hd : V3.dot d d = 1) (hdz : d.z < 0)
    (hsteep : s * horiz d + κ ≤ |d.z|) (hκ : 2 / 5 * s * ℓ ≤ κ) (hκ0 : 0 < κ) (ws : List Draw) (hw : ∀ w ∈ ws, MatchedDraw asin n pol w ∧ w.tris = tris)
    (s0 : Sic) (h1 : s0.d = d) (h2 : s0.side = 1) (h3 : s0.checked = false) (h4 : s0.i1 = 0) (res : SicRes) (hres : sicRun Lx Ly d ws s0 = .inr res) :
    (∃ r' θ, res = .out 1 (polar d) r' d (some θ) (s0.nInt + 1) (-1)) ∨ ∃ ot r' d' n' side', res = .gaveUp ot r' d' n' side' := by
  induction ws generalizing s0 with
  | nil => simp [sicRun] at hres
  | cons w ws ih =>
    obtain ⟨⟨⟨rnd, h0, hdec'⟩, htri⟩, etris⟩ := hw w List.mem_cons_self
    simp only [sicRun] at hres
    rcases hc : checkIntersect s0.r d tris with _ | ⟨p, θ, N⟩
    · by_cases hm : s0.misses < 100
      · have hst : sicStep Lx Ly d w s0 = .inl { s0 with r := relaunch Lx Ly w d, misses := s0.misses + 1, i1 := 0 } := by
          simp [sicStep, h1, etris, hc, h3, h4, hm]
        rw [hst] at hres
        simp only at hres
        exact ih (fun w' hw' => hw w' (List.mem_cons_of_mem _ hw')) { s0 with r := relaunch Lx Ly w d, misses := s0.misses + 1, i1 := 0 } h1 h2 h3 rfl hres
      · right
        have hst : ∃ ot r' d' n' side', sicStep Lx Ly d w s0 = .inr (.gaveUp ot r' d' n' side') := by
          refine ⟨Model.polar ⟨d.x, d.y, -d.z⟩, s0.r, ⟨d.x, d.y, -d.z⟩, s0.nInt, s0.side, ?_⟩
          simp [sicStep, h1, etris, hc, h3, h4, hm]
        obtain ⟨ot, r', d', n', side', hst⟩ := hst
        rw [hst] at hres
        simp only [Sum.inr.injEq] at hres
        exact ⟨_, _, _, _, _, hres.symm⟩
    · left
      obtain ⟨r', -, e⟩ := (steep_hits hasin hn H hs hd hdz hsteep hκ hκ0 (w :: ws) hw s0 h1 h2 h4 hc).2 res (by simpa only [sicRun] using hres)
      exact ⟨r', θ, e⟩

end

/-! ## The whole structure -/

theorem leftAfter_zero (S : Stack) (θ : ℝ) : leftAfter S θ 0 = 1 := by simp [leftAfter]

theorem leftAfter_succ (S : Stack) (θ : ℝ) (k : ℕ) : leftAfter S θ (k + 1) = leftAfter S θ k * Real.exp (-(S.alphas.getD (k + 1) 0 / Real.cos θ) * S.widths.getD (k + 1) 0) := by
  unfold leftAfter
  rw [← Real.exp_add, Finset.sum_Ico_succ_top (by omega)]
  congr 1
  ring

theorem leftAfter_anti {S : Stack} (hS : Passive S) {θ : ℝ} (hc : 0 < Real.cos θ) {j k : ℕ} (h : j ≤ k) : leftAfter S θ k ≤ leftAfter S θ j := by
  induction k, h using Nat.le_induction with
  | base => rfl
  | succ k _ ih =>
    refine le_trans ?_ ih
    rw [leftAfter_succ]
    refine mul_le_of_le_one_right (Real.exp_pos _).le ?_
    rw [Real.exp_le_one_iff, neg_mul]
    have h1 := getD_nonneg hS.widths (k + 1)
    have h2 := getD_nonneg hS.alphas (k + 1)
    have : 0 ≤ S.alphas.getD (k + 1) 0 / Real.cos θ * S.widths.getD (k + 1) 0 := by positivity
    linarith

/-- One meeting. -/
theorem meet_matched {c : RTStack} {n : ℂ} (hc : IndexMatched c n) (hasin : ∀ z, IsArcsin z (c.asin z)) {θ φ : ℝ} (h0 : 0 ≤ θ) (h1 : θ < Real.pi / 2) {cell : Cell} {m : Meeting} (hm : SteepMeeting θ cell m)
    {s : StackRay} (hdir : s.ray.dir = 1) (hd : s.d = incoming θ φ) {res : SicRes} (h : c.meet cell none n n m s = some res) (hgave : ∀ ot r d k sd, res ≠ .gaveUp ot r d k sd) :
    ∃ r' θ' k, res = .out 1 (Model.polar (incoming θ φ)) r' (incoming θ φ) θ' k (-1) := by
  have hcos := Going.cos_pos h0 h1
  have hsin : 0 ≤ Real.sin θ := Real.sin_nonneg_of_nonneg_of_le_pi h0 (by linarith [Real.pi_pos])
  obtain ⟨sl, ℓ, hf, tris, hs, H, hst, hroom, hws⟩ := hm
  obtain ⟨d, hde⟩ : ∃ d, d = incoming θ φ := ⟨_, rfl⟩
  rw [← hde] at hd ⊢
  have hdz : d.z = -Real.cos θ := by rw [hde]; rfl
  have hdz' : d.z < 0 := by linarith
  have hho : horiz d = Real.sin θ := by
    unfold horiz
    rw [hde, show (incoming θ φ).x ^ 2 + (incoming θ φ).y ^ 2 = Real.sin θ ^ 2 by
      simp only [incoming]; nlinarith [Real.sin_sq_add_cos_sq φ]]
    exact Real.sqrt_sq hsin
  have hdd : V3.dot d d = 1 := by
    have : V3.dot d d = d.x ^ 2 + d.y ^ 2 + d.z ^ 2 := by unfold V3.dot; ring
    rw [this, ← horiz_sq, hho, hdz]
    nlinarith [Real.sin_sq_add_cos_sq θ]
  have hz0 : ¬ d.z = 0 := hdz'.ne
  have hrd : ∃ ro, c.randomised cell m s = (ro, d) := by
    unfold RTStack.randomised
    split_ifs
    · refine ⟨_, Prod.ext rfl ?_⟩
      simp only [randDir, hd]
      rw [if_neg hz0]
    · exact ⟨_, by rw [hd]⟩
  obtain ⟨ro, hrd⟩ := hrd
  have hw : ∀ w ∈ m.ws.map (fun w => w.draw c.asin c.pol none n n), MatchedDraw c.asin n c.pol w ∧ w.tris = tris := by
    intro w hw
    obtain ⟨w', hw', rfl⟩ := List.mem_map.mp hw
    obtain ⟨e, r0, -⟩ := hws w' hw'
    refine ⟨⟨⟨w'.rnd, r0, rfl⟩, ?_⟩, e⟩
    intro τ hτ
    have hτ' : τ ∈ tris := by rw [← e]; exact hτ
    have := H.up τ hτ'
    have h2 : 0 < V3.dot τ.crossP τ.crossP := by
      unfold V3.dot
      nlinarith [mul_self_nonneg τ.crossP.x, mul_self_nonneg τ.crossP.y, mul_pos this this]
    exact h2.ne'
  have key : ∀ (ws : List Draw) (s0 : Sic), (∀ w ∈ ws, MatchedDraw c.asin n c.pol w ∧ w.tris = tris) → s0.d = d → s0.side = 1 → s0.checked = false → s0.i1 = 0 →
      (sicRun cell.Lx cell.Ly d ws s0).getRight? = some res → ∃ r' θ' k, res = .out 1 (Model.polar d) r' d θ' k (-1) := by
    intro ws s0 hw a1 a2 a3 a4 hr
    rcases hrun : sicRun cell.Lx cell.Ly d ws s0 with x | res'
    · rw [hrun] at hr; simp at hr
    · rw [hrun] at hr
      simp only [Sum.getRight?_inr, Option.some.injEq] at hr
      subst hr
      rcases C160_steep hasin hc.re H hs hdd hdz' (κ := Real.cos θ - sl * Real.sin θ) (by rw [hho, hdz, abs_neg, abs_of_pos hcos]; linarith) (by linarith) (by linarith) ws hw s0 a1 a2 a3 a4 res' hrun with
        ⟨r', t, e⟩ | ⟨ot, r', d', k, sd, e⟩
      · exact ⟨_, _, _, e⟩
      · exact absurd e (hgave _ _ _ _ _)
  unfold RTStack.meet at h
  simp only [hrd, hc.periodic, if_true] at h
  rcases hwr : wrapOpt ro d cell with _ | r
  · simp only [hwr] at h
    rcases hws' : m.ws.map (fun w => w.draw c.asin c.pol none n n) with _ | ⟨w, ws⟩
    · rw [hws'] at h; simp at h
    · rw [hws'] at h hw
      exact key ws (sicStartNaN cell.Lx cell.Ly w d s.ray.dir) (fun w' hw' => hw w' (List.mem_cons_of_mem _ hw')) rfl hdir rfl rfl h
  · simp only [hwr] at h
    exact key _ (sicStart r d s.ray.dir 0) hw rfl hdir rfl rfl h

/-- Before the meeting with surface `i`. -/
structure Straight (c : RTStack) (θ φ : ℝ) (i : ℕ) (s : StackRay) : Prop where
  stop : s.ray.stop = false
  dir : s.ray.dir = 1
  mat : s.ray.mat = (i : ℤ)
  surf : s.ray.surf = (i : ℤ)
  lt : i + 1 < c.S.widths.length
  d : s.d = incoming θ φ
  I : s.ray.I = leftAfter c.S θ i
  A : ∀ m, s.ray.A m = if 1 ≤ m ∧ m ≤ i then leftAfter c.S θ (m - 1) - leftAfter c.S θ m else 0

/-- At the end. -/
structure Through (c : RTStack) (θ : ℝ) (s : StackRay) : Prop where
  stop : s.ray.stop = true
  angle : s.ray.θ = some (Real.pi - θ)
  I : s.ray.I = leftAfter c.S θ (c.S.widths.length - 2)
  A : ∀ m, s.ray.A m = if 1 ≤ m ∧ m + 1 < c.S.widths.length then leftAfter c.S θ (m - 1) - leftAfter c.S θ m else 0

theorem polar_incoming {θ φ : ℝ} (h0 : 0 ≤ θ) (h1 : θ < Real.pi / 2) : Model.polar (incoming θ φ) = Real.pi - θ := by
  have hg : Going 1 θ (incoming θ φ) := ⟨Or.inl rfl, by simp only [incoming]; nlinarith [Real.sin_sq_add_cos_sq φ], by simp [incoming]⟩
  rw [hg.polar h0 h1, if_pos rfl]

theorem straight_meets {c : RTStack} {n : ℂ} (hc : IndexMatched c n) {θ φ : ℝ} {i : ℕ} {s : StackRay} (hs : Straight c θ φ i s) (m : Meeting) :
    ∃ cell, c.cells[i]? = some cell ∧ c.step m s = c.advance s (c.meet cell none n n m s) ∧
      ∀ cell' tab ni nj, pyGet c.cells s.ray.surf = some cell' → pyGet c.tabs s.ray.surf = some tab → pyGet c.nks (if s.ray.dir = 1 then s.ray.mat else s.ray.mat - 1) = some ni →
        pyGet c.nks (if s.ray.dir = 1 then s.ray.mat + 1 else s.ray.mat) = some nj → cell' = cell ∧ tab = none ∧ ni = n ∧ nj = n := by
  have hlt := hs.lt
  have hn : c.S.nSurf = c.S.widths.length - 1 := rfl
  have hi : i < c.cells.length := by rw [hc.cells]; omega
  obtain ⟨cell, hcell⟩ : ∃ cell, c.cells[i]? = some cell := ⟨_, List.getElem?_eq_getElem hi⟩
  have g1 : pyGet c.cells s.ray.surf = some cell := by rw [hs.surf]; simpa [pyGet] using hcell
  have g2 : pyGet c.tabs s.ray.surf = some none := by
    rw [hs.surf, hc.tabs]; simp [pyGet, List.getElem?_replicate]; omega
  have g3 : ∀ j : ℕ, j < c.S.widths.length → pyGet c.nks (j : ℤ) = some n := by
    intro j hj
    rw [hc.nks]; simp [pyGet, hj]
  have hstep : c.step m s = c.advance s (c.meet cell none n n m s) := by
    unfold RTStack.step
    simp only [hs.stop, Bool.false_eq_true, if_false, hs.dir, if_true, g1, g2, hs.mat, g3 i (by omega)]
    have := g3 (i + 1) (by omega)
    push_cast at this
    rw [this]
  refine ⟨cell, hcell, hstep, fun cell' tab ni nj a1 a2 a3 a4 => ?_⟩
  rw [g1] at a1
  rw [g2] at a2
  rw [if_pos hs.dir, hs.mat, g3 i (by omega)] at a3
  have g4 := g3 (i + 1) (by omega)
  push_cast at g4
  rw [if_pos hs.dir, hs.mat, g4] at a4
  simp only [Option.some.injEq] at a1 a2 a3 a4
  exact ⟨a1.symm, a2.symm, a3.symm, a4.symm⟩

theorem straight_advance {c : RTStack} {n : ℂ} (hc : IndexMatched c n) (hS : Passive c.S) {θ φ : ℝ} (h0 : 0 ≤ θ) (h1 : θ < Real.pi / 2)
    (hth : c.S.thresh ≤ leftAfter c.S θ (c.S.widths.length - 2)) {i : ℕ} {s : StackRay} (hs : Straight c θ φ i s) (ro : Option V3) :
    ∃ ray', c.S.step s.ray (.transmit (Real.pi - θ)) = some ray' ∧
      (i + 2 < c.S.widths.length ∧ Straight c θ φ (i + 1) { ray := ray', r := ro, d := incoming θ φ } ∨ i + 2 = c.S.widths.length ∧ Through c θ { ray := ray', r := ro, d := incoming θ φ }) := by
  have hcos := Going.cos_pos h0 h1
  have hlt := hs.lt
  have hn : c.S.nSurf = c.S.widths.length - 1 := rfl
  have hi : i < c.cells.length := by rw [hc.cells]; omega
  obtain ⟨ray, hray⟩ : ∃ ray, ray = s.ray.interact (.transmit (Real.pi - θ)) := ⟨_, rfl⟩
  have r1 : ray.dir = 1 := by rw [hray]; exact hs.dir
  have r2 : ray.mat = ((i + 1 : ℕ) : ℤ) := by rw [hray]; simp [Ray.interact, hs.mat, hs.dir]
  have r3 : ray.surf = ((i + 1 : ℕ) : ℤ) := by rw [hray]; simp [Ray.interact, hs.surf, hs.dir]
  have r4 : ray.θ = some (Real.pi - θ) := by rw [hray]; rfl
  have r5 : ray.stop = false := by rw [hray]; exact hs.stop
  have r6 : ray.I = leftAfter c.S θ i := by rw [hray]; exact hs.I
  have r7 : ray.A = s.ray.A := by rw [hray]; rfl
  have hq : pyIndex c.S.nSurf ((i : ℕ) : ℤ) = some i := by simp [pyIndex]; omega
  have e2 : pyIndex c.S.widths.length ((i : ℕ) : ℤ) = some i := by simp [pyIndex]; omega
  have e3 : pyIndex c.S.widths.length ((i + 1 : ℕ) : ℤ) = some (i + 1) := by simp [pyIndex]; omega
  have hst : c.S.step s.ray (.transmit (Real.pi - θ)) = if (c.S.checkEnd ray).stop then some (c.S.checkEnd ray) else (pyIndex c.S.widths.length (c.S.checkEnd ray).mat).map (c.S.pass (c.S.checkEnd ray)) := by
    unfold Stack.step
    have e3' : pyIndex c.S.widths.length ((i : ℤ) + 1) = some (i + 1) := by have := e3; push_cast at this; exact this
    simp only [hs.stop, Bool.false_eq_true, if_false, hs.surf, hq, hs.mat, e2, hs.dir, if_true, e3', Option.bind_some, ← hray]
  rw [hst]
  by_cases hend : i + 2 = c.S.widths.length
  · have hce : c.S.checkEnd ray = { ray with stop := true } := by
      unfold Stack.checkEnd
      rw [if_pos ⟨r1, by rw [r2]; push_cast; omega⟩]
    rw [hce]
    refine ⟨_, if_pos rfl, Or.inr ⟨hend, rfl, r4, ?_, ?_⟩⟩
    · simp only [r6]; congr 1; omega
    · intro j
      simp only [r7, hs.A]
      exact if_congr (by omega) rfl rfl
  · have hce : c.S.checkEnd ray = ray := by
      unfold Stack.checkEnd
      rw [if_neg (by rintro ⟨-, b⟩; rw [r2] at b; push_cast at b; omega), if_neg (by rintro ⟨a, -⟩; rw [r1] at a; norm_num at a)]
    rw [hce]
    have hI : (c.S.pass ray (i + 1)).I = leftAfter c.S θ (i + 1) := by
      rw [pass_I, r6, r4, leftAfter_succ, Option.getD_some, Real.cos_pi_sub, abs_neg, abs_of_pos hcos]
    have hle : c.S.thresh ≤ leftAfter c.S θ (i + 1) := hth.trans (leftAfter_anti hS hcos (by omega))
    refine ⟨c.S.pass ray (i + 1), by rw [r5, r2, e3]; rfl, Or.inl ⟨by omega, ?_, r1, r2, r3, by omega, rfl, hI, ?_⟩⟩
    · have : (c.S.pass ray (i + 1)).stop = decide ((c.S.pass ray (i + 1)).I < c.S.thresh) := rfl
      rw [this, hI]
      simpa using hle
    · intro j
      have : (c.S.pass ray (i + 1)).A j = if j = i + 1 then ray.A j + ray.I - (c.S.pass ray (i + 1)).I else ray.A j := rfl
      simp only [this, hI, r6, r7, hs.A]
      by_cases hj : j = i + 1
      · subst hj
        rw [if_pos rfl, if_neg (by omega), if_pos ⟨by omega, le_rfl⟩, Nat.add_sub_cancel, zero_add]
      · rw [if_neg hj]
        exact if_congr (by omega) rfl rfl

theorem straight_step {c : RTStack} {n : ℂ} (hc : IndexMatched c n) (hS : Passive c.S) (hasin : ∀ z, IsArcsin z (c.asin z)) {θ φ : ℝ} (h0 : 0 ≤ θ) (h1 : θ < Real.pi / 2)
    (hth : c.S.thresh ≤ leftAfter c.S θ (c.S.widths.length - 2)) {i : ℕ} {m : Meeting} (hm : ∀ cell, c.cells[i]? = some cell → SteepMeeting θ cell m)
    {s s' : StackRay} (hs : Straight c θ φ i s) (hgave : ∀ cell, c.cells[i]? = some cell → ∀ ot r d k sd, c.meet cell none n n m s ≠ some (.gaveUp ot r d k sd)) (h : c.step m s = .next s') :
    Straight c θ φ (i + 1) s' ∨ Through c θ s' := by
  obtain ⟨cell, hcell, hstep, -⟩ := straight_meets hc hs m
  rw [hstep] at h
  rcases hmeet : c.meet cell none n n m s with _ | res
  · rw [hmeet] at h; simp [RTStack.advance] at h
  obtain ⟨r', t, k, rfl⟩ := meet_matched hc hasin h0 h1 (hm cell hcell) hs.dir hs.d hmeet (by
    rintro ot r d k sd rfl
    exact hgave cell hcell _ _ _ _ _ hmeet)
  rw [hmeet] at h
  simp only [RTStack.advance, SicRes.outcome, one_ne_zero, if_false, polar_incoming h0 h1, SicRes.pos, SicRes.dir] at h
  obtain ⟨ray', hray, hor⟩ := straight_advance hc hS h0 h1 hth hs (some r')
  rw [hray] at h
  simp only [StackRes.next.injEq] at h
  subst h
  exact hor.imp And.right And.right

theorem straight_run {c : RTStack} {n : ℂ} (hc : IndexMatched c n) (hS : Passive c.S) (hasin : ∀ z, IsArcsin z (c.asin z)) {θ φ : ℝ} (h0 : 0 ≤ θ) (h1 : θ < Real.pi / 2)
    (hth : c.S.thresh ≤ leftAfter c.S θ (c.S.widths.length - 2)) (ms : List Meeting) (i : ℕ) (hm : ∀ j m cell, ms[j]? = some m → c.cells[i + j]? = some cell → SteepMeeting θ cell m)
    (s s' : StackRay) (hs : Straight c θ φ i s) (hgave : NeverGivenUp c s ms) (h : c.run ms s = .next s') (hstop : s'.ray.stop = true) : Through c θ s' := by
  induction ms generalizing i s with
  | nil =>
    simp only [RTStack.run, StackRes.next.injEq] at h
    subst h
    rw [hs.stop] at hstop; simp at hstop
  | cons m ms ih =>
    have hlt := hs.lt
    have hn : c.S.nSurf = c.S.widths.length - 1 := rfl
    have g3 : ∀ j : ℕ, j < c.S.widths.length → pyGet c.nks (j : ℤ) = some n := by
      intro j hj
      rw [hc.nks]; simp [pyGet, hj]
    have hg : ∀ cell, c.cells[i]? = some cell → ∀ ot r d k sd, c.meet cell none n n m s ≠ some (.gaveUp ot r d k sd) := by
      intro cell hcell
      refine hgave [] m (by simp) s rfl cell none n n ?_ ?_ ?_ ?_
      · rw [hs.surf]; simpa [pyGet] using hcell
      · rw [hs.surf, hc.tabs]; simp [pyGet, List.getElem?_replicate]; omega
      · rw [if_pos hs.dir, hs.mat]; exact g3 i (by omega)
      · rw [if_pos hs.dir, hs.mat]
        have := g3 (i + 1) (by omega)
        push_cast at this; exact this
    rcases hst : c.step m s with s1 | _ | _
    · have hrun : c.run (m :: ms) s = c.run ms s1 := by simp only [RTStack.run, hst]
      rw [hrun] at h
      rcases straight_step hc hS hasin h0 h1 hth (fun cell hcell => hm 0 m cell rfl (by simpa using hcell)) hs hg hst with hs1 | ht
      · refine ih (i + 1) (fun j m' cell hj hcell => hm (j + 1) m' cell (by simpa using hj) (by rw [← hcell]; congr 1; omega)) s1 hs1 ?_ h
        intro ms1 m' hp s2 hs2
        refine hgave (m :: ms1) m' (by rw [List.cons_append]; exact List.cons_prefix_cons.mpr ⟨rfl, hp⟩) s2 ?_
        simp only [RTStack.run, hst, hs2]
      · have : c.run ms s1 = .next s1 := by
          have hstay : ∀ ms, c.run ms s1 = .next s1 := by
            intro ms
            induction ms with
            | nil => rfl
            | cons m ms ih => simp only [RTStack.run, RTStack.step, ht.stop, if_true, ih]
          exact hstay ms
        rw [this] at h
        simp only [StackRes.next.injEq] at h
        subst h; exact ht
    · simp only [RTStack.run, hst] at h; simp at h
    · simp only [RTStack.run, hst] at h; simp at h

/-- **C160, the whole structure.** Any number of layers, every surface with its own texture (height maps on which the light falls more steeply than they rise), all media with the same refractive index: a ray traced to its end has gone straight through. It counts as transmitted, with the
intensity that Lambert-Beer leaves, and each layer has absorbed what Lambert-Beer takes away in it, as if there were no textures at all. -/
theorem C160_ray (c : RTStack) (n : ℂ) (hc : IndexMatched c n) (hS : Passive c.S) (hasin : ∀ z, IsArcsin z (c.asin z)) (h θ φ x y : ℝ) (hh : h + 1e-8 ≠ 0) (h0 : 0 ≤ θ) (h1 : θ < Real.pi / 2)
    (hth : c.S.thresh ≤ leftAfter c.S θ (c.S.widths.length - 2)) (ms : List Meeting) (hm : ∀ (i : ℕ) m cell, ms[i]? = some m → c.cells[i]? = some cell → SteepMeeting θ cell m)
    (hgave : NeverGivenUp c (c.start x y 0 1 (rA0 h θ φ)) ms) (s : StackRay) (hrun : c.run ms (c.start x y 0 1 (rA0 h θ φ)) = .next s) (hstop : s.ray.stop = true) :
    s.ray.isTrns = true ∧ s.ray.isRefl = false ∧ s.ray.I = leftAfter c.S θ (c.S.widths.length - 2) ∧
      ∀ m, s.ray.A m = if 1 ≤ m ∧ m + 1 < c.S.widths.length then leftAfter c.S θ (m - 1) - leftAfter c.S θ m else 0 := by
  have h2 := hc.media
  have ht := straight_run hc hS hasin h0 h1 hth ms 0 (fun j m cell hj hcell => hm j m cell hj (by simpa using hcell)) (c.start x y 0 1 (rA0 h θ φ)) s
    { stop := rfl, dir := rfl, mat := rfl, surf := rfl, lt := by omega, d := (C101_direction h θ φ x y h0 h1 hh).1, I := by rw [leftAfter_zero]; rfl
      A := by intro m; rw [if_neg (by omega)]; rfl } hgave hrun hstop
  refine ⟨?_, ?_, ht.I, ht.A⟩
  · unfold Ray.isTrns; rw [ht.angle]; simp; linarith
  · unfold Ray.isRefl; rw [ht.angle]; simp; linarith

/-- **C160.** `rt_structure.calculate`: with all media the same, nothing is reflected, and transmission and absorption in each layer are those of the layers without any texture. -/
theorem C160_matched (c : RTStack) (n : ℂ) (hc : IndexMatched c n) (hS : Passive c.S) (hasin : ∀ z, IsArcsin z (c.asin z)) (h θ φ : ℝ) (hh : h + 1e-8 ≠ 0) (h0 : 0 ≤ θ) (h1 : θ < Real.pi / 2)
    (hth : c.S.thresh ≤ leftAfter c.S θ (c.S.widths.length - 2)) (rays : List Ray) (hne : rays ≠ [])
    (hrays : ∀ ray ∈ rays, ∃ x y ms s, (∀ (i : ℕ) m cell, ms[i]? = some m → c.cells[i]? = some cell → SteepMeeting θ cell m) ∧ NeverGivenUp c (c.start x y 0 1 (rA0 h θ φ)) ms ∧
      c.run ms (c.start x y 0 1 (rA0 h θ φ)) = .next s ∧ s.ray.stop = true ∧ s.ray = ray) :
    resR rays = 0 ∧ resT rays = leftAfter c.S θ (c.S.widths.length - 2) ∧ ∀ m, 1 ≤ m → m + 1 < c.S.widths.length → resA rays m = leftAfter c.S θ (m - 1) - leftAfter c.S θ m := by
  have key : ∀ ray ∈ rays, ray.isTrns = true ∧ ray.isRefl = false ∧ ray.I = leftAfter c.S θ (c.S.widths.length - 2) ∧
      ∀ m, ray.A m = if 1 ≤ m ∧ m + 1 < c.S.widths.length then leftAfter c.S θ (m - 1) - leftAfter c.S θ m else 0 := by
    intro ray hr
    obtain ⟨x, y, ms, s, hm, hg, hrun, hstop, rfl⟩ := hrays ray hr
    exact C160_ray c n hc hS hasin h θ φ x y hh h0 h1 hth ms hm hg s hrun hstop
  refine ⟨?_, ?_, fun m a b => ?_⟩
  · unfold resR
    rw [rayMean_congr (g := fun _ => 0) fun s hs => by rw [(key s hs).2.1]; rfl, rayMean_const hne]
  · unfold resT
    rw [rayMean_congr (g := fun _ => leftAfter c.S θ (c.S.widths.length - 2)) fun s hs => by rw [(key s hs).1, (key s hs).2.2.1]; rfl, rayMean_const hne]
  · unfold resA
    rw [rayMean_congr (g := fun _ => leftAfter c.S θ (m - 1) - leftAfter c.S θ m) fun s hs => by rw [(key s hs).2.2.2 m, if_pos ⟨a, b⟩], rayMean_const hne]

/-! ## Normal incidence: the ray always arrives -/

theorem vertical_hits {Lx Ly s ℓ : ℝ} {h : ℝ → ℝ → ℝ} {tris : List Tri} (H : HeightMap Lx Ly s ℓ h tris) (hs : 0 ≤ s) {r : V3} (hr : InCell Lx Ly r) (habove : h r.x r.y < r.z) :
    ∃ p θ N, checkIntersect r straightDown tris = some (p, θ, N) ∧ h r.x r.y - 2 * s * (1 / 10 ^ 10 * ℓ) ≤ p.z := by
  obtain ⟨τ0, hτ0, hin0⟩ := H.covers r.x r.y hr.1 hr.2.1 hr.2.2.1 hr.2.2.2
  have hup0 := H.up τ0 hτ0
  have hpar : ¬ Parallel τ0 straightDown := by
    unfold Parallel
    have : V3.dot straightDown (V3.cross (τ0.P1 - τ0.P0) (τ0.P2 - τ0.P0)) = -τ0.crossP.z := by unfold Tri.crossP; simp [V3.dot, straightDown]
    rw [this]; linarith
  have hin0' : InTri 0 τ0 (r + (r.z - h r.x r.y) • straightDown) := by
    have : r + (r.z - h r.x r.y) • straightDown = ⟨r.x, r.y, h r.x r.y⟩ := by ext <;> simp [straightDown]
    rw [this]; exact hin0
  obtain ⟨p, θ, N, hci⟩ := checkIntersect_isSome hτ0 (hit_of_inTri hpar (by linarith) hin0').1
  obtain ⟨τ, hτ, t, -, hp, hin, -⟩ := C45_sound_nearest _ _ _ _ _ _ hci
  refine ⟨p, θ, N, hci, ?_⟩
  have hn := near_graph H hs hτ (by norm_num) (by norm_num) hin
  have ex : p.x = r.x := by rw [hp]; simp [straightDown]
  have ey : p.y = r.y := by rw [hp]; simp [straightDown]
  rw [ex, ey] at hn
  linarith [(abs_le.mp hn).1]

theorem incoming_zero (φ : ℝ) : incoming 0 φ = straightDown := by simp [incoming, straightDown]

theorem normal_run {c : RTStack} {n : ℂ} (hc : IndexMatched c n) (hS : Passive c.S) (hasin : ∀ z, IsArcsin z (c.asin z)) (hrand : c.randomize = false)
    (hth : c.S.thresh ≤ leftAfter c.S 0 (c.S.widths.length - 2)) {tris : ℕ → List Tri} {lo hi : ℕ → ℝ} (hmap : StackedMaps c tris lo hi) {φ : ℝ} (ms : List Meeting) (i : ℕ) (hlen : i + ms.length + 1 = c.S.widths.length)
    (hm : ∀ (j : ℕ) m, ms[j]? = some m → 3 ≤ m.ws.length ∧ ∀ w ∈ m.ws, w.tris = tris (i + j) ∧ 0 < w.rnd ∧ w.rnd < 1)
    (s : StackRay) (hs : Straight c 0 φ i s) (r : V3) (hr : s.r = some r) (habove : hi i < r.z) : (∃ s', c.run ms s = .next s' ∧ Through c 0 s') ∧ NeverGivenUp c s ms := by
  have hpi := Real.pi_pos
  induction ms generalizing i s r with
  | nil => have := hs.lt; simp at hlen; omega
  | cons m ms ih =>
    have hlt := hs.lt
    obtain ⟨cell, hcell, hstep, hdet⟩ := straight_meets hc hs m
    obtain ⟨hLx, hLy, sl, ℓ, hf, hs0, hroom, H, hrange⟩ := hmap.map i cell hcell
    obtain ⟨hl3, hws⟩ := hm 0 m rfl
    rw [Nat.add_zero] at hws
    have hd : s.d = straightDown := by rw [hs.d, incoming_zero]
    -- where the ray arrives
    obtain ⟨r1, hr1⟩ : ∃ r1, r1 = wrapRay r straightDown cell.Lx cell.Ly cell.zcov := ⟨_, rfl⟩
    have hz1 : r1.z = r.z := by rw [hr1]; rfl
    have hcellr : InCell cell.Lx cell.Ly r1 := by
      have := (flat_wrap (z := cell.zcov) (r := r) (d := straightDown) (by simp [straightDown]) hLx hLy).1
      rw [← hr1] at this
      simpa [InCell, straightDown] using this
    obtain ⟨p, t, N, hit, hpz⟩ := vertical_hits H hs0 hcellr (by rw [hz1]; exact ((hrange _ _).2).trans_lt habove)
    have hw : ∀ w ∈ m.ws.map (fun w => w.draw c.asin c.pol none n n), MatchedDraw c.asin n c.pol w ∧ w.tris = tris i := by
      intro w hw
      obtain ⟨w', hw', rfl⟩ := List.mem_map.mp hw
      obtain ⟨e, r0, -⟩ := hws w' hw'
      refine ⟨⟨⟨w'.rnd, r0, rfl⟩, ?_⟩, e⟩
      intro τ hτ
      have hτ' : τ ∈ tris i := by rw [← e]; exact hτ
      have := H.up τ hτ'
      have h2 : 0 < V3.dot τ.crossP τ.crossP := by
        unfold V3.dot
        nlinarith [mul_self_nonneg τ.crossP.x, mul_self_nonneg τ.crossP.y, mul_pos this this]
      exact h2.ne'
    have hho : horiz straightDown = 0 := by simp [horiz, straightDown]
    obtain ⟨hex, hall⟩ := steep_hits hasin hc.re (pol := c.pol) H hs0 (d := straightDown) (by simp [V3.dot, straightDown]) (by simp [straightDown]) (κ := 1) (by rw [hho]; simp [straightDown]) (by linarith) one_pos
      (m.ws.map (fun w => w.draw c.asin c.pol none n n)) hw (sicStart r1 straightDown 1 0) rfl rfl rfl hit
    obtain ⟨res, hres⟩ := hex (by simpa using hl3)
    obtain ⟨r', hz', rfl⟩ := hall res hres
    have hmeet : c.meet cell none n n m s = some (.out 1 (Model.polar (incoming 0 φ)) r' (incoming 0 φ) (some t) (0 + 1) (-1)) := by
      have hrd : c.randomised cell m s = (some r, straightDown) := by unfold RTStack.randomised; rw [if_neg (by simp [hrand]), hr, hd]
      unfold RTStack.meet
      simp only [hrd, hc.periodic, if_true, wrapOpt, if_neg (show ¬ straightDown.z = 0 by simp [straightDown]), Option.map_some, ← hr1, hs.dir, hres, incoming_zero]
      rfl
    obtain ⟨ray', hray, hor⟩ := straight_advance hc hS le_rfl (by linarith) hth hs (some r')
    have hnext : c.step m s = .next { ray := ray', r := some r', d := incoming 0 φ } := by
      rw [hstep, hmeet]
      simp only [RTStack.advance, SicRes.outcome, one_ne_zero, if_false, polar_incoming le_rfl (show (0 : ℝ) < Real.pi / 2 by linarith), SicRes.pos, SicRes.dir, hray]
    have hrun : c.run (m :: ms) s = c.run ms { ray := ray', r := some r', d := incoming 0 φ } := by simp only [RTStack.run, hnext]
    rw [hrun]
    have hgave : NeverGivenUp c { ray := ray', r := some r', d := incoming 0 φ } ms → NeverGivenUp c s (m :: ms) := by
      intro hg ms1 m' hp s1 hs1 cell' tab ni nj g1 g2 g3 g4
      rcases ms1 with _ | ⟨m1, ms1⟩
      · obtain ⟨rfl, -⟩ := List.cons_prefix_cons.mp hp
        simp only [RTStack.run, StackRes.next.injEq] at hs1
        subst hs1
        intro ot r2 d k sd hcon
        obtain ⟨rfl, rfl, rfl, rfl⟩ := hdet cell' tab ni nj g1 g2 g3 g4
        rw [hmeet] at hcon
        simp at hcon
      · rw [List.cons_append] at hp
        obtain ⟨rfl, hp'⟩ := List.cons_prefix_cons.mp hp
        simp only [RTStack.run, hnext] at hs1
        exact hg ms1 m' hp' s1 hs1 cell' tab ni nj g1 g2 g3 g4
    rcases hor with ⟨hlt2, hs1⟩ | ⟨hend, ht⟩
    · refine (fun a => ⟨a.1, hgave a.2⟩) <| ih (i + 1) (by simp only [List.length_cons] at hlen; omega) (fun j m' hj => ?_) _ hs1 r' rfl ?_
      · have := hm (j + 1) m' (by simpa using hj)
        rwa [show i + (j + 1) = i + 1 + j by omega] at this
      · have h1 := hmap.apart i
        have h2 := (hrange r1.x r1.y).1
        rw [hz']
        have h3 : straightDown.z = -1 := rfl
        rw [h3]
        have h4 : 2 * sl * (1 / 10 ^ 10 * ℓ) ≤ 1 / 1000 := by
          have : sl * ℓ ≤ 5 / 2 := by nlinarith
          nlinarith
        norm_num at h4 hpz ⊢
        linarith
    · have : ms = [] := by
        rw [← List.length_eq_zero_iff]
        simp only [List.length_cons] at hlen; omega
      subst this
      exact ⟨⟨_, rfl, ht⟩, hgave (by intro ms1 m' hp; simp at hp)⟩

/-- **C160, normal incidence.** Light from straight above, any number of layers with any textures that form height maps, one below the other: every ray arrives (no surface is ever missed), and goes straight through with the intensity, and the absorption in each layer, of the structure without textures. -/
theorem C160_normal (c : RTStack) (n : ℂ) (hc : IndexMatched c n) (hS : Passive c.S) (hasin : ∀ z, IsArcsin z (c.asin z)) (hrand : c.randomize = false)
    (hth : c.S.thresh ≤ leftAfter c.S 0 (c.S.widths.length - 2)) (tris : ℕ → List Tri) (lo hi : ℕ → ℝ) (hmap : StackedMaps c tris lo hi) (h φ x y : ℝ) (hh : h + 1e-8 ≠ 0) (habove : hi 0 < h + 1e-8)
    (ms : List Meeting) (hm : OneMeetingEach c tris ms) :
    ∃ s, c.run ms (c.start x y 0 1 (rA0 h 0 φ)) = .next s ∧ s.ray.stop = true ∧ s.ray.isTrns = true ∧ s.ray.isRefl = false ∧ s.ray.I = leftAfter c.S 0 (c.S.widths.length - 2) ∧
      ∀ m, s.ray.A m = if 1 ≤ m ∧ m + 1 < c.S.widths.length then leftAfter c.S 0 (m - 1) - leftAfter c.S 0 m else 0 := by
  have hpi := Real.pi_pos
  have h2 := hc.media
  have hn : c.S.nSurf = c.S.widths.length - 1 := rfl
  obtain ⟨⟨s, hrun, ht⟩, -⟩ := normal_run hc hS hasin hrand hth hmap (φ := φ) ms 0 (by rw [hm.1]; omega) (fun j m hj => by rw [Nat.zero_add]; exact hm.2 j m hj) (c.start x y 0 1 (rA0 h 0 φ))
    { stop := rfl, dir := rfl, mat := rfl, surf := rfl, lt := by omega, d := (C101_direction h 0 φ x y le_rfl (by linarith) hh).1, I := by rw [leftAfter_zero]; rfl
      A := by intro m; rw [if_neg (by omega)]; rfl } (c.S.startPos x y 0 1 (rA0 h 0 φ)) rfl (by
        simp [Stack.startPos, Stack.zOffset, rA0]; norm_num at habove ⊢; linarith [le_abs_self (h + 1 / 100000000)])
  refine ⟨s, hrun, ht.stop, ?_, ?_, ht.I, ht.A⟩
  · unfold Ray.isTrns; rw [ht.angle]; simp; linarith
  · unfold Ray.isRefl; rw [ht.angle]; simp; linarith

/-! ## Examples -/

/-- Upright pyramids of base 2 and height 1/3 on the level `z`. -/
noncomputable def pyramidsAt (z : ℝ) : List Tri :=
  [⟨⟨0, 0, z⟩, ⟨2, 0, z⟩, ⟨1, 1, 1 / 3 + z⟩⟩, ⟨⟨2, 0, z⟩, ⟨2, 2, z⟩, ⟨1, 1, 1 / 3 + z⟩⟩, ⟨⟨2, 2, z⟩, ⟨0, 2, z⟩, ⟨1, 1, 1 / 3 + z⟩⟩, ⟨⟨0, 2, z⟩, ⟨0, 0, z⟩, ⟨1, 1, 1 / 3 + z⟩⟩]

/-- A triangle lifted by `z`. -/
noncomputable def liftTri (z : ℝ) (τ : Tri) : Tri := ⟨τ.P0 + ⟨0, 0, z⟩, τ.P1 + ⟨0, 0, z⟩, τ.P2 + ⟨0, 0, z⟩⟩

theorem lift_sub1 (z : ℝ) (τ : Tri) : (liftTri z τ).P1 - (liftTri z τ).P0 = τ.P1 - τ.P0 := by ext <;> simp [liftTri]
theorem lift_sub2 (z : ℝ) (τ : Tri) : (liftTri z τ).P2 - (liftTri z τ).P0 = τ.P2 - τ.P0 := by ext <;> simp [liftTri]

theorem lift_inTri {ε z : ℝ} {τ : Tri} {p : V3} : InTri ε (liftTri z τ) p ↔ InTri ε τ (p - ⟨0, 0, z⟩) := by
  unfold InTri
  simp only [lift_sub1, lift_sub2]
  constructor
  · rintro ⟨u, v, a, b, c, e⟩
    exact ⟨u, v, a, b, c, by rw [e]; ext <;> simp [liftTri]; ring⟩
  · rintro ⟨u, v, a, b, c, e⟩
    refine ⟨u, v, a, b, c, ?_⟩
    have e' := e
    rw [V3.ext_iff] at e' ⊢
    simp [liftTri] at e' ⊢
    obtain ⟨e1, e2, e3⟩ := e'
    exact ⟨e1, e2, by linarith⟩

theorem lift_map {Lx Ly s ℓ : ℝ} {h : ℝ → ℝ → ℝ} {tris : List Tri} (H : HeightMap Lx Ly s ℓ h tris) (z : ℝ) : HeightMap Lx Ly s ℓ (fun x y => h x y + z) (tris.map (liftTri z)) where
  repeatX := by intro x y; simp only [H.repeatX]
  repeatY := by intro x y; simp only [H.repeatY]
  slope := by intro x y x' y'; simpa using H.slope x y x' y'
  on := by
    intro τ hτ p hp
    obtain ⟨τ', hτ', rfl⟩ := List.mem_map.mp hτ
    have := H.on τ' hτ' _ (lift_inTri.mp hp)
    simp at this
    linarith
  up := by
    intro τ hτ
    obtain ⟨τ', hτ', rfl⟩ := List.mem_map.mp hτ
    have := H.up τ' hτ'
    unfold Tri.crossP at this ⊢
    rwa [lift_sub1, lift_sub2]
  covers := by
    intro x y a b c d
    obtain ⟨τ, hτ, hin⟩ := H.covers x y a b c d
    refine ⟨liftTri z τ, List.mem_map_of_mem hτ, lift_inTri.mpr ?_⟩
    have e : (⟨x, y, h x y + z⟩ : V3) - ⟨0, 0, z⟩ = ⟨x, y, h x y⟩ := by ext <;> simp
    rw [e]; exact hin
  size := by
    intro τ hτ
    obtain ⟨τ', hτ', rfl⟩ := List.mem_map.mp hτ
    rw [lift_sub1, lift_sub2]; exact H.size τ' hτ'

theorem pyramidsAt_map (z : ℝ) : ∃ h : ℝ → ℝ → ℝ, HeightMap 2 2 (1 / 3) 4 h (pyramidsAt z) ∧ ∀ x y, z ≤ h x y ∧ h x y ≤ 1 / 3 + z := by
  have H := (pyramid_map (1 / 3) 2 two_pos _ rfl).1
  have e1 : (2 : ℝ) * |1 / 3| / 2 = 1 / 3 := by rw [abs_of_pos (by norm_num)]; norm_num
  rw [e1, show (2 : ℝ) * 2 = 4 by norm_num] at H
  have H2 := lift_map H z
  have e2 : pyramidsAt z = List.map (liftTri z) [⟨⟨0, 0, 0⟩, ⟨2, 0, 0⟩, ⟨2 / 2, 2 / 2, 1 / 3⟩⟩, ⟨⟨2, 0, 0⟩, ⟨2, 2, 0⟩, ⟨2 / 2, 2 / 2, 1 / 3⟩⟩, ⟨⟨2, 2, 0⟩, ⟨0, 2, 0⟩, ⟨2 / 2, 2 / 2, 1 / 3⟩⟩, ⟨⟨0, 2, 0⟩, ⟨0, 0, 0⟩, ⟨2 / 2, 2 / 2, 1 / 3⟩⟩] := by
    have a : ∀ x y w : ℝ, (⟨x, y, w⟩ : V3) + ⟨0, 0, z⟩ = ⟨x, y, w + z⟩ := by intro x y w; ext <;> simp
    simp only [pyramidsAt, List.map_cons, List.map_nil, liftTri, a, zero_add, div_self (two_ne_zero : (2 : ℝ) ≠ 0)]
  rw [e2]
  refine ⟨_, H2, fun x y => ?_⟩
  unfold pyramidFn
  have hle : ∀ t, 0 ≤ toInt t ∧ toInt t ≤ 1 / 2 := fun t => ⟨abs_nonneg _, abs_sub_round t⟩
  obtain ⟨m0, m1⟩ : 0 ≤ min (toInt (x / 2)) (toInt (y / 2)) ∧ min (toInt (x / 2)) (toInt (y / 2)) ≤ 1 / 2 := ⟨le_min (hle _).1 (hle _).1, (min_le_left _ _).trans (hle _).2⟩
  constructor <;> linarith

/-- A layer that absorbs, between two pyramid textures, in a medium of its own refractive index. -/
noncomputable def exMatched (asin : ℂ → ℂ) : RTStack :=
  { S := exStack, cells := [⟨2, 2, 0, 1 / 3, 0⟩, ⟨2, 2, -2, -2 + 1 / 3, -2⟩], nks := [2, 2, 2], tabs := [none, none], asin := asin, pol := .u, randomize := false, periodic := true }

theorem exMatched_ok (asin : ℂ → ℂ) : IndexMatched (exMatched asin) 2 ∧ StackedMaps (exMatched asin) (fun i => pyramidsAt (-2 * i)) (fun i => -2 * i) (fun i => 1 / 3 + -2 * i) := by
  refine ⟨⟨rfl, rfl, rfl, rfl, by norm_num, by simp [exMatched, exStack]⟩, ?_, ?_⟩
  · intro i cell hcell
    have : cell.Lx = 2 ∧ cell.Ly = 2 := by
      rcases i with _ | _ | i <;> simp [exMatched] at hcell <;> subst hcell <;> exact ⟨rfl, rfl⟩
    obtain ⟨h, H, hr⟩ := pyramidsAt_map (-2 * i)
    rw [this.1, this.2]
    exact ⟨two_pos, two_pos, 1 / 3, 4, h, by norm_num, by norm_num, H, hr⟩
  · intro i; push_cast; linarith

noncomputable def exMeetings : List Meeting :=
  [⟨0, 0, List.replicate 3 ⟨pyramidsAt (-2 * (0 : ℕ)), 0, 1 / 3, 0, 0, 1 / 2⟩⟩, ⟨0, 0, List.replicate 3 ⟨pyramidsAt (-2 * (1 : ℕ)), -2, -2 + 1 / 3, 0, 0, 1 / 2⟩⟩]

theorem exMeetings_ok (asin : ℂ → ℂ) : OneMeetingEach (exMatched asin) (fun i => pyramidsAt (-2 * i)) exMeetings := by
  refine ⟨rfl, ?_⟩
  intro i m hm
  rcases i with _ | _ | i <;> simp only [exMeetings, List.getElem?_cons_zero, List.getElem?_cons_succ, List.getElem?_nil, Option.some.injEq, reduceCtorEq] at hm
  all_goals
    subst hm
    refine ⟨by simp, fun w hw => ?_⟩
    rw [List.eq_of_mem_replicate hw]
    norm_num

theorem exMatched_thresh (asin : ℂ → ℂ) : (exMatched asin).S.thresh ≤ leftAfter (exMatched asin).S 0 ((exMatched asin).S.widths.length - 2) := by
  have e : leftAfter (exMatched asin).S 0 ((exMatched asin).S.widths.length - 2) = Real.exp (-2) := by
    simp [leftAfter, exMatched, exStack]
  rw [e]
  have h1 : (1 : ℝ) / 100 ≤ Real.exp (-2) := by
    have h2 : (1 : ℝ) / 2 ≤ Real.exp (-1 / 2) := by linarith [Real.add_one_le_exp (-1 / 2 : ℝ)]
    have h4 : Real.exp (-2) = Real.exp (-1 / 2) ^ 4 := by rw [← Real.exp_nat_mul]; norm_num
    rw [h4]
    calc (1 : ℝ) / 100 ≤ (1 / 2) ^ 4 := by norm_num
      _ ≤ _ := by gcongr
  exact h1

/-- The hypotheses of `C160_normal`. -/
example : ∃ asin : ℂ → ℂ, (∀ z, IsArcsin z (asin z)) ∧ IndexMatched (exMatched asin) 2 ∧ Passive (exMatched asin).S ∧ (exMatched asin).randomize = false ∧
    (exMatched asin).S.thresh ≤ leftAfter (exMatched asin).S 0 ((exMatched asin).S.widths.length - 2) ∧
    StackedMaps (exMatched asin) (fun i => pyramidsAt (-2 * i)) (fun i => -2 * i) (fun i => 1 / 3 + -2 * i) ∧ OneMeetingEach (exMatched asin) (fun i => pyramidsAt (-2 * i)) exMeetings := by
  choose asin hasin using exists_isArcsin
  exact ⟨asin, hasin, (exMatched_ok asin).1, exStack_passive, rfl, exMatched_thresh asin, (exMatched_ok asin).2, exMeetings_ok asin⟩

/-- The hypotheses of `C160_ray` and `C160_matched`, with the ray that `C160_normal` traces: nothing is reflected by the pyramids, `exp (-2)` is transmitted and the rest absorbed. -/
example : ∃ (asin : ℂ → ℂ) (s : StackRay), (∀ z, IsArcsin z (asin z)) ∧ (∀ (i : ℕ) m cell, exMeetings[i]? = some m → (exMatched asin).cells[i]? = some cell → SteepMeeting 0 cell m) ∧
    NeverGivenUp (exMatched asin) ((exMatched asin).start 1 1 0 1 (rA0 1 0 0)) exMeetings ∧ (exMatched asin).run exMeetings ((exMatched asin).start 1 1 0 1 (rA0 1 0 0)) = .next s ∧ s.ray.stop = true ∧
    resR [s.ray, s.ray] = 0 ∧ resT [s.ray, s.ray] = Real.exp (-2) ∧ resA [s.ray, s.ray] 1 = 1 - Real.exp (-2) := by
  choose asin hasin using exists_isArcsin
  have hpi := Real.pi_pos
  obtain ⟨hmat, hmaps⟩ := exMatched_ok asin
  obtain ⟨⟨s, hrun, ht⟩, hg⟩ := normal_run hmat exStack_passive hasin rfl (exMatched_thresh asin) hmaps (φ := 0) exMeetings 0 rfl
    (fun j m hj => by rw [Nat.zero_add]; exact (exMeetings_ok asin).2 j m hj) ((exMatched asin).start 1 1 0 1 (rA0 1 0 0))
    { stop := rfl, dir := rfl, mat := rfl, surf := rfl, lt := by simp [exMatched, exStack], d := (C101_direction 1 0 0 1 1 le_rfl (by linarith) (by norm_num)).1, I := by rw [leftAfter_zero]; rfl
      A := by intro m; rw [if_neg (by omega)]; rfl } ((exMatched asin).S.startPos 1 1 0 1 (rA0 1 0 0)) rfl (by
        simp [Stack.startPos, Stack.zOffset, rA0]; norm_num)
  have hsteep : ∀ (i : ℕ) m cell, exMeetings[i]? = some m → (exMatched asin).cells[i]? = some cell → SteepMeeting 0 cell m := by
    intro i m cell hm hcell
    obtain ⟨-, -, sl, ℓ, h, a, b, H, -⟩ := hmaps.map i cell hcell
    exact ⟨sl, ℓ, h, _, a, H, by simp, by simpa using b, ((exMeetings_ok asin).2 i m hm).2⟩
  obtain ⟨a, b, c⟩ := C160_matched (exMatched asin) 2 hmat exStack_passive hasin 1 0 0 (by norm_num) le_rfl (by linarith) (exMatched_thresh asin) [s.ray, s.ray] (by simp)
    (fun ray hray => ⟨1, 1, exMeetings, s, hsteep, hg, hrun, ht.stop, by simp at hray; exact hray.symm⟩)
  have e1 : leftAfter (exMatched asin).S 0 1 = Real.exp (-2) := by simp [leftAfter, exMatched, exStack]
  refine ⟨asin, s, hasin, hsteep, hg, hrun, ht.stop, a, ?_, ?_⟩
  · rw [b]; exact e1
  · rw [c 1 le_rfl (by simp [exMatched, exStack]), e1, Nat.sub_self, leftAfter_zero]

end Rayflare
