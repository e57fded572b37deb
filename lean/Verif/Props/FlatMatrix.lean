import Verif.Props.FlatTrace
import Verif.Props.UnbiasedMatrix
import Verif.Props.Azimuth
import Verif.Props.RTStart
import Verif.Props.Fresnel

/-!
# Property C152: the redistribution matrix that ray tracing gives for a flat surface
-/

namespace Rayflare

open Rayflare.Np Rayflare.Model Rayflare.Spec Rayflare.Lemmas MeasureTheory

/-! ## Helper lemmas: one meeting with a flat surface -/

section
variable {Lx Ly z : ℝ} (hLx : 0 < Lx) (hLy : 0 < Ly)

/-- After the facet: also when the ray is traced with random numbers. -/
theorem flat_leave_run {d0 : V3} {w1 w2 : Draw} {ws : List Draw} (h1 : FlatSurface w1.tris Lx Ly z) (h2 : FlatSurface w2.tris Lx Ly z) {s : Sic}
    (hs : s.checked = false) (hi : 1 ≤ s.i1) (haway : MovesAway s.side s.d) (hz : s.side = 1 ∧ z < s.r.z ∨ s.side = -1 ∧ s.r.z < z) :
    ∃ r', sicRun Lx Ly d0 (w1 :: w2 :: ws) s = .inr (.out (finalRes d0 s.d) (polar s.d) r' s.d s.θ s.nInt s.side) := by
  have hm : (z < s.r.z ∧ 0 < s.d.z) ∨ (s.r.z < z ∧ s.d.z < 0) := by
    rcases haway with ⟨a, b⟩ | ⟨a, b⟩ <;> rcases hz with ⟨c, e⟩ | ⟨c, e⟩
    · exact Or.inl ⟨e, b⟩
    · omega
    · omega
    · exact Or.inr ⟨e, b⟩
  have m1 := flat_miss h1 hm
  let s' : Sic := { s with r := s.r + translation Lx Ly (exitSide s.r s.d Lx Ly).1, checked := true, i1 := s.i1 + 1 }
  have hz' : s'.r.z = s.r.z := by
    simp only [s', V3.add_z, add_eq_left]
    unfold translation
    split <;> rfl
  have step1 : sicStep Lx Ly d0 w1 s = .inl s' := by
    unfold sicStep
    simp only [m1, hs]
    rw [if_pos (by rfl), if_pos (by omega)]
  have m2 : checkIntersect s'.r s'.d w2.tris = none := flat_miss h2 (by rw [hz']; exact hm)
  have step2 : sicStep Lx Ly d0 w2 s' = .inr (.out (finalRes d0 s.d) (polar s.d) ⟨backInto s'.r.x Lx, backInto s'.r.y Ly, s'.r.z⟩ s.d s.θ s.nInt s.side) := by
    unfold sicStep
    simp only [m2]
    rw [if_neg (by simp [s']), if_neg]
    rintro (⟨a, b, -⟩ | ⟨a, b, -⟩)
    · rcases haway with ⟨e, f⟩ | ⟨e, f⟩
      · exact absurd b (not_lt.mpr f.le)
      · simp only [s'] at a; omega
    · rcases haway with ⟨e, f⟩ | ⟨e, f⟩
      · simp only [s'] at a; omega
      · exact absurd b (not_lt.mpr f.le)
  exact ⟨⟨backInto s'.r.x Lx, backInto s'.r.y Ly, s'.r.z⟩, by simp only [sicRun, step1, step2]⟩

include hLx hLy in
/-- The ray meets the surface where it is expected to. -/
theorem flat_first {tris : List Tri} (f0 : FlatSurface tris Lx Ly z) {r d : V3} {side : ℤ} {θ : ℝ} (h0 : 0 ≤ θ) (h1 : θ < Real.pi / 2) (hd : Going side θ d) (hon : OnSide side z r.z) :
    ∃ p : V3, p.z = z ∧ checkIntersect (wrapRay r d Lx Ly z) d tris = some (p, localTheta ⟨0, 0, 1⟩ d, ⟨0, 0, 1⟩) := by
  have hc := Going.cos_pos h0 h1
  have hdz : d.z ≠ 0 := by
    rw [hd.vertical]
    rcases hd.sided with e | e <;> rw [e] <;> push_cast <;> simp [hc.ne']
  have hwrap := flat_wrap (z := z) (r := r) hdz hLx hLy
  have hquot : 0 < (z - (wrapRay r d Lx Ly z).z) / d.z := by
    rw [hwrap.2]
    have hv := hd.vertical
    rcases hon with ⟨e, a⟩ | ⟨e, a⟩ <;> rw [e] at hv <;> push_cast at hv
    · exact div_pos_of_neg_of_neg (by linarith) (by linarith)
    · exact div_pos (by linarith) (by linarith)
  refine ⟨_, ?_, flat_hit f0 hquot hdz hwrap.1⟩
  simp; field_simp; ring

theorem going_clear {p d' : V3} (hp : p.z = z) {side' : ℤ} {θ' : ℝ} (a0 : 0 ≤ θ') (a1 : θ' < Real.pi / 2) (hg : Going (-side') θ' d') :
    MovesAway side' d' ∧ (side' = 1 ∧ z < (p + (1 / 10 ^ 9 : ℝ) • d').z ∨ side' = -1 ∧ (p + (1 / 10 ^ 9 : ℝ) • d').z < z) := by
  have haw := hg.away a0 a1
  rw [neg_neg] at haw
  refine ⟨haw, ?_⟩
  simp only [V3.add_z, V3.smul_z, hp]
  rcases haw with ⟨e, b⟩ | ⟨e, b⟩
  · exact Or.inl ⟨e, by linarith⟩
  · exact Or.inr ⟨e, by linarith⟩

include hLx hLy in
/-- Mean over all branches at a flat surface. -/
theorem flat_facet_mean {law : FacetLaw} (g : Option SicRes → ℝ) {w0 w1 w2 : Draw} {ws : List Draw} (f0 : FlatSurface w0.tris Lx Ly z) (f1 : FlatSurface w1.tris Lx Ly z) (f2 : FlatSurface w2.tris Lx Ly z)
    {r d : V3} {side : ℤ} {θ : ℝ} (h0 : 0 ≤ θ) (h1 : θ < Real.pi / 2) (hd : Going side θ d) (hon : OnSide side z r.z) {R T θ' : ℝ} {dT : V3} {A : List ℝ}
    (hlaw : ∀ F : V3 × ℤ × Option (List ℝ) → ℝ, ((law (localTheta ⟨0, 0, 1⟩ d) d ((side : ℝ) • ⟨0, 0, 1⟩) side).map fun b => b.1 * F b.2).sum =
      R * F (⟨d.x, d.y, -d.z⟩, side, none) + T * F (dT, -side, none) + (1 - R - T) * F (d, side, some A))
    (hT : T ≠ 0 → 0 ≤ θ' ∧ θ' < Real.pi / 2 ∧ Going side θ' dT) :
    ∃ rR rT rA, branches Lx Ly d law g (w0 :: w1 :: w2 :: ws) (sicStart (wrapRay r d Lx Ly z) d side 0) =
      R * g (some (.out (finalRes d ⟨d.x, d.y, -d.z⟩) (Model.polar ⟨d.x, d.y, -d.z⟩) rR ⟨d.x, d.y, -d.z⟩ (some (localTheta ⟨0, 0, 1⟩ d)) 1 side))
        + T * g (some (.out (finalRes d dT) (Model.polar dT) rT dT (some (localTheta ⟨0, 0, 1⟩ d)) 1 (-side)))
        + (1 - R - T) * g (some (.absorbed A rA d (localTheta ⟨0, 0, 1⟩ d) 1 side)) := by
  obtain ⟨p, hp, hhit⟩ := flat_first hLx hLy f0 h0 h1 hd hon
  have after : ∀ (d' : V3) (side' : ℤ) (θ' : ℝ), 0 ≤ θ' → θ' < Real.pi / 2 → Going (-side') θ' d' →
      ∃ r', branches Lx Ly d law g (w1 :: w2 :: ws)
          { r := p + (1 / 10 ^ 9 : ℝ) • d', d := d', side := side', checked := false, misses := 0, i1 := 0 + 1, nInt := 0 + 1, θ := some (localTheta ⟨0, 0, 1⟩ d) }
        = g (some (.out (finalRes d d') (Model.polar d') r' d' (some (localTheta ⟨0, 0, 1⟩ d)) 1 side')) := by
    intro d' side' θ' a0 a1 hg
    obtain ⟨b1, b2⟩ := going_clear hp a0 a1 hg
    obtain ⟨r', -, e2⟩ := flat_leave (d0 := d) (law := law) (g := g) (ws := ws) f1 f2
      (s := { r := p + (1 / 10 ^ 9 : ℝ) • d', d := d', side := side', checked := false, misses := 0, i1 := 0 + 1, nInt := 0 + 1, θ := some (localTheta ⟨0, 0, 1⟩ d) }) rfl (by simp) b1 b2
    exact ⟨r', e2⟩
  obtain ⟨rR, hbR⟩ := after ⟨d.x, d.y, -d.z⟩ side θ h0 h1 hd.flip
  obtain ⟨F, hF⟩ : ∃ F : V3 × ℤ × Option (List ℝ) → ℝ, F = fun b => match b with
        | (d', side, some A) => g (some (.absorbed A (p + (1 / 10 ^ 9 : ℝ) • d') d' (localTheta ⟨0, 0, 1⟩ d) (0 + 1) side))
        | (d', side, none) => branches Lx Ly d law g (w1 :: w2 :: ws)
          { r := p + (1 / 10 ^ 9 : ℝ) • d', d := d', side := side, checked := false, misses := 0, i1 := 0 + 1, nInt := 0 + 1, θ := some (localTheta ⟨0, 0, 1⟩ d) } := ⟨_, rfl⟩
  have hbody : branches Lx Ly d law g (w0 :: w1 :: w2 :: ws) (sicStart (wrapRay r d Lx Ly z) d side 0) =
      ((law (localTheta ⟨0, 0, 1⟩ d) d ((side : ℝ) • ⟨0, 0, 1⟩) side).map fun b => b.1 * F b.2).sum := by
    rw [branches]
    simp only [sicStart, hhit]
    refine congrArg List.sum (List.map_congr_left ?_)
    rw [hF]
    rintro ⟨w, d, sd, _ | A⟩ _ <;> rfl
  rw [hlaw] at hbody
  have hFR := (congrFun hF (⟨d.x, d.y, -d.z⟩, side, none)).trans hbR
  have hFA : F (d, side, some A) = g (some (.absorbed A (p + (1 / 10 ^ 9 : ℝ) • d) d (localTheta ⟨0, 0, 1⟩ d) (0 + 1) side)) := by rw [hF]
  rw [hFR, hFA] at hbody
  by_cases ht : T = 0
  · exact ⟨rR, 0, _, by rw [hbody, ht]; ring⟩
  · obtain ⟨a0, a1, hg⟩ := hT ht
    obtain ⟨rT, hbT⟩ := after dT (-side) θ' a0 a1 (by rw [neg_neg]; exact hg)
    have hFT := (congrFun hF (dT, -side, none)).trans hbT
    exact ⟨rR, rT, _, by rw [hbody, hFT]⟩

include hLx hLy in
/-- With random numbers: what the first decision says. -/
theorem flat_facet_run {w0 w1 w2 : Draw} {ws : List Draw} (f0 : FlatSurface w0.tris Lx Ly z) (f1 : FlatSurface w1.tris Lx Ly z) (f2 : FlatSurface w2.tris Lx Ly z)
    {r d : V3} {side : ℤ} {θ : ℝ} (h0 : 0 ≤ θ) (h1 : θ < Real.pi / 2) (hd : Going side θ d) (hon : OnSide side z r.z)
    {d' : V3} {side' : ℤ} {A : Option (List ℝ)} (hdec : w0.dec (localTheta ⟨0, 0, 1⟩ d) d ((side : ℝ) • ⟨0, 0, 1⟩) side = (d', side', A))
    (hgo : A = none → ∃ θ', 0 ≤ θ' ∧ θ' < Real.pi / 2 ∧ Going (-side') θ' d') :
    ∃ r', sicRun Lx Ly d (w0 :: w1 :: w2 :: ws) (sicStart (wrapRay r d Lx Ly z) d side 0) = .inr (match A with
      | none => .out (finalRes d d') (Model.polar d') r' d' (some (localTheta ⟨0, 0, 1⟩ d)) 1 side'
      | some A => .absorbed A r' d' (localTheta ⟨0, 0, 1⟩ d) 1 side') := by
  obtain ⟨p, hp, hhit⟩ := flat_first hLx hLy f0 h0 h1 hd hon
  cases A with
  | some A =>
    refine ⟨p + (1 / 10 ^ 9 : ℝ) • d', ?_⟩
    rw [sicRun]
    simp only [sicStep, sicStart, hhit, hdec]
  | none =>
    obtain ⟨θ', a0, a1, hg⟩ := hgo rfl
    obtain ⟨b1, b2⟩ := going_clear hp a0 a1 hg
    obtain ⟨r', e⟩ := flat_leave_run (d0 := d) (ws := ws) f1 f2
      (s := { r := p + (1 / 10 ^ 9 : ℝ) • d', d := d', side := side', checked := false, misses := 0, i1 := 0 + 1, nInt := 0 + 1, θ := some (localTheta ⟨0, 0, 1⟩ d) }) rfl (by simp) b1 b2
    refine ⟨r', ?_⟩
    rw [sicRun]
    simp only [sicStep, sicStart, hhit, hdec]
    exact e

end

/-! ## Helper lemmas: where the rays are filed -/

theorem dirInBin_turn {n : ℕ} {c s : ℝ} {sp : Spacing} {i : ℕ} {θ φ : ℝ} (k : ℤ) : DirInBin n c s sp i θ (φ + k * s) ↔ DirInBin n c s sp i θ φ := by
  unfold DirInBin
  constructor
  · rintro ⟨a, b, q, h1, h2, h3, h4⟩
    refine ⟨a, b, q + k, h1, h2, h3, ?_⟩
    push_cast
    convert h4 using 1; ring
  · rintro ⟨a, b, q, h1, h2, h3, h4⟩
    refine ⟨a, b, q - k, h1, h2, h3, ?_⟩
    push_cast
    convert h4 using 1; ring

theorem offEdge_turn {s φ : ℝ} (k : ℤ) : OffEdge s (φ + k * s) ↔ OffEdge s φ := by
  unfold OffEdge
  constructor
  · intro h q hq
    exact h (q + k) (by rw [hq]; push_cast; ring)
  · intro h q hq
    exact h (q - k) (by push_cast; linarith)

/-- The direction of a ray that goes up or down at the angle `θ'` with azimuth `ψ`, as it is filed. -/
theorem filed_dir {m : ℕ} (hm : 0 < m) {d' : V3} {side' : ℤ} {θ' ρ ψ : ℝ} (hg : Going side' θ' d') (a0 : 0 ≤ θ') (a1 : θ' < Real.pi / 2) (hρ : 0 < ρ) (hx : d'.x = ρ * Real.cos ψ) (hy : d'.y = ρ * Real.sin ψ) :
    let θo := if side' = 1 then Real.pi - θ' else θ'
    (∀ (n : ℕ) (c : ℝ) (sp : Spacing) (front : Bool) (i : ℕ) (θin φin : ℝ),
      LeavesIn n c (2 * Real.pi / m) sp front i { θin := θin, φin := φin, out := .leaves (Model.polar d') (azimuth d') } ↔ DirInBin n c (2 * Real.pi / m) sp i (seen front θo) ψ) ∧
    (∀ (front : Bool) (θin φin : ℝ),
      OutOffEdge (2 * Real.pi / m) front { θin := θin, φin := φin, out := .leaves (Model.polar d') (azimuth d') } ↔ 0 < seen front θo ∧ OffEdge (2 * Real.pi / m) ψ) := by
  intro θo
  have hpol : Model.polar d' = θo := hg.polar a0 a1
  obtain ⟨k, hk⟩ := arg_polar ρ ψ hρ
  have haz : azimuth d' = ψ + ((k * m : ℤ) : ℝ) * (2 * Real.pi / m) := by
    unfold azimuth
    rw [hx, hy, hk]
    have : (m : ℝ) ≠ 0 := by exact_mod_cast hm.ne'
    push_cast
    field_simp
  have hpos : ¬ θo < 0 := by
    simp only [θo]
    split_ifs <;> linarith [Real.pi_pos]
  have hup : ∀ φ, upright θo φ = (θo, φ) := fun φ => by unfold upright; rw [if_neg hpos]
  refine ⟨fun n c sp front i θin φin => ?_, fun front θin φin => ?_⟩
  · simp only [LeavesIn, hpol, hup, haz]
    exact dirInBin_turn _
  · simp only [OutOffEdge, hpol, hup, haz]
    exact and_congr_right fun _ => offEdge_turn _

theorem incoming_going {θ : ℝ} (φ : ℝ) : Going 1 θ (incoming θ φ) := by
  refine ⟨Or.inl rfl, ?_, by simp [incoming]⟩
  have h2 := Real.sin_sq_add_cos_sq φ
  simp only [incoming]
  linear_combination Real.sin θ ^ 2 * h2

theorem refractDir_horizontal {ρ : ℝ} {d : V3} {side : ℤ} {θ : ℝ} (h : Going side θ d) (hρ : 0 < ρ) (h0 : 0 ≤ θ) (h1 : θ < Real.pi / 2) (hlt : ρ * Real.sin θ < 1) :
    ∃ a, 0 < a ∧ (normalise (refractDir ρ d ((side : ℝ) • ⟨0, 0, 1⟩))).x = a * d.x ∧ (normalise (refractDir ρ d ((side : ℝ) • ⟨0, 0, 1⟩))).y = a * d.y := by
  have hp : trPar ρ d ((side : ℝ) • ⟨0, 0, 1⟩) = ⟨ρ * d.x, ρ * d.y, 0⟩ := by
    unfold trPar; rw [h.tangential]; ext <;> simp
  have hnorm : V3.norm (normalise (refractDir ρ d ((side : ℝ) • ⟨0, 0, 1⟩))) = 1 := (h.refract h0 h1 hρ.le hlt).norm
  have hpos : 0 < V3.norm (refractDir ρ d ((side : ℝ) • ⟨0, 0, 1⟩)) := by
    refine lt_of_le_of_ne (Real.sqrt_nonneg _) fun e => ?_
    rw [normalise, ← e] at hnorm
    simp [V3.norm, V3.dot] at hnorm
  refine ⟨1 / V3.norm (refractDir ρ d ((side : ℝ) • ⟨0, 0, 1⟩)) * ρ, by positivity, ?_, ?_⟩
  · simp only [normalise, V3.smul_x]
    simp only [refractDir, hp, V3.add_x, V3.smul_x]; ring
  · simp only [normalise, V3.smul_y]
    simp only [refractDir, hp, V3.add_y, V3.smul_y]; ring

theorem refractDirC_horizontal {ρ : ℂ} {d : V3} {side : ℤ} {θ : ℝ} (h : Going side θ d) (hρ : 0 < ρ.re) (h0 : 0 ≤ θ) (h1 : θ < Real.pi / 2) (hlt : ‖ρ‖ * Real.sin θ < 1) :
    ∃ a, 0 < a ∧ (normalise (refractDirC ρ d ((side : ℝ) • ⟨0, 0, 1⟩))).x = a * d.x ∧ (normalise (refractDirC ρ d ((side : ℝ) • ⟨0, 0, 1⟩))).y = a * d.y := by
  have hnorm : V3.norm (normalise (refractDirC ρ d ((side : ℝ) • ⟨0, 0, 1⟩))) = 1 := (h.refractC h0 h1 hlt).norm
  have hpos : 0 < V3.norm (refractDirC ρ d ((side : ℝ) • ⟨0, 0, 1⟩)) := by
    refine lt_of_le_of_ne (Real.sqrt_nonneg _) fun e => ?_
    rw [normalise, ← e] at hnorm
    simp [V3.norm, V3.dot] at hnorm
  refine ⟨1 / V3.norm (refractDirC ρ d ((side : ℝ) • ⟨0, 0, 1⟩)) * ρ.re, by positivity, ?_, ?_⟩
  · simp only [normalise, V3.smul_x]
    simp only [refractDirC, h.tangential, V3.add_x, V3.smul_x]; ring
  · simp only [normalise, V3.smul_y]
    simp only [refractDirC, h.tangential, V3.add_y, V3.smul_y]; ring

/-! ## The matrix -/

/-- The surface is flat at every iteration, and the light comes from off the edges of the grid. -/
structure FlatLaunch (c : Texture) (m : ℕ) (L : Launch) : Prop where
  angle : 0 < L.θ ∧ L.θ < Real.pi / 2
  azimuth : OffEdge (2 * Real.pi / m) L.φ ∧ OffEdge (2 * Real.pi / m) (L.φ + Real.pi)
  flat : ∀ i, FlatSurface (L.D i).tris c.Lx c.Ly c.zcov

/-- What can happen to one ray: reflected with probability `R`, transmitted in the direction `dT` at the angle `θ'` to the vertical with probability `T`, or absorbed. -/
structure FlatOdds (dec : ℝ → ℝ → V3 → V3 → ℤ → V3 × ℤ × Option (List ℝ)) (law : FacetLaw) (θ φ R T θ' : ℝ) (dT : V3) (A : List ℝ) : Prop where
  law : ∀ F : V3 × ℤ × Option (List ℝ) → ℝ, ((law (localTheta ⟨0, 0, 1⟩ (incoming θ φ)) (incoming θ φ) (((1 : ℤ) : ℝ) • ⟨0, 0, 1⟩) 1).map fun b => b.1 * F b.2).sum =
      R * F (⟨(incoming θ φ).x, (incoming θ φ).y, -(incoming θ φ).z⟩, 1, none) + T * F (dT, -1, none) + (1 - R - T) * F (incoming θ φ, 1, some A)
  dec : ∀ u, 0 < u → u < 1 → dec u (localTheta ⟨0, 0, 1⟩ (incoming θ φ)) (incoming θ φ) (((1 : ℤ) : ℝ) • ⟨0, 0, 1⟩) 1 = (⟨(incoming θ φ).x, (incoming θ φ).y, -(incoming θ φ).z⟩, 1, none) ∨
      (T ≠ 0 ∧ dec u (localTheta ⟨0, 0, 1⟩ (incoming θ φ)) (incoming θ φ) (((1 : ℤ) : ℝ) • ⟨0, 0, 1⟩) 1 = (dT, -1, none)) ∨
      ∃ d s B, dec u (localTheta ⟨0, 0, 1⟩ (incoming θ φ)) (incoming θ φ) (((1 : ℤ) : ℝ) • ⟨0, 0, 1⟩) 1 = (d, s, some B)
  refr : T ≠ 0 → 0 < θ' ∧ θ' < Real.pi / 2 ∧ Going 1 θ' dT ∧ ∃ a, 0 < a ∧ dT.x = a * (incoming θ φ).x ∧ dT.y = a * (incoming θ φ).y

theorem incoming_azimuth (θ φ : ℝ) : (incoming θ φ).x = Real.sin θ * Real.cos (φ + Real.pi) ∧ (incoming θ φ).y = Real.sin θ * Real.sin (φ + Real.pi) := by
  simp [incoming]

section
variable (c : Texture) (nAbove nBelow : ℂ) (ha : 0 < nAbove.re) (hb : 0 < nBelow.re) (ka : 0 ≤ nAbove.im) (kb : 0 ≤ nBelow.im) (hLx : 0 < c.Lx) (hLy : 0 < c.Ly) (hh : c.zcov ≤ c.h) (hh0 : c.h + 1e-8 ≠ 0)
  (tmm : Bool) (nL : ℕ) (n : ℕ) (hn : 0 < n) (cz : ℝ) (hc : 0 < cz) (m : ℕ) (hm : 0 < m) (sp : Spacing) (front : Bool)

include hLx hLy hh hh0 hm in
/-- One ray: all branches, and what can happen. -/
theorem flat_ray {dec : ℝ → ℝ → V3 → V3 → ℤ → V3 × ℤ × Option (List ℝ)} {law : FacetLaw} {L : Launch} (hL : FlatLaunch c m L) {R T θ' : ℝ} {dT : V3} {A : List ℝ} (ho : FlatOdds dec law L.θ L.φ R T θ' dT A) {N : ℕ} (hN : 3 ≤ N) :
    (∀ g : Option SicRes → ℝ, ∃ oR oT oA, branchesInterface c law g L.θ L.φ L.x L.y (List.ofFn fun i : Fin N => L.D i) = R * g (some oR) + T * g (some oT) + (1 - R - T) * g (some oA) ∧
      oR.rayOut = .leaves (Model.polar ⟨(incoming L.θ L.φ).x, (incoming L.θ L.φ).y, -(incoming L.θ L.φ).z⟩) (Model.azimuth ⟨(incoming L.θ L.φ).x, (incoming L.θ L.φ).y, -(incoming L.θ L.φ).z⟩) ∧
      oT.rayOut = .leaves (Model.polar dT) (Model.azimuth dT) ∧ ∃ B t, oA.rayOut = .absorbed B t) ∧
    ∀ u : Fin N → ℝ, (∀ i, 0 < u i ∧ u i < 1) → L.trace c dec u ≠ none ∧ OutOffEdge (2 * Real.pi / m) front (L.ray (L.trace c dec u)) := by
  obtain ⟨N, rfl⟩ : ∃ N', N = N' + 3 := ⟨N - 3, by omega⟩
  have hcos := Going.cos_pos hL.angle.1.le hL.angle.2
  have hd : launchD L.x L.y (rA0 c.h L.θ L.φ) = incoming L.θ L.φ := launchD_eq _ _ hcos hh0
  have hon : OnSide 1 c.zcov (launchA L.x L.y (rA0 c.h L.θ L.φ)).z := by
    refine Or.inl ⟨rfl, ?_⟩
    rw [rA0_vec hcos, launchA]
    have : c.h + 1e-8 ≤ |c.h + 1e-8| := le_abs_self _
    simp only [V3.add_z]
    norm_num at this ⊢
    linarith
  have hs : 0 < Real.sin L.θ := Real.sin_pos_of_pos_of_lt_pi hL.angle.1 (by linarith [Real.pi_pos, hL.angle.2])
  have hgo : Going 1 L.θ (incoming L.θ L.φ) := incoming_going L.φ
  obtain ⟨hx, hy⟩ := incoming_azimuth L.θ L.φ
  constructor
  · intro g
    have hl : (List.ofFn fun i : Fin (N + 3) => L.D i) = L.D 0 :: L.D 1 :: L.D 2 :: List.ofFn fun i : Fin N => L.D (i + 3) := by
      simp [List.ofFn_succ]
    obtain ⟨rR, rT, rA, e⟩ := flat_facet_mean hLx hLy (z := c.zcov) g (ws := List.ofFn fun i : Fin N => L.D (i + 3)) (hL.flat 0) (hL.flat 1) (hL.flat 2) hL.angle.1.le hL.angle.2 hgo hon ho.law
      (fun h => ⟨(ho.refr h).1.le, (ho.refr h).2.1, (ho.refr h).2.2.1⟩)
    have e' : branchesInterface c law g L.θ L.φ L.x L.y (List.ofFn fun i : Fin (N + 3) => L.D i) =
        branches c.Lx c.Ly (incoming L.θ L.φ) law g (L.D 0 :: L.D 1 :: L.D 2 :: List.ofFn fun i : Fin N => L.D (i + 3))
          (sicStart (wrapRay (launchA L.x L.y (rA0 c.h L.θ L.φ)) (incoming L.θ L.φ) c.Lx c.Ly c.zcov) (incoming L.θ L.φ) 1 0) := by
      unfold branchesInterface
      simp only [hd, hl]
    exact ⟨_, _, _, e'.trans e, rfl, rfl, _, _, rfl⟩
  · intro u hu
    have hl : drawsOf L.D dec u = { L.D 0 with dec := dec (u 0) } :: { L.D 1 with dec := dec (u 1) } :: { L.D 2 with dec := dec (u 2) } :: (List.ofFn fun i : Fin N => { L.D (i + 3) with dec := dec (u i.succ.succ.succ) }) := by
      unfold drawsOf
      simp [List.ofFn_succ]
    have key : ∀ (d' : V3) (side' : ℤ) (B : Option (List ℝ)), dec (u 0) (localTheta ⟨0, 0, 1⟩ (incoming L.θ L.φ)) (incoming L.θ L.φ) (((1 : ℤ) : ℝ) • ⟨0, 0, 1⟩) 1 = (d', side', B) →
        (B = none → ∃ θ' ρ, 0 < θ' ∧ θ' < Real.pi / 2 ∧ Going (-side') θ' d' ∧ 0 < ρ ∧ d'.x = ρ * Real.cos (L.φ + Real.pi) ∧ d'.y = ρ * Real.sin (L.φ + Real.pi)) →
        L.trace c dec u ≠ none ∧ OutOffEdge (2 * Real.pi / m) front (L.ray (L.trace c dec u)) := by
      intro d' side' B hdec hB
      obtain ⟨r', e⟩ := flat_facet_run hLx hLy (z := c.zcov) (w0 := { L.D 0 with dec := dec (u 0) }) (w1 := { L.D 1 with dec := dec (u 1) }) (w2 := { L.D 2 with dec := dec (u 2) })
        (ws := List.ofFn fun i : Fin N => { L.D (i + 3) with dec := dec (u i.succ.succ.succ) }) (hL.flat 0) (hL.flat 1) (hL.flat 2) hL.angle.1.le hL.angle.2 hgo hon hdec
        (fun h => by obtain ⟨θ', ρ, a, b, e, -⟩ := hB h; exact ⟨θ', a.le, b, e⟩)
      have et : L.trace c dec u = some (match (motive := Option (List ℝ) → SicRes) B with
          | none => .out (finalRes (incoming L.θ L.φ) d') (Model.polar d') r' d' (some (localTheta ⟨0, 0, 1⟩ (incoming L.θ L.φ))) 1 side'
          | some A => .absorbed A r' d' (localTheta ⟨0, 0, 1⟩ (incoming L.θ L.φ)) 1 side') := by
        unfold Launch.trace traceInterface
        simp only [hd, hl, e]
      rw [et]
      refine ⟨by simp, ?_⟩
      cases B with
      | some B => trivial
      | none =>
        obtain ⟨θ', ρ, a, b, hg, hρ, ex, ey⟩ := hB rfl
        refine ((filed_dir hm hg a.le b hρ ex ey).2 front L.θ L.φ).mpr ⟨?_, hL.azimuth.2⟩
        unfold seen
        split_ifs <;> linarith [Real.pi_pos]
    rcases ho.dec (u 0) (hu 0).1 (hu 0).2 with e | ⟨hT, e⟩ | ⟨d, s, B, e⟩
    · exact key _ _ _ e fun _ => ⟨L.θ, Real.sin L.θ, hL.angle.1, hL.angle.2, hgo.flip, hs, hx, hy⟩
    · obtain ⟨a, b, hg, ρ, hρ, ex, ey⟩ := ho.refr hT
      refine key _ _ _ e fun _ => ⟨θ', ρ * Real.sin L.θ, a, b, by rw [neg_neg]; exact hg, by positivity, ?_, ?_⟩
      · rw [ex, hx]; ring
      · rw [ey, hy]; ring
    · exact key _ _ _ e fun h => by cases h

open Classical in
/-- One if light that leaves at the polar angle `θ` and azimuth `φ` is filed in bin `i`. -/
noncomputable def filedIn (n : ℕ) (cz s : ℝ) (sp : Spacing) (front : Bool) (i : ℕ) (θ φ : ℝ) : ℝ := if DirInBin n cz s sp i (seen front θ) φ then 1 else 0

include ha hb ka kb hLx hLy hh hh0 hn hc hm in
open Classical in
/-- The mean matrix, for given odds. -/
theorem flat_matrix {dec : ℝ → ℝ → V3 → V3 → ℤ → V3 × ℤ × Option (List ℝ)} {law : FacetLaw} (hlaw : ByThresholds dec law)
    (hdec : ∀ u < 1, ∀ w : Draw, w.dec = dec u → FacetDraw nAbove nBelow tmm nL w) {K N : ℕ} (hN : 3 ≤ N) (L : Fin K → Launch) (hL : ∀ k, FlatLaunch c m (L k))
    {R T θ' : Fin K → ℝ} {dT : Fin K → V3} {A : Fin K → List ℝ} (ho : ∀ k, FlatOdds dec law (L k).θ (L k).φ (R k) (T k) (θ' k) (dT k) (A k))
    (junk : (Fin K → Fin N → ℝ) → RTJunk) (M : (Fin K → Fin N → ℝ) → RTMat)
    (hM : ∀ u, Inside u → rtMatrix (rtArgs n (2 * Real.pi / m) cz sp tmm front nL) (junk u) (List.ofFn fun k => (L k).ray ((L k).trace c dec (u k))) = some (M u))
    (j : ℕ) (hj : ∃ k, IncidentIn n cz (2 * Real.pi / m) sp front j ((L k).ray none)) :
    let inc := fun k => IncidentIn n cz (2 * Real.pi / m) sp front j ((L k).ray none)
    (∀ i, ∫ u, (M u).out i j ∂(Measure.pi fun _ : Fin K => uniform N) =
      (∑ k with inc k, (R k * filedIn n cz (2 * Real.pi / m) sp front i (L k).θ ((L k).φ + Real.pi) + T k * filedIn n cz (2 * Real.pi / m) sp front i (Real.pi - θ' k) ((L k).φ + Real.pi)))
        / (Finset.univ.filter inc).card) ∧
    ∫ u, ∑ l ∈ Finset.range nL, (M u).A l j ∂(Measure.pi fun _ : Fin K => uniform N) = (∑ k with inc k, (1 - R k - T k)) / (Finset.univ.filter inc).card := by
  intro inc
  have hray := fun k => flat_ray c hLx hLy hh hh0 m hm front (hL k) (ho k) hN
  obtain ⟨e1, e2⟩ := matrix_mean c nAbove nBelow ha hb ka kb hh0 tmm nL n hn cz hc m hm sp front dec law hlaw hdec L (fun k => ⟨(hL k).angle.1, (hL k).angle.2, (hL k).azimuth.1⟩)
    (fun u hu k => (hray k).2 (u k) (hu k)) junk M hM j hj
  have hs : ∀ k, 0 < Real.sin (L k).θ := fun k => Real.sin_pos_of_pos_of_lt_pi (hL k).angle.1 (by linarith [Real.pi_pos, (hL k).angle.2])
  constructor
  · intro i
    rw [e1 i]
    congr 1
    refine Finset.sum_congr rfl fun k _ => ?_
    obtain ⟨oR, oT, oA, e, h1, h2, B, t, h3⟩ := (hray k).1 (fun o => if LeavesIn n cz (2 * Real.pi / m) sp front i ((L k).ray o) then 1 else 0)
    refine e.trans ?_
    obtain ⟨hx, hy⟩ := incoming_azimuth (L k).θ (L k).φ
    have fR := (filed_dir hm (incoming_going (θ := (L k).θ) (L k).φ).flip (hL k).angle.1.le (hL k).angle.2 (hs k) (ψ := (L k).φ + Real.pi) hx hy).1 n cz sp front i (L k).θ (L k).φ
    have gR : LeavesIn n cz (2 * Real.pi / m) sp front i ((L k).ray (some oR)) ↔ DirInBin n cz (2 * Real.pi / m) sp i (seen front (L k).θ) ((L k).φ + Real.pi) := by
      simpa [Launch.ray, h1] using fR
    have gA : ¬ LeavesIn n cz (2 * Real.pi / m) sp front i ((L k).ray (some oA)) := by simp [Launch.ray, h3, LeavesIn]
    have gT : T k ≠ 0 → (LeavesIn n cz (2 * Real.pi / m) sp front i ((L k).ray (some oT)) ↔ DirInBin n cz (2 * Real.pi / m) sp i (seen front (Real.pi - θ' k)) ((L k).φ + Real.pi)) := by
      intro hT
      obtain ⟨a, b, hg, ρ, hρ, ex, ey⟩ := (ho k).refr hT
      have := (filed_dir hm hg a.le b (ρ := ρ * Real.sin (L k).θ) (ψ := (L k).φ + Real.pi) (by have := hs k; positivity) (by rw [ex, hx]; ring) (by rw [ey, hy]; ring)).1 n cz sp front i (L k).θ (L k).φ
      simpa [Launch.ray, h2] using this
    unfold filedIn
    simp only [gR, gA, if_false, mul_zero, add_zero]
    by_cases hT : T k = 0
    · rw [hT]; ring
    · simp only [gT hT]
  · rw [e2]
    congr 1
    refine Finset.sum_congr rfl fun k _ => ?_
    obtain ⟨oR, oT, oA, e, h1, h2, B, t, h3⟩ := (hray k).1 (fun o => if IsAbsorbed ((L k).ray o) then 1 else 0)
    refine e.trans ?_
    simp [Launch.ray, h1, h2, h3, IsAbsorbed]

end

theorem quotient_re_pos {a b : ℂ} (ha : 0 < a.re) (hb : 0 < b.re) (ka : 0 ≤ a.im) (kb : 0 ≤ b.im) : 0 < (a / b).re := by
  rw [Complex.div_re]
  have : 0 < Complex.normSq b := Complex.normSq_pos.mpr (by rintro rfl; simp at hb)
  have h1 : 0 < a.re * b.re / Complex.normSq b := by positivity
  have h2 : 0 ≤ a.im * b.im / Complex.normSq b := by positivity
  linarith

theorem coated_odds {c : Texture} {nAbove nBelow : ℂ} (ha : 0 < nAbove.re) (hb : 0 < nBelow.re) (ka : 0 ≤ nAbove.im) (kb : 0 ≤ nBelow.im) {m : ℕ} (tab : ℤ → ℝ → ℝ × ℝ × List ℝ) {L : Launch} (hL : FlatLaunch c m L)
    (hcrit : (tab 1 L.θ).2.1 = 0 ∨ sinRefr true nAbove nBelow L.θ < 1) :
    FlatOdds (tmmDraw nAbove nBelow tab) (tmmLaw nAbove nBelow tab) L.θ L.φ (tab 1 L.θ).1 (tab 1 L.θ).2.1 (refrOf true nAbove nBelow L.θ) (refrDir (some tab) nAbove nBelow 1 (incoming L.θ L.φ)) (tab 1 L.θ).2.2 := by
  have hρ := quotient_re_pos ha hb ka kb
  obtain ⟨hθ0, hθ1⟩ := hL.angle
  have hg : Going 1 L.θ (incoming L.θ L.φ) := incoming_going _
  have hloc := hg.localTheta hθ0.le hθ1
  have hs : 0 < Real.sin L.θ := Real.sin_pos_of_pos_of_lt_pi hθ0 (by linarith [Real.pi_pos])
  refine ⟨fun F => ?_, fun u h0 h1 => ?_, fun hT => ?_⟩
  · exact flat_law hg hθ0.le hθ1 (fun _ => 0) .u (some tab) nAbove nBelow F
  · simp only [tmmDraw, tmmDec, decideTMM, hloc, if_true]
    by_cases e1 : u ≤ (tab 1 L.θ).1
    · left
      rw [if_pos e1, hg.reflect]
    · rw [if_neg e1]
      rw [not_le] at e1
      by_cases e2 : u ≤ (tab 1 L.θ).1 + (tab 1 L.θ).2.1
      · right; left
        refine ⟨fun h => by rw [h] at e2; linarith, ?_⟩
        rw [if_pos ⟨e1, e2⟩]
        simp only [refrDir, mediaAt, if_true]
      · right; right
        rw [if_neg fun h => e2 h.2]
        exact ⟨_, _, _, rfl⟩
  · have hlt := hcrit.resolve_left hT
    obtain ⟨g1, g2, g3⟩ := refrDir_going hg hθ0.le hθ1 (tab := some tab) ha hb hlt
    simp only [sinRefr, if_true] at hlt
    refine ⟨?_, g3, g1, ?_⟩
    · simp only [refrOf, if_true]
      have : 0 < Real.sqrt (1 - (‖nAbove / nBelow‖ * Real.sin L.θ) ^ 2) := by
        refine Real.sqrt_pos.mpr ?_
        have : 0 ≤ ‖nAbove / nBelow‖ * Real.sin L.θ := by positivity
        nlinarith
      have h2 : 0 < |(nAbove / nBelow).re| := abs_pos.mpr hρ.ne'
      exact Real.arctan_pos.mpr (by positivity)
    · exact refractDirC_horizontal hg hρ hθ0.le hθ1 hlt

theorem bare_odds {c : Texture} {nAbove nBelow : ℝ} (ha : 0 < nAbove) (hb : 0 < nBelow) {m : ℕ} (arc : ℤ → ℝ → ℂ) (pol : Pol)
    (harc : ∀ side θ, IsArcsin (((if side = 1 then nAbove else nBelow : ℝ) : ℂ) / ((if side = 1 then nBelow else nAbove : ℝ) : ℂ) * Complex.sin ((|θ| : ℝ) : ℂ)) (arc side θ))
    {L : Launch} (hL : FlatLaunch c m L) {R θ' : ℝ}
    (hR : (0 ≤ θ' ∧ θ' < Real.pi / 2 ∧ nAbove * Real.sin L.θ = nBelow * Real.sin θ' ∧ R = textbookR nAbove nBelow L.θ θ' pol) ∨ (nBelow < nAbove * Real.sin L.θ ∧ R = 1)) :
    FlatOdds (fresnelDraw nAbove nBelow arc pol) (fresnelLaw nAbove nBelow arc pol) L.θ L.φ R (1 - R) θ' (normalise (refractDir (nAbove / nBelow) (incoming L.θ L.φ) (((1 : ℤ) : ℝ) • ⟨0, 0, 1⟩))) [] := by
  obtain ⟨hθ0, hθ1⟩ := hL.angle
  have hg : Going 1 L.θ (incoming L.θ L.φ) := incoming_going _
  have hloc := hg.localTheta hθ0.le hθ1
  have hs : 0 < Real.sin L.θ := Real.sin_pos_of_pos_of_lt_pi hθ0 (by linarith [Real.pi_pos])
  have hdR : decideR nAbove nBelow (localTheta ⟨0, 0, 1⟩ (incoming L.θ L.φ)) (arc 1 (localTheta ⟨0, 0, 1⟩ (incoming L.θ L.φ))) pol = R := by
    have := C43_reflectance nAbove nBelow (localTheta ⟨0, 0, 1⟩ (incoming L.θ L.φ)) ha hb (by rw [hloc]; exact hθ1.le) (arc 1 (localTheta ⟨0, 0, 1⟩ (incoming L.θ L.φ)))
      (by have h := harc 1 (localTheta ⟨0, 0, 1⟩ (incoming L.θ L.φ)); simpa using h) pol
    rw [hloc] at this
    rcases hR with ⟨a, b, e, er⟩ | ⟨e, er⟩
    · rw [er]; exact this.1 _ a b e
    · rw [er]; exact this.2 e
  refine ⟨fun F => ?_, fun u h0 h1 => ?_, fun hT => ?_⟩
  · simp only [fresnelLaw, if_true, hdR, List.map_cons, List.map_nil, List.sum_cons, List.sum_nil, hg.reflect, Complex.ofReal_re]
    ring
  · simp only [fresnelDraw, fresnelDec, decideFresnel, if_true, hdR, Complex.ofReal_re]
    by_cases e1 : u ≤ R
    · left
      rw [if_pos e1, hg.reflect]
    · right; left
      refine ⟨fun h => e1 (by linarith), ?_⟩
      rw [if_neg e1]
  · rcases hR with ⟨a, b, e, er⟩ | ⟨e, er⟩
    · have hsin : Real.sin θ' < 1 := by
        have := Real.sin_lt_sin_of_lt_of_le_pi_div_two (by linarith [Real.pi_pos]) le_rfl b
        rwa [Real.sin_pi_div_two] at this
      have hq : nAbove / nBelow * Real.sin L.θ = Real.sin θ' := by
        rw [div_mul_eq_mul_div, e]; field_simp
      have hr := hg.refract hθ0.le hθ1 (ρ := nAbove / nBelow) (by positivity) (by rw [hq]; exact hsin)
      rw [hq, Real.arcsin_sin (by linarith [Real.pi_pos]) b.le] at hr
      refine ⟨lt_of_le_of_ne a fun h => ?_, b, hr, refractDir_horizontal hg (by positivity) hθ0.le hθ1 (by rw [hq]; exact hsin)⟩
      rw [← h] at hq
      have : 0 < nAbove / nBelow * Real.sin L.θ := by positivity
      rw [hq] at this
      simp at this
    · exact absurd (by rw [er]; ring) hT

section
variable (c : Texture) (nAbove nBelow : ℂ) (ha : 0 < nAbove.re) (hb : 0 < nBelow.re) (ka : 0 ≤ nAbove.im) (kb : 0 ≤ nBelow.im) (hLx : 0 < c.Lx) (hLy : 0 < c.Ly) (hh : c.zcov ≤ c.h) (hh0 : c.h + 1e-8 ≠ 0)
  (tmm : Bool) (nL : ℕ) (n : ℕ) (hn : 0 < n) (cz : ℝ) (hc : 0 < cz) (m : ℕ) (hm : 0 < m) (sp : Spacing) (front : Bool)

include ha hb ka kb hLx hLy hh hh0 hn hc hm in
theorem flat_runs {dec : ℝ → ℝ → V3 → V3 → ℤ → V3 × ℤ × Option (List ℝ)} {law : FacetLaw}
    (hdec : ∀ u < 1, ∀ w : Draw, w.dec = dec u → FacetDraw nAbove nBelow tmm nL w) {K N : ℕ} (hN : 3 ≤ N) (L : Fin K → Launch) (hL : ∀ k, FlatLaunch c m (L k))
    {R T θ' : Fin K → ℝ} {dT : Fin K → V3} {A : Fin K → List ℝ} (ho : ∀ k, FlatOdds dec law (L k).θ (L k).φ (R k) (T k) (θ' k) (dT k) (A k)) (u : Fin K → Fin N → ℝ) (hu : Inside u) (junk : RTJunk) :
    ∃ M, rtMatrix (rtArgs n (2 * Real.pi / m) cz sp tmm front nL) junk (List.ofFn fun k => (L k).ray ((L k).trace c dec (u k))) = some M := by
  have hray := fun k => (flat_ray c hLx hLy hh hh0 m hm front (hL k) (ho k) hN).2 (u k) (hu k)
  obtain ⟨M, hM, -⟩ := C48_columns n hn cz hc m hm sp tmm front nL (List.ofFn fun k => (L k).ray ((L k).trace c dec (u k))) (by
    intro r hr
    obtain ⟨k, rfl⟩ := (List.mem_ofFn' _ _).mp hr
    obtain ⟨res, hres⟩ := Option.ne_none_iff_exists'.mp (hray k).1
    refine trace_ok c nAbove nBelow ha hb ka kb hh0 tmm nL
      { ray := (L k).ray ((L k).trace c dec (u k)), res := res, ws := drawsOf (L k).D dec (u k) } ⟨?_, (L k).x, (L k).y, ?_, ?_⟩ (hL k).angle.1 (hL k).angle.2 (hL k).azimuth.1
    · intro w hw
      obtain ⟨i, rfl⟩ := (List.mem_ofFn' _ _).mp hw
      exact hdec _ (hu k i).2 _ rfl
    · exact hres
    · rw [hres]; rfl) junk
  exact ⟨M, hM⟩

end

/-! ## The property -/

section
variable (c : Texture) (nAbove nBelow : ℂ) (ha : 0 < nAbove.re) (hb : 0 < nBelow.re) (ka : 0 ≤ nAbove.im) (kb : 0 ≤ nBelow.im) (hLx : 0 < c.Lx) (hLy : 0 < c.Ly) (hh : c.zcov ≤ c.h) (hh0 : c.h + 1e-8 ≠ 0)
  (nL : ℕ) (n : ℕ) (hn : 0 < n) (cz : ℝ) (hc : 0 < cz) (m : ℕ) (hm : 0 < m) (sp : Spacing) (front : Bool)

include ha hb ka kb hLx hLy hh hh0 hn hc hm in
open Classical in
/-- **C152, coated flat surfaces.** Rays are traced on a flat surface with a lookup table.  On average over the random numbers, column `j` of the redistribution matrix is the one of a planar layer: each ray launched in incidence bin `j` puts the tabulated `R` at its own
angle in the bin of specular reflection, and the tabulated `T` in the bin of the refracted beam; the rest is absorbed.  (No ray is lost and none is counted twice.)  Where the table has a transmittance the angle is below the critical one. -/
theorem C152_coated (tab : ℤ → ℝ → ℝ × ℝ × List ℝ)
    (htab : ∀ side θ, 0 ≤ (tab side θ).1 ∧ 0 ≤ (tab side θ).2.1 ∧ (tab side θ).2.2.length = nL ∧ (∀ a ∈ (tab side θ).2.2, 0 ≤ a) ∧ (tab side θ).1 + (tab side θ).2.1 + (tab side θ).2.2.sum = 1)
    {K N : ℕ} (hN : 3 ≤ N) (L : Fin K → Launch) (hL : ∀ k, FlatLaunch c m (L k)) (hcrit : ∀ k, (tab 1 (L k).θ).2.1 = 0 ∨ sinRefr true nAbove nBelow (L k).θ < 1)
    (junk : (Fin K → Fin N → ℝ) → RTJunk) (M : (Fin K → Fin N → ℝ) → RTMat)
    (hM : ∀ u, Inside u → rtMatrix (rtArgs n (2 * Real.pi / m) cz sp true front nL) (junk u) (List.ofFn fun k => (L k).ray ((L k).trace c (tmmDraw nAbove nBelow tab) (u k))) = some (M u))
    (j : ℕ) (hj : ∃ k, IncidentIn n cz (2 * Real.pi / m) sp front j ((L k).ray none)) :
    let inc := fun k => IncidentIn n cz (2 * Real.pi / m) sp front j ((L k).ray none)
    (∀ i, ∫ u, (M u).out i j ∂(Measure.pi fun _ : Fin K => uniform N) =
      (∑ k with inc k, ((tab 1 (L k).θ).1 * filedIn n cz (2 * Real.pi / m) sp front i (L k).θ ((L k).φ + Real.pi) +
        (tab 1 (L k).θ).2.1 * filedIn n cz (2 * Real.pi / m) sp front i (Real.pi - refrOf true nAbove nBelow (L k).θ) ((L k).φ + Real.pi))) / (Finset.univ.filter inc).card) ∧
    ∫ u, ∑ l ∈ Finset.range nL, (M u).A l j ∂(Measure.pi fun _ : Fin K => uniform N) = (∑ k with inc k, (1 - (tab 1 (L k).θ).1 - (tab 1 (L k).θ).2.1)) / (Finset.univ.filter inc).card := by
  refine flat_matrix c nAbove nBelow ha hb ka kb hLx hLy hh hh0 true nL n hn cz hc m hm sp front (law := tmmLaw nAbove nBelow tab) (tmm_byThresholds ?_) ?_ hN L hL
    (dT := fun k => refrDir (some tab) nAbove nBelow 1 (incoming (L k).θ (L k).φ)) (A := fun k => (tab 1 (L k).θ).2.2) (fun k => ?_) junk M hM j hj
  · intro side θ
    obtain ⟨h1, h2, -, h4, h5⟩ := htab side θ
    have := List.sum_nonneg h4
    exact ⟨h1, h2, by linarith⟩
  · intro u hu w hw
    exact Or.inr ⟨rfl, tab, u, hu, hw, fun side θ => (htab side θ).2.2⟩
  · exact coated_odds ha hb ka kb tab (hL k) (hcrit k)

include ha hb ka kb hLx hLy hh hh0 hn hc hm in
/-- **C152, the calculation ends.** Every ray is finished after at most three iterations, and the matrix is calculated without an error, whatever the random numbers. -/
theorem C152_runs (tab : ℤ → ℝ → ℝ × ℝ × List ℝ)
    (htab : ∀ side θ, 0 ≤ (tab side θ).1 ∧ 0 ≤ (tab side θ).2.1 ∧ (tab side θ).2.2.length = nL ∧ (∀ a ∈ (tab side θ).2.2, 0 ≤ a) ∧ (tab side θ).1 + (tab side θ).2.1 + (tab side θ).2.2.sum = 1)
    {K N : ℕ} (hN : 3 ≤ N) (L : Fin K → Launch) (hL : ∀ k, FlatLaunch c m (L k)) (hcrit : ∀ k, (tab 1 (L k).θ).2.1 = 0 ∨ sinRefr true nAbove nBelow (L k).θ < 1) (u : Fin K → Fin N → ℝ) (hu : Inside u) (junk : RTJunk) :
    (∀ k, (L k).trace c (tmmDraw nAbove nBelow tab) (u k) ≠ none) ∧
    ∃ M, rtMatrix (rtArgs n (2 * Real.pi / m) cz sp true front nL) junk (List.ofFn fun k => (L k).ray ((L k).trace c (tmmDraw nAbove nBelow tab) (u k))) = some M :=
  ⟨fun k => ((flat_ray c hLx hLy hh hh0 m hm front (hL k) (coated_odds ha hb ka kb tab (hL k) (hcrit k)) hN).2 (u k) (hu k)).1,
    flat_runs c nAbove nBelow ha hb ka kb hLx hLy hh hh0 true nL n hn cz hc m hm sp front
      (fun u hu w hw => Or.inr ⟨rfl, tab, u, hu, hw, fun side θ => (htab side θ).2.2⟩) hN L hL (fun k => coated_odds ha hb ka kb tab (hL k) (hcrit k)) u hu junk⟩

end

section
variable (c : Texture) (nAbove nBelow : ℝ) (ha : 0 < nAbove) (hb : 0 < nBelow) (hLx : 0 < c.Lx) (hLy : 0 < c.Ly) (hh : c.zcov ≤ c.h) (hh0 : c.h + 1e-8 ≠ 0)
  (nL : ℕ) (n : ℕ) (hn : 0 < n) (cz : ℝ) (hc : 0 < cz) (m : ℕ) (hm : 0 < m) (sp : Spacing) (front : Bool)

include ha hb hLx hLy hh hh0 hn hc hm in
open Classical in
/-- **C152, bare flat surfaces** between transparent media: each ray puts the textbook Fresnel reflectance at its angle (`1` beyond the critical angle) in the bin of specular reflection and the rest in the bin given by Snell's law. -/
theorem C152_bare (arc : ℤ → ℝ → ℂ) (pol : Pol)
    (harc : ∀ side θ, IsArcsin (((if side = 1 then nAbove else nBelow : ℝ) : ℂ) / ((if side = 1 then nBelow else nAbove : ℝ) : ℂ) * Complex.sin ((|θ| : ℝ) : ℂ)) (arc side θ))
    {K N : ℕ} (hN : 3 ≤ N) (L : Fin K → Launch) (hL : ∀ k, FlatLaunch c m (L k)) (R θ' : Fin K → ℝ)
    (hR : ∀ k, (0 ≤ θ' k ∧ θ' k < Real.pi / 2 ∧ nAbove * Real.sin (L k).θ = nBelow * Real.sin (θ' k) ∧ R k = textbookR nAbove nBelow (L k).θ (θ' k) pol) ∨ (nBelow < nAbove * Real.sin (L k).θ ∧ R k = 1))
    (junk : (Fin K → Fin N → ℝ) → RTJunk) (M : (Fin K → Fin N → ℝ) → RTMat)
    (hM : ∀ u, Inside u → rtMatrix (rtArgs n (2 * Real.pi / m) cz sp false front nL) (junk u) (List.ofFn fun k => (L k).ray ((L k).trace c (fresnelDraw nAbove nBelow arc pol) (u k))) = some (M u))
    (j : ℕ) (hj : ∃ k, IncidentIn n cz (2 * Real.pi / m) sp front j ((L k).ray none)) :
    let inc := fun k => IncidentIn n cz (2 * Real.pi / m) sp front j ((L k).ray none)
    ∀ i, ∫ u, (M u).out i j ∂(Measure.pi fun _ : Fin K => uniform N) =
      (∑ k with inc k, (R k * filedIn n cz (2 * Real.pi / m) sp front i (L k).θ ((L k).φ + Real.pi) +
        (1 - R k) * filedIn n cz (2 * Real.pi / m) sp front i (Real.pi - θ' k) ((L k).φ + Real.pi))) / (Finset.univ.filter inc).card := by
  refine (flat_matrix c nAbove nBelow (by simpa using ha) (by simpa using hb) (by simp) (by simp) hLx hLy hh hh0 false nL n hn cz hc m hm sp front (law := fresnelLaw nAbove nBelow arc pol) (fresnel_byThresholds ?_) ?_ hN L hL (T := fun k => 1 - R k)
    (dT := fun k => normalise (refractDir (nAbove / nBelow) (incoming (L k).θ (L k).φ) (((1 : ℤ) : ℝ) • ⟨0, 0, 1⟩))) (A := fun k => []) (fun k => ?_) junk M hM j hj).1
  · intro d N side
    have h := harc side (localTheta N d)
    by_cases hs : side = 1
    · simp only [hs, if_true] at h ⊢
      exact decideR_le_one ha hb (localTheta_le N d) h pol
    · simp only [hs, if_false] at h ⊢
      exact decideR_le_one hb ha (localTheta_le N d) h pol
  · intro u hu w hw
    exact Or.inl ⟨rfl, arc, pol, u, hu, hw⟩
  · exact bare_odds ha hb arc pol harc (hL k) (hR k)

end

end Rayflare
