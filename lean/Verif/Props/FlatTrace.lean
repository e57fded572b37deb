import Verif.Spec.FlatTrace
import Verif.Props.Geometry
import Verif.Props.UnbiasedStack

/-!
# Property C151: ray tracing of a slab between flat surfaces gives the textbook formulas
-/

namespace Rayflare

open Rayflare.Np Rayflare.Model Rayflare.Spec Rayflare.Lemmas MeasureTheory

/-! ## Helper lemmas: meeting a flat surface -/

section flat
variable {tris : List Tri} {Lx Ly z : ℝ}

theorem flat_cross (hf : FlatSurface tris Lx Ly z) {τ : Tri} (hτ : τ ∈ tris) : τ.crossP = ⟨0, 0, τ.crossP.z⟩ := by
  obtain ⟨h0, h1, h2⟩ := hf.level τ hτ
  ext <;> simp [Tri.crossP, V3.cross, h0, h1, h2]

theorem flat_normal (hf : FlatSurface tris Lx Ly z) {τ : Tri} (hτ : τ ∈ tris) : τ.N = ⟨0, 0, 1⟩ := by
  have hc := flat_cross hf hτ
  have hu := hf.up τ hτ
  have hn : V3.norm τ.crossP = τ.crossP.z := by
    rw [hc]; simp only [V3.norm, V3.dot]
    rw [show (0 : ℝ) * 0 + 0 * 0 + τ.crossP.z * τ.crossP.z = τ.crossP.z ^ 2 by ring, Real.sqrt_sq hu.le]
  unfold Tri.N
  rw [hn]
  ext
  · rw [V3.smul_x, hc]; simp
  · rw [V3.smul_y, hc]; simp
  · rw [V3.smul_z]; field_simp

theorem flat_parallel (hf : FlatSurface tris Lx Ly z) {τ : Tri} (hτ : τ ∈ tris) {d : V3} (hd : d.z ≠ 0) : ¬ Parallel τ d := by
  unfold Parallel
  rw [show V3.cross (τ.P1 - τ.P0) (τ.P2 - τ.P0) = τ.crossP from rfl, flat_cross hf hτ]
  simp only [V3.dot]
  have := hf.up τ hτ
  simp [hd, this.ne']

theorem flat_inTri (hf : FlatSurface tris Lx Ly z) {τ : Tri} (hτ : τ ∈ tris) {ε : ℝ} {p : V3} (h : InTri ε τ p) : p.z = z := by
  obtain ⟨u, v, -, -, -, rfl⟩ := h
  obtain ⟨h0, h1, h2⟩ := hf.level τ hτ
  simp [h0, h1, h2]

/-- A ray that crosses the plane in the unit cell meets the surface there. -/
theorem flat_hit (hf : FlatSurface tris Lx Ly z) {r d : V3} (hz : 0 < (z - r.z) / d.z) (hd : d.z ≠ 0) (hcell : InCell Lx Ly (r + ((z - r.z) / d.z) • d)) :
    checkIntersect r d tris = some (r + ((z - r.z) / d.z) • d, localTheta ⟨0, 0, 1⟩ d, ⟨0, 0, 1⟩) := by
  have hpz : (r + ((z - r.z) / d.z) • d).z = z := by simp; field_simp; ring
  obtain ⟨τ, hτ, hin⟩ := hf.cover _ hcell hpz
  rcases hc : checkIntersect r d tris with _ | ⟨p, θ, N⟩
  · exact absurd hin (C45_complete r d tris hc τ hτ (flat_parallel hf hτ hd) _ hz)
  · obtain ⟨τ', hτ', t, ht, hp, hin', hN, hθ, -⟩ := C45_sound_nearest r d tris p θ N hc
    have hz' := flat_inTri hf hτ' hin'
    rw [hp] at hz'
    have : t = (z - r.z) / d.z := by
      rw [eq_div_iff hd]
      simp at hz'; linarith
    rw [hp, hθ, hN, flat_normal hf hτ', this]

/-- A ray that moves away from the plane does not meet it. -/
theorem flat_miss (hf : FlatSurface tris Lx Ly z) {r d : V3} (h : (z < r.z ∧ 0 < d.z) ∨ (r.z < z ∧ d.z < 0)) : checkIntersect r d tris = none := by
  rcases hc : checkIntersect r d tris with _ | ⟨p, θ, N⟩
  · rfl
  · obtain ⟨τ', hτ', t, ht, hp, hin', -⟩ := C45_sound_nearest r d tris p θ N hc
    have hz' := flat_inTri hf hτ' hin'
    rw [hp] at hz'
    simp at hz'
    rcases h with ⟨h1, h2⟩ | ⟨h1, h2⟩ <;> nlinarith

theorem flat_wrap {r d : V3} (hd : d.z ≠ 0) (hLx : 0 < Lx) (hLy : 0 < Ly) :
    let r' := wrapRay r d Lx Ly z
    InCell Lx Ly (r' + ((z - r'.z) / d.z) • d) ∧ r'.z = r.z := by
  intro r'
  have aux : ∀ a L : ℝ, 0 < L → 0 ≤ a - L * ((⌊a / L⌋ : ℤ) : ℝ) ∧ a - L * ((⌊a / L⌋ : ℤ) : ℝ) ≤ L := by
    intro a L hL
    have h1 := Int.floor_le (a / L)
    have h2 := Int.lt_floor_add_one (a / L)
    rw [le_div_iff₀ hL] at h1
    rw [div_lt_iff₀ hL] at h2
    constructor <;> linarith
  have hx := aux (r.x + d.x * (z - r.z) / d.z) Lx hLx
  have hy := aux (r.y + d.y * (z - r.z) / d.z) Ly hLy
  refine ⟨⟨?_, ?_, ?_, ?_⟩, rfl⟩
  · simp only [r', wrapRay, V3.add_x, V3.smul_x]; convert hx.1 using 1; ring
  · simp only [r', wrapRay, V3.add_x, V3.smul_x]; convert hx.2 using 1; ring
  · simp only [r', wrapRay, V3.add_y, V3.smul_y]; convert hy.1 using 1; ring
  · simp only [r', wrapRay, V3.add_y, V3.smul_y]; convert hy.2 using 1; ring

/-- After the facet the ray leaves in its new direction. -/
theorem flat_leave {d0 : V3} {law : FacetLaw} {g : Option SicRes → ℝ} {w1 w2 : Draw} {ws : List Draw} (h1 : FlatSurface w1.tris Lx Ly z) (h2 : FlatSurface w2.tris Lx Ly z) {s : Sic}
    (hs : s.checked = false) (hi : 1 ≤ s.i1) (haway : MovesAway s.side s.d) (hz : s.side = 1 ∧ z < s.r.z ∨ s.side = -1 ∧ s.r.z < z) :
    ∃ r', r'.z = s.r.z ∧ branches Lx Ly d0 law g (w1 :: w2 :: ws) s = g (some (.out (finalRes d0 s.d) (polar s.d) r' s.d s.θ s.nInt s.side)) := by
  have hm : (z < s.r.z ∧ 0 < s.d.z) ∨ (s.r.z < z ∧ s.d.z < 0) := by
    rcases haway with ⟨a, b⟩ | ⟨a, b⟩ <;> rcases hz with ⟨c, e⟩ | ⟨c, e⟩
    · exact Or.inl ⟨e, b⟩
    · omega
    · omega
    · exact Or.inr ⟨e, b⟩
  have m1 := flat_miss h1 hm
  let s' : Sic := { s with r := s.r + translation Lx Ly (exitSide s.r s.d Lx Ly).1, checked := true, i1 := s.i1 + 1 }
  have hz' : s'.r.z = s.r.z := by
    simp only [s', V3.add_z, add_eq_left]
    unfold translation
    split <;> rfl
  have step1 : sicStep Lx Ly d0 w1 s = .inl s' := by
    unfold sicStep
    simp only [m1, hs]
    rw [if_pos (by rfl), if_pos (by omega)]
  have m2 : checkIntersect s'.r s'.d w2.tris = none := flat_miss h2 (by rw [hz']; exact hm)
  have step2 : sicStep Lx Ly d0 w2 s' = .inr (.out (finalRes d0 s.d) (polar s.d) ⟨backInto s'.r.x Lx, backInto s'.r.y Ly, s'.r.z⟩ s.d s.θ s.nInt s.side) := by
    unfold sicStep
    simp only [m2]
    rw [if_neg (by simp [s']), if_neg]
    rintro (⟨a, b, -⟩ | ⟨a, b, -⟩)
    · rcases haway with ⟨e, f⟩ | ⟨e, f⟩
      · exact absurd b (not_lt.mpr f.le)
      · simp only [s'] at a; omega
    · rcases haway with ⟨e, f⟩ | ⟨e, f⟩
      · simp only [s'] at a; omega
      · exact absurd b (not_lt.mpr f.le)
  refine ⟨⟨backInto s'.r.x Lx, backInto s'.r.y Ly, s'.r.z⟩, hz', ?_⟩
  simp only [branches, m1, step1, m2, step2]

end flat

/-! ## Helper lemmas: directions -/

/-- Unit vector that comes down (`side = 1`) or up (`side = -1`) at the angle `θ` to the vertical. -/
structure Going (side : ℤ) (θ : ℝ) (d : V3) : Prop where
  sided : side = 1 ∨ side = -1
  horizontal : d.x ^ 2 + d.y ^ 2 = Real.sin θ ^ 2
  vertical : d.z = -(side : ℝ) * Real.cos θ

section going
variable {side : ℤ} {θ : ℝ} {d : V3}

theorem Going.sq (h : Going side θ d) : (side : ℝ) ^ 2 = 1 := by
  rcases h.sided with e | e <;> simp [e]

theorem Going.norm (h : Going side θ d) : V3.norm d = 1 := by
  have h1 := h.horizontal
  have h2 := h.vertical
  have h3 := h.sq
  rw [V3.norm, V3.dot, Real.sqrt_eq_one, h2]
  have := Real.sin_sq_add_cos_sq θ
  have e : -(side : ℝ) * Real.cos θ * (-(side : ℝ) * Real.cos θ) = (side : ℝ) ^ 2 * Real.cos θ ^ 2 := by ring
  rw [e, h3]
  nlinarith

theorem normalise_unit {d : V3} (h : V3.norm d = 1) : normalise d = d := by
  unfold normalise
  rw [h]
  ext <;> simp

theorem Going.flip (h : Going side θ d) : Going (-side) θ ⟨d.x, d.y, -d.z⟩ where
  sided := by rcases h.sided with e | e <;> simp [e]
  horizontal := h.horizontal
  vertical := by simp only [h.vertical]; push_cast; ring

theorem Going.reflect (h : Going side θ d) : normalise (reflectDir d ((side : ℝ) • ⟨0, 0, 1⟩)) = ⟨d.x, d.y, -d.z⟩ := by
  have e : reflectDir d ((side : ℝ) • ⟨0, 0, 1⟩) = ⟨d.x, d.y, -d.z⟩ := by
    have h3 := h.sq
    ext
    · simp [reflectDir]
    · simp [reflectDir]
    · simp only [reflectDir, V3.dot, V3.sub_z, V3.smul_z, V3.smul_x, V3.smul_y]
      have : d.z - 2 * (d.x * ((side : ℝ) * 0) + d.y * ((side : ℝ) * 0) + d.z * ((side : ℝ) * 1)) * ((side : ℝ) * 1) = d.z - 2 * d.z * (side : ℝ) ^ 2 := by ring
      rw [this, h3]; ring
  rw [e, normalise_unit h.flip.norm]

theorem Going.localTheta (h : Going side θ d) (h0 : 0 ≤ θ) (h1 : θ < Real.pi / 2) : |Model.localTheta ⟨0, 0, 1⟩ d| = θ := by
  have hc : 0 < Real.cos θ := Real.cos_pos_of_mem_Ioo ⟨by linarith, h1⟩
  have hs : 0 ≤ Real.sin θ := Real.sin_nonneg_of_nonneg_of_le_pi h0 (by linarith [Real.pi_pos])
  have hdot : V3.dot ⟨0, 0, 1⟩ (-d) = side * Real.cos θ := by simp [V3.dot, h.vertical]
  have hcr : V3.norm (V3.cross ⟨0, 0, 1⟩ (-d)) = Real.sin θ := by
    have : V3.dot (V3.cross ⟨0, 0, 1⟩ (-d)) (V3.cross ⟨0, 0, 1⟩ (-d)) = Real.sin θ ^ 2 := by
      rw [← h.horizontal]; simp [V3.dot, V3.cross]; ring
    rw [V3.norm, this, Real.sqrt_sq hs]
  unfold Model.localTheta
  have hne : (side : ℝ) * Real.cos θ ≠ 0 := by
    rcases h.sided with e | e <;> simp [e, hc.ne']
  rw [hdot, if_neg hne, hcr]
  have htan : Real.arctan (Real.sin θ / Real.cos θ) = θ := by
    rw [← Real.tan_eq_sin_div_cos]; exact Real.arctan_tan (by linarith) h1
  rcases h.sided with e | e
  · simp only [e, Int.cast_one, one_mul]; rw [htan, abs_of_nonneg h0]
  · simp only [e]; push_cast
    rw [neg_one_mul, div_neg, Real.arctan_neg, abs_neg, htan, abs_of_nonneg h0]

theorem Going.tangential (h : Going side θ d) : d - V3.dot d ((side : ℝ) • (⟨0, 0, 1⟩ : V3)) • ((side : ℝ) • (⟨0, 0, 1⟩ : V3)) = ⟨d.x, d.y, 0⟩ := by
  have h3 := h.sq
  ext
  · simp
  · simp
  · simp only [V3.dot, V3.sub_z, V3.smul_z, V3.smul_x, V3.smul_y]
    have : d.z - (d.x * ((side : ℝ) * 0) + d.y * ((side : ℝ) * 0) + d.z * ((side : ℝ) * 1)) * ((side : ℝ) * 1) = d.z - d.z * (side : ℝ) ^ 2 := by ring
    rw [this, h3]; ring

theorem Going.refract (h : Going side θ d) (h0 : 0 ≤ θ) (h1 : θ < Real.pi / 2) {ρ : ℝ} (hρ : 0 ≤ ρ) (hlt : ρ * Real.sin θ < 1) :
    Going side (Real.arcsin (ρ * Real.sin θ)) (normalise (refractDir ρ d ((side : ℝ) • ⟨0, 0, 1⟩))) := by
  have hs : 0 ≤ Real.sin θ := Real.sin_nonneg_of_nonneg_of_le_pi h0 (by linarith [Real.pi_pos])
  have hsin : Real.sin (Real.arcsin (ρ * Real.sin θ)) = ρ * Real.sin θ := Real.sin_arcsin (by nlinarith) hlt.le
  have hp : trPar ρ d ((side : ℝ) • ⟨0, 0, 1⟩) = ⟨ρ * d.x, ρ * d.y, 0⟩ := by
    unfold trPar; rw [h.tangential]; ext <;> simp
  have hn : V3.norm (trPar ρ d ((side : ℝ) • ⟨0, 0, 1⟩)) ^ 2 = (ρ * Real.sin θ) ^ 2 := by
    rw [hp, V3.norm, Real.sq_sqrt (by simp only [V3.dot]; nlinarith [sq_nonneg (ρ * d.x), sq_nonneg (ρ * d.y)])]
    simp only [V3.dot]
    rw [mul_pow, ← h.horizontal]; ring
  have hcos : Real.sqrt (1 - V3.norm (trPar ρ d ((side : ℝ) • ⟨0, 0, 1⟩)) ^ 2) = Real.cos (Real.arcsin (ρ * Real.sin θ)) := by
    rw [hn, Real.cos_arcsin]
  have hd : refractDir ρ d ((side : ℝ) • ⟨0, 0, 1⟩) = ⟨ρ * d.x, ρ * d.y, -(side : ℝ) * Real.cos (Real.arcsin (ρ * Real.sin θ))⟩ := by
    unfold refractDir
    rw [hcos, hp]
    ext
    · simp
    · simp
    · simp; ring
  have hg : Going side (Real.arcsin (ρ * Real.sin θ)) ⟨ρ * d.x, ρ * d.y, -(side : ℝ) * Real.cos (Real.arcsin (ρ * Real.sin θ))⟩ := by
    refine ⟨h.sided, ?_, rfl⟩
    simp only
    rw [hsin, mul_pow ρ (Real.sin θ), ← h.horizontal]; ring
  rw [hd, normalise_unit hg.norm]
  exact hg

theorem Going.refractC (h : Going side θ d) (h0 : 0 ≤ θ) (h1 : θ < Real.pi / 2) {ρ : ℂ} (hlt : ‖ρ‖ * Real.sin θ < 1) :
    Going side (Real.arctan (|ρ.re| * Real.sin θ / Real.sqrt (1 - (‖ρ‖ * Real.sin θ) ^ 2))) (normalise (refractDirC ρ d ((side : ℝ) • ⟨0, 0, 1⟩))) := by
  have hs : 0 ≤ Real.sin θ := Real.sin_nonneg_of_nonneg_of_le_pi h0 (by linarith [Real.pi_pos])
  have hn : V3.norm (⟨d.x, d.y, 0⟩ : V3) = Real.sin θ := by
    have : V3.dot (⟨d.x, d.y, 0⟩ : V3) ⟨d.x, d.y, 0⟩ = Real.sin θ ^ 2 := by rw [← h.horizontal]; simp [V3.dot]; ring
    rw [V3.norm, this, Real.sqrt_sq hs]
  have hq : 0 < 1 - (‖ρ‖ * Real.sin θ) ^ 2 := by
    have : 0 ≤ ‖ρ‖ * Real.sin θ := by positivity
    nlinarith
  set q := Real.sqrt (1 - (‖ρ‖ * Real.sin θ) ^ 2) with hqdef
  have hq0 : 0 < q := Real.sqrt_pos.mpr hq
  have hd : refractDirC ρ d ((side : ℝ) • ⟨0, 0, 1⟩) = ⟨ρ.re * d.x, ρ.re * d.y, -(side : ℝ) * q⟩ := by
    unfold refractDirC
    simp only [h.tangential, hn, ← hqdef]
    ext
    · simp
    · simp
    · simp; ring
  clear_value q
  set x := |ρ.re| * Real.sin θ / q with hx
  have hx2 : x ^ 2 * q ^ 2 = ρ.re ^ 2 * Real.sin θ ^ 2 := by
    rw [hx, div_pow, div_mul_cancel₀ _ (by positivity), mul_pow, sq_abs]
  clear_value x
  have hroot : 0 < Real.sqrt (1 + x ^ 2) := Real.sqrt_pos.mpr (by positivity)
  have hnorm : V3.norm (⟨ρ.re * d.x, ρ.re * d.y, -(side : ℝ) * q⟩ : V3) = q * Real.sqrt (1 + x ^ 2) := by
    have : V3.dot (⟨ρ.re * d.x, ρ.re * d.y, -(side : ℝ) * q⟩ : V3) ⟨ρ.re * d.x, ρ.re * d.y, -(side : ℝ) * q⟩ = q ^ 2 * (1 + x ^ 2) := by
      have e : V3.dot (⟨ρ.re * d.x, ρ.re * d.y, -(side : ℝ) * q⟩ : V3) ⟨ρ.re * d.x, ρ.re * d.y, -(side : ℝ) * q⟩ = ρ.re ^ 2 * (d.x ^ 2 + d.y ^ 2) + (side : ℝ) ^ 2 * q ^ 2 := by simp only [V3.dot]; ring
      rw [e, h.horizontal, h.sq, ← hx2]; ring
    rw [V3.norm, this, Real.sqrt_mul (by positivity), Real.sqrt_sq hq0.le]
  rw [hd]
  refine ⟨h.sided, ?_, ?_⟩
  · simp only [normalise, V3.smul_x, V3.smul_y]
    rw [hnorm, Real.sin_arctan, div_pow, Real.sq_sqrt (by positivity)]
    have e : (1 / (q * Real.sqrt (1 + x ^ 2)) * (ρ.re * d.x)) ^ 2 + (1 / (q * Real.sqrt (1 + x ^ 2)) * (ρ.re * d.y)) ^ 2 = ρ.re ^ 2 * (d.x ^ 2 + d.y ^ 2) / (q ^ 2 * Real.sqrt (1 + x ^ 2) ^ 2) := by
      field_simp
    rw [e, h.horizontal, ← hx2, Real.sq_sqrt (by positivity)]
    field_simp
  · simp only [normalise, V3.smul_z]
    rw [hnorm, Real.cos_arctan]
    field_simp

theorem Going.polar (h : Going side θ d) (h0 : 0 ≤ θ) (h1 : θ < Real.pi / 2) : Model.polar d = if side = 1 then Real.pi - θ else θ := by
  unfold Model.polar
  rw [h.norm, div_one, h.vertical]
  rcases h.sided with e | e
  · rw [if_pos e, e]; push_cast
    rw [neg_one_mul, Real.arccos_neg, Real.arccos_cos h0 (by linarith [Real.pi_pos])]
  · rw [if_neg (by omega), e]; push_cast
    rw [neg_neg, one_mul, Real.arccos_cos h0 (by linarith [Real.pi_pos])]

theorem Going.cos_pos (h0 : 0 ≤ θ) (h1 : θ < Real.pi / 2) : 0 < Real.cos θ := Real.cos_pos_of_mem_Ioo ⟨by linarith, h1⟩

theorem Going.away (h : Going side θ d) (h0 : 0 ≤ θ) (h1 : θ < Real.pi / 2) : MovesAway (-side) d := by
  have hc := Going.cos_pos h0 h1
  have hv := h.vertical
  rcases h.sided with e | e
  · right; rw [e] at hv; push_cast at hv
    exact ⟨by rw [e], by linarith⟩
  · left; rw [e] at hv; push_cast at hv
    exact ⟨by rw [e]; norm_num, by linarith⟩

end going

/-- With real refractive indices coated and bare surfaces refract alike. -/
theorem refrOf_real (n0 n1 : ℝ) (h0 : 0 < n0) (h1 : 0 < n1) {θ : ℝ} (hs : 0 ≤ Real.sin θ) (hlt : n0 / n1 * Real.sin θ < 1) (coated : Bool) :
    refrOf coated n0 n1 θ = Real.arcsin (n0 / n1 * Real.sin θ) ∧ sinRefr coated n0 n1 θ = n0 / n1 * Real.sin θ := by
  have e : ((n0 : ℂ) / n1) = ((n0 / n1 : ℝ) : ℂ) := by push_cast; rfl
  have hn : ‖((n0 : ℂ) / n1)‖ = n0 / n1 := by rw [e, Complex.norm_real]; exact abs_of_pos (by positivity)
  have hr : ((n0 : ℂ) / n1).re = n0 / n1 := by rw [e, Complex.ofReal_re]
  unfold refrOf sinRefr
  cases coated
  · simp
  · simp only [if_true, hn, hr, abs_of_pos (show 0 < n0 / n1 by positivity), and_true]
    have hnn : 0 ≤ n0 / n1 * Real.sin θ := by positivity
    rw [Real.arcsin_eq_arctan ⟨by linarith, hlt⟩]

/-! ## Helper lemmas: one surface -/

/-- The media a ray on the given side comes from and goes to. -/
noncomputable def mediaAt (ni nj : ℂ) (side : ℤ) : ℂ × ℂ := (if side = 1 then ni else nj, if side = 1 then nj else ni)

/-- Absorption per layer in the table. -/
noncomputable def layersAt (tab : Option Table) (side : ℤ) (θ : ℝ) : List ℝ := match tab with
  | none => []
  | some t => (t side θ).2.2

/-- Direction of the refracted ray. -/
noncomputable def refrDir (tab : Option Table) (ni nj : ℂ) (side : ℤ) (d : V3) : V3 := match tab with
  | none => normalise (refractDir ((mediaAt ni nj side).1.re / (mediaAt ni nj side).2.re) d ((side : ℝ) • ⟨0, 0, 1⟩))
  | some _ => normalise (refractDirC ((mediaAt ni nj side).1 / (mediaAt ni nj side).2) d ((side : ℝ) • ⟨0, 0, 1⟩))

theorem flat_law {side : ℤ} {θ : ℝ} {d : V3} (h : Going side θ d) (h0 : 0 ≤ θ) (h1 : θ < Real.pi / 2) (asin : ℂ → ℂ) (pol : Pol) (tab : Option Table) (ni nj : ℂ) (F : V3 × ℤ × Option (List ℝ) → ℝ) :
    ((facetLaw asin pol tab ni nj (localTheta ⟨0, 0, 1⟩ d) d ((side : ℝ) • ⟨0, 0, 1⟩) side).map fun b => b.1 * F b.2).sum =
      (faceOf asin pol tab ni nj side θ).refl * F (⟨d.x, d.y, -d.z⟩, side, none) + (faceOf asin pol tab ni nj side θ).trns * F (refrDir tab ni nj side d, -side, none)
        + (1 - (faceOf asin pol tab ni nj side θ).refl - (faceOf asin pol tab ni nj side θ).trns) * F (d, side, some (layersAt tab side θ)) := by
  have hθ := h.localTheta h0 h1
  cases tab with
  | none =>
    simp only [facetLaw, faceOf, refrDir, layersAt, mediaAt, List.map_cons, List.map_nil, List.sum_cons, List.sum_nil, decideR, hθ, abs_of_nonneg h0, h.reflect]
    ring
  | some t =>
    simp only [facetLaw, tmmLaw, faceOf, refrDir, layersAt, mediaAt, List.map_cons, List.map_nil, List.sum_cons, List.sum_nil, hθ, h.reflect]
    ring

theorem refrDir_going {side : ℤ} {θ : ℝ} {d : V3} (h : Going side θ d) (h0 : 0 ≤ θ) (h1 : θ < Real.pi / 2) {tab : Option Table} {ni nj : ℂ} (hi : 0 < ni.re) (hj : 0 < nj.re)
    (hlt : sinRefr tab.isSome (mediaAt ni nj side).1 (mediaAt ni nj side).2 θ < 1) :
    Going side (refrOf tab.isSome (mediaAt ni nj side).1 (mediaAt ni nj side).2 θ) (refrDir tab ni nj side d) ∧
      0 ≤ refrOf tab.isSome (mediaAt ni nj side).1 (mediaAt ni nj side).2 θ ∧ refrOf tab.isSome (mediaAt ni nj side).1 (mediaAt ni nj side).2 θ < Real.pi / 2 := by
  have hs : 0 ≤ Real.sin θ := Real.sin_nonneg_of_nonneg_of_le_pi h0 (by linarith [Real.pi_pos])
  have hm1 : 0 < (mediaAt ni nj side).1.re := by unfold mediaAt; dsimp only; split_ifs <;> assumption
  have hm2 : 0 < (mediaAt ni nj side).2.re := by unfold mediaAt; dsimp only; split_ifs <;> assumption
  cases tab with
  | none =>
    simp only [sinRefr, refrOf, refrDir, Option.isSome_none, if_false, Bool.false_eq_true] at hlt ⊢
    exact ⟨h.refract h0 h1 (by positivity) hlt, Real.arcsin_nonneg.mpr (by positivity), Real.arcsin_lt_pi_div_two.mpr hlt⟩
  | some t =>
    simp only [sinRefr, refrOf, refrDir, Option.isSome_some, if_true] at hlt ⊢
    exact ⟨h.refractC h0 h1 hlt, Real.arctan_nonneg.mpr (by positivity), Real.arctan_lt_pi_div_two _⟩

theorem finalRes_same {d0 d : V3} (h : d0.z < 0 ∧ d.z < 0 ∨ 0 < d0.z ∧ 0 < d.z) : finalRes d0 d = 1 := by
  unfold finalRes npSign
  rcases h with ⟨a, b⟩ | ⟨a, b⟩ <;> simp [a, b, not_lt.mpr a.le, not_lt.mpr b.le]

theorem finalRes_opp {d0 d : V3} (h : d0.z < 0 ∧ 0 < d.z ∨ 0 < d0.z ∧ d.z < 0) : finalRes d0 d = 0 := by
  unfold finalRes npSign
  rcases h with ⟨a, b⟩ | ⟨a, b⟩ <;> simp [a, b, not_lt.mpr a.le, not_lt.mpr b.le]

/-- Above the plane for a ray coming down, below it for one going up. -/
def OnSide (side : ℤ) (z h : ℝ) : Prop := side = 1 ∧ z < h ∨ side = -1 ∧ h < z

/-- What happens at a flat surface: reflection, transmission or absorption, with the probabilities of the surface. -/
theorem flat_meet {c : RTStack} (hper : c.periodic = true) {cell : Cell} (hLx : 0 < cell.Lx) (hLy : 0 < cell.Ly) (hz : cell.zmin ≤ cell.zmax) {tab : Option Table} {ni nj : ℂ} (hi : 0 < ni.re) (hj : 0 < nj.re)
    (g : Option SicRes → ℝ) {m : Meeting} (hflat : ∀ w ∈ m.ws, FlatSurface w.tris cell.Lx cell.Ly cell.zcov) (hlen : 3 ≤ m.ws.length)
    {s : StackRay} {r : V3} (hr : s.r = some r) {θ : ℝ} (h0 : 0 ≤ θ) (h1 : θ < Real.pi / 2) (hd : Going s.ray.dir θ s.d)
    (hside : OnSide s.ray.dir cell.zcov r.z ∨ c.randomize = true ∧ 0 < s.ray.nPasses)
    (hT : (faceOf c.asin c.pol tab ni nj s.ray.dir θ).trns = 0 ∨ sinRefr tab.isSome (mediaAt ni nj s.ray.dir).1 (mediaAt ni nj s.ray.dir).2 θ < 1) :
    ∃ oR oT oA : SicRes,
      branchesMeet c cell tab ni nj g m s = (faceOf c.asin c.pol tab ni nj s.ray.dir θ).refl * g (some oR) + (faceOf c.asin c.pol tab ni nj s.ray.dir θ).trns * g (some oT)
        + (1 - (faceOf c.asin c.pol tab ni nj s.ray.dir θ).refl - (faceOf c.asin c.pol tab ni nj s.ray.dir θ).trns) * g (some oA) ∧
      (oR.outcome = .reflect (if s.ray.dir = 1 then θ else Real.pi - θ) ∧ Going (-s.ray.dir) θ oR.dir ∧ ∃ r', oR.pos = some r' ∧ r'.z = cell.zcov + 1 / 10 ^ 9 * (s.ray.dir * Real.cos θ)) ∧
      ((faceOf c.asin c.pol tab ni nj s.ray.dir θ).trns ≠ 0 → let θ' := refrOf tab.isSome (mediaAt ni nj s.ray.dir).1 (mediaAt ni nj s.ray.dir).2 θ
        0 ≤ θ' ∧ θ' < Real.pi / 2 ∧ oT.outcome = .transmit (if s.ray.dir = 1 then Real.pi - θ' else θ') ∧ Going s.ray.dir θ' oT.dir ∧ ∃ r', oT.pos = some r' ∧ r'.z = cell.zcov - 1 / 10 ^ 9 * (s.ray.dir * Real.cos θ')) ∧
      oA.outcome = .absorb (layersAt tab s.ray.dir θ) := by
  have hc := Going.cos_pos h0 h1
  have hdz : s.d.z ≠ 0 := by
    rw [hd.vertical]
    rcases hd.sided with e | e <;> rw [e] <;> push_cast <;> simp [hc.ne']
  -- after the randomisation
  obtain ⟨r1, hr1, hon⟩ : ∃ r1, c.randomised cell m s = (some r1, s.d) ∧ OnSide s.ray.dir cell.zcov r1.z := by
    unfold RTStack.randomised
    by_cases hra : c.randomize = true ∧ 0 < s.ray.nPasses
    · rw [if_pos hra]
      have hdir : randDir s.d s.ray.dir = s.d := by unfold randDir; rw [if_neg hdz]
      refine ⟨_, by rw [hdir], ?_⟩
      simp only [randStart, hdir, V3.sub_z, V3.smul_z]
      have hn : (0 : ℝ) < ((⌈|(cell.zmax - cell.zmin + 0.1) / s.d.z|⌉ : ℤ) : ℝ) := by
        have : 0 < ⌈|(cell.zmax - cell.zmin + 0.1) / s.d.z|⌉ := by
          rw [Int.ceil_pos, abs_pos]
          refine div_ne_zero ?_ hdz
          have : (0 : ℝ) < cell.zmax - cell.zmin + 0.1 := by norm_num; linarith
          exact this.ne'
        exact_mod_cast this
      have hv := hd.vertical
      rcases hd.sided with e | e
      · left
        rw [e] at hv; push_cast at hv
        exact ⟨e, by nlinarith⟩
      · right
        rw [e] at hv; push_cast at hv
        exact ⟨e, by nlinarith⟩
    · rw [if_neg hra, hr]
      exact ⟨r, rfl, hside.resolve_right hra⟩
  obtain ⟨w0, w1, w2, ws, hws⟩ : ∃ w0 w1 w2 ws, m.ws = w0 :: w1 :: w2 :: ws := by
    match hm : m.ws, hlen with
    | a :: b :: c :: l, _ => exact ⟨a, b, c, l, rfl⟩
  have f0 := hflat w0 (by rw [hws]; simp)
  have f1 := hflat w1 (by rw [hws]; simp)
  have f2 := hflat w2 (by rw [hws]; simp)
  have hwrap := flat_wrap (z := cell.zcov) (r := r1) hdz hLx hLy
  set rw' := wrapRay r1 s.d cell.Lx cell.Ly cell.zcov with hrw
  have hquot : 0 < (cell.zcov - rw'.z) / s.d.z := by
    rw [hwrap.2]
    have hv := hd.vertical
    rcases hon with ⟨e, a⟩ | ⟨e, a⟩ <;> rw [e] at hv <;> push_cast at hv
    · exact div_pos_of_neg_of_neg (by linarith) (by linarith)
    · exact div_pos (by linarith) (by linarith)
  have hhit := flat_hit f0 hquot hdz hwrap.1
  set p := rw' + ((cell.zcov - rw'.z) / s.d.z) • s.d with hp
  have hpz : p.z = cell.zcov := by rw [hp]; simp; field_simp; ring
  -- after the facet
  have after : ∀ (d' : V3) (side' : ℤ) (θ' : ℝ), 0 ≤ θ' → θ' < Real.pi / 2 → Going (-side') θ' d' →
      ∃ r', r'.z = cell.zcov + 1 / 10 ^ 9 * (side' * Real.cos θ') ∧
        branches cell.Lx cell.Ly s.d (facetLaw c.asin c.pol tab ni nj) g ((w1 :: w2 :: ws).map fun w => w.draw c.asin c.pol tab ni nj)
          { r := p + (1 / 10 ^ 9 : ℝ) • d', d := d', side := side', checked := false, misses := 0, i1 := 0 + 1, nInt := 0 + 1, θ := some (localTheta ⟨0, 0, 1⟩ s.d) }
        = g (some (.out (finalRes s.d d') (Model.polar d') r' d' (some (localTheta ⟨0, 0, 1⟩ s.d)) 1 side')) := by
    intro d' side' θ' a0 a1 hg
    have hc' := Going.cos_pos a0 a1
    have hv := hg.vertical
    push_cast at hv
    have haw := hg.away a0 a1
    rw [neg_neg] at haw
    obtain ⟨r', e1, e2⟩ := flat_leave (d0 := s.d) (law := facetLaw c.asin c.pol tab ni nj) (g := g) (w1 := w1.draw c.asin c.pol tab ni nj) (w2 := w2.draw c.asin c.pol tab ni nj)
      (ws := ws.map fun w => w.draw c.asin c.pol tab ni nj) f1 f2
      (s := { r := p + (1 / 10 ^ 9 : ℝ) • d', d := d', side := side', checked := false, misses := 0, i1 := 0 + 1, nInt := 0 + 1, θ := some (localTheta ⟨0, 0, 1⟩ s.d) }) rfl (by simp) haw (by
        simp only [V3.add_z, V3.smul_z, hpz]
        rcases haw with ⟨e, b⟩ | ⟨e, b⟩
        · exact Or.inl ⟨e, by linarith⟩
        · exact Or.inr ⟨e, by linarith⟩)
    refine ⟨r', ?_, e2⟩
    rw [e1]
    simp only [V3.add_z, V3.smul_z, hpz, hv]
    ring
  have hRg := hd.flip
  obtain ⟨rR, hrR, hbR⟩ := after ⟨s.d.x, s.d.y, -s.d.z⟩ s.ray.dir θ h0 h1 hRg
  obtain ⟨F, hF⟩ : ∃ F : V3 × ℤ × Option (List ℝ) → ℝ, F = fun b => match b with
        | (d, side, some A) => g (some (.absorbed A (p + (1 / 10 ^ 9 : ℝ) • d) d (localTheta ⟨0, 0, 1⟩ s.d) (0 + 1) side))
        | (d, side, none) => branches cell.Lx cell.Ly s.d (facetLaw c.asin c.pol tab ni nj) g ((w1 :: w2 :: ws).map fun w => w.draw c.asin c.pol tab ni nj)
          { r := p + (1 / 10 ^ 9 : ℝ) • d, d := d, side := side, checked := false, misses := 0, i1 := 0 + 1, nInt := 0 + 1, θ := some (localTheta ⟨0, 0, 1⟩ s.d) } := ⟨_, rfl⟩
  have hbody : branchesMeet c cell tab ni nj g m s =
      ((facetLaw c.asin c.pol tab ni nj (localTheta ⟨0, 0, 1⟩ s.d) s.d ((s.ray.dir : ℝ) • ⟨0, 0, 1⟩) s.ray.dir).map fun b => b.1 * F b.2).sum := by
    unfold branchesMeet
    simp only [hr1, if_pos hper, wrapOpt, if_neg hdz, Option.map_some, hws, List.map_cons, ← hrw]
    rw [branches]
    have hhit' : checkIntersect rw' s.d (w0.draw c.asin c.pol tab ni nj).tris = some (p, localTheta ⟨0, 0, 1⟩ s.d, ⟨0, 0, 1⟩) := hhit
    simp only [sicStart, hhit']
    refine congrArg List.sum (List.map_congr_left ?_)
    rw [hF]
    rintro ⟨w, d, sd, _ | A⟩ _ <;> rfl
  rw [flat_law hd h0 h1] at hbody
  have hFR := (congrFun hF (⟨s.d.x, s.d.y, -s.d.z⟩, s.ray.dir, none)).trans hbR
  have hFA : F (s.d, s.ray.dir, some (layersAt tab s.ray.dir θ)) = g (some (.absorbed (layersAt tab s.ray.dir θ) (p + (1 / 10 ^ 9 : ℝ) • s.d) s.d (localTheta ⟨0, 0, 1⟩ s.d) (0 + 1) s.ray.dir)) := by rw [hF]
  rw [hFR, hFA] at hbody
  have hopp : finalRes s.d ⟨s.d.x, s.d.y, -s.d.z⟩ = 0 := finalRes_opp (by
    rcases lt_or_gt_of_ne hdz with e | e
    · exact Or.inl ⟨e, by simpa using e⟩
    · exact Or.inr ⟨e, by simpa using e⟩)
  have hpolR : Model.polar ⟨s.d.x, s.d.y, -s.d.z⟩ = if s.ray.dir = 1 then θ else Real.pi - θ := by
    rw [hRg.polar h0 h1]
    rcases hd.sided with e | e <;> rw [e] <;> simp
  set f := faceOf c.asin c.pol tab ni nj s.ray.dir θ with hf
  have hR3 : (SicRes.out (finalRes s.d ⟨s.d.x, s.d.y, -s.d.z⟩) (Model.polar ⟨s.d.x, s.d.y, -s.d.z⟩) rR ⟨s.d.x, s.d.y, -s.d.z⟩ (some (localTheta ⟨0, 0, 1⟩ s.d)) 1 s.ray.dir).outcome
      = .reflect (if s.ray.dir = 1 then θ else Real.pi - θ) := by
    simp only [SicRes.outcome, hopp, hpolR, if_true]
  by_cases ht : f.trns = 0
  · refine ⟨_, .absorbed [] 0 0 0 0 0, SicRes.absorbed (layersAt tab s.ray.dir θ) (p + (1 / 10 ^ 9 : ℝ) • s.d) s.d (localTheta ⟨0, 0, 1⟩ s.d) (0 + 1) s.ray.dir, ?_, ⟨hR3, hRg, rR, rfl, hrR⟩, fun h => absurd ht h, rfl⟩
    rw [hbody, ht, zero_mul, zero_mul]
  · obtain ⟨hTg, hθ0, hθ1⟩ := refrDir_going hd h0 h1 hi hj (hT.resolve_left ht)
    set θ' := refrOf tab.isSome (mediaAt ni nj s.ray.dir).1 (mediaAt ni nj s.ray.dir).2 θ with hθ'
    obtain ⟨rT, hrT, hbT⟩ := after (refrDir tab ni nj s.ray.dir s.d) (-s.ray.dir) θ' hθ0 hθ1 (by rw [neg_neg]; exact hTg)
    have hc' := Going.cos_pos hθ0 hθ1
    have hsame : finalRes s.d (refrDir tab ni nj s.ray.dir s.d) = 1 := finalRes_same (by
      have hv := hd.vertical
      have hv' := hTg.vertical
      rcases hd.sided with e | e
      · have e' : (s.ray.dir : ℝ) = 1 := by rw [e]; norm_num
        rw [e'] at hv hv'
        left; constructor <;> linarith
      · have e' : (s.ray.dir : ℝ) = -1 := by rw [e]; norm_num
        rw [e'] at hv hv'
        right; constructor <;> linarith)
    refine ⟨_, .out (finalRes s.d (refrDir tab ni nj s.ray.dir s.d)) (Model.polar (refrDir tab ni nj s.ray.dir s.d)) rT (refrDir tab ni nj s.ray.dir s.d) (some (localTheta ⟨0, 0, 1⟩ s.d)) 1 (-s.ray.dir), SicRes.absorbed (layersAt tab s.ray.dir θ) (p + (1 / 10 ^ 9 : ℝ) • s.d) s.d (localTheta ⟨0, 0, 1⟩ s.d) (0 + 1) s.ray.dir,
      ?_, ⟨hR3, hRg, rR, rfl, hrR⟩, fun _ => ⟨hθ0, hθ1, ?_, hTg, rT, rfl, ?_⟩, rfl⟩
    · have hFT := (congrFun hF (refrDir tab ni nj s.ray.dir s.d, -s.ray.dir, none)).trans hbT
      rw [hbody, hFT]
    · simp only [SicRes.outcome, hsame, hTg.polar hθ0 hθ1, one_ne_zero, if_false]
    · rw [hrT]; push_cast; ring

end Rayflare
