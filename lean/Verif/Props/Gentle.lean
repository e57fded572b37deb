import Verif.Spec.Gentle
import Verif.Props.Reverse
import Verif.Props.Geometry
import Verif.Props.Turn
import Verif.Props.TraceSurface

/-!
# Property C155: how often light meets gentle and steep textures
-/

namespace Rayflare

open Rayflare.Model Rayflare.Spec Rayflare.Lemmas

/-! ## Helper lemmas -/

theorem horiz_nonneg (v : V3) : 0 ≤ horiz v := Real.sqrt_nonneg _

theorem horiz_sq (v : V3) : horiz v ^ 2 = v.x ^ 2 + v.y ^ 2 := Real.sq_sqrt (by positivity)

theorem horiz_le_one {v : V3} (hv : V3.dot v v = 1) : horiz v ≤ 1 := by
  unfold horiz
  rw [Real.sqrt_le_one]
  unfold V3.dot at hv
  nlinarith [mul_self_nonneg v.z]

theorem horiz_smul (k : ℝ) (v : V3) : horiz (k • v) = |k| * horiz v := by
  unfold horiz
  rw [← Real.sqrt_sq_eq_abs, ← Real.sqrt_mul (sq_nonneg k)]
  congr 1; simp only [V3.smul_x, V3.smul_y]; ring

theorem horiz_add (a b : V3) : horiz (a + b) ≤ horiz a + horiz b := by
  have h1 := horiz_sq a
  have h2 := horiz_sq b
  have n1 := horiz_nonneg a
  have n2 := horiz_nonneg b
  refine abs_le_of_sq_le_sq' ?_ (by linarith) |>.2
  rw [horiz_sq, add_sq, h1, h2]
  simp only [V3.add_x, V3.add_y]
  have : a.x * b.x + a.y * b.y ≤ horiz a * horiz b := by
    refine abs_le_of_sq_le_sq' ?_ (by positivity) |>.2
    rw [mul_pow, h1, h2]
    nlinarith [sq_nonneg (a.x * b.y - a.y * b.x)]
  nlinarith

section
variable {Lx Ly s ℓ : ℝ} {h : ℝ → ℝ → ℝ} {tris : List Tri} (H : HeightMap Lx Ly s ℓ h tris) (hs : 0 ≤ s)

include H in
theorem slope_horiz (p q : V3) : |h p.x p.y - h q.x q.y| ≤ s * horiz (p - q) := H.slope _ _ _ _

include H hs in
/-- A point of a facet, with the tolerance of the intersection test, is close to the graph. -/
theorem near_graph {τ : Tri} (hτ : τ ∈ tris) {ε : ℝ} (hε : 0 ≤ ε) (hε1 : ε ≤ 1) {q : V3} (hq : InTri ε τ q) : |q.z - h q.x q.y| ≤ 2 * s * (ε * ℓ) := by
  obtain ⟨u, v, hu, hv, huv, rfl⟩ := hq
  obtain ⟨u', v', hu', hv', huv', du, dv⟩ : ∃ u' v' : ℝ, 0 ≤ u' ∧ 0 ≤ v' ∧ u' + v' ≤ 1 ∧ |u - u'| ≤ ε ∧ |v - v'| ≤ ε := by
    rcases lt_or_ge u 0 with a | a
    · refine ⟨0, min 1 (max 0 v), le_rfl, by positivity, by simp, by rw [abs_le]; constructor <;> linarith, ?_⟩
      rw [abs_le]
      rcases le_total v 0 with b | b
      · rw [max_eq_left b, min_eq_right zero_le_one]; constructor <;> linarith
      · rw [max_eq_right b]
        rcases le_total 1 v with c | c
        · rw [min_eq_left c]; constructor <;> linarith
        · rw [min_eq_right c]; constructor <;> linarith
    · rcases lt_or_ge v 0 with b | b
      · refine ⟨min 1 u, 0, by positivity, le_rfl, by simp, ?_, by rw [abs_le]; constructor <;> linarith⟩
        rw [abs_le]
        rcases le_total 1 u with c | c
        · rw [min_eq_left c]; constructor <;> linarith
        · rw [min_eq_right c]; constructor <;> linarith
      · exact ⟨u, v, a, b, huv, by simpa using hε, by simpa using hε⟩
  set e1 := τ.P1 - τ.P0 with he1
  set e2 := τ.P2 - τ.P0 with he2
  obtain ⟨q', hq'⟩ : ∃ q', q' = τ.P0 + u' • e1 + v' • e2 := ⟨_, rfl⟩
  have on' : q'.z = h q'.x q'.y := H.on τ hτ q' ⟨u', v', by linarith, by linarith, huv', hq'⟩
  have z0 : τ.P0.z = h τ.P0.x τ.P0.y := H.on τ hτ _ ⟨0, 0, by simp, by simp, by simp, by ext <;> simp⟩
  have z1 : τ.P1.z = h τ.P1.x τ.P1.y := H.on τ hτ _ ⟨1, 0, by simp, by simp, by simp, by ext <;> simp⟩
  have z2 : τ.P2.z = h τ.P2.x τ.P2.y := H.on τ hτ _ ⟨0, 1, by simp, by simp, by simp, by ext <;> simp⟩
  have k1 : |e1.z| ≤ s * horiz e1 := by
    have := slope_horiz H τ.P1 τ.P0
    rw [← z1, ← z0] at this; exact this
  have k2 : |e2.z| ≤ s * horiz e2 := by
    have := slope_horiz H τ.P2 τ.P0
    rw [← z2, ← z0] at this; exact this
  have n1 := horiz_nonneg e1
  have n2 := horiz_nonneg e2
  have hsize : horiz e1 + horiz e2 ≤ ℓ := H.size τ hτ
  have hdiff : ∀ a b : ℝ, τ.P0 + u • e1 + v • e2 - q' = (u - u') • e1 + (v - v') • e2 := by
    intro _ _; rw [hq']; ext <;> simp <;> ring
  have hh : horiz (τ.P0 + u • e1 + v • e2 - q') ≤ ε * ℓ := by
    rw [hdiff 0 0]
    calc _ ≤ horiz ((u - u') • e1) + horiz ((v - v') • e2) := horiz_add _ _
      _ = |u - u'| * horiz e1 + |v - v'| * horiz e2 := by rw [horiz_smul, horiz_smul]
      _ ≤ ε * horiz e1 + ε * horiz e2 := by gcongr
      _ ≤ ε * ℓ := by nlinarith
  have hz : |(τ.P0 + u • e1 + v • e2).z - q'.z| ≤ s * (ε * ℓ) := by
    have : (τ.P0 + u • e1 + v • e2).z - q'.z = (u - u') * e1.z + (v - v') * e2.z := by rw [hq']; simp; ring
    rw [this]
    calc _ ≤ |(u - u') * e1.z| + |(v - v') * e2.z| := abs_add_le _ _
      _ = |u - u'| * |e1.z| + |v - v'| * |e2.z| := by rw [abs_mul, abs_mul]
      _ ≤ ε * (s * horiz e1) + ε * (s * horiz e2) := by gcongr
      _ ≤ s * (ε * ℓ) := by
        have : ε * (horiz e1 + horiz e2) ≤ ε * ℓ := by gcongr
        nlinarith
  have hl := slope_horiz H (τ.P0 + u • e1 + v • e2) q'
  have hl' := hl.trans (mul_le_mul_of_nonneg_left hh hs)
  rw [← on'] at hl'
  rw [abs_le] at *
  constructor <;> linarith [hl'.1, hl'.2, hz.1, hz.2]

include H hs in
/-- A ray that leaves a point close to the graph more steeply than the texture does not meet it again. -/
theorem no_second {p d c r : V3} {κ : ℝ} (hp : |p.z - h p.x p.y| ≤ 2 * s * (1 / 10 ^ 10 * ℓ)) (hd : s * horiz d + κ ≤ |d.z|) (hκ : 2 / 5 * s * ℓ ≤ κ) (hκ0 : 0 < κ)
    (hper : ∀ x y, h (x + c.x) (y + c.y) = h x y) (hc : c.z = 0) (hr : r = p + (1 / 10 ^ 9 : ℝ) • d + c) : checkIntersect r d tris = none := by
  rcases hci : checkIntersect r d tris with _ | ⟨q, θ, N⟩
  · rfl
  exfalso
  obtain ⟨τ, hτ, t, ht, hq, hin, -⟩ := C45_sound_nearest r d tris q θ N hci
  have hn := near_graph H hs hτ (by norm_num) (by norm_num) hin
  have hT : (0 : ℝ) < t + 1 / 10 ^ 9 := by positivity
  obtain ⟨T, hTe⟩ : ∃ T, T = t + 1 / 10 ^ 9 := ⟨_, rfl⟩
  rw [← hTe] at hT
  obtain ⟨q0, hq0⟩ : ∃ q0, q0 = p + T • d := ⟨_, rfl⟩
  have ex : q.x = q0.x + c.x := by rw [hq, hr, hq0, hTe]; simp; ring
  have ey : q.y = q0.y + c.y := by rw [hq, hr, hq0, hTe]; simp; ring
  have ez : q.z = q0.z := by rw [hq, hr, hq0, hTe]; simp [hc]; ring
  rw [ex, ey, ez, hper] at hn
  have hl := slope_horiz H q0 p
  have e : q0 - p = T • d := by rw [hq0]; ext <;> simp
  rw [e, horiz_smul, abs_of_pos hT] at hl
  have hz : q0.z - p.z = T * d.z := by rw [hq0]; simp
  have hz' : |q0.z - p.z| = T * |d.z| := by rw [hz, abs_mul, abs_of_pos hT]
  have h1 : |q0.z - p.z| ≤ s * (T * horiz d) + 4 * s * (1 / 10 ^ 10 * ℓ) := by
    rw [abs_le] at *
    constructor <;> linarith [hl.1, hl.2, hn.1, hn.2, hp.1, hp.2]
  rw [hz'] at h1
  have h2 : T * (s * horiz d + κ) ≤ T * |d.z| := by gcongr
  have h3 : T * κ ≤ 4 * s * (1 / 10 ^ 10 * ℓ) := by nlinarith
  have h4 : 1 / 10 ^ 9 * κ < T * κ := by
    apply mul_lt_mul_of_pos_right _ hκ0; rw [hTe]; linarith
  nlinarith

include H in
theorem height_period (x y : ℝ) (i j : ℤ) : h (x + i * Lx) (y + j * Ly) = h x y := by
  have p1 : ∀ y, Function.Periodic (fun x => h x y) Lx := fun y x => H.repeatX x y
  have p2 : ∀ x, Function.Periodic (fun y => h x y) Ly := fun x y => H.repeatY x y
  exact ((p1 _).int_mul i x).trans ((p2 _).int_mul j y)

include H in
/-- Every point of the graph, continued periodically, belongs to a facet. -/
theorem covers_all (hLx : 0 < Lx) (hLy : 0 < Ly) (x y : ℝ) : ∃ τ ∈ tris, ∃ i j : ℤ, ∃ q, InTri 0 τ q ∧ q.x + i * Lx = x ∧ q.y + j * Ly = y ∧ q.z = h x y := by
  have hx := Int.floor_le (x / Lx)
  have hx' := Int.lt_floor_add_one (x / Lx)
  have hy := Int.floor_le (y / Ly)
  have hy' := Int.lt_floor_add_one (y / Ly)
  rw [le_div_iff₀ hLx] at hx
  rw [le_div_iff₀ hLy] at hy
  rw [div_lt_iff₀ hLx] at hx'
  rw [div_lt_iff₀ hLy] at hy'
  obtain ⟨τ, hτ, hin⟩ := H.covers (x - ⌊x / Lx⌋ * Lx) (y - ⌊y / Ly⌋ * Ly) (by linarith) (by linarith) (by linarith) (by linarith)
  refine ⟨τ, hτ, ⌊x / Lx⌋, ⌊y / Ly⌋, _, hin, by simp, by simp, ?_⟩
  have := height_period H (x - ⌊x / Lx⌋ * Lx) (y - ⌊y / Ly⌋ * Ly) ⌊x / Lx⌋ ⌊y / Ly⌋
  simpa using this.symm

include H in
/-- Where the surface is plane around a point, the graph is this plane. -/
theorem plane_graph (hLx : 0 < Lx) (hLy : 0 < Ly) {δ x y : ℝ} {a b c : ℝ}
    (hpl : ∀ τ ∈ tris, ∀ i j : ℤ, ∀ q, InTri (1 / 10 ^ 10) τ q → (q.x + i * Lx - x) ^ 2 + (q.y + j * Ly - y) ^ 2 ≤ δ ^ 2 → q.z = a * (q.x + i * Lx) + b * (q.y + j * Ly) + c)
    {x' y' : ℝ} (hd : (x' - x) ^ 2 + (y' - y) ^ 2 ≤ δ ^ 2) : h x' y' = a * x' + b * y' + c := by
  obtain ⟨τ, hτ, i, j, q, ⟨u, v, hu, hv, huv, hq⟩, ex, ey, ez⟩ := covers_all H hLx hLy x' y'
  have hin : InTri (1 / 10 ^ 10) τ q := ⟨u, v, by rw [neg_zero] at hu; linarith [show (0 : ℝ) ≤ 1 / 10 ^ 10 by positivity], by rw [neg_zero] at hv; linarith [show (0 : ℝ) ≤ 1 / 10 ^ 10 by positivity], huv, hq⟩
  have := hpl τ hτ i j q hin (by rw [ex, ey]; exact hd)
  rw [ex, ey, ez] at this; exact this

include H hs in
/-- A ray that leaves a point of the graph more steeply than the texture, where the surface is plane around this point, does not meet it again. -/
theorem no_second_plane {p d c r : V3} {κ δ : ℝ} (hLx : 0 < Lx) (hLy : 0 < Ly) (hp : p.z = h p.x p.y) (hd : s * horiz d + κ ≤ |d.z|) (hd1 : horiz d ≤ 1) (hδ0 : 0 ≤ δ) (hδ : 2 * s * (1 / 10 ^ 10 * ℓ) ≤ δ * κ) (hκ0 : 0 < κ)
    (hpl : PlaneAround Lx Ly δ p.x p.y tris) (hcx : ∃ i : ℤ, c.x = i * Lx) (hcy : ∃ j : ℤ, c.y = j * Ly) (hc : c.z = 0) (hr : r = p + (1 / 10 ^ 9 : ℝ) • d + c) : checkIntersect r d tris = none := by
  rcases hci : checkIntersect r d tris with _ | ⟨q, θ, N⟩
  · rfl
  exfalso
  obtain ⟨τ, hτ, t, ht, hq, hin, -⟩ := C45_sound_nearest r d tris q θ N hci
  have hn := near_graph H hs hτ (by norm_num) (by norm_num) hin
  have hT : (0 : ℝ) < t + 1 / 10 ^ 9 := by positivity
  obtain ⟨T, hTe⟩ : ∃ T, T = t + 1 / 10 ^ 9 := ⟨_, rfl⟩
  rw [← hTe] at hT
  obtain ⟨q0, hq0⟩ : ∃ q0, q0 = p + T • d := ⟨_, rfl⟩
  obtain ⟨i, hi⟩ := hcx
  obtain ⟨j, hj⟩ := hcy
  have ex : q.x = q0.x + i * Lx := by rw [← hi, hq, hr, hq0, hTe]; simp; ring
  have ey : q.y = q0.y + j * Ly := by rw [← hj, hq, hr, hq0, hTe]; simp; ring
  have ez : q.z = q0.z := by rw [hq, hr, hq0, hTe]; simp [hc]; ring
  have hn' := hn
  rw [ex, ey, ez, height_period H] at hn'
  have hl := slope_horiz H q0 p
  have e : q0 - p = T • d := by rw [hq0]; ext <;> simp
  rw [e, horiz_smul, abs_of_pos hT] at hl
  have hz : q0.z - p.z = T * d.z := by rw [hq0]; simp
  have hz' : |q0.z - p.z| = T * |d.z| := by rw [hz, abs_mul, abs_of_pos hT]
  have hn0 := horiz_nonneg d
  have h2 : T * (s * horiz d + κ) ≤ T * |d.z| := by gcongr
  have h1 : |q0.z - p.z| ≤ s * (T * horiz d) + 2 * s * (1 / 10 ^ 10 * ℓ) := by
    rw [abs_le] at *
    constructor <;> linarith [hl.1, hl.2, hn'.1, hn'.2]
  rw [hz'] at h1
  have h3 : T * κ ≤ δ * κ := by linarith [mul_add T (s * horiz d) κ, mul_left_comm s T (horiz d)]
  have hTδ : T ≤ δ := le_of_mul_le_mul_right h3 hκ0
  have hdist : (q0.x - p.x) ^ 2 + (q0.y - p.y) ^ 2 ≤ δ ^ 2 := by
    have : (q0.x - p.x) ^ 2 + (q0.y - p.y) ^ 2 = (T * horiz d) ^ 2 := by
      rw [mul_pow, horiz_sq, hq0]; simp; ring
    rw [this]
    have : T * horiz d ≤ δ * 1 := mul_le_mul hTδ hd1 hn0 hδ0
    rw [mul_one] at this
    gcongr
  obtain ⟨a, b, k, hpl⟩ := hpl
  have g1 := plane_graph H hLx hLy hpl hdist
  have ex' : q.x + ((-i : ℤ) : ℝ) * Lx = q0.x := by rw [ex]; push_cast; ring
  have ey' : q.y + ((-j : ℤ) : ℝ) * Ly = q0.y := by rw [ey]; push_cast; ring
  have g2 := hpl τ hτ (-i) (-j) q hin (by rw [ex', ey']; exact hdist)
  rw [ex', ey', ez, ← g1] at g2
  rw [← g2, ← hp, hz'] at hl
  have : T * κ ≤ 0 := by linarith [mul_add T (s * horiz d) κ, mul_left_comm s T (horiz d)]
  linarith [mul_pos hT hκ0]

include H hs in
/-- A facet of the graph is at most as steep as the height function. -/
theorem facet_slope {τ : Tri} (hτ : τ ∈ tris) : τ.crossP.x ^ 2 + τ.crossP.y ^ 2 ≤ s ^ 2 * τ.crossP.z ^ 2 := by
  obtain ⟨c, hc⟩ : ∃ c, c = τ.crossP := ⟨_, rfl⟩
  have hz : 0 < c.z := hc ▸ H.up τ hτ
  rw [← hc]
  obtain ⟨g, hg⟩ : ∃ g, g = Real.sqrt (c.x ^ 2 + c.y ^ 2) := ⟨_, rfl⟩
  have hg2 : g ^ 2 = c.x ^ 2 + c.y ^ 2 := by rw [hg, Real.sq_sqrt (by positivity)]
  have hg0 : 0 ≤ g := hg ▸ Real.sqrt_nonneg _
  rw [← hg2]
  rcases hg0.eq_or_lt with h0 | hgp
  · rw [← h0]; have : 0 ≤ s ^ 2 * c.z ^ 2 := by positivity
    simpa using this
  obtain ⟨e1, he1⟩ : ∃ e1, e1 = τ.P1 - τ.P0 := ⟨_, rfl⟩
  obtain ⟨e2, he2⟩ : ∃ e2, e2 = τ.P2 - τ.P0 := ⟨_, rfl⟩
  have hcx : c.x = e1.y * e2.z - e1.z * e2.y := by rw [hc, he1, he2]; rfl
  have hcy : c.y = e1.z * e2.x - e1.x * e2.z := by rw [hc, he1, he2]; rfl
  have hcz : c.z = e1.x * e2.y - e1.y * e2.x := by rw [hc, he1, he2]; rfl
  obtain ⟨a, ha⟩ : ∃ a, a = c.x * e2.y - c.y * e2.x := ⟨_, rfl⟩
  obtain ⟨b, hb⟩ : ∃ b, b = c.y * e1.x - c.x * e1.y := ⟨_, rfl⟩
  obtain ⟨k, hk0, hka, hkb⟩ : ∃ k : ℝ, 0 < k ∧ |k * a| ≤ 1 / 6 ∧ |k * b| ≤ 1 / 6 := by
    refine ⟨1 / (6 * (|a| + |b| + 1)), by positivity, ?_, ?_⟩
    · rw [abs_mul, abs_of_pos (by positivity), one_div, inv_mul_eq_div, div_le_iff₀ (by positivity)]
      linarith [abs_nonneg b]
    · rw [abs_mul, abs_of_pos (by positivity), one_div, inv_mul_eq_div, div_le_iff₀ (by positivity)]
      linarith [abs_nonneg a]
  rw [abs_le] at hka hkb
  obtain ⟨p, hp⟩ : ∃ p, p = τ.P0 + (1 / 3 + k * a) • e1 + (1 / 3 + k * b) • e2 := ⟨_, rfl⟩
  obtain ⟨q, hq⟩ : ∃ q, q = τ.P0 + (1 / 3 : ℝ) • e1 + (1 / 3 : ℝ) • e2 := ⟨_, rfl⟩
  have op : p.z = h p.x p.y := H.on τ hτ p ⟨1 / 3 + k * a, 1 / 3 + k * b, by linarith, by linarith, by linarith, by rw [hp, he1, he2]⟩
  have oq : q.z = h q.x q.y := H.on τ hτ q ⟨1 / 3, 1 / 3, by norm_num, by norm_num, by norm_num, by rw [hq, he1, he2]⟩
  have hl := slope_horiz H p q
  rw [← op, ← oq] at hl
  have ex : (p - q).x = k * c.z * c.x := by rw [hp, hq, hcz, ha, hb]; simp; ring
  have ey : (p - q).y = k * c.z * c.y := by rw [hp, hq, hcz, ha, hb]; simp; ring
  have ez : p.z - q.z = -(k * (c.x ^ 2 + c.y ^ 2)) := by
    have : p.z - q.z = k * (a * e1.z + b * e2.z) := by rw [hp, hq]; simp; ring
    rw [this, ha, hb, hcx, hcy]; ring
  have eh : horiz (p - q) = k * c.z * g := by
    unfold horiz
    rw [ex, ey, show (k * c.z * c.x) ^ 2 + (k * c.z * c.y) ^ 2 = (k * c.z * g) ^ 2 by rw [mul_pow _ g, hg2]; ring, Real.sqrt_sq (by positivity)]
  rw [ez, eh, abs_neg, ← hg2, abs_of_nonneg (by positivity)] at hl
  have : g ≤ s * c.z := by
    have h2 : k * g * g ≤ k * g * (s * c.z) := by nlinarith
    exact le_of_mul_le_mul_left h2 (by positivity)
  rw [← mul_pow]
  gcongr

include H in
theorem facet_unit {τ : Tri} (hτ : τ ∈ tris) : V3.norm τ.N = 1 :=
  normalise_norm (by have := H.up τ hτ; have h1 : 0 < τ.crossP.z * τ.crossP.z := by positivity
                     have h2 := mul_self_nonneg τ.crossP.x
                     have h3 := mul_self_nonneg τ.crossP.y
                     unfold V3.dot; linarith)

include H in
theorem facet_up {τ : Tri} (hτ : τ ∈ tris) : 0 < τ.N.z := by
  have h1 := H.up τ hτ
  have : 0 < V3.norm τ.crossP := Real.sqrt_pos.mpr (by
    have h1 : 0 < τ.crossP.z * τ.crossP.z := by positivity
    have h2 := mul_self_nonneg τ.crossP.x
    have h3 := mul_self_nonneg τ.crossP.y
    unfold V3.dot; linarith)
  unfold Tri.N
  simp only [V3.smul_z]
  positivity

include H hs in
theorem facet_cos {τ : Tri} (hτ : τ ∈ tris) : 1 ≤ (1 + s ^ 2) * τ.N.z ^ 2 := by
  have h1 := (norm_one_iff _).mp (facet_unit H hτ)
  have h2 := facet_slope H hs hτ
  have h3 : τ.N.x ^ 2 + τ.N.y ^ 2 ≤ s ^ 2 * τ.N.z ^ 2 := by
    unfold Tri.N
    simp only [V3.smul_x, V3.smul_y, V3.smul_z, mul_pow]
    have : 0 ≤ (1 / V3.norm τ.crossP) ^ 2 := by positivity
    nlinarith
  unfold V3.dot at h1
  nlinarith

end

section
variable {Lx Ly s ℓ : ℝ} {h : ℝ → ℝ → ℝ} {tris : List Tri} (H : HeightMap Lx Ly s ℓ h tris) (hs : 0 ≤ s)

theorem translation_period (H : HeightMap Lx Ly s ℓ h tris) (k : ℕ) : (∀ x y, h (x + (translation Lx Ly k).x) (y + (translation Lx Ly k).y) = h x y) ∧ (translation Lx Ly k).z = 0 := by
  have mx : ∀ x y, h (x - Lx) y = h x y := fun x y => by rw [← H.repeatX (x - Lx) y, sub_add_cancel]
  have my : ∀ x y, h x (y - Ly) = h x y := fun x y => by rw [← H.repeatY x (y - Ly), sub_add_cancel]
  rcases k with _ | _ | _ | k <;> simp only [translation, add_zero, ← sub_eq_add_neg, H.repeatX, H.repeatY, mx, my, implies_true, and_self]

theorem translation_lattice (k : ℕ) : (∃ i : ℤ, (translation Lx Ly k).x = i * Lx) ∧ (∃ j : ℤ, (translation Lx Ly k).y = j * Ly) ∧ (translation Lx Ly k).z = 0 := by
  rcases k with _ | _ | _ | k <;> simp only [translation, and_true]
  · exact ⟨⟨0, by simp⟩, ⟨-1, by simp⟩⟩
  · exact ⟨⟨-1, by simp⟩, ⟨0, by simp⟩⟩
  · exact ⟨⟨0, by simp⟩, ⟨1, by simp⟩⟩
  · exact ⟨⟨1, by simp⟩, ⟨0, by simp⟩⟩

include H hs in
/-- **C155, one meeting.** A ray in any direction that leaves a facet of a height map more steeply (by `κ`) than the height map rises anywhere, on its side, meets no further facet: the interaction ends with this direction, after one meeting.
The facets are small enough for the offset with which rays leave them, or the facet is met further from its edges than a tiny fraction of its size. -/
theorem C155_once {r d p N d' : V3} {side side' : ℤ} {θ κ : ℝ} (n : ℕ) {w1 w2 w3 : Draw} (ws : List Draw) (e1 : w1.tris = tris) (e2 : w2.tris = tris) (e3 : w3.tris = tris)
    (hit : checkIntersect r d tris = some (p, θ, N)) (hdec : w1.dec θ d ((side : ℝ) • N) side = (d', side', none)) (hside : side' = 1 ∧ 0 < d'.z ∨ side' = -1 ∧ d'.z < 0)
    (hd : s * horiz d' + κ ≤ |d'.z|) (hκ0 : 0 < κ)
    (hκ : 2 / 5 * s * ℓ ≤ κ ∨ 0 < Lx ∧ 0 < Ly ∧ horiz d' ≤ 1 ∧ ∃ δ, 0 ≤ δ ∧ 2 * s * (1 / 10 ^ 10 * ℓ) ≤ δ * κ ∧ PlaneAround Lx Ly δ p.x p.y tris) :
    ∃ r', sicRun Lx Ly d (w1 :: w2 :: w3 :: ws) (sicStart r d side n) = .inr (.out (finalRes d d') (polar d') r' d' (some θ) (n + 1) side') := by
  obtain ⟨τ, hτ, t, -, -, hin, -⟩ := C45_sound_nearest r d tris p θ N hit
  have hp := near_graph H hs hτ (by norm_num) (by norm_num) hin
  obtain ⟨r1, hr1⟩ : ∃ r1, r1 = p + (1 / 10 ^ 9 : ℝ) • d' := ⟨_, rfl⟩
  have s1 : sicStep Lx Ly d w1 (sicStart r d side n) = .inl { r := r1, d := d', side := side', checked := false, misses := 0, i1 := 1, nInt := n + 1, θ := some θ } := by
    simp only [sicStep, sicStart, e1, hit, hdec, ← hr1]
  have second : ∀ c : V3, (∃ i : ℤ, c.x = i * Lx) → (∃ j : ℤ, c.y = j * Ly) → c.z = 0 → checkIntersect (r1 + c) d' tris = none := by
    intro c hcx hcy hcz
    rcases hκ with hκ | ⟨hLx, hLy, hd1, δ, hδ0, hδ, hpl⟩
    · obtain ⟨i, hi⟩ := hcx
      obtain ⟨j, hj⟩ := hcy
      exact no_second H hs hp hd hκ hκ0 (fun x y => by rw [hi, hj]; exact height_period H x y i j) hcz (by rw [hr1])
    · have hpz : p.z = h p.x p.y := by
        obtain ⟨a, b, k, hpl⟩ := hpl
        have g1 := plane_graph H hLx hLy hpl (x' := p.x) (y' := p.y) (by simp; positivity)
        have g2 := hpl τ hτ 0 0 p hin (by simp; positivity)
        simp only [Int.cast_zero, zero_mul, add_zero] at g2
        rw [g1, g2]
      exact no_second_plane H hs hLx hLy hpz hd hd1 hδ0 hδ hκ0 hpl hcx hcy hcz (by rw [hr1])
  have m2 : checkIntersect r1 d' tris = none := by
    have := second 0 ⟨0, by simp⟩ ⟨0, by simp⟩ rfl
    rwa [show r1 + (0 : V3) = r1 by ext <;> simp] at this
  obtain ⟨k, hk⟩ : ∃ k, k = (exitSide r1 d' Lx Ly).1 := ⟨_, rfl⟩
  have s2 : sicStep Lx Ly d w2 { r := r1, d := d', side := side', checked := false, misses := 0, i1 := 1, nInt := n + 1, θ := some θ } =
      .inl { r := r1 + translation Lx Ly k, d := d', side := side', checked := true, misses := 0, i1 := 2, nInt := n + 1, θ := some θ } := by
    simp [sicStep, e2, m2, hk]
  obtain ⟨g1, g2, g3⟩ := translation_lattice (Lx := Lx) (Ly := Ly) k
  have m3 : checkIntersect (r1 + translation Lx Ly k) d' tris = none := second _ g1 g2 g3
  have hout : ¬ ((side' = 1 ∧ d'.z < 0 ∧ (r1 + translation Lx Ly k).z > w3.zmin) ∨ (side' = -1 ∧ d'.z > 0 ∧ (r1 + translation Lx Ly k).z < w3.zmax)) := by
    rintro (⟨a, b, -⟩ | ⟨a, b, -⟩) <;> rcases hside with ⟨c, e⟩ | ⟨c, e⟩
    · linarith
    · rw [a] at c; norm_num at c
    · rw [a] at c; norm_num at c
    · linarith
  refine ⟨⟨backInto (r1 + translation Lx Ly k).x Lx, backInto (r1 + translation Lx Ly k).y Ly, (r1 + translation Lx Ly k).z⟩, ?_⟩
  have s3 : sicStep Lx Ly d w3 { r := r1 + translation Lx Ly k, d := d', side := side', checked := true, misses := 0, i1 := 2, nInt := n + 1, θ := some θ } =
      .inr (.out (finalRes d d') (polar d') ⟨backInto (r1 + translation Lx Ly k).x Lx, backInto (r1 + translation Lx Ly k).y Ly, (r1 + translation Lx Ly k).z⟩ d' (some θ) (n + 1) side') := by
    simp only [sicStep, e3, m3, Bool.not_true, Bool.false_eq_true, if_false, if_neg hout]
  simp only [sicRun, s1, s2, s3]

/-- A vertical ray at a facet of inclination `β`: angle of incidence, reflected direction, refracted direction. -/
theorem vertical_facet {N : V3} {σ k ρ : ℝ} (hN : V3.dot N N = 1) (hz : 0 < N.z) (hσ : σ = Real.sqrt (1 - N.z ^ 2)) (hρ0 : 0 ≤ ρ) (hρ : ρ ≤ 1) (hk : k = Real.sqrt (1 - (ρ * σ) ^ 2)) :
    V3.dot (reflectDir straightDown N) (reflectDir straightDown N) = 1 ∧ (reflectDir straightDown N).z = 2 * N.z ^ 2 - 1 ∧ horiz (reflectDir straightDown N) = 2 * N.z * σ ∧
    V3.dot (refractDir ρ straightDown N) (refractDir ρ straightDown N) = 1 ∧ (refractDir ρ straightDown N).z = -(ρ * σ * σ + k * N.z) ∧ horiz (refractDir ρ straightDown N) = (k - ρ * N.z) * σ := by
  have hN' : N.x ^ 2 + N.y ^ 2 = 1 - N.z ^ 2 := by unfold V3.dot at hN; linarith
  have hσ0 : 0 ≤ σ := hσ ▸ Real.sqrt_nonneg _
  have hσ2 : σ ^ 2 = 1 - N.z ^ 2 := by rw [hσ, Real.sq_sqrt]; nlinarith [sq_nonneg N.x, sq_nonneg N.y]
  have hdN : V3.dot straightDown N = -N.z := by simp [V3.dot, straightDown]
  have hσ1 : σ ^ 2 ≤ 1 := by rw [hσ2]; nlinarith
  have hρ2 : ρ ^ 2 ≤ 1 := by nlinarith
  have hρσ : (ρ * σ) ^ 2 ≤ σ ^ 2 := by rw [mul_pow]; nlinarith [sq_nonneg σ]
  have hk0 : 0 ≤ k := hk ▸ Real.sqrt_nonneg _
  have hk2 : k ^ 2 = 1 - (ρ * σ) ^ 2 := by rw [hk, Real.sq_sqrt]; linarith
  have hkz : ρ * N.z ≤ k := by
    have : N.z ≤ k := by nlinarith
    nlinarith
  have tn : V3.norm (trPar ρ straightDown N) = ρ * σ := by
    unfold V3.norm
    have : V3.dot (trPar ρ straightDown N) (trPar ρ straightDown N) = (ρ * σ) ^ 2 := by
      unfold trPar; rw [hdN, mul_pow, hσ2]
      simp only [V3.dot, straightDown, V3.smul_x, V3.smul_y, V3.smul_z, V3.sub_x, V3.sub_y, V3.sub_z]
      linear_combination (ρ ^ 2 * N.z ^ 2) * hN'
    rw [this, Real.sqrt_sq (by positivity)]
  have rx : (refractDir ρ straightDown N).x = (ρ * N.z - k) * N.x := by
    unfold refractDir; rw [tn, ← hk]; unfold trPar; rw [hdN]; simp [straightDown]; ring
  have ry : (refractDir ρ straightDown N).y = (ρ * N.z - k) * N.y := by
    unfold refractDir; rw [tn, ← hk]; unfold trPar; rw [hdN]; simp [straightDown]; ring
  have rz : (refractDir ρ straightDown N).z = -(ρ * σ * σ + k * N.z) := by
    unfold refractDir; rw [tn, ← hk]; unfold trPar; rw [hdN]; simp only [straightDown, V3.add_z, V3.smul_z, V3.sub_z]
    linear_combination ρ * hσ2
  refine ⟨?_, ?_, ?_, ?_, rz, ?_⟩
  · rw [dot_reflect hN]; simp [V3.dot, straightDown]
  · unfold reflectDir; rw [hdN]; simp [straightDown]; ring
  · unfold horiz reflectDir; rw [hdN]
    rw [show (straightDown - (2 * -N.z) • N).x ^ 2 + (straightDown - (2 * -N.z) • N).y ^ 2 = (2 * N.z * σ) ^ 2 by
      simp only [straightDown, V3.sub_x, V3.sub_y, V3.smul_x, V3.smul_y, mul_pow _ σ, hσ2]; linear_combination (4 * N.z ^ 2) * hN']
    rw [Real.sqrt_sq (by positivity)]
  · unfold V3.dot; rw [rx, ry, rz]
    linear_combination ((ρ * N.z - k) ^ 2) * hN' - ((ρ * N.z - k) ^ 2) * hσ2 + (k ^ 2 + ρ ^ 2 * σ ^ 2) * hσ2 + hk2
  · unfold horiz; rw [rx, ry]
    rw [show ((ρ * N.z - k) * N.x) ^ 2 + ((ρ * N.z - k) * N.y) ^ 2 = ((k - ρ * N.z) * σ) ^ 2 by
      rw [mul_pow _ σ, hσ2]; linear_combination ((ρ * N.z - k) ^ 2) * hN']
    rw [Real.sqrt_sq (mul_nonneg (by linarith) hσ0)]

theorem gentle_reflect {s c σ : ℝ} (hs : 0 ≤ s) (hc : 0 < c) (hcos : 1 ≤ (1 + s ^ 2) * c ^ 2) (hσs : σ ≤ s * c) (hg : 3 * s ^ 2 < 1) :
    (1 - 3 * s ^ 2) / (1 + s ^ 2) + s * (2 * c * σ) ≤ 2 * c ^ 2 - 1 := by
  have h1s : 0 < 1 + s ^ 2 := by positivity
  have a1 : s * (2 * c * σ) ≤ s * (2 * c * (s * c)) := by gcongr
  have hz2 : 1 / (1 + s ^ 2) ≤ c ^ 2 := by rw [div_le_iff₀ h1s]; linarith
  have e : (1 - 3 * s ^ 2) / (1 + s ^ 2) = 2 * (1 - s ^ 2) * (1 / (1 + s ^ 2)) - 1 := by field_simp; ring
  have a2 : 2 * (1 - s ^ 2) * (1 / (1 + s ^ 2)) ≤ 2 * (1 - s ^ 2) * c ^ 2 := by
    have : 0 ≤ 2 * (1 - s ^ 2) := by linarith [sq_nonneg s]
    gcongr
  rw [e]
  linarith

theorem gentle_refract {s c σ k ρ : ℝ} (hs : 0 ≤ s) (hc : 0 < c) (hcos : 1 ≤ (1 + s ^ 2) * c ^ 2) (hσ0 : 0 ≤ σ) (hσs : σ ≤ s * c) (hg : 3 * s ^ 2 < 1) (hk : c ≤ k) (hρ : 0 ≤ ρ) :
    (1 - 3 * s ^ 2) / (1 + s ^ 2) + s * ((k - ρ * c) * σ) ≤ ρ * σ * σ + k * c := by
  have h1s : 0 < 1 + s ^ 2 := by positivity
  have hs1 : 0 ≤ 1 - s ^ 2 := by linarith [sq_nonneg s]
  have hk0 : 0 ≤ k := hc.le.trans hk
  have a0 : 0 ≤ s * (ρ * c * σ) := by positivity
  have a2 : s * (k * σ) ≤ s * (k * (s * c)) := by gcongr
  have a3 : c * c ≤ k * c := by gcongr
  have h2 : (1 - s ^ 2) * (1 / (1 + s ^ 2)) ≤ (1 - s ^ 2) * c ^ 2 := by
    have hz2 : 1 / (1 + s ^ 2) ≤ c ^ 2 := by rw [div_le_iff₀ h1s]; linarith
    gcongr
  have h3 : (1 - 3 * s ^ 2) / (1 + s ^ 2) ≤ (1 - s ^ 2) * (1 / (1 + s ^ 2)) := by
    rw [mul_one_div]; gcongr; linarith [sq_nonneg s]
  have a5 : (1 - s ^ 2) * (c * c) ≤ (1 - s ^ 2) * (k * c) := by gcongr
  have a6 : 0 ≤ ρ * σ * σ := by positivity
  nlinarith

theorem cos_le_refr {c σ k ρ : ℝ} (hσ2 : σ ^ 2 = 1 - c ^ 2) (hρ0 : 0 ≤ ρ) (hρ1 : ρ ≤ 1) (hk : k = Real.sqrt (1 - (ρ * σ) ^ 2)) : c ≤ k := by
  rw [hk]
  apply Real.le_sqrt_of_sq_le
  have : ρ ^ 2 ≤ 1 := pow_le_one₀ hρ0 hρ1
  rw [mul_pow]
  have : ρ ^ 2 * σ ^ 2 ≤ 1 * σ ^ 2 := by gcongr
  linarith

theorem gentle_30 {s c : ℝ} (hc : 0 < c) (hcos : 1 ≤ (1 + s ^ 2) * c ^ 2) (hg : 3 * s ^ 2 < 1) (h : c ≤ Real.sqrt 3 / 2) : False := by
  have h3 : Real.sqrt 3 ^ 2 = 3 := Real.sq_sqrt (by norm_num)
  have h2 : c ^ 2 ≤ 3 / 4 := by
    calc c ^ 2 ≤ (Real.sqrt 3 / 2) ^ 2 := by gcongr
      _ = 3 / 4 := by rw [div_pow, h3]; norm_num
  nlinarith

include H hs in
/-- **C155, gentle textures.** A texture between transparent media is a height map with slopes below 1/√3, that is, below 30°, and the medium below it has the higher refractive index.  A ray
from straight above, anywhere in the unit cell (but not within about 1e-10 of the size of the facets from an edge, unless the facets are small: `Resolved`), meets exactly one facet.  With the inclination `β` of this facet and Snell's angle `β'`, it is reflected at the angle `2 β` to the vertical if the random number is at most the textbook reflectance at the angle of incidence `β`, and
otherwise transmitted, `β - β'` off the vertical. -/
theorem C155_gentle (asin : ℂ → ℂ) (hasin : ∀ z, IsArcsin z (asin z)) (nAbove nBelow : ℝ) (ha : 0 < nAbove) (hb : nAbove ≤ nBelow) (pol : Pol) (hgentle : 3 * s ^ 2 < 1)
    (r : V3) (hr : InCell Lx Ly r) (hsize : Resolved Lx Ly s ℓ r.x r.y tris) (habove : h r.x r.y < r.z) :
    ∃ τ ∈ tris, ∃ p, p.x = r.x ∧ p.y = r.y ∧ InTri (1 / 10 ^ 10) τ p ∧ 0 ≤ inclination τ ∧ inclination τ < Real.pi / 6 ∧
      ∀ β', 0 ≤ β' → β' < Real.pi / 2 → nAbove * Real.sin (inclination τ) = nBelow * Real.sin β' →
      ∀ (n : ℕ) (w1 w2 w3 : Draw) (ws : List Draw), w1.tris = tris → w2.tris = tris → w3.tris = tris → ∀ rnd, let o := sicRun Lx Ly straightDown ({ w1 with dec := fresnelDec nAbove nBelow (refractionAngle asin nAbove nBelow) pol rnd } :: w2 :: w3 :: ws) (sicStart r straightDown 1 n)
      (rnd ≤ textbookR nAbove nBelow (inclination τ) β' pol → Leaves o 0 (2 * inclination τ) (n + 1) 1) ∧
      (textbookR nAbove nBelow (inclination τ) β' pol < rnd → Leaves o 1 (Real.pi - (inclination τ - β')) (n + 1) (-1)) := by
  have hpi := Real.pi_pos
  have hbp : 0 < nBelow := ha.trans_le hb
  obtain ⟨τ0, hτ0, hin0⟩ := H.covers r.x r.y hr.1 hr.2.1 hr.2.2.1 hr.2.2.2
  have hup0 := H.up τ0 hτ0
  have hpar : ¬ Parallel τ0 straightDown := by
    unfold Parallel
    have : V3.dot straightDown (V3.cross (τ0.P1 - τ0.P0) (τ0.P2 - τ0.P0)) = -τ0.crossP.z := by unfold Tri.crossP; simp [V3.dot, straightDown]
    rw [this]; linarith
  have hin0' : InTri 0 τ0 (r + (r.z - h r.x r.y) • straightDown) := by
    have : r + (r.z - h r.x r.y) • straightDown = ⟨r.x, r.y, h r.x r.y⟩ := by ext <;> simp [straightDown]
    rw [this]; exact hin0
  obtain ⟨p, θ, N, hci⟩ := checkIntersect_isSome hτ0 (hit_of_inTri hpar (by linarith) hin0').1
  obtain ⟨τ, hτ, t, ht, hp, hin, hNe, hθ, -⟩ := C45_sound_nearest _ _ _ _ _ _ hci
  have hN1 := facet_unit H hτ
  have hNd := (norm_one_iff _).mp hN1
  have hup := facet_up H hτ
  have hcos := facet_cos H hs hτ
  have hz1 : τ.N.z ≤ 1 := by unfold V3.dot at hNd; nlinarith [sq_nonneg τ.N.x, sq_nonneg τ.N.y]
  have cβ : Real.cos (inclination τ) = τ.N.z := Real.cos_arccos (by linarith) hz1
  have β0 : 0 ≤ inclination τ := Real.arccos_nonneg _
  have βlt : inclination τ < Real.pi / 2 := Real.arccos_lt_pi_div_two.mpr hup
  have β30 : inclination τ < Real.pi / 6 := by
    by_contra hcon
    push Not at hcon
    have h1 := Real.cos_le_cos_of_nonneg_of_le_pi (by linarith) (by linarith) hcon
    rw [cβ, Real.cos_pi_div_six] at h1
    exact gentle_30 hup hcos hgentle h1
  refine ⟨τ, hτ, p, by rw [hp]; simp [straightDown], by rw [hp]; simp [straightDown], hin, β0, β30, ?_⟩
  intro β' hb0 hb1 hsnell n w1 w2 w3 ws e1 e2 e3 rnd o
  obtain ⟨w, hwe⟩ : ∃ w, w = { w1 with dec := fresnelDec nAbove nBelow (refractionAngle asin nAbove nBelow) pol rnd } := ⟨_, rfl⟩
  have hw : w.dec = fresnelDec nAbove nBelow (refractionAngle asin nAbove nBelow) pol rnd := by rw [hwe]
  have ew : w.tris = tris := by rw [hwe]; exact e1
  simp only [o, ← hwe]
  obtain ⟨σ, hσ⟩ : ∃ σ, σ = Real.sqrt (1 - τ.N.z ^ 2) := ⟨_, rfl⟩
  obtain ⟨ρ, hρ⟩ : ∃ ρ, ρ = nAbove / nBelow := ⟨_, rfl⟩
  obtain ⟨k, hk⟩ : ∃ k, k = Real.sqrt (1 - (ρ * σ) ^ 2) := ⟨_, rfl⟩
  have hρ0 : 0 ≤ ρ := hρ ▸ by positivity
  have hρ1 : ρ ≤ 1 := by rw [hρ, div_le_one hbp]; exact hb
  obtain ⟨f1, f2, f3, f4, f5, f6⟩ := vertical_facet hNd hup hσ hρ0 hρ1 hk
  have sβ : Real.sin (inclination τ) = σ := by rw [hσ]; exact Real.sin_arccos _
  have sβ' : Real.sin β' = ρ * σ := by
    rw [sβ] at hsnell
    rw [hρ, div_mul_eq_mul_div, eq_div_iff hbp.ne', mul_comm, ← hsnell]
  have cβ' : Real.cos β' = k := by
    rw [hk, ← sβ']; exact Real.cos_eq_sqrt_one_sub_sin_sq (by linarith) hb1.le
  have hσ0 : 0 ≤ σ := hσ ▸ Real.sqrt_nonneg _
  have hσ2 : σ ^ 2 = 1 - τ.N.z ^ 2 := by rw [hσ, Real.sq_sqrt]; have := pow_le_one₀ (n := 2) hup.le hz1; linarith
  have hσs : σ ≤ s * τ.N.z := by
    refine abs_le_of_sq_le_sq' ?_ (by positivity) |>.2
    rw [hσ2, mul_pow]; linarith [hcos]
  have hkz : τ.N.z ≤ k := cos_le_refr hσ2 hρ0 hρ1 hk
  obtain ⟨κ, hκ⟩ : ∃ κ, κ = (1 - 3 * s ^ 2) / (1 + s ^ 2) := ⟨_, rfl⟩
  have h1s : 0 < 1 + s ^ 2 := by positivity
  have hκ0 : 0 < κ := by rw [hκ]; exact div_pos (by linarith) h1s
  have hκe : κ * (1 + s ^ 2) = 1 - 3 * s ^ 2 := by rw [hκ]; field_simp
  have hpx : p.x = r.x := by rw [hp]; simp [straightDown]
  have hpy : p.y = r.y := by rw [hp]; simp [straightDown]
  have hκl : ∀ d' : V3, V3.dot d' d' = 1 → 2 / 5 * s * ℓ ≤ κ ∨ 0 < Lx ∧ 0 < Ly ∧ horiz d' ≤ 1 ∧ ∃ δ, 0 ≤ δ ∧ 2 * s * (1 / 10 ^ 10 * ℓ) ≤ δ * κ ∧ PlaneAround Lx Ly δ p.x p.y tris := by
    intro d' hd'
    rcases hsize with hsize | ⟨hLx, hLy, δ, hδ0, hδ, hpl⟩
    · left; rw [hκ, le_div_iff₀ h1s]; exact hsize
    · right
      refine ⟨hLx, hLy, ?_, δ, hδ0, ?_, by rw [hpx, hpy]; exact hpl⟩
      · exact horiz_le_one hd'
      · rw [hκ, ← mul_div_assoc, le_div_iff₀ h1s]; exact hδ
  have hz2 : 1 / (1 + s ^ 2) ≤ τ.N.z ^ 2 := by rw [div_le_iff₀ h1s]; linarith
  have hd1 : V3.norm straightDown = 1 := by rw [norm_one_iff]; simp [V3.dot, straightDown]
  have hdd := (norm_one_iff _).mp hd1
  have hdN : V3.dot straightDown τ.N = -τ.N.z := by simp [V3.dot, straightDown]
  have hθabs : |localTheta τ.N straightDown| = inclination τ := by
    refine sin_eq_abs_localTheta hNd hdd β0 βlt.le ?_
    rw [hdN, sβ, hσ2]; ring
  have hone : (((1 : ℤ) : ℝ) • τ.N : V3) = τ.N := by ext <;> simp
  have hR : decideR nAbove nBelow (localTheta τ.N straightDown) (refractionAngle asin nAbove nBelow 1 (localTheta τ.N straightDown)) pol = textbookR nAbove nBelow (inclination τ) β' pol := by
    have := (C43_reflectance nAbove nBelow (localTheta τ.N straightDown) ha hbp (localTheta_abs_le _ _) (refractionAngle asin nAbove nBelow 1 (localTheta τ.N straightDown))
      (by unfold refractionAngle; simpa using hasin _) pol).1 β' hb0 hb1 (by rw [hθabs]; exact hsnell)
    rw [this, hθabs]
  have nrm : ∀ v : V3, V3.dot v v = 1 → normalise v = v := by
    intro v hv
    unfold normalise
    rw [(norm_one_iff v).mpr hv]; ext <;> simp
  have hdec : w.dec θ straightDown (((1 : ℤ) : ℝ) • N) 1 = if rnd ≤ textbookR nAbove nBelow (inclination τ) β' pol then (reflectDir straightDown τ.N, 1, none) else (refractDir ρ straightDown τ.N, -1, none) := by
    rw [hw, hNe, hθ, hone]
    simp only [fresnelDec, if_true, decideFresnel, hR]
    split_ifs
    · rw [nrm _ f1]
    · rw [Complex.ofReal_re, Complex.ofReal_re, ← hρ, nrm _ f4]
  have hf : ∀ v : V3, npSign v.z = -1 → finalRes straightDown v = 1 := by
    intro v hv
    have : npSign straightDown.z = -1 := by norm_num [npSign, straightDown]
    unfold finalRes; rw [hv, this, if_pos rfl]
  have pol1 : ∀ v : V3, V3.dot v v = 1 → polar v = Real.arccos v.z := by
    intro v hv; unfold Model.polar; rw [(norm_one_iff v).mpr hv, div_one]
  constructor
  · intro hle
    rw [if_pos hle] at hdec
    have hzpos : κ + s * horiz (reflectDir straightDown τ.N) ≤ (reflectDir straightDown τ.N).z := by
      rw [f2, f3, hκ]; exact gentle_reflect hs hup hcos hσs hgentle
    have hh := horiz_nonneg (reflectDir straightDown τ.N)
    have hpz : 0 < (reflectDir straightDown τ.N).z := by have := mul_nonneg hs hh; linarith
    obtain ⟨r', hr'⟩ := C155_once H hs n ws ew e2 e3 hci hdec (Or.inl ⟨rfl, hpz⟩) (by rw [abs_of_pos hpz]; linarith) hκ0 (hκl _ f1)
    have hf0 : finalRes straightDown (reflectDir straightDown τ.N) = 0 := by
      have h1 : npSign straightDown.z = -1 := by norm_num [npSign, straightDown]
      have h2 : npSign (reflectDir straightDown τ.N).z = 1 := by unfold npSign; rw [if_pos hpz]
      unfold finalRes; rw [h1, h2, if_neg (by norm_num)]
    have hang : polar (reflectDir straightDown τ.N) = 2 * inclination τ := by
      rw [pol1 _ f1, f2, ← cβ, ← Real.cos_two_mul, Real.arccos_cos (by linarith) (by linarith)]
    rw [hf0, hang] at hr'
    exact ⟨r', _, _, hr'⟩
  · intro hlt
    rw [if_neg (not_le.mpr hlt)] at hdec
    have hzneg : κ + s * horiz (refractDir ρ straightDown τ.N) ≤ -(refractDir ρ straightDown τ.N).z := by
      rw [f5, f6, neg_neg, hκ]; exact gentle_refract hs hup hcos hσ0 hσs hgentle hkz hρ0
    have hh := horiz_nonneg (refractDir ρ straightDown τ.N)
    have hpz : (refractDir ρ straightDown τ.N).z < 0 := by have := mul_nonneg hs hh; linarith
    obtain ⟨r', hr'⟩ := C155_once H hs n ws ew e2 e3 hci hdec (Or.inr ⟨rfl, hpz⟩) (by rw [abs_of_neg hpz]; linarith) hκ0 (hκl _ f4)
    have hf0 : finalRes straightDown (refractDir ρ straightDown τ.N) = 1 := hf _ (by simp [npSign, hpz, not_lt.mpr hpz.le])
    have hang : polar (refractDir ρ straightDown τ.N) = Real.pi - (inclination τ - β') := by
      have hle : β' ≤ inclination τ := by
        by_contra hcon
        push Not at hcon
        have := Real.sin_lt_sin_of_lt_of_le_pi_div_two (by linarith) hb1.le hcon
        rw [sβ', sβ] at this
        linarith [mul_le_of_le_one_left hσ0 hρ1]
      rw [pol1 _ f4, f5, Real.arccos_neg, ← sβ', ← cβ', ← cβ]
      rw [show Real.sin β' * σ + Real.cos β' * Real.cos (inclination τ) = Real.cos (inclination τ - β') by rw [Real.cos_sub, sβ]; ring]
      rw [Real.arccos_cos (by linarith) (by linarith)]
    rw [hf0, hang] at hr'
    exact ⟨r', _, _, hr'⟩

open MeasureTheory in
theorem volume_threshold {R : ℝ} (h0 : 0 ≤ R) (h1 : R ≤ 1) {A B : ℝ → Prop} (hA : ∀ u, u ≤ R → A u) (hB : ∀ u, R < u → B u) (hAB : ∀ u, A u → ¬ B u) :
    volume {u ∈ Set.Ico (0 : ℝ) 1 | A u} = ENNReal.ofReal R ∧ volume {u ∈ Set.Ico (0 : ℝ) 1 | B u} = ENNReal.ofReal (1 - R) := by
  have a : ∀ u, A u ↔ u ≤ R := fun u => ⟨fun h => by by_contra hc; exact hAB u h (hB u (not_le.mp hc)), hA u⟩
  have b : ∀ u, B u ↔ R < u := fun u => ⟨fun h => by by_contra hc; exact hAB u (hA u (not_lt.mp hc)) h, hB u⟩
  constructor
  · apply le_antisymm
    · calc _ ≤ volume (Set.Icc (0 : ℝ) R) := measure_mono fun u (hu : u ∈ Set.Ico (0 : ℝ) 1 ∧ A u) => Set.mem_Icc.mpr ⟨hu.1.1, (a u).mp hu.2⟩
        _ = _ := by rw [Real.volume_Icc, sub_zero]
    · calc ENNReal.ofReal R = volume (Set.Ico (0 : ℝ) R) := by rw [Real.volume_Ico, sub_zero]
        _ ≤ _ := measure_mono fun u hu => show u ∈ Set.Ico (0 : ℝ) 1 ∧ A u from ⟨⟨hu.1, hu.2.trans_le h1⟩, hA u hu.2.le⟩
  · have : {u ∈ Set.Ico (0 : ℝ) 1 | B u} = Set.Ioo R 1 := by
      ext u
      simp only [Set.mem_ofPred_eq, Set.mem_Ico, Set.mem_Ioo, b]
      exact ⟨fun ⟨h, h'⟩ => ⟨h', h.2⟩, fun ⟨h, h'⟩ => ⟨⟨h0.trans h.le, h'⟩, h⟩⟩
    rw [this, Real.volume_Ioo]

theorem textbookR_unit {n0 n1 a b : ℝ} (h0 : 0 < n0) (h1 : 0 < n1) (ha : 0 ≤ Real.cos a) (hb : 0 ≤ Real.cos b) (pol : Pol) : 0 ≤ textbookR n0 n1 a b pol ∧ textbookR n0 n1 a b pol ≤ 1 := by
  have key : ∀ x y : ℝ, 0 ≤ x → 0 ≤ y → ((x - y) / (x + y)) ^ 2 ≤ 1 := by
    intro x y hx hy
    rw [sq_le_one_iff_abs_le_one, abs_div, abs_of_nonneg (add_nonneg hx hy)]
    apply div_le_one_of_le₀ _ (add_nonneg hx hy)
    rw [abs_le]; constructor <;> linarith
  have k1 := key (n0 * Real.cos a) (n1 * Real.cos b) (by positivity) (by positivity)
  have k2 := key (n0 * Real.cos b) (n1 * Real.cos a) (by positivity) (by positivity)
  cases pol <;> simp only [textbookR]
  · exact ⟨sq_nonneg _, k1⟩
  · exact ⟨sq_nonneg _, k2⟩
  · exact ⟨by positivity, by linarith⟩

theorem leaves_disjoint {o : Sic ⊕ SicRes} {a b : ℝ} {n m : ℕ} {i j : ℤ} (h : Leaves o 0 a n i) : ¬ Leaves o 1 b m j := by
  rintro ⟨r, d, θ, h2⟩
  obtain ⟨r', d', θ', h1⟩ := h
  rw [h1] at h2
  simp at h2

open MeasureTheory in
include H hs in
/-- **C155, reflectance of gentle textures.** In the situation of `C155_gentle` the probabilities that the ray is reflected or transmitted are the textbook reflectance and transmittance at the inclination of the facet below the ray. -/
theorem C155_reflectance (asin : ℂ → ℂ) (hasin : ∀ z, IsArcsin z (asin z)) (nAbove nBelow : ℝ) (ha : 0 < nAbove) (hb : nAbove ≤ nBelow) (pol : Pol) (hgentle : 3 * s ^ 2 < 1)
    (r : V3) (hr : InCell Lx Ly r) (hsize : Resolved Lx Ly s ℓ r.x r.y tris) (habove : h r.x r.y < r.z) (n : ℕ) {w1 w2 w3 : Draw} (ws : List Draw) (e1 : w1.tris = tris) (e2 : w2.tris = tris) (e3 : w3.tris = tris) :
    ∃ τ ∈ tris, ∃ p, p.x = r.x ∧ p.y = r.y ∧ InTri (1 / 10 ^ 10) τ p ∧
      ∀ β', 0 ≤ β' → β' < Real.pi / 2 → nAbove * Real.sin (inclination τ) = nBelow * Real.sin β' →
      let R := textbookR nAbove nBelow (inclination τ) β' pol
      let o := fun rnd => sicRun Lx Ly straightDown ({ w1 with dec := fresnelDec nAbove nBelow (refractionAngle asin nAbove nBelow) pol rnd } :: w2 :: w3 :: ws) (sicStart r straightDown 1 n)
      volume {rnd ∈ Set.Ico (0 : ℝ) 1 | Leaves (o rnd) 0 (2 * inclination τ) (n + 1) 1} = ENNReal.ofReal R ∧
      volume {rnd ∈ Set.Ico (0 : ℝ) 1 | Leaves (o rnd) 1 (Real.pi - (inclination τ - β')) (n + 1) (-1)} = ENNReal.ofReal (1 - R) := by
  have hpi := Real.pi_pos
  obtain ⟨τ, hτ, p, hx, hy, hin, b0, b1, hall⟩ := C155_gentle H hs asin hasin nAbove nBelow ha hb pol hgentle r hr hsize habove
  refine ⟨τ, hτ, p, hx, hy, hin, fun β' hb0 hb1 hsnell => ?_⟩
  have hu := textbookR_unit ha (ha.trans_le hb) (Real.cos_nonneg_of_mem_Icc (x := inclination τ) ⟨by linarith, by linarith⟩) (Real.cos_nonneg_of_mem_Icc (x := β') ⟨by linarith, hb1.le⟩) pol
  exact volume_threshold hu.1 hu.2 (fun u => (hall β' hb0 hb1 hsnell n w1 w2 w3 ws e1 e2 e3 u).1) (fun u => (hall β' hb0 hb1 hsnell n w1 w2 w3 ws e1 e2 e3 u).2) (fun u => leaves_disjoint)

end

/-! ## Steep textures -/

theorem down_after {N : V3} (hz : 0 < N.z) (hsteep : 2 * N.z ^ 2 < 1) : (reflectDir straightDown N).z < 0 ∧
    (∀ ρ : ℝ, 0 < ρ → (refractDir ρ straightDown N).z < 0) ∧ ∀ ρ : ℂ, 0 < ρ.re → (refractDirC ρ straightDown N).z < 0 := by
  have hdN : V3.dot straightDown N = -N.z := by simp [V3.dot, straightDown]
  refine ⟨?_, fun ρ hρ => ?_, fun ρ hρ => ?_⟩
  · unfold reflectDir; rw [hdN]; simp only [straightDown, V3.sub_z, V3.smul_z]; nlinarith
  · unfold refractDir trPar; rw [hdN]; simp only [straightDown, V3.add_z, V3.sub_z, V3.smul_z]
    have := Real.sqrt_nonneg (1 - V3.norm (ρ • ((⟨0, 0, -1⟩ : V3) - (-N.z) • N)) ^ 2)
    nlinarith [mul_nonneg this hz.le]
  · unfold refractDirC; rw [hdN]; simp only [straightDown, V3.add_z, V3.sub_z, V3.smul_z]
    have := Real.sqrt_nonneg (1 - (‖ρ‖ * V3.norm ((⟨0, 0, -1⟩ : V3) - (-N.z) • N)) ^ 2)
    nlinarith [mul_nonneg this hz.le]

theorem normalise_down {v : V3} (h : v.z < 0) : (normalise v).z < 0 := by
  unfold normalise
  simp only [V3.smul_z]
  have : 0 < V3.norm v := Real.sqrt_pos.mpr (by unfold V3.dot; nlinarith [mul_self_nonneg v.x, mul_self_nonneg v.y, mul_pos_of_neg_of_neg h h])
  exact mul_neg_of_pos_of_neg (by positivity) h

/-- **C155, steep textures.** All facets are inclined by more than 45° (and none is vertical or overhangs).  Light from straight above that is reported as reflected has met at least two facets, with Fresnel equations or lookup tables, whatever the media and random numbers. -/
theorem C155_steep (nAbove nBelow : ℂ) (ha : 0 < nAbove.re) (hb : 0 < nBelow.re) (ka : 0 ≤ nAbove.im) (kb : 0 ≤ nBelow.im) (tmm : Bool) (nL : ℕ) (Lx Ly : ℝ) (r : V3) (n : ℕ) (ws : List Draw)
    (hw : ∀ w ∈ ws, FacetDraw nAbove nBelow tmm nL w ∧ ∀ τ ∈ w.tris, 0 < τ.crossP.z ∧ Real.pi / 4 < inclination τ)
    (ot : ℝ) (r' d' : V3) (θ : Option ℝ) (n' : ℕ) (side' : ℤ) (h : sicRun Lx Ly straightDown ws (sicStart r straightDown 1 n) = .inr (.out 0 ot r' d' θ n' side')) : n + 2 ≤ n' := by
  have key : ∀ ws : List Draw, (∀ w ∈ ws, FacetDraw nAbove nBelow tmm nL w ∧ ∀ τ ∈ w.tris, 0 < τ.crossP.z ∧ Real.pi / 4 < inclination τ) → ∀ s : Sic,
      (s.nInt = n ∧ s.d = straightDown ∧ s.side = 1 ∨ s.nInt = n + 1 ∧ s.d.z < 0 ∨ n + 2 ≤ s.nInt) → sicRun Lx Ly straightDown ws s = .inr (.out 0 ot r' d' θ n' side') → n + 2 ≤ n' := by
    intro ws
    induction ws with
    | nil => intro _ s _ hrun; simp [sicRun] at hrun
    | cons w ws ih =>
      intro hw s hs hrun
      have hres : ∀ d : V3, d.z < 0 → finalRes straightDown d ≠ 0 := by
        intro d hd
        have h1 : npSign straightDown.z = -1 := by norm_num [npSign, straightDown]
        have h2 : npSign d.z = -1 := by unfold npSign; rw [if_neg (not_lt.mpr hd.le), if_pos hd]
        unfold finalRes; rw [h1, h2, if_pos rfl]; norm_num
      have hdz : s.d.z < 0 ∨ n + 2 ≤ s.nInt := by
        rcases hs with ⟨-, hd, -⟩ | ⟨-, hd⟩ | hd
        · left; rw [hd]; norm_num [straightDown]
        · exact Or.inl hd
        · exact Or.inr hd
      simp only [sicRun] at hrun
      rcases hci : checkIntersect s.r s.d w.tris with _ | ⟨p, θ', N⟩
      · unfold sicStep at hrun
        simp only [hci] at hrun
        split at hrun
        · rename_i s' he
          refine ih (fun w hw' => hw w (List.mem_cons_of_mem _ hw')) s' ?_ hrun
          split_ifs at he
          · cases he; exact hs
          · cases he; exact hs
          · split at he
            · cases he
            · cases he; exact hs
        · rename_i res he
          cases hrun
          split_ifs at he
          · cases he
          · split at he <;> cases he
          · simp only [Sum.inr.injEq, SicRes.out.injEq] at he
            obtain ⟨a, -, -, -, -, b, -⟩ := he
            rcases hdz with g | g
            · exact absurd a (hres _ g)
            · omega
      · have hst := sicStep_facet (Lx := Lx) (Ly := Ly) (d0 := straightDown) hci
        rw [hst] at hrun
        rcases hdec : w.dec θ' s.d ((s.side : ℝ) • N) s.side with ⟨d2, side2, A⟩
        rw [hdec] at hrun
        rcases A with _ | A
        · simp only [afterFacet] at hrun
          refine ih (fun w hw' => hw w (List.mem_cons_of_mem _ hw')) _ ?_ hrun
          rcases hs with ⟨hn, hd, hsd⟩ | ⟨hn, -⟩ | hn
          · right; left
            refine ⟨by simp [hn], ?_⟩
            simp only
            obtain ⟨hf, hfac⟩ := hw w List.mem_cons_self
            obtain ⟨τ, hτ, -, -, -, hNτ, -⟩ := checkIntersect_some hci
            obtain ⟨hup, hinc⟩ := hfac τ hτ
            have hnz : 0 < V3.norm τ.crossP := Real.sqrt_pos.mpr (by unfold V3.dot; nlinarith [mul_self_nonneg τ.crossP.x, mul_self_nonneg τ.crossP.y, mul_pos hup hup])
            have hNz : 0 < τ.N.z := by unfold Tri.N; simp only [V3.smul_z]; positivity
            have hlt : τ.N.z < Real.sqrt 2 / 2 := by
              by_contra hc
              push Not at hc
              have := Real.arccos_le_arccos hc
              rw [← Real.cos_pi_div_four, Real.arccos_cos (by positivity) (by linarith [Real.pi_pos])] at this
              unfold inclination at hinc
              linarith
            have hst2 : 2 * τ.N.z ^ 2 < 1 := by
              have h2 : Real.sqrt 2 ^ 2 = 2 := Real.sq_sqrt (by norm_num)
              have : τ.N.z ^ 2 < (Real.sqrt 2 / 2) ^ 2 := by gcongr
              rw [div_pow, h2] at this; linarith
            obtain ⟨g1, g2, g3⟩ := down_after hNz hst2
            have hone : (((1 : ℤ) : ℝ) • τ.N : V3) = τ.N := by ext <;> simp
            rw [hd, hsd, hNτ, hone] at hdec
            rcases hf with ⟨-, arc, pol, rnd, -, hd1⟩ | ⟨-, tab, rnd, -, hd1, -⟩
            · rw [hd1] at hdec
              simp only [fresnelDec, if_true, decideFresnel, Prod.mk.injEq] at hdec
              rw [← hdec.1]
              split_ifs
              · exact normalise_down g1
              · exact normalise_down (g2 _ (div_pos ha hb))
            · rw [hd1] at hdec
              simp only [tmmDec, if_true, decideTMM] at hdec
              split_ifs at hdec <;> simp only [Prod.mk.injEq] at hdec
              · rw [← hdec.1]; exact normalise_down g1
              · rw [← hdec.1]
                refine normalise_down (g3 _ ?_)
                rw [Complex.div_re, ← add_div]
                refine div_pos (by positivity) (Complex.normSq_pos.mpr ?_)
                intro hc; rw [hc] at hb; simp at hb
              · simp at hdec
          · right; right; simp [hn]
          · right; right; simp only; omega
        · simp [afterFacet] at hrun
  exact key ws hw _ (Or.inl ⟨rfl, rfl, rfl⟩) h

/-- Facets of a V-groove with slopes of 53°. -/
noncomputable def grooveLeft : Tri := ⟨⟨3, 0, 0⟩, ⟨3, 10, 0⟩, ⟨0, 0, 4⟩⟩
noncomputable def grooveRight : Tri := ⟨⟨3, 0, 0⟩, ⟨6, 0, 4⟩, ⟨3, 10, 0⟩⟩

theorem grooveLeft_N : grooveLeft.N = ⟨4 / 5, 0, 3 / 5⟩ := by
  have hc : grooveLeft.crossP = ⟨40, 0, 30⟩ := by simp [grooveLeft, Tri.crossP, V3.cross]; norm_num
  have hn : V3.norm grooveLeft.crossP = 50 := by
    rw [hc]; unfold V3.norm V3.dot; norm_num; rw [show (2500 : ℝ) = 50 ^ 2 by norm_num, Real.sqrt_sq (by norm_num)]
  unfold Tri.N; rw [hn, hc]; ext <;> simp <;> norm_num

theorem grooveRight_N : grooveRight.N = ⟨-4 / 5, 0, 3 / 5⟩ := by
  have hc : grooveRight.crossP = ⟨-40, 0, 30⟩ := by simp [grooveRight, Tri.crossP, V3.cross]; norm_num
  have hn : V3.norm grooveRight.crossP = 50 := by
    rw [hc]; unfold V3.norm V3.dot; norm_num; rw [show (2500 : ℝ) = 50 ^ 2 by norm_num, Real.sqrt_sq (by norm_num)]
  unfold Tri.N; rw [hn, hc]; ext <;> simp <;> norm_num

theorem checkIntersect_first {r d : V3} {a b : Tri} (ha : a.hit r d = true) (hb : b.hit r d = false) : checkIntersect r d [a, b] = some (r + a.t r d • d, localTheta a.N d, a.N) := by
  rw [← checkIntersect_single_hit ha]
  simp [checkIntersect, ha, hb]

theorem checkIntersect_second {r d : V3} {a b : Tri} (ha : a.hit r d = false) (hb : b.hit r d = true) : checkIntersect r d [a, b] = some (r + b.t r d • d, localTheta b.N d, b.N) := by
  rw [← checkIntersect_single_hit hb]
  simp [checkIntersect, ha, hb]

theorem checkIntersect_neither {r d : V3} {a b : Tri} (ha : a.hit r d = false) (hb : b.hit r d = false) : checkIntersect r d [a, b] = none := by
  simp [checkIntersect, ha, hb]

/-- A state met on the way. -/
noncomputable def grooveDir1 : V3 := ⟨24 / 25, 0, -7 / 25⟩
noncomputable def grooveDir2 : V3 := ⟨-336 / 625, 0, 527 / 625⟩

/-- A vertical ray in a V-groove is reflected twice, first down and to the right, then up and to the left. -/
example (w : Draw) (hw : w.tris = [grooveLeft, grooveRight]) (hd : ∃ arc pol, w.dec = fresnelDec 1 1 arc pol 0) :
    (∀ τ ∈ w.tris, 0 < τ.crossP.z ∧ Real.pi / 4 < inclination τ) ∧
    Leaves (sicRun 6 10 straightDown [w, w, w, w] (sicStart ⟨2, 1, 10⟩ straightDown 1 0)) 0 (polar grooveDir2) 2 1 := by
  obtain ⟨arc, pol, hd⟩ := hd
  constructor
  · intro τ hτ
    rw [hw] at hτ
    have h35 : Real.pi / 4 < Real.arccos (3 / 5) := by
      rw [← Real.arccos_cos (x := Real.pi / 4) (by positivity) (by linarith [Real.pi_pos]), Real.cos_pi_div_four]
      have h2 : Real.sqrt 2 ^ 2 = 2 := Real.sq_sqrt (by norm_num)
      have h0 := Real.sqrt_nonneg 2
      refine Real.strictAntiOn_arccos ⟨by norm_num, by norm_num⟩ ⟨by linarith, by nlinarith⟩ (by nlinarith)
    simp only [List.mem_cons, List.not_mem_nil, or_false] at hτ
    rcases hτ with rfl | rfl
    · exact ⟨by norm_num [grooveLeft, Tri.crossP, V3.cross], by unfold inclination; rw [grooveLeft_N]; exact h35⟩
    · exact ⟨by norm_num [grooveRight, Tri.crossP, V3.cross], by unfold inclination; rw [grooveRight_N]; exact h35⟩
  have hR : ∀ θ d N, w.dec θ d N 1 = (normalise (reflectDir d N), 1, none) := by
    intro θ d N
    rw [hd]
    simp only [fresnelDec, if_true, decideFresnel]
    rw [if_pos]
    unfold decideR calcR fresnelRs fresnelRp
    split_ifs
    · norm_num
    · cases pol <;> positivity
  have a1 : grooveLeft.t ⟨2, 1, 10⟩ straightDown = 26 / 3 := by
    norm_num [Tri.t, Tri.det, Tri.crossP, V3.cross, V3.dot, grooveLeft, straightDown]
  have a2 : grooveLeft.hit ⟨2, 1, 10⟩ straightDown = true := by
    norm_num [Tri.hit, Tri.t, Tri.u, Tri.v, Tri.det, Tri.crossP, V3.cross, V3.dot, grooveLeft, straightDown]
  have a3 : grooveRight.hit ⟨2, 1, 10⟩ straightDown = false := by
    norm_num [Tri.hit, Tri.t, Tri.u, Tri.v, Tri.det, Tri.crossP, V3.cross, V3.dot, grooveRight, straightDown]
  have n1 : normalise (reflectDir straightDown (((1 : ℤ) : ℝ) • grooveLeft.N)) = grooveDir1 := by
    have e : reflectDir straightDown (((1 : ℤ) : ℝ) • grooveLeft.N) = grooveDir1 := by
      rw [grooveLeft_N]; ext <;> simp [reflectDir, straightDown, V3.dot, grooveDir1] <;> norm_num
    rw [e]; unfold normalise
    rw [show V3.norm grooveDir1 = 1 by rw [norm_one_iff]; norm_num [V3.dot, grooveDir1]]
    ext <;> simp
  have n2 : normalise (reflectDir grooveDir1 (((1 : ℤ) : ℝ) • grooveRight.N)) = grooveDir2 := by
    have e : reflectDir grooveDir1 (((1 : ℤ) : ℝ) • grooveRight.N) = grooveDir2 := by
      rw [grooveRight_N]; ext <;> simp [reflectDir, grooveDir1, V3.dot, grooveDir2] <;> norm_num
    rw [e]; unfold normalise
    rw [show V3.norm grooveDir2 = 1 by rw [norm_one_iff]; norm_num [V3.dot, grooveDir2]]
    ext <;> simp
  obtain ⟨r1, hr1⟩ : ∃ r1 : V3, r1 = ⟨2 + 1 / 10 ^ 9 * (24 / 25), 1, 4 / 3 - 1 / 10 ^ 9 * (7 / 25)⟩ := ⟨_, rfl⟩
  have s1 : sicStep 6 10 straightDown w (sicStart ⟨2, 1, 10⟩ straightDown 1 0) =
      .inl { r := r1, d := grooveDir1, side := 1, checked := false, misses := 0, i1 := 1, nInt := 1, θ := some (localTheta grooveLeft.N straightDown) } := by
    rw [sicStep_facet (s := sicStart ⟨2, 1, 10⟩ straightDown 1 0) (by rw [hw]; exact checkIntersect_first a2 a3)]
    simp only [sicStart, hR, n1, afterFacet, a1]
    have : (⟨2, 1, 10⟩ : V3) + (26 / 3 : ℝ) • straightDown + (1 / 10 ^ 9 : ℝ) • grooveDir1 = r1 := by
      rw [hr1]; ext <;> simp [straightDown, grooveDir1] <;> norm_num
    rw [this]
  have b1 : grooveRight.t r1 grooveDir1 = 16 / 39 * (25 / 24) * 4 - 1 / 10 ^ 9 := by
    rw [hr1]; norm_num [Tri.t, Tri.det, Tri.crossP, V3.cross, V3.dot, grooveRight, grooveDir1]
  have b2 : grooveRight.hit r1 grooveDir1 = true := by
    rw [hr1]; norm_num [Tri.hit, Tri.t, Tri.u, Tri.v, Tri.det, Tri.crossP, V3.cross, V3.dot, grooveRight, grooveDir1]
  have b3 : grooveLeft.hit r1 grooveDir1 = false := by
    rw [hr1]; norm_num [Tri.hit, Tri.t, Tri.u, Tri.v, Tri.det, Tri.crossP, V3.cross, V3.dot, grooveLeft, grooveDir1]
  obtain ⟨r2, hr2⟩ : ∃ r2 : V3, r2 = ⟨142 / 39 - 1 / 10 ^ 9 * (336 / 625), 1, 100 / 117 + 1 / 10 ^ 9 * (527 / 625)⟩ := ⟨_, rfl⟩
  have s2 : sicStep 6 10 straightDown w { r := r1, d := grooveDir1, side := 1, checked := false, misses := 0, i1 := 1, nInt := 1, θ := some (localTheta grooveLeft.N straightDown) } =
      .inl { r := r2, d := grooveDir2, side := 1, checked := false, misses := 0, i1 := 2, nInt := 2, θ := some (localTheta grooveRight.N grooveDir1) } := by
    rw [sicStep_facet (s := { r := r1, d := grooveDir1, side := 1, checked := false, misses := 0, i1 := 1, nInt := 1, θ := some (localTheta grooveLeft.N straightDown) }) (by rw [hw]; exact checkIntersect_second b3 b2)]
    simp only [hR, n2, afterFacet, b1]
    have : r1 + (16 / 39 * (25 / 24) * 4 - 1 / 10 ^ 9 : ℝ) • grooveDir1 + (1 / 10 ^ 9 : ℝ) • grooveDir2 = r2 := by
      rw [hr1, hr2]; ext <;> simp [grooveDir1, grooveDir2] <;> norm_num
    rw [this]
  have c1 : ∀ c : V3, (c = 0 ∨ c = ⟨0, -10, 0⟩ ∨ c = ⟨-6, 0, 0⟩ ∨ c = ⟨0, 10, 0⟩ ∨ c = ⟨6, 0, 0⟩) → checkIntersect (r2 + c) grooveDir2 w.tris = none := by
    intro c hc
    rw [hw]
    refine checkIntersect_neither ?_ ?_ <;> rcases hc with rfl | rfl | rfl | rfl | rfl <;> rw [hr2] <;>
      norm_num [Tri.hit, Tri.t, Tri.u, Tri.v, Tri.det, Tri.crossP, V3.cross, V3.dot, grooveLeft, grooveRight, grooveDir2]
  have c0 := c1 0 (Or.inl rfl)
  rw [show r2 + (0 : V3) = r2 by ext <;> simp] at c0
  obtain ⟨k, hk⟩ : ∃ k, k = (exitSide r2 grooveDir2 6 10).1 := ⟨_, rfl⟩
  have c2 : checkIntersect (r2 + translation 6 10 k) grooveDir2 w.tris = none := by
    apply c1
    rcases k with _ | _ | _ | k <;> simp [translation]
  obtain ⟨r3, hr3⟩ : ∃ r3, r3 = r2 + translation 6 10 k := ⟨_, rfl⟩
  rw [← hr3] at c2
  have s3 : sicStep 6 10 straightDown w { r := r2, d := grooveDir2, side := 1, checked := false, misses := 0, i1 := 2, nInt := 2, θ := some (localTheta grooveRight.N grooveDir1) } =
      .inl { r := r3, d := grooveDir2, side := 1, checked := true, misses := 0, i1 := 3, nInt := 2, θ := some (localTheta grooveRight.N grooveDir1) } := by
    simp [sicStep, c0, hr3, hk]
  have s4 : sicStep 6 10 straightDown w { r := r3, d := grooveDir2, side := 1, checked := true, misses := 0, i1 := 3, nInt := 2, θ := some (localTheta grooveRight.N grooveDir1) } =
      .inr (.out 0 (polar grooveDir2) ⟨backInto r3.x 6, backInto r3.y 10, r3.z⟩ grooveDir2 (some (localTheta grooveRight.N grooveDir1)) 2 1) := by
    have hf : finalRes straightDown grooveDir2 = 0 := by norm_num [finalRes, npSign, straightDown, grooveDir2]
    have hz : ¬ grooveDir2.z < 0 := by norm_num [grooveDir2]
    simp [sicStep, c2, hf, hz]
  refine ⟨⟨backInto r3.x 6, backInto r3.y 10, r3.z⟩, grooveDir2, some (localTheta grooveRight.N grooveDir1), ?_⟩
  simp only [sicRun, s1, s2, s3, s4]

/-! ## Regular pyramids -/

/-- Distance to the nearest integer. -/
noncomputable def toInt (x : ℝ) : ℝ := |x - round x|

theorem toInt_lip (x y : ℝ) : |toInt x - toInt y| ≤ |x - y| := by
  have key : ∀ x y : ℝ, toInt x ≤ |x - y| + toInt y := by
    intro x y
    calc toInt x ≤ |x - round y| := round_le x (round y)
      _ = |(x - y) + (y - round y)| := by ring_nf
      _ ≤ _ := abs_add_le _ _
  have h1 := key x y
  have h2 := key y x
  rw [abs_sub_comm y x] at h2
  rw [abs_le]; constructor <;> linarith

theorem toInt_period (x : ℝ) : toInt (x + 1) = toInt x := by
  unfold toInt; rw [round_add_one]; push_cast; ring_nf

theorem toInt_unit {t : ℝ} (h0 : 0 ≤ t) (h1 : t ≤ 1) : toInt t = min t (1 - t) := by
  apply le_antisymm
  · refine le_min ?_ ?_
    · have := round_le t 0
      rw [Int.cast_zero, sub_zero, abs_of_nonneg h0] at this; exact this
    · have := round_le t 1
      rw [Int.cast_one, abs_sub_comm t 1, abs_of_nonneg (a := 1 - t) (by linarith)] at this; exact this
  · unfold toInt
    rcases le_or_gt (round t) 0 with h | h
    · have : ((round t : ℤ) : ℝ) ≤ 0 := by exact_mod_cast h
      rw [abs_of_nonneg (by linarith)]
      exact (min_le_left _ _).trans (by linarith)
    · have : (1 : ℝ) ≤ ((round t : ℤ) : ℝ) := by exact_mod_cast h
      rw [abs_of_nonpos (by linarith)]
      exact (min_le_right _ _).trans (by linarith)

/-- Height of regular pyramids of base `L` with the apex at `a`. -/
noncomputable def pyramidFn (a L x y : ℝ) : ℝ := 2 * a * min (toInt (x / L)) (toInt (y / L))

theorem pyramid_map (a L : ℝ) (hL : 0 < L) (tris : List Tri)
    (ht : tris = [⟨⟨0, 0, 0⟩, ⟨L, 0, 0⟩, ⟨L / 2, L / 2, a⟩⟩, ⟨⟨L, 0, 0⟩, ⟨L, L, 0⟩, ⟨L / 2, L / 2, a⟩⟩, ⟨⟨L, L, 0⟩, ⟨0, L, 0⟩, ⟨L / 2, L / 2, a⟩⟩, ⟨⟨0, L, 0⟩, ⟨0, 0, 0⟩, ⟨L / 2, L / 2, a⟩⟩]) :
    HeightMap L L (2 * |a| / L) (2 * L) (pyramidFn a L) tris ∧ ∀ τ ∈ tris, inclination τ = Real.arctan (2 * |a| / L) := by
  have hLn := hL.ne'
  have per : ∀ x : ℝ, toInt ((x + L) / L) = toInt (x / L) := by intro x; rw [add_div, div_self hLn, toInt_period]
  have val : ∀ X Y : ℝ, 0 ≤ X → X ≤ 1 → 0 ≤ Y → Y ≤ 1 → pyramidFn a L (L * X) (L * Y) = 2 * a * min (min X (1 - X)) (min Y (1 - Y)) := by
    intro X Y a0 a1 b0 b1
    unfold pyramidFn
    rw [mul_div_cancel_left₀ _ hLn, mul_div_cancel_left₀ _ hLn, toInt_unit a0 a1, toInt_unit b0 b1]
  have cross1 : ∀ τ ∈ tris, ∃ e1 e2 : ℝ, τ.crossP = ⟨e1, e2, L ^ 2 / 2⟩ ∧ e1 ^ 2 + e2 ^ 2 = (L * a) ^ 2 := by
    intro τ hτ
    rw [ht] at hτ
    simp only [List.mem_cons, List.not_mem_nil, or_false] at hτ
    rcases hτ with rfl | rfl | rfl | rfl <;> refine ⟨_, _, by simp only [Tri.crossP, V3.cross, V3.sub_x, V3.sub_y, V3.sub_z]; exact V3.ext rfl rfl (by simp only; ring), by ring⟩
  have hup : ∀ τ ∈ tris, 0 < τ.crossP.z := by
    intro τ hτ
    obtain ⟨e1, e2, he, -⟩ := cross1 τ hτ
    rw [he]; simp only; positivity
  refine ⟨⟨fun x y => by unfold pyramidFn; rw [per], fun x y => by unfold pyramidFn; rw [per], ?_, ?_, hup, ?_, ?_⟩, ?_⟩
  · intro x y x' y'
    unfold pyramidFn
    rw [← mul_sub, abs_mul]
    have h1 := abs_min_sub_min_le_max (toInt (x / L)) (toInt (y / L)) (toInt (x' / L)) (toInt (y' / L))
    have hx : |toInt (x / L) - toInt (x' / L)| ≤ Real.sqrt ((x - x') ^ 2 + (y - y') ^ 2) / L := by
      refine (toInt_lip _ _).trans ?_
      rw [← sub_div, abs_div, abs_of_pos hL]
      gcongr
      exact Real.abs_le_sqrt (by nlinarith [sq_nonneg (y - y')])
    have hy : |toInt (y / L) - toInt (y' / L)| ≤ Real.sqrt ((x - x') ^ 2 + (y - y') ^ 2) / L := by
      refine (toInt_lip _ _).trans ?_
      rw [← sub_div, abs_div, abs_of_pos hL]
      gcongr
      exact Real.abs_le_sqrt (by nlinarith [sq_nonneg (x - x')])
    calc |2 * a| * _ ≤ |2 * a| * (Real.sqrt ((x - x') ^ 2 + (y - y') ^ 2) / L) := by gcongr; exact h1.trans (max_le hx hy)
      _ = _ := by rw [abs_mul, abs_two]; ring
  · intro τ hτ p hp
    rw [ht] at hτ
    obtain ⟨u, v, hu, hv, huv, rfl⟩ := hp
    rw [neg_zero] at hu hv
    simp only [List.mem_cons, List.not_mem_nil, or_false] at hτ
    rcases hτ with rfl | rfl | rfl | rfl <;> simp only [V3.add_x, V3.add_y, V3.add_z, V3.smul_x, V3.smul_y, V3.smul_z, V3.sub_x, V3.sub_y, V3.sub_z]
    · rw [show (0 : ℝ) + u * (L - 0) + v * (L / 2 - 0) = L * (u + v / 2) by ring, show (0 : ℝ) + u * (0 - 0) + v * (L / 2 - 0) = L * (v / 2) by ring, val _ _ (by linarith) (by linarith) (by linarith) (by linarith)]
      rw [min_eq_left (a := v / 2) (by linarith), min_eq_right (le_min (by linarith) (by linarith))]; ring
    · rw [show L + u * (L - L) + v * (L / 2 - L) = L * (1 - v / 2) by ring, show (0 : ℝ) + u * (L - 0) + v * (L / 2 - 0) = L * (u + v / 2) by ring, val _ _ (by linarith) (by linarith) (by linarith) (by linarith)]
      rw [min_eq_right (b := 1 - (1 - v / 2)) (by linarith), min_eq_left (le_min (by linarith) (by linarith))]; ring
    · rw [show L + u * (0 - L) + v * (L / 2 - L) = L * (1 - u - v / 2) by ring, show L + u * (L - L) + v * (L / 2 - L) = L * (1 - v / 2) by ring, val _ _ (by linarith) (by linarith) (by linarith) (by linarith)]
      rw [min_eq_right (b := 1 - (1 - v / 2)) (by linarith), min_eq_right (le_min (by linarith) (by linarith))]; ring
    · rw [show (0 : ℝ) + u * (0 - 0) + v * (L / 2 - 0) = L * (v / 2) by ring, show L + u * (0 - L) + v * (L / 2 - L) = L * (1 - u - v / 2) by ring, val _ _ (by linarith) (by linarith) (by linarith) (by linarith)]
      rw [min_eq_left (a := v / 2) (by linarith), min_eq_left (le_min (by linarith) (by linarith))]; ring
  · intro x y hx0 hx1 hy0 hy1
    obtain ⟨X, rfl⟩ : ∃ X, x = L * X := ⟨x / L, by field_simp⟩
    obtain ⟨Y, rfl⟩ : ∃ Y, y = L * Y := ⟨y / L, by field_simp⟩
    have X0 : 0 ≤ X := by by_contra hc; push Not at hc; nlinarith
    have Y0 : 0 ≤ Y := by by_contra hc; push Not at hc; nlinarith
    have X1 : X ≤ 1 := by by_contra hc; push Not at hc; nlinarith
    have Y1 : Y ≤ 1 := by by_contra hc; push Not at hc; nlinarith
    rw [val X Y X0 X1 Y0 Y1, ht]
    have mem : ∀ (τ : Tri) (u v m : ℝ), 0 ≤ u → 0 ≤ v → u + v ≤ 1 → min (min X (1 - X)) (min Y (1 - Y)) = m → (⟨L * X, L * Y, 2 * a * m⟩ : V3) = τ.P0 + u • (τ.P1 - τ.P0) + v • (τ.P2 - τ.P0) →
        InTri 0 τ ⟨L * X, L * Y, 2 * a * min (min X (1 - X)) (min Y (1 - Y))⟩ := by
      intro τ u v m hu hv huv hm he
      exact ⟨u, v, by linarith, by linarith, huv, by rw [hm]; exact he⟩
    rcases le_total X Y with h1 | h1 <;> rcases le_total X (1 - Y) with h2 | h2
    · refine ⟨_, List.mem_cons_of_mem _ (List.mem_cons_of_mem _ (List.mem_cons_of_mem _ List.mem_cons_self)), mem _ (1 - X - Y) (2 * X) X (by linarith) (by linarith) (by linarith) ?_ ?_⟩
      · rw [min_eq_left (a := X) (by linarith), min_eq_left (le_min h1 h2)]
      · ext <;> simp <;> ring
    · refine ⟨_, List.mem_cons_of_mem _ (List.mem_cons_of_mem _ List.mem_cons_self), mem _ (Y - X) (2 * (1 - Y)) (1 - Y) (by linarith) (by linarith) (by linarith) ?_ ?_⟩
      · rw [min_eq_right (b := 1 - Y) (by linarith), min_eq_right (le_min h2 (by linarith))]
      · ext <;> simp <;> ring
    · refine ⟨_, List.mem_cons_self, mem _ (X - Y) (2 * Y) Y (by linarith) (by linarith) (by linarith) ?_ ?_⟩
      · rw [min_eq_left (a := Y) (by linarith), min_eq_right (le_min h1 (by linarith))]
      · ext <;> simp <;> ring
    · refine ⟨_, List.mem_cons_of_mem _ List.mem_cons_self, mem _ (Y - (1 - X)) (2 * (1 - X)) (1 - X) (by linarith) (by linarith) (by linarith) ?_ ?_⟩
      · rw [min_eq_right (b := 1 - X) (by linarith), min_eq_left (le_min (by linarith) (by linarith))]
      · ext <;> simp <;> ring
  · intro τ hτ
    have e1 : ∀ x : ℝ, Real.sqrt (x ^ 2 + 0 ^ 2) = |x| := by intro x; rw [zero_pow two_ne_zero, add_zero, Real.sqrt_sq_eq_abs]
    have e2 : ∀ x : ℝ, Real.sqrt (0 ^ 2 + x ^ 2) = |x| := by intro x; rw [zero_pow two_ne_zero, zero_add, Real.sqrt_sq_eq_abs]
    have e3 : ∀ x y : ℝ, x ^ 2 = (L / 2) ^ 2 → y ^ 2 = (L / 2) ^ 2 → Real.sqrt (x ^ 2 + y ^ 2) ≤ L := by
      intro x y hx hy
      rw [hx, hy]
      exact Real.sqrt_le_iff.mpr ⟨hL.le, by nlinarith⟩
    rw [ht] at hτ
    simp only [List.mem_cons, List.not_mem_nil, or_false] at hτ
    rcases hτ with rfl | rfl | rfl | rfl <;> unfold horiz <;> simp only [V3.sub_x, V3.sub_y, sub_self, sub_zero, zero_sub, e1, e2, abs_neg, abs_of_pos hL] <;>
      linarith [e3 (L / 2) (L / 2) rfl rfl, e3 (L / 2 - L) (L / 2) (by ring) rfl, e3 (L / 2 - L) (L / 2 - L) (by ring) (by ring), e3 (L / 2) (L / 2 - L) rfl (by ring)]
  · intro τ hτ
    obtain ⟨e1, e2, he, hsq⟩ := cross1 τ hτ
    unfold inclination
    have hn : V3.norm τ.crossP = L ^ 2 / 2 * Real.sqrt (1 + (2 * |a| / L) ^ 2) := by
      unfold V3.norm
      rw [he, show V3.dot ⟨e1, e2, L ^ 2 / 2⟩ ⟨e1, e2, L ^ 2 / 2⟩ = (L ^ 2 / 2) ^ 2 * (1 + (2 * |a| / L) ^ 2) by
        simp only [V3.dot, div_pow, mul_pow, sq_abs]; field_simp; nlinarith [hsq]]
      rw [Real.sqrt_mul (by positivity), Real.sqrt_sq (by positivity)]
    have hz : τ.N.z = 1 / Real.sqrt (1 + (2 * |a| / L) ^ 2) := by
      unfold Tri.N; rw [hn, he]; simp only [V3.smul_z]
      have : 0 < Real.sqrt (1 + (2 * |a| / L) ^ 2) := Real.sqrt_pos.mpr (by positivity)
      generalize Real.sqrt (1 + (2 * |a| / L) ^ 2) = q at *
      field_simp
    rw [hz, ← Real.cos_arctan, Real.arccos_cos (Real.arctan_nonneg.mpr (by positivity)) (by linarith [Real.arctan_lt_pi_div_two (2 * |a| / L), Real.pi_pos])]

theorem away_pos {D w : ℝ} (h : D < |w|) (hw : -D ≤ w) : 0 < w := by
  rcases lt_abs.mp h with h | h <;> linarith [abs_nonneg w]

theorem away_neg {D w : ℝ} (h : D < |w|) (hw : w ≤ D) : w < 0 := by
  rcases lt_abs.mp h with h | h <;> linarith [abs_nonneg w]

theorem floor_cell {L x : ℝ} (hL : 0 < L) {i : ℤ} (h0 : L * i < x) (h1 : x < L * i + L) : ⌊x / L⌋ = i := by
  rw [Int.floor_eq_iff, le_div_iff₀ hL, div_lt_iff₀ hL]
  constructor <;> nlinarith

/-- Around a point that is not too close to an edge regular pyramids are plane. -/
theorem pyramid_plane (a L δ x y : ℝ) (hL : 0 < L) (hδ : 0 ≤ δ) (tris : List Tri)
    (ht : tris = [⟨⟨0, 0, 0⟩, ⟨L, 0, 0⟩, ⟨L / 2, L / 2, a⟩⟩, ⟨⟨L, 0, 0⟩, ⟨L, L, 0⟩, ⟨L / 2, L / 2, a⟩⟩, ⟨⟨L, L, 0⟩, ⟨0, L, 0⟩, ⟨L / 2, L / 2, a⟩⟩, ⟨⟨0, L, 0⟩, ⟨0, 0, 0⟩, ⟨L / 2, L / 2, a⟩⟩])
    (hD : ∀ i : ℤ, 2 * δ + L / 10 ^ 10 < |x - L * i| ∧ 2 * δ + L / 10 ^ 10 < |y - L * i| ∧ 2 * δ + L / 10 ^ 10 < |x - y - L * i| ∧ 2 * δ + L / 10 ^ 10 < |x + y - L * i|) :
    PlaneAround L L δ x y tris := by
  have hLn := hL.ne'
  obtain ⟨I, hI⟩ : ∃ I, I = ⌊x / L⌋ := ⟨_, rfl⟩
  obtain ⟨J, hJ⟩ : ∃ J, J = ⌊y / L⌋ := ⟨_, rfl⟩
  obtain ⟨ε, hε⟩ : ∃ ε : ℝ, ε = 1 / 10 ^ 10 := ⟨_, rfl⟩
  have hε0 : 0 ≤ ε := hε ▸ by positivity
  have hLε : L / 10 ^ 10 = L * ε := by rw [hε]; ring
  rw [hLε] at hD
  have hLε0 : 0 ≤ L * ε := by positivity
  -- where a facet comes close to the point, the point lies inside it
  have key : ∀ τ ∈ tris, ∀ i j : ℤ, ∀ q, InTri (1 / 10 ^ 10) τ q → (q.x + i * L - x) ^ 2 + (q.y + j * L - y) ^ 2 ≤ δ ^ 2 →
      i = I ∧ j = J ∧
      ((0 < x - y - L * (I - J) ∧ x + y - L * (I + J + 1) < 0 ∧ q.z = 2 * a / L * q.y) ∨
       (0 < x - y - L * (I - J) ∧ 0 < x + y - L * (I + J + 1) ∧ q.z = 2 * a / L * (L - q.x)) ∨
       (x - y - L * (I - J) < 0 ∧ 0 < x + y - L * (I + J + 1) ∧ q.z = 2 * a / L * (L - q.y)) ∨
       (x - y - L * (I - J) < 0 ∧ x + y - L * (I + J + 1) < 0 ∧ q.z = 2 * a / L * q.x)) := by
    intro τ hτ i j q hq hdist
    have dx := abs_le_of_sq_le_sq' (a := q.x + i * L - x) (b := δ) (by nlinarith [sq_nonneg (q.y + j * L - y)]) hδ
    have dy := abs_le_of_sq_le_sq' (a := q.y + j * L - y) (b := δ) (by nlinarith [sq_nonneg (q.x + i * L - x)]) hδ
    obtain ⟨u, v, hu, hv, huv, hq⟩ := hq
    rw [← hε] at hu hv
    have c1 := (hD i).1
    have c1' := (hD (i + 1)).1
    have c2 := (hD j).2.1
    have c2' := (hD (j + 1)).2.1
    have c3 := (hD (i - j)).2.2.1
    have c4 := (hD (i + j + 1)).2.2.2
    push_cast at c1' c2' c3 c4
    have Lu : -(L * ε) ≤ L * u := by nlinarith
    have Lv : -(L * ε) ≤ L * v := by nlinarith
    have Luv : L * (u + v) ≤ L := by nlinarith
    have conc : L * i < x → x < L * i + L → L * j < y → y < L * j + L → i = I ∧ j = J := by
      intro h1 h2 h3 h4
      exact ⟨by rw [hI, floor_cell hL h1 h2], by rw [hJ, floor_cell hL h3 h4]⟩
    rw [ht] at hτ
    simp only [List.mem_cons, List.not_mem_nil, or_false] at hτ
    rcases hτ with rfl | rfl | rfl | rfl
    · have qx : q.x = L * u + L * v / 2 := by rw [hq]; simp; ring
      have qy : q.y = L * v / 2 := by rw [hq]; simp; ring
      have qz : q.z = v * a := by rw [hq]; simp
      have h2 := away_pos c2 (by linarith)
      have h3 := away_pos c3 (by linarith)
      have h4 := away_neg c4 (by linarith)
      obtain ⟨rfl, rfl⟩ := conc (by linarith) (by linarith) (by linarith) (by linarith)
      refine ⟨rfl, rfl, Or.inl ⟨h3, h4, ?_⟩⟩
      rw [qz, qy]; field_simp
    · have qx : q.x = L - L * v / 2 := by rw [hq]; simp; ring
      have qy : q.y = L * u + L * v / 2 := by rw [hq]; simp; ring
      have qz : q.z = v * a := by rw [hq]; simp
      have h2 := away_neg c1' (by linarith)
      have h3 := away_pos c3 (by linarith)
      have h4 := away_pos c4 (by linarith)
      obtain ⟨rfl, rfl⟩ := conc (by linarith) (by linarith) (by linarith) (by linarith)
      refine ⟨rfl, rfl, Or.inr (Or.inl ⟨h3, h4, ?_⟩)⟩
      rw [qz, qx]; field_simp; ring
    · have qx : q.x = L - L * u - L * v / 2 := by rw [hq]; simp; ring
      have qy : q.y = L - L * v / 2 := by rw [hq]; simp; ring
      have qz : q.z = v * a := by rw [hq]; simp
      have h2 := away_neg c2' (by linarith)
      have h3 := away_neg c3 (by linarith)
      have h4 := away_pos c4 (by linarith)
      obtain ⟨rfl, rfl⟩ := conc (by linarith) (by linarith) (by linarith) (by linarith)
      refine ⟨rfl, rfl, Or.inr (Or.inr (Or.inl ⟨h3, h4, ?_⟩))⟩
      rw [qz, qy]; field_simp; ring
    · have qx : q.x = L * v / 2 := by rw [hq]; simp; ring
      have qy : q.y = L - L * u - L * v / 2 := by rw [hq]; simp; ring
      have qz : q.z = v * a := by rw [hq]; simp
      have h2 := away_pos c1 (by linarith)
      have h3 := away_neg c3 (by linarith)
      have h4 := away_neg c4 (by linarith)
      obtain ⟨rfl, rfl⟩ := conc (by linarith) (by linarith) (by linarith) (by linarith)
      refine ⟨rfl, rfl, Or.inr (Or.inr (Or.inr ⟨h3, h4, ?_⟩))⟩
      rw [qz, qx]; field_simp
  rcases lt_or_ge 0 (x - y - L * (I - J)) with h3 | h3 <;> rcases lt_or_ge 0 (x + y - L * (I + J + 1)) with h4 | h4
  · refine ⟨-(2 * a / L), 0, 2 * a / L * (L + I * L), fun τ hτ i j q hq hd => ?_⟩
    obtain ⟨rfl, rfl, h | h | h | h⟩ := key τ hτ i j q hq hd <;> first | (exfalso; linarith [h.1, h.2.1]) | (rw [h.2.2]; ring)
  · refine ⟨0, 2 * a / L, -(2 * a / L * (J * L)), fun τ hτ i j q hq hd => ?_⟩
    obtain ⟨rfl, rfl, h | h | h | h⟩ := key τ hτ i j q hq hd <;> first | (exfalso; linarith [h.1, h.2.1]) | (rw [h.2.2]; ring)
  · refine ⟨0, -(2 * a / L), 2 * a / L * (L + J * L), fun τ hτ i j q hq hd => ?_⟩
    obtain ⟨rfl, rfl, h | h | h | h⟩ := key τ hτ i j q hq hd <;> first | (exfalso; linarith [h.1, h.2.1]) | (rw [h.2.2]; ring)
  · refine ⟨2 * a / L, 0, -(2 * a / L * (I * L)), fun τ hτ i j q hq hd => ?_⟩
    obtain ⟨rfl, rfl, h | h | h | h⟩ := key τ hτ i j q hq hd <;> first | (exfalso; linarith [h.1, h.2.1]) | (rw [h.2.2]; ring)

theorem tan_gentle {deg : ℝ} (h0 : 0 ≤ deg) (h1 : deg < 30) : 3 * Real.tan (deg * Real.pi / 180) ^ 2 < 1 := by
  have hpi := Real.pi_pos
  have ha0 : 0 ≤ deg * Real.pi / 180 := by positivity
  have ha1 : deg * Real.pi / 180 < Real.pi / 6 := by nlinarith
  have ht : 0 ≤ Real.tan (deg * Real.pi / 180) := Real.tan_nonneg_of_nonneg_of_le_pi_div_two ha0 (by linarith)
  have hlt := Real.tan_lt_tan_of_nonneg_of_lt_pi_div_two ha0 (by linarith) ha1
  rw [Real.tan_pi_div_six] at hlt
  have h3 : Real.sqrt 3 ^ 2 = 3 := Real.sq_sqrt (by norm_num)
  have h3p : 0 < Real.sqrt 3 := Real.sqrt_pos.mpr (by norm_num)
  rw [lt_div_iff₀ h3p] at hlt
  have : (Real.tan (deg * Real.pi / 180) * Real.sqrt 3) ^ 2 < 1 := by
    have hnn : 0 ≤ Real.tan (deg * Real.pi / 180) * Real.sqrt 3 := by positivity
    nlinarith
  rw [mul_pow, h3] at this; linarith

theorem pyramid_facets (deg L : ℝ) (hL : 0 < L) (h0 : 0 ≤ deg) (h1 : deg < 90) (upright : Bool) :
    ∃ h : ℝ → ℝ → ℝ, HeightMap L L (Real.tan (deg * Real.pi / 180)) (2 * L) h (pyramidFacets (pyramidHeight deg L) L upright) ∧ (∀ x y, h x y ≤ pyramidHeight deg L) ∧
      ∀ τ ∈ pyramidFacets (pyramidHeight deg L) L upright, inclination τ = deg * Real.pi / 180 := by
  have hpi := Real.pi_pos
  have ha0 : 0 ≤ deg * Real.pi / 180 := by positivity
  have ha1 : deg * Real.pi / 180 < Real.pi / 2 := by nlinarith
  have ht : 0 ≤ Real.tan (deg * Real.pi / 180) := Real.tan_nonneg_of_nonneg_of_le_pi_div_two ha0 ha1.le
  have hh : 0 ≤ pyramidHeight deg L := by unfold pyramidHeight; positivity
  obtain ⟨a, hae⟩ : ∃ a, a = if upright then pyramidHeight deg L else -pyramidHeight deg L := ⟨_, rfl⟩
  have haa : |a| = pyramidHeight deg L := by rw [hae]; cases upright <;> simp [abs_of_nonneg hh]
  have hs : 2 * |a| / L = Real.tan (deg * Real.pi / 180) := by rw [haa]; unfold pyramidHeight; field_simp
  obtain ⟨H, hinc⟩ := pyramid_map a L hL (pyramidFacets (pyramidHeight deg L) L upright) (by
    simp only [pyramidFacets, pyramidPoints, List.getD_cons_zero, List.getD_cons_succ, ← hae])
  rw [hs] at H hinc
  refine ⟨_, H, ?_, ?_⟩
  · intro x y
    rw [← haa]
    unfold pyramidFn
    have hle : ∀ t, 0 ≤ toInt t ∧ toInt t ≤ 1 / 2 := fun t => ⟨abs_nonneg _, abs_sub_round t⟩
    obtain ⟨m0, m1⟩ : 0 ≤ min (toInt (x / L)) (toInt (y / L)) ∧ min (toInt (x / L)) (toInt (y / L)) ≤ 1 / 2 := ⟨le_min (hle _).1 (hle _).1, (min_le_left _ _).trans (hle _).2⟩
    have := le_abs_self a
    have := abs_nonneg a
    nlinarith
  · intro τ hτ
    rw [hinc τ hτ, Real.arctan_tan (by linarith) ha1]

theorem pyramids_resolved {deg L : ℝ} (hL : 0 < L) (h0 : 0 ≤ deg) (h1 : deg < 30) (upright : Bool) {x y : ℝ} (h : PyramidsResolved (Real.tan (deg * Real.pi / 180)) L x y) :
    Resolved L L (Real.tan (deg * Real.pi / 180)) (2 * L) x y (pyramidFacets (pyramidHeight deg L) L upright) := by
  have hg := tan_gentle h0 h1
  have hpi := Real.pi_pos
  have ht0 : 0 ≤ Real.tan (deg * Real.pi / 180) := Real.tan_nonneg_of_nonneg_of_le_pi_div_two (by positivity) (by nlinarith)
  obtain ⟨t, ht⟩ : ∃ t, t = Real.tan (deg * Real.pi / 180) := ⟨_, rfl⟩
  rw [← ht] at h hg ht0 ⊢
  have hk : 0 < 1 - 3 * t ^ 2 := by linarith
  have ht1 : t < 3 / 5 := by
    by_contra hc
    push Not at hc
    nlinarith
  rcases h with h | h
  · left; linarith
  right
  refine ⟨hL, hL, 2 * t * (1 / 10 ^ 10 * (2 * L)) * (1 + t ^ 2) / (1 - 3 * t ^ 2), by positivity, by rw [div_mul_cancel₀ _ hk.ne'], ?_⟩
  refine pyramid_plane (if upright then pyramidHeight deg L else -pyramidHeight deg L) L _ x y hL (by positivity) _ (by
    simp only [pyramidFacets, pyramidPoints, List.getD_cons_zero, List.getD_cons_succ]) fun i => ?_
  have small : t * (1 + t ^ 2) ≤ 9 / 10 := by nlinarith [mul_nonneg ht0 (sq_nonneg t)]
  have hD : (2 * (2 * t * (1 / 10 ^ 10 * (2 * L)) * (1 + t ^ 2) / (1 - 3 * t ^ 2)) + L / 10 ^ 10) * (1 - 3 * t ^ 2) ≤ L / (5 * 10 ^ 8) := by
    rw [add_mul, mul_assoc, div_mul_cancel₀ _ hk.ne']
    have e : 2 * (2 * t * (1 / 10 ^ 10 * (2 * L)) * (1 + t ^ 2)) = 8 * (L / 10 ^ 10) * (t * (1 + t ^ 2)) := by ring
    have hL10 : 0 < L / 10 ^ 10 := by positivity
    rw [e, show L / (5 * 10 ^ 8) = 20 * (L / 10 ^ 10) by ring]
    nlinarith [sq_nonneg t]
  have go : ∀ w : ℝ, L / (5 * 10 ^ 8) < (1 - 3 * t ^ 2) * w → 2 * (2 * t * (1 / 10 ^ 10 * (2 * L)) * (1 + t ^ 2) / (1 - 3 * t ^ 2)) + L / 10 ^ 10 < w := by
    intro w hw
    have := hD.trans_lt hw
    rw [mul_comm] at this
    exact lt_of_mul_lt_mul_left this hk.le
  obtain ⟨g1, g2, g3, g4⟩ := h i
  exact ⟨go _ g1, go _ g2, go _ g3, go _ g4⟩

open MeasureTheory in
/-- **C155, pyramids flatter than 30°.** Light from straight above on `regular_pyramids`, upright or inverted, with an elevation angle `deg` below 30° on a medium of higher refractive index: wherever the ray
arrives (but not within about 1e-9 of the base from an edge, unless the pyramids are small: `PyramidsResolved`) it is reflected, at twice the elevation angle to the vertical, with the textbook reflectance of a flat surface at the elevation angle, and transmitted, `deg - β'` off the vertical, with the textbook transmittance; in both cases after one meeting with the surface. -/
theorem C155_pyramids (deg L : ℝ) (hL : 0 < L) (h0 : 0 ≤ deg) (h1 : deg < 30) (upright : Bool)
    (asin : ℂ → ℂ) (hasin : ∀ z, IsArcsin z (asin z)) (nAbove nBelow : ℝ) (ha : 0 < nAbove) (hb : nAbove ≤ nBelow) (pol : Pol)
    (β' : ℝ) (hb0 : 0 ≤ β') (hb1 : β' < Real.pi / 2) (hsnell : nAbove * Real.sin (deg * Real.pi / 180) = nBelow * Real.sin β')
    (r : V3) (hr : InCell L L r) (hsize : PyramidsResolved (Real.tan (deg * Real.pi / 180)) L r.x r.y) (habove : pyramidHeight deg L < r.z) (n : ℕ) {w1 w2 w3 : Draw} (ws : List Draw)
    (e1 : w1.tris = pyramidFacets (pyramidHeight deg L) L upright) (e2 : w2.tris = pyramidFacets (pyramidHeight deg L) L upright) (e3 : w3.tris = pyramidFacets (pyramidHeight deg L) L upright) :
    let R := textbookR nAbove nBelow (deg * Real.pi / 180) β' pol
    let o := fun rnd => sicRun L L straightDown ({ w1 with dec := fresnelDec nAbove nBelow (refractionAngle asin nAbove nBelow) pol rnd } :: w2 :: w3 :: ws) (sicStart r straightDown 1 n)
    volume {rnd ∈ Set.Ico (0 : ℝ) 1 | Leaves (o rnd) 0 (2 * (deg * Real.pi / 180)) (n + 1) 1} = ENNReal.ofReal R ∧
    volume {rnd ∈ Set.Ico (0 : ℝ) 1 | Leaves (o rnd) 1 (Real.pi - (deg * Real.pi / 180 - β')) (n + 1) (-1)} = ENNReal.ofReal (1 - R) := by
  have hpi := Real.pi_pos
  obtain ⟨h, H, hmax, hinc⟩ := pyramid_facets deg L hL h0 (by linarith) upright
  have ha0 : 0 ≤ deg * Real.pi / 180 := by positivity
  have ha1 : deg * Real.pi / 180 < Real.pi / 6 := by nlinarith
  have ht : 0 ≤ Real.tan (deg * Real.pi / 180) := Real.tan_nonneg_of_nonneg_of_le_pi_div_two ha0 (by linarith)
  have hgentle := tan_gentle h0 h1
  obtain ⟨τ, hτ, p, -, -, -, hall⟩ := C155_reflectance H ht asin hasin nAbove nBelow ha hb pol hgentle r hr (pyramids_resolved hL h0 h1 upright hsize) ((hmax _ _).trans_lt habove) n ws e1 e2 e3
  rw [hinc τ hτ] at hall
  exact hall β' hb0 hb1 hsnell

/-- **C155, pyramids steeper than 45°.** Light from straight above that is reflected by `regular_pyramids` with an elevation angle above 45° has met at least two facets. -/
theorem C155_steep_pyramids (deg L : ℝ) (hL : 0 < L) (h0 : 45 < deg) (h1 : deg < 90) (upright : Bool) (nAbove nBelow : ℂ) (ha : 0 < nAbove.re) (hb : 0 < nBelow.re) (ka : 0 ≤ nAbove.im) (kb : 0 ≤ nBelow.im)
    (tmm : Bool) (nL : ℕ) (r : V3) (n : ℕ) (ws : List Draw) (hw : ∀ w ∈ ws, FacetDraw nAbove nBelow tmm nL w ∧ w.tris = pyramidFacets (pyramidHeight deg L) L upright)
    (ot : ℝ) (r' d' : V3) (θ : Option ℝ) (n' : ℕ) (side' : ℤ) (h : sicRun L L straightDown ws (sicStart r straightDown 1 n) = .inr (.out 0 ot r' d' θ n' side')) : n + 2 ≤ n' := by
  have hpi := Real.pi_pos
  obtain ⟨hf, H, -, hinc⟩ := pyramid_facets deg L hL (by linarith) h1 upright
  refine C155_steep nAbove nBelow ha hb ka kb tmm nL L L r n ws (fun w hw' => ⟨(hw w hw').1, fun τ hτ => ?_⟩) ot r' d' θ n' side' h
  rw [(hw w hw').2] at hτ
  exact ⟨H.up τ hτ, by rw [hinc τ hτ]; nlinarith⟩

/-- The hypotheses of `C155_pyramids` are met, for instance, by pyramids with slopes of 1/3 (18.4°) and base 2. -/
example : ∃ deg : ℝ, Real.tan (deg * Real.pi / 180) = 1 / 3 ∧ 0 ≤ deg ∧ deg < 30 ∧
    4 / 5 * Real.tan (deg * Real.pi / 180) * 2 * (1 + Real.tan (deg * Real.pi / 180) ^ 2) ≤ 1 - 3 * Real.tan (deg * Real.pi / 180) ^ 2 := by
  have hpi := Real.pi_pos
  have e : 180 / Real.pi * Real.arctan (1 / 3) * Real.pi / 180 = Real.arctan (1 / 3) := by field_simp
  refine ⟨180 / Real.pi * Real.arctan (1 / 3), by rw [e, Real.tan_arctan], mul_nonneg (by positivity) (Real.arctan_nonneg.mpr (by norm_num)), ?_, by rw [e, Real.tan_arctan]; norm_num⟩
  have h3 : Real.sqrt 3 ^ 2 = 3 := Real.sq_sqrt (by norm_num)
  have h3p : 0 < Real.sqrt 3 := Real.sqrt_pos.mpr (by norm_num)
  have hlt : Real.arctan (1 / 3) < Real.pi / 6 := by
    rw [← Real.arctan_tan (x := Real.pi / 6) (by linarith) (by linarith), Real.tan_pi_div_six]
    refine Real.arctan_strictMono ?_
    rw [lt_div_iff₀ h3p]; nlinarith
  rw [div_mul_eq_mul_div, div_lt_iff₀ hpi]; linarith

/-- And by pyramids with slopes of 1/2 (26.6°) and base 5 with a ray that arrives at `(1, 2.3)`, although they are not small. -/
example : PyramidsResolved (1 / 2) 5 1 (23 / 10) ∧ ¬ (4 / 5 * (1 / 2 : ℝ) * 5 * (1 + (1 / 2) ^ 2) ≤ 1 - 3 * (1 / 2) ^ 2) := by
  refine ⟨Or.inr fun i => ?_, by norm_num⟩
  have far : ∀ w : ℝ, -9 / 2 < w → w < -1 / 2 ∨ 1 / 2 < w ∧ w < 9 / 2 → w < 9 / 2 → (5 : ℝ) / (5 * 10 ^ 8) < (1 - 3 * (1 / 2) ^ 2) * |w - 5 * i| := by
    intro w h0 h1 h2
    have : 1 / 2 < |w - 5 * i| := by
      rcases h1 with h1 | ⟨h1, -⟩
      · rcases le_or_gt i (-1) with hi | hi
        · have : (i : ℝ) ≤ -1 := by exact_mod_cast hi
          exact lt_abs.mpr (Or.inl (by linarith))
        · have : (0 : ℝ) ≤ i := by exact_mod_cast (by omega : 0 ≤ i)
          exact lt_abs.mpr (Or.inr (by linarith))
      · rcases le_or_gt i 0 with hi | hi
        · have : (i : ℝ) ≤ 0 := by exact_mod_cast hi
          exact lt_abs.mpr (Or.inl (by linarith))
        · have : (1 : ℝ) ≤ i := by exact_mod_cast (by omega : 1 ≤ i)
          exact lt_abs.mpr (Or.inr (by linarith))
    norm_num; linarith
  exact ⟨far _ (by norm_num) (by norm_num) (by norm_num), far _ (by norm_num) (by norm_num) (by norm_num), far _ (by norm_num) (by norm_num) (by norm_num), far _ (by norm_num) (by norm_num) (by norm_num)⟩

end Rayflare
