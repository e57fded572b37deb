import Verif.Spec.Agree
import Verif.Props.Converge
import Verif.Props.FlatRT

/-!
# Property C159: ray tracing and the matrix method agree for planar structures
-/

namespace Rayflare

open Rayflare.Np Rayflare.Model Rayflare.Spec Rayflare.Lemmas MeasureTheory Filter Topology

/-! ## Helper lemmas -/

theorem textbookR_continuousAt {a b θ : ℝ} (ha : 0 < a) (hb : 0 < b) (h1 : |θ| < Real.pi / 2) (hs : a / b * |Real.sin θ| < 1) (pol : Pol) :
    ContinuousAt (fun t => textbookR a b t (Real.arcsin (a / b * Real.sin t)) pol) θ := by
  have hc : 0 < Real.cos θ := Real.cos_pos_of_mem_Ioo ⟨by linarith [(abs_lt.mp h1).1], (abs_lt.mp h1).2⟩
  have hab : 0 < a / b := div_pos ha hb
  have habs : |a / b * Real.sin θ| < 1 := by rw [abs_mul, abs_of_pos hab]; exact hs
  have hc' : 0 < Real.cos (Real.arcsin (a / b * Real.sin θ)) :=
    Real.cos_pos_of_mem_Ioo ⟨Real.neg_pi_div_two_lt_arcsin.mpr (abs_lt.mp habs).1, Real.arcsin_lt_pi_div_two.mpr (abs_lt.mp habs).2⟩
  have k1 : ContinuousAt (fun t : ℝ => Real.cos t) θ := Real.continuous_cos.continuousAt
  have k2 : ContinuousAt (fun t : ℝ => Real.cos (Real.arcsin (a / b * Real.sin t))) θ := by fun_prop
  have e1 : a * Real.cos θ + b * Real.cos (Real.arcsin (a / b * Real.sin θ)) ≠ 0 := by positivity
  have e2 : a * Real.cos (Real.arcsin (a / b * Real.sin θ)) + b * Real.cos θ ≠ 0 := by positivity
  have f1 : ContinuousAt (fun t : ℝ => ((a * Real.cos t - b * Real.cos (Real.arcsin (a / b * Real.sin t))) / (a * Real.cos t + b * Real.cos (Real.arcsin (a / b * Real.sin t)))) ^ 2) θ :=
    (((k1.const_mul a).sub (k2.const_mul b)).div ((k1.const_mul a).add (k2.const_mul b)) e1).pow 2
  have f2 : ContinuousAt (fun t : ℝ => ((a * Real.cos (Real.arcsin (a / b * Real.sin t)) - b * Real.cos t) / (a * Real.cos (Real.arcsin (a / b * Real.sin t)) + b * Real.cos t)) ^ 2) θ :=
    (((k2.const_mul a).sub (k1.const_mul b)).div ((k2.const_mul a).add (k1.const_mul b)) e2).pow 2
  cases pol
  · exact f1
  · exact f2
  · exact (f1.add f2).div_const 2

section
variable {pol : Pol} {a b : ℝ} {res : TmmRes} (hf : FresnelRes pol a b res) (ha : 0 < a) (hb : 0 < b)
include hf ha hb

/-- Below the critical angle the results are continuous functions of the angle. -/
theorem fresnelRes_below {θ : ℝ} (h1 : |θ| < Real.pi / 2) (hs : a / b * |Real.sin θ| < 1) :
    ContinuousAt res.R θ ∧ ContinuousAt res.T θ := by
  have hab : 0 < a / b := div_pos ha hb
  have ev : ∀ᶠ t in 𝓝 θ, |t| < Real.pi / 2 ∧ a / b * |Real.sin t| < 1 := by
    refine (continuous_abs.continuousAt.eventually_lt continuousAt_const h1).and ?_
    exact ((continuous_const.mul (continuous_abs.comp Real.continuous_sin)).continuousAt).eventually_lt continuousAt_const hs
  have snell : ∀ t : ℝ, a / b * |Real.sin t| < 1 → |Real.arcsin (a / b * Real.sin t)| < Real.pi / 2 ∧ a * Real.sin t = b * Real.sin (Real.arcsin (a / b * Real.sin t)) := by
    intro t ht
    have habs : |a / b * Real.sin t| < 1 := by rw [abs_mul, abs_of_pos hab]; exact ht
    refine ⟨abs_lt.mpr ⟨by linarith [Real.neg_pi_div_two_lt_arcsin.mpr (abs_lt.mp habs).1], Real.arcsin_lt_pi_div_two.mpr (abs_lt.mp habs).2⟩, ?_⟩
    rw [Real.sin_arcsin (abs_lt.mp habs).1.le (abs_lt.mp habs).2.le]
    field_simp
  have hcont := textbookR_continuousAt ha hb h1 hs pol
  refine ⟨hcont.congr ?_, ((continuousAt_const (y := (1 : ℝ))).sub hcont).congr ?_⟩
  · filter_upwards [ev] with t ⟨t1, t2⟩
    exact (hf.refl t _ t1 (snell t t2).1 (snell t t2).2).symm
  · filter_upwards [ev] with t ⟨t1, t2⟩
    exact (hf.trns t _ t1 (snell t t2).1 (snell t t2).2).symm

omit ha hb in
/-- Beyond the critical angle they are constant. -/
theorem fresnelRes_beyond {θ : ℝ} (hs : b < a * Real.sin θ) : ContinuousAt res.R θ ∧ ContinuousAt res.T θ := by
  have ev : ∀ᶠ t in 𝓝 θ, b < a * Real.sin t := continuousAt_const.eventually_lt (continuous_const.mul Real.continuous_sin).continuousAt hs
  exact ⟨(continuousAt_const (y := (1 : ℝ))).congr (by filter_upwards [ev] with t ht; exact (hf.total t ht).1.symm),
    (continuousAt_const (y := (0 : ℝ))).congr (by filter_upwards [ev] with t ht; exact (hf.total t ht).2.symm)⟩
end

/-- Two methods that are both close to the same number. -/
theorem close_of_justBelow {m x δ y ε : ℝ} (h : JustBelow m x δ) (h' : |y - x| < ε) : |m - y| < δ + ε := by
  have h2 := abs_lt.mp h'
  have hδ : 0 ≤ δ := by linarith [h.1, h.2]
  rw [abs_lt]
  constructor <;> linarith [h.1, h.2, h2.1, h2.2]

theorem textbookR_swap_face {a b s t : ℝ} (pol : Pol) : textbookR b a t s pol = textbookR a b s t pol := by
  have key : ∀ x y : ℝ, ((x - y) / (x + y)) ^ 2 = ((y - x) / (y + x)) ^ 2 := by
    intro x y
    rw [div_pow, div_pow]; congr 1 <;> ring
  cases pol <;> simp only [textbookR]
  · exact key _ _
  · exact key _ _
  · rw [key, key (b * Real.cos s)]

variable {ω : Type*}

/-! ## The property -/

/-- **C159.** A slab that absorbs, between flat bare surfaces and transparent media (refractive indices `inN`, `bulkN`, `outN`; absorption coefficient times thickness `a`), light at the angle of incidence `thIn`.  It is calculated with the matrix method (surfaces from the transfer-matrix solver,
whose results for a bare surface are Fresnel's) and with ray tracing (surfaces planar, Fresnel's equations).  With enough polar bins, enough surfaces per ray and small thresholds, reflectance, transmittance and absorptance of the two methods agree as closely as wanted:
the mean of the results of ray tracing over the random numbers differs from the result of `calculate_RAT` by less than `ε` plus the threshold of ray tracing. -/
theorem C159_agree (thIn : ℝ) (hθ0 : 0 ≤ thIn) (hθ1 : thIn < Real.pi / 2) (inN bulkN outN a : ℝ) (hin : 0 < inN) (hbulk : 0 < bulkN) (hout : 0 < outN) (ha : 0 < a)
    (hrefr : inN * Real.sin thIn < bulkN) (hcrit : inN * Real.sin thIn ≠ outN)
    -- ray tracing
    {c : RTStack} {cell0 cell1 : Cell} (hs : RTSlab c cell0 cell1 none none inN bulkN outN) (harc : ∀ z, IsArcsin z (c.asin z)) (hα : c.S.alphas.getD 1 0 * c.S.widths.getD 1 0 = a) (hthresh : 0 < c.S.thresh)
    {h : ℝ} (hh : cell0.zcov ≤ h) (hh0 : h + 1e-8 ≠ 0) (φ : ℝ) {N : ℕ} (hN : 0 < N) (L : Fin N → StackLaunch) (hL : ∀ k, AllFlat cell0 cell1 (L k).V) {nu : ℕ} (hnu : 3 ≤ nu)
    -- matrix method
    (res0 res1 resb : TmmRes) (h0 : FresnelRes c.pol inN bulkN res0) (h1 : FresnelRes c.pol bulkN outN res1) (hb : FresnelRes c.pol bulkN inN resb) (ε : ℝ) (hε : 0 < ε) :
    ∃ n₀ K₀ : ℕ, ∀ K ≥ K₀, ∀ n ≥ n₀, ∀ (sp : Spacing) (cz : ℝ), 0 < cz → ∀ m : ℕ, ((∃ q : ℕ, 0 < q ∧ m = 2 * q) ∨ m = 1) → (1e-10 : ℝ) ≤ 2 * Real.pi / m →
      ∀ phiIn : PhiIn, (∀ p, phiIn = .val p → 0 ≤ p ∧ p ≠ 2 * Real.pi / m) →
      ∀ (inp : RatInput ω (Fin 0) (Fin 0) (makeAngleVector n (2 * Real.pi / m) cz sp).half) (w : ω), inp.thresh ≤ ε / 4 → inp.α w * inp.thick = a →
        (∀ w, 0 ≤ inp.α w) → 0 ≤ inp.thick → (∀ w, StoredOk (inp.front0 w)) → (∀ w, StoredOk (inp.front1 w)) → (∀ w, StoredOk (inp.rear0 w)) →
        StoredByTmm n cz m sp true (inN / bulkN) res0 (inp.front0 w) → StoredByTmm n cz m sp true (bulkN / outN) res1 (inp.front1 w) → StoredByTmm n cz m sp false (bulkN / inN) resb (inp.rear0 w) →
        ∀ (S : Sys ω (Fin (makeAngleVector n (2 * Real.pi / m) cz sp).half) (Fin 0) (Fin 0)), assemble n (2 * Real.pi / m) cz sp thIn phiIn inp = some S →
        ∀ (o : ProfOpts ω (Fin (makeAngleVector n (2 * Real.pi / m) cz sp).half)) (k : ℕ) (t : LoopState ω (Fin (makeAngleVector n (2 * Real.pi / m) cz sp).half) (Fin 0) (Fin 0)), (S.Exits k t ∨ S.ExitsProf o k t) →
        let rays := fun U : Fin N → Fin K → Fin nu → ℝ => List.ofFn fun k => recorded 0 1 (traceWith c K (L k).V (U k) (c.start (L k).x (L k).y 0 1 (rA0 h thIn φ)))
        let P : Measure (Fin N → Fin K → Fin nu → ℝ) := Measure.pi fun _ => uniform2 K nu
        |∫ U, resR (rays U) ∂P - t.R w| < ε + c.S.thresh ∧ |∫ U, resT (rays U) ∂P - t.T w| < ε + c.S.thresh ∧ |∫ U, resA (rays U) 1 ∂P - t.Abulk w| < ε + c.S.thresh := by
  have hpi := Real.pi_pos
  have hsin0 : 0 ≤ Real.sin thIn := Real.sin_nonneg_of_nonneg_of_le_pi hθ0 (by linarith)
  have lt1 : ∀ t : ℝ, 0 ≤ t → t < Real.pi / 2 → Real.sin t < 1 := by
    intro t t0 t1
    have := Real.sin_lt_sin_of_lt_of_le_pi_div_two (by linarith [Real.pi_pos]) le_rfl t1
    rwa [Real.sin_pi_div_two] at this
  have hq : inN / bulkN * Real.sin thIn < 1 := by rw [div_mul_eq_mul_div, div_lt_one hbulk]; exact hrefr
  have hq0 : 0 ≤ inN / bulkN * Real.sin thIn := by positivity
  set θB := Real.arcsin (inN / bulkN * Real.sin thIn) with hθB
  have hB0 : 0 ≤ θB := Real.arcsin_nonneg.mpr hq0
  have hB1 : θB < Real.pi / 2 := Real.arcsin_lt_pi_div_two.mpr hq
  have hsB : Real.sin θB = inN / bulkN * Real.sin thIn := Real.sin_arcsin (by linarith) hq.le
  have hsnell : inN * Real.sin thIn = bulkN * Real.sin θB := by rw [hsB]; field_simp
  have hcB : 0 < Real.cos θB := Real.cos_pos_of_mem_Ioo ⟨by linarith, hB1⟩
  have hcI : 0 < Real.cos thIn := Real.cos_pos_of_mem_Ioo ⟨by linarith, hθ1⟩
  have habs0 : |thIn| < Real.pi / 2 := by rwa [abs_of_nonneg hθ0]
  have habsB : |θB| < Real.pi / 2 := by rwa [abs_of_nonneg hB0]
  have hsB0 : 0 ≤ Real.sin θB := by rw [hsB]; exact hq0
  -- the rear surface
  obtain ⟨R2, hR2, hR2le, hr2, ht2⟩ : ∃ R2, ((∃ θ2, 0 ≤ θ2 ∧ θ2 < Real.pi / 2 ∧ bulkN * Real.sin θB = outN * Real.sin θ2 ∧ R2 = textbookR bulkN outN θB θ2 c.pol) ∨ (outN < bulkN * Real.sin θB ∧ R2 = 1)) ∧
      R2 ≤ 1 ∧ res1.R θB = R2 ∧ (if bulkN / outN * Real.sin θB < 1 then res1.T θB else 0) = 1 - R2 := by
    rcases lt_or_gt_of_ne hcrit with hlt | hgt
    · have hx : bulkN / outN * Real.sin θB < 1 := by rw [div_mul_eq_mul_div, div_lt_one hout, ← hsnell]; exact hlt
      have hx0 : 0 ≤ bulkN / outN * Real.sin θB := by positivity
      have e : bulkN * Real.sin θB = outN * Real.sin (Real.arcsin (bulkN / outN * Real.sin θB)) := by
        rw [Real.sin_arcsin (by linarith) hx.le]; field_simp
      have g0 := Real.arcsin_nonneg.mpr hx0
      have g1 := Real.arcsin_lt_pi_div_two.mpr hx
      have g2 : |Real.arcsin (bulkN / outN * Real.sin θB)| < Real.pi / 2 := by rwa [abs_of_nonneg g0]
      refine ⟨_, Or.inl ⟨_, g0, g1, e, rfl⟩, textbookR_le_one hbulk hout hcB (Real.cos_pos_of_mem_Ioo ⟨by linarith, g1⟩) _, h1.refl _ _ habsB g2 e, ?_⟩
      rw [if_pos hx, h1.trns _ _ habsB g2 e]
    · have hx : outN < bulkN * Real.sin θB := by rw [← hsnell]; exact hgt
      refine ⟨1, Or.inr ⟨hx, rfl⟩, le_rfl, (h1.total _ hx).1, ?_⟩
      rw [if_neg, sub_self]
      rw [not_lt, div_mul_eq_mul_div, le_div_iff₀ hout]; linarith
  have hR1le := textbookR_le_one hin hbulk hcI hcB c.pol
  obtain ⟨eslab, s1, s2, s3⟩ := C151_transparent c harc hin hbulk hout hθ0 hθ1 hB0 hB1 hsnell hR2
  -- the two slabs are the same
  have hr0 := h0.refl _ _ habs0 habsB hsnell
  have ht0 := h0.trns _ _ habs0 habsB hsnell
  have hrb : resb.R θB = textbookR inN bulkN thIn θB c.pol := by rw [hb.refl _ _ habsB habs0 hsnell.symm]; exact textbookR_swap_face _
  have htb : resb.T θB = 1 - textbookR inN bulkN thIn θB c.pol := by rw [hb.trns _ _ habsB habs0 hsnell.symm, textbookR_swap_face]
  have hxb : bulkN / inN * Real.sin θB < 1 := by
    have := lt1 thIn hθ0 hθ1
    have e : bulkN / inN * Real.sin θB = Real.sin thIn := by rw [hsB]; field_simp
    rw [e]; exact this
  set R1 := textbookR inN bulkN thIn θB c.pol with hR1
  set A := slabAt 0 0 inN bulkN outN a res0 res1 resb thIn θB with hA
  set B := slabOf c none none inN bulkN outN thIn with hB
  have p1 : A.pass = B.pass := by
    rw [eslab]; simp only [hA, slabAt, bareSlab, abs_of_pos hcB, hα]; rw [neg_div]
  have p2 : A.front.refl = B.front.refl := by rw [eslab]; exact hr0
  have p3 : A.front.trns = B.front.trns := by rw [eslab]; exact ht0
  have p4 : A.rear.refl = B.rear.refl := by rw [eslab]; exact hr2
  have p5 : A.rear.trns = B.rear.trns := by rw [eslab]; exact ht2
  have p6 : A.back.refl = B.back.refl := by rw [eslab]; exact hrb
  have p7 : A.back.trns = B.back.trns := by rw [eslab]; exact (if_pos hxb).trans htb
  have ptrips : A.trips = B.trips := by simp only [Slab.trips, Slab.round, p1, p4, p6]
  have pR : A.R A.trips = B.R B.trips := by simp only [ptrips, Slab.R, p1, p2, p3, p4, p7]
  have pT : A.T A.trips = B.T B.trips := by simp only [ptrips, Slab.T, p1, p3, p5]
  have pA : A.bulk A.trips = B.bulk B.trips := by simp only [ptrips, Slab.bulk, p1, p3, p4]
  have hpass : B.pass < 1 := by
    rw [eslab]; simp only [bareSlab, hα]
    rw [Real.exp_lt_one_iff]
    exact neg_neg_of_pos (div_pos ha hcB)
  have hpass0 : 0 < B.pass := by rw [eslab]; exact Real.exp_pos _
  have R1nn : 0 ≤ R1 := by
    rw [hR1]; cases c.pol <;> simp only [textbookR] <;> positivity
  have hround : A.round < 1 := by
    have e : A.round = B.pass ^ 2 * R2 * R1 := by simp only [Slab.round, p1, p4, p6, eslab, bareSlab]
    rw [e]
    have h2 : B.pass ^ 2 < 1 := pow_lt_one₀ hpass0.le hpass two_ne_zero
    have h3 : R2 * R1 ≤ 1 := (mul_le_mul_of_nonneg_right hR2le R1nn).trans (by rw [one_mul]; exact hR1le)
    calc B.pass ^ 2 * R2 * R1 = B.pass ^ 2 * (R2 * R1) := by ring
      _ ≤ B.pass ^ 2 * 1 := mul_le_mul_of_nonneg_left h3 (sq_nonneg _)
      _ < 1 := by rw [mul_one]; exact h2
  -- continuity
  have c0 := fresnelRes_below h0 hin hbulk habs0 (by rwa [abs_of_nonneg hsin0])
  have cb := fresnelRes_below hb hbulk hin habsB (by rwa [abs_of_nonneg hsB0])
  have c1 : ContinuousAt res1.R θB ∧ ContinuousAt res1.T θB := by
    rcases lt_or_gt_of_ne hcrit with hlt | hgt
    · exact fresnelRes_below h1 hbulk hout habsB (by rw [abs_of_nonneg hsB0, div_mul_eq_mul_div, div_lt_one hout, ← hsnell]; exact hlt)
    · exact fresnelRes_beyond h1 (by rw [← hsnell]; exact hgt)
  obtain ⟨n₀, hn₀⟩ := C150_converges (ω := ω) thIn hθ0 hθ1 inN bulkN outN a hin hbulk hout hrefr hcrit (n0 := 0) (n1 := 0) res0 res1 resb
    (fun θ hθ => by
      rw [div_mul_eq_mul_div, lt_div_iff₀ hout, one_mul] at hθ
      rw [(h1.total θ hθ).2]; norm_num)
    c0.1 c0.2 (fun l => l.elim0) c1.1 c1.2 (fun l => l.elim0) cb.1 cb.2 (fun l => l.elim0) hround (ε / 2) (_root_.half_pos hε)
  obtain ⟨K₀, hK₀⟩ := C151_converges hs (fun _ h => by cases h) (fun _ h => by cases h) hθ0 hθ1 s1 s2 s3 hh hh0 φ hN L hL hnu (Or.inl ⟨hpass, hthresh⟩) (_root_.half_pos hε)
  refine ⟨n₀, K₀, fun K hK n hn sp cz hcz m hm hm' phiIn hphi inp w ht hα' hα0 hth s0 s1 s2 w0 w1 w2 S hS o k t hex => ?_⟩
  intro rays P
  obtain ⟨x1, x2, x3, -, -⟩ := hn₀ n hn sp cz hcz m hm hm' phiIn hphi inp w (by linarith) hα' hα0 hth s0 s1 s2 w0 w1 w2 S hS o k t hex
  obtain ⟨y1, y2, y3, -, -⟩ := hK₀ K hK
  have fin : ∀ {x y z : ℝ}, JustBelow x z (c.S.thresh + ε / 2) → |y - z| < ε / 2 → |x - y| < ε + c.S.thresh := fun h h' => by
    have := close_of_justBelow h h'
    linarith
  refine ⟨fin y1 ?_, fin y2 ?_, fin y3 ?_⟩
  · rw [← pR]; exact x1
  · rw [← pT]; exact x2
  · rw [← pA]; exact x3

/-! ### Coated surfaces -/

/-- The textbook slab with the results of the solver at three angles: front surface from outside, rear surface, front surface from inside; the light travels at the angle `θB`. -/
noncomputable def slab3 (n0 n1 : ℕ) (a θB : ℝ) (res0 res1 resb : TmmRes) (p : ℝ × ℝ × ℝ) : Slab (Fin n0) (Fin n1) :=
  { front := ⟨res0.R p.1, res0.T p.1, fun l => res0.A p.1 l⟩
    rear := ⟨res1.R p.2.1, res1.T p.2.1, fun l => res1.A p.2.1 l⟩
    back := ⟨resb.R p.2.2, resb.T p.2.2, fun l => resb.A p.2.2 l⟩
    pass := Real.exp (-a / |Real.cos θB|) }

theorem slab3_near {n0 n1 : ℕ} {a θB : ℝ} {res0 res1 resb : TmmRes} {p0 : ℝ × ℝ × ℝ}
    (r0 : ContinuousAt res0.R p0.1) (t0 : ContinuousAt res0.T p0.1) (a0 : ∀ l : Fin n0, ContinuousAt (fun θ => res0.A θ l) p0.1)
    (r1 : ContinuousAt res1.R p0.2.1) (t1 : ContinuousAt res1.T p0.2.1) (a1 : ∀ l : Fin n1, ContinuousAt (fun θ => res1.A θ l) p0.2.1)
    (rb : ContinuousAt resb.R p0.2.2) (tb : ContinuousAt resb.T p0.2.2) (ab : ∀ l : Fin n0, ContinuousAt (fun θ => resb.A θ l) p0.2.2)
    (hround : (slab3 n0 n1 a θB res0 res1 resb p0).round < 1) {ε : ℝ} (hε : 0 < ε) : ∀ᶠ p in 𝓝 p0,
    let s := slab3 n0 n1 a θB res0 res1 resb p
    let s0 := slab3 n0 n1 a θB res0 res1 resb p0
    |s.R s.trips - s0.R s0.trips| < ε ∧ |s.T s.trips - s0.T s0.trips| < ε ∧ |s.bulk s.trips - s0.bulk s0.trips| < ε ∧
    (∀ l, |s.abs0 s.trips l - s0.abs0 s0.trips l| < ε) ∧ (∀ l, |s.abs1 s.trips l - s0.abs1 s0.trips l| < ε) := by
  let F := fun p : ℝ × ℝ × ℝ => slab3 n0 n1 a θB res0 res1 resb p
  have cf : ∀ {f : ℝ → ℝ}, ContinuousAt f p0.1 → ContinuousAt (fun p : ℝ × ℝ × ℝ => f p.1) p0 := fun h => ContinuousAt.comp (f := Prod.fst) h continuousAt_fst
  have cs : ∀ {f : ℝ → ℝ}, ContinuousAt f p0.2.1 → ContinuousAt (fun p : ℝ × ℝ × ℝ => f p.2.1) p0 := fun h =>
    ContinuousAt.comp (f := fun p : ℝ × ℝ × ℝ => p.2.1) h (continuous_fst.comp continuous_snd).continuousAt
  have ct : ∀ {f : ℝ → ℝ}, ContinuousAt f p0.2.2 → ContinuousAt (fun p : ℝ × ℝ × ℝ => f p.2.2) p0 := fun h =>
    ContinuousAt.comp (f := fun p : ℝ × ℝ × ℝ => p.2.2) h (continuous_snd.comp continuous_snd).continuousAt
  have c1 : ContinuousAt (fun p => (F p).front.refl) p0 := cf r0
  have c2 : ContinuousAt (fun p => (F p).front.trns) p0 := cf t0
  have c3 : ∀ l, ContinuousAt (fun p => (F p).front.abs l) p0 := fun l => cf (a0 l)
  have c4 : ContinuousAt (fun p => (F p).rear.refl) p0 := cs r1
  have c5 : ContinuousAt (fun p => (F p).rear.trns) p0 := cs t1
  have c6 : ∀ l, ContinuousAt (fun p => (F p).rear.abs l) p0 := fun l => cs (a1 l)
  have c7 : ContinuousAt (fun p => (F p).back.refl) p0 := ct rb
  have c8 : ContinuousAt (fun p => (F p).back.trns) p0 := ct tb
  have c9 : ∀ l, ContinuousAt (fun p => (F p).back.abs l) p0 := fun l => ct (ab l)
  have c10 : ContinuousAt (fun p => (F p).pass) p0 := continuousAt_const
  have cround : ContinuousAt (fun p => (F p).round) p0 := ((c10.pow 2).mul c4).mul c7
  have ctrips : ContinuousAt (fun p => (F p).trips) p0 := continuousAt_const.div (continuousAt_const.sub cround) (by
    have : (F p0).round < 1 := hround
    exact (sub_pos.mpr this).ne')
  have near : ∀ {f : ℝ × ℝ × ℝ → ℝ}, ContinuousAt f p0 → ∀ᶠ p in 𝓝 p0, |f p - f p0| < ε := by
    intro f hf
    have := Metric.tendsto_nhds.mp hf ε hε
    simpa only [Real.dist_eq] using this
  have d1 := near (f := fun p => (F p).R (F p).trips) (c1.add ((((c2.mul (c10.pow 2)).mul c4).mul c8).mul ctrips))
  have d2 := near (f := fun p => (F p).T (F p).trips) (((c2.mul c10).mul c5).mul ctrips)
  have d3 := near (f := fun p => (F p).bulk (F p).trips) ((c2.mul ((continuousAt_const.sub c10).add ((c10.mul c4).mul (continuousAt_const.sub c10)))).mul ctrips)
  have d4 : ∀ᶠ p in 𝓝 p0, ∀ l, |(F p).abs0 (F p).trips l - (F p0).abs0 (F p0).trips l| < ε := eventually_all.mpr fun l =>
    near (f := fun p => (F p).abs0 (F p).trips l) ((c3 l).add ((((c2.mul (c10.pow 2)).mul c4).mul (c9 l)).mul ctrips))
  have d5 : ∀ᶠ p in 𝓝 p0, ∀ l, |(F p).abs1 (F p).trips l - (F p0).abs1 (F p0).trips l| < ε := eventually_all.mpr fun l =>
    near (f := fun p => (F p).abs1 (F p).trips l) (((c2.mul c10).mul (c6 l)).mul ctrips)
  filter_upwards [d1, d2, d3, d4, d5] with p e1 e2 e3 e4 e5
  exact ⟨e1, e2, e3, e4, e5⟩

/-- **C159, coatings.** The same for surfaces with coatings: the matrix method uses the results of the transfer-matrix solver for them, ray tracing uses lookup tables with these results at tabulated angles.  With enough polar bins and a fine enough table, enough surfaces per ray and small thresholds,
reflectance, transmittance, absorptance of the slab and of each layer of the two coatings agree as closely as wanted.  Assumed of the solver: its results are continuous functions of the angle at the angles of the light outside and inside, nothing is transmitted beyond the critical angle,
and the rear surface is not met exactly at its critical angle. -/
theorem C159_coated (thIn : ℝ) (hθ0 : 0 ≤ thIn) (hθ1 : thIn < Real.pi / 2) (inN bulkN outN a : ℝ) (hin : 0 < inN) (hbulk : 0 < bulkN) (hout : 0 < outN) (ha : 0 < a)
    (hrefr : inN * Real.sin thIn < bulkN) (hcrit : inN * Real.sin thIn ≠ outN) {n0 n1 : ℕ} (res0 res1 resb : TmmRes)
    (tir1 : ∀ θ, 1 < bulkN / outN * Real.sin θ → res1.T θ = 0)
    (r0 : ContinuousAt res0.R thIn) (t0 : ContinuousAt res0.T thIn) (a0 : ∀ l : Fin n0, ContinuousAt (fun θ => res0.A θ l) thIn)
    (r1 : ContinuousAt res1.R (Real.arcsin (inN / bulkN * Real.sin thIn))) (t1 : ContinuousAt res1.T (Real.arcsin (inN / bulkN * Real.sin thIn)))
    (a1 : ∀ l : Fin n1, ContinuousAt (fun θ => res1.A θ l) (Real.arcsin (inN / bulkN * Real.sin thIn)))
    (rb : ContinuousAt resb.R (Real.arcsin (inN / bulkN * Real.sin thIn))) (tb : ContinuousAt resb.T (Real.arcsin (inN / bulkN * Real.sin thIn)))
    (ab : ∀ l : Fin n0, ContinuousAt (fun θ => resb.A θ l) (Real.arcsin (inN / bulkN * Real.sin thIn)))
    (hR1 : 0 ≤ res1.R (Real.arcsin (inN / bulkN * Real.sin thIn)) ∧ res1.R (Real.arcsin (inN / bulkN * Real.sin thIn)) ≤ 1)
    (hRb : 0 ≤ resb.R (Real.arcsin (inN / bulkN * Real.sin thIn)) ∧ resb.R (Real.arcsin (inN / bulkN * Real.sin thIn)) ≤ 1) (ε : ℝ) (hε : 0 < ε) :
    ∃ δ > 0, ∃ n₀ : ℕ,
      -- ray tracing
      ∀ {c : RTStack} {cell0 cell1 : Cell} {tab0 tab1 : Table}, RTSlab c cell0 cell1 (some tab0) (some tab1) inN bulkN outN → SumToOne (some tab0) → SumToOne (some tab1) →
        TableOf δ tab0 1 res0 n0 → TableOf δ tab1 1 res1 n1 → TableOf δ tab0 (-1) resb n0 → c.S.alphas.getD 1 0 * c.S.widths.getD 1 0 = a → 0 < c.S.thresh →
      ∀ {h : ℝ}, cell0.zcov ≤ h → h + 1e-8 ≠ 0 → ∀ (φ : ℝ) {N : ℕ}, 0 < N → ∀ L : Fin N → StackLaunch, (∀ k, AllFlat cell0 cell1 (L k).V) → ∀ {nu : ℕ}, 3 ≤ nu →
      ∃ K₀ : ℕ, ∀ K ≥ K₀,
      -- matrix method
      ∀ n ≥ n₀, ∀ (sp : Spacing) (cz : ℝ), 0 < cz → ∀ m : ℕ, ((∃ q : ℕ, 0 < q ∧ m = 2 * q) ∨ m = 1) → (1e-10 : ℝ) ≤ 2 * Real.pi / m →
      ∀ phiIn : PhiIn, (∀ p, phiIn = .val p → 0 ≤ p ∧ p ≠ 2 * Real.pi / m) →
      ∀ (inp : RatInput ω (Fin n0) (Fin n1) (makeAngleVector n (2 * Real.pi / m) cz sp).half) (w : ω), inp.thresh ≤ ε / 6 → inp.α w * inp.thick = a →
        (∀ w, 0 ≤ inp.α w) → 0 ≤ inp.thick → (∀ w, StoredOk (inp.front0 w)) → (∀ w, StoredOk (inp.front1 w)) → (∀ w, StoredOk (inp.rear0 w)) →
        StoredByTmm n cz m sp true (inN / bulkN) res0 (inp.front0 w) → StoredByTmm n cz m sp true (bulkN / outN) res1 (inp.front1 w) → StoredByTmm n cz m sp false (bulkN / inN) resb (inp.rear0 w) →
        ∀ (S : Sys ω (Fin (makeAngleVector n (2 * Real.pi / m) cz sp).half) (Fin n0) (Fin n1)), assemble n (2 * Real.pi / m) cz sp thIn phiIn inp = some S →
        ∀ (o : ProfOpts ω (Fin (makeAngleVector n (2 * Real.pi / m) cz sp).half)) (k : ℕ) (t : LoopState ω (Fin (makeAngleVector n (2 * Real.pi / m) cz sp).half) (Fin n0) (Fin n1)), (S.Exits k t ∨ S.ExitsProf o k t) →
        let rays := fun U : Fin N → Fin K → Fin nu → ℝ => List.ofFn fun k => recorded 0 1 (traceWith c K (L k).V (U k) (c.start (L k).x (L k).y 0 1 (rA0 h thIn φ)))
        let P : Measure (Fin N → Fin K → Fin nu → ℝ) := Measure.pi fun _ => uniform2 K nu
        |∫ U, resR (rays U) ∂P - t.R w| < ε + c.S.thresh ∧ |∫ U, resT (rays U) ∂P - t.T w| < ε + c.S.thresh ∧ |∫ U, resA (rays U) 1 ∂P - t.Abulk w| < ε + c.S.thresh ∧
        (∀ l : Fin n0, |∫ U, resAint (rays U) 0 l ∂P - (t.a0.map fun v => v w l).sum| < ε + c.S.thresh) ∧ ∀ l : Fin n1, |∫ U, resAint (rays U) 1 l ∂P - (t.a1.map fun v => v w l).sum| < ε + c.S.thresh := by
  have hpi := Real.pi_pos
  have hsin0 : 0 ≤ Real.sin thIn := Real.sin_nonneg_of_nonneg_of_le_pi hθ0 (by linarith)
  have hsin1 : Real.sin thIn < 1 := by rw [← Real.sin_pi_div_two]; exact Real.sin_lt_sin_of_lt_of_le_pi_div_two (by linarith) le_rfl hθ1
  have hq : inN / bulkN * Real.sin thIn < 1 := by rw [div_mul_eq_mul_div, div_lt_one hbulk]; exact hrefr
  have hq0 : 0 ≤ inN / bulkN * Real.sin thIn := by positivity
  set θB := Real.arcsin (inN / bulkN * Real.sin thIn) with hθB
  have hB0 : 0 ≤ θB := Real.arcsin_nonneg.mpr hq0
  have hB1 : θB < Real.pi / 2 := Real.arcsin_lt_pi_div_two.mpr hq
  have hsB : Real.sin θB = inN / bulkN * Real.sin thIn := Real.sin_arcsin (by linarith) hq.le
  have hcB : 0 < Real.cos θB := Real.cos_pos_of_mem_Ioo ⟨by linarith, hB1⟩
  have hsB0 : 0 ≤ Real.sin θB := by rw [hsB]; exact hq0
  have e2 : bulkN / inN * Real.sin θB = Real.sin thIn := by rw [hsB]; field_simp
  have hne1 : bulkN / outN * Real.sin θB ≠ 1 := by
    rw [hsB, show bulkN / outN * (inN / bulkN * Real.sin thIn) = inN * Real.sin thIn / outN by field_simp, Ne, div_eq_one_iff_eq hout.ne']; exact hcrit
  have hcutb : (if bulkN / inN * Real.sin θB < 1 then resb.T θB else 0) = resb.T θB := if_pos (by rw [e2]; exact hsin1)
  have hcut1 : (if bulkN / outN * Real.sin θB < 1 then res1.T θB else 0) = res1.T θB := by
    rcases lt_or_gt_of_ne hne1 with h | h
    · exact if_pos h
    · rw [if_neg (not_lt.mpr h.le), tir1 _ h]
  have hsame : slabAt n0 n1 inN bulkN outN a res0 res1 resb thIn θB = slab3 n0 n1 a θB res0 res1 resb (thIn, θB, θB) := by
    unfold slabAt slab3; rw [hcut1, hcutb]
  have hround : (slab3 n0 n1 a θB res0 res1 resb (thIn, θB, θB)).round < 1 := by
    have hp : Real.exp (-a / |Real.cos θB|) < 1 := by
      rw [Real.exp_lt_one_iff, abs_of_pos hcB]; exact div_neg_of_neg_of_pos (by linarith) hcB
    have hp2 : Real.exp (-a / |Real.cos θB|) ^ 2 < 1 := pow_lt_one₀ (Real.exp_pos _).le hp two_ne_zero
    have h3 : res1.R θB * resb.R θB ≤ 1 := (mul_le_mul_of_nonneg_right hR1.2 hRb.1).trans (by rw [one_mul]; exact hRb.2)
    calc (slab3 n0 n1 a θB res0 res1 resb (thIn, θB, θB)).round = Real.exp (-a / |Real.cos θB|) ^ 2 * (res1.R θB * resb.R θB) := by simp only [Slab.round, slab3]; ring
      _ ≤ Real.exp (-a / |Real.cos θB|) ^ 2 * 1 := mul_le_mul_of_nonneg_left h3 (sq_nonneg _)
      _ < 1 := by rw [mul_one]; exact hp2
  have hε3 : 0 < ε / 3 := by positivity
  have near := slab3_near (p0 := (thIn, θB, θB)) r0 t0 a0 r1 t1 a1 rb tb ab hround hε3
  have nearT : ∀ᶠ p : ℝ × ℝ × ℝ in 𝓝 (thIn, θB, θB), 1 < bulkN / outN * Real.sin θB → 1 < bulkN / outN * Real.sin p.2.1 := by
    by_cases h : 1 < bulkN / outN * Real.sin θB
    · have hc : Continuous fun p : ℝ × ℝ × ℝ => bulkN / outN * Real.sin p.2.1 := continuous_const.mul (Real.continuous_sin.comp (continuous_fst.comp continuous_snd))
      filter_upwards [continuousAt_const.eventually_lt hc.continuousAt h] with p hp _
      exact hp
    · exact Eventually.of_forall fun p hp => absurd hp h
  obtain ⟨δ, hδ, hall⟩ := Metric.eventually_nhds_iff.mp (near.and nearT)
  obtain ⟨n₀, hn₀⟩ := C150_converges (ω := ω) thIn hθ0 hθ1 inN bulkN outN a hin hbulk hout hrefr hcrit res0 res1 resb
    (fun θ hθ => by rw [tir1 θ hθ]; norm_num) r0 t0 a0 r1 t1 a1 rb tb ab (by rw [← hθB, hsame]; exact hround) (ε / 3) hε3
  rw [← hθB, hsame] at hn₀
  refine ⟨δ / 2, by positivity, n₀, ?_⟩
  intro c cell0 cell1 tab0 tab1 hs ht0 ht1 T0 T1 Tb hα hthresh h hh hh0 φ N hN L hL nu hnu
  obtain ⟨u0, g0, f0R, f0T, f0A⟩ := T0 thIn hθ0 hθ1.le
  obtain ⟨u1, g1, f1R, f1T, f1A⟩ := T1 θB hB0 hB1.le
  obtain ⟨ub, gb, fbR, fbT, fbA⟩ := Tb θB hB0 hB1.le
  obtain ⟨⟨q1, q2, q3, q4, q5⟩, qT⟩ := hall (y := (u0, u1, ub)) (by
    rw [Prod.dist_eq, Prod.dist_eq, Real.dist_eq, Real.dist_eq, Real.dist_eq]
    refine max_lt (by simp only; linarith) (max_lt (by simp only; linarith) (by simp only; linarith)))
  have hrf := refrOf_real inN bulkN hin hbulk hsin0 hq true
  have href : refrOf (some tab0).isSome inN bulkN thIn = θB := hrf.1
  set B := slabOf c (some tab0) (some tab1) inN bulkN outN thIn with hB
  set A := slab3 n0 n1 a θB res0 res1 resb (u0, u1, ub) with hA
  have p1 : B.pass = A.pass := by simp only [hB, hA, slabOf, slab3, href, hα, abs_of_pos hcB, neg_div]
  have p2 : B.front.refl = A.front.refl := f0R
  have p3 : B.front.trns = A.front.trns := f0T
  have p4 : B.rear.refl = A.rear.refl := by simp only [hB, hA, slabOf, slab3, href, faceOf]; exact f1R
  have p5 : B.rear.trns = A.rear.trns := by simp only [hB, hA, slabOf, slab3, href, faceOf]; exact f1T
  have p6 : B.back.refl = A.back.refl := by simp only [hB, hA, slabOf, slab3, href, faceOf]; exact fbR
  have p7 : B.back.trns = A.back.trns := by simp only [hB, hA, slabOf, slab3, href, faceOf]; exact fbT
  have p8 : ∀ l : Fin n0, B.front.abs l = A.front.abs l := fun l => f0A l l.2
  have p9 : ∀ l : Fin n1, B.rear.abs l = A.rear.abs l := fun l => by simp only [hB, hA, slabOf, slab3, href, faceOf]; exact f1A l l.2
  have p10 : ∀ l : Fin n0, B.back.abs l = A.back.abs l := fun l => by simp only [hB, hA, slabOf, slab3, href, faceOf]; exact fbA l l.2
  have ptrips : B.trips = A.trips := by simp only [Slab.trips, Slab.round, p1, p4, p6]
  have pR : B.R B.trips = A.R A.trips := by simp only [ptrips, Slab.R, p1, p2, p3, p4, p7]
  have pT : B.T B.trips = A.T A.trips := by simp only [ptrips, Slab.T, p1, p3, p5]
  have pA : B.bulk B.trips = A.bulk A.trips := by simp only [ptrips, Slab.bulk, p1, p3, p4]
  have p0 : ∀ l : Fin n0, B.abs0 B.trips l = A.abs0 A.trips l := fun l => by simp only [ptrips, Slab.abs0, p1, p3, p4, p8, p10]
  have p1' : ∀ l : Fin n1, B.abs1 B.trips l = A.abs1 A.trips l := fun l => by simp only [ptrips, Slab.abs1, p1, p3, p9]
  have hpass : B.pass < 1 := by
    rw [p1]; simp only [hA, slab3]
    rw [Real.exp_lt_one_iff, abs_of_pos hcB]; exact div_neg_of_neg_of_pos (by linarith) hcB
  have s1 : sinRefr (some tab0).isSome inN bulkN thIn < 1 := by
    have : sinRefr (some tab0).isSome inN bulkN thIn = inN / bulkN * Real.sin thIn := hrf.2
    rw [this]; exact hq
  have s2 : B.rear.trns = 0 ∨ sinRefr (some tab1).isSome bulkN outN (refrOf (some tab0).isSome inN bulkN thIn) < 1 := by
    rw [href]
    rcases lt_or_gt_of_ne hne1 with hlt | hgt
    · right
      have : sinRefr (some tab1).isSome bulkN outN θB = bulkN / outN * Real.sin θB := (refrOf_real bulkN outN hbulk hout hsB0 hlt true).2
      rw [this]; exact hlt
    · left
      rw [p5]; exact tir1 _ (qT hgt)
  have s3 : B.back.trns = 0 ∨ sinRefr (some tab0).isSome bulkN inN (refrOf (some tab0).isSome inN bulkN thIn) < 1 := by
    right
    rw [href]
    have : sinRefr (some tab0).isSome bulkN inN θB = bulkN / inN * Real.sin θB := (refrOf_real bulkN inN hbulk hin hsB0 (by rw [e2]; exact hsin1) true).2
    rw [this, e2]; exact hsin1
  obtain ⟨K₀, hK₀⟩ := C151_converges hs ht0 ht1 hθ0 hθ1 s1 s2 s3 hh hh0 φ hN L hL hnu (Or.inl ⟨hpass, hthresh⟩) hε3
  refine ⟨K₀, fun K hK n hn sp cz hcz m hm hm' phiIn hphi inp w ht hα' hα0 hth k0 k1 k2 w0 w1 w2 S hS o k t hex => ?_⟩
  intro rays P
  obtain ⟨x1, x2, x3, x4, x5⟩ := hn₀ n hn sp cz hcz m hm hm' phiIn hphi inp w (by linarith) hα' hα0 hth k0 k1 k2 w0 w1 w2 S hS o k t hex
  obtain ⟨y1, y2, y3, y4, y5⟩ := hK₀ K hK
  have fin : ∀ {x y z z' : ℝ}, JustBelow x z' (c.S.thresh + ε / 3) → |z' - z| < ε / 3 → |y - z| < ε / 3 → |x - y| < ε + c.S.thresh := by
    intro x y z z' h1 h2 h3
    have h4 := abs_lt.mp h2
    have h5 := abs_lt.mp h3
    rw [abs_lt]
    constructor <;> linarith [h1.1, h1.2, h4.1, h4.2, h5.1, h5.2]
  refine ⟨fin y1 ?_ x1, fin y2 ?_ x2, fin y3 ?_ x3, fun l => fin (y4 l) ?_ (x4 l), fun l => fin (y5 l) ?_ (x5 l)⟩
  · rw [pR]; exact q1
  · rw [pT]; exact q2
  · rw [pA]; exact q3
  · rw [p0]; exact q4 l
  · rw [p1']; exact q5 l

/-! ## A plate of glass to which C159 applies -/

/-- Results of a solver for a bare surface between transparent media. -/
noncomputable def bareRes (pol : Pol) (a b : ℝ) : TmmRes :=
  ⟨fun θ => if b < a * Real.sin θ then 1 else textbookR a b θ (Real.arcsin (a / b * Real.sin θ)) pol, fun θ => 1 - if b < a * Real.sin θ then 1 else textbookR a b θ (Real.arcsin (a / b * Real.sin θ)) pol, fun _ _ => 0⟩

theorem bareRes_fresnel (pol : Pol) {a b : ℝ} (hb : 0 < b) : FresnelRes pol a b (bareRes pol a b) := by
  have key : ∀ θ θ' : ℝ, |θ'| < Real.pi / 2 → a * Real.sin θ = b * Real.sin θ' → ¬ b < a * Real.sin θ ∧ Real.arcsin (a / b * Real.sin θ) = θ' := by
    intro θ θ' h e
    refine ⟨?_, ?_⟩
    · rw [e, not_lt]; exact mul_le_of_le_one_right hb.le (Real.sin_le_one _)
    · rw [show a / b * Real.sin θ = Real.sin θ' by rw [div_mul_eq_mul_div, e]; field_simp]
      exact Real.arcsin_sin (by linarith [(abs_lt.mp h).1]) (abs_lt.mp h).2.le
  refine ⟨fun θ θ' _ h e => ?_, fun θ θ' _ h e => ?_, fun θ h => ?_⟩
  · simp only [bareRes, if_neg (key θ θ' h e).1, (key θ θ' h e).2]
  · simp only [bareRes, if_neg (key θ θ' h e).1, (key θ θ' h e).2]
  · simp only [bareRes, if_pos h, sub_self, and_self]

theorem textbookR_le_one' {n1 n2 θ θ' : ℝ} (h1 : 0 < n1) (h2 : 0 < n2) (hc : 0 < Real.cos θ) (hc' : 0 ≤ Real.cos θ') (pol : Pol) : 0 ≤ textbookR n1 n2 θ θ' pol ∧ textbookR n1 n2 θ θ' pol ≤ 1 := by
  have key : ∀ a b : ℝ, 0 ≤ a → 0 ≤ b → 0 < a + b → 0 ≤ ((a - b) / (a + b)) ^ 2 ∧ ((a - b) / (a + b)) ^ 2 ≤ 1 := by
    intro a b ha hb hab
    refine ⟨sq_nonneg _, ?_⟩
    rw [div_pow, div_le_one (by positivity)]
    nlinarith [mul_nonneg ha hb]
  have k1 := key (n1 * Real.cos θ) (n2 * Real.cos θ') (by positivity) (by positivity) (by positivity)
  have k2 := key (n1 * Real.cos θ') (n2 * Real.cos θ) (by positivity) (by positivity) (by positivity)
  cases pol <;> simp only [textbookR]
  · exact k1
  · exact k2
  · exact ⟨by linarith [k1.1, k2.1], by linarith [k1.2, k2.2]⟩

theorem bareRes_ok (pol : Pol) {a b : ℝ} (ha : 0 < a) (hb : 0 < b) {θ : ℝ} (h0 : 0 < θ) (h1 : θ < Real.pi / 2) :
    0 ≤ (bareRes pol a b).R θ ∧ 0 ≤ (bareRes pol a b).T θ ∧ (bareRes pol a b).R θ + (bareRes pol a b).T θ = 1 := by
  have hsum : (bareRes pol a b).R θ + (bareRes pol a b).T θ = 1 := by simp only [bareRes]; ring
  have hr : 0 ≤ (bareRes pol a b).R θ ∧ (bareRes pol a b).R θ ≤ 1 := by
    simp only [bareRes]
    by_cases h : b < a * Real.sin θ
    · rw [if_pos h]; exact ⟨zero_le_one, le_rfl⟩
    · rw [if_neg h]
      exact textbookR_le_one' ha hb (Real.cos_pos_of_mem_Ioo ⟨by linarith, h1⟩) (Real.cos_arcsin_nonneg _) pol
  exact ⟨hr.1, by linarith [hr.2], hsum⟩

/-- The matrices `TMM` stores, if no direction of the grid is exactly at the critical angle. -/
theorem tmm_stored (n : ℕ) (hn : 0 < n) (c : ℝ) (hc : 0 < c) (m : ℕ) (hm : 0 < m) (sp : Spacing) (front : Bool) (hs : (1e-10 : ℝ) ≤ 2 * Real.pi / m) {nL : ℕ} {ratio : ℝ} (hratio : 0 < ratio) (res : TmmRes)
    (hok : ∀ θ, 0 < θ → θ < Real.pi / 2 → 0 ≤ res.R θ ∧ 0 ≤ res.T θ ∧ (∀ l, 0 ≤ res.A θ l) ∧ res.R θ + res.T θ + ((List.range nL).map (res.A θ)).sum = 1)
    (htir : ∀ θ, 1 < ratio * Real.sin θ → res.T θ = 0) (hcrit : ∀ i < 2 * n, ratio * Real.sin (polarMid n sp i) ≠ 1) :
    ∃ M : Matrix (Fin ((makeAngleVector n (2 * Real.pi / m) c sp).half + (makeAngleVector n (2 * Real.pi / m) c sp).half)) (Fin (makeAngleVector n (2 * Real.pi / m) c sp).half) ℝ ×
      Matrix (Fin nL) (Fin (makeAngleVector n (2 * Real.pi / m) c sp).half) ℝ, StoredByTmm n c m sp front ratio res M ∧ StoredOk M := by
  have hsin : ∀ row ∈ (makeAngleVector n (2 * Real.pi / m) c sp).angleVector, ratio * Real.sin row.theta ≠ 1 := by
    intro row hrow
    obtain ⟨r, hr⟩ := List.mem_iff_getElem?.mp hrow
    obtain ⟨i, k, hi, hk, -, rfl⟩ := row_decomp n hn _ c sp hr
    exact hcrit i hi
  have hhalf : (makeAngleVector n (2 * Real.pi / m) c sp).half = ringStart n c n := half_eq n hn c sp _
  have hcol : ∀ j < (makeAngleVector n (2 * Real.pi / m) c sp).half, ∃ col abs, tmmColumn (makeAngleVector n (2 * Real.pi / m) c sp) (2 * Real.pi / m) front ratio res j = some col ∧
      tmmAbsColumn (makeAngleVector n (2 * Real.pi / m) c sp) front res j = some abs := by
    intro j hj
    obtain ⟨row, hrow, -⟩ := polar_row n hn (2 * Real.pi / m) c sp (r := (if front then 0 else ringStart n c n) + j) (by rw [← hhalf]; split_ifs <;> omega)
    have hcr : ratio * Real.sin (seen front row.theta) ≠ 1 := by
      have := hsin row (List.mem_of_getElem? hrow)
      unfold seen
      split_ifs
      · exact this
      · rw [Real.sin_pi_sub]; exact this
    obtain ⟨col, abs, h1, h2, -⟩ := C51_energy n hn c hc m hm sp front hs ratio hratio res j (by omega) row hrow hcr 0
    exact ⟨col, abs, h1, h2⟩
  let col : ℕ → ℕ → ℝ := fun r j => (tmmColumn (makeAngleVector n (2 * Real.pi / m) c sp) (2 * Real.pi / m) front ratio res j).getD (fun _ => 0) r
  let abs : ℕ → ℕ → ℝ := fun l j => (tmmAbsColumn (makeAngleVector n (2 * Real.pi / m) c sp) front res j).getD (fun _ => 0) l
  refine ⟨(fun r j => col r j, fun l j => abs l j), fun j => ?_, C123_stored n hn c hc m hm sp front hs nL _ ?_⟩
  · obtain ⟨d, e, h1, h2⟩ := hcol j j.2
    refine ⟨⟨d, h1, fun r => ?_⟩, ⟨e, h2, fun l => ?_⟩⟩
    · simp only [col, h1, Option.getD_some]
    · simp only [abs, h2, Option.getD_some]
  · refine .tmm nL ratio hratio res hok (fun θ h => Or.inl (htir θ h)) hsin col abs (fun j hj => ?_) (fun j hj => ?_)
    · obtain ⟨d, e, h1, -⟩ := hcol j hj
      simp only [col, h1, Option.getD_some]
    · obtain ⟨d, e, -, h2⟩ := hcol j hj
      simp only [abs, h2, Option.getD_some]

/-- The matrices `TMM` stores for a bare surface (no layers), if no direction of the grid is exactly at the critical angle. -/
theorem bare_stored (n : ℕ) (hn : 0 < n) (c : ℝ) (hc : 0 < c) (m : ℕ) (hm : 0 < m) (sp : Spacing) (front : Bool) (hs : (1e-10 : ℝ) ≤ 2 * Real.pi / m) (pol : Pol) {a b : ℝ} (ha : 0 < a) (hb : 0 < b)
    (hcrit : ∀ i < 2 * n, a / b * Real.sin (polarMid n sp i) ≠ 1) :
    ∃ M : Matrix (Fin ((makeAngleVector n (2 * Real.pi / m) c sp).half + (makeAngleVector n (2 * Real.pi / m) c sp).half)) (Fin (makeAngleVector n (2 * Real.pi / m) c sp).half) ℝ ×
      Matrix (Fin 0) (Fin (makeAngleVector n (2 * Real.pi / m) c sp).half) ℝ, StoredByTmm n c m sp front (a / b) (bareRes pol a b) M ∧ StoredOk M := by
  refine tmm_stored n hn c hc m hm sp front hs (div_pos ha hb) _ (fun θ h0 h1 => ?_) (fun θ h => ?_) hcrit
  · obtain ⟨x, y, z⟩ := bareRes_ok pol ha hb h0 h1
    exact ⟨x, y, fun _ => le_rfl, by simpa using z⟩
  · rw [div_mul_eq_mul_div, lt_div_iff₀ hb, one_mul] at h
    exact ((bareRes_fresnel pol hb).total θ h).2

/-- On a grid with linear spacing no direction is exactly at the critical angle of a surface between media with refractive indices 2 and 1, or 1 and 2. -/
theorem glass_not_critical (n : ℕ) (hn : 0 < n) : ∀ i < 2 * n, (1 : ℝ) / 2 * Real.sin (polarMid n .linear i) ≠ 1 ∧ (2 : ℝ) / 1 * Real.sin (polarMid n .linear i) ≠ 1 := by
  intro i _
  have hpi := Real.pi_pos
  have hn' : (0 : ℝ) < n := by exact_mod_cast hn
  refine ⟨fun h => by linarith [Real.sin_le_one (polarMid n .linear i)], fun h => ?_⟩
  have e : Real.sin (polarMid n .linear i) = Real.sin (Real.pi / 6) := by rw [Real.sin_pi_div_six]; linarith
  have hm : polarMid n .linear i = (2 * i + 1) * Real.pi / (4 * n) := by
    simp only [polarMid, polarEdge]; push_cast; field_simp; ring
  rw [hm] at e
  obtain ⟨k, hk | hk⟩ := Real.sin_eq_sin_iff.mp e
  · have h2 : (2 * n : ℝ) = 24 * n * k + 3 * (2 * i + 1) := by
      field_simp at hk; nlinarith [hk]
    have h3 : (2 * n : ℤ) = 24 * n * k + 3 * (2 * i + 1) := by exact_mod_cast h2
    have : (2 * n : ℤ) = 2 * (12 * (n * k)) + 3 * (2 * i + 1) := by linarith
    omega
  · have h2 : (2 * n : ℝ) = 12 * n * (2 * k + 1) - 3 * (2 * i + 1) := by
      field_simp at hk; nlinarith [hk]
    have h3 : (2 * n : ℤ) = 12 * n * (2 * k + 1) - 3 * (2 * i + 1) := by exact_mod_cast h2
    have : (2 * n : ℤ) = 2 * (6 * (n * (2 * k + 1))) - 3 * (2 * i + 1) := by linarith
    omega

/-- A plate of glass (refractive index 2) in air, at every angle of incidence: for every `ε` there are calculations with the two methods that meet all hypotheses of C159, and their reflectances differ by less than `ε` and the threshold of ray tracing. -/
example (θ : ℝ) (hθ0 : 0 ≤ θ) (hθ1 : θ < Real.pi / 2) (ε : ℝ) (hε : 0 < ε) :
    ∃ (c : RTStack) (n K k : ℕ) (inp : RatInput Unit (Fin 0) (Fin 0) (makeAngleVector n (2 * Real.pi / (2 : ℕ)) 1 .linear).half) (S : _) (t : _),
      assemble n (2 * Real.pi / (2 : ℕ)) 1 .linear θ (.val 0) inp = some S ∧ S.Exits k t ∧ c.nks = [1, 2, 1] ∧
      |∫ U, resR (List.ofFn fun k => recorded 0 1 (traceWith c K (fun _ => ⟨0, 0, fun s _ => ⟨planarTris 10 (if s = 0 then 0 else -2), 0, 0, 0, 0, 0⟩⟩) (U k) (c.start 1 1 0 1 (rA0 5 θ 0))))
        ∂(Measure.pi fun _ : Fin 1 => uniform2 K 3) - t.R ()| < ε + c.S.thresh := by
  choose f hf using exists_isArcsin
  have hpi := Real.pi_gt_three
  let c : RTStack := { exRT with asin := f }
  obtain ⟨hsl, -, hflat, -⟩ := glass_slab θ hθ0 hθ1
  have hs1 : Real.sin θ < 1 := by
    have := Real.sin_lt_sin_of_lt_of_le_pi_div_two (by linarith [Real.pi_pos]) le_rfl hθ1
    rwa [Real.sin_pi_div_two] at this
  have hslab : RTSlab c ⟨10, 10, 0, 0, 0⟩ ⟨10, 10, -2, -2, -2⟩ none none ((1 : ℝ) : ℂ) ((2 : ℝ) : ℂ) ((1 : ℝ) : ℂ) := by
    have e1 : ((1 : ℝ) : ℂ) = 1 := Complex.ofReal_one
    have e2 : ((2 : ℝ) : ℂ) = 2 := Complex.ofReal_ofNat 2
    rw [e1, e2]
    exact ⟨hsl.periodic, hsl.three, hsl.cells, hsl.tabs, hsl.nks, hsl.size0, hsl.size1, hsl.apart, hsl.re, hsl.width, hsl.alpha, hsl.thresh⟩
  obtain ⟨n₀, K₀, hmain⟩ := C159_agree (ω := Unit) θ hθ0 hθ1 1 2 1 2 one_pos two_pos one_pos two_pos (by linarith) (by rw [one_mul]; exact hs1.ne)
    hslab hf (by norm_num [c, exRT, exStack]) (by norm_num [c, exRT, exStack]) (h := 5) (by norm_num) (by norm_num) 0 (N := 1) Nat.one_pos (fun _ => ⟨1, 1, _⟩) (fun _ => hflat) (nu := 3) le_rfl
    (bareRes .u 1 2) (bareRes .u 2 1) (bareRes .u 2 1) (bareRes_fresnel _ two_pos) (bareRes_fresnel _ one_pos) (bareRes_fresnel _ one_pos) ε hε
  obtain ⟨n, hn0, hnn⟩ : ∃ n, 0 < n ∧ n₀ ≤ n := ⟨n₀ + 1, Nat.succ_pos _, Nat.le_succ _⟩
  have hs : (1e-10 : ℝ) ≤ 2 * Real.pi / (2 : ℕ) := by norm_num; linarith
  have hcr := glass_not_critical n hn0
  obtain ⟨M0, a0, b0⟩ := bare_stored n hn0 1 one_pos 2 two_pos .linear true hs .u one_pos two_pos (fun i hi => (hcr i hi).1)
  obtain ⟨M1, a1, b1⟩ := bare_stored n hn0 1 one_pos 2 two_pos .linear true hs .u two_pos one_pos (fun i hi => (hcr i hi).2)
  obtain ⟨M2, a2, b2⟩ := bare_stored n hn0 1 one_pos 2 two_pos .linear false hs .u two_pos one_pos (fun i hi => (hcr i hi).2)
  let inp : RatInput Unit (Fin 0) (Fin 0) (makeAngleVector n (2 * Real.pi / (2 : ℕ)) 1 .linear).half :=
    { α := fun _ => 1, thick := 2, thresh := ε / 4, front0 := fun _ => M0, front1 := fun _ => M1, rear0 := fun _ => M2 }
  obtain ⟨S, hS, hex⟩ := C17_end_to_end n hn0 (2 * Real.pi / (2 : ℕ)) (Or.inl ⟨1, one_pos, by norm_num⟩) 1 one_pos .linear θ hθ0 hθ1 0 le_rfl (by positivity) inp 1 one_pos (fun _ => le_rfl) (by norm_num [inp])
    (by simp only [inp]; positivity) (fun _ => b0) (fun _ => b1) (fun _ => b2)
  obtain ⟨k, -, ⟨t, ht⟩, -⟩ := hex ⟨false, [], fun _ _ _ => 0, fun _ _ => 0⟩
  refine ⟨c, n, K₀, k, inp, S, t, hS, ht, rfl, ?_⟩
  exact (hmain K₀ le_rfl n hnn .linear 1 one_pos 2 (Or.inl ⟨1, one_pos, rfl⟩) hs (.val 0) (fun p hp => by cases hp; exact ⟨le_rfl, by positivity⟩) inp () le_rfl (by norm_num [inp])
    (fun _ => zero_le_one) (by norm_num [inp]) (fun _ => b0) (fun _ => b1) (fun _ => b2) a0 a1 a2 S hS ⟨false, [], fun _ _ _ => 0, fun _ _ => 0⟩ k t (Or.inl ht)).1

/-- Results for a surface with one coating, which absorbs a quarter of the light; a quarter is reflected and half transmitted, and beyond the critical angle three quarters are reflected. -/
noncomputable def coatRes (ratio : ℝ) : TmmRes :=
  ⟨fun θ => if 1 < ratio * Real.sin θ then 3 / 4 else 1 / 4, fun θ => if 1 < ratio * Real.sin θ then 0 else 1 / 2, fun _ _ => 1 / 4⟩

theorem coatRes_ok (ratio θ : ℝ) : 0 ≤ (coatRes ratio).R θ ∧ 0 ≤ (coatRes ratio).T θ ∧ (coatRes ratio).R θ + (coatRes ratio).T θ + 1 / 4 = 1 ∧ (coatRes ratio).R θ ≤ 1 := by
  by_cases h : 1 < ratio * Real.sin θ
  · simp only [coatRes, if_pos h]; norm_num
  · simp only [coatRes, if_neg h]; norm_num

theorem coatRes_continuousAt {ratio θ : ℝ} (h : ratio * Real.sin θ ≠ 1) : ContinuousAt (coatRes ratio).R θ ∧ ContinuousAt (coatRes ratio).T θ := by
  have hc : ContinuousAt (fun θ => ratio * Real.sin θ) θ := (continuous_const.mul Real.continuous_sin).continuousAt
  rcases lt_or_gt_of_ne h with h | h
  · have ev : ∀ᶠ x in 𝓝 θ, ¬ 1 < ratio * Real.sin x := (hc.eventually_lt continuousAt_const h).mono fun x hx => not_lt.mpr hx.le
    exact ⟨(continuousAt_const (y := (1 / 4 : ℝ))).congr (ev.mono fun x hx => (if_neg hx).symm), (continuousAt_const (y := (1 / 2 : ℝ))).congr (ev.mono fun x hx => (if_neg hx).symm)⟩
  · have ev : ∀ᶠ x in 𝓝 θ, 1 < ratio * Real.sin x := continuousAt_const.eventually_lt hc h
    exact ⟨(continuousAt_const (y := (3 / 4 : ℝ))).congr (ev.mono fun x hx => (if_pos hx).symm), (continuousAt_const (y := (0 : ℝ))).congr (ev.mono fun x hx => (if_pos hx).symm)⟩

/-- The lookup table for this coating, between media with refractive indices in the ratio `ratio`. -/
noncomputable def coatTab (ratio : ℝ) : Table := fun side θ =>
  let res := coatRes (if side = 1 then ratio else 1 / ratio)
  (res.R θ, res.T θ, [1 / 4])

theorem coatTab_sum (ratio : ℝ) : SumToOne (some (coatTab ratio)) := by
  intro t ht side θ
  cases ht
  obtain ⟨h1, h2, h3, -⟩ := coatRes_ok (if side = 1 then ratio else 1 / ratio) θ
  refine ⟨h1, h2, fun a ha => ?_, ?_⟩
  · simp only [coatTab, List.mem_singleton] at ha; rw [ha]; norm_num
  · simpa only [coatTab, List.sum_singleton] using h3

theorem coatTab_of {δ : ℝ} (hδ : 0 < δ) (ratio : ℝ) : TableOf δ (coatTab ratio) 1 (coatRes ratio) 1 ∧ TableOf δ (coatTab ratio) (-1) (coatRes (1 / ratio)) 1 := by
  refine ⟨fun θ _ _ => ⟨θ, by rw [sub_self, abs_zero]; exact hδ.le, rfl, rfl, fun l hl => ?_⟩, fun θ _ _ => ⟨θ, by rw [sub_self, abs_zero]; exact hδ.le, rfl, rfl, fun l hl => ?_⟩⟩
  · obtain rfl : l = 0 := by omega
    rfl
  · obtain rfl : l = 0 := by omega
    rfl

/-- A plate of glass (refractive index 2) in air, with a coating on each side that absorbs light, at every angle of incidence: for every `ε` there are calculations with the two methods that meet all hypotheses of `C159_coated`; what their coatings on the front absorb differs by less than `ε` and the threshold of ray tracing. -/
example (θ : ℝ) (hθ0 : 0 ≤ θ) (hθ1 : θ < Real.pi / 2) (ε : ℝ) (hε : 0 < ε) :
    ∃ (c : RTStack) (n K k : ℕ) (inp : RatInput Unit (Fin 1) (Fin 1) (makeAngleVector n (2 * Real.pi / (2 : ℕ)) 1 .linear).half) (S : _) (t : _),
      assemble n (2 * Real.pi / (2 : ℕ)) 1 .linear θ (.val 0) inp = some S ∧ S.Exits k t ∧ c.tabs = [some (coatTab (1 / 2)), some (coatTab (2 / 1))] ∧
      |∫ U, resAint (List.ofFn fun k => recorded 0 1 (traceWith c K (fun _ => ⟨0, 0, fun s _ => ⟨planarTris 10 (if s = 0 then 0 else -2), 0, 0, 0, 0, 0⟩⟩) (U k) (c.start 1 1 0 1 (rA0 5 θ 0)))) 0 0
        ∂(Measure.pi fun _ : Fin 1 => uniform2 K 3) - (t.a0.map fun v => v () 0).sum| < ε + c.S.thresh := by
  have hpi := Real.pi_gt_three
  let c : RTStack := { exRT with tabs := [some (coatTab (1 / 2)), some (coatTab (2 / 1))] }
  obtain ⟨hsl, -, hflat, -⟩ := glass_slab θ hθ0 hθ1
  have hs0 : 0 ≤ Real.sin θ := Real.sin_nonneg_of_nonneg_of_le_pi hθ0 (by linarith)
  have hs1 : Real.sin θ < 1 := by
    have := Real.sin_lt_sin_of_lt_of_le_pi_div_two (by linarith [Real.pi_pos]) le_rfl hθ1
    rwa [Real.sin_pi_div_two] at this
  have hsB : Real.sin (Real.arcsin (1 / 2 * Real.sin θ)) = 1 / 2 * Real.sin θ := Real.sin_arcsin (by linarith) (by linarith)
  have hslab : RTSlab c ⟨10, 10, 0, 0, 0⟩ ⟨10, 10, -2, -2, -2⟩ (some (coatTab (1 / 2))) (some (coatTab (2 / 1))) ((1 : ℝ) : ℂ) ((2 : ℝ) : ℂ) ((1 : ℝ) : ℂ) := by
    have e1 : ((1 : ℝ) : ℂ) = 1 := Complex.ofReal_one
    have e2 : ((2 : ℝ) : ℂ) = 2 := Complex.ofReal_ofNat 2
    rw [e1, e2]
    exact ⟨hsl.periodic, hsl.three, hsl.cells, rfl, hsl.nks, hsl.size0, hsl.size1, hsl.apart, hsl.re, hsl.width, hsl.alpha, hsl.thresh⟩
  have c1 := coatRes_continuousAt (ratio := 1 / 2) (θ := θ) (by linarith)
  have c2 := coatRes_continuousAt (ratio := 2 / 1) (θ := Real.arcsin (1 / 2 * Real.sin θ)) (by rw [hsB]; linarith)
  obtain ⟨δ, hδ, n₀, hmain⟩ := C159_coated (ω := Unit) (n0 := 1) (n1 := 1) θ hθ0 hθ1 1 2 1 2 one_pos two_pos one_pos two_pos (by linarith) (by rw [one_mul]; exact hs1.ne) (coatRes (1 / 2)) (coatRes (2 / 1)) (coatRes (2 / 1))
    (fun θ h => if_pos h) c1.1 c1.2 (fun _ => continuousAt_const) c2.1 c2.2 (fun _ => continuousAt_const) c2.1 c2.2 (fun _ => continuousAt_const)
    ⟨(coatRes_ok _ _).1, (coatRes_ok _ _).2.2.2⟩ ⟨(coatRes_ok _ _).1, (coatRes_ok _ _).2.2.2⟩ ε hε
  have hb : TableOf δ (coatTab (1 / 2)) (-1) (coatRes (2 / 1)) 1 := by
    have := (coatTab_of hδ (1 / 2)).2
    rwa [one_div_div] at this
  obtain ⟨K₀, hK⟩ := hmain hslab (coatTab_sum _) (coatTab_sum _) (coatTab_of hδ _).1 (coatTab_of hδ _).1 hb (by norm_num [c, exRT, exStack]) (by norm_num [c, exRT, exStack])
    (h := 5) (by norm_num) (by norm_num) 0 (N := 1) Nat.one_pos (fun _ => ⟨1, 1, _⟩) (fun _ => hflat) (nu := 3) le_rfl
  obtain ⟨n, hn0, hnn⟩ : ∃ n, 0 < n ∧ n₀ ≤ n := ⟨n₀ + 1, Nat.succ_pos _, Nat.le_succ _⟩
  have hs : (1e-10 : ℝ) ≤ 2 * Real.pi / (2 : ℕ) := by norm_num; linarith
  have hcr := glass_not_critical n hn0
  have hok : ∀ ratio θ, 0 < θ → θ < Real.pi / 2 → 0 ≤ (coatRes ratio).R θ ∧ 0 ≤ (coatRes ratio).T θ ∧ (∀ l, 0 ≤ (coatRes ratio).A θ l) ∧ (coatRes ratio).R θ + (coatRes ratio).T θ + ((List.range 1).map ((coatRes ratio).A θ)).sum = 1 := by
    intro ratio θ _ _
    obtain ⟨h1, h2, h3, -⟩ := coatRes_ok ratio θ
    exact ⟨h1, h2, fun l => by norm_num [coatRes], by simpa [coatRes] using h3⟩
  obtain ⟨M0, a0, b0⟩ := tmm_stored (nL := 1) n hn0 1 one_pos 2 two_pos .linear true hs (ratio := 1 / 2) (by norm_num) (coatRes _) (hok _) (fun θ h => if_pos h) (fun i hi => (hcr i hi).1)
  obtain ⟨M1, a1, b1⟩ := tmm_stored (nL := 1) n hn0 1 one_pos 2 two_pos .linear true hs (ratio := 2 / 1) (by norm_num) (coatRes _) (hok _) (fun θ h => if_pos h) (fun i hi => (hcr i hi).2)
  obtain ⟨M2, a2, b2⟩ := tmm_stored (nL := 1) n hn0 1 one_pos 2 two_pos .linear false hs (ratio := 2 / 1) (by norm_num) (coatRes _) (hok _) (fun θ h => if_pos h) (fun i hi => (hcr i hi).2)
  let inp : RatInput Unit (Fin 1) (Fin 1) (makeAngleVector n (2 * Real.pi / (2 : ℕ)) 1 .linear).half :=
    { α := fun _ => 1, thick := 2, thresh := ε / 6, front0 := fun _ => M0, front1 := fun _ => M1, rear0 := fun _ => M2 }
  obtain ⟨S, hS, hex⟩ := C17_end_to_end n hn0 (2 * Real.pi / (2 : ℕ)) (Or.inl ⟨1, one_pos, by norm_num⟩) 1 one_pos .linear θ hθ0 hθ1 0 le_rfl (by positivity) inp 1 one_pos (fun _ => le_rfl) (by norm_num [inp])
    (by simp only [inp]; positivity) (fun _ => b0) (fun _ => b1) (fun _ => b2)
  obtain ⟨k, -, ⟨t, ht⟩, -⟩ := hex ⟨false, [], fun _ _ _ => 0, fun _ _ => 0⟩
  refine ⟨c, n, K₀, k, inp, S, t, hS, ht, rfl, ?_⟩
  exact (hK K₀ le_rfl n hnn .linear 1 one_pos 2 (Or.inl ⟨1, one_pos, rfl⟩) hs (.val 0) (fun p hp => by cases hp; exact ⟨le_rfl, by positivity⟩) inp () le_rfl (by norm_num [inp])
    (fun _ => zero_le_one) (by norm_num [inp]) (fun _ => b0) (fun _ => b1) (fun _ => b2) a0 a1 a2 S hS ⟨false, [], fun _ _ _ => 0, fun _ _ => 0⟩ k t (Or.inl ht)).2.2.2.1 0

end Rayflare
