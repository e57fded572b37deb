import Verif.Props.Converge
import Verif.Props.FlatRT

/-!
# Properties C159 (slabs that need not absorb) and C172 (planar structures turned over)
-/

namespace Rayflare

open Rayflare.Np Rayflare.Model Rayflare.Spec Rayflare.Lemmas Matrix MeasureTheory

/-! ## The structures and what `calculate_RAT` returns for them -/

/-- A bulk layer between two planar layer stacks with `n0` and `n1` layers, and light at the polar angle `thIn`: refractive indices of incidence medium, bulk and transmission medium, absorption coefficient of the bulk times its thickness, and the results of the
thin-film solver as functions of the angle, for the front surface from outside (`res0`), the rear surface from inside (`res1`) and the front surface from inside (`resb`). -/
structure PlanarStack (n0 n1 : ℕ) where
  thIn : ℝ
  inN : ℝ
  bulkN : ℝ
  outN : ℝ
  a : ℝ
  res0 : TmmRes
  res1 : TmmRes
  resb : TmmRes

/-- What a calculation returns for one wavelength: reflectance, transmittance, absorptance of the bulk and of the layers of the two surfaces. -/
structure Outcome (n0 n1 : ℕ) where
  R : ℝ
  T : ℝ
  bulk : ℝ
  abs0 : Fin n0 → ℝ
  abs1 : Fin n1 → ℝ

namespace PlanarStack
variable {n0 n1 : ℕ} (P : PlanarStack n0 n1)

/-- Angle inside the bulk layer, by Snell's law. -/
noncomputable def θB : ℝ := Real.arcsin (P.inN / P.bulkN * Real.sin P.thIn)

/-- The textbook slab. -/
noncomputable def slab : Slab (Fin n0) (Fin n1) := slabAt n0 n1 P.inN P.bulkN P.outN P.a P.res0 P.res1 P.resb P.thIn P.θB

/-- The assumptions of C150: light is refracted into the bulk, and does not meet the rear surface exactly at the critical angle; the solver transmits nothing beyond that angle, and depends continuously on the angle at the two angles of the light; some light is lost
in a round trip. -/
structure Ok : Prop where
  angle : 0 ≤ P.thIn ∧ P.thIn < Real.pi / 2
  inN : 0 < P.inN
  bulkN : 0 < P.bulkN
  outN : 0 < P.outN
  refracted : P.inN * Real.sin P.thIn < P.bulkN
  critical : P.inN * Real.sin P.thIn ≠ P.outN
  tir : ∀ θ, 1 < P.bulkN / P.outN * Real.sin θ → P.res1.T θ ≤ 1e-8
  r0 : ContinuousAt P.res0.R P.thIn
  t0 : ContinuousAt P.res0.T P.thIn
  a0 : ∀ l : Fin n0, ContinuousAt (fun θ => P.res0.A θ l) P.thIn
  r1 : ContinuousAt P.res1.R P.θB
  t1 : ContinuousAt P.res1.T P.θB
  a1 : ∀ l : Fin n1, ContinuousAt (fun θ => P.res1.A θ l) P.θB
  rb : ContinuousAt P.resb.R P.θB
  tb : ContinuousAt P.resb.T P.θB
  ab : ∀ l : Fin n0, ContinuousAt (fun θ => P.resb.A θ l) P.θB
  round : P.slab.round < 1

/-- `out` is what the matrix method (`calculate_RAT`) returns for this structure at some wavelength, with matrices stored by `TMM`, `n` polar bins (any spacing, azimuth resolution, `phi_symmetry` and azimuth of the light), `I_thresh` at most `τ`, with or without
profiles, together with any other wavelengths. -/
def Returns (ω : Type*) (n : ℕ) (τ : ℝ) (out : Outcome n0 n1) : Prop :=
  ∃ (sp : Spacing) (c : ℝ) (m : ℕ) (phiIn : PhiIn) (inp : RatInput ω (Fin n0) (Fin n1) (makeAngleVector n (2 * Real.pi / m) c sp).half) (w : ω)
    (S : Sys ω (Fin (makeAngleVector n (2 * Real.pi / m) c sp).half) (Fin n0) (Fin n1)) (o : ProfOpts ω (Fin (makeAngleVector n (2 * Real.pi / m) c sp).half)) (k : ℕ)
    (t : LoopState ω (Fin (makeAngleVector n (2 * Real.pi / m) c sp).half) (Fin n0) (Fin n1)),
    0 < c ∧ ((∃ q : ℕ, 0 < q ∧ m = 2 * q) ∨ m = 1) ∧ (1e-10 : ℝ) ≤ 2 * Real.pi / m ∧ (∀ p, phiIn = .val p → 0 ≤ p ∧ p ≠ 2 * Real.pi / m) ∧
    inp.thresh ≤ τ ∧ inp.α w * inp.thick = P.a ∧ (∀ w, 0 ≤ inp.α w) ∧ 0 ≤ inp.thick ∧
    (∀ w, StoredOk (inp.front0 w)) ∧ (∀ w, StoredOk (inp.front1 w)) ∧ (∀ w, StoredOk (inp.rear0 w)) ∧
    StoredByTmm n c m sp true (P.inN / P.bulkN) P.res0 (inp.front0 w) ∧ StoredByTmm n c m sp true (P.bulkN / P.outN) P.res1 (inp.front1 w) ∧ StoredByTmm n c m sp false (P.bulkN / P.inN) P.resb (inp.rear0 w) ∧
    assemble n (2 * Real.pi / m) c sp P.thIn phiIn inp = some S ∧ (S.Exits k t ∨ S.ExitsProf o k t) ∧
    out = ⟨t.R w, t.T w, t.Abulk w, fun l => (t.a0.map fun v => v w l).sum, fun l => (t.a1.map fun v => v w l).sum⟩

end PlanarStack

/-- C150 for these structures. -/
theorem planar_converges {ω : Type*} {n0 n1 : ℕ} (P : PlanarStack n0 n1) (h : P.Ok) {ε : ℝ} (hε : 0 < ε) :
    ∃ N : ℕ, ∀ n ≥ N, ∀ out, P.Returns ω n (ε / 2) out →
      |out.R - P.slab.R P.slab.trips| < ε ∧ |out.T - P.slab.T P.slab.trips| < ε ∧ |out.bulk - P.slab.bulk P.slab.trips| < ε ∧
      (∀ l, |out.abs0 l - P.slab.abs0 P.slab.trips l| < ε) ∧ ∀ l, |out.abs1 l - P.slab.abs1 P.slab.trips l| < ε := by
  obtain ⟨N, hN⟩ := C150_converges (ω := ω) P.thIn h.angle.1 h.angle.2 P.inN P.bulkN P.outN P.a h.inN h.bulkN h.outN h.refracted h.critical P.res0 P.res1 P.resb h.tir h.r0 h.t0 h.a0 h.r1 h.t1 h.a1 h.rb h.tb h.ab h.round ε hε
  refine ⟨N, fun n hn out ho => ?_⟩
  obtain ⟨sp, c, m, phiIn, inp, w, S, o, k, t, h1, h2, h3, h4, h5, h6, h7, h8, h9, h10, h11, h12, h13, h14, h15, h16, rfl⟩ := ho
  exact hN n hn sp c h1 m h2 h3 phiIn h4 inp w h5 h6 h7 h8 h9 h10 h11 h12 h13 h14 S h15 o k t h16

/-! ## C159 -/

/-- The same slab: the surfaces do the same with the light and the bulk absorbs the same.  (The layers of the coatings are counted from 0 in both.) -/
structure SameSlab {n0 n1 : ℕ} (s : Slab (Fin n0) (Fin n1)) (s' : Slab ℕ ℕ) : Prop where
  front : s'.front.refl = s.front.refl ∧ s'.front.trns = s.front.trns ∧ ∀ l : Fin n0, s'.front.abs l = s.front.abs l
  rear : s'.rear.refl = s.rear.refl ∧ s'.rear.trns = s.rear.trns ∧ ∀ l : Fin n1, s'.rear.abs l = s.rear.abs l
  back : s'.back.refl = s.back.refl ∧ s'.back.trns = s.back.trns ∧ ∀ l : Fin n0, s'.back.abs l = s.back.abs l
  pass : s'.pass = s.pass

theorem SameSlab.results {n0 n1 : ℕ} {s : Slab (Fin n0) (Fin n1)} {s' : Slab ℕ ℕ} (h : SameSlab s s') :
    s'.R s'.trips = s.R s.trips ∧ s'.T s'.trips = s.T s.trips ∧ s'.bulk s'.trips = s.bulk s.trips ∧ (∀ l : Fin n0, s'.abs0 s'.trips l = s.abs0 s.trips l) ∧ ∀ l : Fin n1, s'.abs1 s'.trips l = s.abs1 s.trips l := by
  obtain ⟨⟨f1, f2, f3⟩, ⟨g1, g2, g3⟩, ⟨b1, b2, b3⟩, p⟩ := h
  have ht : s'.trips = s.trips := by simp only [Slab.trips, Slab.round, p, g1, b1]
  refine ⟨?_, ?_, ?_, fun l => ?_, fun l => ?_⟩
  · simp only [Slab.R, ht, p, f1, f2, g1, b2]
  · simp only [Slab.T, ht, p, f2, g2]
  · simp only [Slab.bulk, ht, p, f2, g1]
  · simp only [Slab.abs0, ht, p, f2, f3, g1, b3]
  · simp only [Slab.abs1, ht, p, f2, g3]

section
variable {c : RTStack} {cell0 cell1 : Cell} {t0 t1 : Option Table} {m0 m1 m2 : ℂ} (hs : RTSlab c cell0 cell1 t0 t1 m0 m1 m2) (ht0 : SumToOne t0) (ht1 : SumToOne t1)
  {n0 n1 : ℕ} (P : PlanarStack n0 n1) (hP : P.Ok)
  (hin : sinRefr t0.isSome m0 m1 P.thIn < 1)
  (hrear : (slabOf c t0 t1 m0 m1 m2 P.thIn).rear.trns = 0 ∨ sinRefr t1.isSome m1 m2 (refrOf t0.isSome m0 m1 P.thIn) < 1)
  (hback : (slabOf c t0 t1 m0 m1 m2 P.thIn).back.trns = 0 ∨ sinRefr t0.isSome m1 m0 (refrOf t0.isSome m0 m1 P.thIn) < 1)
  (hsame : SameSlab P.slab (slabOf c t0 t1 m0 m1 m2 P.thIn))
  {h : ℝ} (hh : cell0.zcov ≤ h) (hh0 : h + 1e-8 ≠ 0) (φ : ℝ)
  {N : ℕ} (hN : 0 < N) (L : Fin N → StackLaunch) (hL : ∀ k, AllFlat cell0 cell1 (L k).V) {d : ℕ} (hd : 3 ≤ d)

include hs ht0 ht1 hP hin hrear hback hsame hh hh0 hN hL hd in
/-- **C159, also without absorption in the bulk.** The same planar structure – bulk layer, coatings, angle of the light – is calculated with the matrix method (matrices from `TMM`, `n` polar bins) and with `rt_structure.calculate` (Fresnel equations or lookup tables, rays followed through at most `K`
surfaces).  For enough polar bins and surfaces, and a small `I_thresh` of the matrix method, reflectance, transmittance and absorptance in bulk and coatings are the same on average over the random numbers, up to the `I_thresh` of the ray tracer and any `ε > 0`.  (`hsame`:
thin-film solver and ray tracer agree on what each surface does with light at the angles it arrives at, which for surfaces without coating is `C159_bare`.) -/
theorem C159_same_slab {ω : Type*} (hgets : ((slabOf c t0 t1 m0 m1 m2 P.thIn).pass < 1 ∧ 0 < c.S.thresh) ∨ (slabOf c t0 t1 m0 m1 m2 P.thIn).rear.refl * (slabOf c t0 t1 m0 m1 m2 P.thIn).back.refl < 1) {ε : ℝ} (hε : 0 < ε) :
    ∃ (M K₀ : ℕ) (τ : ℝ), 0 < τ ∧ ∀ n ≥ M, ∀ K ≥ K₀, ∀ out, P.Returns ω n τ out →
    let rays := fun U : Fin N → Fin K → Fin d → ℝ => List.ofFn fun k => recorded 0 1 (traceWith c K (L k).V (U k) (c.start (L k).x (L k).y 0 1 (rA0 h P.thIn φ)))
    let Pr : Measure (Fin N → Fin K → Fin d → ℝ) := Measure.pi fun _ => uniform2 K d
    |(∫ U, resR (rays U) ∂Pr) - out.R| < c.S.thresh + ε ∧
    |(∫ U, resT (rays U) ∂Pr) - out.T| < c.S.thresh + ε ∧
    |(∫ U, resA (rays U) 1 ∂Pr) - out.bulk| < c.S.thresh + ε ∧
    (∀ l : Fin n0, |(∫ U, resAint (rays U) 0 l ∂Pr) - out.abs0 l| < c.S.thresh + ε) ∧
    ∀ l : Fin n1, |(∫ U, resAint (rays U) 1 l ∂Pr) - out.abs1 l| < c.S.thresh + ε := by
  obtain ⟨M, hM⟩ := planar_converges (ω := ω) P hP (_root_.half_pos hε)
  obtain ⟨K₀, hK⟩ := C151_converges hs ht0 ht1 hP.angle.1 hP.angle.2 hin hrear hback hh hh0 φ hN L hL hd hgets (_root_.half_pos hε)
  obtain ⟨e1, e2, e3, e4, e5⟩ := hsame.results
  have hth := hs.thresh
  have comb : ∀ {x y z z' : ℝ}, JustBelow x z' (c.S.thresh + ε / 2) → z' = z → |y - z| < ε / 2 → |x - y| < c.S.thresh + ε := by
    intro x y z z' h1 h2 h3
    subst h2
    obtain ⟨a, b⟩ := h1
    rw [abs_lt] at h3 ⊢
    constructor <;> linarith [h3.1, h3.2]
  refine ⟨M, K₀, ε / 2 / 2, by positivity, fun n hn K hKK out ho => ?_⟩
  obtain ⟨q1, q2, q3, q4, q5⟩ := hM n hn out ho
  obtain ⟨p1, p2, p3, p4, p5⟩ := hK K hKK
  exact ⟨comb p1 e1 q1, comb p2 e2 q2, comb p3 e3 q3, fun l => comb (p4 l) (e4 l) (q4 l), fun l => comb (p5 l) (e5 l) (q5 l)⟩

end

/-- **C159, surfaces without coating.** Thin-film solver and ray tracer describe the same slab if the solver gives the textbook Fresnel reflectances at the angles of the light (`1` beyond the critical angle; nothing is absorbed in a surface without layers), and the bulk has the same
absorption coefficient and thickness. -/
theorem C159_bare (c : RTStack) (harc : ∀ z, IsArcsin z (c.asin z)) (P : PlanarStack 0 0) (hP : P.Ok)
    (hr0 : P.res0.R P.thIn = textbookR P.inN P.bulkN P.thIn P.θB c.pol) (ht0 : P.res0.T P.thIn = 1 - P.res0.R P.thIn)
    (hr1 : (∃ θ2, 0 ≤ θ2 ∧ θ2 < Real.pi / 2 ∧ P.bulkN * Real.sin P.θB = P.outN * Real.sin θ2 ∧ P.res1.R P.θB = textbookR P.bulkN P.outN P.θB θ2 c.pol) ∨ (P.outN < P.bulkN * Real.sin P.θB ∧ P.res1.R P.θB = 1))
    (ht1 : P.res1.T P.θB = 1 - P.res1.R P.θB)
    (hrb : P.resb.R P.θB = textbookR P.bulkN P.inN P.θB P.thIn c.pol) (htb : P.resb.T P.θB = 1 - P.resb.R P.θB)
    (ha : P.a = c.S.alphas.getD 1 0 * c.S.widths.getD 1 0) : SameSlab P.slab (slabOf c none none P.inN P.bulkN P.outN P.thIn) := by
  have hpi := Real.pi_pos
  have hsin0 : 0 ≤ Real.sin P.thIn := Real.sin_nonneg_of_nonneg_of_le_pi hP.angle.1 (by linarith [hP.angle.2])
  have hr : P.inN / P.bulkN * Real.sin P.thIn < 1 := by rw [div_mul_eq_mul_div, div_lt_one hP.bulkN]; exact hP.refracted
  have hr' : 0 ≤ P.inN / P.bulkN * Real.sin P.thIn := mul_nonneg (div_pos hP.inN hP.bulkN).le hsin0
  have hB0 : 0 ≤ P.θB := Real.arcsin_nonneg.mpr hr'
  have hB1 : P.θB < Real.pi / 2 := Real.arcsin_lt_pi_div_two.mpr hr
  have hsB : Real.sin P.θB = P.inN / P.bulkN * Real.sin P.thIn := Real.sin_arcsin (by linarith) hr.le
  have hsnell : P.inN * Real.sin P.thIn = P.bulkN * Real.sin P.θB := by
    rw [hsB]; have := hP.bulkN.ne'; field_simp
  have lt1 : ∀ t : ℝ, 0 ≤ t → t < Real.pi / 2 → Real.sin t < 1 := by
    intro t t0 t1
    have := Real.sin_lt_sin_of_lt_of_le_pi_div_two (by linarith) le_rfl t1
    rwa [Real.sin_pi_div_two] at this
  have c1 : (if P.bulkN / P.outN * Real.sin P.θB < 1 then P.res1.T P.θB else 0) = 1 - P.res1.R P.θB := by
    have := hP.outN
    rcases hr1 with ⟨θ2, g1, g2, hsn, -⟩ | ⟨g, e⟩
    · rw [if_pos, ht1]
      rw [div_mul_eq_mul_div, hsn, mul_div_assoc, mul_comm, div_mul_cancel₀ _ this.ne']; exact lt1 _ g1 g2
    · rw [if_neg, e, sub_self]
      rw [not_lt, div_mul_eq_mul_div, le_div_iff₀ this]; linarith
  have c2 : P.bulkN / P.inN * Real.sin P.θB < 1 := by
    have := hP.inN
    rw [div_mul_eq_mul_div, ← hsnell, mul_div_assoc, mul_comm, div_mul_cancel₀ _ this.ne']; exact lt1 _ hP.angle.1 hP.angle.2
  obtain ⟨e, -⟩ := C151_transparent c harc hP.inN hP.bulkN hP.outN hP.angle.1 hP.angle.2 hB0 hB1 hsnell hr1
  have hcos : |Real.cos P.θB| = Real.cos P.θB := abs_of_pos (Real.cos_pos_of_mem_Ioo ⟨by linarith, hB1⟩)
  rw [e]
  refine ⟨⟨?_, ?_, fun l => l.elim0⟩, ⟨rfl, ?_, fun l => l.elim0⟩, ⟨?_, ?_, fun l => l.elim0⟩, ?_⟩ <;> simp only [bareSlab, PlanarStack.slab, slabAt]
  · rw [hr0]
  · rw [ht0, hr0]
  · rw [c1]
  · rw [hrb, textbookR_symm]
  · rw [if_pos c2, htb, hrb, textbookR_symm]
  · rw [hcos, ha, neg_div]

/-! ## C172 -/

/-- `P'` is the structure `P` turned over, with the light coming back along the path on which it left. -/
structure TurnedPlanar {n0 n1 : ℕ} (P : PlanarStack n0 n1) (P' : PlanarStack n1 n0) : Prop where
  media : P'.inN = P.outN ∧ P'.bulkN = P.bulkN ∧ P'.outN = P.inN
  a : P'.a = P.a
  /-- Snell's law for the two directions -/
  path : P.inN * Real.sin P.thIn = P'.inN * Real.sin P'.thIn
  /-- the surfaces seen from inside: the front surface of `P` is the rear surface of `P'` -/
  inside : P'.res1.R P.θB = P.resb.R P.θB ∧ P'.resb.R P.θB = P.res1.R P.θB ∧ P'.res1.T P.θB = P.resb.T P.θB ∧ P'.resb.T P.θB = P.res1.T P.θB
  /-- each surface transmits as much in both directions (for the transfer-matrix method: a consequence of reciprocity) -/
  through : P.res0.T P.thIn = P.resb.T P.θB ∧ P'.res0.T P'.thIn = P.res1.T P.θB

theorem turned_angle {n0 n1 : ℕ} {P : PlanarStack n0 n1} {P' : PlanarStack n1 n0} (h : TurnedPlanar P P') : P'.θB = P.θB := by
  unfold PlanarStack.θB
  rw [div_mul_eq_mul_div, div_mul_eq_mul_div, ← h.path, h.media.2.1]

/-- Light inside gets out on both sides. -/
theorem turned_limits {n0 n1 : ℕ} {P : PlanarStack n0 n1} {P' : PlanarStack n1 n0} (hP : P.Ok) (hP' : P'.Ok) (h : TurnedPlanar P P') :
    P.bulkN / P.outN * Real.sin P.θB < 1 ∧ P.bulkN / P.inN * Real.sin P.θB < 1 := by
  have m1 := h.media.1
  have lt1 : ∀ t : ℝ, 0 ≤ t → t < Real.pi / 2 → Real.sin t < 1 := by
    intro t t0 t1
    have := Real.sin_lt_sin_of_lt_of_le_pi_div_two (by linarith [Real.pi_pos]) le_rfl t1
    rwa [Real.sin_pi_div_two] at this
  have hsin0 : 0 ≤ Real.sin P.thIn := Real.sin_nonneg_of_nonneg_of_le_pi hP.angle.1 (by linarith [hP.angle.2, Real.pi_pos])
  have hr : P.inN / P.bulkN * Real.sin P.thIn < 1 := by rw [div_mul_eq_mul_div, div_lt_one hP.bulkN]; exact hP.refracted
  have hr' : 0 ≤ P.inN / P.bulkN * Real.sin P.thIn := mul_nonneg (div_pos hP.inN hP.bulkN).le hsin0
  have hsB : Real.sin P.θB = P.inN / P.bulkN * Real.sin P.thIn := Real.sin_arcsin (by linarith) hr.le
  have hb := hP.bulkN
  have hi := hP.inN
  have ho := hP.outN
  have c1 : P.bulkN / P.outN * Real.sin P.θB < 1 := by
    have e : P.bulkN / P.outN * Real.sin P.θB = Real.sin P'.thIn := by
      rw [hsB]
      have := h.path
      rw [m1] at this
      field_simp
      linarith
    rw [e]; exact lt1 _ hP'.angle.1 hP'.angle.2
  have c2 : P.bulkN / P.inN * Real.sin P.θB < 1 := by
    have e : P.bulkN / P.inN * Real.sin P.θB = Real.sin P.thIn := by rw [hsB]; field_simp
    rw [e]; exact lt1 _ hP.angle.1 hP.angle.2
  exact ⟨c1, c2⟩

theorem turned_T {n0 n1 : ℕ} {P : PlanarStack n0 n1} {P' : PlanarStack n1 n0} (hP : P.Ok) (hP' : P'.Ok) (h : TurnedPlanar P P') : P'.slab.T P'.slab.trips = P.slab.T P.slab.trips := by
  have hθ := turned_angle h
  obtain ⟨m1, m2, m3⟩ := h.media
  obtain ⟨c1, c2⟩ := turned_limits hP hP' h
  obtain ⟨i1, i2, i3, i4⟩ := h.inside
  obtain ⟨t1, t2⟩ := h.through
  have et : P'.slab.trips = P.slab.trips := by
    simp only [Slab.trips, Slab.round, PlanarStack.slab, slabAt, hθ, i1, i2, h.a]
    congr 2
    ring
  rw [et]
  simp only [Slab.T, PlanarStack.slab, slabAt, hθ, m2, m3, h.a, if_pos c1, if_pos c2, i3, t2, t1]
  ring

/-- **C172.** A planar structure and the same structure turned over, with light coming back along the path on which it left: for enough polar bins and small enough `I_thresh` the matrix method returns the same transmittance for both, whatever the other options (which may
be different for the two).  Nothing is assumed about the absorption in the bulk and in the layers. -/
theorem C172_reciprocal {ω ω' : Type*} {n0 n1 : ℕ} (P : PlanarStack n0 n1) (P' : PlanarStack n1 n0) (hP : P.Ok) (hP' : P'.Ok) (h : TurnedPlanar P P') {ε : ℝ} (hε : 0 < ε) :
    ∃ (M : ℕ) (τ : ℝ), 0 < τ ∧ ∀ n ≥ M, ∀ n' ≥ M, ∀ out out', P.Returns ω n τ out → P'.Returns ω' n' τ out' → |out.T - out'.T| < ε := by
  obtain ⟨M, hM⟩ := planar_converges (ω := ω) P hP (_root_.half_pos hε)
  obtain ⟨M', hM'⟩ := planar_converges (ω := ω') P' hP' (_root_.half_pos hε)
  refine ⟨max M M', ε / 2 / 2, by positivity, fun n hn n' hn' out out' ho ho' => ?_⟩
  have a := (hM n (le_trans (le_max_left _ _) hn) out ho).2.1
  have b := (hM' n' (le_trans (le_max_right _ _) hn') out' ho').2.1
  rw [turned_T hP hP' h] at b
  rw [abs_lt] at a b ⊢
  constructor <;> linarith [a.1, a.2, b.1, b.2]

/-- **C172, nothing absorbed.** If bulk and layers do not absorb, the reflectance is the same as well. -/
theorem C172_lossless {ω ω' : Type*} {n0 n1 : ℕ} (P : PlanarStack n0 n1) (P' : PlanarStack n1 n0) (hP : P.Ok) (hP' : P'.Ok) (h : TurnedPlanar P P') (ha : P.a = 0)
    (l0 : P.res0.R P.thIn + P.res0.T P.thIn = 1) (l1 : P.res1.R P.θB + P.res1.T P.θB = 1) (lb : P.resb.R P.θB + P.resb.T P.θB = 1) (l0' : P'.res0.R P'.thIn + P'.res0.T P'.thIn = 1) {ε : ℝ} (hε : 0 < ε) :
    ∃ (M : ℕ) (τ : ℝ), 0 < τ ∧ ∀ n ≥ M, ∀ n' ≥ M, ∀ out out', P.Returns ω n τ out → P'.Returns ω' n' τ out' → |out.R - out'.R| < ε := by
  obtain ⟨M, hM⟩ := planar_converges (ω := ω) P hP (_root_.half_pos hε)
  obtain ⟨M', hM'⟩ := planar_converges (ω := ω') P' hP' (_root_.half_pos hε)
  have key : P'.slab.R P'.slab.trips = P.slab.R P.slab.trips := by
    have hθ := turned_angle h
    obtain ⟨m1, m2, m3⟩ := h.media
    obtain ⟨c1, c2⟩ := turned_limits hP hP' h
    obtain ⟨i1, i2, i3, i4⟩ := h.inside
    obtain ⟨t1, t2⟩ := h.through
    have et : P'.slab.trips = P.slab.trips := by
      simp only [Slab.trips, Slab.round, PlanarStack.slab, slabAt, hθ, i1, i2, h.a]
      congr 2
      ring
    have hq : P.slab.trips * (1 - P.res1.R P.θB * P.resb.R P.θB) = 1 := by
      have hne := hP.round
      simp only [Slab.trips]
      simp only [Slab.round, PlanarStack.slab, slabAt, ha] at hne ⊢
      norm_num at hne ⊢
      exact inv_mul_cancel₀ (by linarith)
    rw [et]
    obtain ⟨q, hqe⟩ : ∃ q, q = P.slab.trips := ⟨_, rfl⟩
    rw [← hqe] at hq ⊢
    simp only [Slab.R, PlanarStack.slab, slabAt, hθ, m1, m2, m3, h.a, ha, if_pos c1, if_pos c2, i2, i1, i4, t2]
    norm_num
    have x1 : P.res0.R P.thIn = P.resb.R P.θB := by linarith
    have x2 : P'.res0.R P'.thIn = P.res1.R P.θB := by linarith
    have x3 : P.resb.T P.θB = 1 - P.resb.R P.θB := by linarith
    have x4 : P.res1.T P.θB = 1 - P.res1.R P.θB := by linarith
    rw [x1, x2, t1, x3, x4]
    linear_combination (P.resb.R P.θB - P.res1.R P.θB) * hq
  refine ⟨max M M', ε / 2 / 2, by positivity, fun n hn n' hn' out out' ho ho' => ?_⟩
  have a := (hM n (le_trans (le_max_left _ _) hn) out ho).1
  have b := (hM' n' (le_trans (le_max_right _ _) hn') out' ho').1
  rw [key] at b
  rw [abs_lt] at a b ⊢
  constructor <;> linarith [a.1, a.2, b.1, b.2]

/-- A plate of glass in air at normal incidence. -/
noncomputable def exPlate : PlanarStack 0 0 :=
  let res : TmmRes := ⟨fun _ => 1 / 25, fun θ => if 1 < 3 / 2 * Real.sin θ then 0 else 24 / 25, fun _ _ => 0⟩
  { thIn := 0, inN := 1, bulkN := 3 / 2, outN := 1, a := 2, res0 := res, res1 := res, resb := res }

theorem exPlate_θB : exPlate.θB = 0 := by simp [PlanarStack.θB, exPlate]

theorem exPlate_ok : exPlate.Ok := by
  have hc : ContinuousAt (fun θ : ℝ => if 1 < 3 / 2 * Real.sin θ then (0 : ℝ) else 24 / 25) 0 := by
    have hlt : ∀ᶠ θ : ℝ in nhds 0, 3 / 2 * Real.sin θ < 1 := by
      have : ContinuousAt (fun θ : ℝ => 3 / 2 * Real.sin θ) 0 := (continuous_const.mul Real.continuous_sin).continuousAt
      exact this.eventually_lt continuousAt_const (by simp)
    refine (continuousAt_const (y := (24 / 25 : ℝ))).congr ?_
    filter_upwards [hlt] with θ hθ
    rw [if_neg (not_lt.mpr hθ.le)]
  refine ⟨⟨le_rfl, Real.pi_div_two_pos⟩, by norm_num [exPlate], by norm_num [exPlate], by norm_num [exPlate], by norm_num [exPlate], by norm_num [exPlate], ?_, continuousAt_const, hc, fun _ => continuousAt_const,
    continuousAt_const, ?_, fun _ => continuousAt_const, continuousAt_const, ?_, fun _ => continuousAt_const, ?_⟩
  · intro θ hθ
    have : 1 < 3 / 2 * Real.sin θ := by simpa [exPlate] using hθ
    simp only [exPlate, if_pos this]
    norm_num
  · rw [exPlate_θB]; exact hc
  · rw [exPlate_θB]; exact hc
  · have : Real.exp (-2) ≤ 1 := Real.exp_le_one_iff.mpr (by norm_num)
    have h0 : 0 ≤ Real.exp (-2) := (Real.exp_pos _).le
    simp only [Slab.round, PlanarStack.slab, slabAt, exPlate_θB]
    simp only [exPlate, Real.cos_zero, abs_one, div_one]
    nlinarith

/-- Turned over it is the same plate. -/
example : TurnedPlanar exPlate exPlate := by
  refine ⟨⟨rfl, rfl, rfl⟩, rfl, rfl, ⟨rfl, rfl, rfl, rfl⟩, ?_⟩
  rw [exPlate_θB]
  exact ⟨rfl, rfl⟩

/-- The ray tracer has the same plate: 4 % at each surface, absorption 2 at normal incidence. -/
example : ∃ c : RTStack, (∀ z, IsArcsin z (c.asin z)) ∧ SameSlab exPlate.slab (slabOf c none none exPlate.inN exPlate.bulkN exPlate.outN exPlate.thIn) := by
  choose f hf using exists_isArcsin
  refine ⟨{ exRT with asin := f }, hf, C159_bare { exRT with asin := f } hf exPlate exPlate_ok ?_ ?_ (Or.inl ⟨0, le_rfl, Real.pi_div_two_pos, ?_, ?_⟩) ?_ ?_ ?_ ?_⟩
  · rw [exPlate_θB]; simp [exPlate, textbookR, exRT]; norm_num
  · simp [exPlate]; norm_num
  · rw [exPlate_θB, Real.sin_zero, mul_zero, mul_zero]
  · rw [exPlate_θB]; simp [exPlate, textbookR, exRT]; norm_num
  · rw [exPlate_θB]; simp [exPlate]; norm_num
  · rw [exPlate_θB]; simp [exPlate, textbookR, exRT]; norm_num
  · rw [exPlate_θB]; simp [exPlate]; norm_num
  · simp [exPlate, exRT, exStack]

end Rayflare
