import Verif.Spec.Polarised
import Verif.Props.Methods
import Verif.Props.Agree
import Verif.Props.FlatLayersRT
import Verif.Props.Turned

/-!
# Property C175: unpolarised light is the mean of s- and p-polarised light
-/

namespace Rayflare

open Rayflare.Np Rayflare.Model Rayflare.Spec Rayflare.Lemmas MeasureTheory

/-! ## Helper lemmas -/

theorem textbookR_mean (n1 n2 θ θ' : ℝ) : textbookR n1 n2 θ θ' .u = (textbookR n1 n2 θ θ' .s + textbookR n1 n2 θ θ' .p) / 2 := rfl

theorem textbookR_normal (n1 n2 : ℝ) (pol : Pol) : textbookR n1 n2 0 0 pol = textbookR n1 n2 0 0 .s := by
  cases pol <;> simp [textbookR]

theorem slab_withPol {c : RTStack} {cell0 cell1 : Cell} {t0 t1 : Option Table} {n0 n1 n2 : ℂ} (hs : RTSlab c cell0 cell1 t0 t1 n0 n1 n2) (pol : Pol) : RTSlab (withPol c pol) cell0 cell1 t0 t1 n0 n1 n2 :=
  ⟨hs.periodic, hs.three, hs.cells, hs.tabs, hs.nks, hs.size0, hs.size1, hs.apart, hs.re, hs.width, hs.alpha, hs.thresh⟩

/-- Transmittance of a transparent plate. -/
theorem plate_T {R : ℝ} (h0 : 0 ≤ R) (h1 : R < 1) (w θ1 : ℝ) : (bareSlab R R 0 w θ1).T (bareSlab R R 0 w θ1).trips = (1 - R) / (1 + R) := by
  have h2 : 1 - R * R ≠ 0 := by nlinarith
  have h3 : 1 + R ≠ 0 := by linarith
  simp only [Slab.T, Slab.trips, Slab.round, bareSlab, zero_mul, zero_div, neg_zero, Real.exp_zero, one_pow, one_mul, mul_one]
  rw [show 1 - R * R = (1 - R) * (1 + R) by ring]
  have h4 : 1 - R ≠ 0 := by linarith
  field_simp

theorem deficit_eq {a b : ℝ} (ha : 0 ≤ a) (hb : 0 ≤ b) : (1 - (a + b) / 2) / (1 + (a + b) / 2) = ((1 - a) / (1 + a) + (1 - b) / (1 + b)) / 2 - plateDeficit a b := by
  have h1 : 1 + a ≠ 0 := by linarith
  have h2 : 1 + b ≠ 0 := by linarith
  have h3 : 2 + a + b ≠ 0 := by linarith
  have h4 : 1 + (a + b) / 2 ≠ 0 := by linarith
  unfold plateDeficit
  rw [show (1 - (a + b) / 2) / (1 + (a + b) / 2) = (2 - (a + b)) / (2 + a + b) by rw [div_eq_div_iff h4 h3]; ring]
  field_simp
  ring

/-- The error has a sign, and vanishes only if the two reflectances are the same. -/
theorem deficit_sign {a b : ℝ} (ha : 0 ≤ a) (hb : 0 ≤ b) : 0 ≤ plateDeficit a b ∧ (plateDeficit a b = 0 ↔ a = b) := by
  have h1 : 0 < (1 + a) * (1 + b) * (2 + a + b) := by positivity
  refine ⟨div_nonneg (sq_nonneg _) h1.le, ?_⟩
  unfold plateDeficit
  rw [div_eq_zero_iff, or_iff_left h1.ne', sq_eq_zero_iff, sub_eq_zero]

theorem near_of_justBelow {X : Pol → ℝ} {x : Pol → ℝ} {δ D : ℝ} (h : ∀ pol, JustBelow (X pol) (x pol) δ) (hx : x .u = (x .s + x .p) / 2 - D) : |X .u - ((X .s + X .p) / 2 - D)| ≤ δ := by
  obtain ⟨a1, a2⟩ := h .u
  obtain ⟨b1, b2⟩ := h .s
  obtain ⟨c1, c2⟩ := h .p
  rw [abs_le]
  constructor <;> linarith

section
variable {c : RTStack} {cell0 cell1 : Cell} {n0 n1 n2 : ℝ} (hs : RTSlab c cell0 cell1 none none n0 n1 n2) (hn0 : 0 < n0) (hn1 : 0 < n1) (hn2 : 0 < n2) (harc : ∀ z, IsArcsin z (c.asin z))
  {θ θ1 θ2 : ℝ} (h0 : 0 ≤ θ) (h1 : θ < Real.pi / 2) (g0 : 0 ≤ θ1) (g1 : θ1 < Real.pi / 2) (k0 : 0 ≤ θ2) (k1 : θ2 < Real.pi / 2) (hsnell : n0 * Real.sin θ = n1 * Real.sin θ1) (hsnell2 : n1 * Real.sin θ1 = n2 * Real.sin θ2)
  {h : ℝ} (hh : cell0.zcov ≤ h) (hh0 : h + 1e-8 ≠ 0) (φ : ℝ) {N : ℕ} (hN : 0 < N) (L : Fin N → StackLaunch) (hL : ∀ k, AllFlat cell0 cell1 (L k).V) {d : ℕ} (hd : 3 ≤ d)

/-- The rays of `rt_structure.calculate` with polarisation `pol` and the random numbers `U`, each followed through at most `K` surfaces. -/
noncomputable def polRays (c : RTStack) (h θ φ : ℝ) {N : ℕ} (L : Fin N → StackLaunch) (K d : ℕ) (pol : Pol) (U : Fin N → Fin K → Fin d → ℝ) : List Ray :=
  List.ofFn fun k => recorded 0 1 (traceWith (withPol c pol) K (L k).V (U k) ((withPol c pol).start (L k).x (L k).y 0 1 (rA0 h θ φ)))

include hs hn0 hn1 hn2 harc h0 h1 g0 g1 k0 k1 hsnell hsnell2 hh hh0 hN hL hd

theorem pol_slab {ε : ℝ} (hε : 0 < ε) : ∃ K₀, ∀ K ≥ K₀, ∀ pol,
    let P : Measure (Fin N → Fin K → Fin d → ℝ) := Measure.pi fun _ => uniform2 K d
    let sl := bareSlab (textbookR n0 n1 θ θ1 pol) (textbookR n1 n2 θ1 θ2 pol) (c.S.alphas.getD 1 0) (c.S.widths.getD 1 0) θ1
    JustBelow (∫ U, resR (polRays c h θ φ L K d pol U) ∂P) (sl.R sl.trips) (c.S.thresh + ε) ∧
    JustBelow (∫ U, resT (polRays c h θ φ L K d pol U) ∂P) (sl.T sl.trips) (c.S.thresh + ε) ∧
    JustBelow (∫ U, resA (polRays c h θ φ L K d pol U) 1 ∂P) (sl.bulk sl.trips) (c.S.thresh + ε) := by
  have hnone : SumToOne none := fun t ht => by cases ht
  have cpos : ∀ t : ℝ, 0 ≤ t → t < Real.pi / 2 → 0 < Real.cos t := fun t t0 t1 => Real.cos_pos_of_mem_Ioo ⟨by linarith [Real.pi_pos], t1⟩
  have key : ∀ pol, ∃ K₀, ∀ K ≥ K₀,
      let P : Measure (Fin N → Fin K → Fin d → ℝ) := Measure.pi fun _ => uniform2 K d
      let sl := bareSlab (textbookR n0 n1 θ θ1 pol) (textbookR n1 n2 θ1 θ2 pol) (c.S.alphas.getD 1 0) (c.S.widths.getD 1 0) θ1
      JustBelow (∫ U, resR (polRays c h θ φ L K d pol U) ∂P) (sl.R sl.trips) (c.S.thresh + ε) ∧
      JustBelow (∫ U, resT (polRays c h θ φ L K d pol U) ∂P) (sl.T sl.trips) (c.S.thresh + ε) ∧
      JustBelow (∫ U, resA (polRays c h θ φ L K d pol U) 1 ∂P) (sl.bulk sl.trips) (c.S.thresh + ε) := by
    intro pol
    obtain ⟨e1, e2, e3, e4⟩ := C151_transparent (withPol c pol) harc hn0 hn1 hn2 h0 h1 g0 g1 hsnell (R2 := textbookR n1 n2 θ1 θ2 pol) (Or.inl ⟨θ2, k0, k1, hsnell2, rfl⟩)
    have r1 := textbookR_le_one' hn0 hn1 (cpos _ h0 h1) (cpos _ g0 g1).le pol
    have r2 := textbookR_lt_one hn1 hn2 (cpos _ g0 g1) (cpos _ k0 k1) pol
    have r2' := (textbookR_le_one' hn1 hn2 (cpos _ g0 g1) (cpos _ k0 k1).le pol).1
    obtain ⟨K₀, hK⟩ := C151_converges (slab_withPol hs pol) hnone hnone h0 h1 e2 e3 e4 hh hh0 φ hN L hL hd (Or.inr (by
      rw [e1]
      simp only [bareSlab]
      have : textbookR n1 n2 θ1 θ2 pol * textbookR n0 n1 θ θ1 pol ≤ textbookR n1 n2 θ1 θ2 pol * 1 := mul_le_mul_of_nonneg_left r1.2 r2'
      change textbookR n1 n2 θ1 θ2 pol * textbookR n0 n1 θ θ1 pol < 1
      linarith)) hε
    refine ⟨K₀, fun K hKK => ?_⟩
    obtain ⟨q1, q2, q3, -⟩ := hK K hKK
    rw [e1] at q1 q2 q3
    exact ⟨q1, q2, q3⟩
  obtain ⟨Ks, hKs⟩ := key .s
  obtain ⟨Kp, hKp⟩ := key .p
  obtain ⟨Ku, hKu⟩ := key .u
  refine ⟨max Ks (max Kp Ku), fun K hK pol => ?_⟩
  cases pol
  · exact hKs K (le_trans (le_max_left _ _) hK)
  · exact hKp K (le_trans (le_trans (le_max_left _ _) (le_max_right _ _)) hK)
  · exact hKu K (le_trans (le_trans (le_max_right _ _) (le_max_right _ _)) hK)

end

/-! ## The property -/

section
variable {c : RTStack} {cell0 cell1 : Cell} {n0 n1 n2 : ℝ} (hn0 : 0 < n0) (hn1 : 0 < n1) (hn2 : 0 < n2) (harc : ∀ z, IsArcsin z (c.asin z))
  {h : ℝ} (hh : cell0.zcov ≤ h) (hh0 : h + 1e-8 ≠ 0) (φ : ℝ) {N : ℕ} (hN : 0 < N) (L : Fin N → StackLaunch) (hL : ∀ k, AllFlat cell0 cell1 (L k).V) {d : ℕ} (hd : 3 ≤ d)

include hn0 hn1 hn2 harc hh hh0 hN hL hd in
/-- **C175, proved part: normal incidence.** For a slab of any material between flat surfaces, at normal incidence, the results of ray tracing for unpolarised light are the mean of those for s- and p-polarised light, on average over the random numbers, up to `I_thresh` and any `ε > 0`. -/
theorem C175_normal_partial (hs : RTSlab c cell0 cell1 none none n0 n1 n2) {ε : ℝ} (hε : 0 < ε) : ∃ K₀, ∀ K ≥ K₀,
    let P : Measure (Fin N → Fin K → Fin d → ℝ) := Measure.pi fun _ => uniform2 K d
    NearMean (fun pol => ∫ U, resR (polRays c h 0 φ L K d pol U) ∂P) (c.S.thresh + ε) ∧
    NearMean (fun pol => ∫ U, resT (polRays c h 0 φ L K d pol U) ∂P) (c.S.thresh + ε) ∧
    NearMean (fun pol => ∫ U, resA (polRays c h 0 φ L K d pol U) 1 ∂P) (c.S.thresh + ε) := by
  obtain ⟨K₀, hK⟩ := pol_slab hs hn0 hn1 hn2 harc le_rfl Real.pi_div_two_pos le_rfl Real.pi_div_two_pos le_rfl Real.pi_div_two_pos (by simp) (by simp) hh hh0 φ hN L hL hd hε
  refine ⟨K₀, fun K hKK => ?_⟩
  have q := hK K hKK
  intro P
  have fin : ∀ {X : Pol → ℝ} {x δ : ℝ}, (∀ pol, JustBelow (X pol) x δ) → NearMean X δ := by
    intro X x δ hX
    have := near_of_justBelow (x := fun _ => x) (D := 0) hX (by ring)
    rwa [sub_zero] at this
  simp only [textbookR_normal] at q
  exact ⟨fin fun pol => (q pol).1, fin fun pol => (q pol).2.1, fin fun pol => (q pol).2.2⟩

include hn0 hn1 harc hh hh0 hN hL hd in
/-- **C175, oblique incidence.** A transparent plate (medium `n1`, with the medium `n0` on both sides), light at the angle `θ` outside and `θ1` inside.  The transmittance for unpolarised light is not the mean of those for s- and p-polarised light: on average over the random numbers
and up to `I_thresh` and any `ε > 0`, it is less by `plateDeficit`, which is positive unless the plate reflects both polarisations alike (`deficit_sign`). -/
theorem C175_deficit_partial (hs : RTSlab c cell0 cell1 none none n0 n1 n0) (ha : c.S.alphas.getD 1 0 = 0) {θ θ1 : ℝ} (h0 : 0 ≤ θ) (h1 : θ < Real.pi / 2) (g0 : 0 ≤ θ1) (g1 : θ1 < Real.pi / 2) (hsnell : n0 * Real.sin θ = n1 * Real.sin θ1) {ε : ℝ} (hε : 0 < ε) : ∃ K₀, ∀ K ≥ K₀,
    let P : Measure (Fin N → Fin K → Fin d → ℝ) := Measure.pi fun _ => uniform2 K d
    let T := fun pol => ∫ U, resT (polRays c h θ φ L K d pol U) ∂P
    |T .u - ((T .s + T .p) / 2 - plateDeficit (textbookR n0 n1 θ θ1 .s) (textbookR n0 n1 θ θ1 .p))| ≤ c.S.thresh + ε := by
  obtain ⟨K₀, hK⟩ := pol_slab hs hn0 hn1 hn0 harc h0 h1 g0 g1 h0 h1 hsnell hsnell.symm hh hh0 φ hN L hL hd hε
  refine ⟨K₀, fun K hKK => ?_⟩
  have q := hK K hKK
  intro P T
  have cpos : ∀ t : ℝ, 0 ≤ t → t < Real.pi / 2 → 0 < Real.cos t := fun t t0 t1 => Real.cos_pos_of_mem_Ioo ⟨by linarith [Real.pi_pos], t1⟩
  have u := fun pol => textbookR_le_one' hn0 hn1 (cpos _ h0 h1) (cpos _ g0 g1).le pol
  have l := fun pol => textbookR_lt_one hn0 hn1 (cpos _ h0 h1) (cpos _ g0 g1) pol
  refine near_of_justBelow (X := T) (x := fun pol => (1 - textbookR n0 n1 θ θ1 pol) / (1 + textbookR n0 n1 θ θ1 pol)) (fun pol => ?_) ?_
  · have := (q pol).2.1
    have sy : textbookR n1 n0 θ1 θ pol = textbookR n0 n1 θ θ1 pol := by rw [textbookR_symm]
    rw [ha, sy, plate_T (u pol).1 (l pol)] at this
    exact this
  · simp only [textbookR_mean n0 n1 θ θ1]
    exact deficit_eq (u .s).1 (u .p).1

end

/-- The plate of refractive index √3 in air, 2 thick. -/
noncomputable def brewsterPlate (f : ℂ → ℂ) : RTStack :=
  { exRT with S := { exStack with alphas := [0, 0, 0], thresh := 1 / 1000 }, nks := [1, (√3 : ℝ), 1], asin := f }

/-- The surfaces of the plate whenever a ray meets them. -/
noncomputable def plateVisits : ℕ → Visit := fun _ => ⟨0, 0, fun s _ => ⟨planarTris 10 (if s = 0 then 0 else -2), 0, 0, 0, 0, 0⟩⟩

theorem brewster_slab (f : ℂ → ℂ) : RTSlab (brewsterPlate f) ⟨10, 10, 0, 0, 0⟩ ⟨10, 10, -2, -2, -2⟩ none none (1 : ℝ) (√3 : ℝ) (1 : ℝ) ∧ AllFlat ⟨10, 10, 0, 0, 0⟩ ⟨10, 10, -2, -2, -2⟩ plateVisits := by
  refine ⟨⟨rfl, rfl, rfl, rfl, by simp [brewsterPlate], by norm_num, by norm_num, by norm_num, by simp, by simp [brewsterPlate, exStack], by simp [brewsterPlate], by norm_num [brewsterPlate]⟩, fun i j => ?_⟩
  exact ⟨planarTris_flat (by norm_num) _, planarTris_flat (by norm_num) _⟩

/-- **C175 is violated.** Light at 60° (Brewster's angle) on a transparent plate of refractive index √3: `s` is transmitted to 3/5 and `p` completely, but unpolarised light not to 4/5 but to 7/9.  For any number of rays the calculated transmittance is, on average over the random numbers, at
least 2 % too small, however many surfaces the rays are followed through. -/
theorem C175_fails {f : ℂ → ℂ} (hf : ∀ z, IsArcsin z (f z)) (φ : ℝ) {N : ℕ} (hN : 0 < N) (xy : Fin N → ℝ × ℝ) : ∃ K₀, ∀ K ≥ K₀,
    let P : Measure (Fin N → Fin K → Fin 3 → ℝ) := Measure.pi fun _ => uniform2 K 3
    let T := fun pol => ∫ U, resT (polRays (brewsterPlate f) 5 (Real.pi / 3) φ (fun k => ⟨(xy k).1, (xy k).2, plateVisits⟩) K 3 pol U) ∂P
    T .u + 2 / 100 < (T .s + T .p) / 2 := by
  have h3 : √3 * √3 = 3 := Real.mul_self_sqrt (by norm_num)
  have h3p : 0 < √3 := by positivity
  obtain ⟨hs, hL⟩ := brewster_slab f
  obtain ⟨K₀, hK⟩ := C175_deficit_partial (c := brewsterPlate f) one_pos h3p hf (h := 5) (by norm_num) (by norm_num) φ hN (fun k => ⟨(xy k).1, (xy k).2, plateVisits⟩) (fun _ => hL) le_rfl hs (by simp [brewsterPlate])
    (θ := Real.pi / 3) (θ1 := Real.pi / 6) (by positivity) (by linarith [Real.pi_pos]) (by positivity) (by linarith [Real.pi_pos]) (by rw [Real.sin_pi_div_three, Real.sin_pi_div_six]; ring) (ε := 1 / 10000) (by norm_num)
  refine ⟨K₀, fun K hKK => ?_⟩
  have q := hK K hKK
  intro P T
  have e1 : textbookR 1 (√3) (Real.pi / 3) (Real.pi / 6) .s = 1 / 4 := by
    simp only [textbookR, Real.cos_pi_div_three, Real.cos_pi_div_six]
    rw [show √3 * (√3 / 2) = 3 / 2 by rw [← mul_div_assoc, h3]]
    norm_num
  have e2 : textbookR 1 (√3) (Real.pi / 3) (Real.pi / 6) .p = 0 := by
    simp only [textbookR, Real.cos_pi_div_three, Real.cos_pi_div_six]
    rw [show 1 * (√3 / 2) - √3 * (1 / 2) = 0 by ring]
    simp
  rw [e1, e2] at q
  have e3 : plateDeficit (1 / 4) 0 = 1 / 45 := by norm_num [plateDeficit]
  have e4 : (brewsterPlate f).S.thresh = 1 / 1000 := rfl
  rw [e3, e4, abs_le] at q
  linarith [q.2]

/-- There is such an inverse of the sine. -/
example : ∃ f : ℂ → ℂ, ∀ z, IsArcsin z (f z) := by
  choose f hf using exists_isArcsin
  exact ⟨f, hf⟩

/-! ## One surface -/

/-- **C175, proved part: one surface.** Light on one flat surface between transparent media, at any angle (also beyond the critical angle, but not exactly at it): reflectance and transmittance for unpolarised light are the mean of those for s- and p-polarised light, on average over the random numbers,
up to `I_thresh` and any `ε > 0`. -/
theorem C175_surface_partial {c : RTStack} (harc : ∀ z, IsArcsin z (c.asin z)) {cells : ℕ → Cell} {nr θ : ℕ → ℝ} (hs : ∀ pol, FlatLayers (withPol c pol) 1 cells (fun _ => none) (fun i => (nr i : ℂ)) θ) (hcrit : nr 0 * Real.sin (θ 0) ≠ nr 1)
    {h : ℝ} (hh : (cells 0).zcov ≤ h) (hh0 : h + 1e-8 ≠ 0) (φ : ℝ) {N : ℕ} (hN : 0 < N) (L : Fin N → StackLaunch) (hL : ∀ k, AllFlatTo 1 cells (L k).V) {d : ℕ} (hd : 3 ≤ d) {ε : ℝ} (hε : 0 < ε) : ∃ K₀, ∀ K ≥ K₀,
    let P : Measure (Fin N → Fin K → Fin d → ℝ) := Measure.pi fun _ => uniform2 K d
    NearMean (fun pol => ∫ U, resR (polRays c h (θ 0) φ L K d pol U) ∂P) (c.S.thresh + ε) ∧
    NearMean (fun pol => ∫ U, resT (polRays c h (θ 0) φ L K d pol U) ∂P) (c.S.thresh + ε) := by
  have hpos : ∀ i, i ≤ 1 → 0 < nr i := fun i hi => by simpa using (hs .s).re i hi
  have hang := (hs .s).angle 0 one_pos
  obtain ⟨R, hR, hmean⟩ : ∃ R : Pol → ℝ, (∀ pol, (flatStackOf (withPol c pol) 1 (fun _ => none) (fun i => (nr i : ℂ)) θ).above 0 = ⟨R pol, 1 - R pol, fun _ => 0⟩ ∧ 0 ≤ R pol ∧ R pol ≤ 1) ∧ R .u = (R .s + R .p) / 2 := by
    have hsn : ∀ i, i < 1 → nr i * Real.sin (θ i) = nr 0 * Real.sin (θ 0) := fun i hi => by rw [Nat.lt_one_iff.mp hi]
    have ht := fun pol => C157_transparent (withPol c pol) harc (m := 1) le_rfl hpos (hs .s).angle hsn
    have hsin0 : 0 ≤ Real.sin (θ 0) := Real.sin_nonneg_of_nonneg_of_le_pi hang.1 (by linarith [hang.2, Real.pi_pos])
    have p0 := hpos 0 (by omega)
    have p1 := hpos 1 le_rfl
    rcases lt_or_gt_of_ne hcrit with hlt | hgt
    · have hq : nr 0 * Real.sin (θ 0) / nr 1 < 1 := (div_lt_one p1).mpr hlt
      have hq0 : 0 ≤ nr 0 * Real.sin (θ 0) / nr 1 := by positivity
      obtain ⟨t, ht0, ht1, hts⟩ : ∃ t, 0 ≤ t ∧ t < Real.pi / 2 ∧ nr 0 * Real.sin (θ 0) = nr 1 * Real.sin t := by
        refine ⟨Real.arcsin (nr 0 * Real.sin (θ 0) / nr 1), Real.arcsin_nonneg.mpr hq0, Real.arcsin_lt_pi_div_two.mpr hq, ?_⟩
        rw [Real.sin_arcsin (by linarith) hq.le]
        field_simp
      refine ⟨fun pol => textbookR (nr 0) (nr 1) (θ 0) t pol, fun pol => ⟨((ht pol).2.2.2.1 t ht0 ht1 hts).1, ?_⟩, textbookR_mean _ _ _ _⟩
      exact textbookR_le_one' p0 p1 (Real.cos_pos_of_mem_Ioo ⟨by linarith [hang.1, Real.pi_pos], hang.2⟩) (Real.cos_pos_of_mem_Ioo ⟨by linarith [Real.pi_pos], ht1⟩).le pol
    · refine ⟨fun _ => 1, fun pol => ⟨?_, zero_le_one, le_rfl⟩, by norm_num⟩
      rw [(ht pol).2.2.2.2 hgt]
      simp
  have key : ∀ pol, ∃ K₀, ∀ K ≥ K₀,
      let P : Measure (Fin N → Fin K → Fin d → ℝ) := Measure.pi fun _ => uniform2 K d
      JustBelow (∫ U, resR (polRays c h (θ 0) φ L K d pol U) ∂P) (R pol) (c.S.thresh + ε) ∧ JustBelow (∫ U, resT (polRays c h (θ 0) φ L K d pol U) ∂P) (1 - R pol) (c.S.thresh + ε) := by
    intro pol
    obtain ⟨K₀, hK⟩ := C157_converges (hs pol) hh hh0 φ hN L hL hd (Or.inr fun j hj => by omega) hε
    refine ⟨K₀, fun K hKK => ?_⟩
    obtain ⟨e, r0, r1⟩ := hR pol
    have bal : ∀ q : Quantity, q = .R ∨ q = .T → (flatStackOf (withPol c pol) 1 (fun _ => none) (fun i => (nr i : ℂ)) θ).Balance q (fun _ => R pol * q.onReflect + (1 - R pol) * q.onTransmit) (fun _ => 0) := by
      rintro q hq
      refine ⟨fun j hj => ?_, fun j hj => ?_, fun j => ?_, fun j => ⟨le_rfl, zero_le_one⟩⟩
      · have hj' : j < 1 := hj
        obtain rfl : j = 0 := by omega
        rw [e]
        have hm : (flatStackOf (withPol c pol) 1 (fun _ => none) (fun i => (nr i : ℂ)) θ).m = 1 := rfl
        rcases hq with rfl | rfl <;> simp [FlatStack.upwards, FlatStack.downwards, hm, Quantity.atSurface]
      · have hj' : j + 1 < 1 := hj
        omega
      · rcases hq with rfl | rfl <;> simp [Quantity.onReflect, Quantity.onTransmit] <;> constructor <;> linarith
    have a := hK K hKK .R _ _ (bal .R (Or.inl rfl))
    have b := hK K hKK .T _ _ (bal .T (Or.inr rfl))
    simp only [Quantity.onReflect, Quantity.onTransmit, mul_one, mul_zero, add_zero, zero_add] at a b
    exact ⟨a, b⟩
  obtain ⟨Ks, hKs⟩ := key .s
  obtain ⟨Kp, hKp⟩ := key .p
  obtain ⟨Ku, hKu⟩ := key .u
  refine ⟨max Ks (max Kp Ku), fun K hK => ?_⟩
  intro P
  have all : ∀ pol, JustBelow (∫ U, resR (polRays c h (θ 0) φ L K d pol U) ∂P) (R pol) (c.S.thresh + ε) ∧ JustBelow (∫ U, resT (polRays c h (θ 0) φ L K d pol U) ∂P) (1 - R pol) (c.S.thresh + ε) := by
    intro pol
    cases pol
    · exact hKs K (le_trans (le_max_left _ _) hK)
    · exact hKp K (le_trans (le_trans (le_max_left _ _) (le_max_right _ _)) hK)
    · exact hKu K (le_trans (le_trans (le_max_right _ _) (le_max_right _ _)) hK)
  have a := near_of_justBelow (D := 0) (fun pol => (all pol).1) (by rw [hmean]; ring)
  have b := near_of_justBelow (D := 0) (fun pol => (all pol).2) (by rw [hmean]; ring)
  rw [sub_zero] at a b
  exact ⟨a, b⟩

/-! ## The matrix method -/

/-- **C175, the matrix method.** The same transparent plate calculated with the matrix method, where the results of the thin-film solver for unpolarised light are the mean of those for s and p at every angle: for enough polar bins and small `I_thresh`, the transmittance is less than the mean by the same
`plateDeficit`.  (`X` is `R` of one surface at the two polarisations.) -/
theorem C175_matrix_partial {ω : Type*} (P : Pol → PlanarStack 0 0) (hP : ∀ pol, (P pol).Ok) (ha : ∀ pol, (P pol).a = 0) (X : Pol → ℝ) (hX : X .u = (X .s + X .p) / 2) (hX0 : ∀ pol, 0 ≤ X pol ∧ X pol < 1)
    (h0 : ∀ pol, (P pol).res0.T (P pol).thIn = 1 - X pol) (h1 : ∀ pol, (P pol).res1.R (P pol).θB = X pol ∧ (P pol).res1.T (P pol).θB = 1 - X pol) (hb : ∀ pol, (P pol).resb.R (P pol).θB = X pol)
    (hout : ∀ pol, (P pol).bulkN / (P pol).outN * Real.sin (P pol).θB < 1) {ε : ℝ} (hε : 0 < ε) :
    ∃ (M : ℕ) (τ : ℝ), 0 < τ ∧ ∀ n ≥ M, ∀ out : Pol → Outcome 0 0, (∀ pol, (P pol).Returns ω n τ (out pol)) →
      |(out .u).T - (((out .s).T + (out .p).T) / 2 - plateDeficit (X .s) (X .p))| < ε := by
  have hT : ∀ pol, (P pol).slab.T (P pol).slab.trips = (1 - X pol) / (1 + X pol) := by
    intro pol
    obtain ⟨x0, x1⟩ := hX0 pol
    have h2 : 1 - X pol * X pol ≠ 0 := by nlinarith
    have h3 : 1 + X pol ≠ 0 := by linarith
    have h4 : 1 - X pol ≠ 0 := by linarith
    simp only [Slab.T, Slab.trips, Slab.round, PlanarStack.slab, slabAt, ha, h0, h1, hb, if_pos (hout pol)]
    norm_num
    rw [show 1 - X pol * X pol = (1 - X pol) * (1 + X pol) by ring]
    field_simp
  choose M hM using fun pol => planar_converges (ω := ω) (P pol) (hP pol) (_root_.half_pos hε)
  refine ⟨max (M .s) (max (M .p) (M .u)), ε / 2 / 2, by positivity, fun n hn out ho => ?_⟩
  have a := (hM .s n (le_trans (le_max_left _ _) hn) _ (ho .s)).2.1
  have b := (hM .p n (le_trans (le_trans (le_max_left _ _) (le_max_right _ _)) hn) _ (ho .p)).2.1
  have e := (hM .u n (le_trans (le_trans (le_max_right _ _) (le_max_right _ _)) hn) _ (ho .u)).2.1
  rw [hT] at a b e
  rw [hX, deficit_eq (hX0 .s).1 (hX0 .p).1] at e
  rw [abs_lt] at a b e ⊢
  constructor <;> linarith [a.1, a.2, b.1, b.2, e.1, e.2]

/-! ## The theorems apply -/

/-- Normal incidence on the plate. -/
example : ∃ c : RTStack, ∃ K₀, ∀ K ≥ K₀,
    NearMean (fun pol => ∫ U, resT (polRays c 5 0 0 (fun _ : Fin 1 => ⟨1, 1, plateVisits⟩) K 3 pol U) ∂(Measure.pi fun _ => uniform2 K 3)) (1 / 1000 + 1 / 10000) := by
  choose f hf using exists_isArcsin
  obtain ⟨hs, hL⟩ := brewster_slab f
  obtain ⟨K₀, hK⟩ := C175_normal_partial (c := brewsterPlate f) one_pos (by positivity) one_pos hf (h := 5) (by norm_num) (by norm_num) 0 Nat.one_pos (fun _ => ⟨1, 1, plateVisits⟩) (fun _ => hL) le_rfl hs (ε := 1 / 10000) (by norm_num)
  exact ⟨brewsterPlate f, K₀, fun K hKK => (hK K hKK).2.1⟩

/-- One surface of glass at 60°. -/
example : ∃ c : RTStack, ∃ K₀, ∀ K ≥ K₀,
    NearMean (fun pol => ∫ U, resR (polRays c 5 (Real.pi / 3) 0 (fun _ : Fin 1 => ⟨1, 1, plateVisits⟩) K 3 pol U) ∂(Measure.pi fun _ => uniform2 K 3)) (1 / 1000 + 1 / 10000) := by
  choose f hf using exists_isArcsin
  let c : RTStack := { brewsterPlate f with S := { exStack with widths := [0, 0], alphas := [0, 0], thresh := 1 / 1000 }, nks := [1, (√3 : ℝ)], cells := [⟨10, 10, 0, 0, 0⟩], tabs := [none] }
  let nr : ℕ → ℝ := fun i => if i = 0 then 1 else √3
  have h3 : √3 * √3 = 3 := Real.mul_self_sqrt (by norm_num)
  have h3p : 0 < √3 := by positivity
  have h3l : 1 < √3 := by nlinarith
  have hsin : 1 * Real.sin (Real.pi / 3) = √3 * Real.sin (Real.pi / 6) := by rw [Real.sin_pi_div_three, Real.sin_pi_div_six]; ring
  have hpos : ∀ i, 0 < nr i := fun i => by simp only [nr]; split_ifs <;> positivity
  have ang : ∀ i : ℕ, i < 1 → 0 ≤ (fun _ : ℕ => Real.pi / 3) i ∧ (fun _ : ℕ => Real.pi / 3) i < Real.pi / 2 := fun i _ => ⟨by positivity, by show Real.pi / 3 < Real.pi / 2; linarith [Real.pi_pos]⟩
  have hs : ∀ pol, FlatLayers (withPol c pol) 1 (fun _ => ⟨10, 10, 0, 0, 0⟩) (fun _ => none) (fun i => (nr i : ℂ)) (fun _ => Real.pi / 3) := by
    intro pol
    have ht := C157_transparent (withPol c pol) hf (m := 1) le_rfl (nr := nr) (θ := fun _ => Real.pi / 3) (fun i _ => hpos i) ang (fun i hi => by rw [Nat.lt_one_iff.mp hi])
    refine ⟨rfl, le_rfl, le_rfl, ?_, ?_, ?_, ?_, ?_, ?_, ?_, ?_, ?_, ?_, ang, ?_, ?_, ?_⟩
    · intro j hj; rw [Nat.lt_one_iff.mp hj]; rfl
    · intro j hj; rw [Nat.lt_one_iff.mp hj]; rfl
    · intro i hi
      obtain rfl | rfl : i = 0 ∨ i = 1 := by omega
      · simp [withPol, c, nr]
      · simp [withPol, c, nr]
    · intro i _; simpa using hpos i
    · intro j _; norm_num
    · intro j hj; omega
    · intro i; rcases i with _ | _ | i <;> simp [withPol, c]
    · intro i; rcases i with _ | _ | i <;> simp [withPol, c]
    · norm_num [withPol, c]
    · intro tab htab; simp [withPol, c] at htab; subst htab; intro t ht; simp at ht
    · intro j hj; omega
    · intro j hj; omega
    · refine Or.inr ⟨rfl, (ht.2.2.2.1 (Real.pi / 6) (by positivity) (by linarith [Real.pi_pos]) ?_).2⟩
      simpa [nr] using hsin
  obtain ⟨K₀, hK⟩ := C175_surface_partial (c := c) hf hs (by simp only [nr, if_true]; rw [Real.sin_pi_div_three]; norm_num; linarith) (h := 5) (by norm_num) (by norm_num) 0 Nat.one_pos (fun _ => ⟨1, 1, plateVisits⟩)
    (fun _ i j k hj => by rw [Nat.lt_one_iff.mp hj]; exact planarTris_flat (by norm_num) _) le_rfl (ε := 1 / 10000) (by norm_num)
  exact ⟨c, K₀, fun K hKK => (hK K hKK).1⟩

/-- The plate of `C175_fails` for the matrix method. -/
noncomputable def brewsterPlanar (X : ℝ) : PlanarStack 0 0 :=
  let res : TmmRes := ⟨fun _ => X, fun θ => if 1 < √3 * Real.sin θ then 0 else 1 - X, fun _ _ => 0⟩
  { thIn := Real.pi / 3, inN := 1, bulkN := √3, outN := 1, a := 0, res0 := ⟨fun _ => X, fun _ => 1 - X, fun _ _ => 0⟩, res1 := res, resb := res }

theorem brewsterPlanar_θB (X : ℝ) : (brewsterPlanar X).θB = Real.pi / 6 := by
  have h3 : √3 ≠ 0 := by positivity
  simp only [PlanarStack.θB, brewsterPlanar]
  rw [show 1 / √3 * Real.sin (Real.pi / 3) = Real.sin (Real.pi / 6) by rw [Real.sin_pi_div_three, Real.sin_pi_div_six]; field_simp]
  exact Real.arcsin_sin (by linarith [Real.pi_pos]) (by linarith [Real.pi_pos])

theorem brewsterPlanar_in : √3 * Real.sin (Real.pi / 6) < 1 := by
  have h3 : √3 * √3 = 3 := Real.mul_self_sqrt (by norm_num)
  have h3p : 0 < √3 := by positivity
  rw [Real.sin_pi_div_six]
  nlinarith

theorem brewsterPlanar_ok {X : ℝ} (h0 : 0 ≤ X) (h1 : X < 1) : (brewsterPlanar X).Ok := by
  have h3 : √3 * √3 = 3 := Real.mul_self_sqrt (by norm_num)
  have h3p : 0 < √3 := by positivity
  have hc : ContinuousAt (fun θ : ℝ => if 1 < √3 * Real.sin θ then (0 : ℝ) else 1 - X) (Real.pi / 6) := by
    have hlt : ∀ᶠ θ : ℝ in nhds (Real.pi / 6), √3 * Real.sin θ < 1 := by
      have : ContinuousAt (fun θ : ℝ => √3 * Real.sin θ) (Real.pi / 6) := (continuous_const.mul Real.continuous_sin).continuousAt
      exact this.eventually_lt continuousAt_const brewsterPlanar_in
    refine (continuousAt_const (y := (1 - X : ℝ))).congr ?_
    filter_upwards [hlt] with θ hθ
    rw [if_neg (not_lt.mpr hθ.le)]
  refine ⟨⟨by simp only [brewsterPlanar]; positivity, by simp only [brewsterPlanar]; linarith [Real.pi_pos]⟩, one_pos, h3p, one_pos, ?_, ?_, ?_, continuousAt_const, continuousAt_const, fun _ => continuousAt_const,
    continuousAt_const, ?_, fun _ => continuousAt_const, continuousAt_const, ?_, fun _ => continuousAt_const, ?_⟩
  · simp only [brewsterPlanar]; rw [Real.sin_pi_div_three]; linarith
  · simp only [brewsterPlanar]; rw [Real.sin_pi_div_three]; intro h; nlinarith
  · intro θ hθ
    have : 1 < √3 * Real.sin θ := by simpa [brewsterPlanar] using hθ
    simp only [brewsterPlanar, if_pos this]
    norm_num
  · rw [brewsterPlanar_θB]; exact hc
  · rw [brewsterPlanar_θB]; exact hc
  · simp only [Slab.round, PlanarStack.slab, slabAt, brewsterPlanar_θB]
    simp only [brewsterPlanar]
    norm_num
    nlinarith

/-- With the reflectances 1/4 for s and 0 for p, the matrix method gives 1/45 less than the mean. -/
example {ω : Type*} : ∃ (P : Pol → PlanarStack 0 0) (M : ℕ) (τ : ℝ), 0 < τ ∧ ∀ n ≥ M, ∀ out : Pol → Outcome 0 0, (∀ pol, (P pol).Returns ω n τ (out pol)) →
    |(out .u).T - (((out .s).T + (out .p).T) / 2 - 1 / 45)| < 1 / 1000 := by
  let X : Pol → ℝ := fun pol => match pol with | .s => 1 / 4 | .p => 0 | .u => 1 / 8
  have hX : ∀ pol, 0 ≤ X pol ∧ X pol < 1 := fun pol => by cases pol <;> norm_num [X]
  have := C175_matrix_partial (ω := ω) (fun pol => brewsterPlanar (X pol)) (fun pol => brewsterPlanar_ok (hX pol).1 (hX pol).2) (fun _ => rfl) X (by norm_num [X]) hX (fun _ => rfl)
    (fun pol => by rw [brewsterPlanar_θB]; exact ⟨rfl, if_neg (not_lt.mpr brewsterPlanar_in.le)⟩) (fun _ => rfl) (fun pol => by rw [brewsterPlanar_θB]; simpa [brewsterPlanar] using brewsterPlanar_in) (ε := 1 / 1000) (by norm_num)
  rw [show plateDeficit (X .s) (X .p) = 1 / 45 by norm_num [plateDeficit, X]] at this
  exact ⟨_, this⟩

end Rayflare
