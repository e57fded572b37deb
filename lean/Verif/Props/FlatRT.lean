import Verif.Props.FlatSlab
import Verif.Props.Fresnel

/-!
# Property C151: ray tracing of a slab between flat surfaces gives the textbook formulas

Helper lemmas are in `Props/FlatTrace` (one surface) and `Props/FlatSlab` (the slab); the specification is `Spec/FlatTrace` and `Spec/Planar`.
-/

namespace Rayflare

open Rayflare.Np Rayflare.Model Rayflare.Spec Rayflare.Lemmas MeasureTheory

/-- The ray has come to an end. -/
def Finished : StackRes → Prop
  | .next s => s.ray.stop = true
  | _ => False

/-- `m` is at most the exact value `x`, and less than it by at most `ε`. -/
def JustBelow (m x ε : ℝ) : Prop := x - ε ≤ m ∧ m ≤ x

theorem branchesStack_add {c : RTStack} (htab : ∀ t, some t ∈ c.tabs → ∀ side θ, 0 ≤ (t side θ).1 ∧ 0 ≤ (t side θ).2.1 ∧ (t side θ).1 + (t side θ).2.1 ≤ 1) (n : ℕ) (g h : StackRes → ℝ) (K : ℕ) (V : ℕ → Visit) (s : StackRay) :
    branchesStack c n (fun o => g o + h o) K V s = branchesStack c n g K V s + branchesStack c n h K V s := by
  have hint : ∀ g : StackRes → ℝ, Integrable (fun u : Fin K → Fin n → ℝ => g (traceWith c K V u s)) (uniform2 K n) := by
    intro g
    obtain ⟨hm, ⟨C, hC⟩, -⟩ := unbiased_stack c (n := n) htab g K V s
    exact Integrable.of_bound hm.aestronglyMeasurable C (Filter.Eventually.of_forall fun u => by rw [Real.norm_eq_abs]; exact hC u)
  rw [← C131_unbiased c htab, ← C131_unbiased c htab, ← C131_unbiased c htab, integral_add (hint g) (hint h)]

section
variable {c : RTStack} {cell0 cell1 : Cell} {t0 t1 : Option Table} {n0 n1 n2 : ℂ} (hs : RTSlab c cell0 cell1 t0 t1 n0 n1 n2) (ht0 : SumToOne t0) (ht1 : SumToOne t1)
  {θ : ℝ} (h0 : 0 ≤ θ) (h1 : θ < Real.pi / 2)
  (hin : sinRefr t0.isSome n0 n1 θ < 1)
  (hrear : (slabOf c t0 t1 n0 n1 n2 θ).rear.trns = 0 ∨ sinRefr t1.isSome n1 n2 (refrOf t0.isSome n0 n1 θ) < 1)
  (hback : (slabOf c t0 t1 n0 n1 n2 θ).back.trns = 0 ∨ sinRefr t0.isSome n1 n0 (refrOf t0.isSome n0 n1 θ) < 1)
  {h : ℝ} (hh : cell0.zcov ≤ h) (hh0 : h + 1e-8 ≠ 0) (φ : ℝ)
  {N : ℕ} (hN : 0 < N) (L : Fin N → StackLaunch) (hL : ∀ k, AllFlat cell0 cell1 (L k).V) (K : ℕ) {n : ℕ} (hn : 3 ≤ n)

include hs ht0 ht1 in
theorem slab_htab : ∀ t, some t ∈ c.tabs → ∀ side θ, 0 ≤ (t side θ).1 ∧ 0 ≤ (t side θ).2.1 ∧ (t side θ).1 + (t side θ).2.1 ≤ 1 := by
  intro t ht side θ
  rw [hs.tabs] at ht
  simp only [List.mem_cons, List.not_mem_nil, or_false] at ht
  rcases ht with e | e
  · obtain ⟨a, b, d, f⟩ := ht0 t e.symm side θ
    exact ⟨a, b, by linarith [List.sum_nonneg d]⟩
  · obtain ⟨a, b, d, f⟩ := ht1 t e.symm side θ
    exact ⟨a, b, by linarith [List.sum_nonneg d]⟩

include h0 h1 hh hh0 in
theorem launch_front (c : RTStack) (x y : ℝ) : Going 1 θ (c.start x y 0 1 (rA0 h θ φ)).d ∧ ∃ r, (c.start x y 0 1 (rA0 h θ φ)).r = some r ∧ cell0.zcov < r.z := by
  refine ⟨?_, _, rfl, lt_of_le_of_lt hh (C101_above_first_surface c.S h θ φ x y h0 h1 hh0).2.2⟩
  have := (C101_direction h θ φ x y h0 h1 hh0).1
  simp only [RTStack.start, this]
  refine ⟨Or.inl rfl, ?_, by simp [incoming]⟩
  have h2 := Real.sin_sq_add_cos_sq φ
  simp only [incoming]
  linear_combination Real.sin θ ^ 2 * h2

open Classical in
include hs ht0 ht1 h0 h1 hin hrear hback hh hh0 hL hn in
/-- One launch, any quantity. -/
theorem slab_tally {e cR cT cI : ℝ} (he : 0 ≤ e ∧ e ≤ 1) {j l : ℕ} {xD xU xS : ℝ} (pot : Potential (slabOf c t0 t1 n0 n1 n2 θ) e cR cT cI j l xD xU xS) (k : Fin N) :
    JustBelow (branchesStack c n (fun o => tally e cR cT cI j l (recorded 0 1 o)) K (L k).V (c.start (L k).x (L k).y 0 1 (rA0 h θ φ))) xS
      (c.S.thresh + (uniform2 K n).real {u | ¬ Finished (traceWith c K (L k).V u (c.start (L k).x (L k).y 0 1 (rA0 h θ φ)))}) := by
  obtain ⟨hgo, r, hr, hz⟩ := launch_front h0 h1 hh hh0 φ c (L k).x (L k).y
  have htab := slab_htab hs ht0 ht1
  set s := c.start (L k).x (L k).y 0 1 (rA0 h θ φ) with hsdef
  have hblank : tally e cR cT cI j l (Stack.start 0 1) = 0 := by
    rw [tally_gone rfl rfl]; simp [Stack.start]
  constructor
  · have hprob := C131_probability c htab K n (L k).V s {o | ¬ Finished o}
    simp only [Set.mem_setOf_eq] at hprob
    have hadd := branchesStack_add htab n (fun o => tally e cR cT cI j l (recorded 0 1 o)) (fun o => if ¬ Finished o then (1 : ℝ) else 0) K (L k).V s
    have := (slab_start hs h0 h1 hin hn hrear hback ht0 ht1 pot he
      (g := fun o => tally e cR cT cI j l (recorded 0 1 o) + if ¬ Finished o then (1 : ℝ) else 0)
      (fun s hst => by simp only [recorded, Finished, hst, if_true, not_true, if_false, add_zero]) (K := K) (hL k) (s := s) rfl rfl rfl rfl rfl rfl rfl hgo hr hz).2
      (fun s hst => by simp only [recorded, Finished, hst, Bool.false_eq_true, if_false, hblank, not_false_eq_true, if_true, zero_add])
    rw [hadd, ← hprob] at this
    linarith
  · exact (slab_start hs h0 h1 hin hn hrear hback ht0 ht1 pot he (g := fun o => tally e cR cT cI j l (recorded 0 1 o))
      (fun s hst => by simp only [recorded, hst, if_true]) (K := K) (hL k) (s := s) rfl rfl rfl rfl rfl rfl rfl hgo hr hz).1
      (fun s hst => by simp only [recorded, hst, Bool.false_eq_true, if_false, hblank])

theorem justBelow_mean {N : ℕ} (hN : 0 < N) {m ε : Fin N → ℝ} {x δ : ℝ} (h : ∀ k, JustBelow (m k) x (δ + ε k)) : JustBelow ((∑ k, m k) / N) x (δ + (∑ k, ε k) / N) := by
  have hN' : (0 : ℝ) < N := by exact_mod_cast hN
  have e : ∑ _k : Fin N, x = N * x := by simp
  have e' : ∑ _k : Fin N, δ = N * δ := by simp
  constructor
  · have := Finset.sum_le_sum fun k (_ : k ∈ Finset.univ) => (h k).1
    simp only [Finset.sum_sub_distrib, Finset.sum_add_distrib, e, e'] at this
    rw [le_div_iff₀ hN']
    have e3 : (∑ k, ε k) / N * N = ∑ k, ε k := by field_simp
    linarith
  · have := Finset.sum_le_sum fun k (_ : k ∈ Finset.univ) => (h k).2
    rw [e] at this
    rw [div_le_iff₀ hN']
    linarith

/-! ## The property -/

include hs ht0 ht1 h0 h1 hin hrear hback hh hh0 hN hL hn in
/-- **C151.** Rays are traced at an angle of incidence `θ` through a slab between two flat surfaces (with Fresnel equations or lookup tables), each through at most `K` surfaces.  The reflectance, the transmittance, the absorptance of the slab and of each layer of
the coatings, on average over the random numbers, are those of the textbook formulas for the incoherent slab.  They are never larger, and they are less by at most the intensity at which rays are given up, plus the probability that a ray is not finished after `K` surfaces. -/
theorem C151_slab :
    let start := fun k => c.start (L k).x (L k).y 0 1 (rA0 h θ φ)
    let rays := fun U : Fin N → Fin K → Fin n → ℝ => List.ofFn fun k => recorded 0 1 (traceWith c K (L k).V (U k) (start k))
    let P : Measure (Fin N → Fin K → Fin n → ℝ) := Measure.pi fun _ => uniform2 K n
    let late := (∑ k, (uniform2 K n).real {u | ¬ Finished (traceWith c K (L k).V u (start k))}) / N
    let sl := slabOf c t0 t1 n0 n1 n2 θ
    JustBelow (∫ U, resR (rays U) ∂P) (sl.R sl.trips) (c.S.thresh + late) ∧
    JustBelow (∫ U, resT (rays U) ∂P) (sl.T sl.trips) (c.S.thresh + late) ∧
    JustBelow (∫ U, resA (rays U) 1 ∂P) (sl.bulk sl.trips) (c.S.thresh + late) ∧
    (∀ l, JustBelow (∫ U, resAint (rays U) 0 l ∂P) (sl.abs0 sl.trips l) (c.S.thresh + late)) ∧
    ∀ l, JustBelow (∫ U, resAint (rays U) 1 l ∂P) (sl.abs1 sl.trips l) (c.S.thresh + late) := by
  intro start rays P late sl
  obtain ⟨eR, eT, eA, eI⟩ := C131_RAT c (slab_htab hs ht0 ht1) K n 0 1 (rA0 h θ φ) L
  have conserves : ∀ {tab : Option Table} (_ : SumToOne tab) (ni nj : ℂ) (side : ℤ) (θ : ℝ), Conserves (faceOf c.asin c.pol tab ni nj side θ) := fun ht ni nj side θ =>
    ⟨(flatFace_ok ht c.asin c.pol ni nj side θ).1, (flatFace_ok ht c.asin c.pol ni nj side θ).2.1, (flatFace_ok ht c.asin c.pol ni nj side θ).2.2.1, (flatFace_ok ht c.asin c.pol ni nj side θ).2.2.2.1⟩
  have key : ∀ {e cR cT cI : ℝ} (_ : 0 ≤ e ∧ e ≤ 1) (_ : 0 ≤ cR ∧ cR ≤ 1) (_ : 0 ≤ cT ∧ cT ≤ 1) (_ : 0 ≤ cI ∧ cI ≤ 1) (j l : ℕ) (x : ℝ),
      x = cR * sl.front.refl + cI * (if 0 = j then sl.front.abs l else 0) + sl.front.trns * ((1 - sl.pass) * e + sl.pass * ((cT * sl.rear.trns + cI * (if 1 = j then sl.rear.abs l else 0)
        + sl.rear.refl * ((1 - sl.pass) * e + sl.pass * (cR * sl.back.trns + cI * (if 0 = j then sl.back.abs l else 0) + sl.back.refl * ((1 - sl.pass) * e)))) * sl.trips)) →
      JustBelow ((∑ k, branchesStack c n (fun o => tally e cR cT cI j l (recorded 0 1 o)) K (L k).V (start k)) / N) x (c.S.thresh + late) := by
    intro e cR cT cI he hcR hcT hcI j l x hx
    have pot := potential_exists (sl := sl) (conserves ht0 _ _ _ _) (conserves ht1 _ _ _ _) (conserves ht0 _ _ _ _) ⟨(Real.exp_pos _).le, slab_pass_le hs h0 h1 hin⟩ he hcR hcT hcI j l
    rw [hx]
    exact justBelow_mean hN fun k => slab_tally hs ht0 ht1 h0 h1 hin hrear hback hh hh0 φ L hL K hn he pot k
  have z : (0 : ℝ) ≤ 0 ∧ (0 : ℝ) ≤ 1 := ⟨le_refl _, zero_le_one⟩
  have o : (0 : ℝ) ≤ 1 ∧ (1 : ℝ) ≤ 1 := ⟨zero_le_one, le_refl _⟩
  refine ⟨?_, ?_, ?_, fun l => ?_, fun l => ?_⟩
  · have := key z o z z 0 0 (sl.R sl.trips) (by simp only [Slab.R]; ring)
    rw [eR]
    convert this using 6
    simp [tally]
  · have := key z z o z 0 0 (sl.T sl.trips) (by simp only [Slab.T]; ring)
    rw [eT]
    convert this using 6
    simp [tally]
  · have hq : sl.bulk sl.trips = sl.front.trns * ((1 - sl.pass) + sl.pass * (sl.rear.refl * ((1 - sl.pass) + sl.pass * (sl.back.refl * (1 - sl.pass))) * sl.trips)) := by
      have hP1 := slab_pass_le hs h0 h1 hin (n2 := n2) (t1 := t1)
      have hP0 : 0 < sl.pass := Real.exp_pos _
      by_cases hq : sl.round = 1
      · -- nothing is lost: the slab is transparent
        have hr := conserves ht1 n1 n2 1 (refrOf t0.isSome n0 n1 θ)
        have hb := conserves ht0 n0 n1 (-1) (refrOf t0.isSome n0 n1 θ)
        have r1 : sl.rear.refl ≤ 1 := by have := hr.2.1; have := hr.2.2.1; change (faceOf c.asin c.pol t1 n1 n2 1 (refrOf t0.isSome n0 n1 θ)).refl ≤ 1; linarith
        have b1 : sl.back.refl ≤ 1 := by have := hb.2.1; have := hb.2.2.1; change (faceOf c.asin c.pol t0 n0 n1 (-1) (refrOf t0.isSome n0 n1 θ)).refl ≤ 1; linarith
        have r0 : 0 ≤ sl.rear.refl := hr.1
        have b0 : 0 ≤ sl.back.refl := hb.1
        have hPe : sl.pass = 1 := by
          refine le_antisymm hP1 ?_
          by_contra hlt
          rw [not_le] at hlt
          have : sl.pass ^ 2 < 1 := by nlinarith
          have h2 : sl.pass ^ 2 * sl.rear.refl ≤ sl.pass ^ 2 := mul_le_of_le_one_right (by positivity) r1
          have h3 : sl.pass ^ 2 * sl.rear.refl * sl.back.refl ≤ sl.pass ^ 2 * sl.rear.refl := mul_le_of_le_one_right (by positivity) b1
          simp only [Slab.round] at hq
          linarith
        simp [Slab.bulk, Slab.trips, hq, hPe]
      · have hne : 1 - sl.round ≠ 0 := sub_ne_zero.mpr (Ne.symm hq)
        have ht : sl.trips * (1 - sl.round) = 1 := by rw [Slab.trips]; field_simp
        simp only [Slab.bulk]
        simp only [Slab.round] at ht
        linear_combination (sl.front.trns * (1 - sl.pass)) * ht
    have := key o z z z 0 0 (sl.bulk sl.trips) (by rw [hq]; ring)
    rw [eA]
    convert this using 6
    simp [tally]
  · have := key z z z o 0 l (sl.abs0 sl.trips l) (by simp only [Slab.abs0]; simp; ring)
    rw [eI]
    convert this using 6
    simp [tally]
  · have := key z z z o 1 l (sl.abs1 sl.trips l) (by simp only [Slab.abs1]; simp; ring)
    rw [eI]
    convert this using 6
    simp [tally]

open Classical in
include hs ht0 ht1 h0 h1 hin hrear hback hh hh0 hL hn in
/-- **C151, number of surfaces.** The probability that a ray is not finished after `K` surfaces decreases exponentially (the product of the two inner reflectances per round trip), and it is zero once what is left after `K` passes is below the threshold. -/
theorem C151_late (k : Fin N) :
    let p := (uniform2 K n).real {u | ¬ Finished (traceWith c K (L k).V u (c.start (L k).x (L k).y 0 1 (rA0 h θ φ)))}
    let sl := slabOf c t0 t1 n0 n1 n2 θ
    p ≤ (sl.rear.refl * sl.back.refl) ^ ((K - 1) / 2) ∧ (1 ≤ K → sl.pass ^ K < c.S.thresh → p = 0) := by
  intro p sl
  obtain ⟨hgo, r, hr, hz⟩ := launch_front h0 h1 hh hh0 φ c (L k).x (L k).y
  have hprob := C131_probability c (slab_htab hs ht0 ht1) K n (L k).V (c.start (L k).x (L k).y 0 1 (rA0 h θ φ)) {o | ¬ Finished o}
  simp only [Set.mem_setOf_eq] at hprob
  simp only [p, hprob]
  exact late_start hs h0 h1 hin hn hrear hback ht0 ht1 (fun s hst => by simp [Finished, hst]) (fun s hst => by simp [Finished, hst]) (hL k) rfl rfl rfl rfl rfl rfl hgo hr hz

theorem JustBelow.mono {m x ε ε' : ℝ} (h : JustBelow m x ε) (hε : ε ≤ ε') : JustBelow m x ε' := ⟨by linarith [h.1], h.2⟩

include hs ht0 ht1 h0 h1 hin hrear hback hh hh0 hN hL hn in
/-- **C151, convergence.** If the slab absorbs and rays are given up at some intensity above zero, or if light inside gets out at some time, then for enough surfaces the results are those of the textbook up to the intensity at which rays are given up (and any `ε > 0`). -/
theorem C151_converges (hgets : ((slabOf c t0 t1 n0 n1 n2 θ).pass < 1 ∧ 0 < c.S.thresh) ∨ (slabOf c t0 t1 n0 n1 n2 θ).rear.refl * (slabOf c t0 t1 n0 n1 n2 θ).back.refl < 1) {ε : ℝ} (hε : 0 < ε) :
    ∃ K₀, ∀ K, K₀ ≤ K →
    let rays := fun U : Fin N → Fin K → Fin n → ℝ => List.ofFn fun k => recorded 0 1 (traceWith c K (L k).V (U k) (c.start (L k).x (L k).y 0 1 (rA0 h θ φ)))
    let P : Measure (Fin N → Fin K → Fin n → ℝ) := Measure.pi fun _ => uniform2 K n
    let sl := slabOf c t0 t1 n0 n1 n2 θ
    JustBelow (∫ U, resR (rays U) ∂P) (sl.R sl.trips) (c.S.thresh + ε) ∧
    JustBelow (∫ U, resT (rays U) ∂P) (sl.T sl.trips) (c.S.thresh + ε) ∧
    JustBelow (∫ U, resA (rays U) 1 ∂P) (sl.bulk sl.trips) (c.S.thresh + ε) ∧
    (∀ l, JustBelow (∫ U, resAint (rays U) 0 l ∂P) (sl.abs0 sl.trips l) (c.S.thresh + ε)) ∧
    ∀ l, JustBelow (∫ U, resAint (rays U) 1 l ∂P) (sl.abs1 sl.trips l) (c.S.thresh + ε) := by
  have hlate : ∃ K₀, ∀ K, K₀ ≤ K → ∀ k, (uniform2 K n).real {u | ¬ Finished (traceWith c K (L k).V u (c.start (L k).x (L k).y 0 1 (rA0 h θ φ)))} ≤ ε := by
    have hP0 : 0 < (slabOf c t0 t1 n0 n1 n2 θ).pass := Real.exp_pos _
    have r0 : 0 ≤ (slabOf c t0 t1 n0 n1 n2 θ).rear.refl := (flatFace_ok ht1 c.asin c.pol n1 n2 1 (refrOf t0.isSome n0 n1 θ)).1
    have b0 : 0 ≤ (slabOf c t0 t1 n0 n1 n2 θ).back.refl := (flatFace_ok ht0 c.asin c.pol n0 n1 (-1) (refrOf t0.isSome n0 n1 θ)).1
    have hK := fun K => C151_late hs ht0 ht1 h0 h1 hin hrear hback hh hh0 φ L hL K hn
    rcases hgets with ⟨hp, ht⟩ | hq
    · obtain ⟨K₀, hK₀⟩ := exists_pow_lt_of_lt_one ht hp
      refine ⟨K₀ + 1, fun K hKK k => ?_⟩
      rw [(hK K k).2 (by omega) (lt_of_le_of_lt (pow_le_pow_of_le_one hP0.le hp.le (by omega)) hK₀)]
      exact hε.le
    · obtain ⟨K₀, hK₀⟩ := exists_pow_lt_of_lt_one hε hq
      refine ⟨2 * K₀ + 1, fun K hKK k => (hK K k).1.trans ?_⟩
      exact (pow_le_pow_of_le_one (mul_nonneg r0 b0) hq.le (by omega)).trans hK₀.le
  obtain ⟨K₀, hK₀⟩ := hlate
  refine ⟨K₀, fun K hKK => ?_⟩
  have hle : c.S.thresh + (∑ k, (uniform2 K n).real {u | ¬ Finished (traceWith c K (L k).V u (c.start (L k).x (L k).y 0 1 (rA0 h θ φ)))}) / N ≤ c.S.thresh + ε := by
    have hN' : (0 : ℝ) < N := by exact_mod_cast hN
    have := Finset.sum_le_sum fun k (_ : k ∈ (Finset.univ : Finset (Fin N))) => hK₀ K hKK k
    have e : ∑ _k : Fin N, ε = N * ε := by simp
    rw [e] at this
    have : (∑ k, (uniform2 K n).real {u | ¬ Finished (traceWith c K (L k).V u (c.start (L k).x (L k).y 0 1 (rA0 h θ φ)))}) / N ≤ ε := by
      rw [div_le_iff₀ hN']; linarith
    linarith
  obtain ⟨a, b, d, e, f⟩ := C151_slab hs ht0 ht1 h0 h1 hin hrear hback hh hh0 φ hN L hL K hn
  exact ⟨a.mono hle, b.mono hle, d.mono hle, fun l => (e l).mono hle, fun l => (f l).mono hle⟩

end

/-! ## Transparent media: the textbook formulas written out -/

/-- The textbook slab between transparent media without coatings: reflectances `R1` of the front surface, from both sides, and `R2` of the rear surface, and the law of Lambert and Beer along the refracted path. -/
noncomputable def bareSlab (R1 R2 α w θ1 : ℝ) : Slab ℕ ℕ :=
  { front := ⟨R1, 1 - R1, fun _ => 0⟩, rear := ⟨R2, 1 - R2, fun _ => 0⟩, back := ⟨R1, 1 - R1, fun _ => 0⟩, pass := Real.exp (-(α * w / Real.cos θ1)) }

theorem textbookR_le_one {n1 n2 θ θ' : ℝ} (h1 : 0 < n1) (h2 : 0 < n2) (hc : 0 < Real.cos θ) (hc' : 0 < Real.cos θ') (pol : Pol) : textbookR n1 n2 θ θ' pol ≤ 1 := by
  have key : ∀ a b : ℝ, 0 < a → 0 < b → ((a - b) / (a + b)) ^ 2 ≤ 1 := by
    intro a b ha hb
    rw [div_pow, div_le_one (by positivity)]
    nlinarith [mul_pos ha hb]
  have k1 := key (n1 * Real.cos θ) (n2 * Real.cos θ') (by positivity) (by positivity)
  have k2 := key (n1 * Real.cos θ') (n2 * Real.cos θ) (by positivity) (by positivity)
  cases pol <;> simp only [textbookR] <;> linarith

theorem textbookR_symm (n1 n2 θ θ' : ℝ) (pol : Pol) : textbookR n2 n1 θ' θ pol = textbookR n1 n2 θ θ' pol := by
  have key : ∀ a b : ℝ, ((b - a) / (b + a)) ^ 2 = ((a - b) / (a + b)) ^ 2 := by
    intro a b
    rw [div_pow, div_pow]; congr 1 <;> ring
  cases pol <;> simp only [textbookR]
  · exact key _ _
  · exact key _ _
  · rw [key, key (n1 * Real.cos θ')]

/-- **C151, transparent media.** Without coatings and between transparent media the slab of C151 is the one of the textbook: Fresnel's reflectances at the angles given by Snell's law (total reflection at the rear surface beyond its critical angle), the same from both sides of the
front surface, and the law of Lambert and Beer; and the angles are as C151 asks for, unless the rear surface is met exactly at its critical angle. -/
theorem C151_transparent (c : RTStack) (harc : ∀ z, IsArcsin z (c.asin z)) {n0 n1 n2 θ θ1 R2 : ℝ} (hn0 : 0 < n0) (hn1 : 0 < n1) (hn2 : 0 < n2) (h0 : 0 ≤ θ) (h1 : θ < Real.pi / 2)
    (g0 : 0 ≤ θ1) (g1 : θ1 < Real.pi / 2) (hsnell : n0 * Real.sin θ = n1 * Real.sin θ1)
    (hR2 : (∃ θ2, 0 ≤ θ2 ∧ θ2 < Real.pi / 2 ∧ n1 * Real.sin θ1 = n2 * Real.sin θ2 ∧ R2 = textbookR n1 n2 θ1 θ2 c.pol) ∨ (n2 < n1 * Real.sin θ1 ∧ R2 = 1)) :
    slabOf c none none n0 n1 n2 θ = bareSlab (textbookR n0 n1 θ θ1 c.pol) R2 (c.S.alphas.getD 1 0) (c.S.widths.getD 1 0) θ1 ∧
    sinRefr false n0 n1 θ < 1 ∧
    ((slabOf c none none n0 n1 n2 θ).rear.trns = 0 ∨ sinRefr false n1 n2 (refrOf false n0 n1 θ) < 1) ∧
    ((slabOf c none none n0 n1 n2 θ).back.trns = 0 ∨ sinRefr false n1 n0 (refrOf false n0 n1 θ) < 1) := by
  have lt1 : ∀ t : ℝ, 0 ≤ t → t < Real.pi / 2 → Real.sin t < 1 := by
    intro t t0 t1
    have := Real.sin_lt_sin_of_lt_of_le_pi_div_two (by linarith [Real.pi_pos]) le_rfl t1
    rwa [Real.sin_pi_div_two] at this
  have cpos : ∀ t : ℝ, 0 ≤ t → t < Real.pi / 2 → 0 < Real.cos t := fun t t0 t1 => Real.cos_pos_of_mem_Ioo ⟨by linarith [Real.pi_pos], t1⟩
  have hdiv : ∀ {a b s t : ℝ}, 0 < b → a * s = b * t → a / b * s = t := by
    intro a b s t hb e
    rw [div_mul_eq_mul_div, e]; field_simp
  have hθ1 : refrOf false (n0 : ℂ) n1 θ = θ1 := by
    simp only [refrOf, Bool.false_eq_true, if_false, Complex.ofReal_re]
    rw [hdiv hn1 hsnell]
    exact Real.arcsin_sin (by linarith [Real.pi_pos]) g1.le
  have eθ : |θ| = θ := abs_of_nonneg h0
  have eθ1 : |θ1| = θ1 := abs_of_nonneg g0
  have eF : ∀ (a b s t : ℝ), 0 < a → 0 < b → 0 ≤ s → s < Real.pi / 2 → 0 ≤ t → t < Real.pi / 2 → a * Real.sin s = b * Real.sin t →
      min 1 (decideR a b s (c.asin ((a : ℂ) / b * Complex.sin (s : ℂ))) c.pol) = textbookR a b s t c.pol := by
    intro a b s t ha hb s0 s1 t0 t1 e
    have es : |s| = s := abs_of_nonneg s0
    have := (C43_reflectance a b s ha hb (by rw [es]; exact s1.le) (c.asin ((a : ℂ) / b * Complex.sin (s : ℂ))) (by rw [es]; exact harc _) c.pol).1 t t0 t1 (by rw [es]; exact e)
    rw [this, es]
    exact min_eq_right (textbookR_le_one ha hb (cpos s s0 s1) (cpos t t0 t1) _)
  have eRear : min 1 (decideR n1 n2 θ1 (c.asin ((n1 : ℂ) / n2 * Complex.sin (θ1 : ℂ))) c.pol) = R2 := by
    rcases hR2 with ⟨θ2, a, b, e, rfl⟩ | ⟨e, rfl⟩
    · exact eF n1 n2 θ1 θ2 hn1 hn2 g0 g1 a b e
    · rw [(C43_reflectance n1 n2 θ1 hn1 hn2 (by rw [eθ1]; exact g1.le) (c.asin ((n1 : ℂ) / n2 * Complex.sin (θ1 : ℂ))) (by rw [eθ1]; exact harc _) c.pol).2 (by rw [eθ1]; exact e), min_self]
  have eFront := eF n0 n1 θ θ1 hn0 hn1 h0 h1 g0 g1 hsnell
  have eBack := (eF n1 n0 θ1 θ hn1 hn0 g0 g1 h0 h1 hsnell.symm).trans (textbookR_symm n0 n1 θ θ1 c.pol)
  have hslab : slabOf c none none n0 n1 n2 θ = bareSlab (textbookR n0 n1 θ θ1 c.pol) R2 (c.S.alphas.getD 1 0) (c.S.widths.getD 1 0) θ1 := by
    have neg1 : ((-1 : ℤ) = 1) = False := by simp
    simp only [slabOf, Option.isSome_none, hθ1, faceOf, if_true, neg1, if_false, eRear, eFront, eBack, bareSlab]
  refine ⟨hslab, ?_, ?_, Or.inr ?_⟩
  · simp only [sinRefr, Bool.false_eq_true, if_false, Complex.ofReal_re]
    rw [hdiv hn1 hsnell]; exact lt1 θ1 g0 g1
  · rw [hslab, hθ1]
    rcases hR2 with ⟨θ2, a, b, e, rfl⟩ | ⟨e, rfl⟩
    · right
      simp only [sinRefr, Bool.false_eq_true, if_false, Complex.ofReal_re]
      rw [hdiv hn2 e]; exact lt1 θ2 a b
    · left; simp [bareSlab]
  · rw [hθ1]
    simp only [sinRefr, Bool.false_eq_true, if_false, Complex.ofReal_re]
    rw [hdiv hn0 hsnell.symm]; exact lt1 θ h0 h1

/-- A glass plate at normal incidence: 4 % at each surface. -/
example : ∃ c : RTStack, (∀ z, IsArcsin z (c.asin z)) ∧ slabOf c none none (1 : ℝ) (3 / 2 : ℝ) (1 : ℝ) 0 = bareSlab (1 / 25) (1 / 25) 1 2 0 := by
  choose f hf using exists_isArcsin
  refine ⟨{ exRT with asin := f }, hf, ?_⟩
  have := (C151_transparent { exRT with asin := f } hf (n0 := 1) (n1 := 3 / 2) (n2 := 1) (θ := 0) (θ1 := 0) (R2 := 1 / 25) one_pos (by norm_num) one_pos le_rfl Real.pi_div_two_pos le_rfl Real.pi_div_two_pos (by simp)
    (Or.inl ⟨0, le_rfl, Real.pi_div_two_pos, by simp, by simp [textbookR, exRT]; norm_num⟩)).1
  rw [this]
  congr 1
  simp [textbookR, exRT]; norm_num

/-! ## A planar surface of the package is flat -/

/-- The two triangles into which the square of `planar_surface` is divided. -/
noncomputable def planarTris (L z : ℝ) : List Tri := [⟨⟨0, 0, z⟩, ⟨L, 0, z⟩, ⟨L, L, z⟩⟩, ⟨⟨0, 0, z⟩, ⟨L, L, z⟩, ⟨0, L, z⟩⟩]

theorem planarTris_flat {L : ℝ} (hL : 0 < L) (z : ℝ) : FlatSurface (planarTris L z) L L z where
  level := by intro τ hτ; simp only [planarTris, List.mem_cons, List.not_mem_nil, or_false] at hτ; rcases hτ with rfl | rfl <;> exact ⟨rfl, rfl, rfl⟩
  up := by
    intro τ hτ; simp only [planarTris, List.mem_cons, List.not_mem_nil, or_false] at hτ
    rcases hτ with rfl | rfl <;> simp [Tri.crossP, V3.cross] <;> positivity
  cover := by
    rintro ⟨x, y, w⟩ ⟨hx0, hx1, hy0, hy1⟩ hz
    simp only at hx0 hx1 hy0 hy1 hz
    subst hz
    by_cases hxy : y ≤ x
    · refine ⟨_, List.mem_cons_self, (x - y) / L, y / L, by rw [neg_zero]; exact div_nonneg (by linarith) hL.le, by rw [neg_zero]; exact div_nonneg hy0 hL.le, ?_, ?_⟩
      · rw [← add_div, div_le_one hL]; linarith
      · ext <;> simp <;> field_simp <;> ring
    · rw [not_le] at hxy
      refine ⟨_, List.mem_cons_of_mem _ List.mem_cons_self, x / L, (y - x) / L, by rw [neg_zero]; exact div_nonneg hx0 hL.le, by rw [neg_zero]; exact div_nonneg (by linarith) hL.le, ?_, ?_⟩
      · rw [← add_div, div_le_one hL]; linarith
      · ext <;> simp <;> field_simp <;> ring

/-- A plate of glass in air with planar surfaces: every hypothesis of `C151_slab`, `C151_late` and `C151_converges` holds, at every angle of incidence. -/
theorem glass_slab (θ : ℝ) (h0 : 0 ≤ θ) (h1 : θ < Real.pi / 2) :
    let V : ℕ → Visit := fun _ => ⟨0, 0, fun s _ => ⟨planarTris 10 (if s = 0 then 0 else -2), 0, 0, 0, 0, 0⟩⟩
    RTSlab exRT ⟨10, 10, 0, 0, 0⟩ ⟨10, 10, -2, -2, -2⟩ none none 1 2 1 ∧ SumToOne none ∧ AllFlat ⟨10, 10, 0, 0, 0⟩ ⟨10, 10, -2, -2, -2⟩ V ∧
    sinRefr false 1 2 θ < 1 ∧ sinRefr false 2 1 (refrOf false 1 2 θ) < 1 ∧ (slabOf exRT none none 1 2 1 θ).pass < 1 ∧ 0 < exRT.S.thresh := by
  have hs1 : Real.sin θ < 1 := by
    have := Real.sin_lt_sin_of_lt_of_le_pi_div_two (by linarith [Real.pi_pos]) le_rfl h1
    rwa [Real.sin_pi_div_two] at this
  have hs0 : 0 ≤ Real.sin θ := Real.sin_nonneg_of_nonneg_of_le_pi h0 (by linarith [Real.pi_pos])
  have e1 : ((1 : ℂ).re) = 1 := rfl
  have e2 : ((2 : ℂ).re) = 2 := rfl
  have hsin : Real.sin (refrOf false 1 2 θ) = 1 / 2 * Real.sin θ := by
    simp only [refrOf, Bool.false_eq_true, if_false, e1, e2]
    exact Real.sin_arcsin (by linarith) (by linarith)
  refine ⟨⟨rfl, rfl, rfl, rfl, rfl, by norm_num, by norm_num, by norm_num, by simp, by simp [exRT, exStack], by simp [exRT, exStack], by norm_num [exRT, exStack]⟩, ?_, ?_, ?_, ?_, ?_, by norm_num [exRT, exStack]⟩
  · intro t ht; cases ht
  · intro i j
    exact ⟨planarTris_flat (by norm_num) _, planarTris_flat (by norm_num) _⟩
  · simp only [sinRefr, Bool.false_eq_true, if_false, e1, e2]; linarith
  · simp only [sinRefr, Bool.false_eq_true, if_false, e1, e2, hsin]; linarith
  · have hc : 0 < Real.cos (refrOf false 1 2 θ) := by
      refine Real.cos_pos_of_mem_Ioo ⟨?_, ?_⟩
      · simp only [refrOf, Bool.false_eq_true, if_false, e1, e2]
        exact lt_of_lt_of_le (by linarith [Real.pi_pos]) (Real.arcsin_nonneg.mpr (by linarith))
      · simp only [refrOf, Bool.false_eq_true, if_false, e1, e2]
        exact Real.arcsin_lt_pi_div_two.mpr (by linarith)
    simp only [slabOf, Option.isSome_none]
    rw [Real.exp_lt_one_iff]
    have : 0 < exRT.S.alphas.getD 1 0 * exRT.S.widths.getD 1 0 := by norm_num [exRT, exStack]
    exact neg_neg_of_pos (div_pos this hc)

/-- The hypotheses of C151 are met by a plate of glass. -/
example (θ : ℝ) (h0 : 0 ≤ θ) (h1 : θ < Real.pi / 2) :
    ∃ K₀, ∀ K, K₀ ≤ K →
    let P : Measure (Fin 1 → Fin K → Fin 3 → ℝ) := Measure.pi fun _ => uniform2 K 3
    let sl := slabOf exRT none none 1 2 1 θ
    JustBelow (∫ U, resR (List.ofFn fun k => recorded 0 1 (traceWith exRT K (fun _ => ⟨0, 0, fun s _ => ⟨planarTris 10 (if s = 0 then 0 else -2), 0, 0, 0, 0, 0⟩⟩) (U k) (exRT.start 1 1 0 1 (rA0 5 θ 0)))) ∂P) (sl.R sl.trips) (1 / 100 + 1 / 1000) := by
  obtain ⟨a, b, d, e, f, g, i⟩ := glass_slab θ h0 h1
  obtain ⟨K₀, hK⟩ := C151_converges a b b h0 h1 e (Or.inr f) (Or.inr (by simpa using f)) (h := 5) (by norm_num) (by norm_num) 0 (N := 1) Nat.one_pos (fun _ => ⟨1, 1, _⟩) (fun _ => d) le_rfl (Or.inl ⟨g, i⟩) (ε := 1 / 1000) (by norm_num)
  exact ⟨K₀, fun K hKK => (hK K hKK).1⟩

end Rayflare
