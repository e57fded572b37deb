import Verif.Spec.Branching
import Verif.Props.TraceSurface
import Mathlib.MeasureTheory.Constructions.Pi
import Mathlib.MeasureTheory.Integral.Pi
import Mathlib.MeasureTheory.Integral.Prod

/-!
# Property C129: the random numbers of the ray tracing give an unbiased result
-/

namespace Rayflare

open Rayflare.Np Rayflare.Model Rayflare.Spec Rayflare.Lemmas MeasureTheory

/-- Independent random numbers, uniform on [0, 1]. -/
noncomputable def uniform (n : ℕ) : Measure (Fin n → ℝ) := Measure.pi fun _ => volume.restrict (Set.Icc (0 : ℝ) 1)

/-- What has come out after the draws, if anything. -/
def returned : Sic ⊕ SicRes → Option SicRes
  | .inl _ => none
  | .inr res => some res

/-- The draws: surfaces from `D`, decisions made with the random numbers `u`. -/
def drawsOf {n : ℕ} (D : ℕ → Draw) (dec : ℝ → ℝ → V3 → V3 → ℤ → V3 × ℤ × Option (List ℝ)) (u : Fin n → ℝ) : List Draw :=
  List.ofFn fun i : Fin n => { D i with dec := dec (u i) }

/-- The decision at a facet is made by comparing the random number with two thresholds (which may exceed one). -/
def ByThresholds (dec : ℝ → ℝ → V3 → V3 → ℤ → V3 × ℤ × Option (List ℝ)) (law : FacetLaw) : Prop :=
  ∀ (d N : V3) (side : ℤ), ∃ R Q a b c, 0 ≤ R ∧ R ≤ Q ∧
    (∀ u, dec u (localTheta N d) d ((side : ℝ) • N) side = if u ≤ R then a else if u ≤ Q then b else c) ∧
    ∀ f : V3 × ℤ × Option (List ℝ) → ℝ, ((law (localTheta N d) d ((side : ℝ) • N) side).map fun o => o.1 * f o.2).sum
      = min R 1 * f a + (min Q 1 - min R 1) * f b + (1 - min Q 1) * f c

theorem step_integral {R Q : ℝ} (h0 : 0 ≤ R) (h1 : R ≤ Q) (h2 : Q ≤ 1) (A B C : ℝ) :
    ∫ x in Set.Icc (0 : ℝ) 1, (if x ≤ R then A else if x ≤ Q then B else C) = R * A + (Q - R) * B + (1 - Q) * C := by
  have e : (fun x : ℝ => if x ≤ R then A else if x ≤ Q then B else C)
      = fun x => (A - B) * (Set.Iic R).indicator (fun _ => (1 : ℝ)) x + (B - C) * (Set.Iic Q).indicator (fun _ => (1 : ℝ)) x + C := by
    funext x
    by_cases a : x ≤ R
    · have b : x ≤ Q := a.trans h1
      simp [a, b]
    · by_cases b : x ≤ Q
      · simp [a, b]
      · simp [a, b]
  have hind : ∀ q : ℝ, 0 ≤ q → q ≤ 1 → ∫ x in Set.Icc (0 : ℝ) 1, (Set.Iic q).indicator (fun _ => (1 : ℝ)) x = q := by
    intro q hq hq1
    rw [integral_indicator measurableSet_Iic, Measure.restrict_restrict measurableSet_Iic]
    have : Set.Iic q ∩ Set.Icc (0 : ℝ) 1 = Set.Icc 0 q := by
      ext x; simp only [Set.mem_inter_iff, Set.mem_Iic, Set.mem_Icc]; constructor
      · rintro ⟨a, b, _⟩; exact ⟨b, a⟩
      · rintro ⟨a, b⟩; exact ⟨b, a, b.trans hq1⟩
    rw [this]
    simp [hq]
  have hint : ∀ q : ℝ, Integrable ((Set.Iic q).indicator (fun _ => (1 : ℝ))) (volume.restrict (Set.Icc (0 : ℝ) 1)) := by
    intro q
    exact (integrable_const (1 : ℝ)).indicator measurableSet_Iic
  have i1 : Integrable (fun x => (A - B) * (Set.Iic R).indicator (fun _ => (1 : ℝ)) x) (volume.restrict (Set.Icc (0 : ℝ) 1)) := (hint R).const_mul _
  have i2 : Integrable (fun x => (B - C) * (Set.Iic Q).indicator (fun _ => (1 : ℝ)) x) (volume.restrict (Set.Icc (0 : ℝ) 1)) := (hint Q).const_mul _
  have i3 : Integrable (fun _ : ℝ => C) (volume.restrict (Set.Icc (0 : ℝ) 1)) := integrable_const _
  have i12 : Integrable (fun x => (A - B) * (Set.Iic R).indicator (fun _ => (1 : ℝ)) x + (B - C) * (Set.Iic Q).indicator (fun _ => (1 : ℝ)) x)
      (volume.restrict (Set.Icc (0 : ℝ) 1)) := i1.add i2
  rw [e, integral_add i12 i3, integral_add i1 i2, integral_const_mul, integral_const_mul, hind R h0 (h1.trans h2),
    hind Q (h0.trans h1) h2]
  simp
  ring

theorem step_integral_min {R Q : ℝ} (h0 : 0 ≤ R) (h1 : R ≤ Q) (A B C : ℝ) :
    ∫ x in Set.Icc (0 : ℝ) 1, (if x ≤ R then A else if x ≤ Q then B else C) = min R 1 * A + (min Q 1 - min R 1) * B + (1 - min Q 1) * C := by
  rw [← step_integral (le_min h0 zero_le_one) (min_le_min_right 1 h1) (min_le_right Q 1) A B C]
  refine setIntegral_congr_fun measurableSet_Icc fun x hx => ?_
  have e : ∀ q : ℝ, (x ≤ min q 1) = (x ≤ q) := fun q => by simp [hx.2]
  simp only [e]

instance : IsProbabilityMeasure (volume.restrict (Set.Icc (0 : ℝ) 1)) := ⟨by simp⟩

instance (n : ℕ) : IsProbabilityMeasure (uniform n) := by unfold uniform; infer_instance

/-- The mean over one more random number is the mean over it of the mean over the others. -/
theorem uniform_succ {n : ℕ} (f : (Fin (n + 1) → ℝ) → ℝ) (hf : Measurable f) {C : ℝ} (hC : ∀ u, |f u| ≤ C) :
    ∫ u, f u ∂uniform (n + 1) = ∫ x in Set.Icc (0 : ℝ) 1, ∫ v, f (Fin.cons x v) ∂uniform n := by
  have hmp := measurePreserving_piFinSuccAbove (fun _ : Fin (n + 1) => volume.restrict (Set.Icc (0 : ℝ) 1)) 0
  have h1 := hmp.symm.integral_comp' f
  have e : ∀ y : ℝ × (Fin n → ℝ), (MeasurableEquiv.piFinSuccAbove (fun _ : Fin (n + 1) => ℝ) 0).symm y = Fin.cons y.1 y.2 := by
    intro y
    simp [MeasurableEquiv.piFinSuccAbove, Fin.insertNthEquiv]
  have h2 : ∫ u, f u ∂uniform (n + 1) = ∫ y, f (Fin.cons y.1 y.2) ∂((volume.restrict (Set.Icc (0 : ℝ) 1)).prod (uniform n)) := by
    unfold uniform
    rw [← h1]
    refine integral_congr_ae (Filter.Eventually.of_forall fun y => ?_)
    simp only
    rw [e]
  rw [h2, integral_prod]
  refine Integrable.of_bound (C := C) ?_ (Filter.Eventually.of_forall fun y => by simpa using hC _)
  refine Measurable.aestronglyMeasurable (hf.comp ?_)
  have := (MeasurableEquiv.piFinSuccAbove (fun _ : Fin (n + 1) => ℝ) 0).symm.measurable
  rwa [show ⇑(MeasurableEquiv.piFinSuccAbove (fun _ : Fin (n + 1) => ℝ) 0).symm = fun y : ℝ × (Fin n → ℝ) => (Fin.cons y.1 y.2 : Fin (n + 1) → ℝ) from funext e] at this

/-- State or result after a facet with outcome `o`. -/
noncomputable def afterFacet (p : V3) (θ : ℝ) (s : Sic) : V3 × ℤ × Option (List ℝ) → Sic ⊕ SicRes
  | (d, side, some A) => .inr (.absorbed A (p + (1 / 10 ^ 9 : ℝ) • d) d θ (s.nInt + 1) side)
  | (d, side, none) => .inl { s with r := p + (1 / 10 ^ 9 : ℝ) • d, d := d, side := side, checked := false, i1 := s.i1 + 1, nInt := s.nInt + 1, θ := some θ }

theorem sicStep_facet {Lx Ly : ℝ} {d0 : V3} {w : Draw} {s : Sic} {p : V3} {θ : ℝ} {N : V3} (h : checkIntersect s.r s.d w.tris = some (p, θ, N)) :
    sicStep Lx Ly d0 w s = afterFacet p θ s (w.dec θ s.d ((s.side : ℝ) • N) s.side) := by
  obtain ⟨tris, zmin, zmax, rx, ry, dec⟩ := w
  simp only at h
  unfold sicStep
  simp only [h]
  rcases dec θ s.d ((s.side : ℝ) • N) s.side with ⟨d, side, _ | A⟩ <;> rfl

theorem sicStep_none {Lx Ly : ℝ} {d0 : V3} {w : Draw} {s : Sic} (h : checkIntersect s.r s.d w.tris = none)
    (dec : ℝ → V3 → V3 → ℤ → V3 × ℤ × Option (List ℝ)) : sicStep Lx Ly d0 { w with dec := dec } s = sicStep Lx Ly d0 w s := by
  unfold sicStep
  simp only [h]
  rfl

/-- Mean over the random numbers still to come, from a state or a result. -/
theorem unbiased_aux (Lx Ly : ℝ) (d0 : V3) (dec : ℝ → ℝ → V3 → V3 → ℤ → V3 × ℤ × Option (List ℝ)) (law : FacetLaw) (hlaw : ByThresholds dec law)
    (g : Option SicRes → ℝ) : ∀ (n : ℕ) (D : ℕ → Draw) (s : Sic),
    let F := fun u : Fin n → ℝ => g (returned (sicRun Lx Ly d0 (drawsOf D dec u) s))
    Measurable F ∧ (∃ C, ∀ u, |F u| ≤ C) ∧ ∫ u, F u ∂uniform n = branches Lx Ly d0 law g (List.ofFn fun i : Fin n => D i) s := by
  intro n
  induction n with
  | zero =>
    intro D s
    simp only [drawsOf, List.ofFn_zero, sicRun, returned, branches]
    refine ⟨measurable_const, ⟨|g none|, fun _ => le_refl _⟩, ?_⟩
    simp
  | succ n ih =>
    intro D s
    intro F
    have hcons : ∀ (x : ℝ) (v : Fin n → ℝ), drawsOf D dec (Fin.cons x v : Fin (n + 1) → ℝ) = { D 0 with dec := dec x } :: drawsOf (fun i => D (i + 1)) dec v := by
      intro x v
      unfold drawsOf
      rw [List.ofFn_succ]
      simp
    have hsplit : ∀ u : Fin (n + 1) → ℝ, u = Fin.cons (u 0) (Fin.tail u) := fun u => (Fin.cons_self_tail u).symm
    -- mean of what follows a given outcome of the first iteration
    let G : Sic ⊕ SicRes → (Fin n → ℝ) → ℝ := fun o v => match o with
      | .inl s' => g (returned (sicRun Lx Ly d0 (drawsOf (fun i => D (i + 1)) dec v) s'))
      | .inr res => g (some res)
    let B : Sic ⊕ SicRes → ℝ := fun o => match o with
      | .inl s' => branches Lx Ly d0 law g (List.ofFn fun i : Fin n => D (i + 1)) s'
      | .inr res => g (some res)
    have hG : ∀ o, Measurable (G o) ∧ (∃ C, ∀ v, |G o v| ≤ C) ∧ ∫ v, G o v ∂uniform n = B o := by
      intro o
      rcases o with s' | res
      · exact ih (fun i => D (i + 1)) s'
      · refine ⟨measurable_const, ⟨|g (some res)|, fun _ => le_refl _⟩, ?_⟩
        simp [G, B]
    have hF : ∀ x v, F (Fin.cons x v) = G (sicStep Lx Ly d0 { D 0 with dec := dec x } s) v := by
      intro x v
      simp only [F, hcons, sicRun]
      rcases sicStep Lx Ly d0 { D 0 with dec := dec x } s with s' | res <;> rfl
    have hlist : (List.ofFn fun i : Fin (n + 1) => D i) = D 0 :: List.ofFn fun i : Fin n => D (i + 1) := by
      rw [List.ofFn_succ]; simp
    rcases hc : checkIntersect s.r s.d (D 0).tris with _ | ⟨p, θ, N⟩
    · -- no facet: the random number is not used
      have hF' : ∀ x v, F (Fin.cons x v) = G (sicStep Lx Ly d0 (D 0) s) v := by
        intro x v
        rw [hF, sicStep_none hc]
      obtain ⟨m, ⟨C, hC⟩, hI⟩ := hG (sicStep Lx Ly d0 (D 0) s)
      have hFu : F = fun u => G (sicStep Lx Ly d0 (D 0) s) (Fin.tail u) := by
        funext u
        conv_lhs => rw [hsplit u]
        exact hF' _ _
      have hm : Measurable F := by
        rw [hFu]
        exact m.comp (measurable_pi_lambda _ fun i => measurable_pi_apply _)
      have hb : ∀ u, |F u| ≤ C := by
        intro u; rw [hFu]; exact hC _
      refine ⟨hm, ⟨C, hb⟩, ?_⟩
      rw [uniform_succ F hm hb]
      simp only [hF', hI]
      rw [hlist]
      simp only [branches, hc]
      simp only [integral_const, smul_eq_mul]
      simp
      rcases sicStep Lx Ly d0 (D 0) s with s' | res <;> rfl
    · -- a facet
      have hθ := (hit_unit hc).2
      obtain ⟨R, Q, a, b, c, h0, h1, hdec, hsum⟩ := hlaw s.d N s.side
      rw [← hθ] at hdec hsum
      have hF' : ∀ x v, F (Fin.cons x v) = if x ≤ R then G (afterFacet p θ s a) v else if x ≤ Q then G (afterFacet p θ s b) v else G (afterFacet p θ s c) v := by
        intro x v
        rw [hF, sicStep_facet (w := { D 0 with dec := dec x }) hc]
        simp only [hdec]
        split_ifs <;> rfl
      obtain ⟨ma, ⟨Ca, hCa⟩, hIa⟩ := hG (afterFacet p θ s a)
      obtain ⟨mb, ⟨Cb, hCb⟩, hIb⟩ := hG (afterFacet p θ s b)
      obtain ⟨mc, ⟨Cc, hCc⟩, hIc⟩ := hG (afterFacet p θ s c)
      have hFu : F = fun u => if u 0 ≤ R then G (afterFacet p θ s a) (Fin.tail u) else if u 0 ≤ Q then G (afterFacet p θ s b) (Fin.tail u)
          else G (afterFacet p θ s c) (Fin.tail u) := by
        funext u
        conv_lhs => rw [hsplit u]
        exact hF' _ _
      have htail : Measurable fun u : Fin (n + 1) → ℝ => (Fin.tail u : Fin n → ℝ) := measurable_pi_lambda _ fun i => measurable_pi_apply _
      have hm : Measurable F := by
        rw [hFu]
        refine Measurable.ite (measurableSet_le (measurable_pi_apply 0) measurable_const) (ma.comp htail) ?_
        exact Measurable.ite (measurableSet_le (measurable_pi_apply 0) measurable_const) (mb.comp htail) (mc.comp htail)
      have hb : ∀ u, |F u| ≤ max Ca (max Cb Cc) := by
        intro u
        rw [hFu]
        simp only
        split_ifs
        · exact (hCa _).trans (le_max_left _ _)
        · exact (hCb _).trans ((le_max_left _ _).trans (le_max_right _ _))
        · exact (hCc _).trans ((le_max_right _ _).trans (le_max_right _ _))
      refine ⟨hm, ⟨_, hb⟩, ?_⟩
      rw [uniform_succ F hm hb]
      have hinner : ∀ x, ∫ v, F (Fin.cons x v) ∂uniform n = if x ≤ R then B (afterFacet p θ s a) else if x ≤ Q then B (afterFacet p θ s b) else B (afterFacet p θ s c) := by
        intro x
        simp only [hF']
        split_ifs <;> assumption
      simp only [hinner]
      rw [step_integral_min h0 h1, hlist]
      simp only [branches, hc]
      rw [← hsum (fun o => B (afterFacet p θ s o))]
      congr 1
      apply List.map_congr_left
      rintro ⟨q, d, side, _ | A⟩ _ <;> rfl

/-! ## The decisions of the code -/

/-- The decision of a bare facet, for the random number `u`; `arc side θ` is what NumPy returns for the angle of refraction. -/
noncomputable def fresnelDraw (nAbove nBelow : ℂ) (arc : ℤ → ℝ → ℂ) (pol : Pol) (u : ℝ) : ℝ → V3 → V3 → ℤ → V3 × ℤ × Option (List ℝ) :=
  fresnelDec nAbove nBelow arc pol u

/-- The decision of a coated facet, for the random number `u`. -/
noncomputable def tmmDraw (nAbove nBelow : ℂ) (tab : ℤ → ℝ → ℝ × ℝ × List ℝ) (u : ℝ) : ℝ → V3 → V3 → ℤ → V3 × ℤ × Option (List ℝ) :=
  tmmDec nAbove nBelow tab u

theorem fresnel_byThresholds {nAbove nBelow : ℂ} {arc : ℤ → ℝ → ℂ} {pol : Pol}
    (hR : ∀ d N side, decideR (if side = 1 then nAbove else nBelow) (if side = 1 then nBelow else nAbove) (localTheta N d) (arc side (localTheta N d)) pol ≤ 1) :
    ByThresholds (fresnelDraw nAbove nBelow arc pol) (fresnelLaw nAbove nBelow arc pol) := by
  intro d N side
  refine ⟨_, 1, (normalise (reflectDir d ((side : ℝ) • N)), side, none),
    (normalise (refractDir ((if side = 1 then nAbove else nBelow).re / (if side = 1 then nBelow else nAbove).re) d ((side : ℝ) • N)), -side, none),
    (normalise (refractDir ((if side = 1 then nAbove else nBelow).re / (if side = 1 then nBelow else nAbove).re) d ((side : ℝ) • N)), -side, none),
    decideR_nonneg _ _ _ _ _, hR d N side, ?_, ?_⟩
  · intro u
    simp only [fresnelDraw, fresnelDec, decideFresnel, ite_self]
    split_ifs <;> rfl
  · intro f
    simp [fresnelLaw, hR d N side]

theorem tmm_byThresholds {nAbove nBelow : ℂ} {tab : ℤ → ℝ → ℝ × ℝ × List ℝ}
    (htab : ∀ side θ, 0 ≤ (tab side θ).1 ∧ 0 ≤ (tab side θ).2.1 ∧ (tab side θ).1 + (tab side θ).2.1 ≤ 1) :
    ByThresholds (tmmDraw nAbove nBelow tab) (tmmLaw nAbove nBelow tab) := by
  intro d N side
  obtain ⟨h0, h1, h2⟩ := htab side |localTheta N d|
  refine ⟨(tab side |localTheta N d|).1, (tab side |localTheta N d|).1 + (tab side |localTheta N d|).2.1,
    (normalise (reflectDir d ((side : ℝ) • N)), side, none),
    (normalise (refractDirC ((if side = 1 then nAbove else nBelow) / (if side = 1 then nBelow else nAbove)) d ((side : ℝ) • N)), -side, none),
    (d, side, some (tab side |localTheta N d|).2.2), h0, by linarith, ?_, ?_⟩
  · intro u
    simp only [tmmDraw, tmmDec, decideTMM]
    by_cases a : u ≤ (tab side |localTheta N d|).1
    · simp only [if_pos a]
    · have : u > (tab side |localTheta N d|).1 := not_le.mp a
      simp only [if_neg a, this, true_and]
  · intro f
    rw [min_eq_left h2, min_eq_left (show (tab side |localTheta N d|).1 ≤ 1 by linarith)]
    simp [tmmLaw]
    ring

theorem localTheta_le (N d : V3) : |localTheta N d| ≤ Real.pi / 2 := localTheta_abs_le N d

theorem decideR_le_one {n0 n1 θ : ℝ} (h0 : 0 < n0) (h1 : 0 < n1) (hθ : |θ| ≤ Real.pi / 2) {θt : ℂ}
    (ht : IsArcsin ((n0 : ℂ) / n1 * Complex.sin ((|θ| : ℝ) : ℂ)) θt) (pol : Pol) : decideR n0 n1 θ θt pol ≤ 1 := by
  unfold decideR
  split_ifs with h
  · exact le_refl _
  · rcases hθ.lt_or_eq with hlt | heq
    · have hz : ((⟨n1, 0⟩ : ℂ)) = (n1 : ℂ) := rfl
      have := (C41_range n0 n1 0 |θ| h0 h1 (le_refl _) (abs_nonneg _) hlt θt (by rw [hz]; exact ht) pol).2.1
      rwa [hz] at this
    · have hcos : Complex.cos ((|θ| : ℝ) : ℂ) = 0 := by
        rw [← Complex.ofReal_cos, heq, Real.cos_pi_div_two]; simp
      have key : ∀ z : ℂ, ‖z / z‖ ^ 2 ≤ 1 := by
        intro z
        by_cases hz : z = 0
        · rw [hz]; simp
        · rw [div_self hz]; simp
      have hs : fresnelRs n0 n1 |θ| θt ≤ 1 := by
        unfold fresnelRs
        rw [hcos]
        have := key (n1 * Complex.cos θt)
        simpa [neg_div, norm_neg] using this
      have hp : fresnelRp n0 n1 |θ| θt ≤ 1 := by
        unfold fresnelRp
        rw [hcos]
        have := key (n0 * Complex.cos θt)
        simpa using this
      cases pol <;> simp only [calcR]
      · exact hs
      · exact hp
      · linarith

/-- **C129, bare surfaces.** Whatever is computed from the outcome of a ray (`g`), its mean over independent uniform random numbers is the one obtained by following all branches with the
Fresnel probabilities (for reflectances that are probabilities). -/
theorem C129_fresnel (nAbove nBelow : ℂ) (arc : ℤ → ℝ → ℂ) (pol : Pol)
    (hR : ∀ d N side, decideR (if side = 1 then nAbove else nBelow) (if side = 1 then nBelow else nAbove) (localTheta N d) (arc side (localTheta N d)) pol ≤ 1)
    (Lx Ly : ℝ) (d0 : V3) (D : ℕ → Draw) (n : ℕ) (s : Sic) (g : Option SicRes → ℝ) :
    ∫ u, g (returned (sicRun Lx Ly d0 (drawsOf D (fresnelDraw nAbove nBelow arc pol) u) s)) ∂uniform n
      = branches Lx Ly d0 (fresnelLaw nAbove nBelow arc pol) g (List.ofFn fun i : Fin n => D i) s :=
  (unbiased_aux Lx Ly d0 _ _ (fresnel_byThresholds hR) g n D s).2.2

/-- **C129, transparent media.** In particular between any two transparent media. -/
theorem C129_transparent (nAbove nBelow : ℝ) (ha : 0 < nAbove) (hb : 0 < nBelow) (arc : ℤ → ℝ → ℂ) (pol : Pol)
    (harc : ∀ side θ, IsArcsin (((if side = 1 then nAbove else nBelow : ℝ) : ℂ) / ((if side = 1 then nBelow else nAbove : ℝ) : ℂ) * Complex.sin ((|θ| : ℝ) : ℂ)) (arc side θ))
    (Lx Ly : ℝ) (d0 : V3) (D : ℕ → Draw) (n : ℕ) (s : Sic) (g : Option SicRes → ℝ) :
    ∫ u, g (returned (sicRun Lx Ly d0 (drawsOf D (fresnelDraw nAbove nBelow arc pol) u) s)) ∂uniform n
      = branches Lx Ly d0 (fresnelLaw nAbove nBelow arc pol) g (List.ofFn fun i : Fin n => D i) s := by
  refine C129_fresnel nAbove nBelow arc pol ?_ Lx Ly d0 D n s g
  intro d N side
  have h := harc side (localTheta N d)
  by_cases hs : side = 1
  · simp only [hs, if_true] at h ⊢
    exact decideR_le_one ha hb (localTheta_le N d) h pol
  · simp only [hs, if_false] at h ⊢
    exact decideR_le_one hb ha (localTheta_le N d) h pol

/-- **C129, coated surfaces**, for any table of reflectances and transmittances. -/
theorem C129_tmm (nAbove nBelow : ℂ) (tab : ℤ → ℝ → ℝ × ℝ × List ℝ)
    (htab : ∀ side θ, 0 ≤ (tab side θ).1 ∧ 0 ≤ (tab side θ).2.1 ∧ (tab side θ).1 + (tab side θ).2.1 ≤ 1)
    (Lx Ly : ℝ) (d0 : V3) (D : ℕ → Draw) (n : ℕ) (s : Sic) (g : Option SicRes → ℝ) :
    ∫ u, g (returned (sicRun Lx Ly d0 (drawsOf D (tmmDraw nAbove nBelow tab) u) s)) ∂uniform n
      = branches Lx Ly d0 (tmmLaw nAbove nBelow tab) g (List.ofFn fun i : Fin n => D i) s :=
  (unbiased_aux Lx Ly d0 _ _ (tmm_byThresholds htab) g n D s).2.2

open Classical in
/-- **C129, probabilities.** The probability that a ray on a coated surface ends in a given way is the sum of the weights of the branches that end in this way. -/
theorem C129_probability (nAbove nBelow : ℂ) (tab : ℤ → ℝ → ℝ × ℝ × List ℝ)
    (htab : ∀ side θ, 0 ≤ (tab side θ).1 ∧ 0 ≤ (tab side θ).2.1 ∧ (tab side θ).1 + (tab side θ).2.1 ≤ 1)
    (Lx Ly : ℝ) (d0 : V3) (D : ℕ → Draw) (n : ℕ) (s : Sic) (E : Set (Option SicRes)) :
    (uniform n).real {u | returned (sicRun Lx Ly d0 (drawsOf D (tmmDraw nAbove nBelow tab) u) s) ∈ E}
      = branches Lx Ly d0 (tmmLaw nAbove nBelow tab) (fun o => if o ∈ E then 1 else 0) (List.ofFn fun i : Fin n => D i) s := by
  obtain ⟨hm, _, hI⟩ := unbiased_aux Lx Ly d0 _ _ (tmm_byThresholds (nAbove := nAbove) (nBelow := nBelow) htab) (fun o => if o ∈ E then 1 else 0) n D s
  rw [← hI]
  set F := fun u : Fin n → ℝ => if returned (sicRun Lx Ly d0 (drawsOf D (tmmDraw nAbove nBelow tab) u) s) ∈ E then (1 : ℝ) else 0 with hFdef
  have hset : MeasurableSet {u : Fin n → ℝ | returned (sicRun Lx Ly d0 (drawsOf D (tmmDraw nAbove nBelow tab) u) s) ∈ E} := by
    have : {u : Fin n → ℝ | returned (sicRun Lx Ly d0 (drawsOf D (tmmDraw nAbove nBelow tab) u) s) ∈ E} = F ⁻¹' {1} := by
      ext u
      simp [hFdef]
    rw [this]
    exact hm (measurableSet_singleton _)
  have : F = Set.indicator {u : Fin n → ℝ | returned (sicRun Lx Ly d0 (drawsOf D (tmmDraw nAbove nBelow tab) u) s) ∈ E} (fun _ => (1 : ℝ)) := by
    funext u
    simp [hFdef, Set.indicator]
  change _ = ∫ u, F u ∂uniform n
  rw [this, integral_indicator hset]
  simp [Measure.real]

/-- Every number has an arc sine of the kind NumPy returns. -/
theorem exists_isArcsin (z : ℂ) : ∃ w, IsArcsin z w := by
  have hpi := Real.pi_pos
  obtain ⟨w, hw⟩ := Complex.sin_surjective z
  have hre := toIcoMod_mem_Ico (Real.two_pi_pos) (-(Real.pi / 2)) w.re
  set k := toIcoDiv (Real.two_pi_pos) (-(Real.pi / 2)) w.re with hk
  have hk' : toIcoMod (Real.two_pi_pos) (-(Real.pi / 2)) w.re = w.re - k * (2 * Real.pi) := by
    rw [toIcoMod, zsmul_eq_mul]
  rw [hk'] at hre
  set v : ℂ := w - k * (2 * Real.pi) with hv
  have hvre : v.re = w.re - k * (2 * Real.pi) := by
    rw [hv]
    simp [Complex.sub_re, Complex.mul_re]
  have hvs : Complex.sin v = z := by rw [hv, Complex.sin_sub_int_mul_two_pi, hw]
  by_cases h : v.re ≤ Real.pi / 2
  · exact ⟨v, hvs, by rw [hvre]; exact hre.1, h⟩
  · push Not at h
    refine ⟨Real.pi - v, by rw [Complex.sin_pi_sub, hvs], ?_, ?_⟩
    · rw [Complex.sub_re, Complex.ofReal_re, hvre]; linarith [hre.2]
    · rw [Complex.sub_re, Complex.ofReal_re]; linarith

/-- The hypotheses of `C129_transparent` can be met for every pair of transparent media. -/
example (nAbove nBelow : ℝ) : ∃ arc : ℤ → ℝ → ℂ, ∀ side θ,
    IsArcsin (((if side = 1 then nAbove else nBelow : ℝ) : ℂ) / ((if side = 1 then nBelow else nAbove : ℝ) : ℂ) * Complex.sin ((|θ| : ℝ) : ℂ)) (arc side θ) := by
  choose f hf using exists_isArcsin
  exact ⟨fun side θ => f _, fun side θ => hf _⟩

/-- A ray falling onto the triangle `exTri`, coated so that half of the light is reflected and a quarter transmitted: it is absorbed in the first iteration with probability 1/4. -/
example : (uniform 1).real {u | returned (sicRun 1 1 ⟨0, 0, -1⟩ (drawsOf (fun _ => exDraw) (tmmDraw 1 2 fun _ _ => (1 / 2, 1 / 4, [1 / 4])) u)
    (sicStart ⟨1, 1, 5⟩ ⟨0, 0, -1⟩ 1 0)) ∈ {o | o ≠ none}} = 1 / 4 := by
  rw [C129_probability 1 2 _ (fun _ _ => by norm_num)]
  simp only [List.ofFn_succ, List.ofFn_zero]
  unfold branches
  simp only [sicStart, exDraw]
  rw [checkIntersect_single_hit exTri_hit.1]
  simp [tmmLaw, branches]
  norm_num

end Rayflare
