import Verif.Spec.TraceSurface
import Verif.Props.RTStart
import Verif.Props.Geometry2
import Verif.Props.RTMatrix2
import Verif.Props.EndToEndMethods

/-!
# Property C126: redistribution matrices of a textured surface, from the geometry

C48–C50 and C123 are about any outcome of the rays.  Here the outcomes are those of the ray tracing itself.
-/

namespace Rayflare

open Rayflare.Np Rayflare.Model Rayflare.Spec Rayflare.Lemmas Real

/-- What an iteration draws when the media above and below have refractive indices `nAbove`, `nBelow`: some triangles (any), and a decision with the Fresnel equations, or with
a lookup table of `nL` layers in which every entry conserves energy; the random number is below one. -/
def FacetDraw (nAbove nBelow : ℂ) (tmm : Bool) (nL : ℕ) (w : Draw) : Prop :=
  (tmm = false ∧ ∃ arc pol rnd, rnd < 1 ∧ w.dec = fresnelDec nAbove nBelow arc pol rnd) ∨
  (tmm = true ∧ ∃ tab rnd, rnd < 1 ∧ w.dec = tmmDec nAbove nBelow tab rnd ∧
    ∀ side θ, (tab side θ).2.2.length = nL ∧ (∀ a ∈ (tab side θ).2.2, 0 ≤ a) ∧ (tab side θ).1 + (tab side θ).2.1 + (tab side θ).2.2.sum = 1)

/-- `t` is a ray launched on the surface and traced to the end. -/
def IsTrace (c : Texture) (nAbove nBelow : ℂ) (tmm : Bool) (nL : ℕ) (t : TracedRay) : Prop :=
  (∀ w ∈ t.ws, FacetDraw nAbove nBelow tmm nL w) ∧
  ∃ x y, traceInterface c t.ray.θin t.ray.φin x y t.ws = some t.res ∧ t.ray.out = t.res.rayOut

/-! ## Helper lemmas -/

/-- What a decision at a facet guarantees. -/
structure FacetOk (tmm : Bool) (nL : ℕ) (w : Draw) : Prop where
  ok : ∀ (d Nf : V3) (side : ℤ), V3.norm d = 1 → V3.norm Nf = 1 → (side = 1 ∨ side = -1) →
    let o := w.dec (localTheta Nf d) d ((side : ℝ) • Nf) side
    V3.norm o.1 = 1 ∧ ∀ A, o.2.2 = some A → tmm = true ∧ A.length = nL ∧ (∀ a ∈ A, 0 ≤ a) ∧ 0 < A.sum
  side : SideOk w

theorem refractDirC_ne {n0 n1 : ℂ} (h0 : 0 < n0.re) (h1 : 0 < n1.re) (k0 : 0 ≤ n0.im) (k1 : 0 ≤ n1.im) {d N : V3} (hN : V3.norm N = 1) :
    V3.dot (refractDirC (n0 / n1) d N) (refractDirC (n0 / n1) d N) ≠ 0 := by
  have hn1 : 0 < Complex.normSq n1 := by
    rw [Complex.normSq_pos]; intro h; rw [h] at h1; simp at h1
  have hre : 0 < (n0 / n1).re := by
    rw [Complex.div_re]
    have h2 := mul_pos h0 h1
    have h3 := mul_nonneg k0 k1
    have : 0 < (n0.re * n1.re) / Complex.normSq n1 := div_pos h2 hn1
    have : 0 ≤ (n0.im * n1.im) / Complex.normSq n1 := div_nonneg h3 hn1.le
    linarith
  have hNN : V3.dot N N = 1 := (norm_one_iff N).mp hN
  set t := d - V3.dot d N • N with ht
  have htN : V3.dot t N = 0 := by
    rw [ht]
    unfold V3.dot at hNN ⊢
    simp only [V3.sub_x, V3.sub_y, V3.sub_z, V3.smul_x, V3.smul_y, V3.smul_z]
    linear_combination -(d.x * N.x + d.y * N.y + d.z * N.z) * hNN
  set q := Real.sqrt (1 - (‖n0 / n1‖ * V3.norm t) ^ 2) with hq
  have e : V3.dot (refractDirC (n0 / n1) d N) (refractDirC (n0 / n1) d N) = (n0 / n1).re ^ 2 * V3.dot t t + q ^ 2 := by
    unfold refractDirC
    simp only [← ht, ← hq]
    unfold V3.dot at hNN htN ⊢
    simp only [V3.add_x, V3.add_y, V3.add_z, V3.smul_x, V3.smul_y, V3.smul_z]
    linear_combination q ^ 2 * hNN - 2 * (n0 / n1).re * q * htN
  rw [e]
  have htt : 0 ≤ V3.dot t t := by unfold V3.dot; nlinarith [mul_self_nonneg t.x, mul_self_nonneg t.y, mul_self_nonneg t.z]
  rcases htt.eq_or_lt with h | h
  · have : V3.norm t = 0 := by unfold V3.norm; rw [← h]; simp
    have hq1 : q = 1 := by rw [hq, this]; simp
    rw [← h, hq1]; norm_num
  · have := mul_pos (pow_pos hre 2) h
    nlinarith [sq_nonneg q]

theorem smul_side_norm {N : V3} (hN : V3.norm N = 1) {side : ℤ} (hs : side = 1 ∨ side = -1) : V3.norm ((side : ℝ) • N) = 1 := by
  rw [norm_one_iff] at hN ⊢
  unfold V3.dot at hN ⊢
  rcases hs with h | h <;> subst h <;> simp <;> linarith

theorem facetDraw_ok {nA nB : ℂ} (ha : 0 < nA.re) (hb : 0 < nB.re) (ka : 0 ≤ nA.im) (kb : 0 ≤ nB.im) {tmm : Bool} {nL : ℕ} {w : Draw}
    (h : FacetDraw nA nB tmm nL w) : FacetOk tmm nL w := by
  rcases h with ⟨rfl, arc, pol, rnd, hr, hdec⟩ | ⟨rfl, tab, rnd, hr, hdec, htab⟩
  · refine ⟨?_, ?_⟩
    · intro d Nf side hd hN hs
      have hn0 : 0 < (if side = 1 then nA else nB).re := by split_ifs <;> assumption
      have hn1 : 0 < (if side = 1 then nB else nA).re := by split_ifs <;> assumption
      have := C42_fresnel _ _ hn0 hn1 d Nf _ hd hN side hs rfl (arc side (localTheta Nf d)) pol rnd hr
      simp only [hdec, fresnelDec]
      exact ⟨this.1, fun A hA => by simp at hA⟩
    · intro θ d N side
      simp only [hdec, fresnelDec, decideFresnel]
      split_ifs <;> simp
  · refine ⟨?_, ?_⟩
    · intro d Nf side hd hN hs
      have hn0 : 0 < (if side = 1 then nA else nB).re := by split_ifs <;> assumption
      have hn1 : 0 < (if side = 1 then nB else nA).re := by split_ifs <;> assumption
      have hk0 : 0 ≤ (if side = 1 then nA else nB).im := by split_ifs <;> assumption
      have hk1 : 0 ≤ (if side = 1 then nB else nA).im := by split_ifs <;> assumption
      have hN' := smul_side_norm hN hs
      obtain ⟨t1, t2, t3⟩ := htab side |localTheta Nf d|
      set e := tab side |localTheta Nf d| with he
      have := C42_tmm (if side = 1 then nA else nB) (if side = 1 then nB else nA) e.1 e.2.1 e.2.2 d _ hd hN' side rnd
        (refractDirC_ne hn0 hn1 hk0 hk1 hN')
      simp only [hdec, tmmDec, ← he]
      refine ⟨this.1, ?_⟩
      intro A hA
      unfold decideTMM at hA
      split_ifs at hA with c1 c2
      · simp only [Option.some.injEq] at hA
        subst hA
        refine ⟨trivial, t1, t2, ?_⟩
        push Not at c1 c2
        have := c2 c1
        linarith
    · intro θ d N side
      simp only [hdec, tmmDec, decideTMM]
      split_ifs <;> simp

theorem hit_unit {r d : V3} {tris : List Tri} {p : V3} {θ : ℝ} {N : V3} (h : checkIntersect r d tris = some (p, θ, N)) :
    V3.norm N = 1 ∧ θ = localTheta N d := by
  obtain ⟨τ, hτ, hhit, hp, hθ, hN, -⟩ := checkIntersect_some h
  have hh := hhit
  unfold Tri.hit at hh
  rw [decide_eq_true_eq] at hh
  have hne : V3.dot τ.crossP τ.crossP ≠ 0 := by
    intro h0
    apply hh.1
    have hx : τ.crossP.x = 0 ∧ τ.crossP.y = 0 ∧ τ.crossP.z = 0 := by
      unfold V3.dot at h0
      refine ⟨?_, ?_, ?_⟩ <;> nlinarith [mul_self_nonneg τ.crossP.x, mul_self_nonneg τ.crossP.y, mul_self_nonneg τ.crossP.z]
    unfold Tri.det V3.dot
    rw [hx.1, hx.2.1, hx.2.2]; simp
  rw [hN]
  exact ⟨normalise_norm hne, by rw [hθ]⟩

/-- Facts kept by the loop. -/
structure TraceInv (d0 : V3) (s : Sic) : Prop where
  inv : SicInv d0 1 0 s
  unit : V3.norm s.d = 1

theorem sicStep_trace {Lx Ly : ℝ} {d0 : V3} {tmm : Bool} {nL : ℕ} {w : Draw} (hw : FacetOk tmm nL w) {s s' : Sic} (h : TraceInv d0 s)
    (hs : sicStep Lx Ly d0 w s = .inl s') : TraceInv d0 s' := by
  refine ⟨(sicStep_inv hw.side h.inv (Nat.zero_le _) hs).1, ?_⟩
  have hu := h.unit
  unfold sicStep at hs
  simp only at hs
  split at hs
  · split_ifs at hs
    · simp only [Sum.inl.injEq] at hs; subst hs; exact hu
    · simp only [Sum.inl.injEq] at hs; subst hs; exact hu
    · split at hs
      · simp at hs
      · simp only [Sum.inl.injEq] at hs; subst hs; exact hu
  · rename_i p θ Nf hci
    obtain ⟨hN, hθ⟩ := hit_unit hci
    split at hs
    · simp at hs
    · simp only [Sum.inl.injEq] at hs
      subst hs
      rw [hθ]
      exact (hw.ok s.d Nf s.side hu hN h.inv.side).1

theorem sicRun_trace {Lx Ly : ℝ} {d0 : V3} {tmm : Bool} {nL : ℕ} : ∀ (ws : List Draw), (∀ w ∈ ws, FacetOk tmm nL w) → ∀ (s : Sic) (res : SicRes),
    TraceInv d0 s → sicRun Lx Ly d0 ws s = .inr res → ∃ w ∈ ws, ∃ s1, TraceInv d0 s1 ∧ sicStep Lx Ly d0 w s1 = .inr res := by
  intro ws
  induction ws with
  | nil => intro _ s res _ h; simp [sicRun] at h
  | cons w ws ih =>
    intro hw s res hs h
    unfold sicRun at h
    split at h
    · rename_i s' hs'
      obtain ⟨w', hw', s1, a, b⟩ := ih (fun w hw' => hw w (by simp [hw'])) s' res (sicStep_trace (hw w (by simp)) hs hs') h
      exact ⟨w', by simp [hw'], s1, a, b⟩
    · rename_i r hr
      simp only [Sum.inr.injEq] at h
      subst h
      exact ⟨w, by simp, s, hs, hr⟩

theorem incoming_norm (θ φ : ℝ) : (incoming θ φ).norm = 1 := by
  unfold V3.norm V3.dot incoming
  have h1 := sin_sq_add_cos_sq θ
  have h2 := sin_sq_add_cos_sq φ
  rw [show -(sin θ * cos φ) * -(sin θ * cos φ) + -(sin θ * sin φ) * -(sin θ * sin φ) + -cos θ * -cos θ = 1 by
    linear_combination h1 + sin θ ^ 2 * h2, sqrt_one]

/-- How a traced ray ends. -/
theorem trace_end {c : Texture} {nA nB : ℂ} (ha : 0 < nA.re) (hb : 0 < nB.re) (ka : 0 ≤ nA.im) (kb : 0 ≤ nB.im) {tmm : Bool} {nL : ℕ}
    (hh : c.h + 1e-8 ≠ 0) {t : TracedRay} (ht : IsTrace c nA nB tmm nL t) (h0 : 0 < t.ray.θin) (h1 : t.ray.θin < π / 2) :
    ∃ w ∈ t.ws, ∃ s, FacetOk tmm nL w ∧ TraceInv (incoming t.ray.θin t.ray.φin) s ∧
      sicStep c.Lx c.Ly (incoming t.ray.θin t.ray.φin) w s = .inr t.res ∧ t.ray.out = t.res.rayOut := by
  obtain ⟨hws, x, y, htr, hout⟩ := ht
  have hc : 0 < cos t.ray.θin := cos_pos_of_mem_Ioo ⟨by linarith [pi_pos], h1⟩
  unfold traceInterface at htr
  simp only [launchD_eq x y hc hh] at htr
  split at htr
  · simp at htr
  · rename_i res hres
    simp only [Option.some.injEq] at htr
    subst htr
    have hok : ∀ w ∈ t.ws, FacetOk tmm nL w := fun w hw => facetDraw_ok ha hb ka kb (hws w hw)
    obtain ⟨w, hw, s, hi, hs⟩ := sicRun_trace t.ws hok _ _ ⟨sicStart_inv _ _ 1 0 (Or.inl rfl), incoming_norm _ _⟩ hres
    exact ⟨w, hw, s, hok w hw, hi, hs, hout⟩

theorem polar_unitVec {d : V3} (h : V3.norm d = 1) : unitVec (polar d) (azimuth d) = d := by
  have hd := (norm_one_iff d).mp h
  unfold V3.dot at hd
  have hz : d.z ^ 2 ≤ 1 := by nlinarith [mul_self_nonneg d.x, mul_self_nonneg d.y]
  have hz1 : -1 ≤ d.z := by nlinarith
  have hz2 : d.z ≤ 1 := by nlinarith
  have hcos : cos (polar d) = d.z := by
    unfold polar; rw [h, div_one, cos_arccos hz1 hz2]
  have hsin : sin (polar d) = ‖(⟨d.x, d.y⟩ : ℂ)‖ := by
    unfold polar
    rw [h, div_one, sin_arccos, Complex.norm_def, Complex.normSq_mk]
    congr 1; linarith
  unfold unitVec azimuth
  rw [hcos, hsin]
  ext
  · simp only
    rw [Complex.norm_mul_cos_arg]
  · simp only
    rw [Complex.norm_mul_sin_arg]
  · rfl

/-- The azimuths and polar angles at the end belong to the final direction. -/
theorem step_end {Lx Ly : ℝ} {d0 : V3} (hd0 : d0.z < 0) {tmm : Bool} {nL : ℕ} {w : Draw} (hw : FacetOk tmm nL w) {s : Sic} (h : TraceInv d0 s) {res : SicRes}
    (hs : sicStep Lx Ly d0 w s = .inr res) :
    (res.rayOut = .leaves (polar (finalDir res)) (azimuth (finalDir res)) ∧ V3.norm (finalDir res) = 1 ∧
      (∃ side, endsIn res = some side ∧ (side = 1 ∨ side = -1) ∧
        ((side = 1 ↔ 0 < (finalDir res).z) ∨ (finalDir res).z = 0 ∨
          (side = 1 ∧ (finalDir res).z < 0 ∧ ((finalHeight res = none) ∨ ∃ z, finalHeight res = some z ∧ z ≤ w.zmin)) ∨
          (side = -1 ∧ 0 < (finalDir res).z ∧ ((finalHeight res = none) ∨ ∃ z, finalHeight res = some z ∧ w.zmax ≤ z))))) ∨
    (endsIn res = none ∧ ∃ (A : List ℝ) (θ : ℝ), res.rayOut = .absorbed (fun l => A.getD l 0) θ ∧ tmm = true ∧ |θ| ≤ π / 2 ∧ A.length = nL ∧ (∀ a ∈ A, 0 ≤ a) ∧ 0 < A.sum) := by
  have hu := h.unit
  unfold sicStep at hs
  simp only at hs
  split at hs
  · left
    split_ifs at hs with h1 h2 h3 h4
    · simp only [Sum.inr.injEq] at hs
      subst hs
      have hi : s.i1 = 0 := by omega
      obtain ⟨e1, e2⟩ := h.inv.fresh hi
      refine ⟨rfl, ?_, s.side, rfl, h.inv.side, Or.inl ?_⟩
      · rw [norm_one_iff] at hu ⊢
        unfold V3.dot at hu ⊢
        simp only [finalDir]; linarith
      · simp [finalDir, e2, e1, hd0]
    · split at hs
      · simp only [Sum.inr.injEq] at hs
        subst hs
        refine ⟨rfl, hu, s.side, rfl, h.inv.side, ?_⟩
        rcases h4 with ⟨g1, g2, -⟩ | ⟨g1, g2, -⟩
        · exact Or.inr (Or.inr (Or.inl ⟨g1, g2, Or.inl rfl⟩))
        · exact Or.inr (Or.inr (Or.inr ⟨g1, g2, Or.inl rfl⟩))
      · simp at hs
    · simp only [Sum.inr.injEq] at hs
      subst hs
      refine ⟨rfl, hu, s.side, rfl, h.inv.side, ?_⟩
      push Not at h4
      simp only [finalDir, finalHeight]
      rcases lt_trichotomy s.d.z 0 with g | g | g
      · rcases h.inv.side with e | e
        · exact Or.inr (Or.inr (Or.inl ⟨e, g, Or.inr ⟨_, rfl, h4.1 e g⟩⟩))
        · left; rw [e]; constructor
          · intro h; norm_num at h
          · intro h; linarith
      · exact Or.inr (Or.inl g)
      · rcases h.inv.side with e | e
        · left; simp [e, g]
        · exact Or.inr (Or.inr (Or.inr ⟨e, g, Or.inr ⟨_, rfl, h4.2 e g⟩⟩))
  · rename_i p θ Nf hci
    right
    obtain ⟨hN, hθ⟩ := hit_unit hci
    split at hs
    · rename_i A hA
      simp only [Sum.inr.injEq] at hs
      subst hs
      have := (hw.ok s.d Nf s.side hu hN h.inv.side).2 A (by rw [← hθ]; exact hA)
      exact ⟨rfl, A, θ, rfl, this.1, by rw [hθ]; exact localTheta_abs_le _ _, this.2⟩
    · simp at hs

theorem getD_sum (A : List ℝ) : ((List.range A.length).map fun l => A.getD l 0).sum = A.sum := by
  congr 1
  apply List.ext_getElem
  · simp
  · intro i h1 h2
    simp at h1
    simp [h1]

theorem incoming_down {θ φ : ℝ} (h0 : 0 < θ) (h1 : θ < π / 2) : (incoming θ φ).z < 0 := by
  have hc : 0 < cos θ := cos_pos_of_mem_Ioo ⟨by linarith [pi_pos], h1⟩
  simp [incoming, hc]

/-! ## C126 -/

section
variable (c : Texture) (nAbove nBelow : ℂ) (ha : 0 < nAbove.re) (hb : 0 < nBelow.re) (ka : 0 ≤ nAbove.im) (kb : 0 ≤ nBelow.im) (hh : c.h + 1e-8 ≠ 0)
  (tmm : Bool) (nL : ℕ)

include ha hb ka kb hh in
/-- **C126, one ray.** Whatever the surface looks like (also if it is refreshed while the ray is traced) and whatever the random numbers are: the angles reported for a ray that is not absorbed
are those of the direction in which it travels at the end, with a polar angle between 0 and 180°; an absorbed ray reports a non-negative absorption per layer, not all zero, and a local
angle of at most 90°, and only with a lookup table. -/
theorem C126_ray (t : TracedRay) (ht : IsTrace c nAbove nBelow tmm nL t) (h0 : 0 < t.ray.θin) (h1 : t.ray.θin < π / 2) :
    match t.ray.out with
    | .leaves θ φ => 0 ≤ θ ∧ θ ≤ π ∧ unitVec θ φ = finalDir t.res ∧ endsIn t.res ≠ none
    | .absorbed A θl => tmm = true ∧ |θl| ≤ π / 2 ∧ (∀ l, 0 ≤ A l) ∧ 0 < ((List.range nL).map A).sum ∧ endsIn t.res = none := by
  obtain ⟨w, hw, s, hok, hi, hs, hout⟩ := trace_end ha hb ka kb hh ht h0 h1
  rw [hout]
  rcases step_end (incoming_down h0 h1) hok hi hs with ⟨e, hu, side, hside, -⟩ | ⟨hn, A, θ, e, h1, h2, h3, h4, h5⟩
  · rw [e]
    exact ⟨Real.arccos_nonneg _, Real.arccos_le_pi _, polar_unitVec hu, by simp [hside]⟩
  · rw [e]
    refine ⟨h1, h2, ?_, ?_, hn⟩
    · intro l
      rcases Nat.lt_or_ge l A.length with g | g
      · have : A.getD l 0 = A[l] := by simp [g]
        show 0 ≤ A.getD l 0
        rw [this]; exact h4 _ (List.getElem_mem g)
      · simp [List.getElem?_eq_none g]
    · rw [← h3, getD_sum]; exact h5

include ha hb ka kb hh in
theorem trace_ok {s : ℝ} (t : TracedRay) (ht : IsTrace c nAbove nBelow tmm nL t) (h0 : 0 < t.ray.θin) (h1 : t.ray.θin < π / 2) (he : OffEdge s t.ray.φin) :
    RayOk s tmm nL t.ray := by
  refine ⟨h0, h1, he, ?_⟩
  have := C126_ray c nAbove nBelow ha hb ka kb hh tmm nL t ht h0 h1
  split <;> rename_i heq <;> rw [heq] at this
  · simp only at this; rw [abs_of_nonneg this.1]; exact this.2.1
  · exact ⟨this.1, this.2.1, this.2.2.1, this.2.2.2.1⟩

include ha hb ka kb hh in
/-- **C126, media.** Unless it ends exactly horizontal or has slipped past the surface, a traced ray is filed in the upward hemisphere exactly if it ends in the medium above the surface, and in the
downward hemisphere exactly if it ends in the medium below. -/
theorem C126_media (t : TracedRay) (ht : IsTrace c nAbove nBelow tmm nL t) (h0 : 0 < t.ray.θin) (h1 : t.ray.θin < π / 2)
    (hslip : ¬ Slipped t) (hhor : ¬ Horizontal t) (θ φ : ℝ) (hout : t.ray.out = .leaves θ φ) :
    (endsIn t.res = some 1 ∧ θ < π / 2) ∨ (endsIn t.res = some (-1) ∧ π / 2 < θ) := by
  obtain ⟨w, hw, s, hok, hi, hs, hout'⟩ := trace_end ha hb ka kb hh ht h0 h1
  rcases step_end (incoming_down h0 h1) hok hi hs with ⟨e, hu, side, hside, hpm, hcase⟩ | ⟨hn, A, θ', e, -⟩
  · rw [hout', e] at hout
    simp only [RTOut.leaves.injEq] at hout
    have hz : ∀ x, polar (finalDir t.res) = x → (x < π / 2 ↔ 0 < (finalDir t.res).z) := by
      intro x hx; rw [← hx]; unfold polar; rw [hu, div_one, Real.arccos_lt_pi_div_two]
    have hz' : π / 2 < θ ↔ (finalDir t.res).z < 0 := by
      rw [← hout.1]; unfold polar; rw [hu, div_one, ← not_le, Real.arccos_le_pi_div_two, not_le]
    rw [hz θ hout.1, hz', hside]
    rcases hcase with g | g | ⟨g1, g2, g3⟩ | ⟨g1, g2, g3⟩
    · rcases hpm with e | e
      · left; exact ⟨by rw [e], g.mp e⟩
      · right
        refine ⟨by rw [e], ?_⟩
        have : ¬ 0 < (finalDir t.res).z := fun h => by have := g.mpr h; rw [e] at this; norm_num at this
        rcases lt_or_eq_of_le (not_lt.mp this) with h | h
        · exact h
        · exact absurd h hhor
    · exact absurd g hhor
    · exact absurd (Or.inl ⟨by rw [hside, g1], g2, g3.imp id (fun ⟨z, h⟩ => ⟨w, hw, z, h⟩)⟩) hslip
    · exact absurd (Or.inr ⟨by rw [hside, g1], g2, g3.imp id (fun ⟨z, h⟩ => ⟨w, hw, z, h⟩)⟩) hslip
  · rw [hout', e] at hout; simp at hout

variable (n : ℕ) (hn : 0 < n) (cz : ℝ) (hc : 0 < cz) (m : ℕ) (hm : 0 < m) (sp : Spacing) (front : Bool)

include ha hb ka kb hh hn hc hm in
/-- **C126, columns.** For every texture, every pair of media and every collection of rays traced on it to the end, building the matrix raises no index error, and in each column of an
incidence bin that received a ray the scattered and absorbed fractions are non-negative and add up to one. -/
theorem C126_columns (ts : List TracedRay) (hts : ∀ t ∈ ts, IsTrace c nAbove nBelow tmm nL t ∧ 0 < t.ray.θin ∧ t.ray.θin < π / 2 ∧ OffEdge (2 * π / m) t.ray.φin)
    (u : RTJunk) :
    ∃ M, rtMatrix { g := makeAngleVector n (2 * π / m) cz sp, phiSym := 2 * π / m, tmm := tmm, front := front, nLayers := nL } u (ts.map (·.ray)) = some M ∧
      ∀ j, (∃ t ∈ ts, IncidentIn n cz (2 * π / m) sp front j t.ray) →
        (∀ i, 0 ≤ M.out i j) ∧ (∀ l, 0 ≤ M.A l j) ∧
        ∑ i ∈ Finset.range (ringStart n cz (2 * n)), M.out i j + ∑ l ∈ Finset.range nL, M.A l j = 1 := by
  have hok : ∀ r ∈ ts.map (·.ray), RayOk (2 * π / m) tmm nL r := by
    intro r hr
    obtain ⟨t, ht, rfl⟩ := List.mem_map.mp hr
    obtain ⟨g1, g2, g3, g4⟩ := hts t ht
    exact trace_ok c nAbove nBelow ha hb ka kb hh tmm nL t g1 g2 g3 g4
  obtain ⟨M, hM, hcol⟩ := C48_columns n hn cz hc m hm sp tmm front nL (ts.map (·.ray)) hok u
  refine ⟨M, hM, fun j ⟨t, ht, hj⟩ => hcol j ⟨t.ray, List.mem_map.mpr ⟨t, ht, rfl⟩, hj⟩⟩

/-- Number of rays with a property. -/
noncomputable def nOfT (ts : List TracedRay) (P : TracedRay → Prop) : ℝ := by
  classical exact ((ts.countP fun t => decide (P t) : ℕ) : ℝ)

theorem sum_nOf (ts : List TracedRay) (S : Finset ℕ) (P : TracedRay → Prop) (Q : ℕ → TracedRay → Prop) (R : TracedRay → Prop)
    (huniq : ∀ t ∈ ts, ∀ i i', Q i t → Q i' t → i = i') (hR : ∀ t ∈ ts, P t → (R t ↔ ∃ i ∈ S, Q i t)) :
    ∑ i ∈ S, nOfT ts (fun t => P t ∧ Q i t) = nOfT ts (fun t => P t ∧ R t) := by
  classical
  induction ts with
  | nil => simp [nOfT]
  | cons t ts ih =>
    have ih' := ih (fun t ht => huniq t (by simp [ht])) (fun t ht => hR t (by simp [ht]))
    have hcons : ∀ F : TracedRay → Prop, nOfT (t :: ts) F = nOfT ts F + if F t then 1 else 0 := by
      intro F
      unfold nOfT
      rw [List.countP_cons]
      by_cases h : F t <;> simp [h]
    simp only [hcons, Finset.sum_add_distrib, ih', add_right_inj]
    by_cases hP : P t
    · by_cases hRt : R t
      · obtain ⟨i, hi, hQ⟩ := (hR t (by simp) hP).mp hRt
        rw [Finset.sum_eq_single i]
        · simp [hP, hQ, hRt]
        · intro b _ hb
          rw [if_neg]
          rintro ⟨_, h⟩
          exact hb (huniq t (by simp) b i h hQ)
        · intro h; exact absurd hi h
      · rw [if_neg (fun h => hRt h.2)]
        apply Finset.sum_eq_zero
        intro i hi
        rw [if_neg]
        rintro ⟨_, h⟩
        exact hRt ((hR t (by simp) hP).mpr ⟨i, hi, h⟩)
    · simp [hP]

theorem nOf_map (ts : List TracedRay) (P : RTRay → Prop) : nOf (ts.map (·.ray)) P = nOfT ts fun t => P t.ray := by
  classical
  unfold nOf nOfT
  rw [List.countP_map]
  rfl

theorem nOfT_congr (ts : List TracedRay) {P Q : TracedRay → Prop} (h : ∀ t ∈ ts, (P t ↔ Q t)) : nOfT ts P = nOfT ts Q := by
  classical
  unfold nOfT
  congr 1
  apply List.countP_congr
  intro t ht
  simp [h t ht]

theorem dirInBin_half {n : ℕ} (hn : 0 < n) {c s : ℝ} {sp : Spacing} {r : ℕ} {θ φ : ℝ} (h : DirInBin n c s sp r θ φ) :
    r < ringStart n c (2 * n) ∧ (r < ringStart n c n ↔ θ ≤ π / 2) := by
  obtain ⟨i, k, q, hi, hk, rfl, hb⟩ := h
  have hlt : ringStart n c i + k < ringStart n c (i + 1) := by rw [ringStart_succ]; omega
  refine ⟨lt_of_lt_of_le hlt (ringStart_mono n c (by omega)), ?_⟩
  rw [← polarEdge_half n hn sp]
  rcases Nat.lt_or_ge i n with h | h
  · have h1 : ringStart n c i + k < ringStart n c n := lt_of_lt_of_le hlt (ringStart_mono n c h)
    have h2 : θ ≤ polarEdge n sp n := by
      rcases Nat.eq_or_lt_of_le (show i + 1 ≤ n from h) with e | e
      · have := hb.2.1; rwa [e] at this
      · exact hb.2.1.trans (polarEdge_strictMono n hn sp _ _ e (by omega)).le
    simp [h1, h2]
  · have h1 : ¬ ringStart n c i + k < ringStart n c n := by have := ringStart_mono n c h; omega
    have h2 : ¬ θ ≤ polarEdge n sp n := by
      rcases Nat.eq_or_lt_of_le h with e | e
      · have := hb.1; rw [← e] at this; exact not_le.mpr this
      · exact not_le.mpr ((polarEdge_strictMono n hn sp _ _ e (by omega)).trans hb.1)
    simp [h1, h2]

include ha hb ka kb hh hn hc hm in
/-- **C126, reflectance and transmittance.** If no ray leaves exactly along an edge of the grid, exactly horizontally, or by slipping past the surface: in each column that received rays, the rows of
the hemisphere the light came from add up to the fraction of the rays that end in the medium they came from, the rows of the other hemisphere to the fraction that end in the other
medium, and the absorption to the fraction that end in neither. -/
theorem C126_hemispheres (ts : List TracedRay)
    (hts : ∀ t ∈ ts, IsTrace c nAbove nBelow tmm nL t ∧ 0 < t.ray.θin ∧ t.ray.θin < π / 2 ∧ OffEdge (2 * π / m) t.ray.φin)
    (hoff : ∀ t ∈ ts, OutOffEdge (2 * π / m) front t.ray ∧ ¬ Slipped t ∧ ¬ Horizontal t) (u : RTJunk) (M : RTMat)
    (hM : rtMatrix { g := makeAngleVector n (2 * π / m) cz sp, phiSym := 2 * π / m, tmm := tmm, front := front, nLayers := nL } u (ts.map (·.ray)) = some M)
    (j : ℕ) (hj : ∃ t ∈ ts, IncidentIn n cz (2 * π / m) sp front j t.ray) :
    let inc := fun t : TracedRay => IncidentIn n cz (2 * π / m) sp front j t.ray
    let up := Finset.range (ringStart n cz n)
    let down := Finset.Ico (ringStart n cz n) (ringStart n cz (2 * n))
    ∑ i ∈ (if front then up else down), M.out i j = nOfT ts (fun t => inc t ∧ endsIn t.res = some 1) / nOfT ts inc ∧
    ∑ i ∈ (if front then down else up), M.out i j = nOfT ts (fun t => inc t ∧ endsIn t.res = some (-1)) / nOfT ts inc ∧
    ∑ l ∈ Finset.range nL, M.A l j = nOfT ts (fun t => inc t ∧ endsIn t.res = none) / nOfT ts inc := by
  intro inc up down
  have hs : (0 : ℝ) < 2 * π / m := by have := Real.pi_pos; positivity
  have hok : ∀ r ∈ ts.map (·.ray), RayOk (2 * π / m) tmm nL r := by
    intro r hr
    obtain ⟨t, ht, rfl⟩ := List.mem_map.mp hr
    obtain ⟨g1, g2, g3, g4⟩ := hts t ht
    exact trace_ok c nAbove nBelow ha hb ka kb hh tmm nL t g1 g2 g3 g4
  have hoff' : ∀ r ∈ ts.map (·.ray), OutOffEdge (2 * π / m) front r := by
    intro r hr
    obtain ⟨t, ht, rfl⟩ := List.mem_map.mp hr
    exact (hoff t ht).1
  obtain ⟨e1, e2⟩ := C48_entries n hn cz hc m hm sp tmm front nL _ hok hoff' u M hM j (by
    obtain ⟨t, ht, h⟩ := hj
    exact ⟨t.ray, List.mem_map.mpr ⟨t, ht, rfl⟩, h⟩)
  simp only [nOf_map] at e1 e2
  have huniq : ∀ t ∈ ts, ∀ i i', LeavesIn n cz (2 * π / m) sp front i t.ray → LeavesIn n cz (2 * π / m) sp front i' t.ray → i = i' := by
    intro t _ i i' h h'
    unfold LeavesIn at h h'
    split at h <;> rename_i heq
    · rw [heq] at h'
      exact dirInBin_unique hn hs h h'
    · exact h.elim
  -- where a ray is filed
  have hfile : ∀ t ∈ ts, (endsIn t.res = some 1 ∧ ∃ i ∈ (if front then up else down), LeavesIn n cz (2 * π / m) sp front i t.ray) ∨
      (endsIn t.res = some (-1) ∧ ∃ i ∈ (if front then down else up), LeavesIn n cz (2 * π / m) sp front i t.ray) ∨
      (endsIn t.res = none ∧ ∀ i, ¬ LeavesIn n cz (2 * π / m) sp front i t.ray) := by
    intro t ht
    obtain ⟨g1, g2, g3, g4⟩ := hts t ht
    obtain ⟨o1, o2, o3⟩ := hoff t ht
    have hray := C126_ray c nAbove nBelow ha hb ka kb hh tmm nL t g1 g2 g3
    rcases hout : t.ray.out with ⟨θ, φ⟩ | ⟨A, θl⟩
    · rw [hout] at hray
      simp only at hray
      have hup : upright θ φ = (θ, φ) := by unfold upright; rw [if_neg (not_lt.mpr hray.1)]
      unfold OutOffEdge at o1
      rw [hout] at o1
      simp only [hup] at o1
      have hle : seen front θ ≤ π := by unfold seen; split_ifs <;> linarith [hray.1, hray.2.1]
      obtain ⟨i, k, hi, hk, -, hdir, -⟩ := dirInBin_fold hn hc m hm (sp := sp) o1.1 hle o1.2 tmm front nL
      have hl : LeavesIn n cz (2 * π / m) sp front (ringStart n cz i + k) t.ray := by
        unfold LeavesIn; rw [hout]; simp only [hup]; exact hdir
      obtain ⟨b1, b2⟩ := dirInBin_half hn hdir
      rcases C126_media c nAbove nBelow ha hb ka kb hh tmm nL t g1 g2 g3 o2 o3 θ φ hout with ⟨a1, a2⟩ | ⟨a1, a2⟩
      · left
        refine ⟨a1, _, ?_, hl⟩
        cases front
        · simp only [Bool.false_eq_true, if_false, down, Finset.mem_Ico]
          refine ⟨?_, b1⟩
          by_contra hcon
          have := b2.mp (by omega)
          simp [seen] at this; linarith
        · simp only [if_true, up, Finset.mem_range]
          exact b2.mpr (by simp [seen]; linarith)
      · right; left
        refine ⟨a1, _, ?_, hl⟩
        cases front
        · simp only [Bool.false_eq_true, if_false, up, Finset.mem_range]
          exact b2.mpr (by simp [seen]; linarith)
        · simp only [if_true, down, Finset.mem_Ico]
          refine ⟨?_, b1⟩
          by_contra hcon
          have := b2.mp (by omega)
          simp [seen] at this; linarith
    · rw [hout] at hray
      right; right
      refine ⟨hray.2.2.2.2, ?_⟩
      intro i h
      unfold LeavesIn at h
      rw [hout] at h
      exact h
  have hdisj : ∀ i, i ∈ (if front then up else down) → i ∈ (if front then down else up) → False := by
    intro i h1 h2
    cases front <;> simp [up, down] at h1 h2 <;> omega
  refine ⟨?_, ?_, ?_⟩
  · simp only [e1]
    rw [← Finset.sum_div, sum_nOf ts _ inc (fun i t => LeavesIn n cz (2 * π / m) sp front i t.ray) (fun t => endsIn t.res = some 1) huniq]
    intro t ht _
    rcases hfile t ht with ⟨h1, h2⟩ | ⟨h1, i, hi, hl⟩ | ⟨h1, h2⟩
    · exact ⟨fun _ => h2, fun _ => h1⟩
    · rw [h1]
      constructor
      · intro h; norm_num at h
      · rintro ⟨i', hi', hl'⟩
        rw [huniq t ht i' i hl' hl] at hi'
        exact (hdisj i hi' hi).elim
    · rw [h1]
      exact ⟨fun h => by simp at h, fun ⟨i, _, hl⟩ => (h2 i hl).elim⟩
  · simp only [e1]
    rw [← Finset.sum_div, sum_nOf ts _ inc (fun i t => LeavesIn n cz (2 * π / m) sp front i t.ray) (fun t => endsIn t.res = some (-1)) huniq]
    intro t ht _
    rcases hfile t ht with ⟨h1, i, hi, hl⟩ | ⟨h1, h2⟩ | ⟨h1, h2⟩
    · rw [h1]
      constructor
      · intro h; norm_num at h
      · rintro ⟨i', hi', hl'⟩
        rw [huniq t ht i' i hl' hl] at hi'
        exact (hdisj i hi hi').elim
    · exact ⟨fun _ => h2, fun _ => h1⟩
    · rw [h1]
      exact ⟨fun h => by simp at h, fun ⟨i, _, hl⟩ => (h2 i hl).elim⟩
  · rw [e2]
    congr 1
    apply nOfT_congr
    intro t ht
    obtain ⟨g1, g2, g3, g4⟩ := hts t ht
    have hray := C126_ray c nAbove nBelow ha hb ka kb hh tmm nL t g1 g2 g3
    unfold IsAbsorbed
    rcases hout : t.ray.out with ⟨θ, φ⟩ | ⟨A, θl⟩
    · rw [hout] at hray
      simp [hray.2.2.2, inc]
    · rw [hout] at hray
      simp [hray.2.2.2.2, inc]

include ha hb ka kb hh hn hc hm in
/-- **C126, from geometry to the whole solar cell.** If each of the rays that `RT` launches (directions of the grid, `nx * ny` positions, at least that many rays per incidence bin) is traced to the end on the
texture, the matrices it saves are calculated in the sense of C123: solar cells with such textured surfaces conserve energy. -/
theorem C126_calculated (nRays nx ny : ℕ) (hx : 0 < nx) (hy : 0 < ny) (henough : (makeAngleVector n (2 * π / m) cz sp).half * (nx * ny) ≤ nRays)
    (pos : ℕ → ℝ × ℝ) (ws : ℕ → ℕ → List Draw) (hws : ∀ l1 l2, ∀ w ∈ ws l1 l2, FacetDraw nAbove nBelow tmm nL w)
    (res : ℕ → ℕ → SicRes)
    (hres : ∀ l1 l2, ∀ a : ℝ × ℝ, (launched (makeAngleVector n (2 * π / m) cz sp) (nAngles nRays nx ny))[l1]? = some a → l2 < nx * ny →
      traceInterface c a.1 a.2 (pos l2).1 (pos l2).2 (ws l1 l2) = some (res l1 l2))
    (u : RTJunk) :
    ∃ M, rtMatrix { g := makeAngleVector n (2 * π / m) cz sp, phiSym := 2 * π / m, tmm := tmm, front := front, nLayers := nL } u
        (traced (launched (makeAngleVector n (2 * π / m) cz sp) (nAngles nRays nx ny)) (nx * ny) fun l1 l2 => (res l1 l2).rayOut) = some M ∧
      Calculated n cz m sp front nL (fun r j => M.out r j, fun l j => M.A l j) := by
  classical
  set g := makeAngleVector n (2 * π / m) cz sp with hg
  set dirs := launched g (nAngles nRays nx ny) with hdirs
  let res' : ℕ → ℕ → RTOut := fun l1 l2 => if l1 < dirs.length ∧ l2 < nx * ny then (res l1 l2).rayOut else .leaves 0 0
  have htr : traced dirs (nx * ny) (fun l1 l2 => (res l1 l2).rayOut) = traced dirs (nx * ny) res' := by
    unfold traced
    apply List.flatMap_congr
    rintro ⟨a, l⟩ hp
    have hl : l < dirs.length := by
      have := List.mem_zipIdx_iff_getElem?.mp hp
      exact (List.getElem?_eq_some_iff.mp this).1
    apply List.map_congr_left
    intro l2 hl2
    simp only [res', hl, List.mem_range.mp hl2, and_self, if_true]
  obtain ⟨f, -, -, -, hf4⟩ := centre_incident n hn cz hc m hm sp true
  have hhp := half_pos n hn cz hc
  have hhalf := half_eq n hn cz sp (2 * π / m)
  obtain ⟨hlen, hget⟩ := launched_get g (nAngles nRays nx ny) (by rw [hhalf]; exact hhp)
  rw [hhalf] at hget
  have hres' : ∀ l1 l2, match res' l1 l2 with
      | .leaves θ _ => |θ| ≤ π
      | .absorbed A θl => tmm = true ∧ |θl| ≤ π / 2 ∧ (∀ l, 0 ≤ A l) ∧ 0 < ((List.range nL).map A).sum := by
    intro l1 l2
    by_cases hin : l1 < dirs.length ∧ l2 < nx * ny
    · simp only [res', if_pos hin]
      obtain ⟨row, h1, h2⟩ := hget l1 (by rw [← hlen]; exact hin.1)
      obtain ⟨a, b, -, -⟩ := hf4 _ (Nat.mod_lt _ hhp) row h1 (.leaves 0 0)
      have ht := hres l1 l2 _ h2 hin.2
      have := C126_ray c nAbove nBelow ha hb ka kb hh tmm nL
        { ray := { θin := row.theta, φin := row.phi, out := (res l1 l2).rayOut }, res := res l1 l2, ws := ws l1 l2 } ⟨hws l1 l2, _, _, ht, rfl⟩ a b
      simp only at this
      split <;> rename_i heq <;> rw [heq] at this
      · simp only at this; rw [abs_of_nonneg this.1]; exact this.2.1
      · exact ⟨this.1, this.2.1, this.2.2.1, this.2.2.2.1⟩
    · simp only [res', if_neg hin, abs_zero]; exact pi_pos.le
  rw [htr]
  have hok := rays_ok n hn cz hc m hm sp tmm nL (nAngles nRays nx ny) (nx * ny) res' hres'
  obtain ⟨M, hM, -⟩ := C48_columns n hn cz hc m hm sp tmm front nL _ hok u
  exact ⟨M, hM, Calculated.rt tmm nL nRays nx ny hx hy henough res' hres' u M hM⟩

end

/-! ## A ray that is traced to the end -/

/-- A unit cell of 10 by 10, reached from a height of 1. -/
noncomputable def exTexture : Texture := { Lx := 10, Ly := 10, zcov := 0, h := 1 - 1e-8 }

theorem exTri_hit_slanted {a : ℝ} (ha : 0 < a) : exTri.hit ⟨2, 1, 1⟩ ⟨-a, 0, -a⟩ = true ∧ exTri.t ⟨2, 1, 1⟩ ⟨-a, 0, -a⟩ = 1 / a := by
  apply hit_of_inTri
  · unfold Parallel; simp only [exTri, V3.dot, V3.cross, V3.sub_x, V3.sub_y, V3.sub_z]; norm_num; exact ha.ne'
  · positivity
  · refine ⟨1 / 10, 1 / 10, by norm_num, by norm_num, by norm_num, ?_⟩
    ext <;> simp [exTri] <;> field_simp <;> norm_num

theorem exTri_miss_up {r d : V3} (h : 0 < r.z) (hd : 0 < d.z) : exTri.hit r d = false := by
  unfold Tri.hit
  rw [decide_eq_false_iff_not]
  rintro ⟨-, -, -, ht⟩
  unfold Tri.t Tri.det at ht
  rw [exTri_cross] at ht
  simp only [V3.dot, exTri, V3.neg_x, V3.neg_y, V3.neg_z, V3.sub_x, V3.sub_y, V3.sub_z] at ht
  have e : 1 / (-d.x * 0 + -d.y * 0 + -d.z * 100) * (0 * (r.x - 0) + 0 * (r.y - 0) + 100 * (r.z - 0)) = -(r.z / d.z) := by
    field_simp
    ring
  rw [e] at ht
  have := div_pos h hd
  linarith

theorem exTri_reflect_slanted {a : ℝ} (hu : V3.norm ⟨-a, 0, a⟩ = 1) :
    normalise (reflectDir ⟨-a, 0, -a⟩ ((((1 : ℤ) : ℝ)) • exTri.N)) = ⟨-a, 0, a⟩ := by
  have : reflectDir ⟨-a, 0, -a⟩ ((((1 : ℤ) : ℝ)) • exTri.N) = ⟨-a, 0, a⟩ := by
    rw [exTri_N]
    ext <;> simp [reflectDir, V3.dot]
    ring
  rw [this]
  exact normalise_unit hu

/-- A ray launched at 45° falls on a horizontal facet, is reflected, and leaves: it is traced to the end and meets the hypotheses of C126. -/
theorem exTrace : ∃ res, traceInterface exTexture (π / 4) 0 1 1 [exDraw, exDraw, exDraw] = some res ∧ endsIn res = some 1 ∧ 0 < (finalDir res).z := by
  have hc : 0 < cos (π / 4) := cos_pos_of_mem_Ioo ⟨by linarith [pi_pos], by linarith [pi_pos]⟩
  have hh : exTexture.h + 1e-8 ≠ 0 := by norm_num [exTexture]
  have hsc : sin (π / 4) = cos (π / 4) := by rw [sin_pi_div_four, cos_pi_div_four]
  set a := cos (π / 4) with hadef
  have haa : a * a = 1 / 2 := by
    have := sin_sq_add_cos_sq (π / 4)
    rw [hsc] at this
    nlinarith
  have hinc : incoming (π / 4) 0 = ⟨-a, 0, -a⟩ := by
    unfold incoming; rw [hsc, ← hadef]; simp
  have hA : launchA 1 1 (rA0 exTexture.h (π / 4) 0) = ⟨2, 1, 1⟩ := by
    rw [rA0_vec hc, hsc, ← hadef, launchA]
    have : |exTexture.h + 1e-8| = 1 := by norm_num [exTexture]
    rw [this]
    ext <;> simp [hc.ne']
    norm_num
  have hu : V3.norm ⟨-a, 0, a⟩ = 1 := by
    rw [norm_one_iff]; simp only [V3.dot]; linarith
  have hw : wrapRay ⟨2, 1, 1⟩ ⟨-a, 0, -a⟩ 10 10 0 = ⟨2, 1, 1⟩ := by
    unfold wrapRay
    have e : (2 : ℝ) + -a * (0 - 1) / -a = 1 := by field_simp; norm_num
    have f : ⌊(1 : ℝ) / 10⌋ = 0 := by rw [Int.floor_eq_zero_iff]; constructor <;> norm_num
    simp only [e, zero_mul, zero_div, add_zero, f]
    simp
  unfold traceInterface
  simp only [launchD_eq 1 1 hc hh, hinc, hA]
  simp only [show exTexture.Lx = 10 from rfl, show exTexture.Ly = 10 from rfl, show exTexture.zcov = 0 from rfl, hw]
  have h1 : ∃ θ r, sicStep 10 10 ⟨-a, 0, -a⟩ exDraw (sicStart ⟨2, 1, 1⟩ ⟨-a, 0, -a⟩ 1 0)
      = .inl { r := r, d := ⟨-a, 0, a⟩, side := 1, checked := false, misses := 0, i1 := 1, nInt := 1, θ := some θ } ∧ 0 < r.z := by
    refine ⟨localTheta exTri.N ⟨-a, 0, -a⟩, (⟨2, 1, 1⟩ + (1 / a : ℝ) • ⟨-a, 0, -a⟩ : V3) + (1 / 10 ^ 9 : ℝ) • ⟨-a, 0, a⟩, ?_, ?_⟩
    · unfold sicStep
      simp only [sicStart, exDraw]
      rw [checkIntersect_single_hit (exTri_hit_slanted hc).1, (exTri_hit_slanted hc).2]
      simp only [fresnelDec_zero, exTri_reflect_slanted hu]
    · simp only [V3.add_z, V3.smul_z]
      have : 1 / a * -a = -1 := by field_simp
      rw [this]
      have : 0 < 1 / 10 ^ 9 * a := by positivity
      linarith
  obtain ⟨θ, r, h1, hr⟩ := h1
  have h2 : ∃ r2, sicStep 10 10 ⟨-a, 0, -a⟩ exDraw { r := r, d := ⟨-a, 0, a⟩, side := 1, checked := false, misses := 0, i1 := 1, nInt := 1, θ := some θ }
      = .inl { r := r2, d := ⟨-a, 0, a⟩, side := 1, checked := true, misses := 0, i1 := 2, nInt := 1, θ := some θ } ∧ 0 < r2.z := by
    refine ⟨r + translation 10 10 (exitSide r ⟨-a, 0, a⟩ 10 10).1, ?_, ?_⟩
    · unfold sicStep
      simp only [exDraw]
      rw [checkIntersect_single_miss (exTri_miss_up hr hc)]
      simp only [Bool.not_false, if_true, if_pos (show (1 + 1 : ℕ) > 1 by norm_num)]
    · rw [V3.add_z]
      have : (translation 10 10 (exitSide r ⟨-a, 0, a⟩ 10 10).1).z = 0 := by
        rcases (exitSide r ⟨-a, 0, a⟩ 10 10).1 with _ | _ | _ | _ <;> rfl
      rw [this]; linarith
  obtain ⟨r2, h2, hr2⟩ := h2
  have h3 : sicRun 10 10 ⟨-a, 0, -a⟩ [exDraw, exDraw, exDraw] (sicStart ⟨2, 1, 1⟩ ⟨-a, 0, -a⟩ 1 0)
      = .inr (.out (finalRes ⟨-a, 0, -a⟩ ⟨-a, 0, a⟩) (polar ⟨-a, 0, a⟩) ⟨backInto r2.x 10, backInto r2.y 10, r2.z⟩ ⟨-a, 0, a⟩ (some θ) 1 1) := by
    unfold sicRun
    rw [h1]
    simp only
    unfold sicRun
    rw [h2]
    simp only
    unfold sicRun sicStep
    simp only [exDraw]
    rw [checkIntersect_single_miss (exTri_miss_up hr2 hc)]
    simp [not_lt.mpr hc.le]
  rw [h3]
  exact ⟨_, rfl, rfl, hc⟩

example : ∃ t : TracedRay, IsTrace exTexture 1 2 false 0 t ∧ 0 < t.ray.θin ∧ t.ray.θin < π / 2 ∧ ¬ Slipped t ∧ ¬ Horizontal t ∧
    (0 : ℝ) < (1 : ℂ).re ∧ (0 : ℝ) < (2 : ℂ).re ∧ exTexture.h + 1e-8 ≠ 0 := by
  obtain ⟨res, h, he, hz⟩ := exTrace
  refine ⟨{ ray := { θin := π / 4, φin := 0, out := res.rayOut }, res := res, ws := [exDraw, exDraw, exDraw] }, ⟨?_, 1, 1, h, rfl⟩, by have := pi_pos; show 0 < π / 4; positivity,
    by have := pi_pos; show π / 4 < π / 2; linarith, ?_, fun h => hz.ne' h, by norm_num, by norm_num, by norm_num [exTexture]⟩
  · intro w hw
    have : w = exDraw := by simpa using hw
    subst this
    exact Or.inl ⟨rfl, fun _ => 0, .u, 0, by norm_num, rfl⟩
  · rintro (⟨-, h, -⟩ | ⟨h, -⟩)
    · simp only at h; linarith
    · simp only [he] at h; norm_num at h

end Rayflare
