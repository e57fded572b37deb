import Verif.Props.PlanarProfile
import Verif.Props.Converge

/-!
# Property C190 in the limit of fine grids
-/

namespace Rayflare

open Rayflare.Np Rayflare.Model Rayflare.Spec Rayflare.Lemmas Matrix Filter Topology

section cont
variable {n0 n1 : ℕ} {inN bulkN outN α d : ℝ} {res0 res1 resb : TmmRes} {p0 : ℝ × ℝ}

/-- Near the true angles the textbook density is close to that at the true angles, at all depths. -/
theorem density_near (hcos : Real.cos p0.2 ≠ 0) (t0 : ContinuousAt res0.T p0.1) (r1 : ContinuousAt res1.R p0.2) (rb : ContinuousAt resb.R p0.2)
    (hround : (slabAt n0 n1 inN bulkN outN (α * d) res0 res1 resb p0.1 p0.2).round < 1) (hα : 0 < α) (hd : 0 < d) {ε : ℝ} (hε : 0 < ε) : ∀ᶠ p in 𝓝 p0,
    let s := slabAt n0 n1 inN bulkN outN (α * d) res0 res1 resb p.1 p.2
    let s0 := slabAt n0 n1 inN bulkN outN (α * d) res0 res1 resb p0.1 p0.2
    α / |Real.cos p.2| / (1 - s.pass) < α / |Real.cos p0.2| / (1 - s0.pass) + 1 ∧
    ∀ z ∈ Set.Icc 0 d, |s.density (α / |Real.cos p.2|) d s.trips z - s0.density (α / |Real.cos p0.2|) d s0.trips z| < ε := by
  let F := fun p : ℝ × ℝ => slabAt n0 n1 inN bulkN outN (α * d) res0 res1 resb p.1 p.2
  let κ := fun p : ℝ × ℝ => α / |Real.cos p.2|
  have cs : ∀ {f : ℝ → ℝ}, ContinuousAt f p0.2 → ContinuousAt (fun p : ℝ × ℝ => f p.2) p0 := fun h => ContinuousAt.comp (f := Prod.snd) h continuousAt_snd
  have c2 : ContinuousAt (fun p => (F p).front.trns) p0 := ContinuousAt.comp (f := Prod.fst) t0 continuousAt_fst
  have c4 : ContinuousAt (fun p => (F p).rear.refl) p0 := cs r1
  have c7 : ContinuousAt (fun p => (F p).back.refl) p0 := cs rb
  have c10 : ContinuousAt (fun p => (F p).pass) p0 := by
    refine cs (f := fun θ => Real.exp (-(α * d) / |Real.cos θ|)) ?_
    exact Real.continuous_exp.continuousAt.comp (continuousAt_const.div (Real.continuous_cos.abs.continuousAt) (abs_ne_zero.mpr hcos))
  have cκ : ContinuousAt κ p0 := cs (f := fun θ => α / |Real.cos θ|) (continuousAt_const.div (Real.continuous_cos.abs.continuousAt) (abs_ne_zero.mpr hcos))
  have cround : ContinuousAt (fun p => (F p).round) p0 := ((c10.pow 2).mul c4).mul c7
  have ctrips : ContinuousAt (fun p => (F p).trips) p0 := continuousAt_const.div (continuousAt_const.sub cround) (by
    have : (F p0).round < 1 := hround
    exact (sub_pos.mpr this).ne')
  have hpass : (F p0).pass < 1 := Real.exp_lt_one_iff.mpr (div_neg_of_neg_of_pos (by nlinarith) (abs_pos.mpr hcos))
  have cK : ContinuousAt (fun p => κ p / (1 - (F p).pass)) p0 := cκ.div (continuousAt_const.sub c10) (sub_pos.mpr hpass).ne'
  have lift : ∀ {f : ℝ × ℝ → ℝ} (z : ℝ), ContinuousAt f p0 → ContinuousAt (fun q : (ℝ × ℝ) × ℝ => f q.1) (p0, z) := fun z h => ContinuousAt.comp (f := Prod.fst) (x := (p0, z)) h continuousAt_fst
  have cG : ∀ z, ContinuousAt (fun q : (ℝ × ℝ) × ℝ => (F q.1).density (κ q.1) d (F q.1).trips q.2) (p0, z) := by
    intro z
    unfold Slab.density
    have l1 := lift z cκ
    have e1 : ContinuousAt (fun q : (ℝ × ℝ) × ℝ => Real.exp (-κ q.1 * q.2)) (p0, z) := Real.continuous_exp.continuousAt.comp (l1.neg.mul continuousAt_snd)
    have e2 : ContinuousAt (fun q : (ℝ × ℝ) × ℝ => Real.exp (-κ q.1 * (d - q.2))) (p0, z) := Real.continuous_exp.continuousAt.comp (l1.neg.mul (continuousAt_const.sub continuousAt_snd))
    exact ((lift z c2).mul (lift z ctrips)).mul ((l1.mul e1).add (((lift z c10).mul (lift z c4)).mul (l1.mul e2)))
  have cG0 : ∀ z, ContinuousAt (fun q : (ℝ × ℝ) × ℝ => (F p0).density (κ p0) d (F p0).trips q.2) (p0, z) := by
    intro z
    unfold Slab.density
    have : Continuous fun q : (ℝ × ℝ) × ℝ => (F p0).front.trns * (F p0).trips * (κ p0 * Real.exp (-κ p0 * q.2) + (F p0).pass * (F p0).rear.refl * (κ p0 * Real.exp (-κ p0 * (d - q.2)))) := by fun_prop
    exact this.continuousAt
  have hun : ∀ᶠ p in 𝓝 p0, ∀ z ∈ Set.Icc 0 d, |(F p).density (κ p) d (F p).trips z - (F p0).density (κ p0) d (F p0).trips z| < ε := by
    refine (isCompact_Icc (a := (0 : ℝ)) (b := d)).eventually_forall_of_forall_eventually (P := fun p z => |(F p).density (κ p) d (F p).trips z - (F p0).density (κ p0) d (F p0).trips z| < ε) fun z _ => ?_
    have h := ((cG z).sub (cG0 z)).abs.eventually_lt (continuousAt_const (y := ε)) (by simpa using hε)
    exact h
  filter_upwards [cK.eventually_lt continuousAt_const (lt_add_one _), hun] with p h1 h2
  exact ⟨h1, h2⟩

end cont

variable {ω : Type*}

theorem error_small {dz L K A thr ε : ℝ} (hz : 0 ≤ dz) (hL : 0 ≤ L) (hLK : L ≤ K) (hK : 0 < K) (hA0 : 0 ≤ A) (hA1 : A ≤ 1) (h3 : dz * (12 * K ^ 2) ≤ ε) (ht : thr ≤ ε / (4 * K)) : 3 * dz * L ^ 2 * A + L * thr ≤ ε / 2 := by
  have h1 : L ^ 2 ≤ K ^ 2 := pow_le_pow_left₀ hL hLK 2
  have h2 : 3 * dz * L ^ 2 * A ≤ 3 * dz * K ^ 2 * 1 := mul_le_mul (mul_le_mul_of_nonneg_left h1 (by linarith)) hA1 hA0 (by positivity)
  have h4 : 0 ≤ ε := le_trans (by positivity) h3
  rw [le_div_iff₀ (by positivity)] at ht
  have h5 : L * thr ≤ ε / 4 := by
    by_cases h : 0 ≤ thr
    · have := mul_le_mul_of_nonneg_right hLK h
      linarith
    · have := mul_nonneg hL (show 0 ≤ -thr by linarith)
      linarith
  linarith

set_option maxHeartbeats 1000000 in
/-- **C190, fine grids.** A bulk layer with absorption coefficient `α` and thickness `d` between two planar layer stacks (`TMM`), light at polar angle `thIn` refracted into it.  With enough polar bins, a small enough `depth_spacing_bulk` and a small enough `I_thresh`, every value
of the bulk profile is as close as wanted to the textbook absorption density at its depth, evaluated at the *true* angles: `thIn` outside and, by Snell's law, `arcsin (inN / bulkN * sin thIn)` inside. -/
theorem C190_fine (thIn : ℝ) (hθ0 : 0 ≤ thIn) (hθ1 : thIn < Real.pi / 2) (inN bulkN outN α d : ℝ) (hin : 0 < inN) (hbulk : 0 < bulkN) (hout : 0 < outN) (hα : 0 < α) (hd : 0 < d)
    (hrefr : inN * Real.sin thIn < bulkN) (hcrit : inN * Real.sin thIn ≠ outN) {n0 n1 : ℕ} (res0 res1 resb : TmmRes)
    (tir1 : ∀ θ, 1 < bulkN / outN * Real.sin θ → res1.T θ ≤ 1e-8) (t0 : ContinuousAt res0.T thIn)
    (r1 : ContinuousAt res1.R (Real.arcsin (inN / bulkN * Real.sin thIn))) (rb : ContinuousAt resb.R (Real.arcsin (inN / bulkN * Real.sin thIn)))
    (hround : (slabAt n0 n1 inN bulkN outN (α * d) res0 res1 resb thIn (Real.arcsin (inN / bulkN * Real.sin thIn))).round < 1) (ε : ℝ) (hε : 0 < ε) :
    let θB := Real.arcsin (inN / bulkN * Real.sin thIn)
    let sl := slabAt n0 n1 inN bulkN outN (α * d) res0 res1 resb thIn θB
    ∃ N : ℕ, ∃ δ > 0, ∃ η > 0, ∀ n ≥ N, ∀ (sp : Spacing) (c : ℝ), 0 < c → ∀ m : ℕ, ((∃ q : ℕ, 0 < q ∧ m = 2 * q) ∨ m = 1) → (1e-10 : ℝ) ≤ 2 * Real.pi / m →
      ∀ phiIn : PhiIn, (∀ p, phiIn = .val p → 0 ≤ p ∧ p ≠ 2 * Real.pi / m) →
      ∀ (inp : RatInput ω (Fin n0) (Fin n1) (makeAngleVector n (2 * Real.pi / m) c sp).half) (w : ω), inp.thresh ≤ η → inp.α w = α → inp.thick = d →
        (∀ w, 0 ≤ inp.α w) → (∀ w, StoredOk (inp.front0 w)) → (∀ w, StoredOk (inp.front1 w)) → (∀ w, StoredOk (inp.rear0 w)) →
        StoredByTmm n c m sp true (inN / bulkN) res0 (inp.front0 w) → StoredByTmm n c m sp true (bulkN / outN) res1 (inp.front1 w) → StoredByTmm n c m sp false (bulkN / inN) resb (inp.rear0 w) →
        ∀ (S : Sys ω (Fin (makeAngleVector n (2 * Real.pi / m) c sp).half) (Fin n0) (Fin n1)), assemble n (2 * Real.pi / m) c sp thIn phiIn inp = some S →
        ∀ dz, 0 < dz → dz < δ → ∀ (o : ProfOpts ω (Fin (makeAngleVector n (2 * Real.pi / m) c sp).half)), o.bulkProfile = true → o.depths = arange d dz →
        ∀ (k : ℕ) (t : LoopState ω (Fin (makeAngleVector n (2 * Real.pi / m) c sp).half) (Fin n0) (Fin n1)), S.ExitsProf o k t →
          ∀ i < o.depths.length, |(t.bulkProf o.depths.length w).getD i 0 - sl.density (α / |Real.cos θB|) d sl.trips (i * dz)| < ε := by
  intro θB sl
  have hpi := Real.pi_pos
  set θ2 := Real.arcsin (inN / bulkN * Real.sin thIn) with hθ2
  have hs0 : 0 ≤ Real.sin thIn := Real.sin_nonneg_of_nonneg_of_le_pi hθ0 (by linarith)
  have hsin1 : Real.sin thIn < 1 := by rw [← Real.sin_pi_div_two]; exact Real.sin_lt_sin_of_lt_of_le_pi_div_two (by linarith) le_rfl hθ1
  have hr1 : inN / bulkN * Real.sin thIn < 1 := by rw [div_mul_eq_mul_div, div_lt_one hbulk]; exact hrefr
  have hr0 : 0 ≤ inN / bulkN * Real.sin thIn := by positivity
  have hθ2lt : θ2 < Real.pi / 2 := arcsin_lt_half hr1
  have hθ2ge : 0 ≤ θ2 := Real.arcsin_nonneg.mpr hr0
  have hsin2 : Real.sin θ2 = inN / bulkN * Real.sin thIn := Real.sin_arcsin (by linarith) hr1.le
  have e1 : bulkN / outN * Real.sin θ2 = inN * Real.sin thIn / outN := by rw [hsin2]; field_simp
  have e2 : bulkN / inN * Real.sin θ2 = Real.sin thIn := by rw [hsin2]; field_simp
  have hne1 : bulkN / outN * Real.sin θ2 ≠ 1 := by
    rw [e1, Ne, div_eq_one_iff_eq hout.ne']; exact hcrit
  have hlt2 : bulkN / inN * Real.sin θ2 < 1 := by rw [e2]; exact hsin1
  have hcos2 : 0 < Real.cos θ2 := Real.cos_pos_of_mem_Ioo ⟨by linarith, hθ2lt⟩
  have near := density_near (n0 := n0) (n1 := n1) (inN := inN) (bulkN := bulkN) (outN := outN) (α := α) (d := d) (res0 := res0) (res1 := res1) (resb := resb) (p0 := (thIn, θ2))
    hcos2.ne' t0 r1 rb hround hα hd (_root_.half_pos hε)
  have cmul : ∀ r : ℝ, Continuous fun p : ℝ × ℝ => r * Real.sin p.2 := fun r => continuous_const.mul (Real.continuous_sin.comp continuous_snd)
  have near1 : ∀ᶠ p in 𝓝 (thIn, θ2), bulkN / outN * Real.sin p.2 ≠ 1 := (cmul _).continuousAt.eventually_ne hne1
  have near2 : ∀ᶠ p in 𝓝 (thIn, θ2), bulkN / inN * Real.sin p.2 < 1 := (cmul _).continuousAt.eventually_lt continuousAt_const hlt2
  have near3 : ∀ᶠ p in 𝓝 (thIn, θ2), inN / bulkN * Real.sin p.1 < 1 :=
    (continuous_const.mul (Real.continuous_sin.comp continuous_fst)).continuousAt.eventually_lt continuousAt_const hr1
  obtain ⟨δ, hδ, hall⟩ := Metric.eventually_nhds_iff.mp (near.and (near1.and (near2.and near3)))
  have snell : ContinuousAt (fun θ => Real.arcsin (inN / bulkN * Real.sin θ)) thIn := (Real.continuous_arcsin.comp (continuous_const.mul Real.continuous_sin)).continuousAt
  obtain ⟨δ', hδ', hsn⟩ := Metric.continuousAt_iff.mp snell (δ / 2) (by positivity)
  obtain ⟨N, hN0, hN⟩ := ring_narrow (δ := min (min δ δ') (δ / 2)) (by positivity)
  obtain ⟨K, hKdef⟩ : ∃ K, K = α / |Real.cos θ2| / (1 - (slabAt n0 n1 inN bulkN outN (α * d) res0 res1 resb thIn θ2).pass) + 1 := ⟨_, rfl⟩
  have hpass : (slabAt n0 n1 inN bulkN outN (α * d) res0 res1 resb thIn θ2).pass < 1 := Real.exp_lt_one_iff.mpr (div_neg_of_neg_of_pos (by nlinarith) (abs_pos.mpr hcos2.ne'))
  have hK1 : 0 < K := by
    have := div_nonneg (div_nonneg hα.le (abs_nonneg (Real.cos θ2))) (sub_pos.mpr hpass).le
    linarith
  refine ⟨N, min d (min (1 / (2 * K)) (ε / (12 * K ^ 2))), lt_min hd (lt_min (by positivity) (by positivity)), ε / (4 * K), by positivity,
    fun n hn sp c hc m hm hs phiIn hphi inp w hthr hαw hdw hα0 k0 k1 k2 s0 s1 s2 S hS dz hz hzδ o ho hdep k t ht i hi => ?_⟩
  have hn0 : 0 < n := by omega
  obtain ⟨i0, hi0, hl1, hl2⟩ := exists_ringL n hn0 sp thIn hθ0 hθ1
  have g0 := mid_close hl1 hl2.le (hN n hn sp i0 hi0)
  have m0 := mid_pos hn0 (sp := sp) hi0
  have m0' := polarMid_lt_half n hn0 sp hi0
  have gs := hsn (x := polarMid n sp i0) (by rw [Real.dist_eq]; exact lt_of_lt_of_le g0 (le_trans (min_le_left _ _) (min_le_right _ _)))
  rw [Real.dist_eq] at gs
  have hB0 : inN / bulkN * Real.sin (polarMid n sp i0) < 1 := by
    have := (hall (y := (polarMid n sp i0, θ2)) (by
      rw [Prod.dist_eq, dist_self, max_eq_left dist_nonneg, Real.dist_eq]
      exact lt_of_lt_of_le g0 (le_trans (min_le_left _ _) (min_le_left _ _)))).2.2.2
    exact this
  have sm0 : 0 < Real.sin (polarMid n sp i0) := Real.sin_pos_of_pos_of_lt_pi m0 (by linarith)
  obtain ⟨iB, hiB, hB1, hB2⟩ := exists_ringL n hn0 sp (Real.arcsin (inN / bulkN * Real.sin (polarMid n sp i0))) (Real.arcsin_nonneg.mpr (by positivity)) (arcsin_lt_half hB0)
  have gB := mid_close hB1 hB2.le (hN n hn sp iB hiB)
  have mB := mid_pos hn0 (sp := sp) hiB
  have mB' := polarMid_lt_half n hn0 sp hiB
  have smB : 0 < Real.sin (polarMid n sp iB) := Real.sin_pos_of_pos_of_lt_pi mB (by linarith)
  have gB' : |polarMid n sp iB - θ2| < δ := by
    have h3 : |polarMid n sp iB - Real.arcsin (inN / bulkN * Real.sin (polarMid n sp i0))| < δ / 2 := lt_of_lt_of_le gB (min_le_right _ _)
    calc _ ≤ |polarMid n sp iB - Real.arcsin (inN / bulkN * Real.sin (polarMid n sp i0))| + |Real.arcsin (inN / bulkN * Real.sin (polarMid n sp i0)) - θ2| := abs_sub_le _ _ _
      _ < δ / 2 + δ / 2 := add_lt_add h3 gs
      _ = δ := by ring
  obtain ⟨q, q1, q2, -⟩ := hall (y := (polarMid n sp i0, polarMid n sp iB)) (by
      rw [Prod.dist_eq, Real.dist_eq, Real.dist_eq, max_lt_iff]
      exact ⟨lt_of_lt_of_le g0 (le_trans (min_le_left _ _) (min_le_left _ _)), gB'⟩)
  obtain ⟨qK, qd⟩ := q
  obtain ⟨iT, hiT, hT⟩ : ∃ iT < n, bulkN / outN * Real.sin (polarMid n sp iB) < 1 →
      polarEdge n sp iT ≤ Real.arcsin (bulkN / outN * Real.sin (polarMid n sp iB)) ∧ Real.arcsin (bulkN / outN * Real.sin (polarMid n sp iB)) < polarEdge n sp (iT + 1) := by
    by_cases h : bulkN / outN * Real.sin (polarMid n sp iB) < 1
    · obtain ⟨i, hi, h1, h2⟩ := exists_ringL n hn0 sp (Real.arcsin (bulkN / outN * Real.sin (polarMid n sp iB))) (Real.arcsin_nonneg.mpr (by positivity)) (arcsin_lt_half h)
      exact ⟨i, hi, fun _ => ⟨h1, h2⟩⟩
    · exact ⟨0, hn0, fun h' => absurd h' h⟩
  obtain ⟨iR, hiR, hR⟩ := ring_of_angle n hn0 sp (Real.arcsin (bulkN / inN * Real.sin (polarMid n sp iB))) (Real.arcsin_pos.mpr (by positivity)) (arcsin_lt_half q2).le
  have hm0 : 0 < m := by rcases hm with ⟨q, hq, rfl⟩ | rfl <;> omega
  have hsym : (∃ q : ℕ, 0 < q ∧ 2 * Real.pi / (m : ℝ) = 2 * Real.pi / ((2 * q : ℕ) : ℝ)) ∨ 2 * Real.pi / (m : ℝ) = 2 * Real.pi := by
    rcases hm with ⟨q, hq, rfl⟩ | rfl
    · exact Or.inl ⟨q, hq, rfl⟩
    · exact Or.inr (by simp)
  have h0 := C139_tmm n hn0 c hc m hm0 sp true hs (inN / bulkN) (by positivity) res0 _ s0 i0 hi0 iB hiB hB0.ne (fun _ _ => ⟨hB1, hB2⟩) (fun h => by simp at h) (fun h => absurd hB0 (not_lt.mpr h.le))
  have h1 := C139_tmm n hn0 c hc m hm0 sp true hs (bulkN / outN) (by positivity) res1 _ s1 iB hiB iT hiT q1 (fun _ => hT) (fun h => by simp at h) (tir1 _)
  have h2 := C139_tmm n hn0 c hc m hm0 sp false hs (bulkN / inN) (by positivity) resb _ s2 iB hiB iR hiR q2.ne (fun h => by simp at h) (fun _ _ => hR) (fun h => absurd q2 (not_lt.mpr h.le))
  have hmT := polarMid_lt_half n hn0 sp hiT
  have hmR := polarMid_lt_half n hn0 sp hiR
  simp only [if_true, Bool.false_eq_true, if_false] at h0 h1 h2
  rw [if_pos hB0] at h0
  have z1 := hzδ.trans_le (min_le_left _ _)
  have z2 := hzδ.trans_le ((min_le_right _ _).trans (min_le_left _ _))
  have z3 := hzδ.trans_le ((min_le_right _ _).trans (min_le_right _ _))
  rw [lt_div_iff₀ (by positivity)] at z2 z3
  have main := C190_planar n hn0 _ hsym c hc sp thIn hi0 hl1 hl2 phiIn hphi inp S hS w hiB (Real.pi - polarMid n sp iT) (polarMid n sp iR) (by linarith) hmR _ _ _ h0 h1 h2 hα0 (by rw [hαw]; exact hα) (by rw [hdw]; exact hd)
    k0 k1 k2 dz hz (by rw [hdw]; exact z1) o ho (by rw [hdw]; exact hdep) k t ht
  simp only [neg_mul, hαw, hdw] at main
  change dz * (α / |Real.cos (polarMid n sp iB)| / (1 - (slabAt n0 n1 inN bulkN outN (α * d) res0 res1 resb (polarMid n sp i0) (polarMid n sp iB)).pass)) ≤ 1 / 2 → _ at main
  obtain ⟨hE, hNN, -, hv1⟩ := C15_assembled n hn0 _ hsym c hc sp thIn hθ0 hθ1 phiIn inp hα0 (by rw [hdw]; exact hd.le) k0 k1 k2 S hS
  have hK0 : 0 ≤ α / |Real.cos (polarMid n sp iB)| / (1 - (slabAt n0 n1 inN bulkN outN (α * d) res0 res1 resb (polarMid n sp i0) (polarMid n sp iB)).pass) :=
    div_nonneg (div_nonneg hα.le (abs_nonneg _)) (sub_nonneg.mpr (Real.exp_le_one_iff.mpr (div_nonpos_of_nonpos_of_nonneg (by nlinarith) (abs_nonneg _))))
  rw [← hKdef] at qK
  change α / |Real.cos (polarMid n sp iB)| / (1 - (slabAt n0 n1 inN bulkN outN (α * d) res0 res1 resb (polarMid n sp i0) (polarMid n sp iB)).pass) < K at qK
  have hbal := (C15_energy_balance S hE o k w).2
  obtain ⟨v1, -, -, -, -, -, v7⟩ := C15_nonneg S hE hNN o k t (Or.inr ht.1)
  obtain ⟨p1, p2, p3, p4, p5⟩ := v7 w
  have p6 : 0 ≤ ∑ j, t.vf1 w j := Finset.sum_nonneg fun j _ => v1 w j
  simp only [← ht.1, hv1 w] at hbal
  have hA1 : t.Abulk w ≤ 1 := by linarith
  have hA0 : 0 ≤ t.Abulk w := by assumption
  have hi' : (i : ℝ) * dz ≤ d := by
    rw [hdep, arange_length] at hi
    have : (i : ℝ) < d / dz := Nat.lt_ceil.mp hi
    rw [lt_div_iff₀ hz] at this; exact this.le
  have hm' := (main (by nlinarith)).2 i hi
  have hq' := qd (i * dz) ⟨by positivity, hi'⟩
  change |(t.bulkProf o.depths.length w).getD i 0 - (slabAt n0 n1 inN bulkN outN (α * d) res0 res1 resb (polarMid n sp i0) (polarMid n sp iB)).density (α / |Real.cos (polarMid n sp iB)|) d
    (slabAt n0 n1 inN bulkN outN (α * d) res0 res1 resb (polarMid n sp i0) (polarMid n sp iB)).trips (i * dz)| ≤
    3 * dz * (α / |Real.cos (polarMid n sp iB)| / (1 - (slabAt n0 n1 inN bulkN outN (α * d) res0 res1 resb (polarMid n sp i0) (polarMid n sp iB)).pass)) ^ 2 * t.Abulk w +
    (α / |Real.cos (polarMid n sp iB)| / (1 - (slabAt n0 n1 inN bulkN outN (α * d) res0 res1 resb (polarMid n sp i0) (polarMid n sp iB)).pass)) * inp.thresh at hm'
  refine lt_of_le_of_lt (abs_sub_le _ _ _) (lt_of_lt_of_le (add_lt_add_of_le_of_lt hm' hq') ?_)
  have := error_small hz.le hK0 qK.le hK1 hA0 hA1 z3.le hthr
  linarith

/-- For every number of polar bins, depth spacing, content of the memory and positive threshold there is a calculation as in `C190_fine` (light at 0.5 rad, absorption coefficient and thickness 1), and its loop ends. -/
example (n : ℕ) (hn : 0 < n) (c : ℝ) (hc : 0 < c) (sp : Spacing) (th : ℝ) (hth : 0 < th) (dz : ℝ) (junk : ℕ → Unit → _) (junk' : ℕ → Unit → ℝ) :
    ∃ (inp : RatInput Unit (Fin 1) (Fin 1) (makeAngleVector n (2 * Real.pi / (2 : ℕ)) c sp).half) (S : _) (k : ℕ) (t : _),
    assemble n (2 * Real.pi / (2 : ℕ)) c sp 0.5 .all inp = some S ∧ S.ExitsProf ⟨true, arange 1 dz, junk, junk'⟩ k t ∧ (∀ w, StoredOk (inp.front0 w)) ∧ (∀ w, StoredOk (inp.front1 w)) ∧ (∀ w, StoredOk (inp.rear0 w)) ∧
    StoredByTmm n c 2 sp true (1 / 1) exRes (inp.front0 ()) ∧ StoredByTmm n c 2 sp true (1 / 1) exRes (inp.front1 ()) ∧ StoredByTmm n c 2 sp false (1 / 1) exRes (inp.rear0 ()) ∧
    inp.thresh = th ∧ inp.α () = 1 ∧ inp.thick = 1 ∧ (slabAt 1 1 1 1 1 (1 * 1) exRes exRes exRes 0.5 (Real.arcsin (1 / 1 * Real.sin 0.5))).round < 1 := by
  obtain ⟨inp, S, k, t, h1, h2, h3, h4, h5, h6, h7, h8, h9, h10, h11⟩ := exFine n hn c hc sp th hth
  obtain ⟨hE, -⟩ := C15_assembled n hn (2 * Real.pi / (2 : ℕ)) (Or.inl ⟨1, one_pos, by norm_num⟩) c hc sp 0.5 (by norm_num) (by linarith [Real.pi_gt_three]) .all inp (fun _ => h10 ▸ zero_le_one) (h11 ▸ zero_le_one) h3 h4 h5 S h1
  obtain ⟨t', ht', -⟩ := (C19_branches_agree S hE.u2d ⟨true, arange 1 dz, junk, junk'⟩ k).2 t h2
  refine ⟨inp, S, k, t', h1, ht', h3, h4, h5, h6, h7, h8, h9, h10, h11, ?_⟩
  simp only [Slab.round, slabAt, exRes]
  generalize Real.arcsin (1 / 1 * Real.sin 0.5) = θB
  have d1 : Real.exp (-(1 * 1) / |Real.cos θB|) ≤ 1 := Real.exp_le_one_iff.mpr (div_nonpos_of_nonpos_of_nonneg (by norm_num) (abs_nonneg _))
  have d2 : Real.exp (-(1 * 1) / |Real.cos θB|) ^ 2 ≤ 1 := pow_le_one₀ (Real.exp_pos _).le d1
  linarith

end Rayflare
