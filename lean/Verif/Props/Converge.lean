import Verif.Props.Planar
import Verif.Props.Diffuse
import Mathlib.Topology.UniformSpace.HeineCantor
import Mathlib.Topology.Order.Compact

/-!
# Property C150: planar structures converge to the textbook formulas as the angular grid is refined
-/

namespace Rayflare

open Rayflare.Np Rayflare.Model Rayflare.Spec Rayflare.Lemmas Matrix Filter Topology

/-- The textbook slab of two flat surfaces: light arrives at the angle `θ0` and travels at the angle `θB` inside; `a` is the absorption coefficient times the thickness.  The surfaces reflect, transmit and absorb what the solver reports for these angles (`res0`: front surface from
outside, `res1`: rear surface from inside, `resb`: front surface from inside); beyond the critical angle nothing is transmitted. -/
noncomputable def slabAt (n0 n1 : ℕ) (inN bulkN outN a : ℝ) (res0 res1 resb : TmmRes) (θ0 θB : ℝ) : Slab (Fin n0) (Fin n1) :=
  { front := ⟨res0.R θ0, res0.T θ0, fun l => res0.A θ0 l⟩
    rear := ⟨res1.R θB, if bulkN / outN * Real.sin θB < 1 then res1.T θB else 0, fun l => res1.A θB l⟩
    back := ⟨resb.R θB, if bulkN / inN * Real.sin θB < 1 then resb.T θB else 0, fun l => resb.A θB l⟩
    pass := Real.exp (-a / |Real.cos θB|) }

/-! ## Helper lemmas: the rings become narrow -/

theorem ring_narrow {δ : ℝ} (hδ : 0 < δ) : ∃ N : ℕ, 0 < N ∧ ∀ n ≥ N, ∀ sp : Spacing, ∀ i < n, polarEdge n sp (i + 1) - polarEdge n sp i < δ := by
  have huc : UniformContinuousOn Real.arcsin (Set.Icc (0 : ℝ) 1) := isCompact_Icc.uniformContinuousOn_of_continuous Real.continuous_arcsin.continuousOn
  obtain ⟨η, hη, hu⟩ := Metric.uniformContinuousOn_iff.mp huc δ hδ
  obtain ⟨N1, hN1⟩ := exists_nat_gt (1 / η)
  obtain ⟨N2, hN2⟩ := exists_nat_gt (Real.pi / (2 * δ))
  have hpi := Real.pi_pos
  refine ⟨max (max N1 N2) 1, by positivity, fun n hn sp i hi => ?_⟩
  have hn0 : 0 < n := by omega
  have hnr : (0 : ℝ) < n := by exact_mod_cast hn0
  have a1 : 1 / η < n := lt_of_lt_of_le hN1 (by exact_mod_cast (le_trans (le_max_left _ _) (le_trans (le_max_left _ _) hn)))
  have a2 : Real.pi / (2 * δ) < n := lt_of_lt_of_le hN2 (by exact_mod_cast (le_trans (le_max_right _ _) (le_trans (le_max_left _ _) hn)))
  cases sp with
  | sin =>
    have hi1 : ((i : ℝ) + 1) ≤ n := by exact_mod_cast hi
    have hi0 : (0 : ℝ) ≤ i := by positivity
    have e1 : polarEdge n .sin (i + 1) = Real.arcsin (((i : ℝ) + 1) / n) := by simp only [polarEdge]; rw [if_pos (by omega)]; push_cast; rfl
    have e0 : polarEdge n .sin i = Real.arcsin ((i : ℝ) / n) := by simp only [polarEdge]; rw [if_pos (by omega)]
    rw [e1, e0]
    have h := hu (((i : ℝ) + 1) / n) ⟨by positivity, by rw [div_le_one hnr]; exact hi1⟩ ((i : ℝ) / n) ⟨by positivity, by rw [div_le_one hnr]; linarith⟩ (by
      rw [Real.dist_eq, ← sub_div, add_sub_cancel_left, abs_of_pos (by positivity)]
      rw [div_lt_iff₀ hη] at a1
      rw [div_lt_iff₀ hnr]; linarith)
    rw [Real.dist_eq] at h
    exact lt_of_le_of_lt (le_abs_self _) h
  | linear =>
    have : polarEdge n .linear (i + 1) - polarEdge n .linear i = Real.pi / (2 * n) := by simp only [polarEdge]; push_cast; ring
    rw [this, div_lt_iff₀ (by positivity)]
    rw [div_lt_iff₀ (by positivity)] at a2
    linarith

theorem mid_close {n : ℕ} {sp : Spacing} {i : ℕ} {x δ : ℝ} (h1 : polarEdge n sp i ≤ x) (h2 : x ≤ polarEdge n sp (i + 1)) (h : polarEdge n sp (i + 1) - polarEdge n sp i < δ) : |polarMid n sp i - x| < δ := by
  unfold polarMid
  rw [abs_lt]
  constructor <;> linarith

theorem mid_pos {n : ℕ} (hn : 0 < n) {sp : Spacing} {i : ℕ} (hi : i < n) : 0 < polarMid n sp i := by
  have h1 := polarEdge_lt_of_le n hn sp (Nat.lt_succ_self i) hi
  have h0 : 0 ≤ polarEdge n sp i := by
    rcases Nat.eq_zero_or_pos i with rfl | h
    · rw [polarEdge_zero]
    · rw [← polarEdge_zero n sp]; exact (polarEdge_lt_of_le n hn sp h hi.le).le
  unfold polarMid
  linarith

theorem arcsin_lt_half {x : ℝ} (h : x < 1) : Real.arcsin x < Real.pi / 2 := by
  rw [← Real.arcsin_one]
  rcases le_or_gt (-1) x with h1 | h1
  · exact Real.strictMonoOn_arcsin ⟨h1, h.le⟩ ⟨by norm_num, le_refl _⟩ h
  · rw [Real.arcsin_of_le_neg_one h1.le, Real.arcsin_one]; linarith [Real.pi_pos]

/-! ## Helper lemmas: the textbook formulas depend continuously on the angles -/

section cont
variable {n0 n1 : ℕ} {inN bulkN outN a : ℝ} {res0 res1 resb : TmmRes} {p0 : ℝ × ℝ}

theorem cont_cut {r : ℝ} {T : ℝ → ℝ} {θ : ℝ} (hr : r * Real.sin θ ≠ 1) (hT : ContinuousAt T θ) : ContinuousAt (fun x => if r * Real.sin x < 1 then T x else 0) θ := by
  have hc : ContinuousAt (fun x => r * Real.sin x) θ := (continuous_const.mul Real.continuous_sin).continuousAt
  rcases lt_or_gt_of_ne hr with h | h
  · refine hT.congr ?_
    filter_upwards [hc.eventually_lt continuousAt_const h] with x hx
    rw [if_pos hx]
  · refine (continuousAt_const (y := (0 : ℝ))).congr ?_
    filter_upwards [continuousAt_const.eventually_lt hc h] with x hx
    rw [if_neg (not_lt.mpr hx.le)]

variable (hcos : Real.cos p0.2 ≠ 0) (h1 : bulkN / outN * Real.sin p0.2 ≠ 1) (h2 : bulkN / inN * Real.sin p0.2 ≠ 1)
  (r0 : ContinuousAt res0.R p0.1) (t0 : ContinuousAt res0.T p0.1) (a0 : ∀ l : Fin n0, ContinuousAt (fun θ => res0.A θ l) p0.1)
  (r1 : ContinuousAt res1.R p0.2) (t1 : ContinuousAt res1.T p0.2) (a1 : ∀ l : Fin n1, ContinuousAt (fun θ => res1.A θ l) p0.2)
  (rb : ContinuousAt resb.R p0.2) (tb : ContinuousAt resb.T p0.2) (ab : ∀ l : Fin n0, ContinuousAt (fun θ => resb.A θ l) p0.2)
  (hround : (slabAt n0 n1 inN bulkN outN a res0 res1 resb p0.1 p0.2).round < 1)
include hcos h1 h2 r0 t0 a0 r1 t1 a1 rb tb ab hround

theorem slab_near {ε : ℝ} (hε : 0 < ε) : ∀ᶠ p in 𝓝 p0,
    let s := slabAt n0 n1 inN bulkN outN a res0 res1 resb p.1 p.2
    let s0 := slabAt n0 n1 inN bulkN outN a res0 res1 resb p0.1 p0.2
    s.round < 1 ∧ |s.R s.trips - s0.R s0.trips| < ε ∧ |s.T s.trips - s0.T s0.trips| < ε ∧ |s.bulk s.trips - s0.bulk s0.trips| < ε ∧
    (∀ l, |s.abs0 s.trips l - s0.abs0 s0.trips l| < ε) ∧ (∀ l, |s.abs1 s.trips l - s0.abs1 s0.trips l| < ε) := by
  let F := fun p : ℝ × ℝ => slabAt n0 n1 inN bulkN outN a res0 res1 resb p.1 p.2
  have cf : ∀ {f : ℝ → ℝ}, ContinuousAt f p0.1 → ContinuousAt (fun p : ℝ × ℝ => f p.1) p0 := fun h => ContinuousAt.comp (f := Prod.fst) h continuousAt_fst
  have cs : ∀ {f : ℝ → ℝ}, ContinuousAt f p0.2 → ContinuousAt (fun p : ℝ × ℝ => f p.2) p0 := fun h => ContinuousAt.comp (f := Prod.snd) h continuousAt_snd
  have c1 : ContinuousAt (fun p => (F p).front.refl) p0 := cf r0
  have c2 : ContinuousAt (fun p => (F p).front.trns) p0 := cf t0
  have c3 : ∀ l, ContinuousAt (fun p => (F p).front.abs l) p0 := fun l => cf (a0 l)
  have c4 : ContinuousAt (fun p => (F p).rear.refl) p0 := cs r1
  have c5 : ContinuousAt (fun p => (F p).rear.trns) p0 := cs (cont_cut h1 t1)
  have c6 : ∀ l, ContinuousAt (fun p => (F p).rear.abs l) p0 := fun l => cs (a1 l)
  have c7 : ContinuousAt (fun p => (F p).back.refl) p0 := cs rb
  have c8 : ContinuousAt (fun p => (F p).back.trns) p0 := cs (cont_cut h2 tb)
  have c9 : ∀ l, ContinuousAt (fun p => (F p).back.abs l) p0 := fun l => cs (ab l)
  have c10 : ContinuousAt (fun p => (F p).pass) p0 := by
    refine cs (f := fun θ => Real.exp (-a / |Real.cos θ|)) ?_
    exact Real.continuous_exp.continuousAt.comp (continuousAt_const.div (Real.continuous_cos.abs.continuousAt) (abs_ne_zero.mpr hcos))
  have cround : ContinuousAt (fun p => (F p).round) p0 := ((c10.pow 2).mul c4).mul c7
  have ctrips : ContinuousAt (fun p => (F p).trips) p0 := continuousAt_const.div (continuousAt_const.sub cround) (by
    have : (F p0).round < 1 := hround
    exact (sub_pos.mpr this).ne')
  have near : ∀ {f : ℝ × ℝ → ℝ}, ContinuousAt f p0 → ∀ᶠ p in 𝓝 p0, |f p - f p0| < ε := by
    intro f hf
    have := Metric.tendsto_nhds.mp hf ε hε
    simpa only [Real.dist_eq] using this
  have d1 := near (f := fun p => (F p).R (F p).trips) (c1.add ((((c2.mul (c10.pow 2)).mul c4).mul c8).mul ctrips))
  have d2 := near (f := fun p => (F p).T (F p).trips) (((c2.mul c10).mul c5).mul ctrips)
  have d3 := near (f := fun p => (F p).bulk (F p).trips) ((c2.mul ((continuousAt_const.sub c10).add ((c10.mul c4).mul (continuousAt_const.sub c10)))).mul ctrips)
  have d4 : ∀ᶠ p in 𝓝 p0, ∀ l, |(F p).abs0 (F p).trips l - (F p0).abs0 (F p0).trips l| < ε := eventually_all.mpr fun l =>
    near (f := fun p => (F p).abs0 (F p).trips l) ((c3 l).add ((((c2.mul (c10.pow 2)).mul c4).mul (c9 l)).mul ctrips))
  have d5 : ∀ᶠ p in 𝓝 p0, ∀ l, |(F p).abs1 (F p).trips l - (F p0).abs1 (F p0).trips l| < ε := eventually_all.mpr fun l =>
    near (f := fun p => (F p).abs1 (F p).trips l) (((c2.mul c10).mul (c6 l)).mul ctrips)
  filter_upwards [cround.eventually_lt continuousAt_const hround, d1, d2, d3, d4, d5] with p e0 e1 e2 e3 e4 e5
  exact ⟨e0, e1, e2, e3, e4, e5⟩

end cont

variable {ω : Type*}

/-- **C150.** A bulk layer between two planar layer stacks (`TMM`), light at polar angle `thIn` refracted into the bulk layer (refractive indices `inN`, `bulkN`, `outN` of incidence medium, bulk layer and transmission medium; absorption coefficient times thickness `a`).  With enough
polar bins and a small enough `I_thresh`, reflectance, transmittance and absorptances of `calculate_RAT` are as close as wanted to the textbook formulas at the *true* angles: `thIn` outside and, by Snell's law, `arcsin (inN / bulkN * sin thIn)` inside — whatever the spacing of the bins, the
azimuth resolution, the symmetry and the azimuth of the light, with and without profiles.  Assumed: the solver's results depend continuously on the angle at these two angles, nothing is transmitted beyond the critical angle, and the rear surface is not exactly at the critical angle. -/
theorem C150_converges (thIn : ℝ) (hθ0 : 0 ≤ thIn) (hθ1 : thIn < Real.pi / 2) (inN bulkN outN a : ℝ) (hin : 0 < inN) (hbulk : 0 < bulkN) (hout : 0 < outN)
    (hrefr : inN * Real.sin thIn < bulkN) (hcrit : inN * Real.sin thIn ≠ outN) {n0 n1 : ℕ} (res0 res1 resb : TmmRes)
    (tir1 : ∀ θ, 1 < bulkN / outN * Real.sin θ → res1.T θ ≤ 1e-8)
    (r0 : ContinuousAt res0.R thIn) (t0 : ContinuousAt res0.T thIn) (a0 : ∀ l : Fin n0, ContinuousAt (fun θ => res0.A θ l) thIn)
    (r1 : ContinuousAt res1.R (Real.arcsin (inN / bulkN * Real.sin thIn))) (t1 : ContinuousAt res1.T (Real.arcsin (inN / bulkN * Real.sin thIn)))
    (a1 : ∀ l : Fin n1, ContinuousAt (fun θ => res1.A θ l) (Real.arcsin (inN / bulkN * Real.sin thIn)))
    (rb : ContinuousAt resb.R (Real.arcsin (inN / bulkN * Real.sin thIn))) (tb : ContinuousAt resb.T (Real.arcsin (inN / bulkN * Real.sin thIn)))
    (ab : ∀ l : Fin n0, ContinuousAt (fun θ => resb.A θ l) (Real.arcsin (inN / bulkN * Real.sin thIn)))
    (hround : (slabAt n0 n1 inN bulkN outN a res0 res1 resb thIn (Real.arcsin (inN / bulkN * Real.sin thIn))).round < 1) (ε : ℝ) (hε : 0 < ε) :
    let sl := slabAt n0 n1 inN bulkN outN a res0 res1 resb thIn (Real.arcsin (inN / bulkN * Real.sin thIn))
    ∃ N : ℕ, ∀ n ≥ N, ∀ (sp : Spacing) (c : ℝ), 0 < c → ∀ m : ℕ, ((∃ q : ℕ, 0 < q ∧ m = 2 * q) ∨ m = 1) → (1e-10 : ℝ) ≤ 2 * Real.pi / m →
      ∀ phiIn : PhiIn, (∀ p, phiIn = .val p → 0 ≤ p ∧ p ≠ 2 * Real.pi / m) →
      ∀ (inp : RatInput ω (Fin n0) (Fin n1) (makeAngleVector n (2 * Real.pi / m) c sp).half) (w : ω), inp.thresh ≤ ε / 2 → inp.α w * inp.thick = a →
        (∀ w, 0 ≤ inp.α w) → 0 ≤ inp.thick → (∀ w, StoredOk (inp.front0 w)) → (∀ w, StoredOk (inp.front1 w)) → (∀ w, StoredOk (inp.rear0 w)) →
        StoredByTmm n c m sp true (inN / bulkN) res0 (inp.front0 w) → StoredByTmm n c m sp true (bulkN / outN) res1 (inp.front1 w) → StoredByTmm n c m sp false (bulkN / inN) resb (inp.rear0 w) →
        ∀ (S : Sys ω (Fin (makeAngleVector n (2 * Real.pi / m) c sp).half) (Fin n0) (Fin n1)), assemble n (2 * Real.pi / m) c sp thIn phiIn inp = some S →
        ∀ (o : ProfOpts ω (Fin (makeAngleVector n (2 * Real.pi / m) c sp).half)) (k : ℕ) (t : LoopState ω (Fin (makeAngleVector n (2 * Real.pi / m) c sp).half) (Fin n0) (Fin n1)), (S.Exits k t ∨ S.ExitsProf o k t) →
          |t.R w - sl.R sl.trips| < ε ∧ |t.T w - sl.T sl.trips| < ε ∧ |t.Abulk w - sl.bulk sl.trips| < ε ∧
          (∀ l, |(t.a0.map fun v => v w l).sum - sl.abs0 sl.trips l| < ε) ∧ ∀ l, |(t.a1.map fun v => v w l).sum - sl.abs1 sl.trips l| < ε := by
  intro sl
  have hpi := Real.pi_pos
  set θ2 := Real.arcsin (inN / bulkN * Real.sin thIn) with hθ2
  have hs0 : 0 ≤ Real.sin thIn := Real.sin_nonneg_of_nonneg_of_le_pi hθ0 (by linarith)
  have hsin1 : Real.sin thIn < 1 := by rw [← Real.sin_pi_div_two]; exact Real.sin_lt_sin_of_lt_of_le_pi_div_two (by linarith) le_rfl hθ1
  have hr1 : inN / bulkN * Real.sin thIn < 1 := by rw [div_mul_eq_mul_div, div_lt_one hbulk]; exact hrefr
  have hr0 : 0 ≤ inN / bulkN * Real.sin thIn := by positivity
  have hθ2lt : θ2 < Real.pi / 2 := arcsin_lt_half hr1
  have hθ2ge : 0 ≤ θ2 := Real.arcsin_nonneg.mpr hr0
  have hsin2 : Real.sin θ2 = inN / bulkN * Real.sin thIn := Real.sin_arcsin (by linarith) hr1.le
  have e1 : bulkN / outN * Real.sin θ2 = inN * Real.sin thIn / outN := by rw [hsin2]; field_simp
  have e2 : bulkN / inN * Real.sin θ2 = Real.sin thIn := by rw [hsin2]; field_simp
  have hne1 : bulkN / outN * Real.sin θ2 ≠ 1 := by
    rw [e1, Ne, div_eq_one_iff_eq hout.ne']; exact hcrit
  have hlt2 : bulkN / inN * Real.sin θ2 < 1 := by rw [e2]; exact hsin1
  have near := slab_near (n0 := n0) (n1 := n1) (inN := inN) (bulkN := bulkN) (outN := outN) (a := a) (res0 := res0) (res1 := res1) (resb := resb) (p0 := (thIn, θ2))
    (Real.cos_pos_of_mem_Ioo ⟨by show -(Real.pi / 2) < θ2; linarith, hθ2lt⟩).ne' hne1 hlt2.ne r0 t0 a0 r1 t1 a1 rb tb ab hround (_root_.half_pos hε)
  have cmul : ∀ r : ℝ, Continuous fun p : ℝ × ℝ => r * Real.sin p.2 := fun r => continuous_const.mul (Real.continuous_sin.comp continuous_snd)
  have near1 : ∀ᶠ p in 𝓝 (thIn, θ2), bulkN / outN * Real.sin p.2 ≠ 1 := (cmul _).continuousAt.eventually_ne hne1
  have near2 : ∀ᶠ p in 𝓝 (thIn, θ2), bulkN / inN * Real.sin p.2 < 1 := (cmul _).continuousAt.eventually_lt continuousAt_const hlt2
  have near3 : ∀ᶠ p in 𝓝 (thIn, θ2), inN / bulkN * Real.sin p.1 < 1 :=
    (continuous_const.mul (Real.continuous_sin.comp continuous_fst)).continuousAt.eventually_lt continuousAt_const hr1
  obtain ⟨δ, hδ, hall⟩ := Metric.eventually_nhds_iff.mp (near.and (near1.and (near2.and near3)))
  have snell : ContinuousAt (fun θ => Real.arcsin (inN / bulkN * Real.sin θ)) thIn := (Real.continuous_arcsin.comp (continuous_const.mul Real.continuous_sin)).continuousAt
  obtain ⟨δ', hδ', hsn⟩ := Metric.continuousAt_iff.mp snell (δ / 2) (by positivity)
  obtain ⟨N, hN0, hN⟩ := ring_narrow (δ := min (min δ δ') (δ / 2)) (by positivity)
  refine ⟨N, fun n hn sp c hc m hm hs phiIn hphi inp w hthr hα hα0 hd k0 k1 k2 s0 s1 s2 S hS o k t ht => ?_⟩
  have hn0 : 0 < n := by omega
  obtain ⟨i0, hi0, hl1, hl2⟩ := exists_ringL n hn0 sp thIn hθ0 hθ1
  have g0 := mid_close hl1 hl2.le (hN n hn sp i0 hi0)
  have m0 := mid_pos hn0 (sp := sp) hi0
  have m0' := polarMid_lt_half n hn0 sp hi0
  have gs := hsn (x := polarMid n sp i0) (by rw [Real.dist_eq]; exact lt_of_lt_of_le g0 (le_trans (min_le_left _ _) (min_le_right _ _)))
  rw [Real.dist_eq] at gs
  have hB0 : inN / bulkN * Real.sin (polarMid n sp i0) < 1 := by
    have := (hall (y := (polarMid n sp i0, θ2)) (by
      rw [Prod.dist_eq, dist_self, max_eq_left dist_nonneg, Real.dist_eq]
      exact lt_of_lt_of_le g0 (le_trans (min_le_left _ _) (min_le_left _ _)))).2.2.2
    exact this
  have sm0 : 0 < Real.sin (polarMid n sp i0) := Real.sin_pos_of_pos_of_lt_pi m0 (by linarith)
  obtain ⟨iB, hiB, hB1, hB2⟩ := exists_ringL n hn0 sp (Real.arcsin (inN / bulkN * Real.sin (polarMid n sp i0))) (Real.arcsin_nonneg.mpr (by positivity)) (arcsin_lt_half hB0)
  have gB := mid_close hB1 hB2.le (hN n hn sp iB hiB)
  have mB := mid_pos hn0 (sp := sp) hiB
  have mB' := polarMid_lt_half n hn0 sp hiB
  have smB : 0 < Real.sin (polarMid n sp iB) := Real.sin_pos_of_pos_of_lt_pi mB (by linarith)
  have gB' : |polarMid n sp iB - θ2| < δ := by
    have h3 : |polarMid n sp iB - Real.arcsin (inN / bulkN * Real.sin (polarMid n sp i0))| < δ / 2 := lt_of_lt_of_le gB (min_le_right _ _)
    calc _ ≤ |polarMid n sp iB - Real.arcsin (inN / bulkN * Real.sin (polarMid n sp i0))| + |Real.arcsin (inN / bulkN * Real.sin (polarMid n sp i0)) - θ2| := abs_sub_le _ _ _
      _ < δ / 2 + δ / 2 := add_lt_add h3 gs
      _ = δ := by ring
  obtain ⟨q, q1, q2, -⟩ := hall (y := (polarMid n sp i0, polarMid n sp iB)) (by
      rw [Prod.dist_eq, Real.dist_eq, Real.dist_eq, max_lt_iff]
      exact ⟨lt_of_lt_of_le g0 (le_trans (min_le_left _ _) (min_le_left _ _)), gB'⟩)
  obtain ⟨q0, qR, qT, qb, qa0, qa1⟩ := q
  obtain ⟨iT, hiT, hT⟩ : ∃ iT < n, bulkN / outN * Real.sin (polarMid n sp iB) < 1 →
      polarEdge n sp iT ≤ Real.arcsin (bulkN / outN * Real.sin (polarMid n sp iB)) ∧ Real.arcsin (bulkN / outN * Real.sin (polarMid n sp iB)) < polarEdge n sp (iT + 1) := by
    by_cases h : bulkN / outN * Real.sin (polarMid n sp iB) < 1
    · obtain ⟨i, hi, h1, h2⟩ := exists_ringL n hn0 sp (Real.arcsin (bulkN / outN * Real.sin (polarMid n sp iB))) (Real.arcsin_nonneg.mpr (by positivity)) (arcsin_lt_half h)
      exact ⟨i, hi, fun _ => ⟨h1, h2⟩⟩
    · exact ⟨0, hn0, fun h' => absurd h' h⟩
  obtain ⟨iR, hiR, hR⟩ := ring_of_angle n hn0 sp (Real.arcsin (bulkN / inN * Real.sin (polarMid n sp iB))) (Real.arcsin_pos.mpr (by positivity)) (arcsin_lt_half q2).le
  have main := C139_tmm_slab n hn0 m hm hs c hc sp thIn hi0 hl1 hl2 phiIn hphi inp S hS w hα0 hd k0 k1 k2 inN bulkN outN hin hbulk hout res0 res1 resb s0 s1 s2 hiB hiT hiR hB0 ⟨hB1, hB2⟩
    q1 (tir1 _) hT q2.ne (fun h => absurd q2 (not_lt.mpr h.le)) (fun _ => hR) o k t ht
  simp only [neg_mul, hα] at main
  obtain ⟨zR, zT, zb, z0, z1⟩ := main q0
  have fin : ∀ {x y z : ℝ}, (x ≤ y ∧ y ≤ x + inp.thresh) → |y - z| < ε / 2 → |x - z| < ε := by
    intro x y z h1 h2
    rw [abs_lt] at h2 ⊢
    constructor <;> linarith [h1.1, h1.2, h2.1, h2.2]
  exact ⟨fin zR qR, fin zT qT, fin zb qb, fun l => fin (z0 l) (qa0 l), fun l => fin (z1 l) (qa1 l)⟩

/-! ## A structure to which C150 applies, for every number of polar bins -/

/-- The matrices `TMM` stores for a layer that reflects 1/10 at all angles, on any grid with two symmetry sectors. -/
noncomputable def exStoredN (n : ℕ) (c : ℝ) (sp : Spacing) (front : Bool) :
    Matrix (Fin ((makeAngleVector n (2 * Real.pi / (2 : ℕ)) c sp).half + (makeAngleVector n (2 * Real.pi / (2 : ℕ)) c sp).half)) (Fin (makeAngleVector n (2 * Real.pi / (2 : ℕ)) c sp).half) ℝ ×
      Matrix (Fin 1) (Fin (makeAngleVector n (2 * Real.pi / (2 : ℕ)) c sp).half) ℝ :=
  (fun r j => (tmmColumn (makeAngleVector n (2 * Real.pi / (2 : ℕ)) c sp) (2 * Real.pi / (2 : ℕ)) front 1 exRes j).getD (fun _ => 0) r, fun _ _ => 0)

theorem exStoredN_tmm (n : ℕ) (hn : 0 < n) (c : ℝ) (hc : 0 < c) (sp : Spacing) (front : Bool) :
    StoredByTmm n c 2 sp front 1 exRes (exStoredN n c sp front) ∧ StoredOk (exStoredN n c sp front) := by
  have hpi := Real.pi_gt_three
  have hs : (1e-10 : ℝ) ≤ 2 * Real.pi / (2 : ℕ) := by norm_num; linarith
  have hsin : ∀ row ∈ (makeAngleVector n (2 * Real.pi / (2 : ℕ)) c sp).angleVector, (1 : ℝ) * Real.sin row.theta ≠ 1 := by
    intro row hrow h
    obtain ⟨r, hr⟩ := List.mem_iff_getElem?.mp hrow
    obtain ⟨i, k, hi, hk, -, rfl⟩ := row_decomp n hn _ c sp hr
    simp only [one_mul] at h
    have key : ∀ i < n, Real.sin (polarMid n sp i) ≠ 1 := by
      intro i hi h
      have h1 := mid_pos hn (sp := sp) hi
      have h2 := Real.sin_lt_sin_of_lt_of_le_pi_div_two (by linarith) le_rfl (polarMid_lt_half n hn sp hi)
      rw [Real.sin_pi_div_two, h] at h2
      exact lt_irrefl _ h2
    by_cases hin : i < n
    · exact key i hin h
    · refine key (2 * n - 1 - i) (by omega) ?_
      rw [polarMid_symm n hn sp hi, Real.sin_pi_sub]; exact h
  have hcol : ∀ j < (makeAngleVector n (2 * Real.pi / (2 : ℕ)) c sp).half, ∃ col abs, tmmColumn (makeAngleVector n (2 * Real.pi / (2 : ℕ)) c sp) (2 * Real.pi / (2 : ℕ)) front 1 exRes j = some col ∧
      tmmAbsColumn (makeAngleVector n (2 * Real.pi / (2 : ℕ)) c sp) front exRes j = some abs ∧ abs = fun _ => 0 := by
    intro j hj
    have hhalf : (makeAngleVector n (2 * Real.pi / (2 : ℕ)) c sp).half = ringStart n c n := half_eq n hn c sp _
    obtain ⟨row, hrow, -⟩ := polar_row n hn (2 * Real.pi / (2 : ℕ)) c sp (r := (if front then 0 else ringStart n c n) + j) (by rw [← hhalf]; split_ifs <;> omega)
    have hcr : (1 : ℝ) * Real.sin (seen front row.theta) ≠ 1 := by
      have := hsin row (List.mem_of_getElem? hrow)
      unfold seen
      split_ifs
      · exact this
      · rw [Real.sin_pi_sub]; exact this
    obtain ⟨col, abs, h1, h2, -⟩ := C51_energy n hn c hc 2 two_pos sp front hs 1 one_pos exRes j (by omega) row hrow hcr 1
    refine ⟨col, abs, h1, h2, ?_⟩
    unfold tmmAbsColumn at h2
    obtain ⟨x, -, hx⟩ := Option.map_eq_some_iff.mp h2
    rw [← hx]; rfl
  refine ⟨fun j => ?_, ?_⟩
  · obtain ⟨col, abs, h1, h2, h3⟩ := hcol j j.2
    refine ⟨⟨col, h1, fun r => ?_⟩, ⟨abs, h2, fun l => by rw [h3]; rfl⟩⟩
    simp only [exStoredN]
    rw [h1]; rfl
  · refine C123_stored n hn c hc 2 two_pos sp front hs 1 _ ?_
    refine .tmm 1 1 one_pos exRes (fun θ _ _ => ?_) (fun θ h => absurd (Real.sin_le_one θ) (by linarith)) hsin
      (fun r j => (tmmColumn (makeAngleVector n (2 * Real.pi / (2 : ℕ)) c sp) (2 * Real.pi / (2 : ℕ)) front 1 exRes j).getD (fun _ => 0) r) (fun _ _ => 0) (fun j hj => ?_) (fun j hj => ?_)
    · simp only [exRes]; norm_num
    · obtain ⟨col, abs, h1, -⟩ := hcol j hj
      rw [h1]; rfl
    · obtain ⟨col, abs, -, h2, h3⟩ := hcol j hj
      rw [h2, h3]

/-- For every number of polar bins, spacing, azimuth resolution and positive threshold there is a calculation as in C150 (light at 0.5 rad, half of the energy of a normal pass absorbed), and its loop ends. -/
theorem exFine (n : ℕ) (hn : 0 < n) (c : ℝ) (hc : 0 < c) (sp : Spacing) (th : ℝ) (hth : 0 < th) :
    ∃ (inp : RatInput Unit (Fin 1) (Fin 1) (makeAngleVector n (2 * Real.pi / (2 : ℕ)) c sp).half) (S : _) (k : ℕ) (t : _),
    assemble n (2 * Real.pi / (2 : ℕ)) c sp 0.5 .all inp = some S ∧ S.Exits k t ∧ (∀ w, StoredOk (inp.front0 w)) ∧ (∀ w, StoredOk (inp.front1 w)) ∧ (∀ w, StoredOk (inp.rear0 w)) ∧
    StoredByTmm n c 2 sp true (1 / 1) exRes (inp.front0 ()) ∧ StoredByTmm n c 2 sp true (1 / 1) exRes (inp.front1 ()) ∧ StoredByTmm n c 2 sp false (1 / 1) exRes (inp.rear0 ()) ∧
    inp.thresh = th ∧ inp.α () = 1 ∧ inp.thick = 1 := by
  have hpi := Real.pi_gt_three
  have hpi' := Real.pi_pos
  have hs : (1e-10 : ℝ) ≤ 2 * Real.pi / (2 : ℕ) := by norm_num; linarith
  obtain ⟨i, v, hi, hl1, hl2, hv, -⟩ := C09_launch_all n hn (2 * Real.pi / (2 : ℕ)) c hc sp 1 0.5 (by norm_num) (by linarith)
  have m0 := mid_pos hn (sp := sp) hi
  have m1 := polarMid_lt_half n hn sp hi
  have hed := polarEdge_lt_of_le n hn sp (Nat.lt_succ_self i) hi
  have hsin : (1 / 1 : ℝ) * Real.sin (polarMid n sp i) < 1 := by
    rw [div_one, one_mul, ← Real.sin_pi_div_two]
    exact Real.sin_lt_sin_of_lt_of_le_pi_div_two (by linarith) le_rfl m1
  have harc : Real.arcsin (1 / 1 * Real.sin (polarMid n sp i)) = polarMid n sp i := by
    rw [div_one, one_mul, Real.arcsin_sin (by linarith) (by linarith)]
  have hlo : polarEdge n sp i < polarMid n sp i := by unfold polarMid; simp only [Nat.succ_eq_add_one] at hed; linarith
  have hhi : polarMid n sp i < polarEdge n sp (i + 1) := by unfold polarMid; simp only [Nat.succ_eq_add_one] at hed; linarith
  unfold makeV0 at hv
  obtain ⟨v', hv', -⟩ := Option.map_eq_some_iff.mp hv
  let inp : RatInput Unit (Fin 1) (Fin 1) (makeAngleVector n (2 * Real.pi / (2 : ℕ)) c sp).half :=
    { α := fun _ => 1, thick := 1, thresh := th, front0 := fun _ => exStoredN n c sp true, front1 := fun _ => exStoredN n c sp true, rear0 := fun _ => exStoredN n c sp false }
  obtain ⟨S, hS⟩ : ∃ S, assemble n (2 * Real.pi / (2 : ℕ)) c sp 0.5 .all inp = some S := by
    unfold assemble
    simp only [launchPhi, hv', Option.map_some]
    exact ⟨_, rfl⟩
  have F := fun front => C139_tmm n hn c hc 2 two_pos sp front hs (1 / 1) (by norm_num) exRes (exStoredN n c sp front) (by rw [div_one]; exact (exStoredN_tmm n hn c hc sp front).1) i hi i hi hsin.ne
    (fun _ _ => by rw [harc]; exact ⟨hlo.le, hhi⟩) (fun _ _ => by rw [harc]; exact ⟨hlo, hhi.le⟩) (fun h => absurd hsin (not_lt.mpr h.le))
  have h0 := F true
  have h2 := F false
  simp only [if_true, Bool.false_eq_true, if_false] at h0 h2
  obtain ⟨K, hK⟩ := exists_pow_lt_of_lt_one hth (show (1 / 2 : ℝ) < 1 by norm_num)
  obtain ⟨-, -, -, -, -, g6⟩ := C139_passes n hn (2 * Real.pi / (2 : ℕ)) (Or.inl ⟨1, one_pos, by norm_num⟩) c hc sp 0.5 hi hl1 hl2 .all
    (fun p h => by simp at h) inp S hS () hi _ _ (by linarith) m1 _ _ _ h0 h0 h2 K
  have hdone : S.Done (S.step^[K] S.init) := by
    intro w
    refine (show _ = _ from g6).le.trans ?_
    have : S.thresh = th := by
      unfold assemble at hS
      simp only [Option.map_eq_some_iff] at hS
      obtain ⟨v, -, rfl⟩ := hS
      rfl
    rw [this, if_pos hsin]
    simp only [Slab.round, exRes]
    have d1 : Real.exp (-inp.α () * inp.thick / |Real.cos (polarMid n sp i)|) ≤ 1 := att_le_one (by simp [inp]) (by simp [inp]) _
    have d0 := Real.exp_pos (-inp.α () * inp.thick / |Real.cos (polarMid n sp i)|)
    have d2 : Real.exp (-inp.α () * inp.thick / |Real.cos (polarMid n sp i)|) ^ 2 ≤ 1 := pow_le_one₀ d0.le d1
    have d3 : 0 ≤ Real.exp (-inp.α () * inp.thick / |Real.cos (polarMid n sp i)|) ^ 2 := by positivity
    generalize Real.exp (-inp.α () * inp.thick / |Real.cos (polarMid n sp i)|) ^ 2 = x at d2 d3 ⊢
    have : (x * (1 / 10) * (1 / 10)) ^ K ≤ (1 / 2) ^ K := pow_le_pow_left₀ (by positivity) (by linarith) K
    have h4 : 0 ≤ (x * (1 / 10) * (1 / 10)) ^ K := by positivity
    linarith
  obtain ⟨k, t, -, hk⟩ := exists_exit hdone
  refine ⟨inp, S, k, t, hS, hk, fun _ => (exStoredN_tmm n hn c hc sp true).2, fun _ => (exStoredN_tmm n hn c hc sp true).2, fun _ => (exStoredN_tmm n hn c hc sp false).2, ?_, ?_, ?_, rfl, rfl, rfl⟩
  · rw [div_one]; exact (exStoredN_tmm n hn c hc sp true).1
  · rw [div_one]; exact (exStoredN_tmm n hn c hc sp true).1
  · rw [div_one]; exact (exStoredN_tmm n hn c hc sp false).1

/-- The remaining hypotheses of C150 for that structure. -/
example : (1 : ℝ) * Real.sin 0.5 < 1 ∧ (1 : ℝ) * Real.sin 0.5 ≠ 1 ∧ (∀ θ : ℝ, 1 < (1 : ℝ) / 1 * Real.sin θ → exRes.T θ ≤ 1e-8) ∧ (∀ θ, ContinuousAt exRes.R θ ∧ ContinuousAt exRes.T θ ∧ ∀ l : Fin 1, ContinuousAt (fun θ => exRes.A θ l) θ) ∧
    ∀ θ0 θB, (slabAt 1 1 1 1 1 1 exRes exRes exRes θ0 θB).round < 1 := by
  have h : (1 : ℝ) * Real.sin 0.5 < 1 := by
    rw [one_mul, ← Real.sin_pi_div_two]
    exact Real.sin_lt_sin_of_lt_of_le_pi_div_two (by linarith [Real.pi_pos]) le_rfl (by linarith [Real.pi_gt_three])
  refine ⟨h, h.ne, fun θ h => ?_, fun θ => ⟨continuousAt_const, continuousAt_const, fun l => continuousAt_const⟩, fun θ0 θB => ?_⟩
  · rw [div_one, one_mul] at h
    exact absurd (Real.sin_le_one θ) (not_le.mpr h)
  · simp only [Slab.round, slabAt, exRes]
    have d1 : Real.exp (-1 / |Real.cos θB|) ≤ 1 := Real.exp_le_one_iff.mpr (div_nonpos_of_nonpos_of_nonneg (by norm_num) (abs_nonneg _))
    have d2 : Real.exp (-1 / |Real.cos θB|) ^ 2 ≤ 1 := pow_le_one₀ (Real.exp_pos _).le d1
    linarith

end Rayflare
