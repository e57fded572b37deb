import Verif.Props.Converge
import Verif.Props.FlatMatrix

/-!
# Property C150, with an ideal mirror: refining the angular grid
-/

namespace Rayflare

open Rayflare.Np Rayflare.Model Rayflare.Spec Rayflare.Lemmas Real

variable {ω : Type*}

/-- A surface that reflects everything at every angle. -/
noncomputable def mirrorRes : TmmRes := ⟨fun _ => 1, fun _ => 0, fun _ _ => 0⟩

/-- The matrices of an ideal mirror (`mirror_matrix`) are those `TMM` would store for a surface that reflects everything, whatever the medium behind it. -/
theorem mirror_byTmm (n : ℕ) (hn : 0 < n) (q : ℕ) (hq : 0 < q) (c : ℝ) (hc : 0 < c) (sp : Spacing) (hs : (1e-10 : ℝ) ≤ 2 * π / ((2 * q : ℕ) : ℝ)) {nL : ℕ} (ratio : ℝ) (hratio : 0 < ratio)
    (hcrit : ∀ i < n, ratio * sin (polarMid n sp i) ≠ 1) :
    StoredByTmm (nL := nL) n c (2 * q) sp true ratio mirrorRes
      (fun r j => mirrorMatrix (makeAngleVector n (2 * π / ((2 * q : ℕ) : ℝ)) c sp) (2 * π / ((2 * q : ℕ) : ℝ)) true r j, fun _ _ => 0) := by
  intro j
  have hpi := Real.pi_pos
  have hq' : (0 : ℝ) < q := by exact_mod_cast hq
  have hs0 : 0 < 2 * π / ((2 * q : ℕ) : ℝ) := by positivity
  have hhalf : (makeAngleVector n (2 * π / ((2 * q : ℕ) : ℝ)) c sp).half = ringStart n c n := half_eq n hn c sp _
  have hj : (j : ℕ) < ringStart n c n := by rw [← hhalf]; exact j.2
  obtain ⟨i, k, row, hi, hk, hjk, hfi, hrow', -, hlook, -, -⟩ := tmm_incident n hn c hc sp true (2 * π / ((2 * q : ℕ) : ℝ)) hj
  have hi' : i < n := hfi.mp rfl
  simp only [if_true, zero_add] at hjk
  have hget : (makeAngleVector n (2 * π / ((2 * q : ℕ) : ℝ)) c sp).angleVector[(j : ℕ)]? = some row := by
    rw [hjk, hrow']; exact angleVector_get n hn _ c sp hi hk
  refine ⟨?_, ⟨fun _ => 0, by unfold tmmAbsColumn; rw [hlook]; rfl, fun _ => rfl⟩⟩
  have hth : row.theta = polarMid n sp i := by rw [hrow']
  obtain ⟨col, binR, h1, h2, h3, h4, -, h6, h7, h8⟩ := C51_entries n hn c hc (2 * q) (by omega) sp true hs ratio hratio mirrorRes j hj row (by simpa using hget) (by
    simp only [seen, if_true, hth]; exact hcrit i hi')
  have hb : InBin n c (2 * π / ((2 * q : ℕ) : ℝ)) sp i k (polarMid n sp i) (azimuthMid n c (2 * π / ((2 * q : ℕ) : ℝ)) i k) := mid_inBin n hn _ c hs0 sp hi hk
  have hph : row.phi = azimuthMid n c (2 * π / ((2 * q : ℕ) : ℝ)) i k := by rw [hrow']
  have eqs : π = (q : ℤ) * (2 * π / ((2 * q : ℕ) : ℝ)) := by push_cast; field_simp
  have hd : DirInBin n c (2 * π / ((2 * q : ℕ) : ℝ)) sp j row.theta (row.phi + π) := by
    have h : DirInBin n c (2 * π / ((2 * q : ℕ) : ℝ)) sp j row.theta (row.phi + (q : ℤ) * (2 * π / ((2 * q : ℕ) : ℝ))) := by
      rw [dirInBin_turn]
      exact ⟨i, k, 0, hi, hk, hjk, by rw [hth, hph]; simpa using hb⟩
    rwa [← eqs] at h
  have hoff : OffEdge (2 * π / ((2 * q : ℕ) : ℝ)) (row.phi + π) := by
    intro z hz
    obtain ⟨g0, g1⟩ := azimuthMid_range n c (2 * π / ((2 * q : ℕ) : ℝ)) hs0 hk
    rw [← hph] at g0 g1
    have e : row.phi = ((z - q : ℤ) : ℝ) * (2 * π / ((2 * q : ℕ) : ℝ)) := by
      push_cast at hz eqs ⊢
      linarith
    rw [e] at g0 g1
    have z0 : (0 : ℝ) < ((z - q : ℤ) : ℝ) := pos_of_mul_pos_left g0 hs0.le
    have z1 : ((z - q : ℤ) : ℝ) < 1 := by
      by_contra h
      exact absurd g1 (not_lt.mpr (le_mul_of_one_le_left hs0.le (not_lt.mp h)))
    have z0' : (0 : ℤ) < z - q := by exact_mod_cast z0
    have z1' : z - q < (1 : ℤ) := by exact_mod_cast z1
    omega
  have hbj : binR = j := dirInBin_unique hn hs0 (h6 hoff) hd
  refine ⟨col, h1, fun r => ?_⟩
  have hm := (C24_mirror n hn q hq c hc sp j j.2).1.2 r (by have := r.2; change _ < 2 * Grid.half _; omega)
  refine hm.trans ?_
  by_cases hr : (r : ℕ) = j
  · rw [if_pos hr, hr, ← hbj, h4]; rfl
  · rw [if_neg hr]
    by_cases hT : ratio * Real.sin (seen true row.theta) < 1 ∨ 1e-8 < mirrorRes.T (seen true row.theta)
    · obtain ⟨binT, -, -, e1, -, e2⟩ := h7 hT
      by_cases h : (r : ℕ) = binT
      · rw [h, e1]; rfl
      · exact (e2 r (by rw [hbj]; exact hr) h).symm
    · exact (h8 hT r (by rw [hbj]; exact hr)).symm

/-! ## C150 -/

/-- **C150, with an ideal mirror at the rear.** A planar layer stack (`TMM`) at the front, a bulk layer and an ideal mirror: with enough polar bins and a small enough `I_thresh` the results are as close as wanted to those of the textbook slab on a mirror
for the angle of incidence itself, whatever the spacing, azimuth resolution, (even) symmetry and azimuth of the light; nothing is transmitted or absorbed at the rear, up to the tolerance. -/
theorem C150_mirror (thIn : ℝ) (hθ0 : 0 ≤ thIn) (hθ1 : thIn < π / 2) (inN bulkN a : ℝ) (hin : 0 < inN) (hbulk : 0 < bulkN) (hrefr : inN * sin thIn < bulkN) {n0 n1 : ℕ} (res0 resb : TmmRes)
    (r0 : ContinuousAt res0.R thIn) (t0 : ContinuousAt res0.T thIn) (a0 : ∀ l : Fin n0, ContinuousAt (fun θ => res0.A θ l) thIn)
    (rb : ContinuousAt resb.R (arcsin (inN / bulkN * sin thIn))) (tb : ContinuousAt resb.T (arcsin (inN / bulkN * sin thIn))) (ab : ∀ l : Fin n0, ContinuousAt (fun θ => resb.A θ l) (arcsin (inN / bulkN * sin thIn)))
    (hround : exp (-a / |cos (arcsin (inN / bulkN * sin thIn))|) ^ 2 * resb.R (arcsin (inN / bulkN * sin thIn)) < 1) (ε : ℝ) (hε : 0 < ε) :
    let θB := arcsin (inN / bulkN * sin thIn)
    let sl : Slab (Fin n0) (Fin n1) :=
      { front := ⟨res0.R thIn, res0.T thIn, fun l => res0.A thIn l⟩
        rear := ⟨1, 0, fun _ => 0⟩
        back := ⟨resb.R θB, resb.T θB, fun l => resb.A θB l⟩
        pass := exp (-a / |cos θB|) }
    ∃ N : ℕ, ∀ n ≥ N, ∀ (sp : Spacing) (c : ℝ), 0 < c → ∀ q : ℕ, 0 < q → (1e-10 : ℝ) ≤ 2 * π / ((2 * q : ℕ) : ℝ) →
      ∀ phiIn : PhiIn, (∀ p, phiIn = .val p → 0 ≤ p ∧ p ≠ 2 * π / ((2 * q : ℕ) : ℝ)) →
      ∀ (inp : RatInput ω (Fin n0) (Fin n1) (makeAngleVector n (2 * π / ((2 * q : ℕ) : ℝ)) c sp).half) (w : ω), inp.thresh ≤ ε / 2 → inp.α w * inp.thick = a →
        (∀ w, 0 ≤ inp.α w) → 0 ≤ inp.thick → (∀ w, StoredOk (inp.front0 w)) → (∀ w, StoredOk (inp.front1 w)) → (∀ w, StoredOk (inp.rear0 w)) →
        StoredByTmm n c (2 * q) sp true (inN / bulkN) res0 (inp.front0 w) → StoredByTmm n c (2 * q) sp false (bulkN / inN) resb (inp.rear0 w) →
        (∀ r j, (inp.front1 w).1 r j = mirrorMatrix (makeAngleVector n (2 * π / ((2 * q : ℕ) : ℝ)) c sp) (2 * π / ((2 * q : ℕ) : ℝ)) true r j) → (∀ l j, (inp.front1 w).2 l j = 0) →
        ∀ (S : Sys ω (Fin (makeAngleVector n (2 * π / ((2 * q : ℕ) : ℝ)) c sp).half) (Fin n0) (Fin n1)), assemble n (2 * π / ((2 * q : ℕ) : ℝ)) c sp thIn phiIn inp = some S →
        ∀ (o : ProfOpts ω (Fin (makeAngleVector n (2 * π / ((2 * q : ℕ) : ℝ)) c sp).half)) (k : ℕ) (t : LoopState ω (Fin (makeAngleVector n (2 * π / ((2 * q : ℕ) : ℝ)) c sp).half) (Fin n0) (Fin n1)), (S.Exits k t ∨ S.ExitsProf o k t) →
          |t.R w - sl.R sl.trips| < ε ∧ |t.T w| < ε ∧ |t.Abulk w - sl.bulk sl.trips| < ε ∧ (∀ l, |(t.a0.map fun v => v w l).sum - sl.abs0 sl.trips l| < ε) ∧ ∀ l, |(t.a1.map fun v => v w l).sum| < ε := by
  intro θB sl
  have hpi := Real.pi_pos
  have hs0 : 0 ≤ sin thIn := Real.sin_nonneg_of_nonneg_of_le_pi hθ0 (by linarith)
  have hsin1 : sin thIn < 1 := by rw [← Real.sin_pi_div_two]; exact Real.sin_lt_sin_of_lt_of_le_pi_div_two (by linarith) le_rfl hθ1
  have hr1 : inN / bulkN * sin thIn < 1 := by rw [div_mul_eq_mul_div, div_lt_one hbulk]; exact hrefr
  have hr0 : 0 ≤ inN / bulkN * sin thIn := by positivity
  have hlt2 : bulkN / inN * sin θB < 1 := by
    have : sin θB = inN / bulkN * sin thIn := Real.sin_arcsin (by linarith) hr1.le
    rw [this, ← mul_assoc, div_mul_div_cancel₀ hin.ne', div_self hbulk.ne', one_mul]; exact hsin1
  have hsl : slabAt n0 n1 inN bulkN bulkN a res0 mirrorRes resb thIn θB = sl := by
    simp only [slabAt, mirrorRes, sl, ite_self, if_pos hlt2]
  obtain ⟨N, hN⟩ := C150_converges (ω := ω) (n0 := n0) (n1 := n1) thIn hθ0 hθ1 inN bulkN bulkN a hin hbulk hbulk hrefr hrefr.ne res0 mirrorRes resb
    (fun θ h => absurd (Real.sin_le_one θ) (by rw [div_self hbulk.ne', one_mul] at h; exact not_le.mpr h)) r0 t0 a0 continuousAt_const continuousAt_const (fun _ => continuousAt_const) rb tb ab (by
      rw [show arcsin (inN / bulkN * sin thIn) = θB from rfl, hsl]
      simp only [Slab.round, sl]
      rw [mul_one]
      exact hround) ε hε
  refine ⟨N ⊔ 1, fun n hn sp c hc q hq hs phiIn hphi inp w hthr hα hα0 hd k0 k1 k2 s0 s2 e1 e2 S hS o k t ht => ?_⟩
  have hn0 : 0 < n := by have := le_sup_right (a := N) (b := 1); omega
  have h := hN n (le_trans le_sup_left hn) sp c hc (2 * q) (Or.inl ⟨q, hq, rfl⟩) hs phiIn hphi inp w hthr hα hα0 hd k0 k1 k2 s0 (by
    rw [div_self hbulk.ne']
    intro j
    obtain ⟨⟨col, h1, h2⟩, abs, h3, h4⟩ := mirror_byTmm (nL := n1) n hn0 q hq c hc sp hs 1 one_pos (fun i hi => by
      rw [one_mul]
      refine ne_of_lt ?_
      rw [← Real.sin_pi_div_two]
      exact Real.sin_lt_sin_of_lt_of_le_pi_div_two (by linarith [mid_pos hn0 (sp := sp) hi]) le_rfl (polarMid_lt_half n hn0 sp hi)) j
    exact ⟨⟨col, h1, fun r => (e1 r j).trans (h2 r)⟩, abs, h3, fun l => (e2 l j).trans (h4 l)⟩) s2 S hS o k t ht
  rw [show arcsin (inN / bulkN * sin thIn) = θB from rfl, hsl] at h
  obtain ⟨g1, g2, g3, g4, g5⟩ := h
  refine ⟨g1, ?_, g3, g4, fun l => ?_⟩
  · have : sl.T sl.trips = 0 := by simp [Slab.T, sl]
    rwa [this, sub_zero] at g2
  · have := g5 l
    have e : sl.abs1 sl.trips l = 0 := by simp [Slab.abs1, sl]
    rwa [e, sub_zero] at this

/-- For every number of polar bins, spacing, azimuth resolution and positive threshold there is a calculation as in `C150_mirror` (light at 0.5 rad on a surface that reflects 10 %, absorption coefficient times thickness 1), and its loop ends. -/
example (n : ℕ) (hn : 0 < n) (c : ℝ) (hc : 0 < c) (sp : Spacing) (thr : ℝ) (hthr : 0 < thr) :
    ∃ (inp : RatInput Unit (Fin 1) (Fin 1) (makeAngleVector n (2 * π / ((2 * 1 : ℕ) : ℝ)) c sp).half) (S : _) (k : ℕ) (t : _), assemble n (2 * π / ((2 * 1 : ℕ) : ℝ)) c sp 0.5 .all inp = some S ∧ S.Exits k t ∧
    inp.thresh = thr ∧ inp.α () * inp.thick = 1 ∧ (∀ w, StoredOk (inp.front0 w)) ∧ (∀ w, StoredOk (inp.front1 w)) ∧ (∀ w, StoredOk (inp.rear0 w)) ∧
    StoredByTmm n c (2 * 1) sp true (1 / 1) exRes (inp.front0 ()) ∧ StoredByTmm n c (2 * 1) sp false (1 / 1) exRes (inp.rear0 ()) ∧
    (∀ r j, (inp.front1 ()).1 r j = mirrorMatrix (makeAngleVector n (2 * π / ((2 * 1 : ℕ) : ℝ)) c sp) (2 * π / ((2 * 1 : ℕ) : ℝ)) true r j) ∧ (∀ l j, (inp.front1 ()).2 l j = 0) ∧
    exp (-1 / |cos (arcsin (1 / 1 * sin 0.5))|) ^ 2 * exRes.R (arcsin (1 / 1 * sin 0.5)) < 1 := by
  have hpi := Real.pi_gt_three
  rw [show 2 * 1 = 2 from rfl]
  have hs : (∃ q : ℕ, 0 < q ∧ 2 * π / ((2 : ℕ) : ℝ) = 2 * Real.pi / ((2 * q : ℕ) : ℝ)) ∨ 2 * π / ((2 : ℕ) : ℝ) = 2 * Real.pi := Or.inl ⟨1, one_pos, by norm_num⟩
  obtain ⟨i, v, -, -, -, hv, -⟩ := C09_launch_all n hn (2 * Real.pi / (2 : ℕ)) c hc sp 1 0.5 (by norm_num) (by linarith)
  unfold makeV0 at hv
  obtain ⟨v', hv', -⟩ := Option.map_eq_some_iff.mp hv
  have okM := C123_stored n hn c hc 2 two_pos sp true (by norm_num; linarith) 1 _ (.mirror 1 rfl)
  let inp : RatInput Unit (Fin 1) (Fin 1) (makeAngleVector n (2 * Real.pi / (2 : ℕ)) c sp).half :=
    { α := fun _ => 1, thick := 1, thresh := thr, front0 := fun _ => exStoredN n c sp true,
      front1 := fun _ => (fun r j => mirrorMatrix (makeAngleVector n (2 * Real.pi / (2 : ℕ)) c sp) (2 * π / (2 : ℕ)) true r j, fun _ _ => 0), rear0 := fun _ => exStoredN n c sp false }
  obtain ⟨S, hS⟩ : ∃ S, assemble n (2 * Real.pi / (2 : ℕ)) c sp 0.5 .all inp = some S := by
    unfold assemble
    simp only [launchPhi, hv', Option.map_some]
    exact ⟨_, rfl⟩
  have hSt : S.thresh = thr ∧ S.thick = 1 ∧ ∀ w, S.α w = 1 := by
    unfold assemble at hS
    simp only [Option.map_eq_some_iff] at hS
    obtain ⟨v, -, rfl⟩ := hS
    exact ⟨rfl, rfl, fun _ => rfl⟩
  have k0 : ∀ w, StoredOk (inp.front0 w) := fun _ => (exStoredN_tmm n hn c hc sp true).2
  have k2 : ∀ w, StoredOk (inp.rear0 w) := fun _ => (exStoredN_tmm n hn c hc sp false).2
  obtain ⟨hE, hN, hcos, hv1⟩ := C15_assembled n hn _ hs c hc sp 0.5 (by norm_num) (by linarith) .all inp (fun _ => zero_le_one) zero_le_one k0 (fun _ => okM) k2 S hS
  obtain ⟨r, -, ⟨t, ht⟩, -⟩ := C17_absorbing_bulk S hE hN hcos 1 one_pos (fun w => (hSt.2.2 w).ge) (by rw [hSt.2.1]; norm_num) (fun w => (hv1 w).le) (by rw [hSt.1]; exact hthr) ⟨false, [], fun _ _ _ => 0, fun _ _ => 0⟩
  refine ⟨inp, S, r, t, hS, ht, rfl, by simp [inp], k0, fun _ => okM, k2, ?_, ?_, fun _ _ => rfl, fun _ _ => rfl, ?_⟩
  · rw [div_one]; exact (exStoredN_tmm n hn c hc sp true).1
  · rw [div_one]; exact (exStoredN_tmm n hn c hc sp false).1
  · have d1 : exp (-1 / |cos (arcsin (1 / 1 * sin 0.5))|) ≤ 1 := Real.exp_le_one_iff.mpr (div_nonpos_of_nonpos_of_nonneg (by norm_num) (abs_nonneg _))
    have d2 := pow_le_one₀ (n := 2) (Real.exp_pos _).le d1
    simp only [exRes]
    linarith

end Rayflare
