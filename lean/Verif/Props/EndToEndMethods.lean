import Verif.Props.EndToEnd
import Verif.Props.RTMatrix2
import Verif.Props.TMM
import Verif.Props.RCWA2
import Verif.Props.Ideal

/-!
# Property C123: energy conservation from the calculation of the surfaces to R, A and T

What each method stores for a surface (ray tracing, transfer matrices, RCWA for front incidence, Lambertian scatterer, mirror) meets the hypotheses of C16, so `calculate_RAT` conserves energy
for every structure whose surfaces were calculated by these methods, in any combination.
-/

namespace Rayflare

open Rayflare.Np Rayflare.Model Rayflare.Spec Rayflare.Lemmas Matrix Real

/-- At one wavelength: the pair of matrices (scattering, absorption) that one of the methods stores for a surface lit from the front or from the rear, on the grid with `n` rings per
hemisphere, `c_azimuth = c` and symmetry angle `2π/m`.  `nL` is the number of absorbing layers. -/
inductive Calculated (n : ℕ) (c : ℝ) (m : ℕ) (sp : Spacing) (front : Bool) : (nL : ℕ) →
    Matrix (Fin ((makeAngleVector n (2 * π / m) c sp).half + (makeAngleVector n (2 * π / m) c sp).half)) (Fin (makeAngleVector n (2 * π / m) c sp).half) ℝ ×
      Matrix (Fin nL) (Fin (makeAngleVector n (2 * π / m) c sp).half) ℝ → Prop
  /-- `RT`, with or without a lookup table, with at least `nx * ny` rays per incidence bin; whatever happens to the rays and whatever the uninitialised memory contains. -/
  | rt (tmm : Bool) (nL nRays nx ny : ℕ) (hx : 0 < nx) (hy : 0 < ny) (henough : (makeAngleVector n (2 * π / m) c sp).half * (nx * ny) ≤ nRays) (res : ℕ → ℕ → RTOut)
      (hres : ∀ l1 l2, match res l1 l2 with
        | .leaves θ _ => |θ| ≤ π
        | .absorbed A θl => tmm = true ∧ |θl| ≤ π / 2 ∧ (∀ l, 0 ≤ A l) ∧ 0 < ((List.range nL).map A).sum)
      (u : RTJunk) (M : RTMat)
      (hM : rtMatrix { g := makeAngleVector n (2 * π / m) c sp, phiSym := 2 * π / m, tmm := tmm, front := front, nLayers := nL } u
        (traced (launched (makeAngleVector n (2 * π / m) c sp) (nAngles nRays nx ny)) (nx * ny) res) = some M) :
      Calculated n c m sp front nL (fun r j => M.out r j, fun l j => M.A l j)
  /-- `TMM`, with a solver that conserves energy and reports no transmission of at most 1e-8 other than zero beyond the critical angle; no bin exactly at the critical angle. -/
  | tmm (nL : ℕ) (ratio : ℝ) (hratio : 0 < ratio) (res : TmmRes)
      (hsolver : ∀ θ, 0 < θ → θ < π / 2 → 0 ≤ res.R θ ∧ 0 ≤ res.T θ ∧ (∀ l, 0 ≤ res.A θ l) ∧ res.R θ + res.T θ + ∑ l ∈ Finset.range nL, res.A θ l = 1)
      (htir : ∀ θ, 1 < ratio * Real.sin θ → res.T θ = 0 ∨ 1e-8 < res.T θ)
      (hcrit : ∀ row ∈ (makeAngleVector n (2 * π / m) c sp).angleVector, ratio * Real.sin row.theta ≠ 1)
      (col abs : ℕ → ℕ → ℝ)
      (hcol : ∀ j < (makeAngleVector n (2 * π / m) c sp).half, tmmColumn (makeAngleVector n (2 * π / m) c sp) (2 * π / m) front ratio res j = some fun i => col i j)
      (habs : ∀ j < (makeAngleVector n (2 * π / m) c sp).half, tmmAbsColumn (makeAngleVector n (2 * π / m) c sp) front res j = some fun l => abs l j) :
      Calculated n c m sp front nL (fun r j => col r j, fun l j => abs l j)
  /-- `RCWA` for front incidence, with a solver that conserves energy: the powers of the transmitted orders add up to `T`, and what is not absorbed or transmitted is reflected into some order. -/
  | rcwa (nL : ℕ) (hf : front = true) (cell : RcwaCell) (hcell : PolarOk cell) (sol : ℕ → RcwaSol)
      (hR : ∀ j < (makeAngleVector n (2 * π / m) c sp).half, ∀ row, (makeAngleVector n (2 * π / m) c sp).angleVector[j]? = some row →
        Reflects cell row.theta row.phi (sol j) ∧ ((sol j).orders.map (transmittedPower cell row.theta row.phi)).sum = (sol j).T)
      (hsol : ∀ j, (sol j).A.length = nL ∧ (∀ a ∈ (sol j).A, 0 ≤ a) ∧ (sol j).T + (sol j).A.sum ≤ 1)
      (mat : ℕ → ℕ → ℝ) (hmat : rcwaMatrix (makeAngleVector n (2 * π / m) c sp) (2 * π / m) front cell sol = some mat) :
      Calculated n c m sp front nL (fun r j => mat r j, fun l j => (rcwaAbs front (sol j)).getD l 0)
  /-- `lambertian_matrix`. -/
  | lambertian : Calculated n c m sp front 1 (fun r _ => (lambertStored (makeAngleVector n (2 * π / m) c sp)).getD r 0, fun _ _ => 0)
  /-- `mirror_matrix`, for an even number of symmetry sectors. -/
  | mirror (q : ℕ) (hq : m = 2 * q) : Calculated n c m sp front 1 (fun r j => mirrorMatrix (makeAngleVector n (2 * π / m) c sp) (2 * π / m) front r j, fun _ _ => 0)

section
variable (n : ℕ) (hn : 0 < n) (c : ℝ) (hc : 0 < c) (m : ℕ) (hm : 0 < m) (sp : Spacing) (front : Bool)

theorem sum_fin_add (h : ℕ) (f : ℕ → ℝ) : ∑ r : Fin (h + h), f r = ∑ r ∈ Finset.range (2 * h), f r := by
  rw [two_mul, Finset.sum_range]

include hn hc hm in
theorem rays_ok (tmm : Bool) (nL nAng nPos : ℕ) (res : ℕ → ℕ → RTOut)
    (hres : ∀ l1 l2, match res l1 l2 with
      | .leaves θ _ => |θ| ≤ π
      | .absorbed A θl => tmm = true ∧ |θl| ≤ π / 2 ∧ (∀ l, 0 ≤ A l) ∧ 0 < ((List.range nL).map A).sum) :
    ∀ r ∈ traced (launched (makeAngleVector n (2 * π / m) c sp) nAng) nPos res, RayOk (2 * π / m) tmm nL r := by
  obtain ⟨f, -, -, -, hf4⟩ := centre_incident n hn c hc m hm sp true
  have hhp := half_pos n hn c hc
  have hhalf := half_eq n hn c sp (2 * π / m)
  obtain ⟨hlen, hget⟩ := launched_get (makeAngleVector n (2 * π / m) c sp) nAng (by rw [hhalf]; exact hhp)
  rw [hhalf] at hget
  intro r hr
  unfold traced at hr
  obtain ⟨p, hp, hr'⟩ := List.mem_flatMap.mp hr
  obtain ⟨l2, -, rfl⟩ := List.mem_map.mp hr'
  obtain ⟨d, l⟩ := p
  have hp' := List.mem_zipIdx_iff_getElem?.mp hp
  have hl : l < nAng := by
    rw [← hlen]
    by_contra hcon
    simp only at hp'
    rw [List.getElem?_eq_none (by omega)] at hp'
    simp at hp'
  obtain ⟨row, h1, h2⟩ := hget l hl
  rw [h2] at hp'
  have hd : d = (row.theta, row.phi) := (Option.some.inj hp').symm
  obtain ⟨a, b, e, -⟩ := hf4 _ (Nat.mod_lt _ hhp) row h1 (res l l2)
  subst hd
  exact ⟨a, b, e, hres l l2⟩

include hn hc hm in
/-- **C123, matrices.** Whatever method calculated the surface, in every column the scattered and absorbed fractions are non-negative and add up to one. -/
theorem C123_stored (hs : (1e-10 : ℝ) ≤ 2 * π / m) (nL : ℕ) (M : _) (hM : Calculated n c m sp front nL M) : StoredOk M := by
  classical
  have hhp := half_pos n hn c hc
  have hhalf : (makeAngleVector n (2 * π / m) c sp).half = ringStart n c n := half_eq n hn c sp (2 * π / m)
  have htot : ringStart n c (2 * n) = 2 * (makeAngleVector n (2 * π / m) c sp).half := by rw [hhalf]; exact ringStart_half n c
  cases hM with
  | rt tmm nL nRays nx ny hx hy henough res hres u M hM =>
    rw [hhalf] at henough
    have hok := rays_ok n hn c hc m hm sp tmm nL (nAngles nRays nx ny) (nx * ny) res hres
    obtain ⟨M', hM', hcol⟩ := C48_columns n hn c hc m hm sp tmm front nL _ hok u
    have hMM : M' = M := by
      have : (some M' : Option RTMat) = some M := hM'.symm.trans hM
      exact Option.some.inj this
    subst hMM
    have key : ∀ j : Fin (makeAngleVector n (2 * π / m) c sp).half, _ := fun j => hcol (j : ℕ) (by
      have hj : (j : ℕ) < ringStart n c n := by rw [← hhalf]; exact j.2
      have h1 := C50_populated n hn c hc m hm sp front nRays nx ny hx hy henough res j hj
      by_contra hcon
      push Not at hcon
      rw [nOf_eq] at h1
      have h0 : ((traced (launched (makeAngleVector n (2 * π / m) c sp) (nAngles nRays nx ny)) (nx * ny) res).countP
          fun r => decide (IncidentIn n c (2 * π / m) sp front j r)) = 0 := by
        rw [List.countP_eq_zero]; intro r hr; simpa using hcon r hr
      rw [h0] at h1
      have : 0 < nx * ny := Nat.mul_pos hx hy
      have h2 : (0 : ℝ) < ((nx * ny : ℕ) : ℝ) := by exact_mod_cast this
      simp only [Nat.cast_zero] at h1
      linarith)
    refine ⟨fun j => ?_, fun r j => (key j).1 r, fun l j => (key j).2.1 l⟩
    have := (key j).2.2
    rw [htot] at this
    simp only
    rw [sum_fin_add _ (fun r => M'.out r j), ← Finset.sum_range (fun l => M'.A l j)]
    exact this
  | tmm nL ratio hratio res hsolver htir hcrit col abs hcol habs =>
    have key : ∀ j : Fin (makeAngleVector n (2 * π / m) c sp).half, (∑ i ∈ Finset.range (ringStart n c (2 * n)), col i j + ∑ l ∈ Finset.range nL, abs l j = 1) ∧
        (∀ i, 0 ≤ col i j) ∧ ∀ l, 0 ≤ abs l j := by
      intro j
      have hj : (j : ℕ) < ringStart n c n := by rw [← hhalf]; exact j.2
      obtain ⟨i, k, row, hi, hk, hjk, hfi, hrow', hget, hlook, h0, h1⟩ := tmm_incident n hn c hc sp front (2 * π / m) hj
      have hrow : (makeAngleVector n (2 * π / m) c sp).angleVector[(if front then 0 else ringStart n c n) + (j : ℕ)]? = some row := by
        unfold tmmRow at hget
        rw [← hhalf]
        cases front <;> simpa using hget
      have hcr : ratio * Real.sin (seen front row.theta) ≠ 1 := by
        have := hcrit row (List.mem_of_getElem? hrow)
        unfold seen
        cases front
        · simpa [Real.sin_pi_sub] using this
        · simpa using this
      obtain ⟨s1, s2, s3, s4⟩ := hsolver _ h0 h1
      have hab : (fun l => abs l j) = res.A (seen front row.theta) := by
        have := habs j j.2
        unfold tmmAbsColumn at this
        rw [hlook] at this
        exact (Option.some.inj this).symm
      have hab' : ∀ l, abs l j = res.A (seen front row.theta) l := fun l => congrFun hab l
      refine ⟨?_, ?_, ?_⟩
      · obtain ⟨col', abs', e1, e2, e3⟩ := C51_energy n hn c hc m hm sp front hs ratio hratio res j hj row hrow hcr nL
        rw [hcol j j.2] at e1
        rw [habs j j.2] at e2
        obtain rfl := Option.some.inj e1
        obtain rfl := Option.some.inj e2
        rcases e3 with e3 | ⟨e4, e5, e3⟩
        · rw [← s4]; exact e3
        · rcases htir _ e4 with ht | ht
          · rw [ht, add_zero] at s4
            rw [← s4]; exact e3
          · linarith
      · obtain ⟨col', binR, e1, -, -, e4, -, -, e7, e8⟩ := C51_entries n hn c hc m hm sp front hs ratio hratio res j hj row hrow hcr
        rw [hcol j j.2] at e1
        obtain rfl := Option.some.inj e1
        intro i
        by_cases hT : ratio * Real.sin (seen front row.theta) < 1 ∨ 1e-8 < res.T (seen front row.theta)
        · obtain ⟨binT, -, -, f1, -, f2⟩ := e7 hT
          by_cases hi : i = binR
          · subst hi; exact s1.trans_eq e4.symm
          · by_cases hi' : i = binT
            · subst hi'; exact s2.trans_eq f1.symm
            · exact (f2 i hi hi').ge
        · by_cases hi : i = binR
          · subst hi; exact s1.trans_eq e4.symm
          · exact (e8 hT i hi).ge
      · intro l; rw [hab' l]; exact s3 l
    refine ⟨fun j => ?_, fun r j => (key j).2.1 r, fun l j => (key j).2.2 l⟩
    have := (key j).1
    rw [htot] at this
    simp only
    rw [sum_fin_add _ (fun r => col r j), ← Finset.sum_range (fun l => abs l j)]
    exact this
  | rcwa nL hf cell hcell sol hR hsol mat hmat =>
    subst hf
    rw [hhalf] at hR
    have hR1 : ∀ j < ringStart n c n, ∀ row, (makeAngleVector n (2 * π / m) c sp).angleVector[j]? = some row → Reflects cell row.theta row.phi (sol j) :=
      fun j hj row hrow => (hR j hj row hrow).1
    have hs0 : (0 : ℝ) < 2 * π / m := lt_of_lt_of_le (by norm_num) hs
    have hrowj : ∀ j : Fin (makeAngleVector n (2 * π / m) c sp).half, ∃ row, (makeAngleVector n (2 * π / m) c sp).angleVector[(j : ℕ)]? = some row := by
      intro j
      obtain ⟨row, h, -⟩ := (col_spec n hn c hc sp true (2 * π / m) hs0).1 j (by rw [← hhalf]; exact j.2)
      exact ⟨row, h⟩
    refine ⟨fun j => ?_, fun r j => ?_, fun l j => ?_⟩
    · have hj : (j : ℕ) < ringStart n c n := by rw [← hhalf]; exact j.2
      obtain ⟨row, hrow⟩ := hrowj j
      obtain ⟨mat', h1, h2⟩ := C55_front n hn c hc m hm sp hs cell hcell sol hR1
      rw [hmat] at h1
      obtain rfl := Option.some.inj h1
      have h3 := (h2 j hj row hrow).2
      rw [(hR j hj row hrow).2, htot] at h3
      simp only
      rw [sum_fin_add _ (fun r => mat r j), h3]
      have h4 : ∑ l : Fin nL, (rcwaAbs true (sol j)).getD l 0 = (sol j).A.sum := sum_getD _ _ (hsol j).1
      rw [h4]; ring
    · have hj : (j : ℕ) < ringStart n c n := by rw [← hhalf]; exact j.2
      obtain ⟨row, hrow⟩ := hrowj j
      obtain ⟨fin, g1, g2⟩ := matrix_columns n hn c hc m hm sp true hs cell hcell sol hR1
      rw [hmat] at g1
      obtain rfl := Option.some.inj g1
      obtain ⟨mat0, mat', e1, e2, e3, -⟩ := g2 j hj row hrow
      rw [(col_spec n hn c hc sp true (2 * π / m) hs0).2.2.1 rfl j hj] at e1 e2 e3
      rw [angle_same n hn c hc m hm sp true hs cell hcell _ _ _ (hR1 j hj row hrow)] at e1
      simp only
      rw [e3, ← Option.some.inj e1]
      unfold addTo
      rw [e2, if_pos rfl, zero_add]
      refine List.sum_nonneg ?_
      intro x hx
      obtain ⟨e, he, rfl⟩ := List.mem_map.mp hx
      have hsum := powers_eq cell row.theta row.phi (sol j)
      split_ifs
      · obtain ⟨e', he', rfl⟩ := List.mem_map.mp he
        have hclean : ∀ a b, 0 ≤ rcwaClean a b := by
          intro a b; unfold rcwaClean; simp only
          split_ifs with h1 h2 h2 <;> first | exact le_rfl | (push Not at h2; exact le_trans (by norm_num) h2)
        rcases List.mem_append.mp he' with h | h
        · obtain ⟨o, -, rfl⟩ := List.mem_map.mp h
          refine mul_nonneg (div_nonneg ?_ (rsum_pos cell row.theta row.phi (sol j) (hR1 j hj row hrow)).le) (hclean _ _)
          have := (hsol j).2.2
          unfold rcwaR; linarith
        · obtain ⟨o, -, rfl⟩ := List.mem_map.mp h
          exact hclean _ _
      · exact le_rfl
    · simp only [rcwaAbs, if_true, List.getD_eq_getElem?_getD]
      cases h : (sol j).A[(l : ℕ)]? with
      | none => simp
      | some a => exact (hsol j).2.1 a (List.mem_of_getElem? h)
  | lambertian =>
    obtain ⟨h1, h2, h3, -, h5⟩ := C23_lambertian n hn (2 * π / m) c hc sp
    set v := lambertStored (makeAngleVector n (2 * π / m) c sp) with hv
    have hlen : v.length = (makeAngleVector n (2 * π / m) c sp).half + (makeAngleVector n (2 * π / m) c sp).half := by rw [h1, two_mul]; rfl
    refine ⟨fun j => ?_, fun r j => ?_, fun l j => le_rfl⟩
    · simp only [Finset.sum_const_zero, add_zero]
      rw [sum_getD v _ hlen, ← List.sum_take_add_sum_drop v ((makeAngleVector n (2 * π / m) c sp).angleVector.length / 2), h2]
      have : (v.drop ((makeAngleVector n (2 * π / m) c sp).angleVector.length / 2)).sum = 0 := by
        refine List.sum_eq_zero ?_
        intro x hx
        obtain ⟨i, hi, rfl⟩ := List.getElem_of_mem hx
        have hi' := hi
        rw [List.length_drop, h1] at hi'
        have := h5 i (by omega)
        rw [List.getElem_drop]
        rw [List.getElem?_eq_getElem (by rw [h1]; omega)] at this
        exact Option.some.inj this
      rw [this, add_zero]
    · simp only [List.getD_eq_getElem?_getD]
      cases h : v[(r : ℕ)]? with
      | none => simp
      | some a => exact h3 a (List.mem_of_getElem? h)
  | mirror q hq =>
    subst hq
    have hq0 : 0 < q := by omega
    have key : ∀ j : Fin (makeAngleVector n (2 * π / (2 * q : ℕ)) c sp).half, ∃ r, UnitColumn (2 * (makeAngleVector n (2 * π / (2 * q : ℕ)) c sp).half)
        (mirrorMatrix (makeAngleVector n (2 * π / (2 * q : ℕ)) c sp) (2 * π / (2 * q : ℕ)) front) j r := by
      intro j
      have := C24_mirror n hn q hq0 c hc sp j j.2
      cases front
      · exact ⟨_, this.2.2.1⟩
      · exact ⟨_, this.1⟩
    refine ⟨fun j => ?_, fun r j => ?_, fun l j => le_rfl⟩
    · obtain ⟨r, hr, h⟩ := key j
      simp only [Finset.sum_const_zero, add_zero]
      rw [sum_fin_add _ (fun r => mirrorMatrix (makeAngleVector n (2 * π / (2 * q : ℕ)) c sp) (2 * π / (2 * q : ℕ)) front r j),
        Finset.sum_congr rfl (fun r' hr' => h r' (Finset.mem_range.mp hr'))]
      rw [Finset.sum_ite_eq', if_pos (Finset.mem_range.mpr hr)]
    · simp only [mirrorMatrix]
      split_ifs <;> norm_num

variable {ω : Type*}

/-- **C123.** For every structure whose front surface (from both sides) and rear surface were calculated by any of the methods at every wavelength, for `phi_symmetry = 2π/m` with `m` even or 1,
every incidence angle below 90 degrees and any absorbing or transparent bulk: whenever the loop of `calculate_RAT` ends, `1 - I_thresh ≤ R + T + A_bulk + A_interface ≤ 1` at every wavelength,
and all parts are non-negative. -/
theorem C123_energy (n : ℕ) (hn : 0 < n) (m : ℕ) (hm : 0 < m) (hsym : Even m ∨ m = 1) (hs : (1e-10 : ℝ) ≤ 2 * π / m) (c : ℝ) (hc : 0 < c) (sp : Spacing)
    (thIn : ℝ) (ht0 : 0 ≤ thIn) (ht1 : thIn < π / 2) (phiIn : PhiIn) (nL₀ nL₁ : ℕ)
    (inp : RatInput ω (Fin nL₀) (Fin nL₁) (makeAngleVector n (2 * π / m) c sp).half) (hα : ∀ w, 0 ≤ inp.α w) (hd : 0 ≤ inp.thick)
    (hfront : ∀ w, Calculated n c m sp true nL₀ (inp.front0 w)) (hback : ∀ w, Calculated n c m sp false nL₀ (inp.rear0 w))
    (hrear : ∀ w, Calculated n c m sp true nL₁ (inp.front1 w))
    (S : Sys ω (Fin (makeAngleVector n (2 * π / m) c sp).half) (Fin nL₀) (Fin nL₁)) (hS : assemble n (2 * π / m) c sp thIn phiIn inp = some S)
    (o : ProfOpts ω (Fin (makeAngleVector n (2 * π / m) c sp).half)) (k : ℕ) (t : LoopState ω (Fin (makeAngleVector n (2 * π / m) c sp).half) (Fin nL₀) (Fin nL₁))
    (ht : S.Exits k t ∨ S.ExitsProf o k t) (w : ω) :
    1 - inp.thresh ≤ t.R w + t.T w + t.Abulk w + t.Aint0 w + t.Aint1 w ∧ t.R w + t.T w + t.Abulk w + t.Aint0 w + t.Aint1 w ≤ 1 ∧
    0 ≤ t.R w ∧ 0 ≤ t.T w ∧ 0 ≤ t.Abulk w ∧ 0 ≤ t.Aint0 w ∧ 0 ≤ t.Aint1 w := by
  refine C16_end_to_end n hn (2 * π / m) ?_ c hc sp thIn ht0 ht1 phiIn inp hα hd
    (fun w => C123_stored n hn c hc m hm sp true hs _ _ (hfront w)) (fun w => C123_stored n hn c hc m hm sp true hs _ _ (hrear w))
    (fun w => C123_stored n hn c hc m hm sp false hs _ _ (hback w)) S hS o k t ht w
  rcases hsym with ⟨q, hq⟩ | rfl
  · refine Or.inl ⟨q, by omega, ?_⟩
    rw [hq, show q + q = 2 * q by omega]
  · right; simp

/-- **C123, termination.** With an absorbing bulk the calculation ends, after at most `⌈ln(1/I_thresh)/(2 a d)⌉` passes. -/
theorem C123_ends (n : ℕ) (hn : 0 < n) (m : ℕ) (hm : 0 < m) (hsym : Even m ∨ m = 1) (hs : (1e-10 : ℝ) ≤ 2 * π / m) (c : ℝ) (hc : 0 < c) (sp : Spacing)
    (thIn : ℝ) (ht0 : 0 ≤ thIn) (ht1 : thIn < π / 2) (phi : ℝ) (hphi0 : 0 ≤ phi) (hphi : phi ≠ 2 * π / m) (nL₀ nL₁ : ℕ)
    (inp : RatInput ω (Fin nL₀) (Fin nL₁) (makeAngleVector n (2 * π / m) c sp).half) (a : ℝ) (ha : 0 < a) (hα : ∀ w, a ≤ inp.α w) (hd : 0 < inp.thick) (hthr : 0 < inp.thresh)
    (hfront : ∀ w, Calculated n c m sp true nL₀ (inp.front0 w)) (hback : ∀ w, Calculated n c m sp false nL₀ (inp.rear0 w))
    (hrear : ∀ w, Calculated n c m sp true nL₁ (inp.front1 w)) :
    ∃ S, assemble n (2 * π / m) c sp thIn (.val phi) inp = some S ∧ ∀ o,
      ∃ k ≤ ⌈Real.log (1 / inp.thresh) / (2 * (a * inp.thick))⌉₊, (∃ t, S.Exits k t) ∧ ∃ t, S.ExitsProf o k t := by
  refine C17_end_to_end n hn (2 * π / m) ?_ c hc sp thIn ht0 ht1 phi hphi0 hphi inp a ha hα hd hthr
    (fun w => C123_stored n hn c hc m hm sp true hs _ _ (hfront w)) (fun w => C123_stored n hn c hc m hm sp true hs _ _ (hrear w))
    (fun w => C123_stored n hn c hc m hm sp false hs _ _ (hback w))
  rcases hsym with ⟨q, hq⟩ | rfl
  · refine Or.inl ⟨q, by omega, ?_⟩
    rw [hq, show q + q = 2 * q by omega]
  · right; simp

include hn hc hm in
/-- A front surface that was ray-traced with a lookup table, every other repetition of the positions being absorbed and the rest transmitted, and a mirror at the rear meet the hypotheses. -/
example (hm2 : Even m) (front : Bool) : (∃ M, Calculated n c m sp front 1 M) ∧ ∃ M, Calculated n c m sp true 1 M := by
  obtain ⟨q, hq⟩ := hm2
  refine ⟨?_, _, .mirror q (by omega)⟩
  set res : ℕ → ℕ → RTOut := fun l _ => if l % 2 = 0 then .leaves π 1 else .absorbed (fun _ => 1) (π / 4) with hres0
  have hres : ∀ l1 l2, match res l1 l2 with
        | .leaves θ _ => |θ| ≤ π
        | .absorbed A θl => true = true ∧ |θl| ≤ π / 2 ∧ (∀ l, 0 ≤ A l) ∧ 0 < ((List.range 1).map A).sum := by
    intro l1 l2
    have hpi := Real.pi_pos
    rw [hres0]
    rcases Nat.mod_two_eq_zero_or_one l1 with h | h
    · simp [h, abs_of_pos hpi]
    · simp only [h, one_ne_zero, if_false]
      refine ⟨trivial, ?_, fun _ => zero_le_one, by simp⟩
      rw [abs_of_pos (by positivity)]; linarith
  obtain ⟨M, hM, -⟩ := C48_columns n hn c hc m hm sp true front 1 _
    (rays_ok n hn c hc m hm sp true 1 (nAngles ((makeAngleVector n (2 * π / m) c sp).half * (2 * 2)) 2 2) (2 * 2) res hres) ⟨fun _ _ => 0, fun _ => 0, fun _ => 0⟩
  exact ⟨_, .rt true 1 _ 2 2 (by norm_num) (by norm_num) le_rfl res hres _ M hM⟩

end

end Rayflare
