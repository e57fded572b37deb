import Verif.Spec.Reverse
import Verif.Props.Unbiased
import Mathlib.MeasureTheory.Function.JacobianOneDim
import Mathlib.Analysis.SpecialFunctions.Trigonometric.InverseDeriv
import Mathlib.MeasureTheory.Integral.IntervalIntegral.Basic

/-!
# Property C154: light paths can be reversed
-/

namespace Rayflare

open Rayflare.Model Rayflare.Spec Rayflare.Lemmas

/-! ## Helper lemmas -/

theorem textbookR_swap (n0 n1 a b : ℝ) (pol : Pol) : textbookR n0 n1 a b pol = textbookR n1 n0 b a pol := by
  have h : ∀ x y : ℝ, ((x - y) / (x + y)) ^ 2 = ((y - x) / (y + x)) ^ 2 := by
    intro x y; rw [div_pow, div_pow, add_comm y x]; congr 1; ring
  cases pol <;> simp only [textbookR]
  · rw [h]
  · rw [h]
  · rw [h (n0 * Real.cos a), h (n0 * Real.cos b)]

/-- At the critical angle everything is reflected. -/
theorem decideR_critical (n0 n1 θ : ℝ) (h0 : 0 < n0) (h1 : 0 < n1) (hθ : |θ| < Real.pi / 2) (θt : ℂ) (ht : IsArcsin ((n0 : ℂ) / n1 * Complex.sin ((|θ| : ℝ) : ℂ)) θt) (pol : Pol)
    (hc : n0 * Real.sin |θ| = n1) : decideR n0 n1 θ θt pol = 1 := by
  unfold decideR
  split_ifs
  · rfl
  have hs : Complex.sin θt = 1 := by
    rw [ht.1, ← Complex.ofReal_sin, ← Complex.ofReal_div, ← Complex.ofReal_mul, div_mul_eq_mul_div, hc, div_self h1.ne', Complex.ofReal_one]
  have hcos : Complex.cos θt = 0 := by
    have := Complex.sin_sq_add_cos_sq θt
    rw [hs] at this
    have h2 : Complex.cos θt ^ 2 = 0 := by linear_combination this
    exact pow_eq_zero_iff (two_ne_zero) |>.mp h2
  have hpos : 0 < Real.cos |θ| := Real.cos_pos_of_mem_Ioo ⟨by linarith [abs_nonneg θ, Real.pi_pos], hθ⟩
  have hne : (Complex.cos ((|θ| : ℝ) : ℂ)) ≠ 0 := by
    rw [← Complex.ofReal_cos]; exact_mod_cast hpos.ne'
  have hn0 : (n0 : ℂ) ≠ 0 := by exact_mod_cast h0.ne'
  have hn1 : (n1 : ℂ) ≠ 0 := by exact_mod_cast h1.ne'
  have rs : fresnelRs n0 n1 |θ| θt = 1 := by
    unfold fresnelRs
    rw [hcos, mul_zero, sub_zero, add_zero, div_self (mul_ne_zero hn0 hne)]; simp
  have rp : fresnelRp n0 n1 |θ| θt = 1 := by
    unfold fresnelRp
    rw [hcos, mul_zero, zero_sub, zero_add, neg_div, div_self (mul_ne_zero hn1 hne)]; simp
  cases pol <;> simp only [calcR, rs, rp]
  norm_num

theorem smul_dot (k : ℝ) (a b : V3) : V3.dot (k • a) b = k * V3.dot a b := by unfold V3.dot; simp only [V3.smul_x, V3.smul_y, V3.smul_z]; ring

theorem dot_smul' (k : ℝ) (a b : V3) : V3.dot a (k • b) = k * V3.dot a b := by unfold V3.dot; simp only [V3.smul_x, V3.smul_y, V3.smul_z]; ring

theorem neg_dot (a b : V3) : V3.dot (-a) b = -V3.dot a b := by unfold V3.dot; simp only [V3.neg_x, V3.neg_y, V3.neg_z]; ring

/-- Equal angles with the normal. -/
theorem abs_localTheta_eq {N d e : V3} (hN : V3.dot N N = 1) (hd : V3.dot d d = 1) (he : V3.dot e e = 1) (h : V3.dot e N ^ 2 = V3.dot d N ^ 2) : |localTheta N e| = |localTheta N d| := by
  have h1 := sin_abs_localTheta hN hd
  have h2 := sin_abs_localTheta hN he
  rw [h, ← h1] at h2
  have hpi := Real.pi_pos
  exact Real.injOn_sin ⟨by linarith [abs_nonneg (localTheta N e)], localTheta_abs_le _ _⟩ ⟨by linarith [abs_nonneg (localTheta N d)], localTheta_abs_le _ _⟩ h2

theorem sin_eq_abs_localTheta {N e : V3} {θ' : ℝ} (hN : V3.dot N N = 1) (he : V3.dot e e = 1) (h0 : 0 ≤ θ') (h1 : θ' ≤ Real.pi / 2) (h : 1 - V3.dot e N ^ 2 = Real.sin θ' ^ 2) : |localTheta N e| = θ' := by
  have hpi := Real.pi_pos
  have h2 := sin_abs_localTheta hN he
  rw [h, Real.sqrt_sq (Real.sin_nonneg_of_nonneg_of_le_pi h0 (by linarith))] at h2
  exact Real.injOn_sin ⟨by linarith [abs_nonneg (localTheta N e)], localTheta_abs_le _ _⟩ ⟨by linarith, h1⟩ h2

theorem abs_localTheta_lt {N d : V3} (hN : V3.dot N N = 1) (hd : V3.dot d d = 1) (h : V3.dot d N ≠ 0) : |localTheta N d| < Real.pi / 2 := by
  refine lt_of_le_of_ne (localTheta_abs_le _ _) fun e => h ?_
  have := sin_localTheta hN hd
  rw [e, Real.sin_pi_div_two] at this
  have : V3.dot d N ^ 2 = 0 := by linarith
  exact pow_eq_zero_iff two_ne_zero |>.mp this

theorem neg_neg_V3 (a : V3) : -(-a) = a := by ext <;> simp

section
variable {asin : ℂ → ℂ} (hasin : ∀ z, IsArcsin z (asin z))

/-- One facet, media given as before and behind. -/
theorem reverse_core (hasin : ∀ z, IsArcsin z (asin z)) (n0 n1 : ℝ) (h0 : 0 < n0) (h1 : 0 < n1) (pol : Pol) (rnd : ℝ) (hr : rnd < 1) (d Nf N : V3) (side : ℤ) (hs : side = 1 ∨ side = -1) (hN : N = (side : ℝ) • Nf)
    (hNf : V3.norm Nf = 1) (hd : V3.norm d = 1) (hdN : V3.dot d N < 0) :
    let A := fun (a b : ℝ) (e : V3) => asin ((a : ℂ) / b * Complex.sin ((|localTheta Nf e| : ℝ) : ℂ))
    let o := decideFresnel n0 n1 (localTheta Nf d) (A n0 n1 d) d N side pol rnd
    V3.norm o.1 = 1 ∧
    ((o.2 = side ∧ V3.dot (-o.1) N < 0 ∧ decideFresnel n0 n1 (localTheta Nf (-o.1)) (A n0 n1 (-o.1)) (-o.1) N side pol rnd = (-d, side)) ∨
     (o.2 = -side ∧ V3.dot (-o.1) (-N) < 0 ∧ decideFresnel n1 n0 (localTheta Nf (-o.1)) (A n1 n0 (-o.1)) (-o.1) (-N) (-side) pol rnd = (-d, side))) := by
  intro A o
  have hd' := (norm_one_iff d).mp hd
  have hNf' := (norm_one_iff Nf).mp hNf
  have hss : (side : ℝ) ^ 2 = 1 := by rcases hs with rfl | rfl <;> norm_num
  have hN' : V3.dot N N = 1 := by rw [hN, smul_dot, dot_smul', ← mul_assoc, ← sq, hss, hNf', one_mul]
  have hsq : ∀ e, V3.dot e Nf ^ 2 = V3.dot e N ^ 2 := by intro e; rw [hN, dot_smul', mul_pow, hss, one_mul]
  have hpi := Real.pi_pos
  have hθ : |localTheta Nf d| < Real.pi / 2 := by
    refine abs_localTheta_lt hNf' hd' fun h => ?_
    have := hsq d
    rw [h] at this
    nlinarith
  have hθ0 := abs_nonneg (localTheta Nf d)
  by_cases hc : rnd ≤ decideR n0 n1 (localTheta Nf d) (A n0 n1 d) pol
  · -- reflection
    have hunit : V3.norm (reflectDir d N) = 1 := by rw [norm_one_iff, dot_reflect hN', hd']
    have ho : o = (reflectDir d N, side) := by simp only [o, decideFresnel, if_pos hc, normalise_unit hunit]
    have hn : V3.dot (reflectDir d N) N = -V3.dot d N := by
      have : V3.dot (reflectDir d N) N = V3.dot d N - 2 * V3.dot d N * V3.dot N N := by
        unfold reflectDir V3.dot; simp only [V3.sub_x, V3.sub_y, V3.sub_z, V3.smul_x, V3.smul_y, V3.smul_z]; ring
      rw [this, hN']; ring
    rw [ho]
    have hn' : V3.dot (-(reflectDir d N)) N = V3.dot d N := by rw [neg_dot, hn, neg_neg]
    have hunit' : V3.dot (-(reflectDir d N)) (-(reflectDir d N)) = 1 := by
      rw [neg_dot, dot_comm, neg_dot, neg_neg]; exact (norm_one_iff _).mp hunit
    have habs : |localTheta Nf (-(reflectDir d N))| = |localTheta Nf d| := by
      apply abs_localTheta_eq hNf' hd' hunit'
      rw [hsq, hsq, hn']
    have hR : decideR n0 n1 (localTheta Nf (-(reflectDir d N))) (A n0 n1 (-(reflectDir d N))) pol = decideR n0 n1 (localTheta Nf d) (A n0 n1 d) pol := by
      simp only [decideR, A, habs]
    refine ⟨hunit, Or.inl ⟨rfl, by simpa only [hn'] using hdN, ?_⟩⟩
    have hback : reflectDir (-(reflectDir d N)) N = -d := by
      unfold reflectDir at hn' ⊢
      rw [hn']
      ext <;> simp <;> ring
    simp only
    unfold decideFresnel
    rw [hR, if_pos hc, hback, normalise_unit]
    rw [norm_one_iff, neg_dot, dot_comm, neg_dot, neg_neg]; exact hd'
  · -- transmission
    rw [not_le] at hc
    have hA := hasin ((n0 : ℂ) / n1 * Complex.sin ((|localTheta Nf d| : ℝ) : ℂ))
    obtain ⟨hR1, hR2⟩ := C43_reflectance n0 n1 (localTheta Nf d) h0 h1 (localTheta_abs_le _ _) _ hA pol
    have hlt : n0 * Real.sin |localTheta Nf d| < n1 := by
      rcases lt_trichotomy (n0 * Real.sin |localTheta Nf d|) n1 with h | h | h
      · exact h
      · have := decideR_critical n0 n1 _ h0 h1 hθ _ hA pol h
        rw [this] at hc; linarith
      · rw [hR2 h] at hc; linarith
    have hsin0 : 0 ≤ Real.sin |localTheta Nf d| := Real.sin_nonneg_of_nonneg_of_le_pi hθ0 (by linarith)
    set x := n0 / n1 * Real.sin |localTheta Nf d| with hx
    have hx0 : 0 ≤ x := mul_nonneg (div_pos h0 h1).le hsin0
    have hx1 : x < 1 := by rw [hx, div_mul_eq_mul_div, div_lt_one h1]; exact hlt
    set θ' := Real.arcsin x with hθ'
    have hsθ' : Real.sin θ' = x := Real.sin_arcsin (by linarith) hx1.le
    have h0' : 0 ≤ θ' := Real.arcsin_nonneg.mpr hx0
    have h1' : θ' < Real.pi / 2 := Real.arcsin_lt_pi_div_two.mpr hx1
    have hsnell : n0 * Real.sin |localTheta Nf d| = n1 * Real.sin θ' := by rw [hsθ', hx]; field_simp
    have eR := hR1 θ' h0' h1' hsnell
    -- the refracted direction
    have hts := dot_trPar_self hN' hd' (n0 / n1)
    have hsin2 := sin_localTheta hNf' hd'
    rw [hsq] at hsin2
    have htx : V3.dot (trPar (n0 / n1) d N) (trPar (n0 / n1) d N) = x ^ 2 := by rw [hts, hx, mul_pow, hsin2]
    have hperp := dot_trPar_N (d := d) hN' (n0 / n1)
    have hnt : V3.norm (trPar (n0 / n1) d N) ^ 2 = x ^ 2 := by rw [norm_sq, htx]
    obtain ⟨g1, g2⟩ := dot_add_smul hN' hperp (-(Real.sqrt (1 - V3.norm (trPar (n0 / n1) d N) ^ 2)))
    rw [hnt] at g1 g2
    have hrt : 0 < 1 - x ^ 2 := by nlinarith
    have hunit : V3.norm (refractDir (n0 / n1) d N) = 1 := by
      rw [norm_one_iff]
      unfold refractDir
      rw [hnt, g1, htx, neg_sq, Real.sq_sqrt hrt.le]; ring
    have hre : ((n0 : ℂ)).re / ((n1 : ℂ)).re = n0 / n1 := by simp
    have hre' : ((n1 : ℂ)).re / ((n0 : ℂ)).re = n1 / n0 := by simp
    have ho : o = (refractDir (n0 / n1) d N, -side) := by simp only [o, decideFresnel, if_neg (not_le.mpr hc), hre, normalise_unit hunit]
    have hn : V3.dot (refractDir (n0 / n1) d N) N = -Real.sqrt (1 - x ^ 2) := by unfold refractDir; rw [hnt]; exact g2
    have hsp := Real.sqrt_pos.mpr hrt
    rw [ho]
    have hn' : V3.dot (-(refractDir (n0 / n1) d N)) N = Real.sqrt (1 - x ^ 2) := by rw [neg_dot, hn, neg_neg]
    have hnn : V3.dot (-(refractDir (n0 / n1) d N)) (-N) = -Real.sqrt (1 - x ^ 2) := by rw [dot_comm, neg_dot, dot_comm, hn']
    have hunit' : V3.dot (-(refractDir (n0 / n1) d N)) (-(refractDir (n0 / n1) d N)) = 1 := by
      rw [neg_dot, dot_comm, neg_dot, neg_neg]; exact (norm_one_iff _).mp hunit
    have habs : |localTheta Nf (-(refractDir (n0 / n1) d N))| = θ' := by
      apply sin_eq_abs_localTheta hNf' hunit' h0' h1'.le
      rw [hsq, hn', Real.sq_sqrt hrt.le, hsθ']; ring
    have hA' := hasin ((n1 : ℂ) / n0 * Complex.sin ((|localTheta Nf (-(refractDir (n0 / n1) d N))| : ℝ) : ℂ))
    obtain ⟨hR1', -⟩ := C43_reflectance n1 n0 (localTheta Nf (-(refractDir (n0 / n1) d N))) h1 h0 (localTheta_abs_le _ _) _ hA' pol
    have eR' := hR1' |localTheta Nf d| hθ0 hθ (by rw [habs]; exact hsnell.symm)
    have hR : decideR n1 n0 (localTheta Nf (-(refractDir (n0 / n1) d N))) (A n1 n0 (-(refractDir (n0 / n1) d N))) pol = decideR n0 n1 (localTheta Nf d) (A n0 n1 d) pol := by
      simp only [A]
      rw [eR, eR', habs, textbookR_swap]
    refine ⟨hunit, Or.inr ⟨rfl, by simp only [hnn]; linarith, ?_⟩⟩
    have hback : refractDir (n1 / n0) (-(refractDir (n0 / n1) d N)) (-N) = -d := by
      have htp : trPar (n1 / n0) (-(refractDir (n0 / n1) d N)) (-N) = -(d - V3.dot d N • N) := by
        unfold trPar
        rw [hnn]
        unfold refractDir trPar
        have hnt' : V3.norm ((n0 / n1) • (d - V3.dot d N • N)) ^ 2 = x ^ 2 := hnt
        rw [hnt']
        ext <;> simp <;> field_simp <;> ring
      unfold refractDir at htp ⊢
      rw [htp]
      have hlen : V3.norm (-(d - V3.dot d N • N)) ^ 2 = 1 - V3.dot d N ^ 2 := by
        rw [norm_sq]
        have := dot_trPar_self hN' hd' 1
        have e : trPar 1 d N = d - V3.dot d N • N := by ext <;> simp [trPar]
        rw [e] at this
        rw [neg_dot, dot_comm, neg_dot, neg_neg, this]; ring
      rw [hlen, sub_sub_cancel, Real.sqrt_sq_eq_abs, abs_of_neg hdN]
      ext <;> simp <;> ring
    simp only
    unfold decideFresnel
    rw [hR, if_neg (not_le.mpr hc), hre', hback, normalise_unit, neg_neg]
    rw [norm_one_iff, neg_dot, dot_comm, neg_dot, neg_neg]; exact hd'

end

/-! ## The property -/

/-- **C154, one facet.** Between transparent media, let a ray be reflected or refracted at a facet.  A ray sent back along the way it left, with the same random number, is reflected or refracted back into the
direction the first ray came from, on its side. -/
theorem C154_facet (asin : ℂ → ℂ) (hasin : ∀ z, IsArcsin z (asin z)) (nAbove nBelow : ℝ) (ha : 0 < nAbove) (hb : 0 < nBelow) (pol : Pol) (rnd : ℝ) (hr : rnd < 1)
    (d N : V3) (side : ℤ) (hs : side = 1 ∨ side = -1) (hd : V3.norm d = 1) (hm : Meets d side N) :
    let o := atFacet asin nAbove nBelow pol d side N rnd
    V3.norm o.1 = 1 ∧ (o.2 = 1 ∨ o.2 = -1) ∧ Meets (-o.1) o.2 N ∧ atFacet asin nAbove nBelow pol (-o.1) o.2 N rnd = (-d, side) := by
  intro o
  obtain ⟨hN, hm⟩ := hm
  rcases hs with rfl | rfl
  · have key := reverse_core hasin nAbove nBelow ha hb pol rnd hr d N (((1 : ℤ) : ℝ) • N) 1 (Or.inl rfl) rfl hN hd (by rw [dot_smul']; exact hm)
    simp only at key
    have ho : o = decideFresnel nAbove nBelow (localTheta N d) (asin ((nAbove : ℂ) / nBelow * Complex.sin ((|localTheta N d| : ℝ) : ℂ))) d (((1 : ℤ) : ℝ) • N) 1 pol rnd := by
      simp [o, atFacet, fresnelDec, refractionAngle]
    rw [← ho] at key
    obtain ⟨k1, ⟨k2, k3, k4⟩ | ⟨k2, k3, k4⟩⟩ := key
    · refine ⟨k1, Or.inl k2, ⟨hN, ?_⟩, ?_⟩
      · rw [k2]; rw [dot_smul'] at k3; exact k3
      · rw [k2, ← k4]; simp [atFacet, fresnelDec, refractionAngle]
    · refine ⟨k1, Or.inr k2, ⟨hN, ?_⟩, ?_⟩
      · rw [k2]
        have e : -(((1 : ℤ) : ℝ) • N) = ((-1 : ℤ) : ℝ) • N := by ext <;> simp
        rw [e, dot_smul'] at k3; exact k3
      · have e : -(((1 : ℤ) : ℝ) • N) = ((-1 : ℤ) : ℝ) • N := by ext <;> simp
        rw [e] at k4
        rw [k2, ← k4]; simp [atFacet, fresnelDec, refractionAngle]
  · have key := reverse_core hasin nBelow nAbove hb ha pol rnd hr d N (((-1 : ℤ) : ℝ) • N) (-1) (Or.inr rfl) rfl hN hd (by rw [dot_smul']; exact hm)
    simp only at key
    have ho : o = decideFresnel nBelow nAbove (localTheta N d) (asin ((nBelow : ℂ) / nAbove * Complex.sin ((|localTheta N d| : ℝ) : ℂ))) d (((-1 : ℤ) : ℝ) • N) (-1) pol rnd := by
      simp [o, atFacet, fresnelDec, refractionAngle]
    rw [← ho] at key
    have e : -(((-1 : ℤ) : ℝ) • N) = ((1 : ℤ) : ℝ) • N := by ext <;> simp
    obtain ⟨k1, ⟨k2, k3, k4⟩ | ⟨k2, k3, k4⟩⟩ := key
    · refine ⟨k1, Or.inr k2, ⟨hN, ?_⟩, ?_⟩
      · rw [k2]; rw [dot_smul'] at k3; exact k3
      · rw [k2, ← k4]; simp [atFacet, fresnelDec, refractionAngle]
    · rw [neg_neg] at k2 k4
      refine ⟨k1, Or.inl k2, ⟨hN, ?_⟩, ?_⟩
      · rw [k2]
        rw [e, dot_smul'] at k3; exact k3
      · rw [e] at k4
        rw [k2, ← k4]; simp [atFacet, fresnelDec, refractionAngle]

theorem lightPath_snoc {asin : ℂ → ℂ} {a b : ℝ} {pol : Pol} {p q : V3 × ℤ} {L : List (V3 × ℝ)} (h : LightPath asin a b pol p L q) {N : V3} {rnd : ℝ} (hm : Meets q.1 q.2 N) :
    LightPath asin a b pol p (L ++ [(N, rnd)]) (atFacet asin a b pol q.1 q.2 N rnd) := by
  induction h with
  | nil p => exact .cons hm (.nil _)
  | cons h _ ih => exact .cons h (ih hm)

/-- **C154, paths.** The same for any number of facets: the path run backwards, with the same random numbers in reverse order, ends where the first one began.  So each path and its reverse have the same probability. -/
theorem C154_path (asin : ℂ → ℂ) (hasin : ∀ z, IsArcsin z (asin z)) (nAbove nBelow : ℝ) (ha : 0 < nAbove) (hb : 0 < nBelow) (pol : Pol)
    {L : List (V3 × ℝ)} (hr : ∀ e ∈ L, e.2 < 1) {p q : V3 × ℤ} (hs : p.2 = 1 ∨ p.2 = -1) (hd : V3.norm p.1 = 1) (h : LightPath asin nAbove nBelow pol p L q) :
    LightPath asin nAbove nBelow pol (-q.1, q.2) L.reverse (-p.1, p.2) := by
  induction h with
  | nil p => exact .nil _
  | @cons d side N rnd L q hm _ ih =>
    obtain ⟨k1, k2, k3, k4⟩ := C154_facet asin hasin nAbove nBelow ha hb pol rnd (hr _ List.mem_cons_self) d N side hs hd hm
    have := ih (fun e he => hr e (List.mem_cons_of_mem _ he)) k2 k1
    rw [List.reverse_cons]
    have h2 := lightPath_snoc this (rnd := rnd) k3
    rw [k4] at h2
    exact h2

/-- Snell-related angles have the same transmittance. -/
theorem transmittance_snell {asin : ℂ → ℂ} (hasin : ∀ z, IsArcsin z (asin z)) {n0 n1 : ℝ} (h0 : 0 < n0) (h1 : 0 < n1) (pol : Pol) {θ θ' : ℝ} (ha : 0 ≤ θ) (ha' : θ < Real.pi / 2) (hb : 0 ≤ θ') (hb' : θ' < Real.pi / 2)
    (h : n0 * Real.sin θ = n1 * Real.sin θ') : transmittance asin n0 n1 pol θ = transmittance asin n1 n0 pol θ' := by
  unfold transmittance
  rw [(C43_reflectance n0 n1 θ h0 h1 (by rw [abs_of_nonneg ha]; exact ha'.le) _ (hasin _) pol).1 θ' hb hb' (by rw [abs_of_nonneg ha]; exact h),
    (C43_reflectance n1 n0 θ' h1 h0 (by rw [abs_of_nonneg hb]; exact hb'.le) _ (hasin _) pol).1 θ ha ha' (by rw [abs_of_nonneg hb]; exact h.symm), abs_of_nonneg ha, abs_of_nonneg hb, textbookR_swap]

theorem hemisphere_core {asin : ℂ → ℂ} (hasin : ∀ z, IsArcsin z (asin z)) {n0 n1 : ℝ} (h0 : 0 < n0) (hle : n0 ≤ n1) (pol : Pol) :
    n0 ^ 2 * ∫ θ in (0)..(Real.pi / 2), transmittance asin n0 n1 pol θ * (2 * Real.sin θ * Real.cos θ) =
      n1 ^ 2 * ∫ θ in (0)..(Real.pi / 2), transmittance asin n1 n0 pol θ * (2 * Real.sin θ * Real.cos θ) := by
  have h1 : 0 < n1 := h0.trans_le hle
  have hpi := Real.pi_pos
  have hq0 : 0 < n0 / n1 := div_pos h0 h1
  have hq1 : n0 / n1 ≤ 1 := (div_le_one h1).mpr hle
  set f : ℝ → ℝ := fun θ => Real.arcsin (n0 / n1 * Real.sin θ) with hf
  set f' : ℝ → ℝ := fun θ => 1 / Real.sqrt (1 - (n0 / n1 * Real.sin θ) ^ 2) * (n0 / n1 * Real.cos θ) with hf'
  have hin : ∀ θ ∈ Set.Ioo 0 (Real.pi / 2), 0 < Real.sin θ ∧ Real.sin θ < 1 ∧ 0 < Real.cos θ := by
    intro θ ⟨a, b⟩
    refine ⟨Real.sin_pos_of_pos_of_lt_pi a (by linarith), ?_, Real.cos_pos_of_mem_Ioo ⟨by linarith, b⟩⟩
    have := Real.sin_lt_sin_of_lt_of_le_pi_div_two (by linarith) le_rfl b
    rwa [Real.sin_pi_div_two] at this
  have hx : ∀ θ ∈ Set.Ioo 0 (Real.pi / 2), 0 < n0 / n1 * Real.sin θ ∧ n0 / n1 * Real.sin θ < n0 / n1 := by
    intro θ hθ
    obtain ⟨a, b, -⟩ := hin θ hθ
    exact ⟨mul_pos hq0 a, by nlinarith⟩
  have hderiv : ∀ θ ∈ Set.Ioo 0 (Real.pi / 2), HasDerivWithinAt f (f' θ) (Set.Ioo 0 (Real.pi / 2)) θ := by
    intro θ hθ
    obtain ⟨a, b⟩ := hx θ hθ
    have hs : HasDerivAt (fun θ => n0 / n1 * Real.sin θ) (n0 / n1 * Real.cos θ) θ := (Real.hasDerivAt_sin θ).const_mul _
    exact ((Real.hasDerivAt_arcsin (by linarith) (by linarith)).comp θ hs).hasDerivWithinAt
  have hinj : Set.InjOn f (Set.Ioo 0 (Real.pi / 2)) := by
    intro a ha b hb hab
    obtain ⟨a1, a2⟩ := hx a ha
    obtain ⟨b1, b2⟩ := hx b hb
    have h2 := Real.injOn_arcsin ⟨by linarith, by linarith⟩ ⟨by linarith, by linarith⟩ hab
    have h3 : Real.sin a = Real.sin b := by
      have := hq0.ne'
      exact mul_left_cancel₀ this h2
    exact Real.injOn_sin ⟨by linarith [ha.1], ha.2.le⟩ ⟨by linarith [hb.1], hb.2.le⟩ h3
  set θc := Real.arcsin (n0 / n1) with hθc
  have himg : f '' Set.Ioo 0 (Real.pi / 2) = Set.Ioo 0 θc := by
    ext y
    constructor
    · rintro ⟨θ, hθ, rfl⟩
      obtain ⟨a, b⟩ := hx θ hθ
      exact ⟨Real.arcsin_pos.mpr a, Real.strictMonoOn_arcsin ⟨by linarith, by linarith⟩ ⟨by linarith, hq1⟩ b⟩
    · rintro ⟨hy0, hy1⟩
      have hyc : y < Real.pi / 2 := hy1.trans_le (Real.arcsin_le_pi_div_two _)
      have hs0 : 0 < Real.sin y := Real.sin_pos_of_pos_of_lt_pi hy0 (by linarith)
      have hs1 : Real.sin y < n0 / n1 := by
        have := Real.sin_lt_sin_of_lt_of_le_pi_div_two (by linarith) (Real.arcsin_le_pi_div_two _) hy1
        rwa [Real.sin_arcsin (by linarith) hq1] at this
      have hz0 : 0 < Real.sin y / (n0 / n1) := div_pos hs0 hq0
      have hz1 : Real.sin y / (n0 / n1) < 1 := (div_lt_one hq0).mpr hs1
      refine ⟨Real.arcsin (Real.sin y / (n0 / n1)), ⟨Real.arcsin_pos.mpr hz0, Real.arcsin_lt_pi_div_two.mpr hz1⟩, ?_⟩
      simp only [hf]
      rw [Real.sin_arcsin (by linarith) hz1.le, mul_div_cancel₀ _ hq0.ne', Real.arcsin_sin (by linarith) hyc.le]
  have hsub := MeasureTheory.integral_image_eq_integral_abs_deriv_smul measurableSet_Ioo hderiv hinj
    (fun θ => transmittance asin n1 n0 pol θ * (2 * Real.sin θ * Real.cos θ))
  rw [himg] at hsub
  have hpoint : ∀ θ ∈ Set.Ioo 0 (Real.pi / 2), |f' θ| • (transmittance asin n1 n0 pol (f θ) * (2 * Real.sin (f θ) * Real.cos (f θ))) =
      (n0 / n1) ^ 2 * (transmittance asin n0 n1 pol θ * (2 * Real.sin θ * Real.cos θ)) := by
    intro θ hθ
    obtain ⟨s0, s1, c0⟩ := hin θ hθ
    obtain ⟨a, b⟩ := hx θ hθ
    have hsin : Real.sin (f θ) = n0 / n1 * Real.sin θ := Real.sin_arcsin (by linarith) (by linarith)
    have hcos : Real.cos (f θ) = Real.sqrt (1 - (n0 / n1 * Real.sin θ) ^ 2) := Real.cos_arcsin _
    have hsq : 0 < Real.sqrt (1 - (n0 / n1 * Real.sin θ) ^ 2) := Real.sqrt_pos.mpr (by nlinarith)
    have ht : transmittance asin n0 n1 pol θ = transmittance asin n1 n0 pol (f θ) := by
      refine transmittance_snell hasin h0 h1 pol hθ.1.le hθ.2 (Real.arcsin_pos.mpr a).le (Real.arcsin_lt_pi_div_two.mpr (by linarith)) ?_
      rw [hsin]; field_simp
    have hpos : 0 < f' θ := mul_pos (one_div_pos.mpr hsq) (mul_pos hq0 c0)
    rw [abs_of_pos hpos, ht, hsin, hcos, smul_eq_mul]
    simp only [hf']
    generalize Real.sqrt (1 - (n0 / n1 * Real.sin θ) ^ 2) = q at hsq
    field_simp
  have hcut : ∫ θ in (0)..(Real.pi / 2), transmittance asin n1 n0 pol θ * (2 * Real.sin θ * Real.cos θ) =
      ∫ θ in Set.Ioo 0 θc, transmittance asin n1 n0 pol θ * (2 * Real.sin θ * Real.cos θ) := by
    have hθc0 : 0 ≤ θc := Real.arcsin_nonneg.mpr hq0.le
    have hθc1 : θc ≤ Real.pi / 2 := Real.arcsin_le_pi_div_two _
    rw [intervalIntegral.integral_of_le (by linarith), ← MeasureTheory.integral_Ioc_eq_integral_Ioo]
    apply MeasureTheory.setIntegral_eq_of_subset_of_forall_sdiff_eq_zero measurableSet_Ioc
    · exact Set.Ioc_subset_Ioc_right hθc1
    · rintro θ ⟨⟨a, b⟩, hn⟩
      have hgt : θc < θ := by
        by_contra h
        exact hn ⟨a, not_lt.mp h⟩
      have hs : n0 / n1 < Real.sin θ := by
        have := Real.sin_lt_sin_of_lt_of_le_pi_div_two (by linarith) b hgt
        rwa [Real.sin_arcsin (by linarith) hq1] at this
      have h2 := (C43_reflectance n1 n0 θ h1 h0 (by rw [abs_of_pos a]; exact b) _ (hasin _) pol).2 (by
        rw [abs_of_pos a]; rw [div_lt_iff₀ h1] at hs; linarith)
      unfold transmittance
      rw [h2]; ring
  rw [hcut, hsub, MeasureTheory.setIntegral_congr_fun measurableSet_Ioo hpoint, MeasureTheory.integral_const_mul, intervalIntegral.integral_of_le (by linarith), MeasureTheory.integral_Ioc_eq_integral_Ioo]
  field_simp

/-- **C154, diffuse light.** Of Lambertian light that falls on a facet from the medium of index `n0`, the fraction transmitted, times `n0²`, equals the fraction transmitted of Lambertian light from the other side, times `n1²`, including total internal reflection. -/
theorem C154_diffuse (asin : ℂ → ℂ) (hasin : ∀ z, IsArcsin z (asin z)) (n0 n1 : ℝ) (h0 : 0 < n0) (h1 : 0 < n1) (pol : Pol) :
    n0 ^ 2 * ∫ θ in (0)..(Real.pi / 2), transmittance asin n0 n1 pol θ * (2 * Real.sin θ * Real.cos θ) =
      n1 ^ 2 * ∫ θ in (0)..(Real.pi / 2), transmittance asin n1 n0 pol θ * (2 * Real.sin θ * Real.cos θ) := by
  rcases le_total n0 n1 with h | h
  · exact hemisphere_core hasin h0 h pol
  · exact (hemisphere_core hasin h1 h pol).symm

/-- Such functions and paths exist: a vertical ray through a horizontal surface from air into glass, and back. -/
example : ∃ asin : ℂ → ℂ, (∀ z, IsArcsin z (asin z)) ∧
    LightPath asin 1 (3 / 2) .u (⟨0, 0, -1⟩, 1) [(⟨0, 0, 1⟩, 1 / 2)] (⟨0, 0, -1⟩, -1) ∧ LightPath asin 1 (3 / 2) .u (⟨0, 0, 1⟩, -1) [(⟨0, 0, 1⟩, 1 / 2)] (⟨0, 0, 1⟩, 1) := by
  choose asin hasin using exists_isArcsin
  have hu : V3.norm ⟨0, 0, -1⟩ = 1 := by rw [norm_one_iff]; simp [V3.dot]
  have hu' : V3.norm ⟨0, 0, 1⟩ = 1 := by rw [norm_one_iff]; simp [V3.dot]
  have hm : Meets ⟨0, 0, -1⟩ 1 ⟨0, 0, 1⟩ := ⟨hu', by simp [V3.dot]⟩
  have hθ : localTheta ⟨0, 0, 1⟩ ⟨0, 0, -1⟩ = 0 := by
    unfold localTheta
    rw [if_neg (by simp [V3.dot])]
    have : V3.norm (V3.cross ⟨0, 0, 1⟩ (-⟨0, 0, -1⟩)) = 0 := by simp [V3.cross, V3.norm, V3.dot]
    rw [this]; simp
  have hR : decideR (1 : ℝ) ((3 / 2 : ℝ) : ℂ) 0 (asin (((1 : ℝ) : ℂ) / ((3 / 2 : ℝ) : ℂ) * Complex.sin ((|(0 : ℝ)| : ℝ) : ℂ))) .u = 1 / 25 := by
    rw [(C43_reflectance 1 (3 / 2) 0 one_pos (by norm_num) (by rw [abs_zero]; linarith [Real.pi_pos]) _ (hasin _) .u).1 0 le_rfl (by linarith [Real.pi_pos]) (by simp)]
    simp only [textbookR, abs_zero, Real.cos_zero]
    norm_num
  have hstep : atFacet asin 1 (3 / 2) .u ⟨0, 0, -1⟩ 1 ⟨0, 0, 1⟩ (1 / 2) = (⟨0, 0, -1⟩, -1) := by
    unfold atFacet fresnelDec refractionAngle
    simp only [if_true, hθ]
    unfold decideFresnel
    rw [hR, if_neg (by norm_num)]
    have e : refractDir (((1 : ℝ) : ℂ).re / ((3 / 2 : ℝ) : ℂ).re) ⟨0, 0, -1⟩ (((1 : ℤ) : ℝ) • ⟨0, 0, 1⟩) = ⟨0, 0, -1⟩ := by
      unfold refractDir
      have h0 : trPar (((1 : ℝ) : ℂ).re / ((3 / 2 : ℝ) : ℂ).re) ⟨0, 0, -1⟩ (((1 : ℤ) : ℝ) • ⟨0, 0, 1⟩) = ⟨0, 0, 0⟩ := by
        unfold trPar; ext <;> simp [V3.dot]
      rw [h0]
      ext <;> simp [V3.norm, V3.dot]
    rw [e, normalise_unit hu]
  have p : LightPath asin 1 (3 / 2) .u (⟨0, 0, -1⟩, 1) [(⟨0, 0, 1⟩, 1 / 2)] (⟨0, 0, -1⟩, -1) := by
    refine .cons hm ?_
    rw [hstep]
    exact .nil _
  refine ⟨asin, hasin, p, ?_⟩
  have hrev := C154_path asin hasin 1 (3 / 2) one_pos (by norm_num) .u (by intro e he; simp only [List.mem_singleton] at he; rw [he]; norm_num) (Or.inl rfl) hu p
  have e1 : (-⟨0, 0, -1⟩ : V3) = ⟨0, 0, 1⟩ := by ext <;> simp
  simpa [e1] using hrev

end Rayflare
