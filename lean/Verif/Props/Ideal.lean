import Verif.Lemmas.Ideal

/-!
# Properties C23-C25, C69: ideal reflectors
-/

namespace Rayflare

open Real Rayflare.Np Rayflare.Model Rayflare.Spec Rayflare.Lemmas

/-- Row `b` is the specular reflection of row `a` (same polar angle, opposite azimuth modulo `s`). -/
def Specular (g : Grid) (s : ℝ) (a b : ℕ) : Prop :=
  ∃ rowa rowb, g.angleVector[a]? = some rowa ∧ g.angleVector[b]? = some rowb ∧
    rowb.theta = rowa.theta ∧ ∃ z : ℤ, rowb.phi = rowa.phi + π + z * s

/-! ## C23 -/

/-- **C23.** The stored column has `2h` entries; the reflection half is non-negative and sums to
exactly 1; bin `(i,k)` receives `cos θ_i · Δθ_i / N_i / W` with `W` the sum of the `cos θ_i · Δθ_i`;
the transmission half is zero. (`Model.lambertStored` is each of the `h` columns.) -/
theorem C23_lambertian (n : ℕ) (hn : 0 < n) (s c : ℝ) (hc : 0 < c) (sp : Spacing) :
    let g := makeAngleVector n s c sp
    let h := g.angleVector.length / 2
    let v := lambertStored g
    let share := fun i => Real.cos ((polarEdge n sp i + polarEdge n sp (i + 1)) / 2)
      * (polarEdge n sp (i + 1) - polarEdge n sp i)
    v.length = 2 * h ∧ (v.take h).sum = 1 ∧ (∀ x ∈ v, 0 ≤ x) ∧
    (∀ i < n, ∀ k < ringSize n c i, v[ringStart n c i + k]?
      = some (share i / ringSize n c i / ∑ j ∈ Finset.range n, share j)) ∧
    (∀ r < h, v[h + r]? = some 0) := by
  intro g h v share
  have hh : h = ringStart n c n := half_eq n hn s c sp
  have hshare : share = lamW n sp := rfl
  have hlen : (lambertColumn g).length = h := by rw [hh]; exact lambertColumn_length n hn s c hc sp
  have hsum : (lambertColumn g).sum = ∑ j ∈ Finset.range n, lamW n sp j :=
    lambertColumn_sum n hn s c hc sp
  have hW : 0 < ∑ j ∈ Finset.range n, lamW n sp j := by
    apply Finset.sum_pos
    · intro i hi; exact lamW_pos n hn sp (Finset.mem_range.mp hi)
    · exact ⟨0, Finset.mem_range.mpr hn⟩
  set R := (lambertColumn g).map (fun x => x / (lambertColumn g).sum) with hR
  have hRlen : R.length = h := by rw [hR, List.length_map, hlen]
  have hv : v = R ++ R.map (fun _ => 0) := rfl
  refine ⟨?_, ?_, ?_, ?_, ?_⟩
  · have : (R.map (fun _ => (0 : ℝ))).length = R.length := List.length_map _
    rw [hv, List.length_append, this, hRlen]; ring
  · rw [hv, List.take_append_of_le_length hRlen.ge, ← hRlen, List.take_length, hR]
    have : ∀ (l : List ℝ) (a : ℝ), (l.map (fun x => x / a)).sum = l.sum / a := by
      intro l a
      induction l with
      | nil => simp
      | cons x l ih => simp [ih, add_div]
    rw [this, hsum, div_self hW.ne']
  · intro x hx
    rw [hv, List.mem_append] at hx
    rcases hx with hx | hx
    · rw [hR] at hx
      obtain ⟨y, hy, rfl⟩ := List.mem_map.mp hx
      rw [hsum]
      apply div_nonneg _ hW.le
      have e : lambertColumn g = _ := lambertColumn_eq n hn s c hc sp
      rw [e, List.mem_flatMap] at hy
      obtain ⟨i, hi, hy⟩ := hy
      rw [List.eq_of_mem_replicate hy]
      exact div_nonneg (lamW_pos n hn sp (List.mem_range.mp hi)).le (Nat.cast_nonneg _)
    · obtain ⟨_, _, rfl⟩ := List.mem_map.mp hx
      exact le_rfl
  · intro i hi k hk
    have hlt := bin_lt_half n c hi hk
    rw [hv, List.getElem?_append_left (by rw [hRlen, hh]; exact hlt), hR, List.getElem?_map,
      show (lambertColumn g)[ringStart n c i + k]? = _ from lambertColumn_get n hn s c hc sp hi hk,
      hsum, hshare]
    rfl
  · intro r hr
    rw [hv, List.getElem?_append_right (by rw [hRlen]; omega), hRlen, show h + r - h = r by omega,
      List.getElem?_map, List.getElem?_eq_getElem (by rw [hRlen]; exact hr)]
    rfl

example : ((lambertStored (makeAngleVector 50 (π / 2) (1 / 4) .sin)).take
    ((makeAngleVector 50 (π / 2) (1 / 4) .sin).angleVector.length / 2)).sum = 1 :=
  (C23_lambertian 50 (by norm_num) (π / 2) (1 / 4) (by norm_num) .sin).2.1

/-! ## C69 -/

/-- Total of a column over the bins of ring `i`. -/
noncomputable def ringTotal (n : ℕ) (c : ℝ) (v : List ℝ) (i : ℕ) : ℝ :=
  ∑ k ∈ Finset.range (ringSize n c i), v.getD (ringStart n c i + k) 0

/-- Fraction of the light of an ideal diffuse (Lambertian, radiance independent of direction) reflector leaving
between the polar angles `a` and `b`: `∫ 2 cos θ sin θ dθ = sin² b - sin² a`. -/
noncomputable def lambertFraction (a b : ℝ) : ℝ := Real.sin b ^ 2 - Real.sin a ^ 2

theorem ringTotal_lambert (n : ℕ) (hn : 0 < n) (s c : ℝ) (hc : 0 < c) (sp : Spacing) {i : ℕ}
    (hi : i < n) : ringTotal n c (lambertStored (makeAngleVector n s c sp)) i
      = lamW n sp i / ∑ j ∈ Finset.range n, lamW n sp j := by
  unfold ringTotal
  have hN := ringSize_pos n c hc (show i < 2 * n by omega)
  have hN' : (ringSize n c i : ℝ) ≠ 0 := by positivity
  have h := (C23_lambertian n hn s c hc sp).2.2.2.1 i hi
  rw [Finset.sum_congr rfl (g := fun _ => lamW n sp i / ringSize n c i / ∑ j ∈ Finset.range n, lamW n sp j)]
  · rw [Finset.sum_const, Finset.card_range, nsmul_eq_mul]; field_simp
  · intro k hk
    rw [List.getD_eq_getElem?_getD, h k (Finset.mem_range.mp hk)]
    rfl

/-- **C69 (partial).** The distribution is right for a one-ring grid. -/
theorem C69_lambert_law_partial (s c : ℝ) (hc : 0 < c) (sp : Spacing) :
    ringTotal 1 c (lambertStored (makeAngleVector 1 s c sp)) 0
      = lambertFraction (polarEdge 1 sp 0) (polarEdge 1 sp 1) := by
  rw [ringTotal_lambert 1 (by norm_num) s c hc sp (by norm_num), Finset.sum_range_one,
    div_self (lamW_pos 1 (by norm_num) sp (by norm_num)).ne', polarEdge_zero,
    polarEdge_half 1 (by norm_num)]
  simp [lambertFraction]

/-- **C69 fails** for every grid with two or more polar rings: the weight `cos θ Δθ` lacks the solid-angle
factor `sin θ`, so the shares of the first two rings cannot both be Lambert's. -/
theorem C69_fails (n : ℕ) (hn : 2 ≤ n) (s c : ℝ) (hc : 0 < c) (sp : Spacing) :
    ¬ ∀ i < n, ringTotal n c (lambertStored (makeAngleVector n s c sp)) i
      = lambertFraction (polarEdge n sp i) (polarEdge n sp (i + 1)) := by
  intro h
  have hn0 : 0 < n := by omega
  have h0 := h 0 (by omega)
  have h1 := h 1 (by omega)
  rw [ringTotal_lambert n hn0 s c hc sp (by omega)] at h0 h1
  have hW : 0 < ∑ j ∈ Finset.range n, lamW n sp j := by
    apply Finset.sum_pos
    · intro i hi; exact lamW_pos n hn0 sp (Finset.mem_range.mp hi)
    · exact ⟨0, Finset.mem_range.mpr hn0⟩
  rw [div_eq_iff hW.ne'] at h0 h1
  have p0 := lamW_pos n hn0 sp (show 0 < n by omega)
  have p1 := lamW_pos n hn0 sp (show 1 < n by omega)
  have hn' : (2 : ℝ) ≤ n := by exact_mod_cast hn
  have hpi := pi_pos
  have hpi4 := Real.pi_le_four
  -- it is enough to compare ring 1 with ring 0
  cases sp with
  | linear =>
    set d := π / (2 * n) with hd
    have hd0 : 0 < d := by positivity
    have hd1 : d ≤ π / 4 := by
      rw [hd]; apply div_le_div_of_nonneg_left hpi.le (by norm_num) (by linarith)
    have e0 : polarEdge n .linear 0 = 0 := polarEdge_zero n _
    have e1 : polarEdge n .linear 1 = d := by simp [polarEdge, hd]
    have e2 : polarEdge n .linear 2 = 2 * d := by simp [polarEdge, hd]; ring
    simp only [lambertFraction, zero_add, e0, e1, e2, Real.sin_zero, show (1 : ℕ) + 1 = 2 from rfl] at h0 h1
    have hw : lamW n .linear 1 < lamW n .linear 0 := by
      unfold lamW polarMid
      simp only [zero_add, e0, e1, e2, show (1 : ℕ) + 1 = 2 from rfl]
      have hc : Real.cos ((d + 2 * d) / 2) < Real.cos ((0 + d) / 2) := by
        apply Real.cos_lt_cos_of_nonneg_of_le_pi_div_two <;> linarith
      rw [zero_add] at hc
      have := mul_lt_mul_of_pos_right hc hd0
      linarith
    have hs2 : Real.sin (2 * d) ^ 2 = 4 * Real.sin d ^ 2 * Real.cos d ^ 2 := by
      rw [Real.sin_two_mul]; ring
    have hcos : 1 / 2 ≤ Real.cos d ^ 2 := by
      have : Real.cos (π / 4) ≤ Real.cos d := Real.cos_le_cos_of_nonneg_of_le_pi hd0.le (by linarith) hd1
      have h4 : Real.cos (π / 4) ^ 2 = 1 / 2 := by
        rw [Real.cos_pi_div_four, div_pow, Real.sq_sqrt (by norm_num)]; norm_num
      have : 0 ≤ Real.cos (π / 4) := by rw [Real.cos_pi_div_four]; positivity
      nlinarith
    have hfrac : Real.sin d ^ 2 ≤ Real.sin (2 * d) ^ 2 - Real.sin d ^ 2 := by
      rw [hs2]; nlinarith [sq_nonneg (Real.sin d)]
    have : lamW n .linear 0 ≤ lamW n .linear 1 := by
      rw [h0, h1]
      apply mul_le_mul_of_nonneg_right _ hW.le
      simpa using hfrac
    linarith
  | sin =>
    have e0 : polarEdge n .sin 0 = 0 := polarEdge_zero n _
    have e1 : polarEdge n .sin 1 = arcsin (1 / n) := by
      simp only [polarEdge, show (1 : ℕ) ≤ n by omega, if_true]; push_cast; rfl
    have e2 : polarEdge n .sin 2 = arcsin (2 / n) := by
      simp only [polarEdge, hn, if_true]; push_cast; rfl
    have hinv : (0 : ℝ) < 1 / n := by positivity
    have h2n : (2 : ℝ) / n ≤ 1 := by rw [div_le_one (by linarith)]; exact hn'
    have s1 : Real.sin (arcsin (1 / n)) = 1 / n := Real.sin_arcsin (by linarith)
      (by rw [div_le_one (by linarith)]; linarith)
    have s2 : Real.sin (arcsin (2 / n)) = 2 / n := Real.sin_arcsin (by
      have : (0 : ℝ) < 2 / n := by positivity
      linarith) h2n
    simp only [lambertFraction, zero_add, e0, e1, e2, Real.sin_zero, show (1 : ℕ) + 1 = 2 from rfl, s1, s2] at h0 h1
    have hratio : lamW n .sin 1 = 3 * lamW n .sin 0 := by
      rw [h0, h1]; field_simp; ring
    -- cos(mid) * Δ with sin b - sin a = 2 cos(mid) sin(Δ/2)
    have key : ∀ a b : ℝ, a < b → b - a ≤ π / 2 → Real.cos ((a + b) / 2) * (b - a) * Real.sin ((b - a) / 2)
        = (Real.sin b - Real.sin a) * ((b - a) / 2) := by
      intro a b _ _
      rw [Real.sin_sub_sin, show (b + a) / 2 = (a + b) / 2 by ring]; ring
    set a := arcsin (1 / (n : ℝ)) with ha
    set b := arcsin (2 / (n : ℝ)) with hb
    have ha0 : 0 < a := Real.arcsin_pos.mpr hinv
    have hab : a < b := by
      have := polarEdge_strictMono n hn0 .sin 1 2 (by norm_num) (by omega)
      rwa [e1, e2] at this
    have hb1 : b ≤ π / 2 := Real.arcsin_le_pi_div_two _
    have w0 : lamW n .sin 0 = Real.cos ((0 + a) / 2) * (a - 0) := by
      unfold lamW polarMid; simp only [zero_add, e0, e1]
    have w1 : lamW n .sin 1 = Real.cos ((a + b) / 2) * (b - a) := by
      unfold lamW polarMid; simp only [e1, e2, show (1 : ℕ) + 1 = 2 from rfl]
    have k0 := key 0 a ha0 (by linarith)
    have k1 := key a b hab (by linarith)
    rw [← w0, s1, Real.sin_zero] at k0
    rw [← w1, s1, s2] at k1
    -- bounds on sin
    have x0 : Real.sin ((a - 0) / 2) ≤ (a - 0) / 2 := Real.sin_le (by linarith)
    have x1 : 2 / π * ((b - a) / 2) ≤ Real.sin ((b - a) / 2) :=
      Real.mul_le_sin (by linarith) (by linarith)
    have y0 : 0 < Real.sin ((a - 0) / 2) := Real.sin_pos_of_pos_of_lt_pi (by linarith) (by linarith)
    -- lamW 0 ≥ 1/n, lamW 1 ≤ (1/n) * π/2 < 2/n
    have b0 : 1 / (n : ℝ) ≤ lamW n .sin 0 := by
      by_contra hcon
      have hcon' := not_le.mp hcon
      have : lamW n .sin 0 * Real.sin ((a - 0) / 2) < 1 / (n : ℝ) * ((a - 0) / 2) := by
        calc lamW n .sin 0 * Real.sin ((a - 0) / 2) < 1 / (n : ℝ) * Real.sin ((a - 0) / 2) :=
              mul_lt_mul_of_pos_right hcon' y0
          _ ≤ _ := mul_le_mul_of_nonneg_left x0 hinv.le
      linarith
    have b1 : lamW n .sin 1 ≤ 2 * (1 / (n : ℝ)) := by
      have hlt : lamW n .sin 1 * (2 / π * ((b - a) / 2)) ≤ (2 / n - 1 / n) * ((b - a) / 2) := by
        rw [← k1]; exact mul_le_mul_of_nonneg_left x1 p1.le
      have hba : 0 < (b - a) / 2 := by linarith
      have : lamW n .sin 1 * (2 / π) ≤ 2 / n - 1 / n := by
        rw [← mul_assoc] at hlt
        exact le_of_mul_le_mul_right hlt hba
      have h2 : lamW n .sin 1 * (2 / π) = lamW n .sin 1 * 2 / π := by ring
      rw [h2, div_le_iff₀ hpi] at this
      have h3 : (2 : ℝ) / n - 1 / n = 1 / n := by ring
      rw [h3] at this
      nlinarith
    linarith

example : ¬ ∀ i < 50, ringTotal 50 (1 / 4) (lambertStored (makeAngleVector 50 (π / 2) (1 / 4) .sin)) i
      = lambertFraction (polarEdge 50 .sin i) (polarEdge 50 .sin (i + 1)) :=
  C69_fails 50 (by norm_num) _ _ (by norm_num) _

/-! ## C24, C25 -/

/-- **C24.** For an even number of sectors the mirror's column `j` is the unit vector at row `j`
(front incidence) or `h + j` (rear incidence), which is the specular direction, in the hemisphere of the incident light. -/
theorem C24_mirror (n : ℕ) (hn : 0 < n) (q : ℕ) (hq : 0 < q) (c : ℝ) (hc : 0 < c) (sp : Spacing) :
    let s := 2 * π / ((2 * q : ℕ) : ℝ)
    let g := makeAngleVector n s c sp
    let h := g.angleVector.length / 2
    ∀ j < h, UnitColumn (2 * h) (mirrorMatrix g s true) j j ∧ Specular g s j j ∧
      UnitColumn (2 * h) (mirrorMatrix g s false) j (h + j) ∧ Specular g s (h + j) (h + j) := by
  intro s g h j hj
  have hh : h = ringStart n c n := half_eq n hn s c sp
  have h2 := ringStart_half n c
  have key : ∀ (front : Bool) (i k : ℕ), i < 2 * n → k < ringSize n c i →
      (if front then j else ringStart n c n + j) = ringStart n c i + k →
      UnitColumn (2 * h) (mirrorMatrix g s front) j (ringStart n c i + k) ∧
        Specular g s (ringStart n c i + k) (ringStart n c i + k) := by
    intro front i k hi hk e
    obtain ⟨k', hk', hb, hev, z, hz⟩ := mirrorBin_centre n hn (2 * q) (by omega) c hc sp front j hi hk
      (Or.inl (by simp)) e
    have := hev (by simp)
    subst this
    refine ⟨⟨?_, ?_⟩, ?_⟩
    · have := bin_lt_len n c hi hk'; rw [hh]; omega
    · intro r' _
      unfold mirrorMatrix
      rw [show mirrorBin g s front j = _ from hb]
      simp only [Option.some.injEq]
      by_cases e : r' = ringStart n c i + k'
      · rw [if_pos e, if_pos e.symm]
      · rw [if_neg e, if_neg (fun x => e x.symm)]
    · have hget := angleVector_get n hn s c sp hi hk'
      exact ⟨_, _, hget, hget, rfl, z, hz⟩
  obtain ⟨i, k, hi, hk, e⟩ := upper_decomp n c (hh ▸ hj)
  have a := key true i k (by omega) hk (by simpa using e)
  obtain ⟨i', k', _, hi', hk', e'⟩ := lower_decomp n c (hh ▸ hj)
  have b := key false i' k' hi' hk' (by simpa using e')
  rw [← e] at a
  rw [← e', ← hh] at b
  exact ⟨a.1, a.2, b.1, b.2⟩

/-- **C25 (partial).** For any number of sectors (including `phi_sym = 2π`, `m = 1`), incidence bins in rings with an even number
of azimuth bins are reflected specularly.  Missing: rings with an odd number of bins, see `C25_fails`. -/
theorem C25_mirror_even_rings_partial (n : ℕ) (hn : 0 < n) (m : ℕ) (hm : 0 < m) (c : ℝ) (hc : 0 < c)
    (sp : Spacing) :
    let s := 2 * π / (m : ℝ)
    let g := makeAngleVector n s c sp
    let h := g.angleVector.length / 2
    ∀ j < h, ∀ row, g.angleVector[j]? = some row → Even (ringSize n c row.ring) →
      ∃ r < h, UnitColumn (2 * h) (mirrorMatrix g s true) j r ∧ Specular g s j r := by
  intro s g h j hj row hrow hev
  have hh : h = ringStart n c n := half_eq n hn s c sp
  obtain ⟨i, k, hi, hk, e⟩ := upper_decomp n c (hh ▸ hj)
  have hget := angleVector_get n hn s c sp (show i < 2 * n by omega) hk
  rw [e, hget, Option.some.injEq] at hrow
  rw [← hrow] at hev
  obtain ⟨k', hk', hb, _, z, hz⟩ := mirrorBin_centre n hn m hm c hc sp true j (show i < 2 * n by omega) hk
    (Or.inr hev) (by simpa using e)
  have hlt := bin_lt_half n c hi hk'
  refine ⟨ringStart n c i + k', by omega, ⟨by omega, ?_⟩, ?_⟩
  · intro r' _
    unfold mirrorMatrix
    rw [show mirrorBin g s true j = _ from hb]
    simp only [Option.some.injEq]
    by_cases e : r' = ringStart n c i + k'
    · rw [if_pos e, if_pos e.symm]
    · rw [if_neg e, if_neg (fun x => e x.symm)]
  · rw [e]
    exact ⟨_, _, hget, angleVector_get n hn s c sp (show i < 2 * n by omega) hk', rfl, z, hz⟩

/-- **C25 fails**: with `phi_sym = 2π` and `c_azimuth ≤ 1`, for every number of polar rings, the mirror transmits light
incident in the first bin (normal incidence) completely: its column has a 1 in the last row, and no reflected light. -/
theorem C25_fails (n : ℕ) (hn : 0 < n) (c : ℝ) (hc : 0 < c) (hc1 : c ≤ 1) (sp : Spacing) :
    let g := makeAngleVector n (2 * π) c sp
    let h := g.angleVector.length / 2
    0 < h ∧ UnitColumn (2 * h) (mirrorMatrix g (2 * π) true) 0 (2 * h - 1) ∧
      ∀ r < h, mirrorMatrix g (2 * π) true r 0 = 0 := by
  intro g h
  have hs : 0 < 2 * π := by positivity
  have hh : h = ringStart n c n := half_eq n hn _ c sp
  have hN : ringSize n c 0 = 1 := by
    unfold ringSize
    rw [show min (0 + 1) (2 * n - 0) = 1 by omega, Nat.ceil_eq_iff (by norm_num)]
    norm_num; exact ⟨hc, hc1⟩
  have hpos : 0 < h := by
    rw [hh]; have := bin_lt_half n c hn (show 0 < ringSize n c 0 by omega); omega
  have hget := angleVector_get n hn (2 * π) c sp (show 0 < 2 * n by omega) (show 0 < ringSize n c 0 by omega)
  rw [ringStart_zero] at hget
  have hfold := fold_opposite_zero n 1 (by decide) c (show ringSize n c 0 = 2 * 0 + 1 by omega)
  rw [Nat.cast_one, div_one] at hfold
  have hmono := polarEdge_strictMono n hn sp 0 1 (by omega) (by omega)
  have hb : mirrorBin g (2 * π) true 0 = some (2 * h - 1) := by
    unfold mirrorBin
    simp only [if_true]
    rw [show g.angleVector[0]? = _ from hget, Option.bind_some]
    simp only
    rw [hfold, binOf_phi_zero n hn (2 * π) c hs hc sp (show 0 < 2 * n by omega)
      (by unfold polarMid; linarith) (by unfold polarMid; linarith), Option.bind_some, ringStart_zero]
    unfold pyIndex
    rw [show g.half = h from rfl, if_neg (by norm_num), if_pos ⟨by push_cast; omega, by norm_num⟩]
    congr 1
    push_cast
    omega
  have hcol : ∀ r, mirrorMatrix g (2 * π) true r 0 = if r = 2 * h - 1 then 1 else 0 := by
    intro r
    unfold mirrorMatrix
    rw [hb]
    simp only [Option.some.injEq]
    by_cases e : r = 2 * h - 1
    · rw [if_pos e, if_pos e.symm]
    · rw [if_neg e, if_neg (fun x => e x.symm)]
  refine ⟨hpos, ⟨by omega, fun r _ => hcol r⟩, ?_⟩
  intro r hr
  rw [hcol, if_neg (by omega)]

example : UnitColumn (2 * ((makeAngleVector 50 (π / 2) (1 / 4) .sin).angleVector.length / 2))
    (mirrorMatrix (makeAngleVector 50 (2 * π / ((2 * 2 : ℕ) : ℝ)) (1 / 4) .sin)
      (2 * π / ((2 * 2 : ℕ) : ℝ)) true) 0 0 := by
  have e : 2 * π / ((2 * 2 : ℕ) : ℝ) = π / 2 := by push_cast; ring
  have h := C24_mirror 50 (by norm_num) 2 (by norm_num) (1 / 4) (by norm_num) .sin
  simp only at h
  rw [e] at h ⊢
  refine (h 0 ?_).1
  rw [show (makeAngleVector 50 (π / 2) (1 / 4) .sin).angleVector.length / 2
    = ringStart 50 (1 / 4) 50 from half_eq 50 (by norm_num) _ _ _]
  have := bin_lt_half 50 (1 / 4) (show 0 < 50 by norm_num) (ringSize_pos 50 (1 / 4) (by norm_num)
    (show 0 < 2 * 50 by norm_num))
  omega

end Rayflare
