import Verif.Spec.Trapping
import Verif.Props.Cone
import Verif.Props.Diffuse

/-!
# Property C188: absorption of a weakly absorbing slab with a Lambertian reflector
-/

namespace Rayflare

open Rayflare.Np Rayflare.Model Rayflare.Spec Rayflare.Lemmas Real Filter Topology

variable {ω κ₀ κ₁ : Type*} [Fintype κ₀] [Fintype κ₁]

/-! ## Helper lemmas -/

/-- Bound for the light-trapping formula with the program's shares: `k` is the number of rings in the escape cone, `τ` the least transmittance of the front surface for them. -/
theorem slab_bound (n : ℕ) (hn : 0 < n) (sp : Spacing) (k : ℕ) (hk : 0 < k) (hkn : k ≤ n) (x : ℝ) (hx : 0 ≤ x) {iB : ℕ} (hiB : iB < n) (ff : Face κ₀) (hff : 0 ≤ ff.trns) (fb : ℕ → Face κ₀)
    (τ : ℝ) (hτ : 0 < τ) (hfb : ∀ i < n, 0 ≤ (fb i).refl ∧ (fb i).refl ≤ 1) (hcone : ∀ i < k, (fb i).refl ≤ 1 - τ) (d : DiffuseSlab κ₀)
    (hd : d = { rings := n, front := ff, first := exp (-x / |cos (polarMid n sp iB)|), pass := fun i => exp (-x / |cos (polarMid n sp i)|)
                share := fun i => lamW n sp i / ∑ j ∈ Finset.range n, lamW n sp j, back := fb }) :
    d.round < 1 ∧ d.bulk ≤ ff.trns * (x * (1 / cos (polarMid n sp iB) + π / (τ * sin (polarEdge n sp k)))) := by
  have hpi := Real.pi_pos
  have hcos : ∀ i < n, 0 < cos (polarMid n sp i) := by
    intro i hi
    obtain ⟨h1, h2, h3, h4⟩ := ring_half n hn sp hi
    exact Real.cos_pos_of_mem_Ioo ⟨by unfold polarMid; linarith, by unfold polarMid; linarith⟩
  have hpass : ∀ i < n, exp (-x / |cos (polarMid n sp i)|) = passed x (polarMid n sp i) := by
    intro i hi
    rw [abs_of_pos (hcos i hi)]; rfl
  set W := ∑ j ∈ Finset.range n, lamW n sp j with hW
  set L := ∑ i ∈ Finset.range k, lamW n sp i with hL
  have hs0 : 0 < sin (polarEdge n sp k) := by
    rw [← sum_ds n hn sp k]
    exact Finset.sum_pos (fun i hi => (lamW_sin n hn sp (by have := Finset.mem_range.mp hi; omega)).2.2.2.2.2) ⟨0, Finset.mem_range.mpr hk⟩
  have l1 : sin (polarEdge n sp k) ≤ L := by
    rw [← sum_ds n hn sp k]
    exact Finset.sum_le_sum fun i hi => (lamW_sin n hn sp (by have := Finset.mem_range.mp hi; omega)).2.2.1
  have hLpos : 0 < L := by linarith
  have hWpos : 0 < W := Finset.sum_pos (fun i hi => lamW_pos n hn sp (Finset.mem_range.mp hi)) ⟨0, Finset.mem_range.mpr hn⟩
  have hmeanE : ∀ F : ℕ → ℝ, d.mean F = ∑ i ∈ Finset.range n, lamW n sp i / W * F i := by
    intro F; rw [hd]; rfl
  have hpassE : ∀ i < n, d.pass i = passed x (polarMid n sp i) := by
    intro i hi; rw [hd]; exact hpass i hi
  have hbackE : ∀ i, d.back i = fb i := by intro i; rw [hd]
  have hfirst : d.first = passed x (polarMid n sp iB) := by rw [hd]; exact hpass iB hiB
  have hft : d.front.trns = ff.trns := by rw [hd]
  clear hd hpass
  have hround : d.round ≤ 1 - τ * L / W := by
    have a : d.round = (∑ i ∈ Finset.range n, lamW n sp i * (passed x (polarMid n sp i) ^ 2 * (fb i).refl)) / W := by
      unfold DiffuseSlab.round
      rw [hmeanE, Finset.sum_div]
      refine Finset.sum_congr rfl fun i hi => ?_
      rw [hpassE i (Finset.mem_range.mp hi), hbackE]
      ring
    have b : ∑ i ∈ Finset.range n, lamW n sp i * (passed x (polarMid n sp i) ^ 2 * (fb i).refl) ≤ W - τ * L := by
      have c : ∑ i ∈ Finset.range n, lamW n sp i * (1 - if i < k then τ else 0) = W - τ * L := by
        simp only [mul_sub, mul_one, Finset.sum_sub_distrib, ← hW]
        congr 1
        have : ∀ i ∈ Finset.range n, lamW n sp i * (if i < k then τ else 0) = if i < k then lamW n sp i * τ else 0 := fun i _ => by split_ifs <;> simp
        rw [Finset.sum_congr rfl this, ← Finset.sum_filter, hL, Finset.mul_sum]
        refine Finset.sum_congr ?_ fun i _ => mul_comm _ _
        ext i; simp only [Finset.mem_filter, Finset.mem_range]; omega
      rw [← c]
      refine Finset.sum_le_sum fun i hi => mul_le_mul_of_nonneg_left ?_ (lamW_pos n hn sp (Finset.mem_range.mp hi)).le
      have hi := Finset.mem_range.mp hi
      obtain ⟨p1, p2, -⟩ := passed_bound hx (hcos i hi)
      have q : passed x (polarMid n sp i) ^ 2 ≤ 1 := pow_le_one₀ p1.le p2
      have r : (fb i).refl ≤ 1 - if i < k then τ else 0 := by
        split_ifs with h
        · exact hcone i h
        · rw [sub_zero]; exact (hfb i hi).2
      have := (hfb i hi).1
      nlinarith
    rw [a, div_le_iff₀ hWpos, sub_mul, div_mul_cancel₀ _ hWpos.ne', one_mul]
    exact b
  have hpos : 0 < τ * L / W := by positivity
  refine ⟨by linarith, ?_⟩
  have hmean : (d.mean fun i => (1 - d.pass i) + d.pass i * (d.back i).refl * (1 - d.pass i)) ≤ x * π / W := by
    have a : (d.mean fun i => (1 - d.pass i) + d.pass i * (d.back i).refl * (1 - d.pass i)) ≤ ∑ i ∈ Finset.range n, 2 * x * (polarEdge n sp (i + 1) - polarEdge n sp i) / W := by
      rw [hmeanE]
      refine Finset.sum_le_sum fun i hi => ?_
      have hi := Finset.mem_range.mp hi
      rw [hpassE i hi, hbackE]
      obtain ⟨p1, p2, p3⟩ := passed_bound hx (hcos i hi)
      obtain ⟨r0, r1⟩ := hfb i hi
      have q : (1 - passed x (polarMid n sp i)) + passed x (polarMid n sp i) * (fb i).refl * (1 - passed x (polarMid n sp i)) ≤ 2 * (x / cos (polarMid n sp i)) := by
        have : passed x (polarMid n sp i) * (fb i).refl ≤ 1 := mul_le_one₀ p2 r0 r1
        nlinarith
      have hw := lamW_pos n hn sp hi
      refine le_trans (mul_le_mul_of_nonneg_left q (div_pos hw hWpos).le) (le_of_eq ?_)
      have hc := (hcos i hi).ne'
      unfold lamW
      field_simp
    refine le_trans a (le_of_eq ?_)
    rw [← Finset.sum_div, ← Finset.mul_sum, Finset.sum_range_sub (fun i => polarEdge n sp i), polarEdge_zero, sub_zero, polarEdge_half n hn]
    ring
  have hmean0 : 0 ≤ (d.mean fun i => (1 - d.pass i) + d.pass i * (d.back i).refl * (1 - d.pass i)) := by
    rw [hmeanE]
    refine Finset.sum_nonneg fun i hi => ?_
    have hi := Finset.mem_range.mp hi
    rw [hpassE i hi, hbackE]
    obtain ⟨p1, p2, p3⟩ := passed_bound hx (hcos i hi)
    obtain ⟨r0, r1⟩ := hfb i hi
    have hw := lamW_pos n hn sp hi
    have q : 0 ≤ 1 - passed x (polarMid n sp i) := by linarith
    exact mul_nonneg (div_pos hw hWpos).le (add_nonneg q (mul_nonneg (mul_nonneg p1.le r0) q))
  obtain ⟨p1, p2, p3⟩ := passed_bound hx (hcos iB hiB)
  have hsent : d.sent ≤ W / (τ * L) := by
    unfold DiffuseSlab.sent
    rw [hfirst]
    have : W / (τ * L) = 1 / (τ * L / W) := by field_simp
    rw [this]
    exact div_le_div₀ zero_le_one p2 hpos (by linarith)
  have hprod : d.sent * (d.mean fun i => (1 - d.pass i) + d.pass i * (d.back i).refl * (1 - d.pass i)) ≤ x * (π / (τ * sin (polarEdge n sp k))) := by
    have a : W / (τ * L) * (x * π / W) = x * (π / (τ * L)) := by field_simp
    refine le_trans (mul_le_mul hsent hmean hmean0 (by positivity)) ?_
    rw [a]
    refine mul_le_mul_of_nonneg_left (div_le_div_of_nonneg_left hpi.le (by positivity) ?_) hx
    exact mul_le_mul_of_nonneg_left l1 hτ.le
  unfold DiffuseSlab.bulk
  rw [hfirst, hft, mul_assoc, ← mul_add]
  refine mul_le_mul_of_nonneg_left ?_ hff
  have : x * (1 / cos (polarMid n sp iB) + π / (τ * sin (polarEdge n sp k))) = x / cos (polarMid n sp iB) + x * (π / (τ * sin (polarEdge n sp k))) := by ring
  rw [this]
  linarith

/-! ## C188 -/

section assembled
variable (n : ℕ) (hn : 0 < n) (s : ℝ) (hs : (∃ q : ℕ, 0 < q ∧ s = 2 * Real.pi / ((2 * q : ℕ) : ℝ)) ∨ s = 2 * Real.pi) (c : ℝ) (hc : 0 < c) (sp : Spacing)
  (thIn : ℝ) {i0 iB : ℕ} (hi0 : i0 < n) (hl1 : polarEdge n sp i0 ≤ thIn) (hl2 : thIn < polarEdge n sp (i0 + 1)) (phiIn : PhiIn)
  (hphi : ∀ p, phiIn = .val p → 0 ≤ p ∧ p ≠ s) (inp : RatInput ω κ₀ κ₁ (makeAngleVector n s c sp).half)
  (S : Sys ω (Fin (makeAngleVector n s c sp).half) κ₀ κ₁) (hS : assemble n s c sp thIn phiIn inp = some S) (w : ω)
  (hiB : iB < n) (θR : ℕ → ℝ) (hR : ∀ i < n, θR i < Real.pi / 2) (ff : Face κ₀) (fb : ℕ → Face κ₀)
  (h0 : Flat (makeAngleVector n s c sp) true (inp.front0 w) (polarMid n sp i0) (Real.pi - polarMid n sp iB) ff)
  (h1 : ∀ r j, (inp.front1 w).1 r j = (lambertStored (makeAngleVector n s c sp)).getD r 0) (h1' : ∀ l j, (inp.front1 w).2 l j = 0)
  (h2 : ∀ i < n, Flat (makeAngleVector n s c sp) false (inp.rear0 w) (Real.pi - polarMid n sp i) (θR i) (fb i))

include hn hs hc hi0 hl1 hl2 hphi hS hiB hR h0 h1 h1' h2 in
/-- **C188, what is computed.** A flat front surface that lets at least `τ` of the light in the escape cone (the first `k` rings) out, and a `Lambertian` rear surface: whenever the loop ends, the absorptance reported for the bulk layer is at most its optical thickness
times `1 / cos B + π / (τ sin a)` for the half-angle `a` of the escape cone, times the light let in.  So the enhancement is proportional to the refractive index, and not to its square; see `C188_fails`. -/
theorem C188_enhancement_partial (hα : ∀ w, 0 ≤ inp.α w) (hd : 0 ≤ inp.thick) (k0 : ∀ w, StoredOk (inp.front0 w)) (k1 : ∀ w, StoredOk (inp.front1 w)) (k2 : ∀ w, StoredOk (inp.rear0 w))
    (o : ProfOpts ω (Fin (makeAngleVector n s c sp).half)) (r : ℕ) (t : LoopState ω (Fin (makeAngleVector n s c sp).half) κ₀ κ₁) (ht : S.Exits r t ∨ S.ExitsProf o r t)
    (hff : 0 ≤ ff.trns) (k : ℕ) (hk : 0 < k) (hkn : k ≤ n) (τ : ℝ) (hτ : 0 < τ) (hfb : ∀ i < n, 0 ≤ (fb i).refl ∧ (fb i).refl ≤ 1) (hcone : ∀ i < k, (fb i).refl ≤ 1 - τ) :
    t.Abulk w ≤ ff.trns * (inp.α w * inp.thick * (1 / cos (polarMid n sp iB) + π / (τ * sin (polarEdge n sp k)))) := by
  have main := C144_trapping_partial n hn s hs c hc sp thIn hi0 hl1 hl2 phiIn hphi inp S hS w hiB θR hR ff fb h0 h1 h1' h2 hα hd k0 k1 k2 o r t ht
  obtain ⟨a, b⟩ := slab_bound n hn sp k hk hkn (inp.α w * inp.thick) (mul_nonneg (hα w) hd) hiB ff hff fb τ hτ hfb hcone _ rfl
  simp only [← neg_mul] at a b
  exact le_trans (main a).2.1.1 b

end assembled

/-- **C188 fails.** A front surface that lets all light in and lets light out in an escape cone of at most 30° (refractive index two or more), and a `Lambertian` rear surface: for every weakly absorbing bulk layer the absorptance reported is less than half of that of
the slab with a Lambertian reflector. -/
theorem C188_fails (n : ℕ) (hn : 0 < n) (sp : Spacing) (k : ℕ) (hk : 0 < k) (hkn : k ≤ n) (ha : polarEdge n sp k ≤ π / 6) (iB : ℕ) (hiB : iB < k) :
    ∃ x₀ > 0, ∀ (s : ℝ) (_ : (∃ q : ℕ, 0 < q ∧ s = 2 * Real.pi / ((2 * q : ℕ) : ℝ)) ∨ s = 2 * Real.pi) (c : ℝ) (_ : 0 < c) (thIn : ℝ) (i0 : ℕ) (_ : i0 < n) (_ : polarEdge n sp i0 ≤ thIn) (_ : thIn < polarEdge n sp (i0 + 1))
      (phiIn : PhiIn) (_ : ∀ p, phiIn = .val p → 0 ≤ p ∧ p ≠ s) (inp : RatInput ω κ₀ κ₁ (makeAngleVector n s c sp).half)
      (S : Sys ω (Fin (makeAngleVector n s c sp).half) κ₀ κ₁) (_ : assemble n s c sp thIn phiIn inp = some S) (w : ω) (θR : ℕ → ℝ) (_ : ∀ i < n, θR i < Real.pi / 2)
      (_ : Flat (makeAngleVector n s c sp) true (inp.front0 w) (polarMid n sp i0) (Real.pi - polarMid n sp iB) ⟨0, 1, fun _ => 0⟩)
      (_ : ∀ r j, (inp.front1 w).1 r j = (lambertStored (makeAngleVector n s c sp)).getD r 0) (_ : ∀ l j, (inp.front1 w).2 l j = 0)
      (_ : ∀ i < n, Flat (makeAngleVector n s c sp) false (inp.rear0 w) (Real.pi - polarMid n sp i) (θR i) (if i < k then ⟨0, 1, fun _ => 0⟩ else ⟨1, 0, fun _ => 0⟩))
      (_ : ∀ w, 0 ≤ inp.α w) (_ : 0 ≤ inp.thick) (_ : ∀ w, StoredOk (inp.front0 w)) (_ : ∀ w, StoredOk (inp.front1 w)) (_ : ∀ w, StoredOk (inp.rear0 w))
      (r : ℕ) (t : LoopState ω (Fin (makeAngleVector n s c sp).half) κ₀ κ₁), S.Exits r t → 0 < inp.α w * inp.thick → inp.α w * inp.thick < x₀ →
      2 * t.Abulk w < trapBulk (polarEdge n sp k) (polarMid n sp iB) (inp.α w * inp.thick) := by
  have hpi := Real.pi_pos
  have hBn : iB < n := by omega
  set a := polarEdge n sp k with hadef
  set B := polarMid n sp iB with hB
  have a0 : 0 < a := by rw [hadef, ← polarEdge_zero n sp]; exact polarEdge_strictMono n hn sp 0 k hk (by omega)
  have hBa : 0 < B ∧ B ≤ a := by
    obtain ⟨e1, e2, e3, e4⟩ := ring_half n hn sp hBn
    have e5 : polarEdge n sp (iB + 1) ≤ a := by
      rcases Nat.lt_or_ge (iB + 1) k with h | h
      · exact (polarEdge_strictMono n hn sp (iB + 1) k h (by omega)).le
      · rw [hadef, show iB + 1 = k by omega]
    constructor <;> rw [hB] <;> unfold polarMid <;> linarith
  have hs0 : 0 < sin a := Real.sin_pos_of_pos_of_lt_pi a0 (by linarith)
  have hs1 : sin a ≤ 1 / 2 := by rw [← Real.sin_pi_div_six]; exact Real.sin_le_sin_of_le_of_le_pi_div_two (by linarith) (by linarith) ha
  have hc1 : 0.866 ≤ cos a := by
    have := Real.sin_sq_add_cos_sq a
    have hc : 0 ≤ cos a := (Real.cos_pos_of_mem_Ioo ⟨by linarith, by linarith⟩).le
    nlinarith
  have hcB : 0.866 ≤ cos B := le_trans hc1 (Real.cos_le_cos_of_nonneg_of_le_pi hBa.1.le (by linarith) hBa.2)
  have hgap : 2 * (1 / cos B + π / (1 * sin a)) < 1 / cos B + 2 * (1 + cos a) / sin a ^ 2 := by
    have e1 : 1 / cos B ≤ 1.16 := by rw [div_le_iff₀ (by linarith)]; norm_num at hcB ⊢; linarith
    have e2 : 2 * (1 + cos a) / sin a ^ 2 = 2 * (1 + cos a) / sin a * (1 / sin a) := by field_simp
    have e3 : π / (1 * sin a) = π * (1 / sin a) := by rw [one_mul]; ring
    have e4 : 2 ≤ 1 / sin a := by rw [le_div_iff₀ hs0]; linarith
    have e5 : 7.46 ≤ 2 * (1 + cos a) / sin a := by rw [le_div_iff₀ hs0]; norm_num at hc1 ⊢; nlinarith
    have e6 := Real.pi_lt_d2
    rw [e2, e3]
    have e7 : 7.46 * (1 / sin a) ≤ 2 * (1 + cos a) / sin a * (1 / sin a) := mul_le_mul_of_nonneg_right e5 (by linarith)
    have e8 : π * (1 / sin a) ≤ 3.15 * (1 / sin a) := mul_le_mul_of_nonneg_right e6.le (by linarith)
    norm_num at e1 e4 e7 e8 ⊢
    linarith
  have hlim := trapBulk_limit a B a0 (by linarith)
  have hev := hlim.eventually_const_lt hgap
  obtain ⟨x₀, hx₀, hall⟩ := mem_nhdsGT_iff_exists_Ioo_subset.mp hev
  refine ⟨x₀, hx₀, ?_⟩
  intro s hs c hc thIn i0 hi0 hl1 hl2 phiIn hphi inp S hS w θR hR h0 h1 h1' h2 hα hd k0 k1 k2 r t ht hx hxx
  have b := C188_enhancement_partial n hn s hs c hc sp thIn hi0 hl1 hl2 phiIn hphi inp S hS w hBn θR hR _ _ h0 h1 h1' h2 hα hd k0 k1 k2 ⟨false, [], fun _ _ _ => 0, fun _ _ => 0⟩ r t (Or.inl ht) zero_le_one k hk hkn 1 one_pos
    (fun i _ => by split_ifs <;> norm_num) (fun i hi => by rw [if_pos hi]; norm_num)
  have g := hall (show inp.α w * inp.thick ∈ Set.Ioo 0 x₀ from ⟨hx, hxx⟩)
  simp only [Set.mem_ofPred_eq] at g
  rw [lt_div_iff₀ hx] at g
  rw [one_mul] at b
  linarith

/-! ## The hypotheses are met, for every grid, escape cone and absorption -/

/-- There is such a structure for every number of rings, escape cone and absorption coefficient, and its loop ends. -/
theorem trap_instance (n : ℕ) (hn : 0 < n) (s : ℝ) (hs : (∃ q : ℕ, 0 < q ∧ s = 2 * Real.pi / ((2 * q : ℕ) : ℝ)) ∨ s = 2 * Real.pi) (c : ℝ) (hc : 0 < c) (sp : Spacing) (k : ℕ) (x thr : ℝ) (hx : 0 < x) (hthr : 0 < thr) :
    ∃ (inp : RatInput Unit (Fin 1) (Fin 1) (makeAngleVector n s c sp).half) (S : _) (r : ℕ) (t : _), assemble n s c sp 0 .all inp = some S ∧ S.Exits r t ∧
    inp.α () = x ∧ inp.thick = 1 ∧ inp.thresh = thr ∧ StoredOk (inp.front0 ()) ∧ StoredOk (inp.front1 ()) ∧ StoredOk (inp.rear0 ()) ∧
    Flat (makeAngleVector n s c sp) true (inp.front0 ()) (polarMid n sp 0) (Real.pi - polarMid n sp 0) ⟨0, 1, fun _ => 0⟩ ∧
    (∀ r j, (inp.front1 ()).1 r j = (lambertStored (makeAngleVector n s c sp)).getD r 0) ∧ (∀ l j, (inp.front1 ()).2 l j = 0) ∧
    (∀ i < n, Flat (makeAngleVector n s c sp) false (inp.rear0 ()) (Real.pi - polarMid n sp i) (polarMid n sp 0) (if i < k then ⟨0, 1, fun _ => 0⟩ else ⟨1, 0, fun _ => 0⟩)) := by
  have hpi := Real.pi_pos
  have m0 : ∀ i < n, polarMid n sp i < π / 2 := fun i hi => polarMid_lt_half n hn sp hi
  set g := makeAngleVector n s c sp with hg
  obtain ⟨j1, hj1⟩ : ∃ j : Fin g.half, polar g j = polarMid n sp 0 := (ring_nonempty n hn s c sp hc hn).1
  obtain ⟨j2, hj2⟩ : ∃ j : Fin g.half, polar g (g.half + j) = Real.pi - polarMid n sp 0 := (ring_nonempty n hn s c sp hc hn).2
  classical
  let bF : Fin g.half → Fin (g.half + g.half) := fun _ => Fin.natAdd _ j2
  let bR : Fin g.half → Fin (g.half + g.half) := fun j => if ∃ i < n, i < k ∧ polar g (g.half + j) = Real.pi - polarMid n sp i then Fin.castAdd _ j1 else Fin.natAdd _ j
  have fl0 := unit_flat (κ := Fin 1) g true (fun r j => if r = bF j then 1 else 0) (polarMid n sp 0) (Real.pi - polarMid n sp 0) (by intro h; linarith [m0 0 hn]) false fun j _ => ⟨bF j, fun r => rfl, hj2⟩
  simp only [Bool.false_eq_true, if_false] at fl0
  have fl : ∀ i < n, Flat (κ := Fin 1) g false (fun r j => if r = bR j then 1 else 0, fun _ _ => 0) (Real.pi - polarMid n sp i) (polarMid n sp 0) (if i < k then ⟨0, 1, fun _ => 0⟩ else ⟨1, 0, fun _ => 0⟩) := by
    intro i hi
    by_cases hik : i < k
    · have := unit_flat (κ := Fin 1) g false (fun r j => if r = bR j then 1 else 0) (Real.pi - polarMid n sp i) (polarMid n sp 0) (by intro h; linarith [m0 i hi, m0 0 hn]) false fun j hj => ⟨bR j, fun r => rfl, by
        have : bR j = Fin.castAdd _ j1 := if_pos ⟨i, hi, hik, by simpa using hj⟩
        rw [this]; exact hj1⟩
      rw [if_pos hik]
      simpa only [Bool.false_eq_true, if_false] using this
    · have := unit_flat (κ := Fin 1) g false (fun r j => if r = bR j then 1 else 0) (Real.pi - polarMid n sp i) (polarMid n sp 0) (by intro h; linarith [m0 i hi, m0 0 hn]) true fun j hj => ⟨bR j, fun r => rfl, by
        have hj' : polar g (g.half + j) = Real.pi - polarMid n sp i := by simpa using hj
        have : bR j = Fin.natAdd _ j := if_neg (by
          rintro ⟨i', hi', hk', h⟩
          rw [hj'] at h
          have := polarMid_inj n hn sp (i := i) (i' := i') (by omega) (by omega) (by linarith)
          omega)
        rw [this]; exact hj'⟩
      rw [if_neg hik]
      simpa only [if_true] using this
  have okL : StoredOk (h := g.half) (κ := Fin 1) (fun r _ => (lambertStored g).getD r 0, fun _ _ => 0) := lambert_ok n hn s c hc sp (Fin 1)
  let inp : RatInput Unit (Fin 1) (Fin 1) g.half :=
    { α := fun _ => x, thick := 1, thresh := thr
      front0 := fun _ => (fun r j => if r = bF j then 1 else 0, fun _ _ => 0)
      front1 := fun _ => (fun r _ => (lambertStored g).getD r 0, fun _ _ => 0)
      rear0 := fun _ => (fun r j => if r = bR j then 1 else 0, fun _ _ => 0) }
  obtain ⟨i, v, -, -, -, hv, -⟩ := C09_launch_all n hn s c hc sp 1 0 le_rfl (by linarith)
  unfold makeV0 at hv
  obtain ⟨v', hv', -⟩ := Option.map_eq_some_iff.mp hv
  obtain ⟨S, hS⟩ : ∃ S, assemble n s c sp 0 .all inp = some S := by
    unfold assemble
    simp only [launchPhi, hv', Option.map_some]
    exact ⟨_, rfl⟩
  have hSt : S.thresh = thr ∧ S.thick = 1 ∧ ∀ w, S.α w = x := by
    unfold assemble at hS
    simp only [Option.map_eq_some_iff] at hS
    obtain ⟨v, -, rfl⟩ := hS
    exact ⟨rfl, rfl, fun _ => rfl⟩
  have k0 : ∀ w, StoredOk (inp.front0 w) := fun _ => unit_ok bF
  have k2 : ∀ w, StoredOk (inp.rear0 w) := fun _ => unit_ok bR
  obtain ⟨hE, hN, hcos, hv1⟩ := C15_assembled n hn s hs c hc sp 0 le_rfl (by linarith) .all inp (fun _ => hx.le) zero_le_one k0 (fun _ => okL) k2 S hS
  obtain ⟨r, -, ⟨t, ht⟩, -⟩ := C17_absorbing_bulk S hE hN hcos x hx (fun w => (hSt.2.2 w).ge) (by rw [hSt.2.1]; norm_num) (fun w => (hv1 w).le) (by rw [hSt.1]; exact hthr) ⟨false, [], fun _ _ _ => 0, fun _ _ => 0⟩
  exact ⟨inp, S, r, t, hS, ht, rfl, rfl, rfl, k0 (), okL, k2 (), fl0, fun _ _ => rfl, fun _ _ => rfl, fl⟩

/-- The default spacing with 50 rings and an escape cone of 14 rings (refractive index 3.57): the loop ends for every weak absorption, the reported enhancement is at most 12.4, and the limit for a Lambertian reflector is more than 49. -/
example (x : ℝ) (hx : 0 < x) : (∃ (inp : RatInput Unit (Fin 1) (Fin 1) (makeAngleVector 50 (π / 2) (1 / 4) .sin).half) (S : _) (r : ℕ) (t : _),
    assemble 50 (π / 2) (1 / 4) .sin 0 .all inp = some S ∧ S.Exits r t ∧ inp.α () * inp.thick = x ∧ t.Abulk () ≤ x * 12.4) ∧ 49 < 2 * (1 + cos (polarEdge 50 .sin 14)) / sin (polarEdge 50 .sin 14) ^ 2 := by
  have hsin : sin (polarEdge 50 .sin 14) = 14 / 50 := by
    simp only [polarEdge]
    norm_num
    rw [Real.sin_arcsin (by norm_num) (by norm_num)]
  have hs : (∃ q : ℕ, 0 < q ∧ π / 2 = 2 * Real.pi / ((2 * q : ℕ) : ℝ)) ∨ π / 2 = 2 * Real.pi := Or.inl ⟨2, two_pos, by push_cast; ring⟩
  constructor
  · obtain ⟨inp, S, r, t, hS, ht, hα, hd, -, k0, k1, k2, f0, l1, l2, f2⟩ := trap_instance 50 (by norm_num) (π / 2) hs (1 / 4) (by norm_num) .sin 14 x 0.001 hx (by norm_num)
    refine ⟨inp, S, r, t, hS, ht, by rw [hα, hd, mul_one], ?_⟩
    have e1 : 0 < polarEdge 50 .sin (0 + 1) := by
      have := polarEdge_strictMono 50 (by norm_num) .sin 0 1 (by norm_num) (by norm_num); rw [polarEdge_zero] at this; exact this
    have b := C188_enhancement_partial 50 (by norm_num) (π / 2) hs (1 / 4) (by norm_num) .sin 0 (i0 := 0) (iB := 0) (by norm_num) (by rw [polarEdge_zero]) e1 .all (fun p h => by simp at h) inp S hS () (by norm_num) (fun _ => polarMid 50 .sin 0)
      (fun _ _ => polarMid_lt_half 50 (by norm_num) .sin (by norm_num)) _ _ f0 l1 l2 f2 (fun _ => by rw [hα]; exact hx.le) (by rw [hd]; norm_num) (fun _ => k0) (fun _ => k1) (fun _ => k2)
      ⟨false, [], fun _ _ _ => 0, fun _ _ => 0⟩ r t (Or.inl ht) zero_le_one 14 (by norm_num) (by norm_num) 1 one_pos (fun i _ => by split_ifs <;> norm_num) (fun i hi => by rw [if_pos hi]; norm_num)
    rw [hα, hd, hsin, mul_one, one_mul] at b
    refine le_trans b (mul_le_mul_of_nonneg_left ?_ hx.le)
    have hmid : 0 < polarMid 50 .sin 0 ∧ polarMid 50 .sin 0 ≤ 0.2 := by
      have e : polarEdge 50 .sin 1 ≤ 0.4 := by
        simp only [polarEdge]
        norm_num
        rw [Real.arcsin_le_iff_le_sin (by constructor <;> norm_num) (by constructor <;> linarith [Real.pi_gt_three])]
        have := Real.sin_gt_sub_cube (x := 2 / 5) (by norm_num)
        norm_num at this ⊢
        linarith
      unfold polarMid
      rw [polarEdge_zero]
      norm_num at e e1 ⊢
      constructor <;> linarith
    have hcos : 0.98 ≤ cos (polarMid 50 .sin 0) := by
      have := Real.one_sub_sq_div_two_le_cos (x := polarMid 50 .sin 0)
      norm_num at hmid ⊢
      nlinarith
    have q : 1 / cos (polarMid 50 .sin 0) ≤ 1.03 := by rw [div_le_iff₀ (by linarith)]; norm_num at hcos ⊢; linarith
    have := Real.pi_lt_d2
    norm_num at q this ⊢
    linarith
  · have hc : 0.959 ≤ cos (polarEdge 50 .sin 14) := by
      have h := Real.sin_sq_add_cos_sq (polarEdge 50 .sin 14)
      rw [hsin] at h
      have hc : 0 ≤ cos (polarEdge 50 .sin 14) := by
        obtain ⟨-, -, e3, -⟩ := ring_half 50 (by norm_num) .sin (show 14 < 50 by norm_num)
        obtain ⟨-, -, -, e4⟩ := ring_half 50 (by norm_num) .sin (show 13 < 50 by norm_num)
        exact Real.cos_nonneg_of_mem_Icc ⟨by linarith [Real.pi_pos], e4⟩
      nlinarith
    rw [hsin]
    norm_num at hc ⊢
    linarith

end Rayflare
