import Verif.Props.BeerLambert
import Verif.Props.Planar

/-!
# Property C190 for planar structures
-/

namespace Rayflare

open Rayflare.Np Rayflare.Model Rayflare.Spec Rayflare.Lemmas Matrix

set_option linter.unusedSectionVars false

variable {ω κ₀ κ₁ : Type*} [Fintype κ₀] [Fintype κ₁]

section abstract
variable {ι : Type*} [Fintype ι] [DecidableEq ι]

theorem beam_ring {B : ι → Prop} {θB : ℝ} {α : ℝ} {θ v : ι → ℝ} (hθ : ∀ j, B j → θ j = θB) (hv : InSet B v) (z : ℝ) :
    beam α θ v z = α / |Real.cos θB| * ((∑ j, v j) * Real.exp (-α * z / |Real.cos θB|)) := by
  unfold beam
  rw [Finset.sum_mul, Finset.mul_sum]
  refine Finset.sum_congr rfl fun j _ => ?_
  by_cases h : B j
  · rw [hθ j h]
  · rw [hv j h]; ring

/-- After `k` passes the profile is close to the density of the light of these passes. -/
theorem planar_profile {S : Sys ω ι κ₀ κ₁} (hS : EnergyConserving S) (hp : NonnegData S) (hcos : ∀ j, Real.cos (S.θ j) ≠ 0) (hd : 0 < S.thick) {w : ω} {B0 BL BU : ι → Prop} {θB : ℝ} {sl : Slab κ₀ κ₁}
    (h : PlanarSys S w B0 BL BU θB sl) {s : ℝ} (hs : 0 < s) (hs' : s < S.thick) {K : ℝ} (hK0 : 0 ≤ K) (hK : S.α w / |Real.cos θB| ≤ K * (1 - Real.exp (-S.α w * S.thick / |Real.cos θB|))) (hsK : s * K ≤ 1 / 2)
    (o : ProfOpts ω ι) (ho : o.bulkProfile = true) (hdep : o.depths = arange S.thick s) (m : ℕ) (hm : m < ⌈S.thick / s⌉₊) (k : ℕ) :
    (∀ p ∈ ((S.stepProf o)^[k] S.init).Aprof, (p w).length = ⌈S.thick / s⌉₊) ∧
      |(((S.stepProf o)^[k] S.init).Aprof.map fun p => (p w).getD m 0).sum - sl.density (S.α w / |Real.cos θB|) S.thick (∑ i ∈ Finset.range k, sl.round ^ i) (m * s)|
        ≤ 3 * s * K ^ 2 * (S.step^[k] S.init).Abulk w := by
  induction k with
  | zero => simp [Sys.init, LoopState.Abulk, Slab.density]
  | succ k ih =>
    obtain ⟨g1, g2⟩ := ih
    have e := iterProf_forget S hS.u2d o S.init [] k
    have e' : S.step^[k] { S.init with Aprof := [] } = S.step^[k] S.init := rfl
    rw [e'] at e
    have hn := (C15_nonneg S hS hp o k _ (Or.inl rfl)).1 w
    have hv : ((S.stepProf o)^[k] S.init).vf1 = (S.step^[k] S.init).vf1 := by rw [← e]
    have ht := slab_iter h k
    have hD := D_sends h
    have i1 := sends_in h.d2u ht.inside
    have s1 := weighted_sum _ (fun j hj => (h.d2u j hj).2) ht.inside
    have i2 := sends_in hD i1
    have s2 := weighted_sum _ (fun j hj => (hD j hj).2) i1
    have i3 := sends_in h.f1R i2
    have s3 := weighted_sum _ (fun j hj => (h.f1R j hj).2) i2
    rw [ht.left, one_mul] at s1
    rw [s1] at s2
    rw [s2] at s3
    have on : ∀ v : ι → ℝ, InSet BU v → DecayOn (S.α w) S.thick S.θ v K := by
      intro v hv j hj
      have hB : BU j := by_contra fun hB => hj (hv j hB)
      rw [h.θ j hB]; exact hK
    obtain ⟨q1, q2⟩ := profile_pass hS hp hcos hd hs hs' hK0 hsK o ho hdep _ _ hv hn (on _ i1) (on _ i3) m hm
    rw [Function.iterate_succ_apply', Function.iterate_succ_apply']
    refine ⟨q1 g1, ?_⟩
    have e2 : (flowsOf S w ((S.step^[k] S.init).vf1 w)).density S w (m * s) = sl.density (S.α w / |Real.cos θB|) S.thick (sl.round ^ k) (m * s) := by
      rw [density_eq]
      change beam (S.α w) S.θ (S.down2up *ᵥ (S.step^[k] S.init).vf1 w) (m * s) + beam (S.α w) S.θ ((S.front1 w).R *ᵥ (S.D w *ᵥ (S.down2up *ᵥ (S.step^[k] S.init).vf1 w))) (S.thick - m * s) = _
      rw [beam_ring h.θ i1, beam_ring h.θ i3, s1, s3]
      unfold Slab.density
      rw [show -S.α w * (m * s) / |Real.cos θB| = -(S.α w / |Real.cos θB|) * (m * s) by ring, show -S.α w * (S.thick - m * s) / |Real.cos θB| = -(S.α w / |Real.cos θB|) * (S.thick - m * s) by ring]
      ring
    have e3 : ∀ a b, sl.density (S.α w / |Real.cos θB|) S.thick (a + b) (m * s) = sl.density (S.α w / |Real.cos θB|) S.thick a (m * s) + sl.density (S.α w / |Real.cos θB|) S.thick b (m * s) := by
      intro a b; unfold Slab.density; ring
    rw [e2] at q2
    rw [Finset.sum_range_succ, e3]
    rw [abs_le] at q2 g2 ⊢
    constructor <;> linarith [q2.1, q2.2, g2.1, g2.2]

/-- What the passes after the first `k` would add to the density, if little light is left. -/
theorem density_rest (sl : Slab κ₀ κ₁) (κ d z P : ℝ) (k : ℕ) (hκ : 0 ≤ κ) (h0 : 0 ≤ z) (h1 : z ≤ d) (hp0 : 0 < sl.pass) (hp1 : sl.pass < 1) (hr0 : 0 ≤ sl.rear.refl) (hr1 : sl.rear.refl ≤ 1)
    (hb0 : 0 ≤ sl.back.refl) (hb1 : sl.back.refl ≤ 1) (ht : 0 ≤ sl.front.trns) (hP : sl.front.trns * sl.round ^ k ≤ P) :
    sl.density κ d (∑ i ∈ Finset.range k, sl.round ^ i) z ≤ sl.density κ d sl.trips z ∧
    sl.density κ d sl.trips z ≤ sl.density κ d (∑ i ∈ Finset.range k, sl.round ^ i) z + κ / (1 - sl.pass) * P := by
  have q0 : 0 ≤ sl.round := mul_nonneg (mul_nonneg (by positivity) hr0) hb0
  have q4 : sl.pass ^ 2 * sl.rear.refl ≤ sl.pass ^ 2 := mul_le_of_le_one_right (by positivity) hr1
  have q5 : sl.pass ^ 2 * sl.rear.refl * sl.back.refl ≤ sl.pass ^ 2 * sl.rear.refl := mul_le_of_le_one_right (mul_nonneg (by positivity) hr0) hb1
  have q1 : sl.round < 1 := by
    have q3 : sl.pass ^ 2 < 1 := by nlinarith
    unfold Slab.round
    linarith
  have hg : sl.trips = (∑ i ∈ Finset.range k, sl.round ^ i) + sl.round ^ k / (1 - sl.round) := by
    unfold Slab.trips
    rw [geom_sum_eq q1.ne]
    have : 1 - sl.round ≠ 0 := by linarith
    have : sl.round - 1 ≠ 0 := by linarith
    field_simp
    ring
  have hP0 : 0 ≤ sl.front.trns * sl.round ^ k := mul_nonneg ht (pow_nonneg q0 k)
  have x1 : Real.exp (-κ * z) ≤ 1 := Real.exp_le_one_iff.mpr (by nlinarith)
  have x2 : Real.exp (-κ * (d - z)) ≤ 1 := Real.exp_le_one_iff.mpr (by nlinarith)
  have y1 := Real.exp_pos (-κ * z)
  have y2 := Real.exp_pos (-κ * (d - z))
  have hpr : 0 ≤ sl.pass * sl.rear.refl := mul_nonneg hp0.le hr0
  have hE0 : 0 ≤ κ * Real.exp (-κ * z) + sl.pass * sl.rear.refl * (κ * Real.exp (-κ * (d - z))) := by positivity
  have hE1 : κ * Real.exp (-κ * z) + sl.pass * sl.rear.refl * (κ * Real.exp (-κ * (d - z))) ≤ κ * (1 + sl.pass * sl.rear.refl) := by
    have a1 := mul_le_mul_of_nonneg_left x1 hκ
    have a2 := mul_le_mul_of_nonneg_left (mul_le_mul_of_nonneg_left x2 hκ) hpr
    linarith
  have e : sl.density κ d sl.trips z = sl.density κ d (∑ i ∈ Finset.range k, sl.round ^ i) z +
      sl.front.trns * sl.round ^ k * ((κ * Real.exp (-κ * z) + sl.pass * sl.rear.refl * (κ * Real.exp (-κ * (d - z)))) / (1 - sl.round)) := by
    rw [hg]; unfold Slab.density; ring
  have hq : 0 < 1 - sl.round := by linarith
  have hp : 0 < 1 - sl.pass := by linarith
  have hle : (κ * Real.exp (-κ * z) + sl.pass * sl.rear.refl * (κ * Real.exp (-κ * (d - z)))) / (1 - sl.round) ≤ κ / (1 - sl.pass) := by
    rw [div_le_div_iff₀ hq hp]
    have b1 : (1 + sl.pass * sl.rear.refl) * (1 - sl.pass) ≤ 1 - sl.round := by
      have : sl.pass * sl.rear.refl ≤ sl.pass := mul_le_of_le_one_right hp0.le hr1
      unfold Slab.round
      nlinarith
    calc _ ≤ κ * (1 + sl.pass * sl.rear.refl) * (1 - sl.pass) := mul_le_mul_of_nonneg_right hE1 hp.le
      _ = κ * ((1 + sl.pass * sl.rear.refl) * (1 - sl.pass)) := by ring
      _ ≤ κ * (1 - sl.round) := mul_le_mul_of_nonneg_left b1 hκ
  have hge : 0 ≤ (κ * Real.exp (-κ * z) + sl.pass * sl.rear.refl * (κ * Real.exp (-κ * (d - z)))) / (1 - sl.round) := div_nonneg hE0 hq.le
  rw [e]
  constructor
  · linarith [mul_nonneg hP0 hge]
  · have := mul_le_mul hP hle hge (hP0.trans hP)
    linarith

end abstract

section
variable (n : ℕ) (hn : 0 < n) (s : ℝ) (hs : (∃ q : ℕ, 0 < q ∧ s = 2 * Real.pi / ((2 * q : ℕ) : ℝ)) ∨ s = 2 * Real.pi) (c : ℝ) (hc : 0 < c) (sp : Spacing)
  (thIn : ℝ) {i0 iB : ℕ} (hi0 : i0 < n) (hl1 : polarEdge n sp i0 ≤ thIn) (hl2 : thIn < polarEdge n sp (i0 + 1)) (phiIn : PhiIn)
  (hphi : ∀ p, phiIn = .val p → 0 ≤ p ∧ p ≠ s) (inp : RatInput ω κ₀ κ₁ (makeAngleVector n s c sp).half)
  (S : Sys ω (Fin (makeAngleVector n s c sp).half) κ₀ κ₁) (hS : assemble n s c sp thIn phiIn inp = some S) (w : ω)
  (hiB : iB < n) (θT θR : ℝ) (hT : Real.pi / 2 < θT) (hR : θR < Real.pi / 2) (ff fb : Face κ₀) (fr : Face κ₁)
  (h0 : Flat (makeAngleVector n s c sp) true (inp.front0 w) (polarMid n sp i0) (Real.pi - polarMid n sp iB) ff)
  (h1 : Flat (makeAngleVector n s c sp) true (inp.front1 w) (polarMid n sp iB) θT fr)
  (h2 : Flat (makeAngleVector n s c sp) false (inp.rear0 w) (Real.pi - polarMid n sp iB) θR fb)

include hn hs hc hi0 hl1 hl2 hphi hS hiB hT hR h0 h1 h2 in
/-- **C190, planar structures.** Light incident in ring `i0`, refracted into ring `iB`, flat surfaces that conserve energy and an absorbing bulk layer: every value of the bulk profile is within the same bound of the textbook absorption density of an
incoherent slab at its depth. -/
theorem C190_planar (hα : ∀ w, 0 ≤ inp.α w) (hαw : 0 < inp.α w) (hd : 0 < inp.thick) (k0 : ∀ w, StoredOk (inp.front0 w)) (k1 : ∀ w, StoredOk (inp.front1 w)) (k2 : ∀ w, StoredOk (inp.rear0 w))
    (dz : ℝ) (hz : 0 < dz) (hz' : dz < inp.thick) (o : ProfOpts ω (Fin (makeAngleVector n s c sp).half)) (ho : o.bulkProfile = true) (hdep : o.depths = arange inp.thick dz)
    (k : ℕ) (t : LoopState ω (Fin (makeAngleVector n s c sp).half) κ₀ κ₁) (ht : S.ExitsProf o k t) :
    let sl : Slab κ₀ κ₁ := ⟨ff, fr, fb, Real.exp (-inp.α w * inp.thick / |Real.cos (polarMid n sp iB)|)⟩
    let κ := inp.α w / |Real.cos (polarMid n sp iB)|
    let K := κ / (1 - sl.pass)
    dz * K ≤ 1 / 2 → (t.bulkProf o.depths.length w).length = o.depths.length ∧
    ∀ m < o.depths.length, |(t.bulkProf o.depths.length w).getD m 0 - sl.density κ inp.thick sl.trips (m * dz)| ≤ 3 * dz * K ^ 2 * t.Abulk w + K * inp.thresh := by
  intro sl κ K hzK
  have ht0 : 0 ≤ thIn ∧ thIn < Real.pi / 2 := by
    have mono : ∀ {a b : ℕ}, a < b → b ≤ 2 * n → polarEdge n sp a < polarEdge n sp b := fun h h' => polarEdge_strictMono n hn sp _ _ h h'
    constructor
    · rcases Nat.eq_zero_or_pos i0 with h | h
      · rw [h, polarEdge_zero] at hl1; exact hl1
      · have := mono h (by omega); rw [polarEdge_zero] at this; linarith
    · rw [← polarEdge_half n hn sp]
      rcases Nat.lt_or_ge (i0 + 1) n with h | h
      · exact hl2.trans (mono h (by omega))
      · have e : n = i0 + 1 := by omega
        rw [show polarEdge n sp n = polarEdge n sp (i0 + 1) by rw [← e]]; exact hl2
  obtain ⟨hE, hN, hcos, -⟩ := C15_assembled n hn s hs c hc sp thIn ht0.1 ht0.2 phiIn inp hα hd.le k0 k1 k2 S hS
  obtain ⟨e1, e2, e3⟩ : S.thresh = inp.thresh ∧ S.α = inp.α ∧ S.thick = inp.thick := by
    unfold assemble at hS
    simp only [Option.map_eq_some_iff] at hS
    obtain ⟨v, -, rfl⟩ := hS
    exact ⟨rfl, rfl, rfl⟩
  have hPl := planar_assembled n hn s hs c hc sp thIn hi0 hl1 hl2 phiIn hphi inp S hS w hiB θT θR hT hR ff fb fr h0 h1 h2
  have hpi := Real.pi_pos
  have hmB := polarMid_lt_half n hn sp hiB
  have hm0 := polarMid_lt_half n hn sp hi0
  obtain ⟨j0, hj0⟩ := (ring_nonempty n hn s c sp hc hi0).1
  have F0 := flat_halves n hn s c sp h0 (polarMid n sp i0) (Real.pi - polarMid n sp iB) hm0 (by linarith) (Or.inl ⟨rfl, rfl⟩) j0 hj0
  obtain ⟨j1, hj1⟩ := (ring_nonempty n hn s c sp hc hiB).1
  obtain ⟨j2, hj2⟩ := (ring_nonempty n hn s c sp hc hiB).2
  have F1 := flat_halves n hn s c sp h1 (polarMid n sp iB) θT hmB hT (Or.inl ⟨rfl, rfl⟩) j1 hj1
  have F2 := flat_halves n hn s c sp h2 θR (Real.pi - polarMid n sp iB) hR (by linarith) (Or.inr ⟨rfl, rfl⟩) j2 hj2
  have hneR : ¬ Real.pi - polarMid n sp iB = θR := by intro h; linarith
  simp only [if_true, hneR, if_false] at F0 F1 F2
  obtain ⟨a1, a2, a3, a4⟩ := face_ok (k0 w) ff j0 _ _ F0.1 F0.2.1 (h0.abs j0 hj0)
  obtain ⟨b1, b2, b3, b4⟩ := face_ok (k1 w) fr j1 _ _ F1.1 F1.2.1 (h1.abs j1 hj1)
  obtain ⟨c1, c2, c3, c4⟩ := face_ok (k2 w) fb j2 _ _ F2.1 F2.2.1 (h2.abs j2 hj2)
  have hb := Finset.sum_nonneg fun l (_ : l ∈ Finset.univ) => b3 l
  have hcc := Finset.sum_nonneg fun l (_ : l ∈ Finset.univ) => c3 l
  have hcB : Real.cos (polarMid n sp iB) ≠ 0 := by
    rw [← hPl.θ j1 hj1]; exact hcos j1
  have hp0 : 0 < sl.pass := Real.exp_pos _
  have hp1 : sl.pass < 1 := by
    change Real.exp _ < 1
    rw [Real.exp_lt_one_iff]
    exact div_neg_of_neg_of_pos (by nlinarith) (abs_pos.mpr hcB)
  have hκ : 0 ≤ κ := div_nonneg (hα w) (abs_nonneg _)
  have hpp : 0 < 1 - sl.pass := by linarith
  have hK0 : 0 ≤ K := div_nonneg hκ hpp.le
  have hK : S.α w / |Real.cos (polarMid n sp iB)| ≤ K * (1 - Real.exp (-S.α w * S.thick / |Real.cos (polarMid n sp iB)|)) := by
    rw [e2, e3]
    exact (div_mul_cancel₀ κ hpp.ne').ge
  have hlen : o.depths.length = ⌈inp.thick / dz⌉₊ := by rw [hdep, arange_length]
  have ht1 : t = (S.stepProf o)^[k] S.init := ht.1
  have e := iterProf_forget S hE.u2d o S.init [] k
  have e' : S.step^[k] { S.init with Aprof := [] } = S.step^[k] S.init := rfl
  rw [e', ← ht1] at e
  have hA : (S.step^[k] S.init).Abulk w = t.Abulk w := by rw [← e]; rfl
  have hP : sl.front.trns * sl.round ^ k ≤ inp.thresh := by
    have := (slab_iter hPl k).left
    rw [← this, ← e1, ← e]
    exact ht.2.1 w
  have hn0 : 0 < ⌈inp.thick / dz⌉₊ := Nat.ceil_pos.mpr (div_pos hd hz)
  have main := fun m hm => planar_profile hE hN hcos (e3 ▸ hd) hPl hz (e3 ▸ hz') hK0 hK hzK o ho (by rw [e3]; exact hdep) m (by rw [e3]; exact hm) k
  rw [← ht1, hA, e2, e3] at main
  refine ⟨?_, fun m hm => ?_⟩
  · rw [hlen]
    exact foldl_length w _ _ _ (by simp) (main 0 hn0).1
  · rw [hlen] at hm
    have hm' : (m : ℝ) * dz ≤ inp.thick := by
      have : (m : ℝ) < inp.thick / dz := Nat.lt_ceil.mp hm
      rw [lt_div_iff₀ hz] at this; exact this.le
    obtain ⟨g1, g2⟩ := main m hm
    obtain ⟨r1, r2⟩ := density_rest sl κ inp.thick (m * dz) inp.thresh k hκ (by positivity) hm' hp0 hp1 b1 (by change fr.refl ≤ 1; linarith) c2 (by change fb.refl ≤ 1; linarith) a2 hP
    unfold LoopState.bulkProf
    rw [hlen, getD_foldl _ w m hm _ _ (by simp) g1]
    have e0 : (List.replicate ⌈inp.thick / dz⌉₊ (0 : ℝ)).getD m 0 = 0 := by simp [List.getD_eq_getElem?_getD]
    rw [e0, zero_add]
    rw [abs_le] at g2 ⊢
    constructor
    · linarith [g2.1]
    · linarith [g2.2]

end

/-- The hypotheses of `C190_planar` for a layer between two flat surfaces that reflect part of the light; the loop ends. -/
example : ∃ (inp : RatInput Unit (Fin 1) (Fin 1) (makeAngleVector 1 (2 * Real.pi / (2 : ℕ)) 1 .linear).half) (S : _) (o : ProfOpts Unit _) (k : ℕ) (t : _) (ff fb : Face (Fin 1)) (θT θR dz : ℝ),
    assemble 1 (2 * Real.pi / (2 : ℕ)) 1 .linear 0.5 .all inp = some S ∧ S.ExitsProf o k t ∧ (∀ w, StoredOk (inp.front0 w)) ∧ (∀ w, StoredOk (inp.front1 w)) ∧ (∀ w, StoredOk (inp.rear0 w)) ∧
    polarEdge 1 .linear 0 ≤ 0.5 ∧ 0.5 < polarEdge 1 .linear 1 ∧ Real.pi / 2 < θT ∧ θR < Real.pi / 2 ∧
    Flat (makeAngleVector 1 (2 * Real.pi / (2 : ℕ)) 1 .linear) true (inp.front0 ()) (polarMid 1 .linear 0) (Real.pi - polarMid 1 .linear 0) ff ∧
    Flat (makeAngleVector 1 (2 * Real.pi / (2 : ℕ)) 1 .linear) true (inp.front1 ()) (polarMid 1 .linear 0) θT ff ∧
    Flat (makeAngleVector 1 (2 * Real.pi / (2 : ℕ)) 1 .linear) false (inp.rear0 ()) (Real.pi - polarMid 1 .linear 0) θR fb ∧
    0 < inp.α () ∧ 0 < inp.thick ∧
    0 < dz ∧ dz < inp.thick ∧ dz * (inp.α () / |Real.cos (polarMid 1 .linear 0)| / (1 - Real.exp (-inp.α () * inp.thick / |Real.cos (polarMid 1 .linear 0)|))) ≤ 1 / 2 ∧ o.bulkProfile = true ∧ o.depths = arange inp.thick dz := by
  have hpi := Real.pi_gt_three
  have hpi' := Real.pi_pos
  have hs : (1e-10 : ℝ) ≤ 2 * Real.pi / (2 : ℕ) := by norm_num; linarith
  have e0 : polarEdge 1 .linear 0 = 0 := polarEdge_zero 1 .linear
  have e1 : polarEdge 1 .linear 1 = Real.pi / 2 := polarEdge_half 1 one_pos .linear
  have hsin : (1 / 1 : ℝ) * Real.sin (polarMid 1 .linear 0) < 1 := by
    rw [exMid, Real.sin_pi_div_four, div_one, one_mul]
    have : Real.sqrt 2 < 2 := by rw [Real.sqrt_lt' (by norm_num)]; norm_num
    linarith
  have harc : Real.arcsin (1 / 1 * Real.sin (polarMid 1 .linear 0)) = Real.pi / 4 := by
    rw [exMid, div_one, one_mul, Real.arcsin_sin (by linarith) (by linarith)]
  obtain ⟨i, v, -, -, -, hv, -⟩ := C09_launch_all 1 one_pos (2 * Real.pi / (2 : ℕ)) 1 one_pos .linear 1 0.5 (by norm_num) (by linarith)
  unfold makeV0 at hv
  obtain ⟨v', hv', -⟩ := Option.map_eq_some_iff.mp hv
  let inp : RatInput Unit (Fin 1) (Fin 1) (makeAngleVector 1 (2 * Real.pi / (2 : ℕ)) 1 .linear).half :=
    { α := fun _ => 1, thick := 1, thresh := 0.1, front0 := fun _ => exStored true, front1 := fun _ => exStored true, rear0 := fun _ => exStored false }
  obtain ⟨S, hS⟩ : ∃ S, assemble 1 (2 * Real.pi / (2 : ℕ)) 1 .linear 0.5 .all inp = some S := by
    unfold assemble
    simp only [launchPhi, hv', Option.map_some]
    exact ⟨_, rfl⟩
  have F := fun front => C139_tmm 1 one_pos 1 one_pos 2 two_pos .linear front hs (1 / 1) (by norm_num) exRes (exStored front) (by rw [div_one]; exact (exStored_tmm front).1) 0 one_pos 0 one_pos hsin.ne
    (fun _ _ => by rw [harc, e0, zero_add, e1]; constructor <;> linarith) (fun _ _ => by rw [harc, e0, zero_add, e1]; constructor <;> linarith) (fun h => absurd hsin (not_lt.mpr h.le))
  have h0 := F true
  have h2 := F false
  simp only [if_true, Bool.false_eq_true, if_false] at h0 h2
  have hmid : polarMid 1 .linear 0 < Real.pi / 2 := by rw [exMid]; linarith
  obtain ⟨-, -, -, -, -, g6⟩ := C139_passes 1 one_pos (2 * Real.pi / (2 : ℕ)) (Or.inl ⟨1, one_pos, by norm_num⟩) 1 one_pos .linear 0.5 one_pos (by rw [e0]; norm_num) (by rw [zero_add, e1]; linarith) .all
    (fun p h => by simp at h) inp S hS () one_pos _ _ (by linarith) hmid _ _ _ h0 h0 h2 1
  have hdone : S.Done (S.step^[1] S.init) := by
    intro w
    refine (show _ = _ from g6).le.trans ?_
    have : S.thresh = 0.1 := by
      unfold assemble at hS
      simp only [Option.map_eq_some_iff] at hS
      obtain ⟨v, -, rfl⟩ := hS
      rfl
    rw [this, if_pos hsin]
    simp only [Slab.round, exRes, pow_one]
    have d1 : Real.exp (-inp.α () * inp.thick / |Real.cos (polarMid 1 .linear 0)|) ≤ 1 := att_le_one (by simp [inp]) (by simp [inp]) _
    have d0 := Real.exp_pos (-inp.α () * inp.thick / |Real.cos (polarMid 1 .linear 0)|)
    have : Real.exp (-inp.α () * inp.thick / |Real.cos (polarMid 1 .linear 0)|) ^ 2 ≤ 1 := pow_le_one₀ d0.le d1
    generalize Real.exp (-inp.α () * inp.thick / |Real.cos (polarMid 1 .linear 0)|) ^ 2 = x at this ⊢
    norm_num
    linarith
  have hmid0 : (0.5 : ℝ) < Real.pi / 2 := by linarith
  obtain ⟨hE, -⟩ := C15_assembled 1 one_pos (2 * Real.pi / (2 : ℕ)) (Or.inl ⟨1, one_pos, by norm_num⟩) 1 one_pos .linear 0.5 (by norm_num) hmid0 .all inp (fun _ => zero_le_one) zero_le_one
    (fun _ => (exStored_tmm true).2) (fun _ => (exStored_tmm true).2) (fun _ => (exStored_tmm false).2) S hS
  have hK0 : 0 ≤ inp.α () / |Real.cos (polarMid 1 .linear 0)| / (1 - Real.exp (-inp.α () * inp.thick / |Real.cos (polarMid 1 .linear 0)|)) :=
    div_nonneg (div_nonneg zero_le_one (abs_nonneg _)) (sub_nonneg.mpr (att_le_one (by simp [inp]) (by simp [inp]) _))
  obtain ⟨K, hK⟩ : ∃ K, inp.α () / |Real.cos (polarMid 1 .linear 0)| / (1 - Real.exp (-inp.α () * inp.thick / |Real.cos (polarMid 1 .linear 0)|)) = K := ⟨_, rfl⟩
  rw [hK] at hK0
  let dz : ℝ := 1 / (2 * (K + 1))
  obtain ⟨k, t, -, hk⟩ := exists_exit hdone
  let o : ProfOpts Unit (Fin (makeAngleVector 1 (2 * Real.pi / (2 : ℕ)) 1 .linear).half) := { bulkProfile := true, depths := arange inp.thick dz, junk := fun _ _ => 0, junk' := fun _ => 0 }
  obtain ⟨t', ht', -⟩ := (C19_branches_agree S hE.u2d o k).2 t hk
  refine ⟨inp, S, o, k, t', _, _, _, _, dz, hS, ht', fun _ => (exStored_tmm true).2, fun _ => (exStored_tmm true).2, fun _ => (exStored_tmm false).2, ?_, ?_, ?_, hmid, h0, h0, h2, one_pos, one_pos, ?_, ?_, ?_, rfl, rfl⟩
  · rw [e0]; norm_num
  · rw [e1]; linarith
  · linarith
  · positivity
  · change 1 / (2 * (K + 1)) < 1
    rw [div_lt_one (by positivity)]; linarith
  · rw [hK]
    change 1 / (2 * (K + 1)) * K ≤ 1 / 2
    rw [one_div_mul_eq_div, div_le_div_iff₀ (by positivity) two_pos]; linarith

end Rayflare
