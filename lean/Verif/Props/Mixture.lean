import Verif.Spec.Mixture
import Verif.Props.Compare
import Verif.Props.EndToEnd

/-!
# Property C169: light from several directions at once; and what a lower `I_thresh` does in the matrix method (C133)
-/

namespace Rayflare

open Rayflare.Np Rayflare.Model Rayflare.Spec Rayflare.Lemmas Matrix

set_option linter.unusedSectionVars false

variable {ω ω' ι κ₀ κ₁ : Type*} [Fintype ι] [DecidableEq ι] [Fintype κ₀] [Fintype κ₁]

/-! ## Helper lemmas -/

theorem mulVec_mix {A ρ : Type*} [Fintype A] (M : Matrix ρ ι ℝ) (p : A → ℝ) {y : ι → ℝ} {y' : A → ι → ℝ} (h : ∀ j, y j = ∑ a, p a * y' a j) (r : ρ) :
    (M *ᵥ y) r = ∑ a, p a * (M *ᵥ y' a) r := by
  simp only [Matrix.mulVec, dotProduct, h, Finset.mul_sum]
  rw [Finset.sum_comm]
  exact Finset.sum_congr rfl fun a _ => Finset.sum_congr rfl fun j _ => by ring

theorem flows_mix {A : Type*} [Fintype A] (S : Sys ω ι κ₀ κ₁) (w : ω) (S' : A → Sys ω' ι κ₀ κ₁) (w' : A → ω') (h : ∀ a, SameStructure S w (S' a) (w' a)) (p : A → ℝ)
    {y : ι → ℝ} {y' : A → ι → ℝ} (hy : ∀ j, y j = ∑ a, p a * y' a j) :
    (∀ j, (flowsOf S w y).down1 j = ∑ a, p a * (flowsOf (S' a) (w' a) (y' a)).down1 j) ∧ (∀ j, (flowsOf S w y).up0 j = ∑ a, p a * (flowsOf (S' a) (w' a) (y' a)).up0 j) := by
  have hD : ∀ a, (S' a).D (w' a) = S.D w := fun a => by simp only [Sys.D, (h a).α, (h a).thick, (h a).θ]
  have e1 : ∀ j, (flowsOf S w y).down1 j = ∑ a, p a * (flowsOf (S' a) (w' a) (y' a)).down1 j := by
    intro j
    simp only [flowsOf, hD, (h _).d2u]
    exact mulVec_mix _ p (mulVec_mix _ p hy) j
  refine ⟨e1, fun j => ?_⟩
  have e2 : ∀ j, ((S.front1 w).R *ᵥ (flowsOf S w y).down1) j = ∑ a, p a * (((S.front1 w).R *ᵥ (flowsOf (S' a) (w' a) (y' a)).down1) j) := mulVec_mix _ p e1
  have e3 := mulVec_mix S.up2down p (mulVec_mix (S.D w) p e2) j
  simp only [flowsOf, hD, (h _).d2u, (h _).u2d, (h _).f1] at e3 ⊢
  exact e3

/-- After any number of passes everything is the mixture of what it is for each part of the light. -/
theorem rec_mix {A : Type*} [Fintype A] (S : Sys ω ι κ₀ κ₁) (w : ω) (S' : A → Sys ω' ι κ₀ κ₁) (w' : A → ω') (h : ∀ a, SameStructure S w (S' a) (w' a)) (p : A → ℝ)
    (hv : ∀ j, S.v0 w j = ∑ a, p a * (S' a).v0 (w' a) j) (K : ℕ) :
    (∀ j, (S.step^[K] S.init).vf1 w j = ∑ a, p a * ((S' a).step^[K] (S' a).init).vf1 (w' a) j) ∧
    (∀ j, recR (S.step^[K] S.init) w j = ∑ a, p a * recR ((S' a).step^[K] (S' a).init) (w' a) j) ∧
    (∀ j, recT (S.step^[K] S.init) w j = ∑ a, p a * recT ((S' a).step^[K] (S' a).init) (w' a) j) ∧
    (∀ l, recA0 (S.step^[K] S.init) w l = ∑ a, p a * recA0 ((S' a).step^[K] (S' a).init) (w' a) l) ∧
    (∀ l, recA1 (S.step^[K] S.init) w l = ∑ a, p a * recA1 ((S' a).step^[K] (S' a).init) (w' a) l) := by
  induction K with
  | zero =>
    simp only [Function.iterate_zero, id_eq]
    obtain ⟨a1, a2, a3, a4⟩ := rec_init S w
    rw [a1, a2, a3, a4]
    refine ⟨fun j => ?_, fun j => ?_, fun j => ?_, fun l => ?_, fun l => ?_⟩
    · simp only [Sys.init, dotWl, (h _).f0]; exact mulVec_mix _ p hv j
    · simp only [(rec_init _ _).1, (h _).f0]; exact mulVec_mix _ p hv j
    · simp [(rec_init _ _).2.1]
    · simp only [(rec_init _ _).2.2.1, (h _).f0]; exact mulVec_mix _ p hv l
    · simp [(rec_init _ _).2.2.2]
  | succ K ih =>
    obtain ⟨i0, i1, i2, i3, i4⟩ := ih
    obtain ⟨c1, c2⟩ := flows_mix S w S' w' h p i0
    simp only [Function.iterate_succ_apply']
    obtain ⟨s1, s2, s3, s4⟩ := rec_step S (S.step^[K] S.init) w
    rw [s1, s2, s3, s4]
    refine ⟨fun j => ?_, fun j => ?_, fun j => ?_, fun l => ?_, fun l => ?_⟩
    · simp only [step_vf1, ← flowsOf_trip, (h _).r0]
      exact mulVec_mix _ p c2 j
    · simp only [(rec_step _ _ _).1, Pi.add_apply, (h _).r0, mul_add, Finset.sum_add_distrib]
      exact congrArg₂ _ (i1 j) (mulVec_mix _ p c2 j)
    · simp only [(rec_step _ _ _).2.1, Pi.add_apply, (h _).f1, mul_add, Finset.sum_add_distrib]
      exact congrArg₂ _ (i2 j) (mulVec_mix _ p c1 j)
    · simp only [(rec_step _ _ _).2.2.1, Pi.add_apply, (h _).r0, mul_add, Finset.sum_add_distrib]
      exact congrArg₂ _ (i3 l) (mulVec_mix _ p c2 l)
    · simp only [(rec_step _ _ _).2.2.2, Pi.add_apply, (h _).f1, mul_add, Finset.sum_add_distrib]
      exact congrArg₂ _ (i4 l) (mulVec_mix _ p c1 l)

theorem sum_mix {A ρ : Type*} [Fintype A] [Fintype ρ] {p : A → ℝ} {x : ρ → ℝ} {x' : A → ρ → ℝ} (h : ∀ r, x r = ∑ a, p a * x' a r) : ∑ r, x r = ∑ a, p a * ∑ r, x' a r := by
  simp only [h, Finset.mul_sum]
  exact Finset.sum_comm

theorem bulk_mix {A : Type*} [Fintype A] (S : Sys ω ι κ₀ κ₁) (w : ω) (S' : A → Sys ω' ι κ₀ κ₁) (w' : A → ω') (hS : EnergyConserving S) (hS' : ∀ a, EnergyConserving (S' a))
    (h : ∀ a, SameStructure S w (S' a) (w' a)) (p : A → ℝ) (hv : ∀ j, S.v0 w j = ∑ a, p a * (S' a).v0 (w' a) j) (K : ℕ) :
    (S.step^[K] S.init).Abulk w = ∑ a, p a * ((S' a).step^[K] (S' a).init).Abulk (w' a) := by
  obtain ⟨i0, i1, i2, i3, i4⟩ := rec_mix S w S' w' h p hv K
  have t := total_iter S hS.d2u hS.f0 hS.f1 hS.r0 K w
  obtain ⟨q1, q2, q3, q4⟩ := rec_sums (S.step^[K] S.init) w
  simp only [total, ← q1, ← q2, ← q3, ← q4] at t
  rw [sum_mix i0, sum_mix i1, sum_mix i2, sum_mix i3, sum_mix i4, sum_mix hv] at t
  have t' : ∀ a, ∑ j, (S' a).v0 (w' a) j = ∑ j, recR ((S' a).step^[K] (S' a).init) (w' a) j + ∑ j, recT ((S' a).step^[K] (S' a).init) (w' a) j + ((S' a).step^[K] (S' a).init).Abulk (w' a) +
      ∑ j, recA0 ((S' a).step^[K] (S' a).init) (w' a) j + ∑ j, recA1 ((S' a).step^[K] (S' a).init) (w' a) j + ∑ j, ((S' a).step^[K] (S' a).init).vf1 (w' a) j := by
    intro a
    have ta := total_iter (S' a) (hS' a).d2u (hS' a).f0 (hS' a).f1 (hS' a).r0 K (w' a)
    obtain ⟨q1, q2, q3, q4⟩ := rec_sums ((S' a).step^[K] (S' a).init) (w' a)
    simp only [total, ← q1, ← q2, ← q3, ← q4] at ta
    exact ta.symm
  simp only [t', mul_add, Finset.sum_add_distrib] at t
  linarith

theorem mix_close {A : Type*} [Fintype A] {p : A → ℝ} (h0 : ∀ a, 0 ≤ p a) (h1 : ∑ a, p a = 1) {x X ε : ℝ} {x' X' : A → ℝ} (hX : X = ∑ a, p a * X' a) (a1 : x ≤ X) (a2 : X ≤ x + ε)
    (b1 : ∀ a, x' a ≤ X' a) (b2 : ∀ a, X' a ≤ x' a + ε) : |x - ∑ a, p a * x' a| ≤ ε := by
  have c1 : ∑ a, p a * x' a ≤ ∑ a, p a * X' a := Finset.sum_le_sum fun a _ => mul_le_mul_of_nonneg_left (b1 a) (h0 a)
  have c2 : ∑ a, p a * X' a ≤ ∑ a, p a * (x' a + ε) := Finset.sum_le_sum fun a _ => mul_le_mul_of_nonneg_left (b2 a) (h0 a)
  simp only [mul_add, Finset.sum_add_distrib] at c2
  rw [← Finset.sum_mul, h1, one_mul] at c2
  rw [abs_le]
  constructor <;> linarith

/-! ## C169 -/

/-- **C169.** Light that is made up of fractions of several lights: everything returned – reflected and transmitted power per direction and in total, absorbed in each layer of the surfaces and in the bulk layer – is the same mixture of what
is returned for each of these lights alone, up to `I_thresh`. -/
theorem C169_mixture {A : Type*} [Fintype A] (S : Sys ω ι κ₀ κ₁) (w : ω) (S' : A → Sys ω' ι κ₀ κ₁) (w' : A → ω') (hS : EnergyConserving S) (hp : NonnegData S) (hS' : ∀ a, EnergyConserving (S' a)) (hp' : ∀ a, NonnegData (S' a))
    (h : ∀ a, SameStructure S w (S' a) (w' a)) (p : A → ℝ) (hv : MixtureOf p (S.v0 w) fun a => (S' a).v0 (w' a)) {ε : ℝ} (hε : S.thresh ≤ ε) (hε' : ∀ a, (S' a).thresh ≤ ε)
    (o : ProfOpts ω ι) (o' : ProfOpts ω' ι) (k : ℕ) (k' : A → ℕ) (t : LoopState ω ι κ₀ κ₁) (t' : A → LoopState ω' ι κ₀ κ₁)
    (ht : S.Exits k t ∨ S.ExitsProf o k t) (ht' : ∀ a, (S' a).Exits (k' a) (t' a) ∨ (S' a).ExitsProf o' (k' a) (t' a)) :
    (∀ j, |recR t w j - ∑ a, p a * recR (t' a) (w' a) j| ≤ ε) ∧ (∀ j, |recT t w j - ∑ a, p a * recT (t' a) (w' a) j| ≤ ε) ∧
    (∀ l, |recA0 t w l - ∑ a, p a * recA0 (t' a) (w' a) l| ≤ ε) ∧ (∀ l, |recA1 t w l - ∑ a, p a * recA1 (t' a) (w' a) l| ≤ ε) ∧
    |t.R w - ∑ a, p a * (t' a).R (w' a)| ≤ ε ∧ |t.T w - ∑ a, p a * (t' a).T (w' a)| ≤ ε ∧ |t.Abulk w - ∑ a, p a * (t' a).Abulk (w' a)| ≤ ε := by
  obtain ⟨hd, e1, e2, e3, e4, e5, e6, e7⟩ := exits_plain S hS o ht w
  have E := fun a => exits_plain (S' a) (hS' a) o' (ht' a) (w' a)
  rw [e1, e2, e3, e4, e5, e6, e7]
  simp only [(E _).2.1, (E _).2.2.1, (E _).2.2.2.1, (E _).2.2.2.2.1, (E _).2.2.2.2.2.1, (E _).2.2.2.2.2.2.1, (E _).2.2.2.2.2.2.2]
  set K := k + ∑ a, k' a with hK
  have hk : k ≤ K := Nat.le_add_right _ _
  have hk' : ∀ a, k' a ≤ K := fun a => (Finset.single_le_sum (f := k') (fun _ _ => Nat.zero_le _) (Finset.mem_univ a)).trans (Nat.le_add_left _ _)
  have hP : ∑ j, (S.step^[k] S.init).vf1 w j ≤ ε := (hd w).trans hε
  have hP' : ∀ a, ∑ j, ((S' a).step^[k' a] (S' a).init).vf1 (w' a) j ≤ ε := fun a => ((E a).1 (w' a)).trans (hε' a)
  obtain ⟨-, i1, i2, i3, i4⟩ := rec_mix S w S' w' h p hv.eq K
  have i5 := bulk_mix S w S' w' hS hS' h p hv.eq K
  obtain ⟨m1, m2, m3, m4, m5⟩ := rec_mono S hS hp w hk
  obtain ⟨b1, b2, b3, b4, b5, b6, b7⟩ := rec_bound S hS hp w hk
  have M := fun a => rec_mono (S' a) (hS' a) (hp' a) (w' a) (hk' a)
  have B := fun a => rec_bound (S' a) (hS' a) (hp' a) (w' a) (hk' a)
  have q := rec_sums (S.step^[K] S.init) w
  have q0 := rec_sums (S.step^[k] S.init) w
  have q' := fun a => rec_sums ((S' a).step^[K] (S' a).init) (w' a)
  have q0' := fun a => rec_sums ((S' a).step^[k' a] (S' a).init) (w' a)
  refine ⟨fun j => ?_, fun j => ?_, fun l => ?_, fun l => ?_, ?_, ?_, ?_⟩
  · exact mix_close hv.nonneg hv.total (i1 j) (m1 j) ((b1 j).trans (by linarith)) (fun a => (M a).1 j) fun a => ((B a).1 j).trans (by linarith [hP' a])
  · exact mix_close hv.nonneg hv.total (i2 j) (m2 j) ((b2 j).trans (by linarith)) (fun a => (M a).2.1 j) fun a => ((B a).2.1 j).trans (by linarith [hP' a])
  · exact mix_close hv.nonneg hv.total (i3 l) (m3 l) ((b3 l).trans (by linarith)) (fun a => (M a).2.2.1 l) fun a => ((B a).2.2.1 l).trans (by linarith [hP' a])
  · exact mix_close hv.nonneg hv.total (i4 l) (m4 l) ((b4 l).trans (by linarith)) (fun a => (M a).2.2.2.1 l) fun a => ((B a).2.2.2.1 l).trans (by linarith [hP' a])
  · refine mix_close hv.nonneg hv.total (X := (S.step^[K] S.init).R w) (X' := fun a => ((S' a).step^[K] (S' a).init).R (w' a)) ?_ ?_ (b6.trans (by linarith)) (fun a => ?_) fun a => ((B a).2.2.2.2.2.1).trans (by linarith [hP' a])
    · simp only [← q.1, ← (q' _).1]; exact sum_mix i1
    · rw [← q.1, ← q0.1]; exact Finset.sum_le_sum fun j _ => m1 j
    · simp only [← (q' a).1, ← (q0' a).1]; exact Finset.sum_le_sum fun j _ => (M a).1 j
  · refine mix_close hv.nonneg hv.total (X := (S.step^[K] S.init).T w) (X' := fun a => ((S' a).step^[K] (S' a).init).T (w' a)) ?_ ?_ (b7.trans (by linarith)) (fun a => ?_) fun a => ((B a).2.2.2.2.2.2).trans (by linarith [hP' a])
    · simp only [← q.2.1, ← (q' _).2.1]; exact sum_mix i2
    · rw [← q.2.1, ← q0.2.1]; exact Finset.sum_le_sum fun j _ => m2 j
    · simp only [← (q' a).2.1, ← (q0' a).2.1]; exact Finset.sum_le_sum fun j _ => (M a).2.1 j
  · exact mix_close hv.nonneg hv.total i5 m5 (b5.trans (by linarith)) (fun a => (M a).2.2.2.2) fun a => ((B a).2.2.2.2.1).trans (by linarith [hP' a])

theorem getD_of_entries {v : List ℝ} {r : ℕ} {x : ℝ} (h : v[r]? = some x) : v.getD r 0 = x := by simp [h]

omit [Fintype κ₀] [Fintype κ₁] in
/-- The systems set up for `phi_in = 'all'` and for one azimuth in each bin of the same ring: the light of the first is the mean of the lights of the others, everything else is the same. -/
theorem all_is_mean (n : ℕ) (hn : 0 < n) (s c : ℝ) (hs : 0 < s) (hc : 0 < c) (sp : Spacing) (θ : ℝ) (ht0 : 0 ≤ θ) (ht1 : θ < Real.pi / 2) (inp : RatInput ω κ₀ κ₁ (makeAngleVector n s c sp).half)
    (i : ℕ) (hi : i < n) (φ : Fin (ringSize n c i) → ℝ) (hφ : ∀ k : Fin (ringSize n c i), InBinL n c s sp i k θ (φ k)) (hN : 0 < ringSize n c i) :
    ∃ (S : Sys ω (Fin (makeAngleVector n s c sp).half) κ₀ κ₁) (S' : Fin (ringSize n c i) → Sys ω (Fin (makeAngleVector n s c sp).half) κ₀ κ₁), assemble n s c sp θ .all inp = some S ∧ (∀ k, assemble n s c sp θ (.val (φ k)) inp = some (S' k)) ∧
      S.thresh = inp.thresh ∧ (∀ k, (S' k).thresh = inp.thresh) ∧ (∀ k w, SameStructure S w (S' k) w) ∧ ∀ w, MixtureOf (fun _ => 1 / (ringSize n c i : ℝ)) (S.v0 w) fun k => (S' k).v0 w := by
  have hin : polarEdge n sp i ≤ θ ∧ θ < polarEdge n sp (i + 1) := ⟨(hφ ⟨0, hN⟩).1, (hφ ⟨0, hN⟩).2.1⟩
  -- the light for one azimuth
  have one : ∀ k : Fin (ringSize n c i), ∃ v, makeV0Row (makeAngleVector n s c sp) θ (launchPhi (.val (φ k)) s) = some v ∧ v.length = (makeAngleVector n s c sp).half ∧ ∀ r < (makeAngleVector n s c sp).half, v.getD r 0 = if r = ringStart n c i + k then 1 else 0 := by
    intro k
    have h0 : 0 ≤ φ k := (by unfold azimuthEdge; positivity : 0 ≤ azimuthEdge n c s i k).trans (hφ k).2.2.1
    have h1 : φ k < s := by
      refine (hφ k).2.2.2.trans_le ?_
      have hlast := azimuthEdge_last n c s i hN
      rcases Nat.lt_or_ge (k + 1 : ℕ) (ringSize n c i) with h | h
      · exact (azimuthEdge_strictMono n c s hs i _ _ h le_rfl).le.trans hlast.le
      · rw [show (k : ℕ) + 1 = ringSize n c i by have := k.2; omega]
        exact hlast.le
    obtain ⟨i', k', v, -, -, -, huniq, hv, hl, -, hone, hzero⟩ := C09_launch_single n hn s c hs hc sp 1 θ (φ k) ht0 ht1 h0 h1
    obtain ⟨rfl, rfl⟩ := huniq i k hi k.2 (hφ k)
    have hrow : makeV0Row (makeAngleVector n s c sp) θ (.val (φ k)) = some v := by
      unfold makeV0 at hv
      obtain ⟨v', h', e⟩ := Option.map_eq_some_iff.mp hv
      simp only [List.replicate_one, List.cons.injEq, and_true] at e
      rw [h', e]
    refine ⟨v, ?_, hl, fun r hr => ?_⟩
    · rw [launchPhi, if_neg (not_lt.mpr h1.le)]; exact hrow
    · have hr' : r < v.length := by rw [hl]; exact hr
      by_cases e : r = ringStart n c i + k
      · rw [if_pos e, e]; exact getD_of_entries hone
      · rw [if_neg e]; exact (getD_of_entries (List.getElem?_eq_getElem hr')).trans (hzero r _ (List.getElem?_eq_getElem hr') e)
  choose v hv hl hval using one
  -- the light for all azimuths
  obtain ⟨i', u, hi', h1', h2', hu, hul, -, hring, hout⟩ := C09_launch_all n hn s c hc sp 1 θ ht0 ht1
  obtain rfl : i' = i := interval_uniqueL (fun a b hab hb => polarEdge_lt_of_le n hn sp hab hb) hi' hi h1' h2' hin.1 hin.2
  have hurow : makeV0Row (makeAngleVector n s c sp) θ (launchPhi .all s) = some u := by
    unfold makeV0 at hu
    obtain ⟨u', h', e⟩ := Option.map_eq_some_iff.mp hu
    simp only [List.replicate_one, List.cons.injEq, and_true] at e
    rw [launchPhi, h', e]
  have ha : ∀ {ph v'}, makeV0Row (makeAngleVector n s c sp) θ (launchPhi ph s) = some v' → assemble n s c sp θ ph inp = some
      { v0 := fun _ j => v'.getD j 0, up2down := fun r j => upToDown (makeAngleVector n s c sp) s r j, down2up := fun r j => downToUp (makeAngleVector n s c sp) s r j, α := inp.α, thick := inp.thick,
        θ := fun j => ((makeAngleVector n s c sp).angleVector[(j : ℕ)]?).elim 0 Row.theta, front0 := fun w => loadMats .front (inp.front0 w).1 (inp.front0 w).2,
        front1 := fun w => loadMats .front (inp.front1 w).1 (inp.front1 w).2, rear0 := fun w => loadMats .rear (inp.rear0 w).1 (inp.rear0 w).2, thresh := inp.thresh } := by
    intro ph v' h
    unfold assemble
    simp only [h, Option.map_some]
  refine ⟨_, fun k => _, ha hurow, fun k => ha (hv k), rfl, fun _ => rfl, fun _ _ => ⟨rfl, rfl, rfl, rfl, rfl, rfl, rfl, rfl⟩, fun w => ⟨fun _ => by positivity, ?_, fun j => ?_⟩⟩
  · have : (ringSize n c i' : ℝ) ≠ 0 := by positivity
    simp [this]
  · simp only [hval _ _ j.2, mul_ite, mul_one, mul_zero]
    have hj : (j : ℕ) < u.length := by rw [hul]; exact j.2
    by_cases hr : ringStart n c i' ≤ j ∧ (j : ℕ) < ringStart n c i' + ringSize n c i'
    · obtain ⟨k, hk⟩ := Nat.exists_eq_add_of_le hr.1
      have hkN : k < ringSize n c i' := by omega
      rw [hk, getD_of_entries (hring k hkN), Finset.sum_eq_single ⟨k, hkN⟩]
      · rw [if_pos rfl]
      · intro b _ hb
        rw [if_neg]
        intro he
        exact hb (Fin.ext (by simp only; omega))
      · exact fun h => absurd (Finset.mem_univ _) h
    · rw [(getD_of_entries (List.getElem?_eq_getElem hj)).trans (hout j _ (List.getElem?_eq_getElem hj) ?_), Finset.sum_eq_zero]
      · intro k _
        rw [if_neg]
        have := k.2
        omega
      · have : ringStart n c (i' + 1) = ringStart n c i' + ringSize n c i' := ringStart_succ n c i'
        omega

/-- **C169, `phi_in = 'all'`.** Everything returned is the mean, over the azimuth bins of the ring of the angle of incidence, of what is returned for light from an azimuth in each of these bins, up to `I_thresh`. -/
theorem C169_all_azimuths (n : ℕ) (hn : 0 < n) (s : ℝ) (hs : (∃ q : ℕ, 0 < q ∧ s = 2 * Real.pi / ((2 * q : ℕ) : ℝ)) ∨ s = 2 * Real.pi) (c : ℝ) (hc : 0 < c) (sp : Spacing) (θ : ℝ) (ht0 : 0 ≤ θ) (ht1 : θ < Real.pi / 2)
    (inp : RatInput ω κ₀ κ₁ (makeAngleVector n s c sp).half) (hα : ∀ w, 0 ≤ inp.α w) (hd : 0 ≤ inp.thick)
    (h0 : ∀ w, StoredOk (inp.front0 w)) (h1 : ∀ w, StoredOk (inp.front1 w)) (h2 : ∀ w, StoredOk (inp.rear0 w))
    (i : ℕ) (hi : i < n) (φ : Fin (ringSize n c i) → ℝ) (hφ : ∀ k : Fin (ringSize n c i), InBinL n c s sp i k θ (φ k)) :
    ∃ (S : Sys ω (Fin (makeAngleVector n s c sp).half) κ₀ κ₁) (S' : Fin (ringSize n c i) → Sys ω (Fin (makeAngleVector n s c sp).half) κ₀ κ₁), assemble n s c sp θ .all inp = some S ∧ (∀ k, assemble n s c sp θ (.val (φ k)) inp = some (S' k)) ∧
      ∀ (o o' : ProfOpts ω (Fin (makeAngleVector n s c sp).half)) (m : ℕ) (m' : Fin (ringSize n c i) → ℕ) (t : LoopState ω (Fin (makeAngleVector n s c sp).half) κ₀ κ₁) (t' : Fin (ringSize n c i) → LoopState ω (Fin (makeAngleVector n s c sp).half) κ₀ κ₁),
        (S.Exits m t ∨ S.ExitsProf o m t) → (∀ k, (S' k).Exits (m' k) (t' k) ∨ (S' k).ExitsProf o' (m' k) (t' k)) → ∀ w,
        (∀ j, |recR t w j - (∑ k, recR (t' k) w j) / ringSize n c i| ≤ inp.thresh) ∧ (∀ j, |recT t w j - (∑ k, recT (t' k) w j) / ringSize n c i| ≤ inp.thresh) ∧
        (∀ l, |recA0 t w l - (∑ k, recA0 (t' k) w l) / ringSize n c i| ≤ inp.thresh) ∧ (∀ l, |recA1 t w l - (∑ k, recA1 (t' k) w l) / ringSize n c i| ≤ inp.thresh) ∧
        |t.R w - (∑ k, (t' k).R w) / ringSize n c i| ≤ inp.thresh ∧ |t.T w - (∑ k, (t' k).T w) / ringSize n c i| ≤ inp.thresh ∧ |t.Abulk w - (∑ k, (t' k).Abulk w) / ringSize n c i| ≤ inp.thresh := by
  have hs0 : 0 < s := by
    rcases hs with ⟨q, hq, rfl⟩ | rfl
    · have := Real.pi_pos; positivity
    · have := Real.pi_pos; positivity
  have hN : 0 < ringSize n c i := ringSize_pos n c hc (by omega)
  obtain ⟨S, S', e, e', hth, hth', hsame, hmix⟩ := all_is_mean n hn s c hs0 hc sp θ ht0 ht1 inp i hi φ hφ hN
  refine ⟨S, S', e, e', fun o o' m m' t t' ht ht' w => ?_⟩
  obtain ⟨a1, a2, -⟩ := C15_assembled n hn s hs c hc sp θ ht0 ht1 _ inp hα hd h0 h1 h2 S e
  have b := fun k => C15_assembled n hn s hs c hc sp θ ht0 ht1 _ inp hα hd h0 h1 h2 (S' k) (e' k)
  have := C169_mixture S w S' (fun _ => w) a1 a2 (fun k => (b k).1) (fun k => (b k).2.1) (fun k => hsame k w) _ (hmix w) hth.le (fun k => (hth' k).le) o o' m m' t t' ht ht'
  simpa only [one_div, ← div_eq_inv_mul, ← Finset.sum_div] using this

/-- One azimuth in each bin of a ring, as C169 asks for. -/
example (n : ℕ) (hn : 0 < n) (c : ℝ) (sp : Spacing) (i : ℕ) (hi : i < n) (k : Fin (ringSize n c i)) :
    InBinL n c (2 * Real.pi) sp i k (polarEdge n sp i) (azimuthEdge n c (2 * Real.pi) i k) :=
  ⟨le_rfl, polarEdge_lt_of_le n hn sp (by omega) (by omega), le_rfl, azimuthEdge_strictMono n c _ (by positivity) i _ _ (by omega) k.2⟩

/-- Light from two directions at once, for the example structure. -/
example : MixtureOf (fun a : Fin 2 => if a = 0 then 1 / 4 else 3 / 4) (({ exSys with v0 := fun _ j => if j = 0 then 1 / 4 else 3 / 4 } : Sys (Fin 2) (Fin 2) (Fin 1) (Fin 1)).v0 0)
      (fun a => ({ exSys with v0 := fun _ j => if j = a then 1 else 0 } : Sys (Fin 2) (Fin 2) (Fin 1) (Fin 1)).v0 0) ∧
    ∀ a : Fin 2, SameStructure ({ exSys with v0 := fun _ j => if j = 0 then 1 / 4 else 3 / 4 } : Sys (Fin 2) (Fin 2) (Fin 1) (Fin 1)) 0 { exSys with v0 := fun _ j => if j = a then 1 else 0 } 0 := by
  refine ⟨⟨fun a => ?_, ?_, fun j => ?_⟩, fun a => ⟨rfl, rfl, rfl, rfl, rfl, rfl, rfl, rfl⟩⟩
  · fin_cases a <;> norm_num
  · norm_num [Fin.sum_univ_two]
  · fin_cases j <;> norm_num [Fin.sum_univ_two]

/-! ## C133: lowering `I_thresh` -/

/-- **C133, lower threshold.** With a lower `I_thresh` at least as many passes are made, and nothing returned becomes smaller. -/
theorem C133_lower_threshold (S : Sys ω ι κ₀ κ₁) (hS : EnergyConserving S) (hp : NonnegData S) {ε : ℝ} (hε : ε ≤ S.thresh) (o o' : ProfOpts ω ι) (k k' : ℕ) (t t' : LoopState ω ι κ₀ κ₁)
    (ht : S.Exits k t ∨ S.ExitsProf o k t) (ht' : ({ S with thresh := ε } : Sys ω ι κ₀ κ₁).Exits k' t' ∨ ({ S with thresh := ε } : Sys ω ι κ₀ κ₁).ExitsProf o' k' t') (w : ω) :
    k ≤ k' ∧ (∀ j, recR t w j ≤ recR t' w j) ∧ (∀ j, recT t w j ≤ recT t' w j) ∧ (∀ l, recA0 t w l ≤ recA0 t' w l) ∧ (∀ l, recA1 t w l ≤ recA1 t' w l) ∧ t.Abulk w ≤ t'.Abulk w := by
  have hS2 : EnergyConserving ({ S with thresh := ε } : Sys ω ι κ₀ κ₁) := ⟨hS.u2d, hS.d2u, hS.f0, hS.f1, hS.r0⟩
  obtain ⟨hd, e1, e2, e3, e4, e5, -⟩ := exits_plain S hS o ht w
  obtain ⟨hd', e1', e2', e3', e4', e5', -⟩ := exits_plain _ hS2 o' ht' w
  have hstep : ({ S with thresh := ε } : Sys ω ι κ₀ κ₁).step = S.step := rfl
  have hinit : ({ S with thresh := ε } : Sys ω ι κ₀ κ₁).init = S.init := rfl
  rw [hstep, hinit] at hd' e1' e2' e3' e4' e5'
  have hkk : k ≤ k' := by
    by_contra hlt
    have hD : S.Done (S.step^[k'] S.init) := fun v => (hd' v).trans hε
    obtain ⟨k0, hk0, hnot⟩ : ∃ t0, S.Exits k t0 ∧ True := by
      rcases ht with h | h
      · exact ⟨t, h, trivial⟩
      · obtain ⟨t0, h0, -⟩ := (C19_branches_agree S hS.u2d o k).1 t h
        exact ⟨t0, h0, trivial⟩
    exact hk0.2.2 k' (by omega) hD
  obtain ⟨m1, m2, m3, m4, m5⟩ := rec_mono S hS hp w hkk
  rw [e1, e2, e3, e4, e5, e1', e2', e3', e4', e5']
  exact ⟨hkk, m1, m2, m3, m4, m5⟩

end Rayflare
