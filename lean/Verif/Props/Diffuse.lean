import Verif.Spec.Diffuse
import Verif.Props.Planar
import Verif.Props.Steady
import Verif.Props.Ideal

/-!
# Property C144: a diffuse reflector at the rear gives the light-trapping formula
-/

namespace Rayflare

open Rayflare.Np Rayflare.Model Rayflare.Spec Rayflare.Lemmas Matrix

set_option linter.unusedSectionVars false

variable {ω κ₀ κ₁ : Type*} [Fintype κ₀] [Fintype κ₁]

/-! ## Helper lemmas: a rear surface with equal columns -/

section abstract
variable {ι : Type*} [Fintype ι] [DecidableEq ι]

/-- Matrices of a structure with a rear surface that reflects light from all directions in the same way (`lam`); `pu` and `pd` are the fractions surviving a passage upwards and downwards. -/
structure DiffuseSys (S : Sys ω ι κ₀ κ₁) (w : ω) (pu pd lam : ι → ℝ) (σ : ι → ι) (back : ι → Face κ₀) (front : Face κ₀) (first : ℝ) : Prop where
  f0R : ∑ r, ((S.front0 w).R *ᵥ S.v0 w) r = front.refl
  f0T : ∑ r, ((S.front0 w).T *ᵥ S.v0 w) r = front.trns
  f0P : ∑ r, pd r * ((S.front0 w).T *ᵥ S.v0 w) r = front.trns * first
  f0A : ∀ l, ((S.front0 w).A *ᵥ S.v0 w) l = front.abs l
  dn : ∀ x, ∑ k, (S.D w *ᵥ (S.down2up *ᵥ x)) k = ∑ r, pd r * x r
  f1R : ∀ k j, (S.front1 w).R k j = lam k
  f1T : ∀ k j, (S.front1 w).T k j = 0
  f1A : ∀ k j, (S.front1 w).A k j = 0
  one : ∑ k, lam k = 1
  D : ∀ x j, (S.D w *ᵥ x) j = pu j * x j
  u2d : ∀ r j, S.up2down r j = if r = σ j then 1 else 0
  r0R : ∀ j, ∑ k, (S.rear0 w).R k j = (back j).refl
  r0P : ∀ j, ∑ k, pd k * (S.rear0 w).R k j = pd j * (back j).refl
  r0T : ∀ j, ∑ k, (S.rear0 w).T k j = (back j).trns
  r0A : ∀ l j, (S.rear0 w).A l j = (back j).abs l
  same : ∀ j, pd (σ j) = pu j

/-- Sum of a matrix-vector product weighted with `p`. -/
theorem weighted_mulVec {ρ : Type*} [Fintype ρ] (M : Matrix ρ ι ℝ) (p : ρ → ℝ) (x : ι → ℝ) : ∑ r, p r * (M *ᵥ x) r = ∑ j, (∑ r, p r * M r j) * x j := by
  change ∑ r, p r * ∑ j, M r j * x j = _
  simp only [Finset.mul_sum, Finset.sum_mul]
  rw [Finset.sum_comm]
  exact Finset.sum_congr rfl fun j _ => Finset.sum_congr rfl fun r _ => by ring

/-- The steady flows: `u` is the light that leaves the reflector. -/
noncomputable def diffuseFlows (S : Sys ω ι κ₀ κ₁) (w : ω) (lam : ι → ℝ) (u : ℝ) : Flows ι :=
  let up1 := fun j => u * lam j
  let up0 := S.up2down *ᵥ (S.D w *ᵥ up1)
  let down0 := (S.front0 w).T *ᵥ S.v0 w + (S.rear0 w).R *ᵥ up0
  ⟨down0, S.D w *ᵥ (S.down2up *ᵥ down0), up1, up0⟩

theorem diffuse_up0 {S : Sys ω ι κ₀ κ₁} {w : ω} {pu pd lam : ι → ℝ} {σ : ι → ι} {back : ι → Face κ₀} {front : Face κ₀} {first : ℝ} (h : DiffuseSys S w pu pd lam σ back front first) (u : ℝ) (g : ι → ℝ) :
    ∑ r, g r * (diffuseFlows S w lam u).up0 r = u * ∑ j, lam j * (pu j * g (σ j)) := by
  unfold diffuseFlows
  simp only
  rw [weighted_mulVec, Finset.mul_sum]
  refine Finset.sum_congr rfl fun j _ => ?_
  rw [h.D]
  simp only [h.u2d]
  simp
  ring

theorem diffuse_steady {S : Sys ω ι κ₀ κ₁} {w : ω} {pu pd lam : ι → ℝ} {σ : ι → ι} {back : ι → Face κ₀} {front : Face κ₀} {first : ℝ} (h : DiffuseSys S w pu pd lam σ back front first) (hp : NonnegData S)
    (hlam : ∀ j, 0 ≤ lam j) (hpu : ∀ j, 0 ≤ pu j) (u : ℝ) (hu : 0 ≤ u) (hq : u = front.trns * first + u * ∑ j, lam j * (pu j ^ 2 * (back (σ j)).refl)) :
    IsSteady S w (diffuseFlows S w lam u) ∧
    ∑ r, (diffuseFlows S w lam u).refl S w r = front.refl + u * ∑ j, lam j * (pu j * (back (σ j)).trns) ∧
    (∀ r, (diffuseFlows S w lam u).trns S w r = 0) ∧
    (diffuseFlows S w lam u).bulk = front.trns * (1 - first) + u * ∑ j, lam j * ((1 - pu j) + pu j * (back (σ j)).refl * (1 - pu j)) ∧
    (∀ l, (diffuseFlows S w lam u).abs0 S w l = front.abs l + u * ∑ j, lam j * (pu j * (back (σ j)).abs l)) ∧
    (∀ l, (diffuseFlows S w lam u).abs1 S w l = 0) := by
  set f := diffuseFlows S w lam u with hf
  have e0 : f.down0 = (S.front0 w).T *ᵥ S.v0 w + (S.rear0 w).R *ᵥ f.up0 := rfl
  have hdown1 : ∑ k, f.down1 k = u := by
    have : f.down1 = S.D w *ᵥ (S.down2up *ᵥ f.down0) := rfl
    rw [this, h.dn, e0]
    simp only [Pi.add_apply, mul_add, Finset.sum_add_distrib]
    rw [h.f0P, weighted_mulVec]
    simp only [h.r0P]
    rw [diffuse_up0 h]
    conv_rhs => rw [hq]
    congr 2
    refine Finset.sum_congr rfl fun j _ => ?_
    rw [h.same]; ring
  have hup0 : ∀ r, 0 ≤ f.up0 r := by
    intro r
    change 0 ≤ ∑ j, S.up2down r j * (S.D w *ᵥ _) j
    refine Finset.sum_nonneg fun j _ => mul_nonneg (hp.u2d r j) ?_
    rw [h.D]
    exact mul_nonneg (hpu j) (mul_nonneg hu (hlam j))
  have sdown0 : ∑ r, f.down0 r = front.trns + u * ∑ j, lam j * (pu j * (back (σ j)).refl) := by
    rw [e0]
    simp only [Pi.add_apply, Finset.sum_add_distrib]
    rw [h.f0T]
    have := weighted_mulVec (S.rear0 w).R (fun _ => 1) f.up0
    simp only [one_mul] at this
    rw [this]
    simp only [h.r0R]
    rw [diffuse_up0 h]
  have sup1 : ∑ r, f.up1 r = u := by
    change ∑ r, u * lam r = u
    rw [← Finset.mul_sum, h.one, mul_one]
  have sup0 : ∑ r, f.up0 r = u * ∑ j, lam j * pu j := by
    have := diffuse_up0 h u fun _ => 1
    simpa using this
  refine ⟨⟨fun j => ?_, rfl, rfl, ?_, rfl⟩, ?_, fun r => ?_, ?_, fun l => ?_, fun l => ?_⟩
  · rw [e0]
    refine add_nonneg (Finset.sum_nonneg fun k _ => mul_nonneg ((hp.f0 w).2.1 j k) (hp.v0 w k)) (Finset.sum_nonneg fun k _ => mul_nonneg ((hp.r0 w).1 j k) (hup0 k))
  · funext k
    change u * lam k = ∑ j, (S.front1 w).R k j * f.down1 j
    simp only [h.f1R]
    rw [← Finset.mul_sum, hdown1, mul_comm]
  · unfold Flows.refl
    simp only [Pi.add_apply, Finset.sum_add_distrib]
    rw [h.f0R]
    have := weighted_mulVec (S.rear0 w).T (fun _ => 1) f.up0
    simp only [one_mul] at this
    rw [this]
    simp only [h.r0T]
    rw [diffuse_up0 h]
  · change ∑ j, (S.front1 w).T r j * f.down1 j = 0
    simp [h.f1T]
  · unfold Flows.bulk
    rw [sdown0, hdown1, sup1, sup0]
    have e : ∑ j, lam j * ((1 - pu j) + pu j * (back (σ j)).refl * (1 - pu j)) =
        ∑ j, lam j - ∑ j, lam j * pu j + ∑ j, lam j * (pu j * (back (σ j)).refl) - ∑ j, lam j * (pu j ^ 2 * (back (σ j)).refl) := by
      rw [← Finset.sum_sub_distrib, ← Finset.sum_add_distrib, ← Finset.sum_sub_distrib]
      exact Finset.sum_congr rfl fun j _ => by ring
    rw [e, h.one]
    linear_combination -hq
  · unfold Flows.abs0
    rw [Pi.add_apply, h.f0A]
    congr 1
    change ∑ j, (S.rear0 w).A l j * f.up0 j = _
    simp only [h.r0A]
    exact diffuse_up0 h u fun j => (back j).abs l
  · change ∑ j, (S.front1 w).A l j * f.down1 j = 0
    simp [h.f1A]

end abstract

/-! ## Helper lemmas: rings -/

section rings
variable (n : ℕ) (hn : 0 < n) (s c : ℝ) (sp : Spacing)

theorem sum_rings (F : ℕ → ℝ) (m : ℕ) : ∑ j ∈ Finset.range (ringStart n c m), F j = ∑ i ∈ Finset.range m, ∑ k ∈ Finset.range (ringSize n c i), F (ringStart n c i + k) := by
  induction m with
  | zero => simp [ringStart]
  | succ m ih => rw [ringStart_succ, Finset.sum_range_add, ih, Finset.sum_range_succ]

include hn in
theorem upper_ring (j : Fin (makeAngleVector n s c sp).half) : ∃ i, i < n ∧ polar (makeAngleVector n s c sp) j = polarMid n sp i ∧ ∃ k < ringSize n c i, (j : ℕ) = ringStart n c i + k := by
  obtain ⟨row, h1, h2⟩ := polar_row n hn s c sp (r := j) (by omega)
  obtain ⟨i, k, hi, hk, hj, hrow⟩ := row_decomp n hn s c sp h1
  refine ⟨i, ?_, by rw [h2, hrow], k, hk, hj⟩
  by_contra hge
  have h3 := ringStart_mono n c (show n ≤ i by omega)
  have h4 : (makeAngleVector n s c sp).half = ringStart n c n := half_eq n hn c sp s
  have := j.2
  omega

include hn in
theorem lower_ring (j : Fin (makeAngleVector n s c sp).half) : ∃ i, i < n ∧ polar (makeAngleVector n s c sp) ((makeAngleVector n s c sp).half + j) = Real.pi - polarMid n sp i := by
  obtain ⟨row, h1, h2⟩ := polar_row n hn s c sp (r := (makeAngleVector n s c sp).half + j) (by omega)
  obtain ⟨i, k, hi, hk, hj, hrow⟩ := row_decomp n hn s c sp h1
  have h4 : (makeAngleVector n s c sp).half = ringStart n c n := half_eq n hn c sp s
  have hge : n ≤ i := by
    by_contra hlt
    have h3 := ringStart_mono n c (show i + 1 ≤ n by omega)
    rw [ringStart_succ] at h3
    omega
  refine ⟨2 * n - 1 - i, by omega, ?_⟩
  rw [h2, hrow, polarMid_symm n hn sp hi]
  simp

/-- Share of ring `i` in the light reflected by the diffuse reflector of the program. -/
noncomputable def codeShare (i : ℕ) : ℝ := Real.cos (polarMid n sp i) * (polarEdge n sp (i + 1) - polarEdge n sp i) / ∑ j ∈ Finset.range n, Real.cos (polarMid n sp j) * (polarEdge n sp (j + 1) - polarEdge n sp j)

include hn in
theorem lambert_mean (hc : 0 < c) (G : ℕ → ℝ) (iU : Fin (makeAngleVector n s c sp).half → ℕ) (hU : ∀ j, iU j < n ∧ polar (makeAngleVector n s c sp) j = polarMid n sp (iU j)) :
    ∑ j : Fin (makeAngleVector n s c sp).half, (lambertStored (makeAngleVector n s c sp)).getD j 0 * G (iU j) = ∑ i ∈ Finset.range n, codeShare n sp i * G i := by
  have hhalf : (makeAngleVector n s c sp).half = ringStart n c n := half_eq n hn c sp s
  let F : ℕ → ℝ := fun j => (lambertStored (makeAngleVector n s c sp)).getD j 0 * G (if h : j < (makeAngleVector n s c sp).half then iU ⟨j, h⟩ else 0)
  have e1 : ∑ j : Fin (makeAngleVector n s c sp).half, (lambertStored (makeAngleVector n s c sp)).getD j 0 * G (iU j) = ∑ j : Fin (makeAngleVector n s c sp).half, F j := by
    refine Finset.sum_congr rfl fun j _ => ?_
    simp [F]
  rw [e1, Fin.sum_univ_eq_sum_range F, show Finset.range (makeAngleVector n s c sp).half = Finset.range (ringStart n c n) from congrArg _ hhalf, sum_rings]
  refine Finset.sum_congr rfl fun i hi => ?_
  have hi := Finset.mem_range.mp hi
  have h0 := ringTotal_lambert n hn s c hc sp hi
  unfold ringTotal at h0
  change _ = lamW n sp i / (∑ j ∈ Finset.range n, lamW n sp j) * G i
  rw [← h0, Finset.sum_mul]
  refine Finset.sum_congr rfl fun k hk => ?_
  have hk := Finset.mem_range.mp hk
  have hlt := bin_lt_half n c hi hk
  rw [← hhalf] at hlt
  simp only [F, dif_pos hlt]
  congr 2
  have h2 := hU ⟨_, hlt⟩
  have h3 := angleVector_get n hn s c sp (show i < 2 * n by omega) hk
  have h4 : polar (makeAngleVector n s c sp) (ringStart n c i + k) = polarMid n sp i := by unfold polar; rw [h3]; rfl
  exact (polarMid_inj n hn sp (by omega) (by omega) (h4.symm.trans h2.2)).symm

include hn in
theorem codeShare_sum : ∑ i ∈ Finset.range n, codeShare n sp i = 1 := by
  have hW : 0 < ∑ j ∈ Finset.range n, lamW n sp j := by
    apply Finset.sum_pos
    · intro i hi; exact lamW_pos n hn sp (Finset.mem_range.mp hi)
    · exact ⟨0, Finset.mem_range.mpr hn⟩
  change ∑ i ∈ Finset.range n, lamW n sp i / (∑ j ∈ Finset.range n, lamW n sp j) = 1
  rw [← Finset.sum_div, div_self hW.ne']

end rings

/-! ## Helper lemmas: the assembled system -/

section assembled
variable (n : ℕ) (hn : 0 < n) (s : ℝ) (hs : (∃ q : ℕ, 0 < q ∧ s = 2 * Real.pi / ((2 * q : ℕ) : ℝ)) ∨ s = 2 * Real.pi) (c : ℝ) (hc : 0 < c) (sp : Spacing)
  (thIn : ℝ) {i0 iB : ℕ} (hi0 : i0 < n) (hl1 : polarEdge n sp i0 ≤ thIn) (hl2 : thIn < polarEdge n sp (i0 + 1)) (phiIn : PhiIn)
  (hphi : ∀ p, phiIn = .val p → 0 ≤ p ∧ p ≠ s) (inp : RatInput ω κ₀ κ₁ (makeAngleVector n s c sp).half)
  (S : Sys ω (Fin (makeAngleVector n s c sp).half) κ₀ κ₁) (hS : assemble n s c sp thIn phiIn inp = some S) (w : ω)
  (hiB : iB < n) (θR : ℕ → ℝ) (hR : ∀ i < n, θR i < Real.pi / 2) (ff : Face κ₀) (fb : ℕ → Face κ₀)
  (h0 : Flat (makeAngleVector n s c sp) true (inp.front0 w) (polarMid n sp i0) (Real.pi - polarMid n sp iB) ff)
  (h1 : ∀ r j, (inp.front1 w).1 r j = (lambertStored (makeAngleVector n s c sp)).getD r 0) (h1' : ∀ l j, (inp.front1 w).2 l j = 0)
  (h2 : ∀ i < n, Flat (makeAngleVector n s c sp) false (inp.rear0 w) (Real.pi - polarMid n sp i) (θR i) (fb i))

include hn hi0 hl1 hl2 in
theorem ring_angle : 0 ≤ thIn ∧ thIn < Real.pi / 2 := by
  have mono : ∀ {a b : ℕ}, a < b → b ≤ 2 * n → polarEdge n sp a < polarEdge n sp b := fun h h' => polarEdge_strictMono n hn sp _ _ h h'
  constructor
  · rcases Nat.eq_zero_or_pos i0 with h | h
    · rw [h, polarEdge_zero] at hl1; exact hl1
    · have := mono h (by omega); rw [polarEdge_zero] at this; linarith
  · rw [← polarEdge_half n hn sp]
    rcases Nat.lt_or_ge (i0 + 1) n with h | h
    · exact hl2.trans (mono h (by omega))
    · have e : n = i0 + 1 := by omega
      rw [show polarEdge n sp n = polarEdge n sp (i0 + 1) by rw [← e]]; exact hl2

include hn hs hc hi0 hl1 hl2 hphi hS hiB hR h0 h1 h1' h2 in
theorem diffuse_assembled (iU iL : Fin (makeAngleVector n s c sp).half → ℕ) (hU : ∀ j, iU j < n ∧ polar (makeAngleVector n s c sp) j = polarMid n sp (iU j))
    (hL : ∀ j, iL j < n ∧ polar (makeAngleVector n s c sp) ((makeAngleVector n s c sp).half + j) = Real.pi - polarMid n sp (iL j)) :
    ∃ σ : Fin (makeAngleVector n s c sp).half → Fin (makeAngleVector n s c sp).half, (∀ j, iL (σ j) = iU j) ∧
    DiffuseSys S w (fun j => Real.exp (-inp.α w * inp.thick / |Real.cos (polarMid n sp (iU j))|)) (fun j => Real.exp (-inp.α w * inp.thick / |Real.cos (polarMid n sp (iL j))|))
      (fun j => (lambertStored (makeAngleVector n s c sp)).getD j 0) σ (fun j => fb (iL j)) ff (Real.exp (-inp.α w * inp.thick / |Real.cos (polarMid n sp iB)|)) := by
  have hs0 : 0 < s := by
    have := Real.pi_pos
    rcases hs with ⟨q, hq, rfl⟩ | rfl <;> positivity
  have hpi := Real.pi_pos
  have hm0 := polarMid_lt_half n hn sp hi0
  have hmB := polarMid_lt_half n hn sp hiB
  have F0 := fun j hj => flat_halves n hn s c sp h0 (polarMid n sp i0) (Real.pi - polarMid n sp iB) hm0 (by linarith) (Or.inl ⟨rfl, rfl⟩) j hj
  have F2 := fun j => flat_halves n hn s c sp (h2 (iL j) (hL j).1) (θR (iL j)) (Real.pi - polarMid n sp (iL j)) (hR _ (hL j).1) (by have := polarMid_lt_half n hn sp (hL j).1; linarith) (Or.inr ⟨rfl, rfl⟩) j (hL j).2
  have hneR : ∀ j, ¬ Real.pi - polarMid n sp (iL j) = θR (iL j) := by
    intro j h
    have := polarMid_lt_half n hn sp (hL j).1
    have := hR _ (hL j).1
    linarith
  have hfmt := format_polar n hn s hs c hc sp
  obtain ⟨ht0, ht1⟩ := ring_angle n hn sp thIn hi0 hl1 hl2
  have inj : ∀ {i i' : ℕ}, i < n → i' < n → polarMid n sp i = polarMid n sp i' → i = i' := fun h h' e => polarMid_inj n hn sp (by omega) (by omega) e
  -- the bin of the lower hemisphere opposite to a bin of the upper one, and back
  have hσ : ∀ j : Fin (makeAngleVector n s c sp).half, ∃ r : Fin (makeAngleVector n s c sp).half, UnitColumn (makeAngleVector n s c sp).half (upToDown (makeAngleVector n s c sp) s) j r ∧ iL r = iU j := by
    intro j
    obtain ⟨r, hr, e⟩ := (hfmt j j.2).1
    refine ⟨⟨r, hr.1⟩, hr, inj (hL _).1 (hU j).1 ?_⟩
    have := (hL ⟨r, hr.1⟩).2
    simp only at this
    rw [e, (hU j).2] at this
    linarith
  have hτ : ∀ j : Fin (makeAngleVector n s c sp).half, ∃ r : Fin (makeAngleVector n s c sp).half, UnitColumn (makeAngleVector n s c sp).half (downToUp (makeAngleVector n s c sp) s) j r ∧ iU r = iL j := by
    intro j
    obtain ⟨r, hr, e⟩ := (hfmt j j.2).2
    refine ⟨⟨r, hr.1⟩, hr, inj (hU _).1 (hL j).1 ?_⟩
    have := (hU ⟨r, hr.1⟩).2
    simp only at this
    rw [e, (hL j).2] at this
    linarith
  choose σ hσ1 hσ2 using hσ
  choose τ hτ1 hτ2 using hτ
  have hD : ∀ x j, (S.D w *ᵥ x) j = Real.exp (-inp.α w * inp.thick / |Real.cos (polarMid n sp (iU j))|) * x j := by
    intro x j
    unfold assemble at hS
    simp only [Option.map_eq_some_iff] at hS
    obtain ⟨v, hv, rfl⟩ := hS
    unfold Sys.D makeD
    rw [Matrix.mulVec_diagonal, ← (hU j).2]
    rfl
  have hD2U : ∀ r j, S.down2up r j = if r = τ j then 1 else 0 := by
    intro r j
    unfold assemble at hS
    simp only [Option.map_eq_some_iff] at hS
    obtain ⟨v, hv, rfl⟩ := hS
    have := (hτ1 j).2 r r.2
    simp only [Fin.ext_iff]
    exact this
  have hU2D : ∀ r j, S.up2down r j = if r = σ j then 1 else 0 := by
    intro r j
    unfold assemble at hS
    simp only [Option.map_eq_some_iff] at hS
    obtain ⟨v, hv, rfl⟩ := hS
    have := (hσ1 j).2 r r.2
    simp only [Fin.ext_iff]
    exact this
  have hdn : ∀ x, ∑ k, (S.D w *ᵥ (S.down2up *ᵥ x)) k = ∑ r, Real.exp (-inp.α w * inp.thick / |Real.cos (polarMid n sp (iL r))|) * x r := by
    intro x
    simp only [hD]
    rw [weighted_mulVec]
    refine Finset.sum_congr rfl fun r _ => ?_
    simp only [hD2U]
    simp [hτ2]
  obtain ⟨l1, l2, l3, -, l5⟩ := C23_lambertian n hn s c hc sp
  have hone : ∑ j : Fin (makeAngleVector n s c sp).half, (lambertStored (makeAngleVector n s c sp)).getD j 0 = 1 := by
    have := lambert_mean n hn s c sp hc (fun _ => 1) iU hU
    simp only [mul_one] at this
    rw [this, codeShare_sum n hn]
  refine ⟨σ, hσ2, ?_⟩
  unfold assemble at hS
  simp only [Option.map_eq_some_iff] at hS
  obtain ⟨v, hv, rfl⟩ := hS
  obtain ⟨hl, hsum, -⟩ := launch_total n hn s c hc sp thIn ht0 ht1 _ v hv
  have hv0 : InSet (fun j : Fin (makeAngleVector n s c sp).half => polar (makeAngleVector n s c sp) j = polarMid n sp i0) (fun j => v.getD j 0) := by
    intro j hj
    by_contra hne
    have hjl : (j : ℕ) < v.length := by rw [hl]; exact j.2
    refine hj (launch_ring n hn s c sp hs0 hc thIn hi0 hl1 hl2 phiIn hphi v hv j _ (List.getElem?_eq_getElem hjl) ?_)
    simpa [hjl] using hne
  have hv1 : ∑ j : Fin (makeAngleVector n s c sp).half, v.getD j 0 = 1 := by
    rw [← hsum]
    exact sum_getD v _ hl
  refine ⟨?_, ?_, ?_, fun l => ?_, hdn, fun k j => ?_, fun k j => ?_, fun k j => ?_, hone, hD, hU2D, fun j => ?_, fun j => ?_, fun j => ?_, fun l j => ?_, fun j => ?_⟩
  · have := weighted_sum (fun r j => (inp.front0 w).1 (Fin.castAdd _ r) j) (fun j hj => (F0 j hj).1.trans (if_pos rfl)) hv0
    rw [hv1, mul_one] at this
    exact this
  · have := weighted_sum (fun r j => (inp.front0 w).1 (Fin.natAdd _ r) j) (fun j hj => (F0 j hj).2.1.trans (if_pos rfl)) hv0
    rw [hv1, mul_one] at this
    exact this
  · have := weighted_sum (fun r j => (inp.front0 w).1 (Fin.natAdd _ r) j) (fun j hj => (F0 j hj).2.1.trans (if_pos rfl)) hv0
    rw [hv1, mul_one] at this
    have hin : InSet (fun j : Fin (makeAngleVector n s c sp).half => polar (makeAngleVector n s c sp) ((makeAngleVector n s c sp).half + j) = Real.pi - polarMid n sp iB)
        ((fun r j => (inp.front0 w).1 (Fin.natAdd _ r) j : Matrix _ _ ℝ) *ᵥ fun j : Fin (makeAngleVector n s c sp).half => v.getD j 0) := by
      intro r hr
      change ∑ j : Fin (makeAngleVector n s c sp).half, (inp.front0 w).1 (Fin.natAdd _ r) j * v.getD j 0 = 0
      refine Finset.sum_eq_zero fun j _ => ?_
      by_cases hj : polar (makeAngleVector n s c sp) j = polarMid n sp i0
      · rw [(F0 j hj).2.2.2 r hr, zero_mul]
      · exact mul_eq_zero_of_right _ (hv0 j hj)
    rw [mul_comm ff.trns, ← this, Finset.mul_sum]
    refine Finset.sum_congr rfl fun r _ => ?_
    by_cases hr : polar (makeAngleVector n s c sp) ((makeAngleVector n s c sp).half + r) = Real.pi - polarMid n sp iB
    · congr 1
      have : iL r = iB := inj (hL r).1 hiB (by have := (hL r).2; rw [hr] at this; linarith)
      rw [this]
    · have h := hin r hr
      refine (mul_eq_zero_of_right _ h).trans (mul_eq_zero_of_right _ h).symm
  · have := weighted_row (inp.front0 w).2 (fun j hj => h0.abs j hj l) hv0
    rw [hv1, mul_one] at this
    exact this
  · exact h1 (Fin.castAdd _ k) j
  · refine (h1 (Fin.natAdd _ k) j).trans ?_
    have := l5 k k.2
    rw [List.getD_eq_getElem?_getD]
    simp only [Fin.val_natAdd]
    rw [show (makeAngleVector n s c sp).half + (k : ℕ) = (makeAngleVector n s c sp).angleVector.length / 2 + k from rfl, this]
    rfl
  · exact h1' k j
  · exact (F2 j).2.1.trans (if_neg (hneR j))
  · rw [← show ∑ k, (inp.rear0 w).1 (Fin.natAdd _ k) j = (fb (iL j)).refl from (F2 j).2.1.trans (if_neg (hneR j)), Finset.mul_sum]
    refine Finset.sum_congr rfl fun k _ => ?_
    by_cases hk : polar (makeAngleVector n s c sp) ((makeAngleVector n s c sp).half + k) = Real.pi - polarMid n sp (iL j)
    · congr 1
      have : iL k = iL j := inj (hL k).1 (hL j).1 (by have := (hL k).2; rw [hk] at this; linarith)
      rw [this]
    · have h := (F2 j).2.2.2 k hk
      refine (mul_eq_zero_of_right _ h).trans (mul_eq_zero_of_right _ h).symm
  · exact (F2 j).1.trans (if_neg (hneR j))
  · exact (h2 (iL j) (hL j).1).abs j (hL j).2 l
  · simp only [hσ2]

include hn hs hc hi0 hl1 hl2 hphi hS hiB hR h0 h1 h1' h2 in
/-- **C144 (partial).** A flat front surface and a `Lambertian` rear surface: whenever the loop ends (both branches), reflectance and absorptances are those of the light-trapping formula, to within `I_thresh`; nothing is transmitted.  The shares of the rings in the reflected
light are those the program uses, `cos θ Δθ` normalised.  What is missing for the full property are the shares of Lambert's law, `sin² θ₂ - sin² θ₁`, see `C144_fails`. -/
theorem C144_trapping_partial (hα : ∀ w, 0 ≤ inp.α w) (hd : 0 ≤ inp.thick) (k0 : ∀ w, StoredOk (inp.front0 w)) (k1 : ∀ w, StoredOk (inp.front1 w)) (k2 : ∀ w, StoredOk (inp.rear0 w))
    (o : ProfOpts ω (Fin (makeAngleVector n s c sp).half)) (k : ℕ) (t : LoopState ω (Fin (makeAngleVector n s c sp).half) κ₀ κ₁) (ht : S.Exits k t ∨ S.ExitsProf o k t) :
    let W := ∑ j ∈ Finset.range n, Real.cos (polarMid n sp j) * (polarEdge n sp (j + 1) - polarEdge n sp j)
    let d : DiffuseSlab κ₀ :=
      { rings := n
        front := ff
        first := Real.exp (-inp.α w * inp.thick / |Real.cos (polarMid n sp iB)|)
        pass := fun i => Real.exp (-inp.α w * inp.thick / |Real.cos (polarMid n sp i)|)
        share := fun i => Real.cos (polarMid n sp i) * (polarEdge n sp (i + 1) - polarEdge n sp i) / W
        back := fb }
    d.round < 1 →
    (t.R w ≤ d.R ∧ d.R ≤ t.R w + inp.thresh) ∧ (t.Abulk w ≤ d.bulk ∧ d.bulk ≤ t.Abulk w + inp.thresh) ∧
    (∀ l, (t.a0.map fun v => v w l).sum ≤ d.abs0 l ∧ d.abs0 l ≤ (t.a0.map fun v => v w l).sum + inp.thresh) ∧ t.T w = 0 ∧ ∀ l, (t.a1.map fun v => v w l).sum = 0 := by
  intro W d hq
  obtain ⟨ht0, ht1⟩ := ring_angle n hn sp thIn hi0 hl1 hl2
  obtain ⟨hE, hN, hcos, hv⟩ := C15_assembled n hn s hs c hc sp thIn ht0 ht1 phiIn inp hα hd k0 k1 k2 S hS
  have hthr : S.thresh = inp.thresh := by
    unfold assemble at hS
    simp only [Option.map_eq_some_iff] at hS
    obtain ⟨v, -, rfl⟩ := hS
    rfl
  have hUex := upper_ring n hn s c sp
  have hLex := lower_ring n hn s c sp
  choose iU hU1 hU2 hU3 using hUex
  choose iL hL1 hL2 using hLex
  obtain ⟨σ, hσ, hsys⟩ := diffuse_assembled n hn s hs c hc sp thIn hi0 hl1 hl2 phiIn hphi inp S hS w hiB θR hR ff fb h0 h1 h1' h2 iU iL (fun j => ⟨hU1 j, hU2 j⟩) (fun j => ⟨hL1 j, hL2 j⟩)
  have hmean : ∀ G : ℕ → ℝ, ∑ j : Fin (makeAngleVector n s c sp).half, (lambertStored (makeAngleVector n s c sp)).getD j 0 * G (iU j) = d.mean G :=
    fun G => lambert_mean n hn s c sp hc G iU fun j => ⟨hU1 j, hU2 j⟩
  have hlam : ∀ j : Fin (makeAngleVector n s c sp).half, 0 ≤ (lambertStored (makeAngleVector n s c sp)).getD j 0 := by
    intro j
    rw [← hsys.f1R j j]
    exact (hN.f1 w).1 j j
  have hfT : 0 ≤ ff.trns := by
    rw [← hsys.f0T]
    refine Finset.sum_nonneg fun r _ => ?_
    change 0 ≤ ∑ k, (S.front0 w).T r k * S.v0 w k
    exact Finset.sum_nonneg fun k _ => mul_nonneg ((hN.f0 w).2.1 r k) (hN.v0 w k)
  have hq' : 0 < 1 - d.round := by linarith
  have hu : 0 ≤ ff.trns * d.sent := mul_nonneg hfT (div_nonneg (Real.exp_pos _).le hq'.le)
  obtain ⟨g1, g2, g3, g4, g5, g6⟩ := diffuse_steady hsys hN hlam (fun j => (Real.exp_pos _).le) (ff.trns * d.sent) hu (by
    simp only [hσ]
    rw [hmean fun i => Real.exp (-inp.α w * inp.thick / |Real.cos (polarMid n sp i)|) ^ 2 * (fb i).refl]
    change ff.trns * (d.first / (1 - d.round)) = ff.trns * d.first + ff.trns * (d.first / (1 - d.round)) * d.round
    field_simp
    ring)
  simp only [hσ] at g2 g4 g5
  rw [hmean fun i => Real.exp (-inp.α w * inp.thick / |Real.cos (polarMid n sp i)|) * (fb i).trns] at g2
  rw [hmean fun i => 1 - Real.exp (-inp.α w * inp.thick / |Real.cos (polarMid n sp i)|) + Real.exp (-inp.α w * inp.thick / |Real.cos (polarMid n sp i)|) * (fb i).refl * (1 - Real.exp (-inp.α w * inp.thick / |Real.cos (polarMid n sp i)|))] at g4
  simp only [fun l => hmean fun i => Real.exp (-inp.α w * inp.thick / |Real.cos (polarMid n sp i)|) * (fb i).abs l] at g5
  obtain ⟨a1, a2, a3, a4, ⟨b1, b2, b3, b4, b5⟩, a6⟩ := C133_accuracy S hE hN o k t ht w _ g1
  have eR : ∑ r, (diffuseFlows S w (fun j : Fin (makeAngleVector n s c sp).half => (lambertStored (makeAngleVector n s c sp)).getD j 0) (ff.trns * d.sent)).refl S w r = d.R := g2
  have eB : (diffuseFlows S w (fun j : Fin (makeAngleVector n s c sp).half => (lambertStored (makeAngleVector n s c sp)).getD j 0) (ff.trns * d.sent)).bulk = d.bulk := g4
  have eA : ∀ l, (diffuseFlows S w (fun j : Fin (makeAngleVector n s c sp).half => (lambertStored (makeAngleVector n s c sp)).getD j 0) (ff.trns * d.sent)).abs0 S w l = d.abs0 l := g5
  have eT : ∑ r, (diffuseFlows S w (fun j : Fin (makeAngleVector n s c sp).half => (lambertStored (makeAngleVector n s c sp)).getD j 0) (ff.trns * d.sent)).trns S w r = 0 := Finset.sum_eq_zero fun r _ => g3 r
  have eA1 : ∑ r, (diffuseFlows S w (fun j : Fin (makeAngleVector n s c sp).half => (lambertStored (makeAngleVector n s c sp)).getD j 0) (ff.trns * d.sent)).abs1 S w r = 0 := Finset.sum_eq_zero fun r _ => g6 r
  rw [eR] at b1 a6
  rw [eT] at b2 a6
  rw [eB] at b3 a6
  rw [eA1] at b5 a6
  rw [hthr] at a6 a3 a4
  simp only [eA] at a3 b4 a6
  simp only [g6] at a4
  obtain ⟨-, -, -, -, n1, -, n2⟩ := C15_nonneg S hE hN o k t (ht.imp (fun h => h.1) fun h => h.1)
  obtain ⟨n3, n4, n5, n6, n7⟩ := n2 w
  refine ⟨⟨b1, by linarith⟩, ⟨b3, by linarith⟩, a3, le_antisymm b2 n4, fun l => le_antisymm (a4 l).1 ?_⟩
  refine List.sum_nonneg fun x hx => ?_
  obtain ⟨v, hv, rfl⟩ := List.mem_map.mp hx
  exact n1 v hv w l

end assembled

/-- Every angle up to 90° is in one of the rings. -/
theorem ring_of_angle (n : ℕ) (hn : 0 < n) (sp : Spacing) (x : ℝ) (h0 : 0 < x) (h1 : x ≤ Real.pi / 2) : ∃ i < n, polarEdge n sp i < x ∧ x ≤ polarEdge n sp (i + 1) := by
  have hex : ∃ i, x ≤ polarEdge n sp (i + 1) := ⟨n - 1, by rw [Nat.sub_add_cancel hn, polarEdge_half n hn sp]; exact h1⟩
  refine ⟨Nat.find hex, ?_, ?_, Nat.find_spec hex⟩
  · have := Nat.find_min' hex (show x ≤ polarEdge n sp (n - 1 + 1) by rw [Nat.sub_add_cancel hn, polarEdge_half n hn sp]; exact h1)
    omega
  · rcases Nat.eq_zero_or_pos (Nat.find hex) with h | h
    · rw [h, polarEdge_zero]; exact h0
    · have := Nat.find_min hex (show Nat.find hex - 1 < Nat.find hex by omega)
      rw [Nat.sub_add_cancel h] at this
      exact not_le.mp this

/-- **C144 for a planar layer stack at the front (partial).** `calculate_RAT` for a bulk layer with a planar layer stack (`TMM`) at the front and a `Lambertian` rear surface, light refracted into ring `iB`: the light-trapping formula with what the solver reports for the
stack at the centres of the rings, total reflection from inside included.  What is missing are the shares of Lambert's law, see `C144_fails`. -/
theorem C144_tmm_partial (n : ℕ) (hn : 0 < n) (m : ℕ) (hm : (∃ q : ℕ, 0 < q ∧ m = 2 * q) ∨ m = 1) (hs : (1e-10 : ℝ) ≤ 2 * Real.pi / m) (c : ℝ) (hc : 0 < c) (sp : Spacing)
    (thIn : ℝ) {i0 iB : ℕ} (hi0 : i0 < n) (hl1 : polarEdge n sp i0 ≤ thIn) (hl2 : thIn < polarEdge n sp (i0 + 1)) (phiIn : PhiIn) (hphi : ∀ p, phiIn = .val p → 0 ≤ p ∧ p ≠ 2 * Real.pi / m)
    {n0 : ℕ} (inp : RatInput ω (Fin n0) κ₁ (makeAngleVector n (2 * Real.pi / m) c sp).half)
    (S : Sys ω (Fin (makeAngleVector n (2 * Real.pi / m) c sp).half) (Fin n0) κ₁) (hS : assemble n (2 * Real.pi / m) c sp thIn phiIn inp = some S) (w : ω)
    (hα : ∀ w, 0 ≤ inp.α w) (hd : 0 ≤ inp.thick) (k0 : ∀ w, StoredOk (inp.front0 w)) (k1 : ∀ w, StoredOk (inp.front1 w)) (k2 : ∀ w, StoredOk (inp.rear0 w))
    (inN bulkN : ℝ) (hin : 0 < inN) (hbulk : 0 < bulkN) (res0 resb : TmmRes)
    (t0 : StoredByTmm n c m sp true (inN / bulkN) res0 (inp.front0 w)) (t2 : StoredByTmm n c m sp false (bulkN / inN) resb (inp.rear0 w))
    (h1 : ∀ r j, (inp.front1 w).1 r j = (lambertStored (makeAngleVector n (2 * Real.pi / m) c sp)).getD r 0) (h1' : ∀ l j, (inp.front1 w).2 l j = 0)
    (hiB : iB < n) (hB0 : inN / bulkN * Real.sin (polarMid n sp i0) < 1)
    (hB : polarEdge n sp iB ≤ Real.arcsin (inN / bulkN * Real.sin (polarMid n sp i0)) ∧ Real.arcsin (inN / bulkN * Real.sin (polarMid n sp i0)) < polarEdge n sp (iB + 1))
    (hR0 : ∀ i < n, bulkN / inN * Real.sin (polarMid n sp i) ≠ 1) (hR1 : ∀ i < n, 1 < bulkN / inN * Real.sin (polarMid n sp i) → resb.T (polarMid n sp i) ≤ 1e-8)
    (o : ProfOpts ω (Fin (makeAngleVector n (2 * Real.pi / m) c sp).half)) (k : ℕ) (t : LoopState ω (Fin (makeAngleVector n (2 * Real.pi / m) c sp).half) (Fin n0) κ₁) (ht : S.Exits k t ∨ S.ExitsProf o k t) :
    let θ := polarMid n sp
    let W := ∑ j ∈ Finset.range n, Real.cos (θ j) * (polarEdge n sp (j + 1) - polarEdge n sp j)
    let d : DiffuseSlab (Fin n0) :=
      { rings := n
        front := ⟨res0.R (θ i0), res0.T (θ i0), fun l => res0.A (θ i0) l⟩
        first := Real.exp (-inp.α w * inp.thick / |Real.cos (θ iB)|)
        pass := fun i => Real.exp (-inp.α w * inp.thick / |Real.cos (θ i)|)
        share := fun i => Real.cos (θ i) * (polarEdge n sp (i + 1) - polarEdge n sp i) / W
        back := fun i => ⟨resb.R (θ i), if bulkN / inN * Real.sin (θ i) < 1 then resb.T (θ i) else 0, fun l => resb.A (θ i) l⟩ }
    d.round < 1 →
    (t.R w ≤ d.R ∧ d.R ≤ t.R w + inp.thresh) ∧ (t.Abulk w ≤ d.bulk ∧ d.bulk ≤ t.Abulk w + inp.thresh) ∧
    (∀ l, (t.a0.map fun v => v w l).sum ≤ d.abs0 l ∧ d.abs0 l ≤ (t.a0.map fun v => v w l).sum + inp.thresh) ∧ t.T w = 0 ∧ ∀ l, (t.a1.map fun v => v w l).sum = 0 := by
  intro θ W d hround
  have hpi := Real.pi_pos
  have hm0 : 0 < m := by rcases hm with ⟨q, hq, rfl⟩ | rfl <;> omega
  have hsym : (∃ q : ℕ, 0 < q ∧ 2 * Real.pi / (m : ℝ) = 2 * Real.pi / ((2 * q : ℕ) : ℝ)) ∨ 2 * Real.pi / (m : ℝ) = 2 * Real.pi := by
    rcases hm with ⟨q, hq, rfl⟩ | rfl
    · exact Or.inl ⟨q, hq, rfl⟩
    · exact Or.inr (by simp)
  have hmid : ∀ i < n, 0 < polarMid n sp i ∧ polarMid n sp i < Real.pi / 2 := by
    intro i hi
    refine ⟨?_, polarMid_lt_half n hn sp hi⟩
    have h1 := polarEdge_strictMono n hn sp i (i + 1) (by omega) (by omega)
    have h2 : 0 ≤ polarEdge n sp i := by
      rcases Nat.eq_zero_or_pos i with h | h
      · rw [h, polarEdge_zero]
      · have := polarEdge_strictMono n hn sp 0 i h (by omega); rw [polarEdge_zero] at this; exact this.le
    unfold polarMid; linarith
  have hring : ∀ i, ∃ r, r < n ∧ (i < n → bulkN / inN * Real.sin (polarMid n sp i) < 1 →
      polarEdge n sp r < Real.arcsin (bulkN / inN * Real.sin (polarMid n sp i)) ∧ Real.arcsin (bulkN / inN * Real.sin (polarMid n sp i)) ≤ polarEdge n sp (r + 1)) := by
    intro i
    by_cases h : i < n ∧ bulkN / inN * Real.sin (polarMid n sp i) < 1
    · have hsin := Real.sin_pos_of_pos_of_lt_pi (hmid i h.1).1 (by linarith [(hmid i h.1).2])
      obtain ⟨r, hr, h'⟩ := ring_of_angle n hn sp (Real.arcsin (bulkN / inN * Real.sin (polarMid n sp i))) (Real.arcsin_pos.mpr (by positivity)) (Real.arcsin_le_pi_div_two _)
      exact ⟨r, hr, fun _ _ => h'⟩
    · exact ⟨0, hn, fun a b => absurd ⟨a, b⟩ h⟩
  choose iR hiR hR using hring
  have h0 := C139_tmm n hn c hc m hm0 sp true hs (inN / bulkN) (by positivity) res0 _ t0 i0 hi0 iB hiB hB0.ne (fun _ _ => hB) (fun h => by simp at h) (fun h => absurd hB0 (not_lt.mpr h.le))
  have h2 := fun i (hi : i < n) => C139_tmm n hn c hc m hm0 sp false hs (bulkN / inN) (by positivity) resb _ t2 i hi (iR i) (hiR i) (hR0 i hi) (fun h => by simp at h) (fun _ => hR i hi) (hR1 i hi)
  simp only [if_true, Bool.false_eq_true, if_false] at h0 h2
  rw [if_pos hB0] at h0
  exact C144_trapping_partial n hn _ hsym c hc sp thIn hi0 hl1 hl2 phiIn hphi inp S hS w hiB (fun i => polarMid n sp (iR i)) (fun i _ => (hmid _ (hiR i)).2) _ _ h0 h1 h1' h2 hα hd k0 k1 k2 o k t ht hround

/-! ## The distribution is not Lambert's -/

/-- A surface each of whose columns has a single entry, one, in a row of polar angle `θin` or `θout`. -/
theorem unit_flat {h : ℕ} {κ : Type*} (g : Grid) (front : Bool) (M : Matrix (Fin (h + h)) (Fin h) ℝ) (θin θout : ℝ) (hne : θin ≠ θout) (refl : Bool)
    (hM : ∀ j : Fin h, polar g (if front then j else h + j) = θin → ∃ b : Fin (h + h), (∀ r, M r j = if r = b then 1 else 0) ∧ polar g b = if refl then θin else θout) :
    Flat g front (M, (fun _ _ => 0 : Matrix κ (Fin h) ℝ)) θin θout (if refl then ⟨1, 0, fun _ => 0⟩ else ⟨0, 1, fun _ => 0⟩) := by
  classical
  have key : ∀ j : Fin h, polar g (if front then j else h + j) = θin → ∀ θ, (∑ r : Fin (h + h), if polar g r = θ then M r j else 0) = if (if refl then θin else θout) = θ then 1 else 0 := by
    intro j hj θ
    obtain ⟨b, h1, h2⟩ := hM j hj
    have e : ∀ r : Fin (h + h), (if polar g r = θ then M r j else 0) = if r = b then (if polar g b = θ then (1 : ℝ) else 0) else 0 := by
      intro r
      rw [h1]
      by_cases hr : r = b
      · subst hr; simp
      · simp [hr]
    rw [Finset.sum_congr rfl fun r _ => e r, ← h2]
    simp
  refine ⟨fun j hj => ?_, fun j hj => ?_, fun j hj r a b => ?_, fun j hj l => ?_⟩
  · refine (Eq.trans ?_ (key j hj θin)).trans ?_
    · exact Finset.sum_congr rfl fun r _ => by split_ifs <;> rfl
    · cases refl <;> simp [hne.symm]
  · refine (Eq.trans ?_ (key j hj θout)).trans ?_
    · exact Finset.sum_congr rfl fun r _ => by split_ifs <;> rfl
    · cases refl <;> simp [hne]
  · obtain ⟨b', h1, h2⟩ := hM j hj
    refine (h1 r).trans (if_neg ?_)
    rintro rfl
    cases refl
    · exact b (by simpa using h2)
    · exact a (by simpa using h2)
  · cases refl <;> rfl

theorem unit_ok {h : ℕ} {κ : Type*} [Fintype κ] (b : Fin h → Fin (h + h)) : StoredOk (h := h) (κ := κ) (fun r j => if r = b j then 1 else 0, fun _ _ => 0) := by
  refine ⟨fun j => by simp, fun r j => ?_, fun l j => le_rfl⟩
  simp only
  split_ifs <;> norm_num

theorem lambert_ok (n : ℕ) (hn : 0 < n) (s c : ℝ) (hc : 0 < c) (sp : Spacing) (κ : Type*) [Fintype κ] :
    StoredOk (h := (makeAngleVector n s c sp).half) (κ := κ) (fun r _ => (lambertStored (makeAngleVector n s c sp)).getD r 0, fun _ _ => 0) := by
  obtain ⟨h1, h2, h3, -, h5⟩ := C23_lambertian n hn s c hc sp
  set v := lambertStored (makeAngleVector n s c sp) with hv
  have hlen : v.length = (makeAngleVector n s c sp).half + (makeAngleVector n s c sp).half := by rw [h1, two_mul]; rfl
  refine ⟨fun j => ?_, fun r j => ?_, fun l j => le_rfl⟩
  · simp only [Finset.sum_const_zero, add_zero]
    rw [sum_getD v _ hlen, ← List.sum_take_add_sum_drop v ((makeAngleVector n s c sp).angleVector.length / 2), h2]
    have : (v.drop ((makeAngleVector n s c sp).angleVector.length / 2)).sum = 0 := by
      refine List.sum_eq_zero ?_
      intro x hx
      obtain ⟨i, hi, rfl⟩ := List.getElem_of_mem hx
      have hi' := hi
      rw [List.length_drop, h1] at hi'
      have := h5 i (by omega)
      rw [List.getElem_drop]
      rw [List.getElem?_eq_getElem (by rw [h1]; omega)] at this
      exact Option.some.inj this
    rw [this, add_zero]
  · simp only [List.getD_eq_getElem?_getD]
    cases h : v[(r : ℕ)]? with
    | none => simp
    | some a => exact h3 a (List.mem_of_getElem? h)

/-- Different shares give different reflectance. -/
theorem share_matters {a b x : ℝ} (hx : x < 1) (hx0 : 0 ≤ x) (ha : 0 ≤ a) (hb : 0 ≤ b) (hab : a ≠ b) (p : ℝ) (hp : 0 < p) :
    p / (1 - (1 - a) * x) * (a * p) ≠ p / (1 - (1 - b) * x) * (b * p) := by
  have e : ∀ y : ℝ, 0 ≤ y → 0 < 1 - (1 - y) * x := fun y hy => by nlinarith [mul_nonneg hy hx0]
  have ea := e a ha
  have eb := e b hb
  intro h
  rw [div_mul_eq_mul_div, div_mul_eq_mul_div, div_eq_div_iff ea.ne' eb.ne'] at h
  have h2 : p * p * ((a - b) * (1 - x)) = 0 := by linarith [h]
  rcases mul_eq_zero.mp h2 with h | h
  · exact absurd h (mul_pos hp hp).ne'
  · rcases mul_eq_zero.mp h with h | h
    · exact hab (by linarith)
    · linarith

/-- **C144 fails** as stated, on every grid with two rings: for a front surface that lets light of the inner ring through and totally reflects light of the outer ring from inside, a `Lambertian` rear surface and an absorbing bulk layer, the reported reflectance is not within
`I_thresh` of the formula with the shares of Lambert's law. -/
theorem C144_fails (s : ℝ) (hs : (∃ q : ℕ, 0 < q ∧ s = 2 * Real.pi / ((2 * q : ℕ) : ℝ)) ∨ s = 2 * Real.pi) (c : ℝ) (hc : 0 < c) (sp : Spacing) :
    ∃ (inp : RatInput Unit (Fin 1) (Fin 1) (makeAngleVector 2 s c sp).half) (S : _) (k : ℕ) (t : _), assemble 2 s c sp 0 .all inp = some S ∧ S.Exits k t ∧
    0 ≤ inp.α () ∧ 0 ≤ inp.thick ∧ 0 < inp.thresh ∧ StoredOk (inp.front0 ()) ∧ StoredOk (inp.front1 ()) ∧ StoredOk (inp.rear0 ()) ∧
    Flat (makeAngleVector 2 s c sp) true (inp.front0 ()) (polarMid 2 sp 0) (Real.pi - polarMid 2 sp 0) ⟨0, 1, fun _ => 0⟩ ∧
    (∀ r j, (inp.front1 ()).1 r j = (lambertStored (makeAngleVector 2 s c sp)).getD r 0) ∧ (∀ l j, (inp.front1 ()).2 l j = 0) ∧
    Flat (makeAngleVector 2 s c sp) false (inp.rear0 ()) (Real.pi - polarMid 2 sp 0) (polarMid 2 sp 0) ⟨0, 1, fun _ => 0⟩ ∧
    Flat (makeAngleVector 2 s c sp) false (inp.rear0 ()) (Real.pi - polarMid 2 sp 1) (polarMid 2 sp 0) ⟨1, 0, fun _ => 0⟩ ∧
    let d : DiffuseSlab (Fin 1) :=
      { rings := 2
        front := ⟨0, 1, fun _ => 0⟩
        first := Real.exp (-inp.α () * inp.thick / |Real.cos (polarMid 2 sp 0)|)
        pass := fun i => Real.exp (-inp.α () * inp.thick / |Real.cos (polarMid 2 sp i)|)
        share := fun i => lambertFraction (polarEdge 2 sp i) (polarEdge 2 sp (i + 1))
        back := fun i => if i = 0 then ⟨0, 1, fun _ => 0⟩ else ⟨1, 0, fun _ => 0⟩ }
    d.round < 1 ∧ ¬ (t.R () ≤ d.R ∧ d.R ≤ t.R () + inp.thresh) := by
  have hpi := Real.pi_pos
  have m0 := polarMid_lt_half 2 two_pos sp (show 0 < 2 by norm_num)
  have m1 := polarMid_lt_half 2 two_pos sp (show 1 < 2 by norm_num)
  have hne : polarMid 2 sp 0 ≠ polarMid 2 sp 1 := fun h => absurd (polarMid_inj 2 two_pos sp (by norm_num) (by norm_num) h) (by norm_num)
  set g := makeAngleVector 2 s c sp with hg
  obtain ⟨j1, hj1⟩ : ∃ j : Fin g.half, polar g j = polarMid 2 sp 0 := (ring_nonempty 2 two_pos s c sp hc (show 0 < 2 by norm_num)).1
  obtain ⟨j2, hj2⟩ : ∃ j : Fin g.half, polar g (g.half + j) = Real.pi - polarMid 2 sp 0 := (ring_nonempty 2 two_pos s c sp hc (show 0 < 2 by norm_num)).2
  classical
  let bF : Fin g.half → Fin (g.half + g.half) := fun _ => Fin.natAdd _ j2
  let bR : Fin g.half → Fin (g.half + g.half) := fun j => if polar g (g.half + j) = Real.pi - polarMid 2 sp 0 then Fin.castAdd _ j1 else Fin.natAdd _ j
  have fl0 := unit_flat (κ := Fin 1) g true (fun r j => if r = bF j then 1 else 0) (polarMid 2 sp 0) (Real.pi - polarMid 2 sp 0) (by intro h; linarith) false fun j _ => ⟨bF j, fun r => rfl, hj2⟩
  have fl1 := unit_flat (κ := Fin 1) g false (fun r j => if r = bR j then 1 else 0) (Real.pi - polarMid 2 sp 0) (polarMid 2 sp 0) (by intro h; linarith) false fun j hj => ⟨bR j, fun r => rfl, by
    have : bR j = Fin.castAdd _ j1 := if_pos (by simpa using hj)
    rw [this]; exact hj1⟩
  have fl2 := unit_flat (κ := Fin 1) g false (fun r j => if r = bR j then 1 else 0) (Real.pi - polarMid 2 sp 1) (polarMid 2 sp 0) (by intro h; linarith) true fun j hj => ⟨bR j, fun r => rfl, by
    have hj' : polar g (g.half + j) = Real.pi - polarMid 2 sp 1 := by simpa using hj
    have : bR j = Fin.natAdd _ j := if_neg (by rw [hj']; intro h; exact hne (by linarith))
    rw [this]; exact hj'⟩
  simp only [Bool.false_eq_true, if_false, if_true] at fl0 fl1 fl2
  have okL : StoredOk (h := g.half) (κ := Fin 1) (fun r _ => (lambertStored g).getD r 0, fun _ _ => 0) := lambert_ok 2 two_pos s c hc sp (Fin 1)
  let mk : (ℕ → ℝ) → DiffuseSlab (Fin 1) := fun sh =>
    { rings := 2
      front := ⟨0, 1, fun _ => 0⟩
      first := Real.exp (-1 * 1 / |Real.cos (polarMid 2 sp 0)|)
      pass := fun i => Real.exp (-1 * 1 / |Real.cos (polarMid 2 sp i)|)
      share := sh
      back := fun i => if i = 0 then ⟨0, 1, fun _ => 0⟩ else ⟨1, 0, fun _ => 0⟩ }
  let L : ℕ → ℝ := fun i => lambertFraction (polarEdge 2 sp i) (polarEdge 2 sp (i + 1))
  let C : ℕ → ℝ := codeShare 2 sp
  have cpos : ∀ i, i < 2 → 0 < Real.cos (polarMid 2 sp i) := by
    intro i hi
    have a := polarMid_lt_half 2 two_pos sp hi
    have b : 0 < polarMid 2 sp i := by
      have h1 := polarEdge_strictMono 2 two_pos sp i (i + 1) (by omega) (by omega)
      have h2 : 0 ≤ polarEdge 2 sp i := by
        rcases Nat.eq_zero_or_pos i with h | h
        · rw [h, polarEdge_zero]
        · have := polarEdge_strictMono 2 two_pos sp 0 i h (by omega); rw [polarEdge_zero] at this; exact this.le
      unfold polarMid; linarith
    exact Real.cos_pos_of_mem_Ioo ⟨by linarith, a⟩
  have hp1 : Real.exp (-1 * 1 / |Real.cos (polarMid 2 sp 1)|) < 1 := by
    rw [Real.exp_lt_one_iff]
    have := abs_pos.mpr (cpos 1 (by norm_num)).ne'
    exact div_neg_of_neg_of_pos (by norm_num) this
  have hp1' := Real.exp_pos (-1 * 1 / |Real.cos (polarMid 2 sp 1)|)
  have hround : ∀ sh, (mk sh).round = sh 1 * Real.exp (-1 * 1 / |Real.cos (polarMid 2 sp 1)|) ^ 2 := by
    intro sh
    simp [mk, DiffuseSlab.round, DiffuseSlab.mean, Finset.sum_range_succ]
  have hRR : ∀ sh, (mk sh).R = Real.exp (-1 * 1 / |Real.cos (polarMid 2 sp 0)|) / (1 - sh 1 * Real.exp (-1 * 1 / |Real.cos (polarMid 2 sp 1)|) ^ 2) * (sh 0 * Real.exp (-1 * 1 / |Real.cos (polarMid 2 sp 0)|)) := by
    intro sh
    unfold DiffuseSlab.R DiffuseSlab.sent
    rw [hround]
    simp [mk, DiffuseSlab.mean, Finset.sum_range_succ]
  have hx1 : Real.exp (-1 * 1 / |Real.cos (polarMid 2 sp 1)|) ^ 2 < 1 := pow_lt_one₀ hp1'.le hp1 (by norm_num)
  have hx0 : 0 ≤ Real.exp (-1 * 1 / |Real.cos (polarMid 2 sp 1)|) ^ 2 := sq_nonneg _
  have Lsum : L 0 + L 1 = 1 := by
    have e2 : polarEdge 2 sp 2 = Real.pi / 2 := polarEdge_half 2 two_pos sp
    simp [L, lambertFraction, polarEdge_zero, e2]
  have Csum : C 0 + C 1 = 1 := by
    have := codeShare_sum 2 two_pos sp
    simpa [Finset.sum_range_succ] using this
  have L0 : 0 ≤ L 0 := by simp only [L, lambertFraction, polarEdge_zero, Real.sin_zero]; nlinarith [sq_nonneg (Real.sin (polarEdge 2 sp (0 + 1)))]
  have L1 : L 1 ≤ 1 := by linarith
  have C0 : ∀ i, i < 2 → 0 < C i := by
    intro i hi
    change 0 < lamW 2 sp i / ∑ j ∈ Finset.range 2, lamW 2 sp j
    refine div_pos (lamW_pos 2 two_pos sp hi) (Finset.sum_pos (fun i hi => lamW_pos 2 two_pos sp (Finset.mem_range.mp hi)) ⟨0, by simp⟩)
  have hCL : C 0 ≠ L 0 := by
    intro h
    refine C69_fails 2 le_rfl s c hc sp fun i hi => ?_
    rw [ringTotal_lambert 2 two_pos s c hc sp hi]
    change C i = L i
    interval_cases i
    · exact h
    · linarith
  have hdiff : (mk C).R ≠ (mk L).R := by
    rw [hRR, hRR, show C 1 = 1 - C 0 by linarith, show L 1 = 1 - L 0 by linarith]
    exact share_matters hx1 hx0 (C0 0 (by norm_num)).le L0 hCL _ (Real.exp_pos _)
  let thr := |(mk C).R - (mk L).R| / 2
  have hthr : 0 < thr := div_pos (abs_pos.mpr (sub_ne_zero.mpr hdiff)) two_pos
  let inp : RatInput Unit (Fin 1) (Fin 1) g.half :=
    { α := fun _ => 1, thick := 1, thresh := thr
      front0 := fun _ => (fun r j => if r = bF j then 1 else 0, fun _ _ => 0)
      front1 := fun _ => (fun r _ => (lambertStored g).getD r 0, fun _ _ => 0)
      rear0 := fun _ => (fun r j => if r = bR j then 1 else 0, fun _ _ => 0) }
  have e1 : 0 < polarEdge 2 sp (0 + 1) := by
    have := polarEdge_strictMono 2 two_pos sp 0 1 (by norm_num) (by norm_num); rw [polarEdge_zero] at this; exact this
  obtain ⟨i, v, -, -, -, hv, -⟩ := C09_launch_all 2 two_pos s c hc sp 1 0 le_rfl (by linarith)
  unfold makeV0 at hv
  obtain ⟨v', hv', -⟩ := Option.map_eq_some_iff.mp hv
  obtain ⟨S, hS⟩ : ∃ S, assemble 2 s c sp 0 .all inp = some S := by
    unfold assemble
    simp only [launchPhi, hv', Option.map_some]
    exact ⟨_, rfl⟩
  have hSt : S.thresh = thr ∧ S.thick = 1 ∧ ∀ w, S.α w = 1 := by
    unfold assemble at hS
    simp only [Option.map_eq_some_iff] at hS
    obtain ⟨v, -, rfl⟩ := hS
    exact ⟨rfl, rfl, fun _ => rfl⟩
  have k0 : ∀ w, StoredOk (inp.front0 w) := fun _ => unit_ok bF
  have k2 : ∀ w, StoredOk (inp.rear0 w) := fun _ => unit_ok bR
  obtain ⟨hE, hN, hcos, hv1⟩ := C15_assembled 2 two_pos s hs c hc sp 0 le_rfl (by linarith) .all inp (fun _ => zero_le_one) zero_le_one k0 (fun _ => okL) k2 S hS
  have o : ProfOpts Unit (Fin g.half) := ⟨false, [], fun _ _ _ => 0, fun _ _ => 0⟩
  obtain ⟨k, -, ⟨t, ht⟩, -⟩ := C17_absorbing_bulk S hE hN hcos 1 one_pos (fun w => (hSt.2.2 w).ge) (by rw [hSt.2.1]; norm_num) (fun w => (hv1 w).le) (by rw [hSt.1]; exact hthr) o
  have hrC : (mk C).round < 1 := by
    rw [hround]
    have := C0 0 (by norm_num)
    nlinarith
  have main := C144_trapping_partial 2 two_pos s hs c hc sp 0 (i0 := 0) (iB := 0) two_pos (by rw [polarEdge_zero]) e1 .all (fun p h => by simp at h) inp S hS () two_pos (fun _ => polarMid 2 sp 0) (fun _ _ => m0)
    ⟨0, 1, fun _ => 0⟩ (fun i => if i = 0 then ⟨0, 1, fun _ => 0⟩ else ⟨1, 0, fun _ => 0⟩) fl0 (fun _ _ => rfl) (fun _ _ => rfl) (fun i hi => by
      interval_cases i
      · exact fl1
      · exact fl2) (fun _ => zero_le_one) zero_le_one k0 (fun _ => okL) k2 o k t (Or.inl ht) hrC
  have hR := main.1
  change t.R () ≤ (mk C).R ∧ (mk C).R ≤ t.R () + thr at hR
  refine ⟨inp, S, k, t, hS, ht, zero_le_one, zero_le_one, hthr, k0 (), okL, k2 (), fl0, fun _ _ => rfl, fun _ _ => rfl, fl1, fl2, ?_, ?_⟩
  · change (mk L).round < 1
    rw [hround]
    nlinarith
  · change ¬ (t.R () ≤ (mk L).R ∧ (mk L).R ≤ t.R () + thr)
    rintro ⟨a, b⟩
    have : |(mk C).R - (mk L).R| ≤ thr := by
      rw [abs_le]; constructor <;> linarith [hR.1, hR.2]
    have : thr = |(mk C).R - (mk L).R| / 2 := rfl
    linarith

/-- The hypotheses of C144 for the layer stack `exRes` on the grid with one ring; the loop ends. -/
example : ∃ (inp : RatInput Unit (Fin 1) (Fin 1) (makeAngleVector 1 (2 * Real.pi / (2 : ℕ)) 1 .linear).half) (S : _) (k : ℕ) (t : _),
    assemble 1 (2 * Real.pi / (2 : ℕ)) 1 .linear 0.5 .all inp = some S ∧ S.Exits k t ∧ (∀ w, StoredOk (inp.front0 w)) ∧ (∀ w, StoredOk (inp.front1 w)) ∧ (∀ w, StoredOk (inp.rear0 w)) ∧
    StoredByTmm 1 1 2 .linear true (1 / 1) exRes (inp.front0 ()) ∧ StoredByTmm 1 1 2 .linear false (1 / 1) exRes (inp.rear0 ()) ∧
    (∀ r j, (inp.front1 ()).1 r j = (lambertStored (makeAngleVector 1 (2 * Real.pi / (2 : ℕ)) 1 .linear)).getD r 0) ∧ (∀ l j, (inp.front1 ()).2 l j = 0) ∧
    polarEdge 1 .linear 0 ≤ 0.5 ∧ 0.5 < polarEdge 1 .linear 1 ∧ (1 / 1 : ℝ) * Real.sin (polarMid 1 .linear 0) < 1 ∧
    polarEdge 1 .linear 0 < Real.arcsin (1 / 1 * Real.sin (polarMid 1 .linear 0)) ∧ Real.arcsin (1 / 1 * Real.sin (polarMid 1 .linear 0)) < polarEdge 1 .linear 1 ∧
    inp.thresh = 0.1 ∧ inp.α () * inp.thick = 1 := by
  have hpi := Real.pi_gt_three
  have hpi' := Real.pi_pos
  have e0 : polarEdge 1 .linear 0 = 0 := polarEdge_zero 1 .linear
  have e1 : polarEdge 1 .linear 1 = Real.pi / 2 := polarEdge_half 1 one_pos .linear
  have hsin : (1 / 1 : ℝ) * Real.sin (polarMid 1 .linear 0) < 1 := by
    rw [exMid, Real.sin_pi_div_four, div_one, one_mul]
    have : Real.sqrt 2 < 2 := by rw [Real.sqrt_lt' (by norm_num)]; norm_num
    linarith
  have harc : Real.arcsin (1 / 1 * Real.sin (polarMid 1 .linear 0)) = Real.pi / 4 := by
    rw [exMid, div_one, one_mul, Real.arcsin_sin (by linarith) (by linarith)]
  obtain ⟨i, v, -, -, -, hv, -⟩ := C09_launch_all 1 one_pos (2 * Real.pi / (2 : ℕ)) 1 one_pos .linear 1 0.5 (by norm_num) (by linarith)
  unfold makeV0 at hv
  obtain ⟨v', hv', -⟩ := Option.map_eq_some_iff.mp hv
  let inp : RatInput Unit (Fin 1) (Fin 1) (makeAngleVector 1 (2 * Real.pi / (2 : ℕ)) 1 .linear).half :=
    { α := fun _ => 1, thick := 1, thresh := 0.1, front0 := fun _ => exStored true
      front1 := fun _ => (fun r _ => (lambertStored (makeAngleVector 1 (2 * Real.pi / (2 : ℕ)) 1 .linear)).getD r 0, fun _ _ => 0), rear0 := fun _ => exStored false }
  obtain ⟨S, hS⟩ : ∃ S, assemble 1 (2 * Real.pi / (2 : ℕ)) 1 .linear 0.5 .all inp = some S := by
    unfold assemble
    simp only [launchPhi, hv', Option.map_some]
    exact ⟨_, rfl⟩
  have hSt : S.thresh = 0.1 ∧ S.thick = 1 ∧ ∀ w, S.α w = 1 := by
    unfold assemble at hS
    simp only [Option.map_eq_some_iff] at hS
    obtain ⟨v, -, rfl⟩ := hS
    exact ⟨rfl, rfl, fun _ => rfl⟩
  have okL : ∀ w, StoredOk (inp.front1 w) := fun _ => lambert_ok 1 one_pos _ 1 one_pos .linear (Fin 1)
  obtain ⟨hE, hN, hcos, hv1⟩ := C15_assembled 1 one_pos _ (Or.inl ⟨1, one_pos, by norm_num⟩) 1 one_pos .linear 0.5 (by norm_num) (by linarith) .all inp (fun _ => zero_le_one) zero_le_one
    (fun _ => (exStored_tmm true).2) okL (fun _ => (exStored_tmm false).2) S hS
  obtain ⟨k, -, ⟨t, ht⟩, -⟩ := C17_absorbing_bulk S hE hN hcos 1 one_pos (fun w => (hSt.2.2 w).ge) (by rw [hSt.2.1]; norm_num) (fun w => (hv1 w).le) (by rw [hSt.1]; norm_num) ⟨false, [], fun _ _ _ => 0, fun _ _ => 0⟩
  refine ⟨inp, S, k, t, hS, ht, fun _ => (exStored_tmm true).2, okL, fun _ => (exStored_tmm false).2, ?_, ?_, fun _ _ => rfl, fun _ _ => rfl, ?_, ?_, hsin, ?_, ?_, rfl, ?_⟩
  · rw [div_one]; exact (exStored_tmm true).1
  · rw [div_one]; exact (exStored_tmm false).1
  · rw [e0]; norm_num
  · rw [e1]; linarith
  · rw [harc, e0]; linarith
  · rw [harc, e1]; linarith
  · simp [inp]

end Rayflare
