import Verif.Spec.Planar
import Verif.Props.EndToEndMethods

/-!
# Property C139: planar structures give the textbook formulas
-/

namespace Rayflare

open Rayflare.Np Rayflare.Model Rayflare.Spec Rayflare.Lemmas Matrix

set_option linter.unusedSectionVars false

variable {ω κ₀ κ₁ : Type*} [Fintype κ₀] [Fintype κ₁]

/-! ## Helper lemmas: light that stays in one ring -/

section abstract
variable {ι : Type*} [Fintype ι] [DecidableEq ι]

/-- Powers outside `B` are zero. -/
def InSet (B : ι → Prop) (v : ι → ℝ) : Prop := ∀ j, ¬ B j → v j = 0

/-- Light of the bins `B` goes to the bins `B'`, a fraction `σ` of it. -/
def Sends (M : Matrix ι ι ℝ) (B B' : ι → Prop) (σ : ℝ) : Prop := ∀ j, B j → (∀ r, ¬ B' r → M r j = 0) ∧ ∑ r, M r j = σ

theorem sends_in {M : Matrix ι ι ℝ} {B B' : ι → Prop} {σ : ℝ} (h : Sends M B B' σ) {v : ι → ℝ} (hv : InSet B v) : InSet B' (M *ᵥ v) := by
  intro r hr
  change ∑ j, M r j * v j = 0
  refine Finset.sum_eq_zero fun j _ => ?_
  by_cases hj : B j
  · rw [(h j hj).1 r hr, zero_mul]
  · rw [hv j hj, mul_zero]

theorem weighted_sum {ρ : Type*} [Fintype ρ] (M : Matrix ρ ι ℝ) {B : ι → Prop} {σ : ℝ} (h : ∀ j, B j → ∑ r, M r j = σ) {v : ι → ℝ} (hv : InSet B v) :
    ∑ r, (M *ᵥ v) r = σ * ∑ j, v j := by
  rw [Lemmas.sum_mulVec, Finset.mul_sum]
  refine Finset.sum_congr rfl fun j _ => ?_
  by_cases hj : B j
  · rw [h j hj]
  · rw [hv j hj, mul_zero, mul_zero]

theorem weighted_row {ρ : Type*} (M : Matrix ρ ι ℝ) {B : ι → Prop} {l : ρ} {σ : ℝ} (h : ∀ j, B j → M l j = σ) {v : ι → ℝ} (hv : InSet B v) :
    (M *ᵥ v) l = σ * ∑ j, v j := by
  change ∑ j, M l j * v j = _
  rw [Finset.mul_sum]
  refine Finset.sum_congr rfl fun j _ => ?_
  by_cases hj : B j
  · rw [h j hj]
  · rw [hv j hj, mul_zero, mul_zero]

/-- The matrices of a planar structure: light launched in `B0` is in the bins `BL` (going down) and `BU` (format of incident light) inside. -/
structure PlanarSys (S : Sys ω ι κ₀ κ₁) (w : ω) (B0 BL BU : ι → Prop) (θB : ℝ) (sl : Slab κ₀ κ₁) : Prop where
  v0 : InSet B0 (S.v0 w)
  one : ∑ j, S.v0 w j = 1
  f0R : ∀ j, B0 j → ∑ r, (S.front0 w).R r j = sl.front.refl
  f0T : Sends (S.front0 w).T B0 BL sl.front.trns
  f0A : ∀ j, B0 j → ∀ l, (S.front0 w).A l j = sl.front.abs l
  d2u : Sends S.down2up BL BU 1
  θ : ∀ j, BU j → S.θ j = θB
  f1R : Sends (S.front1 w).R BU BU sl.rear.refl
  f1T : ∀ j, BU j → ∑ r, (S.front1 w).T r j = sl.rear.trns
  f1A : ∀ j, BU j → ∀ l, (S.front1 w).A l j = sl.rear.abs l
  u2d : Sends S.up2down BU BL 1
  r0R : Sends (S.rear0 w).R BL BL sl.back.refl
  r0T : ∀ j, BL j → ∑ r, (S.rear0 w).T r j = sl.back.trns
  r0A : ∀ j, BL j → ∀ l, (S.rear0 w).A l j = sl.back.abs l
  pass : sl.pass = Real.exp (-S.α w * S.thick / |Real.cos θB|)

/-- Everything the program knows after `k` passes. -/
structure SlabState (S : Sys ω ι κ₀ κ₁) (w : ω) (BL : ι → Prop) (sl : Slab κ₀ κ₁) (t : LoopState ω ι κ₀ κ₁) (N P : ℝ) : Prop where
  inside : InSet BL (t.vf1 w)
  left : ∑ j, t.vf1 w j = P
  R : t.R w = sl.R N
  T : t.T w = sl.T N
  bulk : t.Abulk w = sl.bulk N
  abs0 : ∀ l, (t.a0.map fun v => v w l).sum = sl.abs0 N l
  abs1 : ∀ l, (t.a1.map fun v => v w l).sum = sl.abs1 N l

theorem D_sends {S : Sys ω ι κ₀ κ₁} {w : ω} {B0 BL BU : ι → Prop} {θB : ℝ} {sl : Slab κ₀ κ₁} (h : PlanarSys S w B0 BL BU θB sl) : Sends (S.D w) BU BU sl.pass := by
  intro j hj
  have e : ∀ r, S.D w r j = if r = j then sl.pass else 0 := by
    intro r
    unfold Sys.D makeD
    rw [Matrix.diagonal_apply, h.pass]
    split_ifs with hr
    · rw [hr, h.θ j hj]
    · rfl
  refine ⟨fun r hr => ?_, ?_⟩
  · rw [e, if_neg]
    rintro rfl
    exact hr hj
  · simp [e]

theorem slab_init {S : Sys ω ι κ₀ κ₁} {w : ω} {B0 BL BU : ι → Prop} {θB : ℝ} {sl : Slab κ₀ κ₁} (h : PlanarSys S w B0 BL BU θB sl) :
    SlabState S w BL sl S.init 0 sl.front.trns := by
  refine ⟨sends_in h.f0T h.v0, ?_, ?_, ?_, ?_, fun l => ?_, fun l => ?_⟩
  · have := weighted_sum (S.front0 w).T (fun j hj => (h.f0T j hj).2) h.v0
    rw [h.one, mul_one] at this
    exact this
  · have := weighted_sum (S.front0 w).R h.f0R h.v0
    rw [h.one, mul_one] at this
    simp [LoopState.R, Sys.init, Slab.R, dotWl, this]
  · simp [LoopState.T, Sys.init, Slab.T]
  · simp [LoopState.Abulk, Sys.init, Slab.bulk]
  · have := weighted_row (S.front0 w).A (fun j hj => h.f0A j hj l) h.v0
    rw [h.one, mul_one] at this
    simp [Sys.init, Slab.abs0, dotWl, this]
  · simp [Sys.init, Slab.abs1]

theorem slab_step {S : Sys ω ι κ₀ κ₁} {w : ω} {B0 BL BU : ι → Prop} {θB : ℝ} {sl : Slab κ₀ κ₁} (h : PlanarSys S w B0 BL BU θB sl) {t : LoopState ω ι κ₀ κ₁} {N k : ℝ}
    (ht : SlabState S w BL sl t N (sl.front.trns * k)) : SlabState S w BL sl (S.step t) (N + k) (sl.front.trns * (k * sl.round)) := by
  have hD := D_sends h
  have i1 := sends_in h.d2u ht.inside
  have s1 := weighted_sum _ (fun j hj => (h.d2u j hj).2) ht.inside
  have i2 := sends_in hD i1
  have s2 := weighted_sum _ (fun j hj => (hD j hj).2) i1
  have i3 := sends_in h.f1R i2
  have s3 := weighted_sum _ (fun j hj => (h.f1R j hj).2) i2
  have i4 := sends_in hD i3
  have s4 := weighted_sum _ (fun j hj => (hD j hj).2) i3
  have i5 := sends_in h.u2d i4
  have s5 := weighted_sum _ (fun j hj => (h.u2d j hj).2) i4
  have i6 := sends_in h.r0R i5
  have s6 := weighted_sum _ (fun j hj => (h.r0R j hj).2) i5
  have sT := weighted_sum (S.front1 w).T h.f1T i2
  have sR := weighted_sum (S.rear0 w).T h.r0T i5
  have sA1 := fun l => weighted_row (S.front1 w).A (fun j hj => h.f1A j hj l) i2
  have sA0 := fun l => weighted_row (S.rear0 w).A (fun j hj => h.r0A j hj l) i5
  rw [ht.left, one_mul] at s1
  rw [s1] at s2
  rw [s2] at s3
  rw [s3] at s4
  rw [s4, one_mul] at s5
  rw [s5] at s6
  rw [s2] at sT
  rw [s5] at sR
  simp only [s2] at sA1
  simp only [s5] at sA0
  refine ⟨i6, ?_, ?_, ?_, ?_, fun l => ?_, fun l => ?_⟩
  · refine (show _ = _ from s6).trans ?_
    unfold Slab.round; ring
  · have e : (S.step t).R w = t.R w + ∑ j, ((S.rear0 w).T *ᵥ (S.up2down *ᵥ (S.D w *ᵥ ((S.front1 w).R *ᵥ (S.D w *ᵥ (S.down2up *ᵥ t.vf1 w)))))) j := by
      simp [LoopState.R, Sys.step, Sys.appendPerPassInfo, dotWl, dotWlU2d]
    rw [e, ht.R, sR]
    unfold Slab.R; ring
  · have e : (S.step t).T w = t.T w + ∑ j, ((S.front1 w).T *ᵥ (S.D w *ᵥ (S.down2up *ᵥ t.vf1 w))) j := by
      simp [LoopState.T, Sys.step, Sys.appendPerPassInfo, dotWl, dotWlU2d]
    rw [e, ht.T, sT]
    unfold Slab.T; ring
  · have e : (S.step t).Abulk w = t.Abulk w + ((∑ j, (S.down2up *ᵥ t.vf1 w) j - ∑ j, (S.D w *ᵥ (S.down2up *ᵥ t.vf1 w)) j) +
        (∑ j, ((S.front1 w).R *ᵥ (S.D w *ᵥ (S.down2up *ᵥ t.vf1 w))) j - ∑ j, (S.up2down *ᵥ (S.D w *ᵥ ((S.front1 w).R *ᵥ (S.D w *ᵥ (S.down2up *ᵥ t.vf1 w))))) j)) := by
      simp [LoopState.Abulk, Sys.step, Sys.appendPerPassInfo, dotWl, dotWlU2d, power]
    rw [e, ht.bulk, s1, s2, s3, s5]
    unfold Slab.bulk; ring
  · have e : ((S.step t).a0.map fun v => v w l).sum = (t.a0.map fun v => v w l).sum +
        ((S.rear0 w).A *ᵥ (S.up2down *ᵥ (S.D w *ᵥ ((S.front1 w).R *ᵥ (S.D w *ᵥ (S.down2up *ᵥ t.vf1 w)))))) l := by
      simp [Sys.step, Sys.appendPerPassInfo, dotWl, dotWlU2d]
    rw [e, ht.abs0, sA0]
    unfold Slab.abs0; ring
  · have e : ((S.step t).a1.map fun v => v w l).sum = (t.a1.map fun v => v w l).sum + ((S.front1 w).A *ᵥ (S.D w *ᵥ (S.down2up *ᵥ t.vf1 w))) l := by
      simp [Sys.step, Sys.appendPerPassInfo, dotWl, dotWlU2d]
    rw [e, ht.abs1, sA1]
    unfold Slab.abs1; ring

theorem slab_iter {S : Sys ω ι κ₀ κ₁} {w : ω} {B0 BL BU : ι → Prop} {θB : ℝ} {sl : Slab κ₀ κ₁} (h : PlanarSys S w B0 BL BU θB sl) (k : ℕ) :
    SlabState S w BL sl (S.step^[k] S.init) (∑ i ∈ Finset.range k, sl.round ^ i) (sl.front.trns * sl.round ^ k) := by
  induction k with
  | zero => simpa using slab_init h
  | succ k ih =>
    rw [Function.iterate_succ_apply', Finset.sum_range_succ, pow_succ]
    exact slab_step h ih

end abstract

/-! ## Helper lemmas: the grid -/

section grid
variable (n : ℕ) (hn : 0 < n) (s c : ℝ) (sp : Spacing)

include hn in
theorem polar_row {r : ℕ} (hr : r < (makeAngleVector n s c sp).half + (makeAngleVector n s c sp).half) :
    ∃ row, (makeAngleVector n s c sp).angleVector[r]? = some row ∧ polar (makeAngleVector n s c sp) r = row.theta := by
  have hl := (C02_hemispheres n hn s c sp).1
  have hr2 : r < (makeAngleVector n s c sp).angleVector.length := by
    unfold Grid.half at hr; omega
  exact ⟨_, List.getElem?_eq_getElem hr2, by unfold polar; rw [List.getElem?_eq_getElem hr2]; rfl⟩

include hn in
theorem polar_hemi {r : ℕ} (hr : r < (makeAngleVector n s c sp).half + (makeAngleVector n s c sp).half) :
    (r < (makeAngleVector n s c sp).half ↔ polar (makeAngleVector n s c sp) r < Real.pi / 2) ∧
    ((makeAngleVector n s c sp).half ≤ r ↔ Real.pi / 2 < polar (makeAngleVector n s c sp) r) := by
  obtain ⟨row, h1, h2⟩ := polar_row n hn s c sp hr
  rw [h2]
  exact (C02_hemispheres n hn s c sp).2.1 r row h1

open Classical in
include hn in
/-- The two halves of the column of a flat surface: upper rows and lower rows. -/
theorem flat_halves {κ : Type*} {front : Bool} {M : Matrix (Fin ((makeAngleVector n s c sp).half + (makeAngleVector n s c sp).half)) (Fin (makeAngleVector n s c sp).half) ℝ × Matrix κ (Fin (makeAngleVector n s c sp).half) ℝ}
    {θin θout : ℝ} {f : Face κ} (hf : Flat (makeAngleVector n s c sp) front M θin θout f) (up : ℝ) (down : ℝ) (hup : up < Real.pi / 2) (hdown : Real.pi / 2 < down)
    (hdir : (θin = up ∧ θout = down) ∨ (θin = down ∧ θout = up)) (j : Fin (makeAngleVector n s c sp).half)
    (hj : polar (makeAngleVector n s c sp) (if front then j else (makeAngleVector n s c sp).half + j) = θin) :
    (∑ r, M.1 (Fin.castAdd _ r) j = if θin = up then f.refl else f.trns) ∧ (∑ r, M.1 (Fin.natAdd _ r) j = if θin = up then f.trns else f.refl) ∧
    (∀ r : Fin (makeAngleVector n s c sp).half, polar (makeAngleVector n s c sp) r ≠ up → M.1 (Fin.castAdd _ r) j = 0) ∧
    (∀ r : Fin (makeAngleVector n s c sp).half, polar (makeAngleVector n s c sp) ((makeAngleVector n s c sp).half + r) ≠ down → M.1 (Fin.natAdd _ r) j = 0) := by
  have hu : ∀ r : Fin (makeAngleVector n s c sp).half, polar (makeAngleVector n s c sp) r < Real.pi / 2 :=
    fun r => (polar_hemi n hn s c sp (by omega)).1.mp r.2
  have hd : ∀ r : Fin (makeAngleVector n s c sp).half, Real.pi / 2 < polar (makeAngleVector n s c sp) ((makeAngleVector n s c sp).half + r) :=
    fun r => (polar_hemi n hn s c sp (by omega)).2.mp (by omega)
  have z1 : ∀ r : Fin (makeAngleVector n s c sp).half, polar (makeAngleVector n s c sp) r ≠ up → M.1 (Fin.castAdd _ r) j = 0 := by
    intro r hr
    have := hu r
    rcases hdir with ⟨h1, h2⟩ | ⟨h1, h2⟩
    · exact hf.rest j hj _ (by rw [h1]; exact hr) (by rw [h2]; simp only [Fin.val_castAdd]; intro he; linarith)
    · exact hf.rest j hj _ (by rw [h1]; simp only [Fin.val_castAdd]; intro he; linarith) (by rw [h2]; exact hr)
  have z2 : ∀ r : Fin (makeAngleVector n s c sp).half, polar (makeAngleVector n s c sp) ((makeAngleVector n s c sp).half + r) ≠ down → M.1 (Fin.natAdd _ r) j = 0 := by
    intro r hr
    have := hd r
    rcases hdir with ⟨h1, h2⟩ | ⟨h1, h2⟩
    · exact hf.rest j hj _ (by rw [h1]; simp only [Fin.val_natAdd]; intro he; linarith) (by rw [h2]; exact hr)
    · exact hf.rest j hj _ (by rw [h1]; exact hr) (by rw [h2]; simp only [Fin.val_natAdd]; intro he; linarith)
  have su : (∑ r : Fin ((makeAngleVector n s c sp).half + (makeAngleVector n s c sp).half), if polar (makeAngleVector n s c sp) r = up then M.1 r j else 0) = ∑ r, M.1 (Fin.castAdd _ r) j := by
    rw [Fin.sum_univ_add]
    have : ∀ r : Fin (makeAngleVector n s c sp).half, ¬ polar (makeAngleVector n s c sp) ((Fin.natAdd (makeAngleVector n s c sp).half r : Fin _) : ℕ) = up := by
      intro r
      have := hd r
      simp only [Fin.val_natAdd]; intro he; linarith
    simp only [this, if_false, Finset.sum_const_zero, add_zero]
    refine Finset.sum_congr rfl fun r _ => ?_
    split_ifs with h
    · rfl
    · exact (z1 r h).symm
  have sd : (∑ r : Fin ((makeAngleVector n s c sp).half + (makeAngleVector n s c sp).half), if polar (makeAngleVector n s c sp) r = down then M.1 r j else 0) = ∑ r, M.1 (Fin.natAdd _ r) j := by
    rw [Fin.sum_univ_add]
    have : ∀ r : Fin (makeAngleVector n s c sp).half, ¬ polar (makeAngleVector n s c sp) ((Fin.castAdd (makeAngleVector n s c sp).half r : Fin _) : ℕ) = down := by
      intro r
      have := hu r
      simp only [Fin.val_castAdd]; intro he; linarith
    simp only [this, if_false, Finset.sum_const_zero, zero_add]
    refine Finset.sum_congr rfl fun r _ => ?_
    split_ifs with h
    · rfl
    · exact (z2 r h).symm
  refine ⟨?_, ?_, z1, z2⟩
  · rcases hdir with ⟨h1, h2⟩ | ⟨h1, h2⟩
    · rw [if_pos h1, ← su, ← h1]; exact hf.refl j hj
    · rw [if_neg (by rw [h1]; linarith), ← su, ← h2]; exact hf.trns j hj
  · rcases hdir with ⟨h1, h2⟩ | ⟨h1, h2⟩
    · rw [if_pos h1, ← sd, ← h2]; exact hf.trns j hj
    · rw [if_neg (by rw [h1]; linarith), ← sd, ← h1]; exact hf.refl j hj

include hn in
/-- Light is launched in the ring that contains the angle of incidence. -/
theorem launch_ring (hs : 0 < s) (hc : 0 < c) (thIn : ℝ) {i : ℕ} (hi : i < n) (h1 : polarEdge n sp i ≤ thIn) (h2 : thIn < polarEdge n sp (i + 1)) (phiIn : PhiIn)
    (hphi : ∀ p, phiIn = .val p → 0 ≤ p ∧ p ≠ s) (v : List ℝ) (hv : makeV0Row (makeAngleVector n s c sp) thIn (launchPhi phiIn s) = some v) (r : ℕ) (x : ℝ) (hr : v[r]? = some x) (hx : x ≠ 0) :
    polar (makeAngleVector n s c sp) r = polarMid n sp i := by
  have mono : ∀ {a b : ℕ}, a < b → b ≤ 2 * n → polarEdge n sp a < polarEdge n sp b := fun h h' => polarEdge_strictMono n hn sp _ _ h h'
  have uniq : ∀ i', i' < 2 * n → polarEdge n sp i' ≤ thIn → thIn < polarEdge n sp (i' + 1) → i' = i := by
    intro i' hi' a b
    by_contra hne
    rcases Nat.lt_or_gt_of_ne hne with hlt | hlt
    · have : polarEdge n sp (i' + 1) ≤ polarEdge n sp i := by
        rcases Nat.lt_or_ge (i' + 1) i with h | h
        · exact (mono h (by omega)).le
        · rw [show i' + 1 = i by omega]
      linarith
    · have : polarEdge n sp (i + 1) ≤ polarEdge n sp i' := by
        rcases Nat.lt_or_ge (i + 1) i' with h | h
        · exact (mono h (by omega)).le
        · rw [show i + 1 = i' by omega]
      linarith
  have ht0 : 0 ≤ thIn := by
    rcases Nat.eq_zero_or_pos i with h | h
    · rw [h, polarEdge_zero] at h1; exact h1
    · have := mono h (by omega); rw [polarEdge_zero] at this; linarith
  have ht1 : thIn < Real.pi / 2 := by
    rw [← polarEdge_half n hn sp]
    rcases Nat.lt_or_ge (i + 1) n with h | h
    · exact h2.trans (mono h (by omega))
    · have e : n = i + 1 := by omega
      rw [show polarEdge n sp n = polarEdge n sp (i + 1) by rw [← e]]; exact h2
  have hlen : v.length = (makeAngleVector n s c sp).half := (launch_total n hn s c hc sp thIn ht0 ht1 _ v hv).1
  have hrl : r < (makeAngleVector n s c sp).half := by rw [← hlen]; exact (List.getElem?_eq_some_iff.mp hr).1
  obtain ⟨row, g1, g2⟩ := polar_row n hn s c sp (show r < _ + _ by omega)
  obtain ⟨i', k', hi', hk', hrk, hrow⟩ := row_decomp n hn s c sp g1
  rw [g2, hrow]
  suffices h : i' = i by subst h; rfl
  cases phiIn with
  | all =>
    obtain ⟨i2, v', hi2, a, b, hh, -, -, -, hz⟩ := C09_launch_all n hn s c hc sp 1 thIn ht0 ht1
    have hv' : makeV0Row (makeAngleVector n s c sp) thIn .all = some v := hv
    rw [makeV0, hv'] at hh
    simp at hh
    subst hh
    have e2 := uniq i2 (by omega) a b
    subst e2
    by_contra hne
    refine hx (hz r x hr ?_)
    rw [hrk]
    rcases Nat.lt_or_gt_of_ne hne with hlt | hlt
    · left
      have := ringStart_mono n c (show i' + 1 ≤ i2 from hlt)
      rw [ringStart_succ] at this; omega
    · right
      have := ringStart_mono n c (show i2 + 1 ≤ i' from hlt)
      omega
  | val p =>
    obtain ⟨p0, p1⟩ := hphi p rfl
    obtain ⟨v', hh, -, hz⟩ := C10_launch_any_azimuth_partial n hn s c hs hc sp 1 thIn p ht0 ht1 p0 p1
    unfold launch at hh
    rw [makeV0, hv] at hh
    simp at hh
    subst hh
    have := hz r x row hr hx g1
    rw [hrow] at this
    exact uniq i' hi' this.1 this.2

end grid


/-! ## Helper lemmas: the assembled system -/

section assembled
variable (n : ℕ) (hn : 0 < n) (s : ℝ) (hs : (∃ q : ℕ, 0 < q ∧ s = 2 * Real.pi / ((2 * q : ℕ) : ℝ)) ∨ s = 2 * Real.pi) (c : ℝ) (hc : 0 < c) (sp : Spacing)

theorem reversed_polar {g : Grid} {s tol : ℝ} {a b : ℕ} (h : Reversed g s tol a b) : polar g b = Real.pi - polar g a := by
  obtain ⟨ra, rb, h1, h2, h3, -⟩ := h
  unfold polar
  rw [h1, h2]
  exact h3

include hn hs hc in
theorem format_polar (j : ℕ) (hj : j < (makeAngleVector n s c sp).half) :
    (∃ r, UnitColumn (makeAngleVector n s c sp).half (upToDown (makeAngleVector n s c sp) s) j r ∧
      polar (makeAngleVector n s c sp) ((makeAngleVector n s c sp).half + r) = Real.pi - polar (makeAngleVector n s c sp) j) ∧
    (∃ r, UnitColumn (makeAngleVector n s c sp).half (downToUp (makeAngleVector n s c sp) s) j r ∧
      polar (makeAngleVector n s c sp) r = Real.pi - polar (makeAngleVector n s c sp) ((makeAngleVector n s c sp).half + j)) := by
  rcases hs with ⟨q, hq, rfl⟩ | rfl
  · have h := C12_format_change n hn q hq c hc sp
    obtain ⟨r, h1, h2⟩ := h.1 j hj
    obtain ⟨r', h1', h2'⟩ := h.2.1 j hj
    exact ⟨⟨r, h1, reversed_polar h2⟩, ⟨r', h1', reversed_polar h2'⟩⟩
  · have h := C12_format_change_full n hn c hc sp
    obtain ⟨r, _, h1, -, h2⟩ := h.1 j hj
    obtain ⟨r', _, h1', -, h2'⟩ := h.2.1 j hj
    exact ⟨⟨r, h1, reversed_polar h2⟩, ⟨r', h1', reversed_polar h2'⟩⟩

theorem unit_sends {h : ℕ} {M : ℕ → ℕ → ℝ} {B B' : Fin h → Prop} (hM : ∀ j : Fin h, B j → ∃ r : Fin h, UnitColumn h M j r ∧ B' r) : Sends (fun r j : Fin h => M r j) B B' 1 := by
  intro j hj
  obtain ⟨r, ⟨-, h1⟩, h2⟩ := hM j hj
  refine ⟨fun r' hr' => ?_, ?_⟩
  · change M r' j = 0
    rw [h1 r' r'.2, if_neg]
    intro he
    rw [Fin.ext he] at hr'
    exact hr' h2
  · change ∑ r' : Fin h, M r' j = 1
    rw [Finset.sum_congr rfl fun (r' : Fin h) _ => h1 r' r'.2]
    simp [Fin.val_inj]

include hn hs hc in
theorem planar_assembled (thIn : ℝ) {i0 iB : ℕ} (hi0 : i0 < n) (hl1 : polarEdge n sp i0 ≤ thIn) (hl2 : thIn < polarEdge n sp (i0 + 1)) (phiIn : PhiIn)
    (hphi : ∀ p, phiIn = .val p → 0 ≤ p ∧ p ≠ s) (inp : RatInput ω κ₀ κ₁ (makeAngleVector n s c sp).half)
    (S : Sys ω (Fin (makeAngleVector n s c sp).half) κ₀ κ₁) (hS : assemble n s c sp thIn phiIn inp = some S) (w : ω)
    (hiB : iB < n) (θT θR : ℝ) (hT : Real.pi / 2 < θT) (hR : θR < Real.pi / 2) (ff fb : Face κ₀) (fr : Face κ₁)
    (h0 : Flat (makeAngleVector n s c sp) true (inp.front0 w) (polarMid n sp i0) (Real.pi - polarMid n sp iB) ff)
    (h1 : Flat (makeAngleVector n s c sp) true (inp.front1 w) (polarMid n sp iB) θT fr)
    (h2 : Flat (makeAngleVector n s c sp) false (inp.rear0 w) (Real.pi - polarMid n sp iB) θR fb) :
    PlanarSys S w (fun j => polar (makeAngleVector n s c sp) j = polarMid n sp i0)
      (fun j => polar (makeAngleVector n s c sp) ((makeAngleVector n s c sp).half + j) = Real.pi - polarMid n sp iB)
      (fun j => polar (makeAngleVector n s c sp) j = polarMid n sp iB) (polarMid n sp iB)
      ⟨ff, fr, fb, Real.exp (-inp.α w * inp.thick / |Real.cos (polarMid n sp iB)|)⟩ := by
  have hs0 : 0 < s := by
    have := Real.pi_pos
    rcases hs with ⟨q, hq, rfl⟩ | rfl <;> positivity
  have hpi := Real.pi_pos
  have hm0 := polarMid_lt_half n hn sp hi0
  have hmB := polarMid_lt_half n hn sp hiB
  have F0 := fun j hj => flat_halves n hn s c sp h0 (polarMid n sp i0) (Real.pi - polarMid n sp iB) hm0 (by linarith) (Or.inl ⟨rfl, rfl⟩) j hj
  have F1 := fun j hj => flat_halves n hn s c sp h1 (polarMid n sp iB) θT hmB hT (Or.inl ⟨rfl, rfl⟩) j hj
  have F2 := fun j hj => flat_halves n hn s c sp h2 θR (Real.pi - polarMid n sp iB) hR (by linarith) (Or.inr ⟨rfl, rfl⟩) j hj
  have hneR : ¬ Real.pi - polarMid n sp iB = θR := by intro h; linarith
  have hfmt := format_polar n hn s hs c hc sp
  unfold assemble at hS
  simp only [Option.map_eq_some_iff] at hS
  obtain ⟨v, hv, rfl⟩ := hS
  have mono : ∀ {a b : ℕ}, a < b → b ≤ 2 * n → polarEdge n sp a < polarEdge n sp b := fun h h' => polarEdge_strictMono n hn sp _ _ h h'
  have ht0 : 0 ≤ thIn := by
    rcases Nat.eq_zero_or_pos i0 with h | h
    · rw [h, polarEdge_zero] at hl1; exact hl1
    · have := mono h (by omega); rw [polarEdge_zero] at this; linarith
  have ht1 : thIn < Real.pi / 2 := by
    rw [← polarEdge_half n hn sp]
    rcases Nat.lt_or_ge (i0 + 1) n with h | h
    · exact hl2.trans (mono h (by omega))
    · have e : n = i0 + 1 := by omega
      rw [show polarEdge n sp n = polarEdge n sp (i0 + 1) by rw [← e]]; exact hl2
  obtain ⟨hl, hsum, -⟩ := launch_total n hn s c hc sp thIn ht0 ht1 _ v hv
  refine ⟨?_, ?_, fun j hj => ?_, fun j hj => ⟨fun r hr => ?_, ?_⟩, fun j hj l => ?_, ?_, fun j hj => hj, fun j hj => ⟨fun r hr => ?_, ?_⟩, fun j hj => ?_, fun j hj l => ?_,
    ?_, fun j hj => ⟨fun r hr => ?_, ?_⟩, fun j hj => ?_, fun j hj l => ?_, rfl⟩
  · intro j hj
    by_contra hne
    have hjl : (j : ℕ) < v.length := by rw [hl]; exact j.2
    refine hj (launch_ring n hn s c sp hs0 hc thIn hi0 hl1 hl2 phiIn hphi v hv j _ (List.getElem?_eq_getElem hjl) ?_)
    simpa [hjl] using hne
  · rw [← hsum]
    exact sum_getD v _ hl
  · exact (F0 j hj).1.trans (if_pos rfl)
  · exact (F0 j hj).2.2.2 r hr
  · exact (F0 j hj).2.1.trans (if_pos rfl)
  · exact h0.abs j hj l
  · refine unit_sends (M := downToUp (makeAngleVector n s c sp) s) fun j hj => ?_
    obtain ⟨r, h, h'⟩ := (hfmt j j.2).2
    exact ⟨⟨r, h.1⟩, h, by rw [hj] at h'; simpa using h'⟩
  · exact (F1 j hj).2.2.1 r hr
  · exact (F1 j hj).1.trans (if_pos rfl)
  · exact (F1 j hj).2.1.trans (if_pos rfl)
  · exact h1.abs j hj l
  · refine unit_sends (M := upToDown (makeAngleVector n s c sp) s) fun j hj => ?_
    obtain ⟨r, h, h'⟩ := (hfmt j j.2).1
    exact ⟨⟨r, h.1⟩, h, by rw [hj] at h'; exact h'⟩
  · exact (F2 j hj).2.2.2 r hr
  · exact (F2 j hj).2.1.trans (if_neg hneR)
  · exact (F2 j hj).1.trans (if_neg hneR)
  · exact h2.abs j hj l

include hn in
theorem ring_nonempty (hc : 0 < c) {i : ℕ} (hi : i < n) :
    (∃ j : Fin (makeAngleVector n s c sp).half, polar (makeAngleVector n s c sp) j = polarMid n sp i) ∧
    ∃ j : Fin (makeAngleVector n s c sp).half, polar (makeAngleVector n s c sp) ((makeAngleVector n s c sp).half + j) = Real.pi - polarMid n sp i := by
  have hhalf : (makeAngleVector n s c sp).half = ringStart n c n := half_eq n hn c sp s
  have hk := ringSize_pos n c hc (show i < 2 * n by omega)
  have hk' := ringSize_pos n c hc (show 2 * n - 1 - i < 2 * n by omega)
  constructor
  · have h1 := angleVector_get n hn s c sp (show i < 2 * n by omega) hk
    have h2 := ringStart_mono n c (show i + 1 ≤ n from hi)
    rw [ringStart_succ] at h2
    refine ⟨⟨ringStart n c i + 0, by rw [hhalf]; omega⟩, ?_⟩
    unfold polar
    simp only [h1]; rfl
  · have h1 := angleVector_get n hn s c sp (show 2 * n - 1 - i < 2 * n by omega) hk'
    have h2 := ringStart_mono n c (show 2 * n - 1 - i + 1 ≤ 2 * n by omega)
    rw [ringStart_succ] at h2
    have h3 := ringStart_mono n c (show n ≤ 2 * n - 1 - i by omega)
    have h4 := ringStart_half n c
    refine ⟨⟨ringStart n c (2 * n - 1 - i) + 0 - ringStart n c n, by rw [hhalf]; omega⟩, ?_⟩
    have e : (makeAngleVector n s c sp).half + (ringStart n c (2 * n - 1 - i) + 0 - ringStart n c n) = ringStart n c (2 * n - 1 - i) + 0 := by omega
    simp only [polar, e, h1]
    exact polarMid_symm n hn sp (by omega)

/-- The fractions of a flat surface whose columns add up to one. -/
theorem face_ok {κ : Type*} [Fintype κ] {h : ℕ} {M : Matrix (Fin (h + h)) (Fin h) ℝ × Matrix κ (Fin h) ℝ} (hM : StoredOk M) (f : Face κ) (j : Fin h) (a b : ℝ)
    (ha : ∑ r, M.1 (Fin.castAdd h r) j = a) (hb : ∑ r, M.1 (Fin.natAdd h r) j = b) (hA : ∀ l, M.2 l j = f.abs l) :
    0 ≤ a ∧ 0 ≤ b ∧ (∀ l, 0 ≤ f.abs l) ∧ a + b + ∑ l, f.abs l = 1 := by
  have h1 := hM.1 j
  rw [Fin.sum_univ_add, ha, hb] at h1
  simp only [hA] at h1
  refine ⟨?_, ?_, fun l => ?_, h1⟩
  · rw [← ha]; exact Finset.sum_nonneg fun r _ => hM.2.1 _ _
  · rw [← hb]; exact Finset.sum_nonneg fun r _ => hM.2.1 _ _
  · rw [← hA]; exact hM.2.2 _ _

end assembled

/-- A face that does not create light. -/
def FaceOk {κ : Type*} [Fintype κ] (f : Face κ) : Prop := 0 ≤ f.refl ∧ 0 ≤ f.trns ∧ (∀ l, 0 ≤ f.abs l) ∧ f.refl + f.trns + ∑ l, f.abs l ≤ 1

theorem abs_le_sum {κ : Type*} [Fintype κ] (f : Face κ) (h : ∀ l, 0 ≤ f.abs l) (l : κ) : f.abs l ≤ ∑ l, f.abs l :=
  Finset.single_le_sum (f := f.abs) (fun i _ => h i) (Finset.mem_univ l)

/-- The first `k` terms of the textbook series fall short of the sum by at most the power still travelling. -/
theorem slab_close (sl : Slab κ₀ κ₁) (d0 : 0 < sl.pass) (d1 : sl.pass ≤ 1) (hf : FaceOk sl.front) (hr : FaceOk sl.rear) (hb : FaceOk sl.back) (hq : sl.round < 1) (k : ℕ) (thr : ℝ)
    (hP : sl.front.trns * sl.round ^ k ≤ thr) :
    let N := ∑ i ∈ Finset.range k, sl.round ^ i
    (sl.R N ≤ sl.R sl.trips ∧ sl.R sl.trips ≤ sl.R N + thr) ∧ (sl.T N ≤ sl.T sl.trips ∧ sl.T sl.trips ≤ sl.T N + thr) ∧
    (sl.bulk N ≤ sl.bulk sl.trips ∧ sl.bulk sl.trips ≤ sl.bulk N + thr) ∧ (∀ l, sl.abs0 N l ≤ sl.abs0 sl.trips l ∧ sl.abs0 sl.trips l ≤ sl.abs0 N l + thr) ∧
    (∀ l, sl.abs1 N l ≤ sl.abs1 sl.trips l ∧ sl.abs1 sl.trips l ≤ sl.abs1 N l + thr) := by
  intro N
  obtain ⟨a1, a2, a3, a4⟩ := hf
  obtain ⟨b1, b2, b3, b4⟩ := hr
  obtain ⟨c1, c2, c3, c4⟩ := hb
  have q0 : 0 ≤ sl.round := by
    change 0 ≤ sl.pass ^ 2 * sl.rear.refl * sl.back.refl
    exact mul_nonneg (mul_nonneg (sq_nonneg _) b1) c1
  have hqk : 0 ≤ sl.round ^ k := pow_nonneg q0 k
  have hgeom : N * (1 - sl.round) = 1 - sl.round ^ k := by
    exact geom_sum_mul_neg _ _
  have h1q : 0 < 1 - sl.round := by linarith
  have htrips : sl.trips = N + sl.round ^ k / (1 - sl.round) := by
    unfold Slab.trips
    field_simp
    linarith
  -- any fraction lost in one round trip is at most what is missing from one
  have main : ∀ x : ℝ, 0 ≤ x → x ≤ 1 - sl.round → 0 ≤ sl.front.trns * x * (sl.round ^ k / (1 - sl.round)) ∧ sl.front.trns * x * (sl.round ^ k / (1 - sl.round)) ≤ thr := by
    intro x hx0 hx1
    constructor
    · positivity
    · calc sl.front.trns * x * (sl.round ^ k / (1 - sl.round)) = sl.front.trns * sl.round ^ k * (x / (1 - sl.round)) := by ring
        _ ≤ sl.front.trns * sl.round ^ k * 1 := by
            apply mul_le_mul_of_nonneg_left _ (by positivity)
            rw [div_le_one h1q]; exact hx1
        _ ≤ thr := by rw [mul_one]; exact hP
  have hround : sl.round = sl.pass ^ 2 * sl.rear.refl * sl.back.refl := rfl
  have hp2 : sl.pass ^ 2 * sl.rear.refl ≤ 1 := by
    have : sl.rear.refl ≤ 1 := by linarith [Finset.sum_nonneg fun l (_ : l ∈ Finset.univ) => b3 l]
    have : sl.pass ^ 2 ≤ 1 := pow_le_one₀ d0.le d1
    nlinarith
  have hp20 : 0 ≤ sl.pass ^ 2 * sl.rear.refl := by positivity
  have sb := Finset.sum_nonneg fun l (_ : l ∈ Finset.univ) => b3 l
  have sc := Finset.sum_nonneg fun l (_ : l ∈ Finset.univ) => c3 l
  have up : ∀ x : ℝ, 0 ≤ x → x ≤ 1 - sl.back.refl → sl.pass ^ 2 * sl.rear.refl * x ≤ 1 - sl.round := by
    intro x _ hx; rw [hround]; nlinarith
  have down : ∀ x : ℝ, 0 ≤ x → x ≤ 1 - sl.rear.refl → sl.pass * x ≤ 1 - sl.round := by
    intro x _ hx
    rw [hround]
    have h3 : sl.pass ^ 2 * sl.rear.refl * sl.back.refl ≤ sl.pass * sl.rear.refl := by
      have : sl.back.refl ≤ 1 := by linarith
      have h4 : sl.pass ^ 2 * sl.rear.refl * sl.back.refl ≤ sl.pass ^ 2 * sl.rear.refl := by nlinarith
      have h5 : sl.pass ^ 2 ≤ sl.pass := by nlinarith
      nlinarith
    nlinarith
  have m1 := main (sl.pass ^ 2 * sl.rear.refl * sl.back.trns) (by positivity) (up _ c2 (by linarith))
  have m2 := main (sl.pass * sl.rear.trns) (by positivity) (down _ b2 (by linarith))
  have d2 : 0 ≤ 1 - sl.pass := by linarith
  have m3 := main ((1 - sl.pass) + sl.pass * sl.rear.refl * (1 - sl.pass)) (by positivity) (by
    rw [hround]
    have : sl.back.refl ≤ 1 := by linarith
    have h4 : sl.pass ^ 2 * sl.rear.refl * sl.back.refl ≤ sl.pass ^ 2 * sl.rear.refl := by nlinarith
    have : sl.rear.refl ≤ 1 := by linarith
    nlinarith)
  have m4 := fun l => main (sl.pass ^ 2 * sl.rear.refl * sl.back.abs l) (mul_nonneg hp20 (c3 l)) (up _ (c3 l) (by linarith [abs_le_sum sl.back c3 l]))
  have m5 := fun l => main (sl.pass * sl.rear.abs l) (mul_nonneg d0.le (b3 l)) (down _ (b3 l) (by linarith [abs_le_sum sl.rear b3 l]))
  have x1 : sl.R sl.trips = sl.R N + sl.front.trns * (sl.pass ^ 2 * sl.rear.refl * sl.back.trns) * (sl.round ^ k / (1 - sl.round)) := by
    rw [htrips]; unfold Slab.R; ring
  have x2 : sl.T sl.trips = sl.T N + sl.front.trns * (sl.pass * sl.rear.trns) * (sl.round ^ k / (1 - sl.round)) := by
    rw [htrips]; unfold Slab.T; ring
  have x3 : sl.bulk sl.trips = sl.bulk N + sl.front.trns * ((1 - sl.pass) + sl.pass * sl.rear.refl * (1 - sl.pass)) * (sl.round ^ k / (1 - sl.round)) := by
    rw [htrips]; unfold Slab.bulk; ring
  have x4 : ∀ l, sl.abs0 sl.trips l = sl.abs0 N l + sl.front.trns * (sl.pass ^ 2 * sl.rear.refl * sl.back.abs l) * (sl.round ^ k / (1 - sl.round)) := by
    intro l; rw [htrips]; unfold Slab.abs0; ring
  have x5 : ∀ l, sl.abs1 sl.trips l = sl.abs1 N l + sl.front.trns * (sl.pass * sl.rear.abs l) * (sl.round ^ k / (1 - sl.round)) := by
    intro l; rw [htrips]; unfold Slab.abs1; ring
  rw [x1, x2, x3]
  refine ⟨⟨by linarith [m1.1], by linarith [m1.2]⟩, ⟨by linarith [m2.1], by linarith [m2.2]⟩, ⟨by linarith [m3.1], by linarith [m3.2]⟩, fun l => ?_, fun l => ?_⟩
  · rw [x4]; exact ⟨by linarith [(m4 l).1], by linarith [(m4 l).2]⟩
  · rw [x5]; exact ⟨by linarith [(m5 l).1], by linarith [(m5 l).2]⟩


/-! ## C139 -/

section
variable (n : ℕ) (hn : 0 < n) (s : ℝ) (hs : (∃ q : ℕ, 0 < q ∧ s = 2 * Real.pi / ((2 * q : ℕ) : ℝ)) ∨ s = 2 * Real.pi) (c : ℝ) (hc : 0 < c) (sp : Spacing)
  (thIn : ℝ) {i0 iB : ℕ} (hi0 : i0 < n) (hl1 : polarEdge n sp i0 ≤ thIn) (hl2 : thIn < polarEdge n sp (i0 + 1)) (phiIn : PhiIn)
  (hphi : ∀ p, phiIn = .val p → 0 ≤ p ∧ p ≠ s) (inp : RatInput ω κ₀ κ₁ (makeAngleVector n s c sp).half)
  (S : Sys ω (Fin (makeAngleVector n s c sp).half) κ₀ κ₁) (hS : assemble n s c sp thIn phiIn inp = some S) (w : ω)
  (hiB : iB < n) (θT θR : ℝ) (hT : Real.pi / 2 < θT) (hR : θR < Real.pi / 2) (ff fb : Face κ₀) (fr : Face κ₁)
  (h0 : Flat (makeAngleVector n s c sp) true (inp.front0 w) (polarMid n sp i0) (Real.pi - polarMid n sp iB) ff)
  (h1 : Flat (makeAngleVector n s c sp) true (inp.front1 w) (polarMid n sp iB) θT fr)
  (h2 : Flat (makeAngleVector n s c sp) false (inp.rear0 w) (Real.pi - polarMid n sp iB) θR fb)

include hn hs hc hi0 hl1 hl2 hphi hS hiB hT hR h0 h1 h2 in
/-- **C139, after any number of passes.** Light incident in ring `i0`, refracted into ring `iB`, flat surfaces: after `k` passes the results are the first `k` terms of the textbook series, and the power still travelling is the next power of the
round-trip factor. -/
theorem C139_passes (k : ℕ) :
    let sl : Slab κ₀ κ₁ := ⟨ff, fr, fb, Real.exp (-inp.α w * inp.thick / |Real.cos (polarMid n sp iB)|)⟩
    let N := ∑ i ∈ Finset.range k, sl.round ^ i
    let t := S.step^[k] S.init
    t.R w = sl.R N ∧ t.T w = sl.T N ∧ t.Abulk w = sl.bulk N ∧ (∀ l, (t.a0.map fun v => v w l).sum = sl.abs0 N l) ∧ (∀ l, (t.a1.map fun v => v w l).sum = sl.abs1 N l) ∧
    ∑ j, t.vf1 w j = ff.trns * sl.round ^ k := by
  intro sl N t
  have h := slab_iter (planar_assembled n hn s hs c hc sp thIn hi0 hl1 hl2 phiIn hphi inp S hS w hiB θT θR hT hR ff fb fr h0 h1 h2) k
  exact ⟨h.R, h.T, h.bulk, h.abs0, h.abs1, h.left⟩

include hn hs hc hi0 hl1 hl2 hphi hS hiB hT hR h0 h1 h2 in
/-- **C139.** A planar structure – the stored matrices are those of flat surfaces that conserve energy – has, whenever the loop ends (both branches), the reflectance, transmittance and absorptances of the textbook formulas for an incoherent slab, evaluated at
the centres of the rings of the light outside and inside; each is at most the textbook value and falls short of it by at most `I_thresh`. -/
theorem C139_textbook (hα : ∀ w, 0 ≤ inp.α w) (hd : 0 ≤ inp.thick) (k0 : ∀ w, StoredOk (inp.front0 w)) (k1 : ∀ w, StoredOk (inp.front1 w)) (k2 : ∀ w, StoredOk (inp.rear0 w))
    (o : ProfOpts ω (Fin (makeAngleVector n s c sp).half)) (k : ℕ) (t : LoopState ω (Fin (makeAngleVector n s c sp).half) κ₀ κ₁) (ht : S.Exits k t ∨ S.ExitsProf o k t) :
    let sl : Slab κ₀ κ₁ := ⟨ff, fr, fb, Real.exp (-inp.α w * inp.thick / |Real.cos (polarMid n sp iB)|)⟩
    sl.round < 1 →
    (t.R w ≤ sl.R sl.trips ∧ sl.R sl.trips ≤ t.R w + inp.thresh) ∧ (t.T w ≤ sl.T sl.trips ∧ sl.T sl.trips ≤ t.T w + inp.thresh) ∧
    (t.Abulk w ≤ sl.bulk sl.trips ∧ sl.bulk sl.trips ≤ t.Abulk w + inp.thresh) ∧
    (∀ l, (t.a0.map fun v => v w l).sum ≤ sl.abs0 sl.trips l ∧ sl.abs0 sl.trips l ≤ (t.a0.map fun v => v w l).sum + inp.thresh) ∧
    (∀ l, (t.a1.map fun v => v w l).sum ≤ sl.abs1 sl.trips l ∧ sl.abs1 sl.trips l ≤ (t.a1.map fun v => v w l).sum + inp.thresh) := by
  intro sl hq
  have ht0 : 0 ≤ thIn ∧ thIn < Real.pi / 2 := by
    have mono : ∀ {a b : ℕ}, a < b → b ≤ 2 * n → polarEdge n sp a < polarEdge n sp b := fun h h' => polarEdge_strictMono n hn sp _ _ h h'
    constructor
    · rcases Nat.eq_zero_or_pos i0 with h | h
      · rw [h, polarEdge_zero] at hl1; exact hl1
      · have := mono h (by omega); rw [polarEdge_zero] at this; linarith
    · rw [← polarEdge_half n hn sp]
      rcases Nat.lt_or_ge (i0 + 1) n with h | h
      · exact hl2.trans (mono h (by omega))
      · have e : n = i0 + 1 := by omega
        rw [show polarEdge n sp n = polarEdge n sp (i0 + 1) by rw [← e]]; exact hl2
  have hE := C15_assembled n hn s hs c hc sp thIn ht0.1 ht0.2 phiIn inp hα hd k0 k1 k2 S hS
  have hthr : S.thresh = inp.thresh := by
    unfold assemble at hS
    simp only [Option.map_eq_some_iff] at hS
    obtain ⟨v, -, rfl⟩ := hS
    rfl
  have hpi := Real.pi_pos
  have hm0 := polarMid_lt_half n hn sp hi0
  have hmB := polarMid_lt_half n hn sp hiB
  obtain ⟨j0, hj0⟩ := (ring_nonempty n hn s c sp hc hi0).1
  obtain ⟨j1, hj1⟩ := (ring_nonempty n hn s c sp hc hiB).1
  obtain ⟨j2, hj2⟩ := (ring_nonempty n hn s c sp hc hiB).2
  have F0 := flat_halves n hn s c sp h0 (polarMid n sp i0) (Real.pi - polarMid n sp iB) hm0 (by linarith) (Or.inl ⟨rfl, rfl⟩) j0 hj0
  have F1 := flat_halves n hn s c sp h1 (polarMid n sp iB) θT hmB hT (Or.inl ⟨rfl, rfl⟩) j1 hj1
  have F2 := flat_halves n hn s c sp h2 θR (Real.pi - polarMid n sp iB) hR (by linarith) (Or.inr ⟨rfl, rfl⟩) j2 hj2
  have hneR : ¬ Real.pi - polarMid n sp iB = θR := by intro h; linarith
  simp only [if_true, hneR, if_false] at F0 F1 F2
  obtain ⟨a1, a2, a3, a4⟩ := face_ok (k0 w) ff j0 _ _ F0.1 F0.2.1 (h0.abs j0 hj0)
  obtain ⟨b1, b2, b3, b4⟩ := face_ok (k1 w) fr j1 _ _ F1.1 F1.2.1 (h1.abs j1 hj1)
  obtain ⟨c1, c2, c3, c4⟩ := face_ok (k2 w) fb j2 _ _ F2.1 F2.2.1 (h2.abs j2 hj2)
  obtain ⟨t', ⟨rfl, hdone, -⟩, e1, e2, e3, e4, e5, -⟩ : ∃ t', S.Exits k t' ∧ t'.vr = t.vr ∧ t'.vt = t.vt ∧ t'.a0 = t.a0 ∧ t'.a1 = t.a1 ∧ t'.A = t.A ∧ t'.vf1 = t.vf1 := by
    rcases ht with h | h
    · exact ⟨t, h, rfl, rfl, rfl, rfl, rfl, rfl⟩
    · exact (C19_branches_agree S hE.1.u2d o k).1 t h
  obtain ⟨g1, g2, g3, g4, g5, g6⟩ := C139_passes n hn s hs c hc sp thIn hi0 hl1 hl2 phiIn hphi inp S hS w hiB θT θR hT hR ff fb fr h0 h1 h2 k
  change _ = sl.R (∑ i ∈ Finset.range k, sl.round ^ i) at g1
  change _ = sl.T (∑ i ∈ Finset.range k, sl.round ^ i) at g2
  change _ = sl.bulk (∑ i ∈ Finset.range k, sl.round ^ i) at g3
  change ∀ l, _ = sl.abs0 (∑ i ∈ Finset.range k, sl.round ^ i) l at g4
  change ∀ l, _ = sl.abs1 (∑ i ∈ Finset.range k, sl.round ^ i) l at g5
  change _ = ff.trns * sl.round ^ k at g6
  have E1 : (S.step^[k] S.init).R w = t.R w := by unfold LoopState.R; rw [e1]
  have E2 : (S.step^[k] S.init).T w = t.T w := by unfold LoopState.T; rw [e2]
  have E3 : (S.step^[k] S.init).Abulk w = t.Abulk w := by unfold LoopState.Abulk; rw [e5]
  rw [E1] at g1; rw [E2] at g2; rw [E3] at g3; rw [e3] at g4; rw [e4] at g5
  have hP : ff.trns * sl.round ^ k ≤ inp.thresh := by rw [← g6, ← hthr]; exact hdone w
  obtain ⟨z1, z2, z3, z4, z5⟩ := slab_close sl (Real.exp_pos _) (att_le_one (hα w) hd _) ⟨a1, a2, a3, a4.le⟩ ⟨b1, b2, b3, b4.le⟩ ⟨c2, c1, c3, by change fb.refl + fb.trns + ∑ l, fb.abs l ≤ 1; linarith⟩ hq k _ hP
  simp only [g1, g2, g3, g4, g5]
  exact ⟨z1, z2, z3, z4, z5⟩

end

/-! ## Which stored matrices are those of flat surfaces -/

/-- At one wavelength, the stored matrices are those calculated by `TMM` from solver results `res`, for a ratio `ratio` of the refractive indices of the medium the light comes from and the one behind the layers. -/
def StoredByTmm (n : ℕ) (c : ℝ) (m : ℕ) (sp : Spacing) (front : Bool) {nL : ℕ} (ratio : ℝ) (res : TmmRes)
    (M : Matrix (Fin ((makeAngleVector n (2 * Real.pi / m) c sp).half + (makeAngleVector n (2 * Real.pi / m) c sp).half)) (Fin (makeAngleVector n (2 * Real.pi / m) c sp).half) ℝ ×
      Matrix (Fin nL) (Fin (makeAngleVector n (2 * Real.pi / m) c sp).half) ℝ) : Prop :=
  ∀ j : Fin (makeAngleVector n (2 * Real.pi / m) c sp).half,
    (∃ col, tmmColumn (makeAngleVector n (2 * Real.pi / m) c sp) (2 * Real.pi / m) front ratio res j = some col ∧ ∀ r, M.1 r j = col r) ∧
    ∃ abs, tmmAbsColumn (makeAngleVector n (2 * Real.pi / m) c sp) front res j = some abs ∧ ∀ l, M.2 l j = abs l

section
variable (n : ℕ) (hn : 0 < n) (c : ℝ) (hc : 0 < c) (m : ℕ) (hm : 0 < m) (sp : Spacing) (front : Bool)

theorem sum_one_entry {h : ℕ} (f : Fin h → ℝ) (p : Fin h → Prop) [DecidablePred p] (b : Fin h) (hb : p b) (hz : ∀ r, p r → r ≠ b → f r = 0) : (∑ r, if p r then f r else 0) = f b := by
  rw [Finset.sum_eq_single b]
  · rw [if_pos hb]
  · intro r _ hr
    split_ifs with h
    · exact hz r h hr
    · rfl
  · intro h; exact absurd (Finset.mem_univ b) h

include hn in
theorem polar_block (s : ℝ) {i k : ℕ} (hi : i < 2 * n) (hk : k < ringSize n c i) : polar (makeAngleVector n s c sp) (ringStart n c i + k) = polarMid n sp i := by
  unfold polar
  rw [angleVector_get n hn s c sp hi hk]
  rfl

include hn in
theorem polarMid_inj {i i' : ℕ} (hi : i < 2 * n) (hi' : i' < 2 * n) (h : polarMid n sp i = polarMid n sp i') : i = i' := by
  have mono : ∀ {a b : ℕ}, a < b → b ≤ 2 * n → polarEdge n sp a < polarEdge n sp b := fun h h' => polarEdge_strictMono n hn sp _ _ h h'
  have key : ∀ a b : ℕ, a < b → b < 2 * n → polarMid n sp a < polarMid n sp b := by
    intro a b hab hb
    have h1 := mono hab (by omega)
    have h2 := mono (show a + 1 < b + 1 by omega) (by omega)
    unfold polarMid; linarith
  rcases Nat.lt_trichotomy i i' with h1 | h1 | h1
  · have := key i i' h1 hi'; linarith
  · exact h1
  · have := key i' i h1 hi; linarith

include hn hc hm in
/-- **C139, planar layers.** Matrices calculated by `TMM` are those of a flat surface: light in ring `i` (counted from the vertical) is reflected into ring `i` and transmitted into the ring `it` of the angle given by Snell's law, with the fractions the
solver reports for the centre of ring `i`; beyond the critical angle nothing is transmitted if the solver says so (at most 1e-8). -/
theorem C139_tmm (hs : (1e-10 : ℝ) ≤ 2 * Real.pi / m) {nL : ℕ} (ratio : ℝ) (hratio : 0 < ratio) (res : TmmRes)
    (M : Matrix (Fin ((makeAngleVector n (2 * Real.pi / m) c sp).half + (makeAngleVector n (2 * Real.pi / m) c sp).half)) (Fin (makeAngleVector n (2 * Real.pi / m) c sp).half) ℝ ×
      Matrix (Fin nL) (Fin (makeAngleVector n (2 * Real.pi / m) c sp).half) ℝ)
    (hM : StoredByTmm n c m sp front ratio res M) (i : ℕ) (hi : i < n) (it : ℕ) (hit : it < n)
    (hcrit : ratio * Real.sin (polarMid n sp i) ≠ 1)
    (hfront : front = true → ratio * Real.sin (polarMid n sp i) < 1 → polarEdge n sp it ≤ Real.arcsin (ratio * Real.sin (polarMid n sp i)) ∧ Real.arcsin (ratio * Real.sin (polarMid n sp i)) < polarEdge n sp (it + 1))
    (hrear : front = false → ratio * Real.sin (polarMid n sp i) < 1 → polarEdge n sp it < Real.arcsin (ratio * Real.sin (polarMid n sp i)) ∧ Real.arcsin (ratio * Real.sin (polarMid n sp i)) ≤ polarEdge n sp (it + 1))
    (htir : 1 < ratio * Real.sin (polarMid n sp i) → res.T (polarMid n sp i) ≤ 1e-8) :
    Flat (makeAngleVector n (2 * Real.pi / m) c sp) front M (if front then polarMid n sp i else Real.pi - polarMid n sp i) (if front then Real.pi - polarMid n sp it else polarMid n sp it)
      ⟨res.R (polarMid n sp i), if ratio * Real.sin (polarMid n sp i) < 1 then res.T (polarMid n sp i) else 0, fun l => res.A (polarMid n sp i) l⟩ := by
  have hhalf : (makeAngleVector n (2 * Real.pi / m) c sp).half = ringStart n c n := half_eq n hn c sp _
  have htot := ringStart_half n c
  have hpi := Real.pi_pos
  have hmi := polarMid_lt_half n hn sp hi
  have hmt := polarMid_lt_half n hn sp hit
  have mono : ∀ {a b : ℕ}, a < b → b ≤ 2 * n → polarEdge n sp a < polarEdge n sp b := fun h h' => polarEdge_strictMono n hn sp _ _ h h'
  -- everything about one column
  have key : ∀ j : Fin (makeAngleVector n (2 * Real.pi / m) c sp).half,
      polar (makeAngleVector n (2 * Real.pi / m) c sp) (if front then j else (makeAngleVector n (2 * Real.pi / m) c sp).half + j) = (if front then polarMid n sp i else Real.pi - polarMid n sp i) →
      ∃ bR : Fin ((makeAngleVector n (2 * Real.pi / m) c sp).half + (makeAngleVector n (2 * Real.pi / m) c sp).half),
        polar (makeAngleVector n (2 * Real.pi / m) c sp) bR = (if front then polarMid n sp i else Real.pi - polarMid n sp i) ∧ M.1 bR j = res.R (polarMid n sp i) ∧
        (∀ l, M.2 l j = res.A (polarMid n sp i) l) ∧
        (ratio * Real.sin (polarMid n sp i) < 1 → ∃ bT : Fin ((makeAngleVector n (2 * Real.pi / m) c sp).half + (makeAngleVector n (2 * Real.pi / m) c sp).half),
          polar (makeAngleVector n (2 * Real.pi / m) c sp) bT = (if front then Real.pi - polarMid n sp it else polarMid n sp it) ∧ M.1 bT j = res.T (polarMid n sp i) ∧
          ∀ r, r ≠ bR → r ≠ bT → M.1 r j = 0) ∧
        (¬ ratio * Real.sin (polarMid n sp i) < 1 → ∀ r, r ≠ bR → M.1 r j = 0) := by
    intro j hj
    obtain ⟨⟨col, hcol, hMcol⟩, abs, habs, hMabs⟩ := hM j
    have hjlt : (j : ℕ) < ringStart n c n := by have := j.2; omega
    obtain ⟨row, hrow, hpol⟩ := polar_row n hn (2 * Real.pi / m) c sp (r := if front then j else (makeAngleVector n (2 * Real.pi / m) c sp).half + j) (by split_ifs <;> omega)
    have hrow' : (makeAngleVector n (2 * Real.pi / m) c sp).angleVector[(if front then 0 else ringStart n c n) + (j : ℕ)]? = some row := by
      rw [← hrow, ← hhalf]
      cases front <;> simp
    have hθ : seen front row.theta = polarMid n sp i := by
      rw [hpol] at hj
      unfold seen
      rw [hj]
      cases front <;> simp
    have hcr : ratio * Real.sin (seen front row.theta) ≠ 1 := by rw [hθ]; exact hcrit
    obtain ⟨col', binR, e1, e2, e3, e4, ⟨iR, k, kR, hk, hkR, hjk, hbR⟩, -, e7, e8⟩ := C51_entries n hn c hc m hm sp front hs ratio hratio res j hjlt row hrow' hcr
    rw [hcol] at e1
    obtain rfl := Option.some.inj e1
    simp only [hθ] at e4 e7 e8
    have hiR : iR < 2 * n := by
      by_contra hcon
      have := ringStart_mono n c (show 2 * n ≤ iR by omega)
      omega
    have hA : ∀ l, M.2 l j = res.A (polarMid n sp i) l := by
      intro l
      rw [hMabs]
      obtain ⟨i', k', row', -, -, -, -, hr', hget, hlook, -, -⟩ := tmm_incident n hn c hc sp front (2 * Real.pi / m) hjlt
      have hrr : row = row' := by
        have h1 : tmmRow (makeAngleVector n (2 * Real.pi / m) c sp) front j = some row := by
          unfold tmmRow; exact hrow
        rw [h1] at hget; exact Option.some.inj hget
      subst hrr
      unfold tmmAbsColumn at habs
      rw [hlook, hθ] at habs
      simp only [Option.map_some, Option.some.injEq] at habs
      rw [← habs]
    have hpR : polar (makeAngleVector n (2 * Real.pi / m) c sp) binR = (if front then polarMid n sp i else Real.pi - polarMid n sp i) := by
      rw [hbR, polar_block n hn c sp _ hiR hkR, ← hj]
      have : (if front then (j : ℕ) else (makeAngleVector n (2 * Real.pi / m) c sp).half + j) = ringStart n c iR + k := by
        rw [← hjk]; cases front <;> simp [← hhalf]
      rw [this, polar_block n hn c sp _ hiR hk]
    have hlt : ∀ b, b < ringStart n c (2 * n) → b < (makeAngleVector n (2 * Real.pi / m) c sp).half + (makeAngleVector n (2 * Real.pi / m) c sp).half := by
      intro b hb; omega
    refine ⟨⟨binR, hlt _ e2⟩, hpR, by rw [hMcol]; exact e4, hA, fun hx => ?_, fun hx r hr => ?_⟩
    · obtain ⟨binT, t1, t2, t3, t4, t5⟩ := e7 (Or.inl hx)
      obtain ⟨⟨iT, kT, hiT, hkT, hbT, g1, g2⟩, -⟩ := t4 hx
      refine ⟨⟨binT, hlt _ t1⟩, ?_, by rw [hMcol]; exact t3, fun r h1 h2 => ?_⟩
      · change polar _ binT = _
        rw [hbT, polar_block n hn c sp _ hiT hkT]
        unfold refracted seen at g1 g2
        cases front
        · obtain ⟨f1, f2⟩ := hrear rfl hx
          simp only [Bool.false_eq_true, if_false, sub_sub_cancel] at g1 g2 ⊢
          have : iT = it := by
            by_contra hne
            rcases Nat.lt_or_gt_of_ne hne with h | h
            · have : polarEdge n sp (iT + 1) ≤ polarEdge n sp it := by
                rcases Nat.lt_or_ge (iT + 1) it with h' | h'
                · exact (mono h' (by omega)).le
                · rw [show iT + 1 = it by omega]
              linarith
            · have : polarEdge n sp (it + 1) ≤ polarEdge n sp iT := by
                rcases Nat.lt_or_ge (it + 1) iT with h' | h'
                · exact (mono h' (by omega)).le
                · rw [show it + 1 = iT by omega]
              linarith
          rw [this]
        · obtain ⟨f1, f2⟩ := hfront rfl hx
          simp only [if_true] at g1 g2 ⊢
          have s1 := polarEdge_symm n hn sp it (by omega)
          have s2 := polarEdge_symm n hn sp (it + 1) (by omega)
          have : iT = 2 * n - 1 - it := by
            by_contra hne
            rcases Nat.lt_or_gt_of_ne hne with h | h
            · have : polarEdge n sp (iT + 1) ≤ polarEdge n sp (2 * n - (it + 1)) := by
                rcases Nat.lt_or_ge (iT + 1) (2 * n - (it + 1)) with h' | h'
                · exact (mono h' (by omega)).le
                · rw [show iT + 1 = 2 * n - (it + 1) by omega]
              linarith
            · have : polarEdge n sp (2 * n - it) ≤ polarEdge n sp iT := by
                rcases Nat.lt_or_ge (2 * n - it) iT with h' | h'
                · exact (mono h' (by omega)).le
                · rw [show 2 * n - it = iT by omega]
              linarith
          rw [this, polarMid_symm n hn sp (by omega)]
      · rw [hMcol]
        exact t5 r (fun h => h1 (Fin.ext h)) (fun h => h2 (Fin.ext h))
    · rw [hMcol]
      have hx2 : 1 < ratio * Real.sin (polarMid n sp i) := lt_of_le_of_ne (not_lt.mp hx) (Ne.symm hcrit)
      exact e8 (fun h => h.elim hx (fun h => absurd (htir hx2) (not_le.mpr h))) r (fun h => hr (Fin.ext h))
  have hne : (if front then polarMid n sp i else Real.pi - polarMid n sp i) ≠ (if front then Real.pi - polarMid n sp it else polarMid n sp it) := by
    cases front <;> simp <;> intro h <;> linarith
  refine ⟨fun j hj => ?_, fun j hj => ?_, fun j hj r hr1 hr2 => ?_, fun j hj l => ?_⟩
  · obtain ⟨bR, p1, p2, -, p4, p5⟩ := key j hj
    rw [← p2]
    refine sum_one_entry (fun r => M.1 r j) (fun r => polar (makeAngleVector n (2 * Real.pi / m) c sp) r = _) bR p1 fun r hr hrb => ?_
    by_cases hx : ratio * Real.sin (polarMid n sp i) < 1
    · obtain ⟨bT, q1, q2, q3⟩ := p4 hx
      exact q3 r hrb (fun h => hne (by rw [← hr, h, q1]))
    · exact p5 hx r hrb
  · obtain ⟨bR, p1, p2, -, p4, p5⟩ := key j hj
    by_cases hx : ratio * Real.sin (polarMid n sp i) < 1
    · obtain ⟨bT, q1, q2, q3⟩ := p4 hx
      simp only [if_pos hx]
      rw [← q2]
      exact sum_one_entry (fun r => M.1 r j) (fun r => polar (makeAngleVector n (2 * Real.pi / m) c sp) r = _) bT q1 fun r hr hrb => q3 r (fun h => hne (by rw [← hr, h, p1])) hrb
    · simp only [if_neg hx]
      refine Finset.sum_eq_zero fun r _ => ?_
      by_cases h : polar (makeAngleVector n (2 * Real.pi / m) c sp) r = (if front then Real.pi - polarMid n sp it else polarMid n sp it)
      · rw [if_pos h]
        exact p5 hx r (fun h' => hne (by rw [← h, h', p1]))
      · rw [if_neg h]
  · obtain ⟨bR, p1, p2, -, p4, p5⟩ := key j hj
    by_cases hx : ratio * Real.sin (polarMid n sp i) < 1
    · obtain ⟨bT, q1, q2, q3⟩ := p4 hx
      exact q3 r (fun h => hr1 (by rw [h, p1])) (fun h => hr2 (by rw [h, q1]))
    · exact p5 hx r (fun h => hr1 (by rw [h, p1]))
  · obtain ⟨bR, -, -, p3, -⟩ := key j hj
    exact p3 l

include hn hc in
/-- **C139, mirrors.** The matrices of an ideal mirror are those of a flat surface that reflects everything. -/
theorem C139_mirror (q : ℕ) (hq : 0 < q) (κ : Type*) (i : ℕ) (hi : i < n) (θout : ℝ) (hout : if front then Real.pi / 2 < θout else θout < Real.pi / 2) :
    Flat (h := (makeAngleVector n (2 * Real.pi / ((2 * q : ℕ) : ℝ)) c sp).half) (κ := κ) (makeAngleVector n (2 * Real.pi / ((2 * q : ℕ) : ℝ)) c sp) front
      (fun r j => mirrorMatrix (makeAngleVector n (2 * Real.pi / ((2 * q : ℕ) : ℝ)) c sp) (2 * Real.pi / ((2 * q : ℕ) : ℝ)) front r j, fun _ _ => 0)
      (if front then polarMid n sp i else Real.pi - polarMid n sp i) θout ⟨1, 0, fun _ => 0⟩ := by
  have hmi := polarMid_lt_half n hn sp hi
  have hpi := Real.pi_pos
  have hne : (if front then polarMid n sp i else Real.pi - polarMid n sp i) ≠ θout := by
    cases front <;> simp at hout ⊢ <;> intro h <;> linarith
  set g := makeAngleVector n (2 * Real.pi / ((2 * q : ℕ) : ℝ)) c sp with hg
  have hcol : ∀ j : Fin g.half, ∃ b : Fin (g.half + g.half), (b : ℕ) = (if front then (j : ℕ) else g.half + j) ∧ ∀ r : Fin (g.half + g.half), mirrorMatrix g (2 * Real.pi / ((2 * q : ℕ) : ℝ)) front r j = if r = b then 1 else 0 := by
    intro j
    have h := C24_mirror n hn q hq c hc sp j j.2
    rw [← hg] at h
    cases front
    · refine ⟨⟨g.half + j, by omega⟩, by simp, fun r => ?_⟩
      have := h.2.2.1.2 r (by have := r.2; change _ < 2 * g.half; omega)
      rw [this]
      simp only [Fin.ext_iff]; rfl
    · refine ⟨⟨j, by omega⟩, by simp, fun r => ?_⟩
      have := h.1.2 r (by have := r.2; change _ < 2 * g.half; omega)
      rw [this]
      simp only [Fin.ext_iff]
  refine ⟨fun j hj => ?_, fun j hj => ?_, fun j hj r h1 h2 => ?_, fun j hj l => rfl⟩
  · obtain ⟨b, hb, hz⟩ := hcol j
    rw [← hb] at hj
    refine (sum_one_entry _ (fun r : Fin (g.half + g.half) => polar g r = _) b hj fun r _ hr => ?_).trans ?_
    · exact (hz r).trans (if_neg hr)
    · exact (hz b).trans (if_pos rfl)
  · obtain ⟨b, hb, hz⟩ := hcol j
    rw [← hb] at hj
    refine Finset.sum_eq_zero fun r _ => ?_
    split_ifs with h
    · refine (hz r).trans (if_neg ?_)
      rintro rfl
      exact hne (hj.symm.trans h)
    · rfl
  · obtain ⟨b, hb, hz⟩ := hcol j
    rw [← hb] at hj
    refine (hz r).trans (if_neg ?_)
    rintro rfl
    exact h1 hj

end

/-- **C139 for planar layers on both sides.** `calculate_RAT` for a bulk layer between two planar layer stacks (`TMM`), light refracted into ring `iB` of the bulk layer: reflectance, transmittance and absorptances are those of the textbook slab whose surfaces reflect, transmit and
absorb what the solver reports for the centres of ring `i0` (from outside) and ring `iB` (from inside), to within `I_thresh`. -/
theorem C139_tmm_slab (n : ℕ) (hn : 0 < n) (m : ℕ) (hm : (∃ q : ℕ, 0 < q ∧ m = 2 * q) ∨ m = 1) (hs : (1e-10 : ℝ) ≤ 2 * Real.pi / m) (c : ℝ) (hc : 0 < c) (sp : Spacing)
    (thIn : ℝ) {i0 iB iT iR : ℕ} (hi0 : i0 < n) (hl1 : polarEdge n sp i0 ≤ thIn) (hl2 : thIn < polarEdge n sp (i0 + 1)) (phiIn : PhiIn) (hphi : ∀ p, phiIn = .val p → 0 ≤ p ∧ p ≠ 2 * Real.pi / m)
    {n0 n1 : ℕ} (inp : RatInput ω (Fin n0) (Fin n1) (makeAngleVector n (2 * Real.pi / m) c sp).half)
    (S : Sys ω (Fin (makeAngleVector n (2 * Real.pi / m) c sp).half) (Fin n0) (Fin n1)) (hS : assemble n (2 * Real.pi / m) c sp thIn phiIn inp = some S) (w : ω)
    (hα : ∀ w, 0 ≤ inp.α w) (hd : 0 ≤ inp.thick) (k0 : ∀ w, StoredOk (inp.front0 w)) (k1 : ∀ w, StoredOk (inp.front1 w)) (k2 : ∀ w, StoredOk (inp.rear0 w))
    (inN bulkN outN : ℝ) (hin : 0 < inN) (hbulk : 0 < bulkN) (hout : 0 < outN) (res0 res1 resb : TmmRes)
    (t0 : StoredByTmm n c m sp true (inN / bulkN) res0 (inp.front0 w)) (t1 : StoredByTmm n c m sp true (bulkN / outN) res1 (inp.front1 w)) (t2 : StoredByTmm n c m sp false (bulkN / inN) resb (inp.rear0 w))
    (hiB : iB < n) (hiT : iT < n) (hiR : iR < n)
    (hB0 : inN / bulkN * Real.sin (polarMid n sp i0) < 1)
    (hB : polarEdge n sp iB ≤ Real.arcsin (inN / bulkN * Real.sin (polarMid n sp i0)) ∧ Real.arcsin (inN / bulkN * Real.sin (polarMid n sp i0)) < polarEdge n sp (iB + 1))
    (hT0 : bulkN / outN * Real.sin (polarMid n sp iB) ≠ 1) (hT1 : 1 < bulkN / outN * Real.sin (polarMid n sp iB) → res1.T (polarMid n sp iB) ≤ 1e-8)
    (hT : bulkN / outN * Real.sin (polarMid n sp iB) < 1 →
      polarEdge n sp iT ≤ Real.arcsin (bulkN / outN * Real.sin (polarMid n sp iB)) ∧ Real.arcsin (bulkN / outN * Real.sin (polarMid n sp iB)) < polarEdge n sp (iT + 1))
    (hR0 : bulkN / inN * Real.sin (polarMid n sp iB) ≠ 1) (hR1 : 1 < bulkN / inN * Real.sin (polarMid n sp iB) → resb.T (polarMid n sp iB) ≤ 1e-8)
    (hR : bulkN / inN * Real.sin (polarMid n sp iB) < 1 →
      polarEdge n sp iR < Real.arcsin (bulkN / inN * Real.sin (polarMid n sp iB)) ∧ Real.arcsin (bulkN / inN * Real.sin (polarMid n sp iB)) ≤ polarEdge n sp (iR + 1))
    (o : ProfOpts ω (Fin (makeAngleVector n (2 * Real.pi / m) c sp).half)) (k : ℕ) (t : LoopState ω (Fin (makeAngleVector n (2 * Real.pi / m) c sp).half) (Fin n0) (Fin n1)) (ht : S.Exits k t ∨ S.ExitsProf o k t) :
    let θ0 := polarMid n sp i0
    let θB := polarMid n sp iB
    let sl : Slab (Fin n0) (Fin n1) :=
      { front := ⟨res0.R θ0, res0.T θ0, fun l => res0.A θ0 l⟩
        rear := ⟨res1.R θB, if bulkN / outN * Real.sin θB < 1 then res1.T θB else 0, fun l => res1.A θB l⟩
        back := ⟨resb.R θB, if bulkN / inN * Real.sin θB < 1 then resb.T θB else 0, fun l => resb.A θB l⟩
        pass := Real.exp (-inp.α w * inp.thick / |Real.cos θB|) }
    sl.round < 1 →
    (t.R w ≤ sl.R sl.trips ∧ sl.R sl.trips ≤ t.R w + inp.thresh) ∧ (t.T w ≤ sl.T sl.trips ∧ sl.T sl.trips ≤ t.T w + inp.thresh) ∧
    (t.Abulk w ≤ sl.bulk sl.trips ∧ sl.bulk sl.trips ≤ t.Abulk w + inp.thresh) ∧
    (∀ l, (t.a0.map fun v => v w l).sum ≤ sl.abs0 sl.trips l ∧ sl.abs0 sl.trips l ≤ (t.a0.map fun v => v w l).sum + inp.thresh) ∧
    (∀ l, (t.a1.map fun v => v w l).sum ≤ sl.abs1 sl.trips l ∧ sl.abs1 sl.trips l ≤ (t.a1.map fun v => v w l).sum + inp.thresh) := by
  intro θ0 θB sl hround
  have hpi := Real.pi_pos
  have hm0 : 0 < m := by rcases hm with ⟨q, hq, rfl⟩ | rfl <;> omega
  have hsym : (∃ q : ℕ, 0 < q ∧ 2 * Real.pi / (m : ℝ) = 2 * Real.pi / ((2 * q : ℕ) : ℝ)) ∨ 2 * Real.pi / (m : ℝ) = 2 * Real.pi := by
    rcases hm with ⟨q, hq, rfl⟩ | rfl
    · exact Or.inl ⟨q, hq, rfl⟩
    · exact Or.inr (by simp)
  have h0 := C139_tmm n hn c hc m hm0 sp true hs (inN / bulkN) (by positivity) res0 _ t0 i0 hi0 iB hiB hB0.ne (fun _ _ => hB) (fun h => by simp at h) (fun h => absurd hB0 (not_lt.mpr h.le))
  have h1 := C139_tmm n hn c hc m hm0 sp true hs (bulkN / outN) (by positivity) res1 _ t1 iB hiB iT hiT hT0 (fun _ => hT) (fun h => by simp at h) hT1
  have h2 := C139_tmm n hn c hc m hm0 sp false hs (bulkN / inN) (by positivity) resb _ t2 iB hiB iR hiR hR0 (fun h => by simp at h) (fun _ => hR) hR1
  have hmT := polarMid_lt_half n hn sp hiT
  have hmR := polarMid_lt_half n hn sp hiR
  simp only [if_true, Bool.false_eq_true, if_false] at h0 h1 h2
  rw [if_pos hB0] at h0
  exact C139_textbook n hn _ hsym c hc sp thIn hi0 hl1 hl2 phiIn hphi inp S hS w hiB (Real.pi - polarMid n sp iT) (polarMid n sp iR) (by linarith) hmR _ _ _ h0 h1 h2 hα hd k0 k1 k2 o k t ht hround

/-- One layer (of zero absorption) that reflects 1/10 at all angles. -/
noncomputable def exRes : TmmRes := ⟨fun _ => 1 / 10, fun _ => 9 / 10, fun _ _ => 0⟩

/-- The matrices `TMM` stores for it, on the grid with one ring per hemisphere and two symmetry sectors. -/
noncomputable def exStored (front : Bool) :
    Matrix (Fin ((makeAngleVector 1 (2 * Real.pi / (2 : ℕ)) 1 .linear).half + (makeAngleVector 1 (2 * Real.pi / (2 : ℕ)) 1 .linear).half)) (Fin (makeAngleVector 1 (2 * Real.pi / (2 : ℕ)) 1 .linear).half) ℝ ×
      Matrix (Fin 1) (Fin (makeAngleVector 1 (2 * Real.pi / (2 : ℕ)) 1 .linear).half) ℝ :=
  (fun r j => (tmmColumn (makeAngleVector 1 (2 * Real.pi / (2 : ℕ)) 1 .linear) (2 * Real.pi / (2 : ℕ)) front 1 exRes j).getD (fun _ => 0) r, fun _ _ => 0)

theorem exMid : polarMid 1 .linear 0 = Real.pi / 4 := by simp [polarMid, polarEdge]; ring

theorem exStored_tmm (front : Bool) : StoredByTmm 1 1 2 .linear front 1 exRes (exStored front) ∧ StoredOk (exStored front) := by
  have hpi := Real.pi_gt_three
  have hs : (1e-10 : ℝ) ≤ 2 * Real.pi / (2 : ℕ) := by norm_num; linarith
  have hsin : ∀ row ∈ (makeAngleVector 1 (2 * Real.pi / (2 : ℕ)) 1 .linear).angleVector, (1 : ℝ) * Real.sin row.theta ≠ 1 := by
    intro row hrow h
    obtain ⟨r, hr⟩ := List.mem_iff_getElem?.mp hrow
    have h2 := (C02_hemispheres 1 one_pos (2 * Real.pi / (2 : ℕ)) 1 .linear).2.1 r row hr
    obtain ⟨i, k, hi, hk, -, rfl⟩ := row_decomp 1 one_pos _ 1 .linear hr
    simp only [one_mul] at h
    have h3 : Real.cos (polarMid 1 .linear i) = 0 := by
      have := Real.sin_sq_add_cos_sq (polarMid 1 .linear i)
      rw [h] at this; nlinarith
    have h4 := Real.sin_sq_add_cos_sq (Real.pi / 4)
    interval_cases i
    · rw [exMid] at h3
      rw [Real.cos_pi_div_four] at h3
      have : (0 : ℝ) < Real.sqrt 2 := by positivity
      linarith
    · rw [show (1 : ℕ) = 2 * 1 - 1 - 0 by norm_num, polarMid_symm 1 one_pos .linear (by norm_num), exMid, Real.cos_pi_sub, Real.cos_pi_div_four] at h3
      have : (0 : ℝ) < Real.sqrt 2 := by positivity
      linarith
  have hcol : ∀ j < (makeAngleVector 1 (2 * Real.pi / (2 : ℕ)) 1 .linear).half, ∃ col abs, tmmColumn (makeAngleVector 1 (2 * Real.pi / (2 : ℕ)) 1 .linear) (2 * Real.pi / (2 : ℕ)) front 1 exRes j = some col ∧
      tmmAbsColumn (makeAngleVector 1 (2 * Real.pi / (2 : ℕ)) 1 .linear) front exRes j = some abs ∧ abs = fun _ => 0 := by
    intro j hj
    have hhalf : (makeAngleVector 1 (2 * Real.pi / (2 : ℕ)) 1 .linear).half = ringStart 1 1 1 := half_eq 1 one_pos 1 .linear _
    obtain ⟨row, hrow, -⟩ := polar_row 1 one_pos (2 * Real.pi / (2 : ℕ)) 1 .linear (r := (if front then 0 else ringStart 1 1 1) + j) (by rw [← hhalf]; split_ifs <;> omega)
    have hcr : (1 : ℝ) * Real.sin (seen front row.theta) ≠ 1 := by
      have := hsin row (List.mem_of_getElem? hrow)
      unfold seen
      split_ifs
      · exact this
      · rw [Real.sin_pi_sub]; exact this
    obtain ⟨col, abs, h1, h2, -⟩ := C51_energy 1 one_pos 1 one_pos 2 two_pos .linear front hs 1 one_pos exRes j (by omega) row hrow hcr 1
    refine ⟨col, abs, h1, h2, ?_⟩
    unfold tmmAbsColumn at h2
    obtain ⟨x, -, hx⟩ := Option.map_eq_some_iff.mp h2
    rw [← hx]; rfl
  refine ⟨fun j => ?_, ?_⟩
  · obtain ⟨col, abs, h1, h2, h3⟩ := hcol j j.2
    refine ⟨⟨col, h1, fun r => ?_⟩, ⟨abs, h2, fun l => by rw [h3]; rfl⟩⟩
    simp only [exStored]
    rw [h1]; rfl
  · refine C123_stored 1 one_pos 1 one_pos 2 two_pos .linear front hs 1 _ ?_
    refine .tmm 1 1 one_pos exRes (fun θ _ _ => ?_) (fun θ h => absurd (Real.sin_le_one θ) (by linarith)) hsin
      (fun r j => (tmmColumn (makeAngleVector 1 (2 * Real.pi / (2 : ℕ)) 1 .linear) (2 * Real.pi / (2 : ℕ)) front 1 exRes j).getD (fun _ => 0) r) (fun _ _ => 0) (fun j hj => ?_) (fun j hj => ?_)
    · simp only [exRes]; norm_num
    · obtain ⟨col, abs, h1, -⟩ := hcol j hj
      rw [h1]; rfl
    · obtain ⟨col, abs, -, h2, h3⟩ := hcol j hj
      rw [h2, h3]

/-- The hypotheses of C139 for a layer between two such surfaces, half of the light being absorbed on one passage; the loop ends. -/
example : ∃ (inp : RatInput Unit (Fin 1) (Fin 1) (makeAngleVector 1 (2 * Real.pi / (2 : ℕ)) 1 .linear).half) (S : _) (k : ℕ) (t : _),
    assemble 1 (2 * Real.pi / (2 : ℕ)) 1 .linear 0.5 .all inp = some S ∧ S.Exits k t ∧ (∀ w, StoredOk (inp.front0 w)) ∧ (∀ w, StoredOk (inp.front1 w)) ∧ (∀ w, StoredOk (inp.rear0 w)) ∧
    StoredByTmm 1 1 2 .linear true (1 / 1) exRes (inp.front0 ()) ∧ StoredByTmm 1 1 2 .linear true (1 / 1) exRes (inp.front1 ()) ∧ StoredByTmm 1 1 2 .linear false (1 / 1) exRes (inp.rear0 ()) ∧
    polarEdge 1 .linear 0 ≤ 0.5 ∧ 0.5 < polarEdge 1 .linear 1 ∧ (1 / 1 : ℝ) * Real.sin (polarMid 1 .linear 0) < 1 ∧
    polarEdge 1 .linear 0 < Real.arcsin (1 / 1 * Real.sin (polarMid 1 .linear 0)) ∧ Real.arcsin (1 / 1 * Real.sin (polarMid 1 .linear 0)) < polarEdge 1 .linear 1 ∧
    inp.thresh = 0.1 ∧ inp.α () * inp.thick = 1 := by
  have hpi := Real.pi_gt_three
  have hpi' := Real.pi_pos
  have hs : (1e-10 : ℝ) ≤ 2 * Real.pi / (2 : ℕ) := by norm_num; linarith
  have e0 : polarEdge 1 .linear 0 = 0 := polarEdge_zero 1 .linear
  have e1 : polarEdge 1 .linear 1 = Real.pi / 2 := polarEdge_half 1 one_pos .linear
  have hsin : (1 / 1 : ℝ) * Real.sin (polarMid 1 .linear 0) < 1 := by
    rw [exMid, Real.sin_pi_div_four, div_one, one_mul]
    have : Real.sqrt 2 < 2 := by rw [Real.sqrt_lt' (by norm_num)]; norm_num
    linarith
  have harc : Real.arcsin (1 / 1 * Real.sin (polarMid 1 .linear 0)) = Real.pi / 4 := by
    rw [exMid, div_one, one_mul, Real.arcsin_sin (by linarith) (by linarith)]
  obtain ⟨i, v, -, -, -, hv, -⟩ := C09_launch_all 1 one_pos (2 * Real.pi / (2 : ℕ)) 1 one_pos .linear 1 0.5 (by norm_num) (by linarith)
  unfold makeV0 at hv
  obtain ⟨v', hv', -⟩ := Option.map_eq_some_iff.mp hv
  let inp : RatInput Unit (Fin 1) (Fin 1) (makeAngleVector 1 (2 * Real.pi / (2 : ℕ)) 1 .linear).half :=
    { α := fun _ => 1, thick := 1, thresh := 0.1, front0 := fun _ => exStored true, front1 := fun _ => exStored true, rear0 := fun _ => exStored false }
  obtain ⟨S, hS⟩ : ∃ S, assemble 1 (2 * Real.pi / (2 : ℕ)) 1 .linear 0.5 .all inp = some S := by
    unfold assemble
    simp only [launchPhi, hv', Option.map_some]
    exact ⟨_, rfl⟩
  have F := fun front => C139_tmm 1 one_pos 1 one_pos 2 two_pos .linear front hs (1 / 1) (by norm_num) exRes (exStored front) (by rw [div_one]; exact (exStored_tmm front).1) 0 one_pos 0 one_pos hsin.ne
    (fun _ _ => by rw [harc, e0, zero_add, e1]; constructor <;> linarith) (fun _ _ => by rw [harc, e0, zero_add, e1]; constructor <;> linarith) (fun h => absurd hsin (not_lt.mpr h.le))
  have h0 := F true
  have h2 := F false
  simp only [if_true, Bool.false_eq_true, if_false] at h0 h2
  have hmid : polarMid 1 .linear 0 < Real.pi / 2 := by rw [exMid]; linarith
  obtain ⟨-, -, -, -, -, g6⟩ := C139_passes 1 one_pos (2 * Real.pi / (2 : ℕ)) (Or.inl ⟨1, one_pos, by norm_num⟩) 1 one_pos .linear 0.5 one_pos (by rw [e0]; norm_num) (by rw [zero_add, e1]; linarith) .all
    (fun p h => by simp at h) inp S hS () one_pos _ _ (by linarith) hmid _ _ _ h0 h0 h2 1
  have hdone : S.Done (S.step^[1] S.init) := by
    intro w
    refine (show _ = _ from g6).le.trans ?_
    have : S.thresh = 0.1 := by
      unfold assemble at hS
      simp only [Option.map_eq_some_iff] at hS
      obtain ⟨v, -, rfl⟩ := hS
      rfl
    rw [this, if_pos hsin]
    simp only [Slab.round, exRes, pow_one]
    have d1 : Real.exp (-inp.α () * inp.thick / |Real.cos (polarMid 1 .linear 0)|) ≤ 1 := att_le_one (by simp [inp]) (by simp [inp]) _
    have d0 := Real.exp_pos (-inp.α () * inp.thick / |Real.cos (polarMid 1 .linear 0)|)
    have : Real.exp (-inp.α () * inp.thick / |Real.cos (polarMid 1 .linear 0)|) ^ 2 ≤ 1 := pow_le_one₀ d0.le d1
    generalize Real.exp (-inp.α () * inp.thick / |Real.cos (polarMid 1 .linear 0)|) ^ 2 = x at this ⊢
    norm_num
    linarith
  obtain ⟨k, t, -, hk⟩ := exists_exit hdone
  refine ⟨inp, S, k, t, hS, hk, fun _ => (exStored_tmm true).2, fun _ => (exStored_tmm true).2, fun _ => (exStored_tmm false).2, ?_, ?_, ?_, ?_, ?_, hsin, ?_, ?_, rfl, ?_⟩
  · rw [div_one]; exact (exStored_tmm true).1
  · rw [div_one]; exact (exStored_tmm true).1
  · rw [div_one]; exact (exStored_tmm false).1
  · rw [e0]; norm_num
  · rw [e1]; linarith
  · rw [harc, e0]; linarith
  · rw [harc, e1]; linarith
  · simp [inp]

end Rayflare
