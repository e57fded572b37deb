import Verif.Spec.Thicker
import Verif.Props.Turned

/-!
# Property C165: thicker layers in planar structures
-/

namespace Rayflare

open Rayflare.Np Rayflare.Model Rayflare.Spec Rayflare.Lemmas MeasureTheory

/-- A quantity that is not more than what is passed on of it is zero, if the layers absorb or light gets out. -/
theorem passed_on_zero {F : FlatStack} (hF : ∀ j, j < F.m → Conserves (F.above j) ∧ Conserves (F.below j)) (hP : ∀ i, i < F.m → 0 ≤ F.pass i ∧ F.pass i ≤ 1)
    (hgets : (∀ i, 1 ≤ i → i < F.m → F.pass i < 1) ∨ ∀ j, j + 1 < F.m → 0 < (F.above j).trns ∧ 0 < (F.below j).trns)
    {yD yU : ℕ → ℝ} (nD : ∀ j, 0 ≤ yD j) (nU : ∀ j, 0 ≤ yU j) (bD : ∀ j, j < F.m → yD j ≤ 1) (bU : ∀ j, j + 1 < F.m → yU j ≤ 1)
    (eD : ∀ j, j < F.m → yD j ≤ (F.above j).refl * (if j = 0 then 0 else F.pass j * yU (j - 1)) + (F.above j).trns * (if j + 1 = F.m then 0 else F.pass (j + 1) * yD (j + 1)))
    (eU : ∀ j, j + 1 < F.m → yU j ≤ (F.below j).refl * (if j + 1 = F.m then 0 else F.pass (j + 1) * yD (j + 1)) + (F.below j).trns * (if j = 0 then 0 else F.pass j * yU (j - 1))) :
    (∀ j, j < F.m → yD j = 0) ∧ ∀ j, j + 1 < F.m → yU j = 0 := by
  have two : ∀ {a b u d B : ℝ}, 0 ≤ a → 0 ≤ b → a + b ≤ 1 → 0 ≤ B → u ≤ B → d ≤ B → a * u + b * d ≤ B := by
    intro a b u d B ha hb hab hB hu hd
    have h1 := mul_le_mul_of_nonneg_left hu ha
    have h2 := mul_le_mul_of_nonneg_left hd hb
    have h3 := mul_le_mul_of_nonneg_right hab hB
    linarith
  have small : ∀ ε : ℝ, 0 < ε → (∀ j, j < F.m → yD j ≤ ε) ∧ ∀ j, j + 1 < F.m → yU j ≤ ε := by
    intro ε hε
    rcases hgets with hA | hO
    · obtain ⟨p, p0, p1, hp⟩ := pass_bound hP hA
      have main : ∀ K : ℕ, (∀ j, j < F.m → yD j ≤ p ^ K) ∧ ∀ j, j + 1 < F.m → yU j ≤ p ^ K := by
        intro K
        induction K with
        | zero => rw [pow_zero]; exact ⟨bD, bU⟩
        | succ K ih =>
          have hB' : 0 ≤ p ^ (K + 1) := pow_nonneg p0 (K + 1)
          have hu : ∀ j, j < F.m → (if j = 0 then 0 else F.pass j * yU (j - 1)) ≤ p ^ (K + 1) := by
            intro j hj
            by_cases h0 : j = 0
            · rw [if_pos h0]; exact hB'
            · rw [if_neg h0, pow_succ']
              exact mul_le_mul (hp j (by omega) hj) (ih.2 (j - 1) (by omega)) (nU _) p0
          have hd : ∀ j, j < F.m → (if j + 1 = F.m then 0 else F.pass (j + 1) * yD (j + 1)) ≤ p ^ (K + 1) := by
            intro j hj
            by_cases h0 : j + 1 = F.m
            · rw [if_pos h0]; exact hB'
            · have hj1 : j + 1 < F.m := lt_of_le_of_ne hj h0
              rw [if_neg h0, pow_succ']
              exact mul_le_mul (hp (j + 1) (by omega) hj1) (ih.1 (j + 1) hj1) (nD _) p0
          refine ⟨fun j hj => ?_, fun j hj => ?_⟩
          · obtain ⟨⟨a1, a2, a3, -⟩, -⟩ := hF j hj
            exact (eD j hj).trans (two a1 a2 a3 hB' (hu j hj) (hd j hj))
          · have hj' : j < F.m := by omega
            obtain ⟨-, a1, a2, a3, -⟩ := hF j hj'
            exact (eU j hj).trans (two a1 a2 a3 hB' (hd j hj') (hu j hj'))
      obtain ⟨K, hK⟩ := exists_pow_lt_of_lt_one hε p1
      exact ⟨fun j hj => ((main K).1 j hj).trans hK.le, fun j hj => ((main K).2 j hj).trans hK.le⟩
    · have main : ∀ K : ℕ, (∀ j, j < F.m → yD j ≤ (F.inside K).1 j) ∧ ∀ j, j + 1 < F.m → yU j ≤ (F.inside K).2 j := by
        intro K
        induction K with
        | zero =>
          refine ⟨fun j hj => ?_, fun j hj => ?_⟩
          · rw [show (F.inside 0).1 j = 1 from if_pos hj]; exact bD j hj
          · rw [show (F.inside 0).2 j = 1 from if_pos hj]; exact bU j hj
        | succ K ih =>
          have hu : ∀ j, j < F.m → (if j = 0 then 0 else F.pass j * yU (j - 1)) ≤ (if j = 0 then 0 else (F.inside K).2 (j - 1)) := by
            intro j hj
            by_cases h0 : j = 0
            · simp [h0]
            · rw [if_neg h0, if_neg h0]
              exact (mul_le_of_le_one_left (nU _) (hP j hj).2).trans (ih.2 (j - 1) (by omega))
          have hd : ∀ j, j < F.m → (if j + 1 = F.m then 0 else F.pass (j + 1) * yD (j + 1)) ≤ (F.inside K).1 (j + 1) := by
            intro j hj
            by_cases h0 : j + 1 = F.m
            · rw [if_pos h0]; exact (inside_range hF K (j + 1)).1.1
            · have hj1 : j + 1 < F.m := lt_of_le_of_ne hj h0
              rw [if_neg h0]
              exact (mul_le_of_le_one_left (nD _) (hP (j + 1) hj1).2).trans (ih.1 (j + 1) hj1)
          refine ⟨fun j hj => ?_, fun j hj => ?_⟩
          · obtain ⟨⟨a1, a2, a3, -⟩, -⟩ := hF j hj
            exact (eD j hj).trans ((add_le_add (mul_le_mul_of_nonneg_left (hu j hj) a1) (mul_le_mul_of_nonneg_left (hd j hj) a2)).trans (if_pos hj).ge)
          · have hj' : j < F.m := by omega
            obtain ⟨-, a1, a2, a3, -⟩ := hF j hj'
            exact (eU j hj).trans ((add_le_add (mul_le_mul_of_nonneg_left (hd j hj') a1) (mul_le_mul_of_nonneg_left (hu j hj') a2)).trans (if_pos hj).ge)
      obtain ⟨K, hK⟩ := inside_vanishes hF hO hε
      exact ⟨fun j hj => ((main K).1 j hj).trans (hK K le_rfl j).1, fun j hj => ((main K).2 j hj).trans (hK K le_rfl j).2⟩
  exact ⟨fun j hj => le_antisymm (le_of_forall_pos_le_add fun ε hε => by rw [zero_add]; exact (small ε hε).1 j hj) (nD j),
    fun j hj => le_antisymm (le_of_forall_pos_le_add fun ε hε => by rw [zero_add]; exact (small ε hε).2 j hj) (nU j)⟩

/-- **C165** (the balance of light).  With layers that let less light through, no more light is reflected, transmitted, absorbed in a coating, or absorbed in a layer that is unchanged. -/
theorem C165_balance {F F' : FlatStack} (hD : Darker F F') (hF : ∀ j, j < F.m → Conserves (F.above j) ∧ Conserves (F.below j)) (hP : ∀ i, i < F.m → 0 ≤ F.pass i ∧ F.pass i ≤ 1)
    (hgets : (∀ i, 1 ≤ i → i < F.m → F.pass i < 1) ∨ ∀ j, j + 1 < F.m → 0 < (F.above j).trns ∧ 0 < (F.below j).trns)
    (q : Quantity) (hq : ∀ i, 1 ≤ i → i < F.m → q = .A i → F'.pass i = F.pass i) {xD xU yD yU : ℕ → ℝ} (b : F.Balance q xD xU) (b' : F'.Balance q yD yU) :
    (∀ j, j < F.m → yD j ≤ xD j) ∧ ∀ j, j + 1 < F.m → yU j ≤ xU j := by
  have hin : ∀ i, 1 ≤ i → i < F.m → (1 - F'.pass i) * q.inLayer i = (1 - F.pass i) * q.inLayer i := by
    intro i h1 h2
    by_cases h : q = .A i
    · rw [hq i h1 h2 h]
    · have : q.inLayer i = 0 := by
        cases q with
        | A k => exact if_neg fun e => h (by rw [e])
        | R => rfl
        | T => rfl
        | Aint _ _ => rfl
      rw [this, mul_zero, mul_zero]
  have up : ∀ i, i < F.m → F'.upwards q yU i - F.upwards q xU i ≤ if i = 0 then 0 else F.pass i * max (yU (i - 1) - xU (i - 1)) 0 := by
    intro i hi
    unfold FlatStack.upwards
    by_cases h0 : i = 0
    · rw [if_pos h0, if_pos h0, if_pos h0, sub_self]
    · rw [if_neg h0, if_neg h0, if_neg h0, hin i (by omega) hi]
      have h1 := mul_le_mul_of_nonneg_right (hD.pass i (by omega) hi) (b'.rangeU (i - 1)).1
      have h2 := mul_le_mul_of_nonneg_left (le_max_left (yU (i - 1) - xU (i - 1)) 0) (hP i hi).1
      linarith
  have dn : ∀ i, 1 ≤ i → i ≤ F.m → F'.downwards q yD i - F.downwards q xD i ≤ if i = F.m then 0 else F.pass i * max (yD i - xD i) 0 := by
    intro i h1 hi
    unfold FlatStack.downwards
    rw [hD.m]
    by_cases h0 : i = F.m
    · rw [if_pos h0, if_pos h0, if_pos h0, sub_self]
    · have hi' : i < F.m := lt_of_le_of_ne hi h0
      rw [if_neg h0, if_neg h0, if_neg h0, hin i h1 hi']
      have h1 := mul_le_mul_of_nonneg_right (hD.pass i h1 hi') (b'.rangeD i).1
      have h2 := mul_le_mul_of_nonneg_left (le_max_left (yD i - xD i) 0) (hP i hi').1
      linarith
  have nonneg : ∀ (P : Prop) [Decidable P] (p y : ℝ), (¬ P → 0 ≤ p) → 0 ≤ if P then 0 else p * max y 0 := by
    intro P _ p y h
    by_cases hp : P
    · rw [if_pos hp]
    · rw [if_neg hp]; exact mul_nonneg (h hp) (le_max_right _ _)
  have zero := passed_on_zero hF hP hgets (yD := fun j => max (yD j - xD j) 0) (yU := fun j => max (yU j - xU j) 0) (fun j => le_max_right _ _) (fun j => le_max_right _ _)
    (fun j _ => max_le (by linarith [(b'.rangeD j).2, (b.rangeD j).1]) zero_le_one) (fun j _ => max_le (by linarith [(b'.rangeU j).2, (b.rangeU j).1]) zero_le_one)
    (fun j hj => by
      obtain ⟨⟨a1, a2, -, -⟩, -⟩ := hF j hj
      have n1 := nonneg (j = 0) (F.pass j) (yU (j - 1) - xU (j - 1)) fun _ => (hP j hj).1
      have n2 := nonneg (j + 1 = F.m) (F.pass (j + 1)) (yD (j + 1) - xD (j + 1)) fun h => (hP (j + 1) (by omega)).1
      refine max_le ?_ (add_nonneg (mul_nonneg a1 n1) (mul_nonneg a2 n2))
      rw [b.above j hj, b'.above j (by rw [hD.m]; exact hj), (hD.surfaces j hj).1]
      have h1 := mul_le_mul_of_nonneg_left (up j hj) a1
      have h2 := mul_le_mul_of_nonneg_left (dn (j + 1) (by omega) (by omega)) a2
      linarith)
    (fun j hj => by
      have hj' : j < F.m := by omega
      obtain ⟨-, a1, a2, -, -⟩ := hF j hj'
      have n1 := nonneg (j = 0) (F.pass j) (yU (j - 1) - xU (j - 1)) fun _ => (hP j hj').1
      have n2 := nonneg (j + 1 = F.m) (F.pass (j + 1)) (yD (j + 1) - xD (j + 1)) fun h => (hP (j + 1) (by omega)).1
      refine max_le ?_ (add_nonneg (mul_nonneg a1 n2) (mul_nonneg a2 n1))
      rw [b.below j hj, b'.below j (by rw [hD.m]; exact hj), (hD.surfaces j hj').2]
      have h1 := mul_le_mul_of_nonneg_left (up j hj') a2
      have h2 := mul_le_mul_of_nonneg_left (dn (j + 1) (by omega) (by omega)) a1
      linarith)
  exact ⟨fun j hj => sub_nonpos.mp (max_eq_right_iff.mp (zero.1 j hj)), fun j hj => sub_nonpos.mp (max_eq_right_iff.mp (zero.2 j hj))⟩

/-- Such a stack still absorbs, or still lets light out. -/
theorem darker_gets {F F' : FlatStack} (hD : Darker F F') (hgets : (∀ i, 1 ≤ i → i < F.m → F.pass i < 1) ∨ ∀ j, j + 1 < F.m → 0 < (F.above j).trns ∧ 0 < (F.below j).trns) :
    (∀ i, 1 ≤ i → i < F'.m → F'.pass i < 1) ∨ ∀ j, j + 1 < F'.m → 0 < (F'.above j).trns ∧ 0 < (F'.below j).trns := by
  rw [hD.m]
  rcases hgets with h | h
  · exact Or.inl fun i h1 h2 => (hD.pass i h1 h2).trans_lt (h i h1 h2)
  · refine Or.inr fun j hj => ?_
    rw [(hD.surfaces j (by omega)).1, (hD.surfaces j (by omega)).2]; exact h j hj

/-- **C165** (the balance of light): more light is absorbed in the layer that has been made thicker, if it is the only one. -/
theorem C165_layer {F F' : FlatStack} (hm : 1 ≤ F.m) (hD : Darker F F') (hF : ∀ j, j < F.m → Conserves (F.above j) ∧ Conserves (F.below j)) (hP : ∀ i, i < F.m → 0 ≤ F.pass i ∧ F.pass i ≤ 1) (hP' : ∀ i, i < F.m → 0 ≤ F'.pass i ∧ F'.pass i ≤ 1)
    (hgets : (∀ i, 1 ≤ i → i < F.m → F.pass i < 1) ∨ ∀ j, j + 1 < F.m → 0 < (F.above j).trns ∧ 0 < (F.below j).trns)
    (W : ℕ) (hW : ∀ j, j < F.m → (F.above j).refl + (F.above j).trns + ∑ l ∈ Finset.range W, (F.above j).abs l = 1 ∧ (F.below j).refl + (F.below j).trns + ∑ l ∈ Finset.range W, (F.below j).abs l = 1)
    {k : ℕ} (hk : 1 ≤ k) (hk' : k < F.m) (hsame : ∀ i, 1 ≤ i → i < F.m → i ≠ k → F'.pass i = F.pass i) {xD xU yD yU : ℕ → ℝ} (b : F.Balance (.A k) xD xU) (b' : F'.Balance (.A k) yD yU) : xD 0 ≤ yD 0 := by
  have hF' : ∀ j, j < F'.m → Conserves (F'.above j) ∧ Conserves (F'.below j) := by
    intro j hj
    rw [hD.m] at hj
    rw [(hD.surfaces j hj).1, (hD.surfaces j hj).2]; exact hF j hj
  have hP'' : ∀ i, i < F'.m → 0 ≤ F'.pass i ∧ F'.pass i ≤ 1 := fun i hi => hP' i (hD.m ▸ hi)
  have hgets' := darker_gets hD hgets
  choose zD zU c using C157_balance F hF hP
  choose wD wU c' using C157_balance F' hF' hP''
  have t := C157_total F hm hF hP hgets W hW zD zU c
  have t' := C157_total F' (by rw [hD.m]; exact hm) hF' hP'' hgets' W (fun j hj => by rw [hD.m] at hj; rw [(hD.surfaces j hj).1, (hD.surfaces j hj).2]; exact hW j hj) wD wU c'
  rw [hD.m] at t'
  have le : ∀ q, q ≠ .A k → wD q 0 ≤ zD q 0 := fun q hq =>
    (C165_balance hD hF hP hgets q (fun i h1 h2 e => hsame i h1 h2 fun h => hq (by rw [e, h])) (c q) (c' q)).1 0 hm
  have e1 := (C157_unique F hF hP (.A k) hgets b (c _)).1 0 hm
  have e2 := (C157_unique F' hF' hP'' (.A k) hgets' b' (c' _)).1 0 (by rw [hD.m]; exact hm)
  have s1 : ∑ i ∈ Finset.Ico 1 F.m, wD (.A i) 0 - wD (.A k) 0 ≤ ∑ i ∈ Finset.Ico 1 F.m, zD (.A i) 0 - zD (.A k) 0 := by
    have hmem : k ∈ Finset.Ico 1 F.m := Finset.mem_Ico.mpr ⟨hk, hk'⟩
    rw [← Finset.add_sum_erase _ _ hmem, ← Finset.add_sum_erase _ (fun i => zD (.A i) 0) hmem, add_sub_cancel_left, add_sub_cancel_left]
    exact Finset.sum_le_sum fun i hi => le _ fun e => (Finset.mem_erase.mp hi).1 (Quantity.A.inj e)
  have s2 : ∑ j ∈ Finset.range F.m, ∑ l ∈ Finset.range W, wD (.Aint j l) 0 ≤ ∑ j ∈ Finset.range F.m, ∑ l ∈ Finset.range W, zD (.Aint j l) 0 :=
    Finset.sum_le_sum fun j _ => Finset.sum_le_sum fun l _ => le _ (by simp)
  have hR := le .R (by simp)
  have hT := le .T (by simp)
  linarith

section
variable {c c' : RTStack} {m : ℕ} {cells cells' : ℕ → Cell} {tabs : ℕ → Option Table} {nk : ℕ → ℂ} {θ : ℕ → ℝ}
  (hs : FlatLayers c m cells tabs nk θ) (hs' : FlatLayers c' m cells' tabs nk θ) (ht : Thicker c c' m)
include hs ht

theorem thicker_darker : Darker (flatStackOf c m tabs nk θ) (flatStackOf c' m tabs nk θ) := by
  refine ⟨rfl, fun j _ => ?_, fun i h1 h2 => ?_⟩
  · simp only [flatStackOf, ht.asin, ht.pol, and_self]
  · simp only [flatStackOf]
    have h2' : i < m := h2
    apply Real.exp_le_exp.mpr
    have hc := layers_cos hs h2'
    have := mul_le_mul (ht.alpha i h1 h2') (ht.width i h1 h2') (hs.width i) ((hs.alpha i).trans (ht.alpha i h1 h2'))
    have := div_le_div_of_nonneg_right this hc.le
    linarith

theorem thicker_same {i : ℕ} (hsame : SameLayer c c' i) : (flatStackOf c' m tabs nk θ).pass i = (flatStackOf c m tabs nk θ).pass i := by
  simp only [flatStackOf, hsame.1, hsame.2]

variable {h h' : ℝ} (hh : (cells 0).zcov ≤ h) (hh0 : h + 1e-8 ≠ 0) (hh' : (cells' 0).zcov ≤ h') (hh0' : h' + 1e-8 ≠ 0) (φ φ' : ℝ)
  {N N' : ℕ} (hN : 0 < N) (hN' : 0 < N') (L : Fin N → StackLaunch) (L' : Fin N' → StackLaunch) (hL : ∀ k, AllFlatTo m cells (L k).V) (hL' : ∀ k, AllFlatTo m cells' (L' k).V) {n n' : ℕ} (hn : 3 ≤ n) (hn' : 3 ≤ n')
include hs' hh hh0 hh' hh0' hN hN' hL hL' hn hn'

/-- **C165** (ray tracing).  Mean results for a structure and for the structure with thicker layers, each with its own number of rays, launch points, azimuth and threshold: of the reflected and transmitted light, the light absorbed in coatings and in the layers that are unchanged there is no more than before; in the
layer that has been made thicker, if it is the only one, no less. -/
theorem C165_thicker (hgets : ((∀ i, 1 ≤ i → i < m → (flatStackOf c m tabs nk θ).pass i < 1) ∧ 0 < c.S.thresh ∧ 0 < c'.S.thresh) ∨
      ∀ j, j + 1 < m → 0 < ((flatStackOf c m tabs nk θ).above j).trns ∧ 0 < ((flatStackOf c m tabs nk θ).below j).trns) {ε : ℝ} (hε : 0 < ε) :
    ∃ K₀, ∀ K K', K₀ ≤ K → K₀ ≤ K' →
    let rays := fun U : Fin N → Fin K → Fin n → ℝ => List.ofFn fun k => recorded 0 1 (traceWith c K (L k).V (U k) (c.start (L k).x (L k).y 0 1 (rA0 h (θ 0) φ)))
    let rays' := fun U : Fin N' → Fin K' → Fin n' → ℝ => List.ofFn fun k => recorded 0 1 (traceWith c' K' (L' k).V (U k) (c'.start (L' k).x (L' k).y 0 1 (rA0 h' (θ 0) φ')))
    let P : Measure (Fin N → Fin K → Fin n → ℝ) := Measure.pi fun _ => uniform2 K n
    let P' : Measure (Fin N' → Fin K' → Fin n' → ℝ) := Measure.pi fun _ => uniform2 K' n'
    (∫ U, resR (rays' U) ∂P' ≤ ∫ U, resR (rays U) ∂P + c.S.thresh + ε) ∧
    (∫ U, resT (rays' U) ∂P' ≤ ∫ U, resT (rays U) ∂P + c.S.thresh + ε) ∧
    (∀ j l, ∫ U, resAint (rays' U) j l ∂P' ≤ ∫ U, resAint (rays U) j l ∂P + c.S.thresh + ε) ∧
    (∀ i, SameLayer c c' i → ∫ U, resA (rays' U) i ∂P' ≤ ∫ U, resA (rays U) i ∂P + c.S.thresh + ε) ∧
    ∀ k, 1 ≤ k → k < m → (∀ i, 1 ≤ i → i < m → i ≠ k → SameLayer c c' i) →
      (∃ W, ∀ j, j < m → ((flatStackOf c m tabs nk θ).above j).refl + ((flatStackOf c m tabs nk θ).above j).trns + ∑ l ∈ Finset.range W, ((flatStackOf c m tabs nk θ).above j).abs l = 1 ∧
        ((flatStackOf c m tabs nk θ).below j).refl + ((flatStackOf c m tabs nk θ).below j).trns + ∑ l ∈ Finset.range W, ((flatStackOf c m tabs nk θ).below j).abs l = 1) →
      ∫ U, resA (rays U) k ∂P ≤ ∫ U, resA (rays' U) k ∂P' + c'.S.thresh + ε := by
  have hD := thicker_darker hs ht
  have g3 : (∀ i, 1 ≤ i → i < m → (flatStackOf c m tabs nk θ).pass i < 1) ∨
      ∀ j, j + 1 < m → 0 < ((flatStackOf c m tabs nk θ).above j).trns ∧ 0 < ((flatStackOf c m tabs nk θ).below j).trns := hgets.imp And.left id
  have g1 : ((∀ i, 1 ≤ i → i < m → (flatStackOf c m tabs nk θ).pass i < 1) ∧ 0 < c.S.thresh) ∨
      ∀ j, j + 1 < m → 0 < ((flatStackOf c m tabs nk θ).above j).trns ∧ 0 < ((flatStackOf c m tabs nk θ).below j).trns := hgets.imp (fun h => ⟨h.1, h.2.1⟩) id
  have g2 : ((∀ i, 1 ≤ i → i < m → (flatStackOf c' m tabs nk θ).pass i < 1) ∧ 0 < c'.S.thresh) ∨
      ∀ j, j + 1 < m → 0 < ((flatStackOf c' m tabs nk θ).above j).trns ∧ 0 < ((flatStackOf c' m tabs nk θ).below j).trns := by
    rcases hgets with ⟨h1, -, h3⟩ | h1
    · exact Or.inl ⟨fun i i1 i2 => (hD.pass i i1 i2).trans_lt (h1 i i1 i2), h3⟩
    · refine Or.inr fun j hj => ?_
      rw [(hD.surfaces j (show j < m by omega)).1, (hD.surfaces j (show j < m by omega)).2]; exact h1 j hj
  obtain ⟨K₁, k1⟩ := C157_converges hs hh hh0 φ hN L hL hn g1 hε
  obtain ⟨K₂, k2⟩ := C157_converges hs' hh' hh0' φ' hN' L' hL' hn' g2 hε
  choose xD xU b using C157_balance (flatStackOf c m tabs nk θ) (fun j hj => layers_conserve hs hj) (fun i hi => layers_pass hs hi)
  choose yD yU b' using C157_balance (flatStackOf c' m tabs nk θ) (fun j hj => layers_conserve hs' hj) (fun i hi => layers_pass hs' hi)
  refine ⟨max K₁ K₂, fun K K' hK hK' => ?_⟩
  intro rays rays' P P'
  have j1 : ∀ q : Quantity, JustBelow (∫ U, q.result (rays U) ∂P) (xD q 0) (c.S.thresh + ε) := fun q => k1 K (le_trans (le_max_left _ _) hK) q _ _ (b q)
  have j2 : ∀ q : Quantity, JustBelow (∫ U, q.result (rays' U) ∂P') (yD q 0) (c'.S.thresh + ε) := fun q => k2 K' (le_trans (le_max_right _ _) hK') q _ _ (b' q)
  have main : ∀ q : Quantity, (∀ i, 1 ≤ i → i < m → q = .A i → SameLayer c c' i) → ∫ U, q.result (rays' U) ∂P' ≤ ∫ U, q.result (rays U) ∂P + c.S.thresh + ε := by
    intro q hq
    have le := (C165_balance hD (fun j hj => layers_conserve hs hj) (fun i hi => layers_pass hs hi) g3 q (fun i h1 h2 e => thicker_same hs ht (hq i h1 h2 e)) (b q) (b' q)).1 0 hs.surfaces
    have a1 := (j1 q).2
    have a2 := (j2 q).1
    have a3 := (j1 q).1
    have a4 := (j2 q).2
    linarith
  refine ⟨main .R (by simp), main .T (by simp), fun j l => main (.Aint j l) (by simp), fun i hi => main (.A i) fun i' _ _ e => by rw [← Quantity.A.inj e]; exact hi, fun k hk hk' hsame ⟨W, hW⟩ => ?_⟩
  have le := C165_layer hs.surfaces hD (fun j hj => layers_conserve hs hj) (fun i hi => layers_pass hs hi) (fun i hi => layers_pass hs' hi) g3 W hW hk hk' (fun i h1 h2 hne => thicker_same hs ht (hsame i h1 h2 hne)) (b (.A k)) (b' (.A k))
  have a1 := (j1 (.A k)).1
  have a2 := (j2 (.A k)).2
  have a3 := (j1 (.A k)).2
  have a4 := (j2 (.A k)).1
  simp only [Quantity.result] at a1 a2 a3 a4
  linarith

end

/-! ## Example: `exLayers` with the second layer twice as thick -/

/-- Air, a layer with refractive index 2, a thicker layer with refractive index 3, air. -/
noncomputable def exThick : RTStack :=
  { S := { widths := [0, 2, 6, 0], alphas := [0, 1, 1, 0], zpos := [0, 1 / 2, 1], thresh := 1 / 100 }, cells := [⟨10, 10, 0, 0, 0⟩, ⟨10, 10, -2, -2, -2⟩, ⟨10, 10, -8, -8, -8⟩],
    nks := [((1 : ℝ) : ℂ), ((2 : ℝ) : ℂ), ((3 : ℝ) : ℂ), ((1 : ℝ) : ℂ)], tabs := [none, none, none], asin := exLayers.asin, pol := .u, randomize := false, periodic := true }

/-- Heights of its surfaces. -/
noncomputable def exHeight3 (j : ℕ) : ℝ := if j = 0 then 0 else if j = 1 then -2 else -8

/-- Planar surfaces at these heights. -/
noncomputable def exPlanes3 : ℕ → Visit := fun _ => ⟨0, 0, fun s _ => ⟨planarTris 10 (exHeight3 s.toNat), 0, 0, 0, 0, 0⟩⟩

theorem exThick_bare (θ : ℝ) (h0 : 0 ≤ θ) (h1 : θ < Real.pi / 2) : BareLayers exThick 3 (fun j => ⟨10, 10, exHeight3 j, exHeight3 j, exHeight3 j⟩) exIndex (exAngle θ) := by
  obtain ⟨f1, f2, f3⟩ := exAngle_facts θ h0 h1
  refine ⟨rfl, by norm_num, rfl, ?_, ?_, by simp [exThick], ?_, fun i _ => f3 i, fun j _ => ⟨by norm_num, by norm_num, le_rfl⟩, ?_, ?_, ?_, by norm_num [exThick], fun z => Classical.choose_spec (exists_isArcsin z), fun i _ => f1 i, fun i _ => f2 i⟩
  · intro j hj; interval_cases j <;> simp [exThick, exHeight3]
  · intro j hj; interval_cases j <;> simp [exThick]
  · intro i hi; interval_cases i <;> simp [exThick, exIndex]
  · intro j hj
    have : j = 0 ∨ j = 1 := by omega
    rcases this with rfl | rfl <;> norm_num [exHeight3]
  · intro i; rcases i with _ | _ | _ | _ | i <;> simp [exThick]
  · intro i; rcases i with _ | _ | _ | _ | i <;> simp [exThick]

/-- The hypotheses of C165 are met: more light is absorbed in layer 2, less in layer 1. -/
example (θ : ℝ) (h0 : 0 ≤ θ) (h1 : θ < Real.pi / 2) : ∃ K₀, ∀ K, K₀ ≤ K →
    let P : Measure (Fin 1 → Fin K → Fin 3 → ℝ) := Measure.pi fun _ => uniform2 K 3
    let rays := fun U : Fin 1 → Fin K → Fin 3 → ℝ => List.ofFn fun k => recorded 0 1 (traceWith exLayers K exPlanes (U k) (exLayers.start 1 1 0 1 (rA0 5 θ 0)))
    let rays' := fun U : Fin 1 → Fin K → Fin 3 → ℝ => List.ofFn fun k => recorded 0 1 (traceWith exThick K exPlanes3 (U k) (exThick.start 2 3 0 1 (rA0 7 θ 1)))
    ∫ U, resA (rays' U) 1 ∂P ≤ ∫ U, resA (rays U) 1 ∂P + 1 / 100 + 1 / 1000 ∧ ∫ U, resA (rays U) 2 ∂P ≤ ∫ U, resA (rays' U) 2 ∂P + 1 / 100 + 1 / 1000 := by
  have hb := exLayers_bare θ h0 h1
  obtain ⟨K₀, hK⟩ := C165_thicker (c := exLayers) (c' := exThick) (bare_flat hb) (bare_flat (exThick_bare θ h0 h1))
    ⟨rfl, rfl, fun i i1 i2 => by interval_cases i <;> norm_num [exLayers, exThick], fun i i1 i2 => by interval_cases i <;> norm_num [exLayers, exThick]⟩ (h := 5) (h' := 7)
    (by norm_num [exHeight]) (by norm_num) (by norm_num [exHeight3]) (by norm_num) 0 1 (N := 1) (N' := 1) Nat.one_pos Nat.one_pos
    (fun _ => ⟨1, 1, exPlanes⟩) (fun _ => ⟨2, 3, exPlanes3⟩) (fun _ i j k _ => by simpa [exPlanes] using planarTris_flat (L := 10) (by norm_num) (exHeight j))
    (fun _ i j k _ => by simpa [exPlanes3] using planarTris_flat (L := 10) (by norm_num) (exHeight3 j)) (n := 3) (n' := 3) le_rfl le_rfl
    (Or.inr fun j hj => ⟨bare_trns hb j (by omega), C161_bare hb j (show j < 3 by omega) ▸ bare_trns hb j (by omega)⟩) (ε := 1 / 1000) (by norm_num)
  refine ⟨K₀, fun K hKK => ?_⟩
  obtain ⟨-, -, -, a, d⟩ := hK K K hKK hKK
  refine ⟨a 1 ⟨by norm_num [exLayers, exThick], by norm_num [exLayers, exThick]⟩, d 2 (by norm_num) (by norm_num) (fun i i1 i2 i3 => ?_) ⟨0, fun j hj => ?_⟩⟩
  · obtain rfl : i = 1 := by omega
    exact ⟨by norm_num [exLayers, exThick], by norm_num [exLayers, exThick]⟩
  · have := bare_faces hb j hj
    rw [this.2, this.1]
    norm_num

end Rayflare
