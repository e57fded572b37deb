import Verif.Spec.Split
import Verif.Props.Turned
import Verif.Props.Matched

/-!
# Property C162: a layer may be given as several layers of the same material
-/

namespace Rayflare

open Rayflare.Np Rayflare.Model Rayflare.Spec Rayflare.Lemmas MeasureTheory

/-- The equations of the structure with the additional surface, for any sources of what is counted, have the solution of the structure without it. -/
theorem split_core {F F' : FlatStack} {k : ℕ} (hS : SplitAt F F' k) (hF : ∀ j, j < F.m → Conserves (F.above j) ∧ Conserves (F.below j)) (hP : ∀ i, i < F.m → 0 ≤ F.pass i ∧ F.pass i ≤ 1)
    (hgets : (∀ i, 1 ≤ i → i < F.m → F.pass i < 1) ∨ ∀ j, j + 1 < F.m → 0 < (F.above j).trns ∧ 0 < (F.below j).trns)
    {q : Quantity} {xD xU : ℕ → ℝ} (b : F.Balance q xD xU) {zD zU inl : ℕ → ℝ} {src : ℕ → Face ℕ → ℝ} (bD : ∀ j, |zD j| ≤ 2) (bU : ∀ j, |zU j| ≤ 2)
    (i1 : ∀ i, i ≤ k → inl i = q.inLayer i) (i2 : ∀ i, k ≤ i → i < F.m → inl (i + 1) = q.inLayer i)
    (s1 : ∀ j f, j < k → src j f = q.atSurface j f) (s0 : src k ⟨0, 1, fun _ => 0⟩ = 0) (s2 : ∀ j f, k ≤ j → src (j + 1) f = q.atSurface j f)
    (eD : ∀ j, j < F.m + 1 → zD j = (F'.above j).refl * (if j = 0 then q.onReflect else (1 - F'.pass j) * inl j + F'.pass j * zU (j - 1))
      + (F'.above j).trns * (if j = F.m then q.onTransmit else (1 - F'.pass (j + 1)) * inl (j + 1) + F'.pass (j + 1) * zD (j + 1)) + src j (F'.above j))
    (eU : ∀ j, j < F.m → zU j = (F'.below j).refl * (if j = F.m then q.onTransmit else (1 - F'.pass (j + 1)) * inl (j + 1) + F'.pass (j + 1) * zD (j + 1))
      + (F'.below j).trns * (if j = 0 then q.onReflect else (1 - F'.pass j) * inl j + F'.pass j * zU (j - 1)) + src j (F'.below j)) :
    zD 0 = xD 0 := by
  obtain ⟨hk1, hkm⟩ := hS.layer
  have hDk : zD k = (1 - F'.pass (k + 1)) * inl (k + 1) + F'.pass (k + 1) * zD (k + 1) := by
    rw [eD k (by omega), hS.here.1, s0, if_neg (show ¬ k = F.m by omega)]; ring
  have hUk : zU k = (1 - F'.pass k) * inl k + F'.pass k * zU (k - 1) := by
    rw [eU k (by omega), hS.here.2, s0, if_neg (show ¬ k = 0 by omega)]; ring
  obtain ⟨ι, hι⟩ : ∃ ι : ℕ → ℕ, ι = fun j => if j < k then j else j + 1 := ⟨_, rfl⟩
  have ιlt : ∀ j, j < k → ι j = j := fun j hj => by rw [hι]; exact if_pos hj
  have ιge : ∀ j, k ≤ j → ι j = j + 1 := fun j hj => by rw [hι]; exact if_neg (by omega)
  have up : ∀ j, j < F.m → (if ι j = 0 then q.onReflect else (1 - F'.pass (ι j)) * inl (ι j) + F'.pass (ι j) * zU (ι j - 1)) - F.upwards q xU j
      = if j = 0 then 0 else F.pass j * (zU (ι (j - 1)) - xU (j - 1)) := by
    intro j hj
    unfold FlatStack.upwards
    rcases lt_trichotomy j k with h | h | h
    · rw [ιlt j h, ιlt (j - 1) (by omega)]
      by_cases h0 : j = 0
      · simp [h0]
      · rw [if_neg h0, if_neg h0, if_neg h0, hS.passBefore j h, i1 j h.le]; ring
    · subst h
      rw [ιge j le_rfl, ιlt (j - 1) (by omega), if_neg (Nat.succ_ne_zero j), if_neg (show ¬ j = 0 by omega), if_neg (show ¬ j = 0 by omega), Nat.add_sub_cancel, hUk, i1 j le_rfl, i2 j le_rfl hj, ← hS.passHere]; ring
    · rw [ιge j h.le, ιge (j - 1) (by omega), if_neg (Nat.succ_ne_zero j), if_neg (show ¬ j = 0 by omega), if_neg (show ¬ j = 0 by omega), Nat.add_sub_cancel, show j - 1 + 1 = j by omega, i2 j h.le hj, hS.passAfter j h hj]; ring
  have dn : ∀ j, j < F.m → (if ι j = F.m then q.onTransmit else (1 - F'.pass (ι j + 1)) * inl (ι j + 1) + F'.pass (ι j + 1) * zD (ι j + 1)) - F.downwards q xD (j + 1)
      = if j + 1 = F.m then 0 else F.pass (j + 1) * (zD (ι (j + 1)) - xD (j + 1)) := by
    intro j hj
    unfold FlatStack.downwards
    rcases lt_trichotomy (j + 1) k with h | h | h
    · rw [ιlt j (by omega), ιlt (j + 1) h, if_neg (show ¬ j = F.m by omega), if_neg (show ¬ j + 1 = F.m by omega), if_neg (show ¬ j + 1 = F.m by omega), hS.passBefore _ h, i1 _ h.le]; ring
    · rw [ιlt j (by omega), h, ιge k le_rfl, if_neg (show ¬ j = F.m by omega), if_neg (show ¬ k = F.m by omega), if_neg (show ¬ k = F.m by omega), hDk, i1 k le_rfl, i2 k le_rfl hkm, ← hS.passHere]; ring
    · rw [ιge j (by omega), ιge (j + 1) h.le]
      by_cases h0 : j + 1 = F.m
      · rw [if_pos h0, if_pos h0, if_pos h0, sub_self]
      · rw [if_neg h0, if_neg h0, if_neg h0, hS.passAfter (j + 1) h (by omega), i2 (j + 1) h.le (by omega)]; ring
  have face : ∀ j, j < F.m → F'.above (ι j) = F.above j ∧ F'.below (ι j) = F.below j := by
    intro j hj
    by_cases h : j < k
    · rw [ιlt j h]; exact hS.before j h
    · rw [ιge j (by omega)]; exact hS.after j (by omega) hj
  have hsrc : ∀ j f, src (ι j) f = q.atSurface j f := by
    intro j f
    by_cases h : j < k
    · rw [ιlt j h]; exact s1 j f h
    · rw [ιge j (by omega)]; exact s2 j f (by omega)
  have ιle : ∀ j, ι j ≤ j + 1 := by
    intro j; by_cases h : j < k
    · rw [ιlt j h]; omega
    · rw [ιge j (by omega)]
  have bnd : ∀ {z x : ℝ}, |z| ≤ 2 → 0 ≤ x ∧ x ≤ 1 → |z - x| ≤ 3 := by
    intro z x h h'; rw [abs_le] at h ⊢; constructor <;> linarith [h.1, h.2, h'.1, h'.2]
  obtain ⟨h1, -⟩ := homogeneous_zero hF hP hgets (yD := fun j => zD (ι j) - xD j) (yU := fun j => zU (ι j) - xU j) (B := 3) (by norm_num)
    (fun j _ => bnd (bD _) (b.rangeD j)) (fun j _ => bnd (bU _) (b.rangeU j))
    (fun j hj => by
      rw [← up j hj, ← dn j hj, eD (ι j) (by have := ιle j; omega), b.above j hj, (face j hj).1, hsrc]; ring)
    (fun j hj => by
      rw [← up j (by omega), ← dn j (by omega), eU (ι j) (by have := ιle j; omega), b.below j hj, (face j (by omega)).2, hsrc]; ring)
  have := h1 0 (by omega)
  simp only [ιlt 0 (by omega)] at this
  linarith

/-- **C162** (the balance of light): every quantity is the same; the absorptances of the two parts of the layer add up to that of the layer. -/
theorem C162_balance {F F' : FlatStack} {k : ℕ} (hS : SplitAt F F' k) (hF : ∀ j, j < F.m → Conserves (F.above j) ∧ Conserves (F.below j)) (hP : ∀ i, i < F.m → 0 ≤ F.pass i ∧ F.pass i ≤ 1)
    (hgets : (∀ i, 1 ≤ i → i < F.m → F.pass i < 1) ∨ ∀ j, j + 1 < F.m → 0 < (F.above j).trns ∧ 0 < (F.below j).trns)
    (xD xU yD yU : Quantity → ℕ → ℝ) (b : ∀ q, F.Balance q (xD q) (xU q)) (b' : ∀ q, F'.Balance q (yD q) (yU q)) (q : Quantity) : ((q.split k).map fun q' => yD q' 0).sum = xD q 0 := by
  have single : ∀ q', (∀ i, i ≤ k → q'.inLayer i = q.inLayer i) → (∀ i, k ≤ i → i < F.m → q'.inLayer (i + 1) = q.inLayer i) → (∀ j f, j < k → q'.atSurface j f = q.atSurface j f) → (∀ j f, k ≤ j → q'.atSurface (j + 1) f = q.atSurface j f) →
      q'.onReflect = q.onReflect → q'.onTransmit = q.onTransmit → yD q' 0 = xD q 0 := by
    intro q' a1 a2 a3 a4 a5 a6
    have bd : ∀ {x : ℝ}, 0 ≤ x ∧ x ≤ 1 → |x| ≤ 2 := fun {x} h => by rw [abs_le]; constructor <;> linarith [h.1, h.2]
    refine split_core hS hF hP hgets (b q) (zD := yD q') (zU := yU q') (inl := q'.inLayer) (src := q'.atSurface) (fun j => bd ((b' q').rangeD j)) (fun j => bd ((b' q').rangeU j)) a1 a2 a3 ?_ a4 (fun j hj => ?_) fun j hj => ?_
    · cases q' <;> simp [Quantity.atSurface]
    · have := (b' q').above j (by rw [hS.m]; exact hj)
      simpa only [FlatStack.upwards, FlatStack.downwards, hS.m, a5, a6, Nat.add_right_cancel_iff] using this
    · have := (b' q').below j (by rw [hS.m]; omega)
      simpa only [FlatStack.upwards, FlatStack.downwards, hS.m, a5, a6, Nat.add_right_cancel_iff] using this
  cases q with
  | R => simpa [Quantity.split] using single .R (fun _ _ => rfl) (fun _ _ _ => rfl) (fun _ _ _ => rfl) (fun _ _ _ => rfl) rfl rfl
  | T => simpa [Quantity.split] using single .T (fun _ _ => rfl) (fun _ _ _ => rfl) (fun _ _ _ => rfl) (fun _ _ _ => rfl) rfl rfl
  | Aint j l =>
    simp only [Quantity.split, List.map_cons, List.map_nil, List.sum_cons, List.sum_nil, add_zero]
    refine single _ (fun _ _ => rfl) (fun _ _ _ => rfl) (fun j' f h => ?_) (fun j' f h => ?_) rfl rfl
    · simp only [Quantity.atSurface]
      by_cases hj : j < k
      · rw [if_pos hj]
      · rw [if_neg hj, if_neg (by omega), if_neg (by omega)]
    · simp only [Quantity.atSurface]
      by_cases hj : j < k
      · rw [if_pos hj, if_neg (by omega), if_neg (by omega)]
      · rw [if_neg hj]; simp only [Nat.add_right_cancel_iff]
  | A i =>
    rcases lt_trichotomy i k with h | h | h
    · simp only [Quantity.split, if_pos h, List.map_cons, List.map_nil, List.sum_cons, List.sum_nil, add_zero]
      refine single _ (fun _ _ => rfl) (fun i' h1 _ => ?_) (fun _ _ _ => rfl) (fun _ _ _ => rfl) rfl rfl
      simp only [Quantity.inLayer]; rw [if_neg (by omega), if_neg (by omega)]
    · subst h
      simp only [Quantity.split, lt_irrefl, if_false, if_true, List.map_cons, List.map_nil, List.sum_cons, List.sum_nil, add_zero]
      have bd : ∀ {x y : ℝ}, 0 ≤ x ∧ x ≤ 1 → 0 ≤ y ∧ y ≤ 1 → |x + y| ≤ 2 := fun {x y} h h' => by rw [abs_le]; constructor <;> linarith [h.1, h.2, h'.1, h'.2]
      refine split_core hS hF hP hgets (b (.A i)) (zD := fun j => yD (.A i) j + yD (.A (i + 1)) j) (zU := fun j => yU (.A i) j + yU (.A (i + 1)) j) (inl := fun j => (Quantity.A i).inLayer j + (Quantity.A (i + 1)).inLayer j) (src := fun _ _ => 0)
        (fun j => bd ((b' _).rangeD j) ((b' _).rangeD j)) (fun j => bd ((b' _).rangeU j) ((b' _).rangeU j)) (fun i' h1 => ?_) (fun i' h1 _ => ?_) (fun _ _ _ => rfl) rfl (fun _ _ _ => rfl) (fun j hj => ?_) fun j hj => ?_
      · simp [Quantity.inLayer, show ¬ i' = i + 1 by omega]
      · simp [Quantity.inLayer, show ¬ i' + 1 = i by omega]
      · rw [(b' (.A i)).above j (by rw [hS.m]; exact hj), (b' (.A (i + 1))).above j (by rw [hS.m]; exact hj)]
        simp only [FlatStack.upwards, FlatStack.downwards, hS.m, Quantity.onReflect, Quantity.onTransmit, Quantity.atSurface, Nat.add_right_cancel_iff]
        split_ifs <;> ring
      · rw [(b' (.A i)).below j (by rw [hS.m]; omega), (b' (.A (i + 1))).below j (by rw [hS.m]; omega)]
        simp only [FlatStack.upwards, FlatStack.downwards, hS.m, Quantity.onReflect, Quantity.onTransmit, Quantity.atSurface, Nat.add_right_cancel_iff]
        split_ifs <;> ring
    · simp only [Quantity.split, if_neg (show ¬ i < k by omega), if_neg (show ¬ i = k by omega), List.map_cons, List.map_nil, List.sum_cons, List.sum_nil, add_zero]
      refine single _ (fun i' h1 => ?_) (fun i' h1 _ => ?_) (fun _ _ _ => rfl) (fun _ _ _ => rfl) rfl rfl
      · simp only [Quantity.inLayer]; rw [if_neg (by omega), if_neg (by omega)]
      · simp only [Quantity.inLayer, Nat.add_right_cancel_iff]

/-- A flat surface between equal media lets all light through. -/
theorem matched_face {asin : ℂ → ℂ} (harc : ∀ z, IsArcsin z (asin z)) (pol : Pol) {n : ℂ} (hn : 0 < n.re) (side : ℤ) {t : ℝ} (h0 : 0 ≤ t) (h1 : t < Real.pi / 2) : faceOf asin pol none n n side t = ⟨0, 1, fun _ => 0⟩ := by
  have hne : n ≠ 0 := by rintro rfl; simp at hn
  have ha : asin (n / n * Complex.sin (t : ℂ)) = (t : ℂ) := by
    apply arcsin_unique h0 h1
    have := harc (n / n * Complex.sin (t : ℂ))
    rw [div_self hne, one_mul] at this ⊢
    exact this
  have hR : decideR n n t (t : ℂ) pol = 0 := by
    unfold decideR clipRatio
    rw [div_self hn.ne', min_self, max_eq_right (by norm_num), Real.arcsin_one, abs_of_nonneg h0, if_neg (not_lt.mpr h1.le), calcR_matched]
  simp only [faceOf, ite_self, ha, hR]
  norm_num

/-- The stack of flat surfaces of the structure with a layer given as two layers. -/
theorem split_flatStack {c c' : RTStack} {m k : ℕ} {cells : ℕ → Cell} {tabs tabs' : ℕ → Option Table} {nk nk' : ℕ → ℂ} {θ θ' : ℕ → ℝ} (hs : FlatLayers c m cells tabs nk θ) (h : SplitLayer c c' m k tabs tabs' nk nk' θ θ') :
    SplitAt (flatStackOf c m tabs nk θ) (flatStackOf c' (m + 1) tabs' nk' θ') k := by
  obtain ⟨hk1, hkm⟩ := h.layer
  refine ⟨rfl, ⟨hk1, hkm⟩, fun j hj => ?_, ?_, fun j h1 h2 => ?_, fun i hi => ?_, ?_, fun i h1 h2 => ?_⟩
  · simp only [flatStackOf]
    rw [h.asin, h.pol, h.tabBefore j hj, h.nkBefore j hj.le, h.nkBefore (j + 1) hj, h.angleBefore j hj.le, h.angleBefore (j + 1) hj]
    exact ⟨rfl, rfl⟩
  · simp only [flatStackOf]
    rw [h.asin, h.pol, h.tabHere, h.nkBefore k le_rfl, h.nkAfter k le_rfl hkm.le, h.angleBefore k le_rfl, h.angleAfter k le_rfl hkm.le]
    exact ⟨matched_face h.arcsin _ (hs.re k hkm.le) _ (hs.angle k hkm).1 (hs.angle k hkm).2, matched_face h.arcsin _ (hs.re k hkm.le) _ (hs.angle k hkm).1 (hs.angle k hkm).2⟩
  · have h2' : j < m := h2
    simp only [flatStackOf]
    rw [h.asin, h.pol, h.tabAfter j h1 h2', h.nkAfter j h1 h2'.le, h.nkAfter (j + 1) (by omega) h2', h.angleAfter j h1 h2'.le, h.angleAfter (j + 1) (by omega) h2']
    exact ⟨rfl, rfl⟩
  · simp only [flatStackOf]
    rw [h.widthBefore i hi, h.alphaBefore i hi.le, h.angleBefore i hi.le]
  · simp only [flatStackOf]
    rw [← Real.exp_add, h.alphaBefore k le_rfl, h.alphaAfter k le_rfl hkm, h.angleBefore k le_rfl, h.angleAfter k le_rfl hkm.le, ← h.widthHere]
    congr 1; ring
  · have h2' : i < m := h2
    simp only [flatStackOf]
    rw [h.widthAfter i h1 h2', h.alphaAfter i h1.le h2', h.angleAfter i h1.le h2'.le]

section
variable {c c' : RTStack} {m k : ℕ} {cells cells' : ℕ → Cell} {tabs tabs' : ℕ → Option Table} {nk nk' : ℕ → ℂ} {θ θ' : ℕ → ℝ}
  (hs : FlatLayers c m cells tabs nk θ) (hs' : FlatLayers c' (m + 1) cells' tabs' nk' θ') (ht : SplitLayer c c' m k tabs tabs' nk nk' θ θ')
  {h h' : ℝ} (hh : (cells 0).zcov ≤ h) (hh0 : h + 1e-8 ≠ 0) (hh' : (cells' 0).zcov ≤ h') (hh0' : h' + 1e-8 ≠ 0) (φ φ' : ℝ)
  {N N' : ℕ} (hN : 0 < N) (hN' : 0 < N') (L : Fin N → StackLaunch) (L' : Fin N' → StackLaunch) (hL : ∀ k, AllFlatTo m cells (L k).V) (hL' : ∀ k, AllFlatTo (m + 1) cells' (L' k).V) {n n' : ℕ} (hn : 3 ≤ n) (hn' : 3 ≤ n')
include hs hs' ht hh hh0 hh' hh0' hN hN' hL hL' hn hn'

/-- **C162** (ray tracing).  Mean results for a structure and for the structure with layer `k` given as two layers, each with its own number of rays, launch points, azimuth and threshold, for every quantity reported. -/
theorem C162_split
    (hgets : ((∀ i, 1 ≤ i → i < m → (flatStackOf c m tabs nk θ).pass i < 1) ∧ (∀ i, 1 ≤ i → i < m + 1 → (flatStackOf c' (m + 1) tabs' nk' θ').pass i < 1) ∧ 0 < c.S.thresh ∧ 0 < c'.S.thresh) ∨
      ∀ j, j + 1 ≤ m → 0 < ((flatStackOf c m tabs nk θ).above j).trns ∧ 0 < ((flatStackOf c m tabs nk θ).below j).trns) {ε : ℝ} (hε : 0 < ε) :
    ∃ K₀, ∀ K K', K₀ ≤ K → K₀ ≤ K' → ∀ q : Quantity,
    let rays := fun U : Fin N → Fin K → Fin n → ℝ => List.ofFn fun k => recorded 0 1 (traceWith c K (L k).V (U k) (c.start (L k).x (L k).y 0 1 (rA0 h (θ 0) φ)))
    let rays' := fun U : Fin N' → Fin K' → Fin n' → ℝ => List.ofFn fun k => recorded 0 1 (traceWith c' K' (L' k).V (U k) (c'.start (L' k).x (L' k).y 0 1 (rA0 h' (θ' 0) φ')))
    let P : Measure (Fin N → Fin K → Fin n → ℝ) := Measure.pi fun _ => uniform2 K n
    let P' : Measure (Fin N' → Fin K' → Fin n' → ℝ) := Measure.pi fun _ => uniform2 K' n'
    |∫ U, q.result (rays U) ∂P - ((q.split k).map fun q' => ∫ U, q'.result (rays' U) ∂P').sum| ≤ max c.S.thresh ((q.split k).length * c'.S.thresh) + ε := by
  have hS := split_flatStack hs ht
  have g1 : ((∀ i, 1 ≤ i → i < m → (flatStackOf c m tabs nk θ).pass i < 1) ∧ 0 < c.S.thresh) ∨
      ∀ j, j + 1 < m → 0 < ((flatStackOf c m tabs nk θ).above j).trns ∧ 0 < ((flatStackOf c m tabs nk θ).below j).trns := by
    rcases hgets with ⟨h1, -, h2, -⟩ | h1
    · exact Or.inl ⟨h1, h2⟩
    · exact Or.inr fun j hj => h1 j hj.le
  have g2 : ((∀ i, 1 ≤ i → i < m + 1 → (flatStackOf c' (m + 1) tabs' nk' θ').pass i < 1) ∧ 0 < c'.S.thresh) ∨
      ∀ j, j + 1 < m + 1 → 0 < ((flatStackOf c' (m + 1) tabs' nk' θ').above j).trns ∧ 0 < ((flatStackOf c' (m + 1) tabs' nk' θ').below j).trns := by
    rcases hgets with ⟨-, h1, -, h2⟩ | h1
    · exact Or.inl ⟨h1, h2⟩
    · refine Or.inr fun j hj => ?_
      rcases lt_trichotomy j k with hjk | hjk | hjk
      · rw [(hS.before j hjk).1, (hS.before j hjk).2]; exact h1 j (by omega)
      · rw [hjk, hS.here.1, hS.here.2]; norm_num
      · obtain ⟨i, rfl⟩ : ∃ i, j = i + 1 := ⟨j - 1, by omega⟩
        rw [(hS.after i (by omega) (show i < m by omega)).1, (hS.after i (by omega) (show i < m by omega)).2]
        exact h1 i (by omega)
  have g3 : (∀ i, 1 ≤ i → i < m → (flatStackOf c m tabs nk θ).pass i < 1) ∨
      ∀ j, j + 1 < m → 0 < ((flatStackOf c m tabs nk θ).above j).trns ∧ 0 < ((flatStackOf c m tabs nk θ).below j).trns := g1.imp And.left id
  obtain ⟨K₁, k1⟩ := C157_converges hs hh hh0 φ hN L hL hn g1 hε
  obtain ⟨K₂, k2⟩ := C157_converges hs' hh' hh0' φ' hN' L' hL' hn' g2 (_root_.half_pos hε)
  choose xD xU b using C157_balance (flatStackOf c m tabs nk θ) (fun j hj => layers_conserve hs hj) (fun i hi => layers_pass hs hi)
  choose yD yU b' using C157_balance (flatStackOf c' (m + 1) tabs' nk' θ') (fun j hj => layers_conserve hs' hj) (fun i hi => layers_pass hs' hi)
  refine ⟨max K₁ K₂, fun K K' hK hK' q => ?_⟩
  intro rays rays' P P'
  have he := C162_balance hS (fun j hj => layers_conserve hs hj) (fun i hi => layers_pass hs hi) g3 xD xU yD yU b b' q
  have j1 : JustBelow (∫ U, q.result (rays U) ∂P) (xD q 0) (c.S.thresh + ε) := k1 K (le_trans (le_max_left _ _) hK) q _ _ (b q)
  have j2 : ∀ q', JustBelow (∫ U, q'.result (rays' U) ∂P') (yD q' 0) (c'.S.thresh + ε / 2) := fun q' => k2 K' (le_trans (le_max_right _ _) hK') q' _ _ (b' q')
  have hsum : JustBelow ((q.split k).map fun q' => ∫ U, q'.result (rays' U) ∂P').sum ((q.split k).map fun q' => yD q' 0).sum ((q.split k).length * (c'.S.thresh + ε / 2)) := by
    generalize q.split k = l
    induction l with
    | nil => simp [JustBelow]
    | cons q' l ih =>
      obtain ⟨a, b⟩ := ih
      obtain ⟨d, e⟩ := j2 q'
      simp only [List.map_cons, List.sum_cons, List.length_cons, Nat.cast_add, Nat.cast_one]
      constructor <;> linarith
  have hlen : ((q.split k).length : ℝ) ≤ 2 := by
    cases q <;> simp only [Quantity.split, List.length_cons, List.length_nil] <;> try norm_num
    split_ifs <;> simp
  rw [he] at hsum
  obtain ⟨a1, a2⟩ := j1
  obtain ⟨b1, b2⟩ := hsum
  have m1 := le_max_left c.S.thresh ((q.split k).length * c'.S.thresh)
  have m2 := le_max_right c.S.thresh ((q.split k).length * c'.S.thresh)
  have hl : ((q.split k).length : ℝ) * (c'.S.thresh + ε / 2) ≤ (q.split k).length * c'.S.thresh + ε := by nlinarith
  rw [abs_le]
  constructor <;> linarith

end

/-! ## Example: the second layer of `exLayers` in two parts -/

/-- Air, a layer with refractive index 2, a layer with refractive index 3 in two parts, air. -/
noncomputable def exSplit : RTStack :=
  { S := { widths := [0, 2, 1, 2, 0], alphas := [0, 1, 1, 1, 0], zpos := [0, 1 / 2, 1], thresh := 1 / 100 }, cells := [⟨10, 10, 0, 0, 0⟩, ⟨10, 10, -2, -2, -2⟩, ⟨10, 10, -3, -3, -3⟩, ⟨10, 10, -5, -5, -5⟩],
    nks := [((1 : ℝ) : ℂ), ((2 : ℝ) : ℂ), ((3 : ℝ) : ℂ), ((3 : ℝ) : ℂ), ((1 : ℝ) : ℂ)], tabs := [none, none, none, none], asin := exLayers.asin, pol := .u, randomize := false, periodic := true }

/-- Heights of its surfaces. -/
noncomputable def exHeight2 (j : ℕ) : ℝ := if j = 0 then 0 else if j = 1 then -2 else if j = 2 then -3 else -5

/-- Planar surfaces at these heights. -/
noncomputable def exPlanes2 : ℕ → Visit := fun _ => ⟨0, 0, fun s _ => ⟨planarTris 10 (exHeight2 s.toNat), 0, 0, 0, 0, 0⟩⟩

theorem exSplit_bare (θ : ℝ) (h0 : 0 ≤ θ) (h1 : θ < Real.pi / 2) :
    BareLayers exSplit 4 (fun j => ⟨10, 10, exHeight2 j, exHeight2 j, exHeight2 j⟩) (fun i => exIndex (if i ≤ 2 then i else i - 1)) (fun i => exAngle θ (if i ≤ 2 then i else i - 1)) := by
  obtain ⟨f1, f2, f3⟩ := exAngle_facts θ h0 h1
  refine ⟨rfl, by norm_num, rfl, ?_, ?_, by simp [exSplit], ?_, fun i _ => f3 _, fun j _ => ⟨by norm_num, by norm_num, le_rfl⟩, ?_, ?_, ?_, by norm_num [exSplit], fun z => Classical.choose_spec (exists_isArcsin z), fun i _ => f1 _, fun i _ => (f2 _).trans (f2 _).symm⟩
  · intro j hj; interval_cases j <;> simp [exSplit, exHeight2]
  · intro j hj; interval_cases j <;> simp [exSplit]
  · intro i hi; interval_cases i <;> simp [exSplit, exIndex]
  · intro j hj
    have : j = 0 ∨ j = 1 ∨ j = 2 := by omega
    rcases this with rfl | rfl | rfl <;> norm_num [exHeight2]
  · intro i; rcases i with _ | _ | _ | _ | _ | i <;> simp [exSplit]
  · intro i; rcases i with _ | _ | _ | _ | _ | i <;> simp [exSplit]

theorem exSplit_layer (θ : ℝ) : SplitLayer exLayers exSplit 3 2 (fun _ => none) (fun _ => none) (fun i => (exIndex i : ℂ)) (fun i => (exIndex (if i ≤ 2 then i else i - 1) : ℂ)) (exAngle θ) (fun i => exAngle θ (if i ≤ 2 then i else i - 1)) := by
  refine ⟨fun z => Classical.choose_spec (exists_isArcsin z), rfl, rfl, by norm_num, fun _ _ => rfl, rfl, fun _ _ _ => rfl, fun i h => by simp [h], fun i h1 h2 => ?_, fun i h => by simp [h], fun i h1 h2 => ?_, fun i h => ?_, ?_, fun i h1 h2 => by omega, fun i h => ?_, fun i h1 h2 => ?_⟩
  · simp [show ¬ i + 1 ≤ 2 by omega]
  · simp [show ¬ i + 1 ≤ 2 by omega]
  · interval_cases i <;> simp [exLayers, exSplit]
  · norm_num [exLayers, exSplit]
  · interval_cases i <;> simp [exLayers, exSplit]
  · interval_cases i; simp [exLayers, exSplit]

/-- The hypotheses of C162 are met; the absorptances of the two parts of the layer. -/
example (θ : ℝ) (h0 : 0 ≤ θ) (h1 : θ < Real.pi / 2) : ∃ K₀, ∀ K, K₀ ≤ K →
    let P : Measure (Fin 1 → Fin K → Fin 3 → ℝ) := Measure.pi fun _ => uniform2 K 3
    let rays' := fun U : Fin 1 → Fin K → Fin 3 → ℝ => List.ofFn fun k => recorded 0 1 (traceWith exSplit K exPlanes2 (U k) (exSplit.start 2 3 0 1 (rA0 7 θ 1)))
    |∫ U, resA (List.ofFn fun k => recorded 0 1 (traceWith exLayers K exPlanes (U k) (exLayers.start 1 1 0 1 (rA0 5 θ 0)))) 2 ∂P - (∫ U, resA (rays' U) 2 ∂P + ∫ U, resA (rays' U) 3 ∂P)| ≤ 2 / 100 + 1 / 1000 := by
  have hb := exLayers_bare θ h0 h1
  obtain ⟨K₀, hK⟩ := C162_split (bare_flat hb) (bare_flat (exSplit_bare θ h0 h1)) (exSplit_layer θ) (h := 5) (h' := 7) (by norm_num [exHeight]) (by norm_num) (by norm_num [exHeight2]) (by norm_num) 0 1 (N := 1) (N' := 1) Nat.one_pos Nat.one_pos
    (fun _ => ⟨1, 1, exPlanes⟩) (fun _ => ⟨2, 3, exPlanes2⟩) (fun _ i j k _ => by simpa [exPlanes] using planarTris_flat (L := 10) (by norm_num) (exHeight j))
    (fun _ i j k _ => by simpa [exPlanes2] using planarTris_flat (L := 10) (by norm_num) (exHeight2 j)) (n := 3) (n' := 3) le_rfl le_rfl
    (Or.inr fun j hj => ⟨bare_trns hb j hj, C161_bare hb j hj ▸ bare_trns hb j hj⟩) (ε := 1 / 1000) (by norm_num)
  refine ⟨K₀, fun K hKK => ?_⟩
  have := hK K K hKK hKK (.A 2)
  simp only [Quantity.split, lt_irrefl, if_false, if_true, List.map_cons, List.map_nil, List.sum_cons, List.sum_nil, add_zero, Quantity.result, List.length_cons, List.length_nil] at this
  refine this.trans ?_
  norm_num [exLayers, exSplit]

end Rayflare
