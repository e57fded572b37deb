import Verif.Spec.Turned
import Verif.Props.FlatLayersRT

/-!
# Property C161: light gets through a planar structure equally well in both directions
-/

namespace Rayflare

open Rayflare.Np Rayflare.Model Rayflare.Spec Rayflare.Lemmas MeasureTheory

/-- The balance of `F` and of `F'` for the transmitted light: what is compared is the same at every height in the structure. -/
theorem turned_invariant {F F' : FlatStack} (hT : Turned F F') (hR : Reciprocal F) {xD xU yD yU : ℕ → ℝ} (b : F.Balance .T xD xU) (b' : F'.Balance .T yD yU) :
    ∀ j, j < F.m → xD 0 = xD j * F'.downwards .T yD (F.m - j) - F.upwards .T xU j * (if j = 0 then 0 else yU (F.m - 1 - j)) := by
  intro j
  induction j with
  | zero =>
    intro _
    simp [FlatStack.downwards, hT.m, Quantity.onTransmit, FlatStack.upwards, Quantity.onReflect]
  | succ j ih =>
    intro hj
    rw [ih (by omega)]
    have e1 := b.above j (by omega)
    have e2 := b.below j hj
    have f1 := b'.above (F.m - 1 - j) (by rw [hT.m]; omega)
    have hd : F.downwards .T xD (j + 1) = F.pass (j + 1) * xD (j + 1) := by
      simp [FlatStack.downwards, show ¬ (j + 1 = F.m) by omega, Quantity.inLayer]
    have hu : F.upwards .T xU (j + 1) = F.pass (j + 1) * xU j := by simp [FlatStack.upwards, Quantity.inLayer]
    have hpe : F'.pass (F.m - (j + 1)) = F.pass (j + 1) := by
      rw [hT.pass _ (by omega) (by omega)]; congr 1; omega
    have hd' : F'.downwards .T yD (F.m - (j + 1)) = F.pass (j + 1) * yD (F.m - (j + 1)) := by
      simp [FlatStack.downwards, hT.m, show ¬ (F.m - (j + 1) = F.m) by omega, Quantity.inLayer, hpe]
    have hu' : F'.upwards .T yU (F.m - (j + 1)) = F.pass (j + 1) * yU (F.m - 1 - (j + 1)) := by
      simp [FlatStack.upwards, show ¬ (F.m - (j + 1) = 0) by omega, Quantity.inLayer, hpe, show F.m - (j + 1) - 1 = F.m - 1 - (j + 1) by omega]
    have hk : F.m - 1 - j = F.m - (j + 1) := by omega
    have hk1 : F.m - (j + 1) + 1 = F.m - j := by omega
    have hback : F.m - 1 - (F.m - (j + 1)) = j := by omega
    rw [hT.above _ (by omega), hk, hk1, hback, hu'] at f1
    simp only [Quantity.atSurface, add_zero] at e1 e2 f1
    have ht := hR j (by omega)
    rw [hd] at e1 e2
    rw [hd', hu, if_neg (Nat.succ_ne_zero j)]
    by_cases h0 : j = 0
    · have hU0 : F.upwards .T xU j = 0 := by simp [FlatStack.upwards, h0, Quantity.onReflect]
      rw [hU0] at e1 e2
      rw [if_pos h0, e1, f1, e2, hU0]
      have hD1 : F'.downwards .T yD (F.m - j) = 1 := by simp [FlatStack.downwards, hT.m, h0, Quantity.onTransmit]
      rw [hD1, ht]; ring
    · have g := b'.below (F.m - 1 - j) (by rw [hT.m]; omega)
      rw [hT.below _ (by omega), hk, hk1, hback, hu'] at g
      simp only [Quantity.atSurface, add_zero] at g
      rw [if_neg h0, hk, g, e1, f1, e2, ht]; ring

/-- **C161** (the balance of light). -/
theorem C161_balance {F F' : FlatStack} (hm : 1 ≤ F.m) (hT : Turned F F') (hR : Reciprocal F) {xD xU yD yU : ℕ → ℝ} (b : F.Balance .T xD xU) (b' : F'.Balance .T yD yU) : xD 0 = yD 0 := by
  have h := turned_invariant hT hR b b' (F.m - 1) (by omega)
  have e := b.above (F.m - 1) (by omega)
  have f := b'.above 0 (by rw [hT.m]; omega)
  rw [hT.above 0 (by omega), Nat.sub_zero] at f
  have hD : F.downwards .T xD (F.m - 1 + 1) = 1 := by simp [FlatStack.downwards, show F.m - 1 + 1 = F.m by omega, Quantity.onTransmit]
  have hU : F'.upwards .T yU 0 = 0 := by simp [FlatStack.upwards, Quantity.onReflect]
  simp only [Quantity.atSurface, add_zero, zero_add] at e f
  rw [hD] at e
  rw [hU] at f
  have ht := hR (F.m - 1) (by omega)
  rw [show F.m - (F.m - 1) = 1 by omega, Nat.sub_self] at h
  rw [h, e, f]
  by_cases h1 : F.m - 1 = 0
  · have hU0 : F.upwards .T xU (F.m - 1) = 0 := by simp [FlatStack.upwards, h1, Quantity.onReflect]
    rw [if_pos h1, hU0, ht]; ring
  · have g := b'.below 0 (by rw [hT.m]; omega)
    rw [hT.below 0 (by omega), Nat.sub_zero, hU] at g
    simp only [Quantity.atSurface, add_zero, zero_add] at g
    rw [if_neg h1, g, ht]; ring

/-- Layers that do not absorb: R and T add up to one. -/
theorem lossless_sum {F : FlatStack} (hm : 1 ≤ F.m) (hP : ∀ i, i < F.m → 0 ≤ F.pass i ∧ F.pass i ≤ 1) (hF : ∀ j, j < F.m → Conserves (F.above j) ∧ Conserves (F.below j)) (hL : Lossless F)
    (hgets : ∀ j, j + 1 < F.m → 0 < (F.above j).trns ∧ 0 < (F.below j).trns) {rD rU xD xU : ℕ → ℝ} (r : F.Balance .R rD rU) (b : F.Balance .T xD xU) : rD 0 + xD 0 = 1 := by
  have hp : ∀ i, i < F.m → 1 ≤ i → F.pass i = 1 := fun i h1 h2 => hL.2 i h2 h1
  have hup : ∀ j, j < F.m → F.upwards .R rU j + F.upwards .T xU j - 1 = if j = 0 then 0 else F.pass j * (rU (j - 1) + xU (j - 1) - 1) := by
    intro j hj
    unfold FlatStack.upwards; by_cases h0 : j = 0
    · simp [h0, Quantity.onReflect]
    · simp only [h0, if_false, Quantity.inLayer, hp j (by omega) (by omega)]; ring
  have hdn : ∀ j, j < F.m → F.downwards .R rD (j + 1) + F.downwards .T xD (j + 1) - 1 = if j + 1 = F.m then 0 else F.pass (j + 1) * (rD (j + 1) + xD (j + 1) - 1) := by
    intro j hj
    unfold FlatStack.downwards; by_cases h0 : j + 1 = F.m
    · simp [h0, Quantity.onTransmit]
    · simp only [h0, if_false, Quantity.inLayer, hp (j + 1) (by omega) (by omega)]; ring
  obtain ⟨h1, -⟩ := homogeneous_zero hF hP (Or.inr hgets) (yD := fun j => rD j + xD j - 1) (yU := fun j => rU j + xU j - 1) (B := 1) zero_le_one
    (fun j _ => by rw [abs_le]; constructor <;> linarith [(r.rangeD j).1, (r.rangeD j).2, (b.rangeD j).1, (b.rangeD j).2])
    (fun j _ => by rw [abs_le]; constructor <;> linarith [(r.rangeU j).1, (r.rangeU j).2, (b.rangeU j).1, (b.rangeU j).2])
    (fun j hj => by
      rw [← hup j hj, ← hdn j hj, r.above j hj, b.above j hj]
      simp only [Quantity.atSurface]
      linear_combination (hL.1 j hj).1)
    (fun j hj => by
      rw [← hup j (by omega), ← hdn j (by omega), r.below j hj, b.below j hj]
      simp only [Quantity.atSurface]
      linear_combination (hL.1 j (by omega)).2)
  have := h1 0 (by omega)
  linarith

/-- **C161** (nothing absorbs): the reflectance is the same from both sides as well. -/
theorem C161_lossless {F F' : FlatStack} (hm : 1 ≤ F.m) (hT : Turned F F') (hR : Reciprocal F) (hL : Lossless F) (hP : ∀ i, i < F.m → 0 ≤ F.pass i ∧ F.pass i ≤ 1) (hF : ∀ j, j < F.m → Conserves (F.above j) ∧ Conserves (F.below j))
    (hP' : ∀ i, i < F'.m → 0 ≤ F'.pass i ∧ F'.pass i ≤ 1) (hF' : ∀ j, j < F'.m → Conserves (F'.above j) ∧ Conserves (F'.below j)) (hL' : Lossless F') (hgets : ∀ j, j < F.m → 0 < (F.above j).trns) {rD rU xD xU rD' rU' yD yU : ℕ → ℝ} (r : F.Balance .R rD rU) (b : F.Balance .T xD xU) (r' : F'.Balance .R rD' rU') (b' : F'.Balance .T yD yU) :
    rD 0 = rD' 0 := by
  have h1 := lossless_sum hm hP hF hL (fun j hj => ⟨hgets j (by omega), hR j (by omega) ▸ hgets j (by omega)⟩) r b
  have h2 := lossless_sum (by rw [hT.m]; exact hm) hP' hF' hL' (fun j hj => by
    rw [hT.m] at hj
    rw [hT.above j (by omega), hT.below j hj, ← hR _ (by omega)]
    exact ⟨hgets _ (by omega), hgets _ (by omega)⟩) r' b'
  have := C161_balance hm hT hR b b'
  linarith

/-- The stack of flat surfaces of the structure turned over is the stack turned over. -/
theorem turned_flatStack {c c' : RTStack} {m : ℕ} {tabs tabs' : ℕ → Option Table} {nk nk' : ℕ → ℂ} {θ θ' : ℕ → ℝ} (h : TurnedOver c c' m tabs tabs' nk nk' θ θ') :
    Turned (flatStackOf c m tabs nk θ) (flatStackOf c' m tabs' nk' θ') := by
  have face : ∀ (o : Option Table) (a b : ℂ) (t : ℝ), faceOf c.asin c.pol (o.map fun t side => t (-side)) b a 1 t = faceOf c.asin c.pol o a b (-1) t ∧ faceOf c.asin c.pol (o.map fun t side => t (-side)) b a (-1) t = faceOf c.asin c.pol o a b 1 t := by
    intro o a b t
    cases o <;> simp [faceOf]
  refine ⟨rfl, fun j hj => ?_, fun j hj => ?_, fun i h1 h2 => ?_⟩
  · have hj' : j < m := hj
    simp only [flatStackOf]
    rw [h.asin, h.pol, h.tab j hj', h.nk j (by omega), h.nk (j + 1) (by omega), h.angle j (by omega), show m - 1 - j + 1 = m - j by omega, show m - (j + 1) = m - 1 - j by omega]
    exact (face _ _ _ _).1
  · have hj' : j + 1 < m := hj
    simp only [flatStackOf]
    rw [h.asin, h.pol, h.tab j (by omega), h.nk j (by omega), h.nk (j + 1) (by omega), h.angle (j + 1) (by omega), show m - 1 - j + 1 = m - j by omega, show m - (j + 1) = m - 1 - j by omega]
    exact (face _ _ _ _).2
  · have h2' : i < m := h2
    simp only [flatStackOf]
    rw [h.width i h1 h2', h.alpha i h1 h2', h.angle i (by omega)]

theorem textbookR_lt_one {n1 n2 θ θ' : ℝ} (h1 : 0 < n1) (h2 : 0 < n2) (hc : 0 < Real.cos θ) (hc' : 0 < Real.cos θ') (pol : Pol) : textbookR n1 n2 θ θ' pol < 1 := by
  have key : ∀ a b : ℝ, 0 < a → 0 < b → ((a - b) / (a + b)) ^ 2 < 1 := by
    intro a b ha hb
    rw [div_pow, div_lt_one (by positivity)]
    nlinarith [mul_pos ha hb]
  have s := key _ _ (mul_pos h1 hc) (mul_pos h2 hc')
  have p := key _ _ (mul_pos h1 hc') (mul_pos h2 hc)
  cases pol <;> simp only [textbookR]
  · exact s
  · exact p
  · linarith

section
variable {c : RTStack} {m : ℕ} {cells : ℕ → Cell} {nr θ : ℕ → ℝ} (hb : BareLayers c m cells nr θ)
include hb

/-- The surfaces of such a stack. -/
theorem bare_faces (j : ℕ) (hj : j < m) :
    (flatStackOf c m (fun _ => none) (fun i => (nr i : ℂ)) θ).above j = ⟨textbookR (nr j) (nr (j + 1)) (θ j) (θ (j + 1)) c.pol, 1 - textbookR (nr j) (nr (j + 1)) (θ j) (θ (j + 1)) c.pol, fun _ => 0⟩ ∧
    (flatStackOf c m (fun _ => none) (fun i => (nr i : ℂ)) θ).below j = (flatStackOf c m (fun _ => none) (fun i => (nr i : ℂ)) θ).above j := by
  have key := (C157_transparent c hb.arcsin (m := m + 1) (by omega) (nr := fun i => if i ≤ m then nr i else 1) (θ := θ) (fun i _ => by split_ifs with h; exacts [hb.pos i h, one_pos]) (fun i hi => hb.angle i (by omega))
    (fun i hi => by simp only [show i ≤ m by omega, if_true, Nat.zero_le]; exact hb.snell i (by omega))).1 j (by omega)
  simpa only [flatStackOf, show j ≤ m by omega, show j + 1 ≤ m by omega, if_true] using key

theorem bare_trns (j : ℕ) (hj : j < m) : 0 < ((flatStackOf c m (fun _ => none) (fun i => (nr i : ℂ)) θ).above j).trns := by
  rw [(bare_faces hb j hj).1]
  have c1 := Going.cos_pos (hb.angle j (by omega)).1 (hb.angle j (by omega)).2
  have c2 := Going.cos_pos (hb.angle (j + 1) (by omega)).1 (hb.angle (j + 1) (by omega)).2
  have := textbookR_lt_one (hb.pos j (by omega)) (hb.pos (j + 1) (by omega)) c1 c2 c.pol
  simp only; linarith

/-- Surfaces without coating between transparent media transmit the same from both sides. -/
theorem C161_bare : Reciprocal (flatStackOf c m (fun _ => none) (fun i => (nr i : ℂ)) θ) := by
  intro j hj
  rw [(bare_faces hb j hj).2]

/-- Such a stack is one of those of C157. -/
theorem bare_flat : FlatLayers c m cells (fun _ => none) (fun i => (nr i : ℂ)) θ := by
  obtain ⟨-, hdown, hup, hlast, -⟩ := C157_transparent c hb.arcsin hb.surfaces hb.pos (fun i hi => hb.angle i hi.le) (fun i hi => hb.snell i hi.le)
  refine ⟨hb.periodic, hb.surfaces, by rw [hb.media], hb.cellsEq, hb.tabsEq, hb.nksEq, fun i hi => by rw [Complex.ofReal_re]; exact hb.pos i hi, hb.size, hb.apart, hb.width, hb.alpha, hb.thresh, fun tab ht t e => ?_,
    fun i hi => hb.angle i hi.le, hdown, fun j hj => Or.inr ⟨(hup j hj).1, fun _ => (hup j hj).2⟩, Or.inr ⟨hb.media, ?_⟩⟩
  · rw [hb.tabsNone tab ht] at e; cases e
  · exact (hlast (θ m) (hb.angle m le_rfl).1 (hb.angle m le_rfl).2 (hb.snell m le_rfl).symm).2

end

section
variable {c c' : RTStack} {m : ℕ} {cells cells' : ℕ → Cell} {tabs tabs' : ℕ → Option Table} {nk nk' : ℕ → ℂ} {θ θ' : ℕ → ℝ}
  (hs : FlatLayers c m cells tabs nk θ) (hs' : FlatLayers c' m cells' tabs' nk' θ') (ht : TurnedOver c c' m tabs tabs' nk nk' θ θ')
  (hrec : Reciprocal (flatStackOf c m tabs nk θ))
  {h h' : ℝ} (hh : (cells 0).zcov ≤ h) (hh0 : h + 1e-8 ≠ 0) (hh' : (cells' 0).zcov ≤ h') (hh0' : h' + 1e-8 ≠ 0) (φ φ' : ℝ)
  {N N' : ℕ} (hN : 0 < N) (hN' : 0 < N') (L : Fin N → StackLaunch) (L' : Fin N' → StackLaunch) (hL : ∀ k, AllFlatTo m cells (L k).V) (hL' : ∀ k, AllFlatTo m cells' (L' k).V) {n n' : ℕ} (hn : 3 ≤ n) (hn' : 3 ≤ n')
include hs hs' ht hrec hh hh0 hh' hh0' hN hN' hL hL' hn hn'

/-- **C161** (ray tracing).  Mean transmittance of a structure and of the structure turned over, each with its own number of rays, launch points, azimuth and threshold. -/
theorem C161_turned
    (hgets : ((∀ i, 1 ≤ i → i < m → (flatStackOf c m tabs nk θ).pass i < 1) ∧ 0 < c.S.thresh ∧ 0 < c'.S.thresh) ∨ ∀ j, j < m → 0 < ((flatStackOf c m tabs nk θ).above j).trns) {ε : ℝ} (hε : 0 < ε) :
    ∃ K₀, ∀ K K', K₀ ≤ K → K₀ ≤ K' →
    let rays := fun U : Fin N → Fin K → Fin n → ℝ => List.ofFn fun k => recorded 0 1 (traceWith c K (L k).V (U k) (c.start (L k).x (L k).y 0 1 (rA0 h (θ 0) φ)))
    let rays' := fun U : Fin N' → Fin K' → Fin n' → ℝ => List.ofFn fun k => recorded 0 1 (traceWith c' K' (L' k).V (U k) (c'.start (L' k).x (L' k).y 0 1 (rA0 h' (θ' 0) φ')))
    let P : Measure (Fin N → Fin K → Fin n → ℝ) := Measure.pi fun _ => uniform2 K n
    let P' : Measure (Fin N' → Fin K' → Fin n' → ℝ) := Measure.pi fun _ => uniform2 K' n'
    |∫ U, resT (rays U) ∂P - ∫ U, resT (rays' U) ∂P'| ≤ max c.S.thresh c'.S.thresh + ε := by
  have hT := turned_flatStack ht
  have g1 : ((∀ i, 1 ≤ i → i < m → (flatStackOf c m tabs nk θ).pass i < 1) ∧ 0 < c.S.thresh) ∨
      ∀ j, j + 1 < m → 0 < ((flatStackOf c m tabs nk θ).above j).trns ∧ 0 < ((flatStackOf c m tabs nk θ).below j).trns := by
    rcases hgets with ⟨h1, h2, -⟩ | h1
    · exact Or.inl ⟨h1, h2⟩
    · exact Or.inr fun j hj => ⟨h1 j (by omega), hrec j (show j < m by omega) ▸ h1 j (by omega)⟩
  have g2 : ((∀ i, 1 ≤ i → i < m → (flatStackOf c' m tabs' nk' θ').pass i < 1) ∧ 0 < c'.S.thresh) ∨
      ∀ j, j + 1 < m → 0 < ((flatStackOf c' m tabs' nk' θ').above j).trns ∧ 0 < ((flatStackOf c' m tabs' nk' θ').below j).trns := by
    rcases hgets with ⟨h1, -, h2⟩ | h1
    · refine Or.inl ⟨fun i hi1 hi2 => ?_, h2⟩
      rw [hT.pass i hi1 hi2]
      exact h1 _ (show 1 ≤ m - i by omega) (show m - i < m by omega)
    · refine Or.inr fun j hj => ?_
      rw [hT.above j (show j < m by omega), hT.below j hj]
      have e := hrec _ (show m - 1 - j < m by omega)
      change 0 < ((flatStackOf c m tabs nk θ).below (m - 1 - j)).trns ∧ _
      rw [← e]
      exact ⟨h1 _ (show m - 1 - j < m by omega), h1 _ (show m - 1 - j < m by omega)⟩
  obtain ⟨K₁, k1⟩ := C157_converges hs hh hh0 φ hN L hL hn g1 hε
  obtain ⟨K₂, k2⟩ := C157_converges hs' hh' hh0' φ' hN' L' hL' hn' g2 hε
  obtain ⟨xD, xU, b⟩ := C157_balance (flatStackOf c m tabs nk θ) (fun j hj => layers_conserve hs hj) (fun i hi => layers_pass hs hi) .T
  obtain ⟨yD, yU, b'⟩ := C157_balance (flatStackOf c' m tabs' nk' θ') (fun j hj => layers_conserve hs' hj) (fun i hi => layers_pass hs' hi) .T
  have he := C161_balance hs.surfaces hT hrec b b'
  refine ⟨max K₁ K₂, fun K K' hK hK' => ?_⟩
  intro rays rays' P P'
  have j1 := k1 K (le_trans (le_max_left _ _) hK) .T xD xU b
  have j2 := k2 K' (le_trans (le_max_right _ _) hK') .T yD yU b'
  simp only [Quantity.result] at j1 j2
  obtain ⟨a1, a2⟩ := j1
  obtain ⟨b1, b2⟩ := j2
  have m1 := le_max_left c.S.thresh c'.S.thresh
  have m2 := le_max_right c.S.thresh c'.S.thresh
  rw [abs_le]
  constructor
  · have : ∫ U, resT (rays U) ∂P ≥ xD 0 - (c.S.thresh + ε) := a1
    have : ∫ U, resT (rays' U) ∂P' ≤ yD 0 := b2
    linarith
  · have : ∫ U, resT (rays U) ∂P ≤ xD 0 := a2
    have : ∫ U, resT (rays' U) ∂P' ≥ yD 0 - (c'.S.thresh + ε) := b1
    linarith

end

/-- **C161** (ray tracing, no coatings).  The two directions of incidence belong together by Snell's law; light comes in at `θ 0` and, into the structure turned over, at `θ' 0 = θ m`. -/
theorem C161_transparent {c c' : RTStack} {m : ℕ} {cells cells' : ℕ → Cell} {nr nr' θ θ' : ℕ → ℝ} (hb : BareLayers c m cells nr θ) (hb' : BareLayers c' m cells' nr' θ')
    (ht : TurnedOver c c' m (fun _ => none) (fun _ => none) (fun i => (nr i : ℂ)) (fun i => (nr' i : ℂ)) θ θ')
    {h h' : ℝ} (hh : (cells 0).zcov ≤ h) (hh0 : h + 1e-8 ≠ 0) (hh' : (cells' 0).zcov ≤ h') (hh0' : h' + 1e-8 ≠ 0) (φ φ' : ℝ)
    {N N' : ℕ} (hN : 0 < N) (hN' : 0 < N') (L : Fin N → StackLaunch) (L' : Fin N' → StackLaunch) (hL : ∀ k, AllFlatTo m cells (L k).V) (hL' : ∀ k, AllFlatTo m cells' (L' k).V) {n n' : ℕ} (hn : 3 ≤ n) (hn' : 3 ≤ n') {ε : ℝ} (hε : 0 < ε) :
    ∃ K₀, ∀ K K', K₀ ≤ K → K₀ ≤ K' →
    let rays := fun U : Fin N → Fin K → Fin n → ℝ => List.ofFn fun k => recorded 0 1 (traceWith c K (L k).V (U k) (c.start (L k).x (L k).y 0 1 (rA0 h (θ 0) φ)))
    let rays' := fun U : Fin N' → Fin K' → Fin n' → ℝ => List.ofFn fun k => recorded 0 1 (traceWith c' K' (L' k).V (U k) (c'.start (L' k).x (L' k).y 0 1 (rA0 h' (θ' 0) φ')))
    let P : Measure (Fin N → Fin K → Fin n → ℝ) := Measure.pi fun _ => uniform2 K n
    let P' : Measure (Fin N' → Fin K' → Fin n' → ℝ) := Measure.pi fun _ => uniform2 K' n'
    |∫ U, resT (rays U) ∂P - ∫ U, resT (rays' U) ∂P'| ≤ max c.S.thresh c'.S.thresh + ε :=
  C161_turned (bare_flat hb) (bare_flat hb') ht (C161_bare hb) hh hh0 hh' hh0' φ φ' hN hN' L L' hL hL' hn hn' (Or.inr fun j hj => bare_trns hb j hj) hε

/-! ## Example: two absorbing layers in air, and turned over -/

/-- Air, a layer with refractive index 3, a layer with refractive index 2, air. -/
noncomputable def exTurned : RTStack :=
  { S := { widths := [0, 3, 2, 0], alphas := [0, 1, 1, 0], zpos := [0, 1 / 2, 1], thresh := 1 / 100 }, cells := [⟨10, 10, 0, 0, 0⟩, ⟨10, 10, -3, -3, -3⟩, ⟨10, 10, -5, -5, -5⟩],
    nks := [((1 : ℝ) : ℂ), ((3 : ℝ) : ℂ), ((2 : ℝ) : ℂ), ((1 : ℝ) : ℂ)], tabs := [none, none, none], asin := exLayers.asin, pol := .u, randomize := false, periodic := true }

/-- Heights of its surfaces. -/
noncomputable def exHeight' (j : ℕ) : ℝ := if j = 0 then 0 else if j = 1 then -3 else -5

/-- Planar surfaces at these heights. -/
noncomputable def exPlanes' : ℕ → Visit := fun _ => ⟨0, 0, fun s _ => ⟨planarTris 10 (exHeight' s.toNat), 0, 0, 0, 0, 0⟩⟩

theorem exAngle_facts (θ : ℝ) (h0 : 0 ≤ θ) (h1 : θ < Real.pi / 2) :
    (∀ i, 0 ≤ exAngle θ i ∧ exAngle θ i < Real.pi / 2) ∧ (∀ i, exIndex i * Real.sin (exAngle θ i) = exIndex 0 * Real.sin (exAngle θ 0)) ∧ ∀ i, 0 < exIndex i := by
  have hs0 : 0 ≤ Real.sin θ := Real.sin_nonneg_of_nonneg_of_le_pi h0 (by linarith [Real.pi_pos])
  have hs1 : Real.sin θ < 1 := by
    have := Real.sin_lt_sin_of_lt_of_le_pi_div_two (by linarith [Real.pi_pos]) le_rfl h1
    rwa [Real.sin_pi_div_two] at this
  have hpos : ∀ i, 1 ≤ exIndex i := by intro i; unfold exIndex; split_ifs <;> norm_num
  have hdiv : ∀ i, 0 ≤ Real.sin θ / exIndex i ∧ Real.sin θ / exIndex i < 1 := by
    intro i
    have := hpos i
    refine ⟨by positivity, ?_⟩
    rw [div_lt_one (by linarith)]; linarith
  refine ⟨fun i => ?_, fun i => ?_, fun i => by linarith [hpos i]⟩
  · unfold exAngle
    split_ifs
    · exact ⟨h0, h1⟩
    · exact ⟨Real.arcsin_nonneg.mpr (hdiv i).1, Real.arcsin_lt_pi_div_two.mpr (hdiv i).2⟩
  · have e0 : exIndex 0 * Real.sin (exAngle θ 0) = Real.sin θ := by simp [exIndex, exAngle]
    rw [e0]
    by_cases hi : i = 0
    · rw [hi, e0]
    · unfold exAngle
      rw [if_neg hi, Real.sin_arcsin (by linarith [(hdiv i).1]) (hdiv i).2.le]
      have := hpos i
      field_simp

theorem exLayers_bare (θ : ℝ) (h0 : 0 ≤ θ) (h1 : θ < Real.pi / 2) : BareLayers exLayers 3 (fun j => ⟨10, 10, exHeight j, exHeight j, exHeight j⟩) exIndex (exAngle θ) := by
  obtain ⟨f1, f2, f3⟩ := exAngle_facts θ h0 h1
  refine ⟨rfl, by norm_num, rfl, ?_, ?_, by simp [exLayers], ?_, fun i _ => f3 i, fun j _ => ⟨by norm_num, by norm_num, le_rfl⟩, ?_, ?_, ?_, by norm_num [exLayers], fun z => Classical.choose_spec (exists_isArcsin z), fun i _ => f1 i, fun i _ => f2 i⟩
  · intro j hj; interval_cases j <;> simp [exLayers, exHeight]
  · intro j hj; interval_cases j <;> simp [exLayers]
  · intro i hi; interval_cases i <;> simp [exLayers, exIndex]
  · intro j hj
    have : j = 0 ∨ j = 1 := by omega
    rcases this with rfl | rfl <;> norm_num [exHeight]
  · intro i; rcases i with _ | _ | _ | _ | i <;> simp [exLayers]
  · intro i; rcases i with _ | _ | _ | _ | i <;> simp [exLayers]

theorem exTurned_bare (θ : ℝ) (h0 : 0 ≤ θ) (h1 : θ < Real.pi / 2) : BareLayers exTurned 3 (fun j => ⟨10, 10, exHeight' j, exHeight' j, exHeight' j⟩) (fun i => exIndex (3 - i)) (fun i => exAngle θ (3 - i)) := by
  obtain ⟨f1, f2, f3⟩ := exAngle_facts θ h0 h1
  refine ⟨rfl, by norm_num, rfl, ?_, ?_, by simp [exTurned], ?_, fun i _ => f3 _, fun j _ => ⟨by norm_num, by norm_num, le_rfl⟩, ?_, ?_, ?_, by norm_num [exTurned], fun z => Classical.choose_spec (exists_isArcsin z), fun i _ => f1 _, fun i _ => (f2 _).trans (f2 _).symm⟩
  · intro j hj; interval_cases j <;> simp [exTurned, exHeight']
  · intro j hj; interval_cases j <;> simp [exTurned]
  · intro i hi; interval_cases i <;> simp [exTurned, exIndex]
  · intro j hj
    have : j = 0 ∨ j = 1 := by omega
    rcases this with rfl | rfl <;> norm_num [exHeight']
  · intro i; rcases i with _ | _ | _ | _ | i <;> simp [exTurned]
  · intro i; rcases i with _ | _ | _ | _ | i <;> simp [exTurned]

theorem exTurned_over (θ : ℝ) : TurnedOver exLayers exTurned 3 (fun _ => none) (fun _ => none) (fun i => (exIndex i : ℂ)) (fun i => (exIndex (3 - i) : ℂ)) (exAngle θ) (fun i => exAngle θ (3 - i)) := by
  refine ⟨rfl, rfl, fun j _ => rfl, fun i _ => rfl, fun i _ => rfl, fun i h1 h2 => ?_, fun i h1 h2 => ?_⟩
  all_goals
    have : i = 1 ∨ i = 2 := by omega
    rcases this with rfl | rfl <;> simp [exLayers, exTurned]

/-- The hypotheses of `C161_transparent` (and so those of `C161_turned` and `C161_balance`) are met at every angle of incidence. -/
example (θ : ℝ) (h0 : 0 ≤ θ) (h1 : θ < Real.pi / 2) : ∃ K₀, ∀ K, K₀ ≤ K →
    let P : Measure (Fin 1 → Fin K → Fin 3 → ℝ) := Measure.pi fun _ => uniform2 K 3
    |∫ U, resT (List.ofFn fun k => recorded 0 1 (traceWith exLayers K exPlanes (U k) (exLayers.start 1 1 0 1 (rA0 5 θ 0)))) ∂P
      - ∫ U, resT (List.ofFn fun k => recorded 0 1 (traceWith exTurned K exPlanes' (U k) (exTurned.start 2 3 0 1 (rA0 7 (exAngle θ 3) 1)))) ∂P| ≤ 1 / 100 + 1 / 1000 := by
  obtain ⟨K₀, hK⟩ := C161_transparent (exLayers_bare θ h0 h1) (exTurned_bare θ h0 h1) (exTurned_over θ) (h := 5) (h' := 7) (by norm_num [exHeight]) (by norm_num) (by norm_num [exHeight']) (by norm_num) 0 1 (N := 1) (N' := 1) Nat.one_pos Nat.one_pos
    (fun _ => ⟨1, 1, exPlanes⟩) (fun _ => ⟨2, 3, exPlanes'⟩) (fun _ i j k _ => by simpa [exPlanes] using planarTris_flat (L := 10) (by norm_num) (exHeight j))
    (fun _ i j k _ => by simpa [exPlanes'] using planarTris_flat (L := 10) (by norm_num) (exHeight' j)) (n := 3) (n' := 3) le_rfl le_rfl (ε := 1 / 1000) (by norm_num)
  refine ⟨K₀, fun K hKK => ?_⟩
  have := hK K K hKK hKK
  simpa [exLayers, exTurned, exAngle] using this

/-- The reflectance is not the same from both sides if the structure absorbs: only one of its two surfaces reflects. -/
example : ∃ F F' : FlatStack, ∃ rD rU rD' rU' : ℕ → ℝ, 1 ≤ F.m ∧ Turned F F' ∧ Reciprocal F ∧ F.Balance .R rD rU ∧ F'.Balance .R rD' rU' ∧ rD 0 ≠ rD' 0 := by
  have hr : Conserves (⟨1 / 2, 1 / 2, fun _ => 0⟩ : Face ℕ) := ⟨by norm_num, by norm_num, by norm_num, fun l => ⟨le_rfl, by norm_num⟩⟩
  have hc : Conserves (⟨0, 1, fun _ => 0⟩ : Face ℕ) := ⟨by norm_num, by norm_num, by norm_num, fun l => ⟨le_rfl, by norm_num⟩⟩
  obtain ⟨f, hf⟩ : ∃ f : ℕ → Face ℕ, f = fun j => if j = 0 then ⟨1 / 2, 1 / 2, fun _ => 0⟩ else ⟨0, 1, fun _ => 0⟩ := ⟨_, rfl⟩
  have hfc : ∀ j, Conserves (f j) := by intro j; rw [hf]; simp only; split_ifs; exacts [hr, hc]
  obtain ⟨rD, rU, r⟩ := C157_balance ⟨2, f, f, fun _ => 0⟩ (fun j _ => ⟨hfc j, hfc j⟩) (fun i _ => by norm_num) .R
  obtain ⟨rD', rU', r'⟩ := C157_balance ⟨2, fun j => f (1 - j), fun j => f (1 - j), fun _ => 0⟩ (fun j _ => ⟨hfc _, hfc _⟩) (fun i _ => by norm_num) .R
  refine ⟨⟨2, f, f, fun _ => 0⟩, ⟨2, fun j => f (1 - j), fun j => f (1 - j), fun _ => 0⟩, rD, rU, rD', rU', by norm_num, ⟨rfl, fun j _ => rfl, fun j _ => rfl, fun i _ _ => rfl⟩, fun j _ => rfl, r, r', ?_⟩
  have e := r.above 0 (by norm_num)
  have e' := r'.above 0 (by norm_num)
  norm_num [FlatStack.upwards, FlatStack.downwards, Quantity.onReflect, Quantity.inLayer, Quantity.atSurface, hf] at e e'
  rw [e, e']; norm_num

/-- Without absorption it is (`C161_lossless`): two surfaces, one of which reflects half of the light. -/
example : ∃ F F' : FlatStack, ∃ rD rU rD' rU' xD xU yD yU : ℕ → ℝ, F.Balance .R rD rU ∧ F.Balance .T xD xU ∧ F'.Balance .R rD' rU' ∧ F'.Balance .T yD yU ∧ Turned F F' ∧ F.m = 2 ∧ rD 0 = rD' 0 ∧ xD 0 = yD 0 := by
  have hr : Conserves (⟨1 / 2, 1 / 2, fun _ => 0⟩ : Face ℕ) := ⟨by norm_num, by norm_num, by norm_num, fun l => ⟨le_rfl, by norm_num⟩⟩
  have hc : Conserves (⟨0, 1, fun _ => 0⟩ : Face ℕ) := ⟨by norm_num, by norm_num, by norm_num, fun l => ⟨le_rfl, by norm_num⟩⟩
  obtain ⟨f, hf⟩ : ∃ f : ℕ → Face ℕ, f = fun j => if j = 0 then ⟨1 / 2, 1 / 2, fun _ => 0⟩ else ⟨0, 1, fun _ => 0⟩ := ⟨_, rfl⟩
  have hfc : ∀ j, Conserves (f j) := by intro j; rw [hf]; simp only; split_ifs; exacts [hr, hc]
  have hft : ∀ j, 0 < (f j).trns ∧ (f j).refl + (f j).trns = 1 := by intro j; rw [hf]; simp only; split_ifs <;> norm_num
  choose xD xU b using C157_balance ⟨2, f, f, fun _ => 1⟩ (fun j _ => ⟨hfc j, hfc j⟩) (fun i _ => by norm_num)
  choose yD yU b' using C157_balance ⟨2, fun j => f (1 - j), fun j => f (1 - j), fun _ => 1⟩ (fun j _ => ⟨hfc _, hfc _⟩) (fun i _ => by norm_num)
  have hT : Turned ⟨2, f, f, fun _ => 1⟩ ⟨2, fun j => f (1 - j), fun j => f (1 - j), fun _ => 1⟩ := ⟨rfl, fun j _ => rfl, fun j _ => rfl, fun i _ _ => rfl⟩
  refine ⟨_, _, _, _, _, _, _, _, _, _, b .R, b .T, b' .R, b' .T, hT, rfl, ?_, C161_balance (by norm_num) hT (fun j _ => rfl) (b .T) (b' .T)⟩
  exact C161_lossless (by norm_num) hT (fun j _ => rfl) ⟨fun j _ => ⟨(hft j).2, (hft j).2⟩, fun _ _ _ => rfl⟩ (fun i _ => by norm_num) (fun j _ => ⟨hfc j, hfc j⟩) (fun i _ => by norm_num) (fun j _ => ⟨hfc _, hfc _⟩)
    ⟨fun j _ => ⟨(hft _).2, (hft _).2⟩, fun _ _ _ => rfl⟩ (fun j _ => (hft j).1) (b .R) (b .T) (b' .R) (b' .T)

end Rayflare
