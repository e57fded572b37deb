import Verif.Props.FlatRT
import Verif.Spec.FlatLayers

/-!
# Property C157: ray tracing of any number of flat layers

Helper lemmas for one surface are in `Props/FlatTrace` and `Props/FlatSlab`.
-/

namespace Rayflare

open Rayflare.Np Rayflare.Model Rayflare.Spec Rayflare.Lemmas MeasureTheory

/-! ## Helper lemmas: the bookkeeping -/

section steps
variable {S : Stack} {y : Ray} (hs : y.stop = false) {j : ℕ} (hsurf : y.surf = j) (hmat : y.dir = 1 ∧ y.mat = j ∨ y.dir = -1 ∧ y.mat = (j : ℤ) + 1) (hj : j + 2 ≤ S.widths.length)
include hs hsurf hmat hj

theorem stepL_absorb (A : List ℝ) : S.step y (.absorb A) = some (y.interact (.absorb A)) := by
  have h1 : pyIndex S.nSurf y.surf = some j := by unfold pyIndex Stack.nSurf; rw [hsurf, if_pos (by constructor <;> omega)]; simp
  have h2 : ∃ k, pyIndex S.widths.length y.mat = some k := by
    unfold pyIndex
    rcases hmat with ⟨-, h⟩ | ⟨-, h⟩ <;> rw [h, if_pos (by constructor <;> omega)] <;> exact ⟨_, rfl⟩
  have h3 : ∃ k, pyIndex S.widths.length (if y.dir = 1 then y.mat + 1 else y.mat - 1) = some k := by
    unfold pyIndex
    rcases hmat with ⟨h', h⟩ | ⟨h', h⟩
    · rw [h', h, if_pos rfl, if_pos (by constructor <;> omega)]; exact ⟨_, rfl⟩
    · rw [if_neg (show ¬ y.dir = 1 by rw [h']; norm_num), h, if_pos (by constructor <;> omega)]; exact ⟨_, rfl⟩
  obtain ⟨k2, h2⟩ := h2
  obtain ⟨k3, h3⟩ := h3
  have hst : (S.checkEnd (y.interact (.absorb A))) = y.interact (.absorb A) := by
    unfold Stack.checkEnd; split_ifs <;> rfl
  unfold Stack.step
  rw [hs, if_neg (by simp), h1, h2, h3]
  simp only [Option.bind_some, hst]
  rw [if_pos (show (y.interact (.absorb A)).stop = true by simp [Ray.interact])]

/-- On upwards in medium `j`. -/
theorem stepL_up (t : ℝ) : S.step y (if y.dir = 1 then .reflect t else .transmit t) =
    let y' : Ray := { y with dir := -1, surf := (j : ℤ) - 1, mat := j, θ := some t }
    some (if j = 0 then { y' with stop := true } else S.pass y' j) := by
  have h1 : pyIndex S.nSurf (j : ℤ) = some j := by unfold pyIndex Stack.nSurf; rw [if_pos (by constructor <;> omega)]; simp
  have h2 : pyIndex S.widths.length (j : ℤ) = some j := by unfold pyIndex; rw [if_pos (by constructor <;> omega)]; simp
  have h3 : pyIndex S.widths.length ((j : ℤ) + 1) = some (j + 1) := by unfold pyIndex; rw [if_pos (by constructor <;> omega)]; congr 1
  obtain ⟨I, prof, A, mat, surf, dir, θ, stop, aInt, aIdx, nP⟩ := y
  simp only at hs hsurf hmat
  subst hs hsurf
  rcases hmat with ⟨rfl, rfl⟩ | ⟨rfl, rfl⟩
  · simp only [if_true, Stack.step, Bool.false_eq_true, if_false, h1, h2, h3, Option.bind_some, Ray.interact, Stack.checkEnd]
    by_cases h0 : j = 0
    · subst h0; simp
    · simp [h0, h2]; rfl
  · have e : (j : ℤ) + 1 - 1 = j := by ring
    have e' : (j : ℤ) + 1 + -1 = j := by ring
    simp only [show ¬ ((-1 : ℤ) = 1) by norm_num, Stack.step, Bool.false_eq_true, if_false, h1, h2, h3, e, e', Option.bind_some, Ray.interact, Stack.checkEnd]
    by_cases h0 : j = 0
    · subst h0; simp
    · simp [h0, h2]; rfl

/-- On downwards in medium `j + 1`. -/
theorem stepL_down (t : ℝ) : S.step y (if y.dir = 1 then .transmit t else .reflect t) =
    let y' : Ray := { y with dir := 1, surf := (j : ℤ) + 1, mat := (j : ℤ) + 1, θ := some t }
    some (if j + 2 = S.widths.length then { y' with stop := true } else S.pass y' (j + 1)) := by
  have h1 : pyIndex S.nSurf (j : ℤ) = some j := by unfold pyIndex Stack.nSurf; rw [if_pos (by constructor <;> omega)]; simp
  have h2 : pyIndex S.widths.length (j : ℤ) = some j := by unfold pyIndex; rw [if_pos (by constructor <;> omega)]; simp
  have h3 : pyIndex S.widths.length ((j : ℤ) + 1) = some (j + 1) := by unfold pyIndex; rw [if_pos (by constructor <;> omega)]; congr 1
  obtain ⟨I, prof, A, mat, surf, dir, θ, stop, aInt, aIdx, nP⟩ := y
  simp only at hs hsurf hmat
  subst hs hsurf
  rcases hmat with ⟨rfl, rfl⟩ | ⟨rfl, rfl⟩
  · simp only [if_true, Stack.step, Bool.false_eq_true, if_false, h1, h2, h3, Option.bind_some, Ray.interact, Stack.checkEnd]
    by_cases h0 : j + 2 = S.widths.length
    · have : (j : ℤ) + 1 = (S.widths.length : ℤ) - 1 := by omega
      simp [this, h0]
    · have : ¬ ((j : ℤ) + 1 = (S.widths.length : ℤ) - 1) := by omega
      simp [this, h0, h3]
  · have e : (j : ℤ) + 1 - 1 = j := by ring
    simp only [show ¬ ((-1 : ℤ) = 1) by norm_num, Stack.step, Bool.false_eq_true, if_false, h1, h2, h3, e, Option.bind_some, Ray.interact, Stack.checkEnd]
    by_cases h0 : j + 2 = S.widths.length
    · have : (j : ℤ) + 1 = (S.widths.length : ℤ) - 1 := by omega
      simp [this, h0]
    · have : ¬ ((j : ℤ) + 1 = (S.widths.length : ℤ) - 1) := by omega
      simp [this, h0, h3]

end steps

/-! ## Helper lemmas: what can happen to a ray at each surface -/

/-- The ray is about to meet surface `j`, on its way down (`δ = 1`) or up (`δ = -1`). -/
structure AtSurface (cells : ℕ → Cell) (θ : ℕ → ℝ) (δ : ℤ) (j : ℕ) (s : StackRay) : Prop where
  running : s.ray.stop = false
  dir : s.ray.dir = δ
  surf : s.ray.surf = j
  mat : s.ray.mat = if δ = 1 then (j : ℤ) else (j : ℤ) + 1
  going : Going δ (θ (if δ = 1 then j else j + 1)) s.d
  pos : ∃ r, s.r = some r ∧ OnSide δ (cells j).zcov r.z
  idx : s.ray.aIdx = 0

/-- The ray passes through layer `i` and keeps the fraction `P`; then it is about to meet surface `j`, or given up. -/
def Crosses (thresh : ℝ) (cells : ℕ → Cell) (θ : ℕ → ℝ) (P : ℝ) (δ : ℤ) (i j : ℕ) (y : Ray) (s : StackRay) : Prop :=
  s.ray.I = y.I * P ∧ (s.ray.A = fun k => if k = i then y.A k + (y.I - y.I * P) else y.A k) ∧
    (s.ray.stop = true ∧ y.I * P < thresh ∧ s.ray.θ = none ∧ s.ray.aIdx = 0 ∨ thresh ≤ y.I * P ∧ AtSurface cells θ δ j s)

/-- The ray leaves the stack. -/
def Exits (up : Bool) (y : Ray) (s : StackRay) : Prop :=
  s.ray.stop = true ∧ s.ray.I = y.I ∧ s.ray.A = y.A ∧ s.ray.aIdx = 0 ∧ s.ray.isRefl = up ∧ s.ray.isTrns = !up

/-- The ray is absorbed in the coating of surface `k`. -/
def Stuck (k : ℕ) (A : List ℝ) (y : Ray) (s : StackRay) : Prop :=
  s.ray.stop = true ∧ s.ray.θ = none ∧ s.ray.A = y.A ∧ s.ray.aIdx = (k : ℤ) + 1 ∧ s.ray.aInt = A.map fun a => y.I * a / A.sum

theorem pass_crosses {S : Stack} {cells : ℕ → Cell} {θ : ℕ → ℝ} {t : ℝ} {i j : ℕ} (ht : |Real.cos t| = Real.cos (θ i)) {δ : ℤ} (hi : i = if δ = 1 then j else j + 1) {y0 y : Ray} (hy : y.θ = some t) (hI : y.I = y0.I)
    (hA : y.A = y0.A) (hd : y.dir = δ) (hsf : y.surf = j) (hm : y.mat = i) (hx : y.aIdx = 0) {d : V3} (hgo : Going δ (θ i) d) {r : V3} (hr : OnSide δ (cells j).zcov r.z) :
    Crosses S.thresh cells θ (Real.exp (-(S.alphas.getD i 0 * S.widths.getD i 0 / Real.cos (θ i)))) δ i j y0 { ray := S.pass y i, r := some r, d := d } := by
  have e : y.I * Real.exp (-(S.alphas.getD i 0 / |Real.cos (y.θ.getD 0)|) * S.widths.getD i 0) = y0.I * Real.exp (-(S.alphas.getD i 0 * S.widths.getD i 0 / Real.cos (θ i))) := by
    rw [hI, hy, Option.getD_some, ht]
    congr 2; ring
  refine ⟨?_, ?_, ?_⟩
  · simp only [Stack.pass, Model.traverse]; rw [e]
  · simp only [Stack.pass, Model.traverse]
    funext k
    rw [e, hA, hI]
    by_cases hk : k = i
    · rw [if_pos hk, if_pos hk]; ring
    · rw [if_neg hk, if_neg hk]
  · have hst : (S.pass y i).stop = decide (y0.I * Real.exp (-(S.alphas.getD i 0 * S.widths.getD i 0 / Real.cos (θ i))) < S.thresh) := by
      simp only [Stack.pass, Model.traverse]; rw [e]
    have hth : (S.pass y i).θ = if (S.pass y i).stop = true then none else some (y.θ.getD 0) := rfl
    by_cases hlt : y0.I * Real.exp (-(S.alphas.getD i 0 * S.widths.getD i 0 / Real.cos (θ i))) < S.thresh
    · have h1 : (S.pass y i).stop = true := by rw [hst]; exact decide_eq_true hlt
      exact Or.inl ⟨h1, hlt, by simp only; rw [hth, if_pos h1], hx⟩
    · refine Or.inr ⟨not_lt.mp hlt, by simp only; rw [hst]; exact decide_eq_false hlt, hd, hsf, ?_, ?_, ⟨r, rfl, hr⟩, hx⟩
      · change y.mat = _
        rw [hm, hi]; push_cast; rfl
      · rw [← hi]; exact hgo

section layers
variable {c : RTStack} {m : ℕ} {cells : ℕ → Cell} {tabs : ℕ → Option Table} {nk : ℕ → ℂ} {θ : ℕ → ℝ} (hs : FlatLayers c m cells tabs nk θ)

/-- The ray sets out upwards in medium `i`. -/
def Upward (c : RTStack) (cells : ℕ → Cell) (tabs : ℕ → Option Table) (nk : ℕ → ℂ) (θ : ℕ → ℝ) (m i : ℕ) (y : Ray) (s : StackRay) : Prop :=
  if i = 0 then Exits true y s else Crosses c.S.thresh cells θ ((flatStackOf c m tabs nk θ).pass i) (-1) i (i - 1) y s

/-- The ray sets out downwards in medium `i`. -/
def Downward (c : RTStack) (cells : ℕ → Cell) (tabs : ℕ → Option Table) (nk : ℕ → ℂ) (θ : ℕ → ℝ) (m i : ℕ) (y : Ray) (s : StackRay) : Prop :=
  if i = m then Exits false y s else i < m ∧ Crosses c.S.thresh cells θ ((flatStackOf c m tabs nk θ).pass i) 1 i i y s

include hs

theorem layers_cos {i : ℕ} (hi : i < m) : 0 < Real.cos (θ i) := Going.cos_pos (hs.angle i hi).1 (hs.angle i hi).2

theorem layers_pass {i : ℕ} (hi : i < m) : 0 ≤ (flatStackOf c m tabs nk θ).pass i ∧ (flatStackOf c m tabs nk θ).pass i ≤ 1 := by
  refine ⟨(Real.exp_pos _).le, ?_⟩
  have := div_nonneg (mul_nonneg (hs.alpha i) (hs.width i)) (layers_cos hs hi).le
  simp only [flatStackOf]
  rw [Real.exp_le_one_iff]
  linarith

theorem layers_sum {j : ℕ} (hj : j < m) : SumToOne (tabs j) := hs.conserve _ (List.mem_of_getElem? (hs.tabsEq j hj))

/-- Upwards in medium `j`, after an event at surface `j`. -/
theorem upward_of {j : ℕ} (hj : j < m) {y0 : Ray} (hidx : y0.aIdx = 0) {t : ℝ} (ht : 0 < j → |Real.cos t| = Real.cos (θ j)) (ht' : t ≤ Real.pi / 2) {d r : V3} (hgo : 0 < j → Going (-1) (θ j) d)
    (hz : 0 < j → r.z < (cells (j - 1)).zcov) :
    Upward c cells tabs nk θ m j y0 { ray := let y' : Ray := { y0 with dir := -1, surf := (j : ℤ) - 1, mat := j, θ := some t }
      if j = 0 then { y' with stop := true } else c.S.pass y' j, r := some r, d := d } := by
  unfold Upward
  by_cases h0 : j = 0
  · rw [if_pos h0]
    refine ⟨?_, ?_, ?_, ?_, ?_, ?_⟩ <;> simp [h0, hidx, Ray.isRefl, Ray.isTrns, ht']
  · rw [if_neg h0]
    simp only [if_neg h0]
    have hp := Nat.pos_of_ne_zero h0
    exact pass_crosses (δ := -1) (y := { y0 with dir := -1, surf := (j : ℤ) - 1, mat := j, θ := some t }) (ht hp) (by rw [if_neg (by norm_num)]; omega) rfl rfl rfl rfl (by simp only; omega) rfl hidx (hgo hp) (Or.inr ⟨rfl, hz hp⟩)

/-- Downwards in medium `j + 1`, after an event at surface `j`. -/
theorem downward_of {j : ℕ} (hj : j + 1 < m ∨ j + 1 = m ∧ c.S.widths.length = m + 1) {y0 : Ray} (hidx : y0.aIdx = 0) {t : ℝ} (ht : j + 1 < m → |Real.cos t| = Real.cos (θ (j + 1))) (ht' : Real.pi / 2 < t) {d r : V3}
    (hgo : j + 1 < m → Going 1 (θ (j + 1)) d) (hz : j + 1 < m → (cells (j + 1)).zcov < r.z) :
    Downward c cells tabs nk θ m (j + 1) y0 { ray := let y' : Ray := { y0 with dir := 1, surf := (j : ℤ) + 1, mat := (j : ℤ) + 1, θ := some t }
      if j + 2 = c.S.widths.length then { y' with stop := true } else c.S.pass y' (j + 1), r := some r, d := d } := by
  unfold Downward
  have hmed := hs.media
  rcases hj with h | ⟨h, h'⟩
  · rw [if_neg (by omega)]
    have : ¬ (j + 2 = c.S.widths.length) := by omega
    simp only [if_neg this]
    exact ⟨h, pass_crosses (δ := 1) (y := { y0 with dir := 1, surf := (j : ℤ) + 1, mat := (j : ℤ) + 1, θ := some t }) (ht h) (by rw [if_pos rfl]) rfl rfl rfl rfl (by simp only; push_cast; rfl) (by simp only; push_cast; rfl) hidx (hgo h) (Or.inl ⟨rfl, hz h⟩)⟩
  · rw [if_pos h]
    have : j + 2 = c.S.widths.length := by omega
    refine ⟨?_, ?_, ?_, ?_, ?_, ?_⟩ <;> simp [this, hidx, Ray.isRefl, Ray.isTrns, ht']

variable {n : ℕ} (hn : 3 ≤ n)
include hn

theorem layers_down (g : StackRes → ℝ) (K : ℕ) {V : ℕ → Visit} (hflat : AllFlatTo m cells V) {j : ℕ} (hj : j < m) {s : StackRay} (hS : AtSurface cells θ 1 j s) :
    let f := (flatStackOf c m tabs nk θ).above j
    ∃ sU sD sA : StackRay,
      branchesStack c n g (K + 1) V s = f.refl * branchesStack c n g K (fun i => V (i + 1)) sU + f.trns * branchesStack c n g K (fun i => V (i + 1)) sD
        + (1 - f.refl - f.trns) * branchesStack c n g K (fun i => V (i + 1)) sA ∧
      Upward c cells tabs nk θ m j s.ray sU ∧ (f.trns ≠ 0 → Downward c cells tabs nk θ m (j + 1) s.ray sD) ∧ Stuck j (layersAt (tabs j) 1 (θ j)) s.ray sA := by
  intro f
  have hdir := hS.dir
  have hmat : s.ray.mat = j := by rw [hS.mat, if_pos rfl]
  have hsurf := hS.surf
  have hgo : Going 1 (θ j) s.d := by simpa using hS.going
  obtain ⟨r, hr, hside⟩ := hS.pos
  have hmed := hs.media
  have hmm : s.ray.dir = 1 ∧ s.ray.mat = j ∨ s.ray.dir = -1 ∧ s.ray.mat = (j : ℤ) + 1 := Or.inl ⟨hdir, hmat⟩
  obtain ⟨a0, a1⟩ := hs.angle j hj
  have hc := layers_cos hs hj
  have hjm : j + 1 < m ∨ f.trns = 0 ∨ c.S.widths.length = m + 1 ∧ j + 1 = m ∧ sinRefr (tabs j).isSome (nk j) (nk (j + 1)) (θ j) < 1 := by
    rcases Nat.lt_or_ge (j + 1) m with h | h
    · exact Or.inl h
    · have e : m = j + 1 := by omega
      right
      have := hs.last
      rw [e, Nat.add_sub_cancel] at this
      rcases this with q | ⟨q, q'⟩
      · left; subst e; exact q
      · right; exact ⟨by rw [e]; exact q, e.symm, q'⟩
  have getN : ∀ {α : Type} (l : List α) (k : ℕ), pyGet l (k : ℤ) = l[k]? := by intro α l k; simp [pyGet]
  obtain ⟨sR, sT, sA, hb, ⟨hR, hgR, rR, hpR, hzR⟩, hT, hA⟩ := stack_branch hn (cell := cells j) (tab := tabs j) (ni := nk j) (nj := nk (j + 1)) hS.running
    (by rw [hsurf, getN]; exact hs.cellsEq j hj) (by rw [hsurf, getN]; exact hs.tabsEq j hj)
    (by rw [if_pos hdir, hmat, getN]; exact hs.nksEq j hj.le) (by rw [if_pos hdir, hmat, show ((j : ℤ) + 1) = ((j + 1 : ℕ) : ℤ) by push_cast; rfl, getN]; exact hs.nksEq (j + 1) hj)
    hs.periodic (hs.size j hj) (hs.re j hj.le) (hs.re (j + 1) hj) g K (V := V) (fun k => by rw [hsurf]; exact hflat 0 j k hj)
    hr a0 a1 (by rw [hdir]; exact hgo) (by rw [hdir]; exact hside) (f := f) (by rw [hdir]; rfl)
    (by
      rw [hdir]
      rcases hjm with h | h | ⟨-, -, h⟩
      · exact Or.inr (by simpa [mediaAt] using (hs.down j h).1)
      · exact Or.inl h
      · exact Or.inr (by simpa [mediaAt] using h))
    (by rw [if_pos hdir]; have := stepL_up hS.running hsurf hmm (S := c.S) (by omega) (θ j); rwa [if_pos hdir] at this)
    (by rw [if_pos hdir]; have := stepL_down hS.running hsurf hmm (S := c.S) (by omega) (Real.pi - refrOf (tabs j).isSome (mediaAt (nk j) (nk (j + 1)) s.ray.dir).1 (mediaAt (nk j) (nk (j + 1)) s.ray.dir).2 (θ j)); rwa [if_pos hdir] at this)
    (stepL_absorb hS.running hsurf hmm (S := c.S) (by omega) _)
  refine ⟨sR, sT, sA, hb, ?_, ?_, ?_⟩
  · obtain ⟨y, r0, d0⟩ := sR
    simp only at hR hgR hpR
    subst hR hpR
    rw [hdir] at hgR hzR
    refine upward_of hs hj hS.idx (fun _ => abs_of_pos hc) a1.le (fun _ => hgR) fun hp => ?_
    have := hs.apart (j - 1) (by omega)
    rw [Nat.sub_add_cancel hp] at this
    have h1 := Real.cos_le_one (θ j)
    rw [hzR]; push_cast
    norm_num at *
    linarith
  · intro ht
    obtain ⟨b0, b1, hy, hgT, rT, hpT, hzT⟩ := hT ht
    obtain ⟨y, r0, d0⟩ := sT
    simp only [hdir, mediaAt, if_true] at b0 b1 hy hgT hpT hzT
    subst hy hpT
    have hj' : j + 1 < m ∨ j + 1 = m ∧ c.S.widths.length = m + 1 := by
      rcases hjm with h | h | ⟨h, h', -⟩
      · exact Or.inl h
      · exact absurd h ht
      · exact Or.inr ⟨h', h⟩
    refine downward_of hs hj' hS.idx (fun h => ?_) (by linarith) (fun h => ?_) fun h => ?_
    · rw [(hs.down j h).2, Real.cos_pi_sub, abs_neg, abs_of_pos (layers_cos hs h)]
    · rw [(hs.down j h).2] at hgT; exact hgT
    · have := hs.apart j h
      have h1 := Real.cos_le_one (refrOf (tabs j).isSome (nk j) (nk (j + 1)) (θ j))
      rw [hzT]; push_cast
      norm_num at *
      linarith
  · refine ⟨by rw [hA]; rfl, by rw [hA]; rfl, by rw [hA]; rfl, by rw [hA]; simp [Ray.interact, hsurf], by rw [hA]; simp [Ray.interact, hdir]⟩

theorem layers_up (g : StackRes → ℝ) (K : ℕ) {V : ℕ → Visit} (hflat : AllFlatTo m cells V) {j : ℕ} (hj1 : j + 1 < m) {s : StackRay} (hS : AtSurface cells θ (-1) j s) :
    let f := (flatStackOf c m tabs nk θ).below j
    ∃ sU sD sA : StackRay,
      branchesStack c n g (K + 1) V s = f.refl * branchesStack c n g K (fun i => V (i + 1)) sD + f.trns * branchesStack c n g K (fun i => V (i + 1)) sU
        + (1 - f.refl - f.trns) * branchesStack c n g K (fun i => V (i + 1)) sA ∧
      (f.trns ≠ 0 → Upward c cells tabs nk θ m j s.ray sU) ∧ Downward c cells tabs nk θ m (j + 1) s.ray sD ∧ Stuck j (layersAt (tabs j) (-1) (θ (j + 1))) s.ray sA := by
  intro f
  have hj : j < m := by omega
  have hdir := hS.dir
  have hne : s.ray.dir ≠ 1 := by rw [hdir]; norm_num
  have hmat : s.ray.mat = (j : ℤ) + 1 := by rw [hS.mat, if_neg (by norm_num)]
  have hsurf := hS.surf
  have hgo : Going (-1) (θ (j + 1)) s.d := by simpa using hS.going
  obtain ⟨r, hr, hside⟩ := hS.pos
  have hmed := hs.media
  have hmm : s.ray.dir = 1 ∧ s.ray.mat = j ∨ s.ray.dir = -1 ∧ s.ray.mat = (j : ℤ) + 1 := Or.inr ⟨hdir, hmat⟩
  obtain ⟨a0, a1⟩ := hs.angle (j + 1) hj1
  have hc := layers_cos hs hj1
  have getN : ∀ {α : Type} (l : List α) (k : ℕ), pyGet l (k : ℤ) = l[k]? := by intro α l k; simp [pyGet]
  obtain ⟨sR, sT, sA, hb, ⟨hR, hgR, rR, hpR, hzR⟩, hT, hA⟩ := stack_branch hn (cell := cells j) (tab := tabs j) (ni := nk j) (nj := nk (j + 1)) hS.running
    (by rw [hsurf, getN]; exact hs.cellsEq j hj) (by rw [hsurf, getN]; exact hs.tabsEq j hj)
    (by rw [if_neg hne, hmat, show (j : ℤ) + 1 - 1 = j by ring, getN]; exact hs.nksEq j hj.le)
    (by rw [if_neg hne, hmat, show ((j : ℤ) + 1) = ((j + 1 : ℕ) : ℤ) by push_cast; rfl, getN]; exact hs.nksEq (j + 1) hj)
    hs.periodic (hs.size j hj) (hs.re j hj.le) (hs.re (j + 1) hj) g K (V := V) (fun k => by rw [hsurf]; exact hflat 0 j k hj)
    hr a0 a1 (by rw [hdir]; exact hgo) (by rw [hdir]; exact hside) (f := f) (by rw [hdir]; rfl)
    (by
      rw [hdir]
      rcases hs.up j hj1 with h | ⟨h, -⟩
      · exact Or.inl h
      · exact Or.inr (by simpa [mediaAt] using h))
    (by rw [if_neg hne]; have := stepL_down hS.running hsurf hmm (S := c.S) (by omega) (Real.pi - θ (j + 1)); rwa [if_neg hne] at this)
    (by rw [if_neg hne]; have := stepL_up hS.running hsurf hmm (S := c.S) (by omega) (refrOf (tabs j).isSome (mediaAt (nk j) (nk (j + 1)) s.ray.dir).1 (mediaAt (nk j) (nk (j + 1)) s.ray.dir).2 (θ (j + 1))); rwa [if_neg hne] at this)
    (stepL_absorb hS.running hsurf hmm (S := c.S) (by omega) _)
  refine ⟨sT, sR, sA, hb, ?_, ?_, ?_⟩
  · intro ht
    obtain ⟨b0, b1, hy, hgT, rT, hpT, hzT⟩ := hT ht
    obtain ⟨y, r0, d0⟩ := sT
    simp only [hdir, mediaAt, show ¬ ((-1 : ℤ) = 1) by norm_num, if_false] at b0 b1 hy hgT hpT hzT
    subst hy hpT
    have hup : 0 < j → refrOf (tabs j).isSome (nk (j + 1)) (nk j) (θ (j + 1)) = θ j := by
      intro hp
      rcases hs.up j hj1 with h | ⟨-, h⟩
      · exact absurd h ht
      · exact h hp
    refine upward_of hs hj hS.idx (fun hp => ?_) b1.le (fun hp => ?_) fun hp => ?_
    · rw [hup hp, abs_of_pos (layers_cos hs hj)]
    · rw [hup hp] at hgT; exact hgT
    · have := hs.apart (j - 1) (by omega)
      rw [Nat.sub_add_cancel hp] at this
      have h1 := Real.cos_le_one (refrOf (tabs j).isSome (nk (j + 1)) (nk j) (θ (j + 1)))
      rw [hzT]; push_cast
      norm_num at *
      linarith
  · obtain ⟨y, r0, d0⟩ := sR
    simp only at hR hgR hpR
    subst hR hpR
    rw [hdir] at hgR hzR
    refine downward_of hs (Or.inl hj1) hS.idx (fun _ => ?_) (by linarith) (fun _ => by simpa using hgR) fun _ => ?_
    · rw [Real.cos_pi_sub, abs_neg, abs_of_pos hc]
    · have := hs.apart j hj1
      have h1 := Real.cos_le_one (θ (j + 1))
      rw [hzR]; push_cast
      norm_num at *
      linarith
  · refine ⟨by rw [hA]; rfl, by rw [hA]; rfl, by rw [hA]; rfl, by rw [hA]; simp [Ray.interact, hsurf], by rw [hA]; simp [Ray.interact, hdir]⟩

end layers

/-! ## Helper lemmas: quantities that are averaged over the rays -/

/-- What is recorded for one ray. -/
noncomputable def quantityOf : Quantity → Ray → ℝ
  | .R, y => if y.isRefl then y.I else 0
  | .T, y => if y.isTrns then y.I else 0
  | .A i, y => y.A i
  | .Aint j l, y => if y.aIdx = (j : ℤ) + 1 then y.aInt.getD l 0 else 0

/-- What has been recorded for a ray on its way. -/
def quantitySoFar : Quantity → Ray → ℝ
  | .A i, y => y.A i
  | _, _ => 0

theorem of_gone (q : Quantity) {y : Ray} (hθ : y.θ = none) (hi : y.aIdx = 0) : quantityOf q y = quantitySoFar q y := by
  cases q with
  | Aint j l =>
    have : ¬ (0 : ℤ) = (j : ℤ) + 1 := by omega
    simp [quantityOf, quantitySoFar, hi, this]
  | _ => simp [quantityOf, quantitySoFar, Ray.isRefl, Ray.isTrns, hθ]

theorem of_exits (q : Quantity) {up : Bool} {y : Ray} {s : StackRay} (h : Exits up y s) : quantityOf q s.ray = quantitySoFar q y + y.I * (if up then q.onReflect else q.onTransmit) := by
  obtain ⟨-, h2, h3, h4, h5, h6⟩ := h
  cases q with
  | Aint j l =>
    have : ¬ (0 : ℤ) = (j : ℤ) + 1 := by omega
    simp [quantityOf, quantitySoFar, Quantity.onReflect, Quantity.onTransmit, h4, this]
  | _ => cases up <;> simp [quantityOf, quantitySoFar, Quantity.onReflect, Quantity.onTransmit, h2, h3, h5, h6]

theorem of_stuck (q : Quantity) {tab : Option Table} (h : SumToOne tab) {asin : ℂ → ℂ} {pol : Pol} {ni nj : ℂ} {side : ℤ} {θ : ℝ} {f : Face ℕ} (hf : faceOf asin pol tab ni nj side θ = f)
    {k : ℕ} {y : Ray} {sA : StackRay} (hA : Stuck k (layersAt tab side θ) y sA) :
    (1 - f.refl - f.trns) * quantityOf q sA.ray = (1 - f.refl - f.trns) * quantitySoFar q y + y.I * q.atSurface k f := by
  obtain ⟨-, h2, h3, h4, h5⟩ := hA
  cases q with
  | Aint j l =>
    have := (flatFace_ok h asin pol ni nj side θ).2.2.2.2 y.I l
    rw [hf] at this
    have e : ((k : ℤ) + 1 = (j : ℤ) + 1) ↔ k = j := by omega
    simp only [quantityOf, quantitySoFar, Quantity.atSurface, h4, h5, e]
    by_cases hk : k = j
    · rw [if_pos hk, if_pos hk, this]; ring
    · rw [if_neg hk, if_neg hk]; ring
  | _ => simp [quantityOf, quantitySoFar, Quantity.atSurface, Ray.isRefl, Ray.isTrns, h2, h3]

theorem soFar_crosses (q : Quantity) {y y' : Ray} {i : ℕ} {P : ℝ} (h : y'.A = fun k => if k = i then y.A k + (y.I - y.I * P) else y.A k) :
    quantitySoFar q y' = quantitySoFar q y + (y.I - y.I * P) * q.inLayer i := by
  cases q with
  | A k =>
    simp only [quantitySoFar, Quantity.inLayer, h]
    by_cases hk : k = i
    · rw [if_pos hk, if_pos hk.symm, mul_one]
    · rw [if_neg hk, if_neg (Ne.symm hk)]; ring
  | _ => simp [quantitySoFar, Quantity.inLayer]

/-- No light has been created. -/
def Fair (y : Ray) : Prop := 0 ≤ y.I ∧ y.I ≤ 1 ∧ ∀ i, 0 ≤ y.A i ∧ y.A i + y.I ≤ 1

theorem Fair.soFar {y : Ray} (h : Fair y) (q : Quantity) : 0 ≤ quantitySoFar q y ∧ quantitySoFar q y + y.I ≤ 1 := by
  cases q with
  | A i => exact h.2.2 i
  | _ => exact ⟨le_rfl, by simpa [quantitySoFar] using h.2.1⟩

theorem Fair.crosses {y y' : Ray} (h : Fair y) {i : ℕ} {P : ℝ} (hP : 0 ≤ P ∧ P ≤ 1) (hI : y'.I = y.I * P) (hA : y'.A = fun k => if k = i then y.A k + (y.I - y.I * P) else y.A k) : Fair y' := by
  have h1 := mul_nonneg h.1 hP.1
  have h2 := mul_le_of_le_one_right h.1 hP.2
  refine ⟨by rw [hI]; exact h1, by rw [hI]; linarith [h.2.1], fun k => ?_⟩
  obtain ⟨a, b⟩ := h.2.2 k
  rw [hI, hA]
  by_cases hk : k = i
  · simp only [if_pos hk]; constructor <;> linarith
  · simp only [if_neg hk]; exact ⟨a, by linarith⟩

theorem quantity_range (q : Quantity) : (0 ≤ q.onReflect ∧ q.onReflect ≤ 1) ∧ (0 ≤ q.onTransmit ∧ q.onTransmit ≤ 1) ∧ ∀ i, 0 ≤ q.inLayer i ∧ q.inLayer i ≤ 1 := by
  cases q <;> simp [Quantity.onReflect, Quantity.onTransmit, Quantity.inLayer]
  intro i
  split_ifs <;> norm_num

theorem atSurface_range (q : Quantity) (j : ℕ) {f : Face ℕ} (hf : Conserves f) : 0 ≤ q.atSurface j f ∧ q.atSurface j f ≤ 1 - f.refl - f.trns := by
  cases q with
  | Aint j' l =>
    simp only [Quantity.atSurface]
    split_ifs
    · exact hf.2.2.2 l
    · exact ⟨le_rfl, by linarith [hf.2.2.1]⟩
  | _ => exact ⟨le_rfl, by simp only [Quantity.atSurface]; linarith [hf.2.2.1]⟩

section layers
variable {c : RTStack} {m : ℕ} {cells : ℕ → Cell} {tabs : ℕ → Option Table} {nk : ℕ → ℂ} {θ : ℕ → ℝ} (hs : FlatLayers c m cells tabs nk θ)
include hs

theorem layers_conserve {j : ℕ} (hj : j < m) : Conserves ((flatStackOf c m tabs nk θ).above j) ∧ Conserves ((flatStackOf c m tabs nk θ).below j) := by
  have h1 := flatFace_ok (layers_sum hs hj) c.asin c.pol (nk j) (nk (j + 1)) 1 (θ j)
  have h2 := flatFace_ok (layers_sum hs hj) c.asin c.pol (nk j) (nk (j + 1)) (-1) (θ (j + 1))
  exact ⟨⟨h1.1, h1.2.1, h1.2.2.1, h1.2.2.2.1⟩, ⟨h2.1, h2.2.1, h2.2.2.1, h2.2.2.2.1⟩⟩

variable {n : ℕ} (hn : 3 ≤ n)
include hn

/-- Both directions together: part of the light goes on upwards in medium `j`, part downwards in medium `j + 1`, the rest is absorbed at the surface. -/
theorem layers_step (g : StackRes → ℝ) (K : ℕ) {V : ℕ → Visit} (hflat : AllFlatTo m cells V) {δ : ℤ} {j : ℕ} (hj : δ = 1 ∧ j < m ∨ δ = -1 ∧ j + 1 < m) {s : StackRay} (hS : AtSurface cells θ δ j s) :
    let F := flatStackOf c m tabs nk θ
    let wU := if δ = 1 then (F.above j).refl else (F.below j).trns
    let wD := if δ = 1 then (F.above j).trns else (F.below j).refl
    ∃ sU sD sA : StackRay,
      branchesStack c n g (K + 1) V s = wU * branchesStack c n g K (fun i => V (i + 1)) sU + wD * branchesStack c n g K (fun i => V (i + 1)) sD
        + (1 - wU - wD) * branchesStack c n g K (fun i => V (i + 1)) sA ∧
      (wU ≠ 0 → Upward c cells tabs nk θ m j s.ray sU) ∧ (wD ≠ 0 → Downward c cells tabs nk θ m (j + 1) s.ray sD) ∧ sA.ray.stop = true ∧
      0 ≤ wU ∧ 0 ≤ wD ∧ wU + wD ≤ 1 ∧
      ∀ q : Quantity, (1 - wU - wD) * quantityOf q sA.ray = (1 - wU - wD) * quantitySoFar q s.ray + s.ray.I * q.atSurface j (if δ = 1 then F.above j else F.below j) := by
  intro F wU wD
  rcases hj with ⟨rfl, hj⟩ | ⟨rfl, hj⟩
  · obtain ⟨sU, sD, sA, hb, hU, hD, hA⟩ := layers_down hs hn g K hflat hj hS
    obtain ⟨f1, f2, f3, -⟩ := (layers_conserve hs hj).1
    refine ⟨sU, sD, sA, hb, fun _ => hU, hD, hA.1, f1, f2, f3, fun q => ?_⟩
    exact of_stuck q (layers_sum hs hj) (f := F.above j) rfl hA
  · obtain ⟨sU, sD, sA, hb, hU, hD, hA⟩ := layers_up hs hn g K hflat hj hS
    have hj' : j < m := by omega
    obtain ⟨f1, f2, f3, -⟩ := (layers_conserve hs hj').2
    have eU : wU = (F.below j).trns := rfl
    have eD : wD = (F.below j).refl := rfl
    rw [eU, eD]
    refine ⟨sU, sD, sA, by rw [hb]; ring, hU, fun _ => hD, hA.1, f2, f1, by linarith, fun q => ?_⟩
    have := of_stuck q (layers_sum hs hj') (f := F.below j) (asin := c.asin) (pol := c.pol) (ni := nk j) (nj := nk (j + 1)) rfl hA
    rw [if_neg (by norm_num)]
    linarith

variable {q : Quantity} {xD xU : ℕ → ℝ} (bal : (flatStackOf c m tabs nk θ).Balance q xD xU) {g : StackRes → ℝ} (hg1 : ∀ s : StackRay, s.ray.stop = true → g (.next s) = quantityOf q s.ray)
include bal hg1

omit hn in
/-- The balance at a surface. -/
theorem layers_balance {δ : ℤ} {j : ℕ} (hj : δ = 1 ∧ j < m ∨ δ = -1 ∧ j + 1 < m) :
    let F := flatStackOf c m tabs nk θ
    (if δ = 1 then xD j else xU j) = (if δ = 1 then (F.above j).refl else (F.below j).trns) * F.upwards q xU j + (if δ = 1 then (F.above j).trns else (F.below j).refl) * F.downwards q xD (j + 1)
      + q.atSurface j (if δ = 1 then F.above j else F.below j) := by
  intro F
  rcases hj with ⟨rfl, hj⟩ | ⟨rfl, hj⟩
  · simpa using bal.above j hj
  · have := bal.below j hj
    simp only [show ¬ ((-1 : ℤ) = 1) by norm_num, if_false]
    rw [this]; ring

theorem layers_upper (hg0 : ∀ s : StackRay, s.ray.stop = false → g (.next s) = 0) :
    ∀ (K : ℕ) (V : ℕ → Visit), AllFlatTo m cells V → ∀ (s : StackRay) (δ : ℤ) (j : ℕ), Fair s.ray → (δ = 1 ∧ j < m ∨ δ = -1 ∧ j + 1 < m) → AtSurface cells θ δ j s →
      branchesStack c n g K V s ≤ quantitySoFar q s.ray + s.ray.I * (if δ = 1 then xD j else xU j) := by
  intro K
  have hx : ∀ (δ : ℤ) (j : ℕ), 0 ≤ if δ = 1 then xD j else xU j := by intro δ j; split_ifs; exacts [(bal.rangeD j).1, (bal.rangeU j).1]
  induction K with
  | zero =>
    intro V hV s δ j hF hj h
    rw [show branchesStack c n g 0 V s = g (.next s) from rfl, hg0 s h.running]
    exact add_nonneg (hF.soFar q).1 (mul_nonneg hF.1 (hx δ j))
  | succ K ih =>
    intro V hV s δ j hF hj h
    have hV' : AllFlatTo m cells fun i => V (i + 1) := fun i => hV (i + 1)
    obtain ⟨sU, sD, sA, hb, hU, hD, hst, w1, w2, w3, hA⟩ := layers_step hs hn g K hV hj h
    have key : ∀ (δ' : ℤ) (i k : ℕ) (s' : StackRay), i < m → (δ' = 1 ∧ k < m ∨ δ' = -1 ∧ k + 1 < m) → Crosses c.S.thresh cells θ ((flatStackOf c m tabs nk θ).pass i) δ' i k s.ray s' →
        branchesStack c n g K (fun i => V (i + 1)) s' ≤ quantitySoFar q s.ray + s.ray.I * ((1 - (flatStackOf c m tabs nk θ).pass i) * q.inLayer i + (flatStackOf c m tabs nk θ).pass i * (if δ' = 1 then xD k else xU k)) := by
      rintro δ' i k s' hi hk ⟨q1, q2, q3⟩
      have hP := layers_pass hs hi
      have e := soFar_crosses q q2
      rcases q3 with ⟨r1, r2, r3, r4⟩ | ⟨r1, r2⟩
      · rw [branchesStack_stop r1, hg1 s' r1, of_gone q r3 r4, e]
        have := mul_nonneg (mul_nonneg hF.1 hP.1) (hx δ' k)
        linarith
      · have := ih _ hV' s' δ' k (hF.crosses hP q1 q2) hk r2
        rw [e, q1] at this
        linarith
    have hUb : (if δ = 1 then ((flatStackOf c m tabs nk θ).above j).refl else ((flatStackOf c m tabs nk θ).below j).trns) * branchesStack c n g K (fun i => V (i + 1)) sU
        ≤ (if δ = 1 then ((flatStackOf c m tabs nk θ).above j).refl else ((flatStackOf c m tabs nk θ).below j).trns) * (quantitySoFar q s.ray + s.ray.I * (flatStackOf c m tabs nk θ).upwards q xU j) := by
      by_cases hw : (if δ = 1 then ((flatStackOf c m tabs nk θ).above j).refl else ((flatStackOf c m tabs nk θ).below j).trns) = 0
      · rw [hw, zero_mul, zero_mul]
      · refine mul_le_mul_of_nonneg_left ?_ w1
        have := hU hw
        unfold Upward at this
        unfold FlatStack.upwards
        by_cases h0 : j = 0
        · rw [if_pos h0] at this ⊢
          rw [branchesStack_stop this.1, hg1 sU this.1, of_exits q this]; simp
        · rw [if_neg h0] at this ⊢
          have := key _ _ _ sU (by omega) (Or.inr ⟨rfl, by omega⟩) this
          simpa using this
    have hDb : (if δ = 1 then ((flatStackOf c m tabs nk θ).above j).trns else ((flatStackOf c m tabs nk θ).below j).refl) * branchesStack c n g K (fun i => V (i + 1)) sD
        ≤ (if δ = 1 then ((flatStackOf c m tabs nk θ).above j).trns else ((flatStackOf c m tabs nk θ).below j).refl) * (quantitySoFar q s.ray + s.ray.I * (flatStackOf c m tabs nk θ).downwards q xD (j + 1)) := by
      by_cases hw : (if δ = 1 then ((flatStackOf c m tabs nk θ).above j).trns else ((flatStackOf c m tabs nk θ).below j).refl) = 0
      · rw [hw, zero_mul, zero_mul]
      · refine mul_le_mul_of_nonneg_left ?_ w2
        have := hD hw
        unfold Downward at this
        unfold FlatStack.downwards
        by_cases h0 : j + 1 = m
        · rw [if_pos h0] at this
          rw [if_pos (show j + 1 = (flatStackOf c m tabs nk θ).m from h0)]
          rw [branchesStack_stop this.1, hg1 sD this.1, of_exits q this]; simp
        · rw [if_neg h0] at this
          rw [if_neg (show ¬ j + 1 = (flatStackOf c m tabs nk θ).m from h0)]
          have := key _ _ _ sD this.1 (Or.inl ⟨rfl, this.1⟩) this.2
          simpa using this
    rw [branchesStack_stop hst, hg1 sA hst] at hb
    have hbal := layers_balance hs bal hg1 hj
    have hA := hA q
    linear_combination hb + hUb + hDb + hA - s.ray.I * hbal

theorem layers_lower (hg0 : ∀ s : StackRay, s.ray.stop = false → g (.next s) = 1) :
    ∀ (K : ℕ) (V : ℕ → Visit), AllFlatTo m cells V → ∀ (s : StackRay) (δ : ℤ) (j : ℕ), Fair s.ray → (δ = 1 ∧ j < m ∨ δ = -1 ∧ j + 1 < m) → AtSurface cells θ δ j s →
      quantitySoFar q s.ray + s.ray.I * (if δ = 1 then xD j else xU j) - c.S.thresh ≤ branchesStack c n g K V s := by
  intro K
  have hth := hs.thresh
  have hx : ∀ (δ : ℤ) (j : ℕ), (if δ = 1 then xD j else xU j) ≤ 1 := by intro δ j; split_ifs; exacts [(bal.rangeD j).2, (bal.rangeU j).2]
  induction K with
  | zero =>
    intro V hV s δ j hF hj h
    rw [show branchesStack c n g 0 V s = g (.next s) from rfl, hg0 s h.running]
    have := mul_le_mul_of_nonneg_left (hx δ j) hF.1
    linarith [(hF.soFar q).2]
  | succ K ih =>
    intro V hV s δ j hF hj h
    have hV' : AllFlatTo m cells fun i => V (i + 1) := fun i => hV (i + 1)
    obtain ⟨sU, sD, sA, hb, hU, hD, hst, w1, w2, w3, hA⟩ := layers_step hs hn g K hV hj h
    have key : ∀ (δ' : ℤ) (i k : ℕ) (s' : StackRay), i < m → (δ' = 1 ∧ k < m ∨ δ' = -1 ∧ k + 1 < m) → Crosses c.S.thresh cells θ ((flatStackOf c m tabs nk θ).pass i) δ' i k s.ray s' →
        quantitySoFar q s.ray + s.ray.I * ((1 - (flatStackOf c m tabs nk θ).pass i) * q.inLayer i + (flatStackOf c m tabs nk θ).pass i * (if δ' = 1 then xD k else xU k)) - c.S.thresh ≤ branchesStack c n g K (fun i => V (i + 1)) s' := by
      rintro δ' i k s' hi hk ⟨q1, q2, q3⟩
      have hP := layers_pass hs hi
      have e := soFar_crosses q q2
      rcases q3 with ⟨r1, r2, r3, r4⟩ | ⟨r1, r2⟩
      · rw [branchesStack_stop r1, hg1 s' r1, of_gone q r3 r4, e]
        have := mul_le_mul_of_nonneg_left (hx δ' k) (mul_nonneg hF.1 hP.1)
        linarith
      · have := ih _ hV' s' δ' k (hF.crosses hP q1 q2) hk r2
        rw [e, q1] at this
        linarith
    have hUb : (if δ = 1 then ((flatStackOf c m tabs nk θ).above j).refl else ((flatStackOf c m tabs nk θ).below j).trns) * (quantitySoFar q s.ray + s.ray.I * (flatStackOf c m tabs nk θ).upwards q xU j - c.S.thresh)
        ≤ (if δ = 1 then ((flatStackOf c m tabs nk θ).above j).refl else ((flatStackOf c m tabs nk θ).below j).trns) * branchesStack c n g K (fun i => V (i + 1)) sU := by
      by_cases hw : (if δ = 1 then ((flatStackOf c m tabs nk θ).above j).refl else ((flatStackOf c m tabs nk θ).below j).trns) = 0
      · rw [hw, zero_mul, zero_mul]
      · refine mul_le_mul_of_nonneg_left ?_ w1
        have := hU hw
        unfold Upward at this
        unfold FlatStack.upwards
        by_cases h0 : j = 0
        · rw [if_pos h0] at this ⊢
          rw [branchesStack_stop this.1, hg1 sU this.1, of_exits q this]; simpa using hth
        · rw [if_neg h0] at this ⊢
          have := key _ _ _ sU (by omega) (Or.inr ⟨rfl, by omega⟩) this
          simpa using this
    have hDb : (if δ = 1 then ((flatStackOf c m tabs nk θ).above j).trns else ((flatStackOf c m tabs nk θ).below j).refl) * (quantitySoFar q s.ray + s.ray.I * (flatStackOf c m tabs nk θ).downwards q xD (j + 1) - c.S.thresh)
        ≤ (if δ = 1 then ((flatStackOf c m tabs nk θ).above j).trns else ((flatStackOf c m tabs nk θ).below j).refl) * branchesStack c n g K (fun i => V (i + 1)) sD := by
      by_cases hw : (if δ = 1 then ((flatStackOf c m tabs nk θ).above j).trns else ((flatStackOf c m tabs nk θ).below j).refl) = 0
      · rw [hw, zero_mul, zero_mul]
      · refine mul_le_mul_of_nonneg_left ?_ w2
        have := hD hw
        unfold Downward at this
        unfold FlatStack.downwards
        by_cases h0 : j + 1 = m
        · rw [if_pos h0] at this
          rw [if_pos (show j + 1 = (flatStackOf c m tabs nk θ).m from h0)]
          rw [branchesStack_stop this.1, hg1 sD this.1, of_exits q this]; simpa using hth
        · rw [if_neg h0] at this
          rw [if_neg (show ¬ j + 1 = (flatStackOf c m tabs nk θ).m from h0)]
          have := key _ _ _ sD this.1 (Or.inl ⟨rfl, this.1⟩) this.2
          simpa using this
    rw [branchesStack_stop hst, hg1 sA hst] at hb
    have hbal := layers_balance hs bal hg1 hj
    have hA := hA q
    have hw := mul_le_mul_of_nonneg_right w3 hth
    linear_combination -hb + hUb + hDb - hA + s.ray.I * hbal + hw

end layers

/-! ## Helper lemmas: the balance of light has a solution -/

namespace FlatBalance
variable (F : FlatStack) (q : Quantity)

/-- One more surface. -/
noncomputable def next (x : (ℕ → ℝ) × (ℕ → ℝ)) : (ℕ → ℝ) × (ℕ → ℝ) :=
  (fun j => if j < F.m then (F.above j).refl * F.upwards q x.2 j + (F.above j).trns * F.downwards q x.1 (j + 1) + q.atSurface j (F.above j) else 0,
   fun j => if j + 1 < F.m then (F.below j).refl * F.downwards q x.1 (j + 1) + (F.below j).trns * F.upwards q x.2 j + q.atSurface j (F.below j) else 0)

/-- What counts of the light within `K` surfaces. -/
noncomputable def iter : ℕ → (ℕ → ℝ) × (ℕ → ℝ)
  | 0 => (fun _ => 0, fun _ => 0)
  | K + 1 => next F q (iter K)

variable {F} (hF : ∀ j, j < F.m → Conserves (F.above j) ∧ Conserves (F.below j)) (hP : ∀ i, i < F.m → 0 ≤ F.pass i ∧ F.pass i ≤ 1)
include hP

theorem upwards_mono {x x' : ℕ → ℝ} (h : ∀ j, x j ≤ x' j) {i : ℕ} (hi : i < F.m) : F.upwards q x i ≤ F.upwards q x' i := by
  unfold FlatStack.upwards
  split_ifs
  · exact le_rfl
  · have := mul_le_mul_of_nonneg_left (h (i - 1)) (hP i hi).1
    linarith

theorem downwards_mono {x x' : ℕ → ℝ} (h : ∀ j, x j ≤ x' j) {i : ℕ} (hi : i ≤ F.m) : F.downwards q x i ≤ F.downwards q x' i := by
  unfold FlatStack.downwards
  split_ifs with hm
  · exact le_rfl
  · have := mul_le_mul_of_nonneg_left (h i) (hP i (lt_of_le_of_ne hi hm)).1
    linarith

theorem mix_range {P e x : ℝ} (hP : 0 ≤ P ∧ P ≤ 1) (he : 0 ≤ e ∧ e ≤ 1) (hx : 0 ≤ x ∧ x ≤ 1) : 0 ≤ (1 - P) * e + P * x ∧ (1 - P) * e + P * x ≤ 1 := by
  have h1 := mul_nonneg (sub_nonneg.mpr hP.2) he.1
  have h2 := mul_nonneg hP.1 hx.1
  have h3 := mul_le_of_le_one_right (sub_nonneg.mpr hP.2) he.2
  have h4 := mul_le_of_le_one_right hP.1 hx.2
  constructor <;> linarith

theorem upwards_range {x : ℕ → ℝ} (h : ∀ j, 0 ≤ x j ∧ x j ≤ 1) {i : ℕ} (hi : i < F.m) : 0 ≤ F.upwards q x i ∧ F.upwards q x i ≤ 1 := by
  unfold FlatStack.upwards
  split_ifs
  · exact (quantity_range q).1
  · exact mix_range (F := F) hP (hP i hi) ((quantity_range q).2.2 i) (h _)

theorem downwards_range {x : ℕ → ℝ} (h : ∀ j, 0 ≤ x j ∧ x j ≤ 1) {i : ℕ} (hi : i ≤ F.m) : 0 ≤ F.downwards q x i ∧ F.downwards q x i ≤ 1 := by
  unfold FlatStack.downwards
  split_ifs with hm
  · exact (quantity_range q).2.1
  · exact mix_range (F := F) hP (hP i (lt_of_le_of_ne hi hm)) ((quantity_range q).2.2 i) (h _)

include hF

theorem next_mono {x x' : (ℕ → ℝ) × (ℕ → ℝ)} (h : ∀ j, x.1 j ≤ x'.1 j ∧ x.2 j ≤ x'.2 j) (j : ℕ) : (next F q x).1 j ≤ (next F q x').1 j ∧ (next F q x).2 j ≤ (next F q x').2 j := by
  simp only [next]
  constructor
  · split_ifs with hj
    · obtain ⟨⟨a1, a2, -⟩, -⟩ := hF j hj
      have u := mul_le_mul_of_nonneg_left (upwards_mono q hP (fun j => (h j).2) hj) a1
      have d := mul_le_mul_of_nonneg_left (downwards_mono q hP (fun j => (h j).1) (show j + 1 ≤ F.m from hj)) a2
      linarith
    · exact le_rfl
  · split_ifs with hj
    · obtain ⟨-, a1, a2, -⟩ := hF j (by omega)
      have u := mul_le_mul_of_nonneg_left (upwards_mono q hP (fun j => (h j).2) (show j < F.m by omega)) a2
      have d := mul_le_mul_of_nonneg_left (downwards_mono q hP (fun j => (h j).1) (show j + 1 ≤ F.m from hj.le)) a1
      linarith
    · exact le_rfl

theorem next_range {x : (ℕ → ℝ) × (ℕ → ℝ)} (h : ∀ j, (0 ≤ x.1 j ∧ x.1 j ≤ 1) ∧ 0 ≤ x.2 j ∧ x.2 j ≤ 1) (j : ℕ) :
    (0 ≤ (next F q x).1 j ∧ (next F q x).1 j ≤ 1) ∧ 0 ≤ (next F q x).2 j ∧ (next F q x).2 j ≤ 1 := by
  have key : ∀ {a b u d s : ℝ}, 0 ≤ a → 0 ≤ b → (0 ≤ u ∧ u ≤ 1) → (0 ≤ d ∧ d ≤ 1) → (0 ≤ s ∧ s ≤ 1 - a - b) → 0 ≤ a * u + b * d + s ∧ a * u + b * d + s ≤ 1 := by
    intro a b u d s ha hb hu hd hs
    have h1 := mul_nonneg ha hu.1
    have h2 := mul_nonneg hb hd.1
    have h3 := mul_le_of_le_one_right ha hu.2
    have h4 := mul_le_of_le_one_right hb hd.2
    constructor <;> linarith [hs.1, hs.2]
  simp only [next]
  constructor
  · split_ifs with hj
    · have hc := (hF j hj).1
      exact key hc.1 hc.2.1 (upwards_range q hP (fun j => (h j).2) hj) (downwards_range q hP (fun j => (h j).1) hj) (atSurface_range q j hc)
    · exact ⟨le_rfl, zero_le_one⟩
  · split_ifs with hj
    · have hc := (hF j (by omega)).2
      exact key hc.1 hc.2.1 (downwards_range q hP (fun j => (h j).1) hj.le) (upwards_range q hP (fun j => (h j).2) (by omega)) (atSurface_range q j hc)
    · exact ⟨le_rfl, zero_le_one⟩

theorem iter_range (K : ℕ) : ∀ j, (0 ≤ (iter F q K).1 j ∧ (iter F q K).1 j ≤ 1) ∧ 0 ≤ (iter F q K).2 j ∧ (iter F q K).2 j ≤ 1 := by
  induction K with
  | zero => intro j; simp [iter]
  | succ K ih => exact next_range q hF hP ih

theorem iter_mono (K : ℕ) : ∀ j, (iter F q K).1 j ≤ (iter F q (K + 1)).1 j ∧ (iter F q K).2 j ≤ (iter F q (K + 1)).2 j := by
  induction K with
  | zero => intro j; have := iter_range q hF hP 1 j; exact ⟨this.1.1, this.2.1⟩
  | succ K ih => exact next_mono q hF hP ih

theorem exists_balance : ∃ xD xU, F.Balance q xD xU := by
  have mono1 : ∀ j, Monotone fun K => (iter F q K).1 j := fun j => monotone_nat_of_le_succ fun K => (iter_mono q hF hP K j).1
  have mono2 : ∀ j, Monotone fun K => (iter F q K).2 j := fun j => monotone_nat_of_le_succ fun K => (iter_mono q hF hP K j).2
  have lim1 : ∀ j, ∃ l, Filter.Tendsto (fun K => (iter F q K).1 j) Filter.atTop (nhds l) := fun j =>
    ⟨_, tendsto_atTop_ciSup (mono1 j) ⟨1, by rintro _ ⟨K, rfl⟩; exact (iter_range q hF hP K j).1.2⟩⟩
  have lim2 : ∀ j, ∃ l, Filter.Tendsto (fun K => (iter F q K).2 j) Filter.atTop (nhds l) := fun j =>
    ⟨_, tendsto_atTop_ciSup (mono2 j) ⟨1, by rintro _ ⟨K, rfl⟩; exact (iter_range q hF hP K j).2.2⟩⟩
  choose xD hD using lim1
  choose xU hU using lim2
  have tu : ∀ i, Filter.Tendsto (fun K => F.upwards q (iter F q K).2 i) Filter.atTop (nhds (F.upwards q xU i)) := by
    intro i
    unfold FlatStack.upwards
    by_cases h : i = 0
    · simp only [if_pos h]; exact tendsto_const_nhds
    · simp only [if_neg h]; exact ((hU _).const_mul _).const_add _
  have td : ∀ i, Filter.Tendsto (fun K => F.downwards q (iter F q K).1 i) Filter.atTop (nhds (F.downwards q xD i)) := by
    intro i
    unfold FlatStack.downwards
    by_cases h : i = F.m
    · simp only [if_pos h]; exact tendsto_const_nhds
    · simp only [if_neg h]; exact ((hD _).const_mul _).const_add _
  refine ⟨xD, xU, ?_, ?_, fun j => ⟨?_, ?_⟩, fun j => ⟨?_, ?_⟩⟩
  · intro j hj
    refine tendsto_nhds_unique ((Filter.tendsto_add_atTop_iff_nat 1).mpr (hD j)) ?_
    have : (fun K => (iter F q (K + 1)).1 j) = fun K => (F.above j).refl * F.upwards q (iter F q K).2 j + (F.above j).trns * F.downwards q (iter F q K).1 (j + 1) + q.atSurface j (F.above j) := by
      funext K; exact if_pos hj
    rw [this]
    exact (((tu j).const_mul _).add ((td (j + 1)).const_mul _)).add_const _
  · intro j hj
    refine tendsto_nhds_unique ((Filter.tendsto_add_atTop_iff_nat 1).mpr (hU j)) ?_
    have : (fun K => (iter F q (K + 1)).2 j) = fun K => (F.below j).refl * F.downwards q (iter F q K).1 (j + 1) + (F.below j).trns * F.upwards q (iter F q K).2 j + q.atSurface j (F.below j) := by
      funext K; exact if_pos hj
    rw [this]
    exact (((td (j + 1)).const_mul _).add ((tu j).const_mul _)).add_const _
  · exact ge_of_tendsto' (hD j) fun K => (iter_range q hF hP K j).1.1
  · exact le_of_tendsto' (hD j) fun K => (iter_range q hF hP K j).1.2
  · exact ge_of_tendsto' (hU j) fun K => (iter_range q hF hP K j).2.1
  · exact le_of_tendsto' (hU j) fun K => (iter_range q hF hP K j).2.2

end FlatBalance

end Rayflare
