import Verif.Props.FlatTrace
import Verif.Props.RTStart

/-!
# Property C151: ray tracing of a slab between flat surfaces gives the textbook formulas
-/

namespace Rayflare

open Rayflare.Np Rayflare.Model Rayflare.Spec Rayflare.Lemmas MeasureTheory

/-! ## Helper lemmas: the bookkeeping in a stack of three media -/

section steps
variable {S : Stack} (hw : S.widths.length = 3) {y : Ray} (hs : y.stop = false)
include hw hs

theorem step3_absorb (A : List ℝ) (h : y.dir = 1 ∧ (y.surf = 0 ∧ y.mat = 0 ∨ y.surf = 1 ∧ y.mat = 1) ∨ y.dir = -1 ∧ y.surf = 0 ∧ y.mat = 1) : S.step y (.absorb A) = some (y.interact (.absorb A)) := by
  rcases h with ⟨h1, ⟨h2, h3⟩ | ⟨h2, h3⟩⟩ | ⟨h1, h2, h3⟩ <;>
    simp [Stack.step, hs, Stack.nSurf, hw, h1, h2, h3, pyIndex, Stack.checkEnd, Ray.interact]

theorem step3_front_reflect (θ : ℝ) (h1 : y.dir = 1) (h2 : y.surf = 0) (h3 : y.mat = 0) :
    S.step y (.reflect θ) = some { y with dir := -1, surf := -1, θ := some θ, stop := true } := by
  simp [Stack.step, hs, Stack.nSurf, hw, h1, h2, h3, pyIndex, Stack.checkEnd, Ray.interact]

theorem step3_front_transmit (θ : ℝ) (h1 : y.dir = 1) (h2 : y.surf = 0) (h3 : y.mat = 0) :
    S.step y (.transmit θ) = some (S.pass { y with surf := 1, mat := 1, θ := some θ } 1) := by
  simp [Stack.step, hs, Stack.nSurf, hw, h1, h2, h3, pyIndex, Stack.checkEnd, Ray.interact]

theorem step3_rear_reflect (θ : ℝ) (h1 : y.dir = 1) (h2 : y.surf = 1) (h3 : y.mat = 1) :
    S.step y (.reflect θ) = some (S.pass { y with dir := -1, surf := 0, θ := some θ } 1) := by
  simp [Stack.step, hs, Stack.nSurf, hw, h1, h2, h3, pyIndex, Stack.checkEnd, Ray.interact]

theorem step3_rear_transmit (θ : ℝ) (h1 : y.dir = 1) (h2 : y.surf = 1) (h3 : y.mat = 1) :
    S.step y (.transmit θ) = some { y with surf := 2, mat := 2, θ := some θ, stop := true } := by
  simp [Stack.step, hs, Stack.nSurf, hw, h1, h2, h3, pyIndex, Stack.checkEnd, Ray.interact]

theorem step3_back_reflect (θ : ℝ) (h1 : y.dir = -1) (h2 : y.surf = 0) (h3 : y.mat = 1) :
    S.step y (.reflect θ) = some (S.pass { y with dir := 1, surf := 1, θ := some θ } 1) := by
  simp [Stack.step, hs, Stack.nSurf, hw, h1, h2, h3, pyIndex, Stack.checkEnd, Ray.interact]

theorem step3_back_transmit (θ : ℝ) (h1 : y.dir = -1) (h2 : y.surf = 0) (h3 : y.mat = 1) :
    S.step y (.transmit θ) = some { y with surf := -1, mat := 0, θ := some θ, stop := true } := by
  simp [Stack.step, hs, Stack.nSurf, hw, h1, h2, h3, pyIndex, Stack.checkEnd, Ray.interact]

end steps

/-! ## Helper lemmas: what can happen to a ray at each surface -/

/-- The ray is inside the slab, on its way down (`δ = 1`) or up (`δ = -1`). -/
structure InSlab (cell0 cell1 : Cell) (θ1 : ℝ) (δ : ℤ) (s : StackRay) : Prop where
  running : s.ray.stop = false
  dir : s.ray.dir = δ
  surf : s.ray.surf = if δ = 1 then 1 else 0
  mat : s.ray.mat = 1
  going : Going δ θ1 s.d
  pos : ∃ r, s.r = some r ∧ OnSide δ (if δ = 1 then cell1.zcov else cell0.zcov) r.z
  idx : s.ray.aIdx = 0

/-- The ray passes through the slab and keeps the fraction `P`; then it is inside the slab, or given up. -/
def Goes (thresh : ℝ) (cell0 cell1 : Cell) (θ1 P : ℝ) (δ : ℤ) (y : Ray) (s : StackRay) : Prop :=
  s.ray.I = y.I * P ∧ s.ray.A 1 = y.A 1 + (y.I - y.I * P) ∧
    (s.ray.stop = true ∧ y.I * P < thresh ∧ s.ray.θ = none ∧ s.ray.aIdx = 0 ∨ thresh ≤ y.I * P ∧ InSlab cell0 cell1 θ1 δ s)

/-- The ray leaves the slab. -/
def Leaves (up : Bool) (y : Ray) (s : StackRay) : Prop :=
  s.ray.stop = true ∧ s.ray.I = y.I ∧ s.ray.A 1 = y.A 1 ∧ s.ray.aIdx = 0 ∧ s.ray.isRefl = up ∧ s.ray.isTrns = !up

/-- The ray is absorbed in the coating of surface `k`. -/
def Caught (k : ℕ) (A : List ℝ) (y : Ray) (s : StackRay) : Prop :=
  s.ray.stop = true ∧ s.ray.θ = none ∧ s.ray.A 1 = y.A 1 ∧ s.ray.aIdx = (k : ℤ) + 1 ∧ s.ray.aInt = A.map fun a => y.I * a / A.sum

theorem pass_goes {S : Stack} {cell0 cell1 : Cell} {θ1 θ : ℝ} (hθ : |Real.cos θ| = Real.cos θ1) {δ : ℤ} {y0 y : Ray} (hy : y.θ = some θ) (hI : y.I = y0.I) (hA : y.A = y0.A) (hd : y.dir = δ)
    (hsf : y.surf = if δ = 1 then 1 else 0) (hm : y.mat = 1) (hi : y.aIdx = 0) {d : V3} (hgo : Going δ θ1 d) {r : V3} (hr : OnSide δ (if δ = 1 then cell1.zcov else cell0.zcov) r.z) :
    Goes S.thresh cell0 cell1 θ1 (Real.exp (-(S.alphas.getD 1 0 * S.widths.getD 1 0 / Real.cos θ1))) δ y0 { ray := S.pass y 1, r := some r, d := d } := by
  have e : y.I * Real.exp (-(S.alphas.getD 1 0 / |Real.cos (y.θ.getD 0)|) * S.widths.getD 1 0) = y0.I * Real.exp (-(S.alphas.getD 1 0 * S.widths.getD 1 0 / Real.cos θ1)) := by
    rw [hI, hy, Option.getD_some, hθ]
    congr 2; ring
  refine ⟨?_, ?_, ?_⟩
  · simp only [Stack.pass, Model.traverse]; rw [e]
  · simp only [Stack.pass, Model.traverse]; rw [e, if_pos trivial, hA, hI]; ring
  · have hst : (S.pass y 1).stop = decide (y0.I * Real.exp (-(S.alphas.getD 1 0 * S.widths.getD 1 0 / Real.cos θ1)) < S.thresh) := by
      simp only [Stack.pass, Model.traverse]; rw [e]
    have hth : (S.pass y 1).θ = if (S.pass y 1).stop = true then none else some (y.θ.getD 0) := rfl
    by_cases hlt : y0.I * Real.exp (-(S.alphas.getD 1 0 * S.widths.getD 1 0 / Real.cos θ1)) < S.thresh
    · have h1 : (S.pass y 1).stop = true := by rw [hst]; exact decide_eq_true hlt
      exact Or.inl ⟨h1, hlt, by simp only; rw [hth, if_pos h1], hi⟩
    · exact Or.inr ⟨not_lt.mp hlt, by simp only; rw [hst]; exact decide_eq_false hlt, hd, hsf, hm, hgo, ⟨r, rfl, hr⟩, hi⟩

/-- Following all branches at a surface where the ray is reflected, transmitted or absorbed. -/
theorem stack_branch {c : RTStack} {n : ℕ} (hn : 3 ≤ n) {cell : Cell} {tab : Option Table} {ni nj : ℂ} {s : StackRay} (hrun : s.ray.stop = false)
    (hcell : pyGet c.cells s.ray.surf = some cell) (htab : pyGet c.tabs s.ray.surf = some tab)
    (hni : pyGet c.nks (if s.ray.dir = 1 then s.ray.mat else s.ray.mat - 1) = some ni) (hnj : pyGet c.nks (if s.ray.dir = 1 then s.ray.mat + 1 else s.ray.mat) = some nj)
    (hper : c.periodic = true) (hsize : 0 < cell.Lx ∧ 0 < cell.Ly ∧ cell.zmin ≤ cell.zmax) (hi : 0 < ni.re) (hj : 0 < nj.re)
    (g : StackRes → ℝ) (K : ℕ) {V : ℕ → Visit} (hflat : ∀ j, FlatSurface ((V 0).geo s.ray.surf j).tris cell.Lx cell.Ly cell.zcov)
    {r : V3} (hr : s.r = some r) {θ : ℝ} (h0 : 0 ≤ θ) (h1 : θ < Real.pi / 2) (hd : Going s.ray.dir θ s.d) (hside : OnSide s.ray.dir cell.zcov r.z)
    {f : Face ℕ} (hf : faceOf c.asin c.pol tab ni nj s.ray.dir θ = f)
    (hT : f.trns = 0 ∨ sinRefr tab.isSome (mediaAt ni nj s.ray.dir).1 (mediaAt ni nj s.ray.dir).2 θ < 1)
    {yR yT yA : Ray} (hyR : c.S.step s.ray (.reflect (if s.ray.dir = 1 then θ else Real.pi - θ)) = some yR)
    (hyT : c.S.step s.ray (.transmit (if s.ray.dir = 1 then Real.pi - refrOf tab.isSome (mediaAt ni nj s.ray.dir).1 (mediaAt ni nj s.ray.dir).2 θ
      else refrOf tab.isSome (mediaAt ni nj s.ray.dir).1 (mediaAt ni nj s.ray.dir).2 θ)) = some yT)
    (hyA : c.S.step s.ray (.absorb (layersAt tab s.ray.dir θ)) = some yA) :
    ∃ sR sT sA : StackRay,
      branchesStack c n g (K + 1) V s = f.refl * branchesStack c n g K (fun i => V (i + 1)) sR + f.trns * branchesStack c n g K (fun i => V (i + 1)) sT
        + (1 - f.refl - f.trns) * branchesStack c n g K (fun i => V (i + 1)) sA ∧
      (sR.ray = yR ∧ Going (-s.ray.dir) θ sR.d ∧ ∃ r', sR.r = some r' ∧ r'.z = cell.zcov + 1 / 10 ^ 9 * (s.ray.dir * Real.cos θ)) ∧
      (f.trns ≠ 0 → let θ' := refrOf tab.isSome (mediaAt ni nj s.ray.dir).1 (mediaAt ni nj s.ray.dir).2 θ
        0 ≤ θ' ∧ θ' < Real.pi / 2 ∧ sT.ray = yT ∧ Going s.ray.dir θ' sT.d ∧ ∃ r', sT.r = some r' ∧ r'.z = cell.zcov - 1 / 10 ^ 9 * (s.ray.dir * Real.cos θ')) ∧
      sA.ray = yA := by
  obtain ⟨G, hG⟩ : ∃ G : Option SicRes → ℝ, G = fun o => match c.advance s o with
        | .next s' => branchesStack c n g K (fun i => V (i + 1)) s'
        | e => g e := ⟨_, rfl⟩
  obtain ⟨oR, oT, oA, hb, ⟨hR1, hR2, rR, hR3, hR4⟩, hTT, hA⟩ := flat_meet hper hsize.1 hsize.2.1 hsize.2.2 (tab := tab) (ni := ni) (nj := nj) hi hj
    G (m := ⟨(V 0).u, (V 0).v, (V 0).surfaces n s.ray.surf⟩)
    (by
      intro w hw
      obtain ⟨j, rfl⟩ := (List.mem_ofFn' _ _).mp hw
      exact hflat j) (by simpa [Visit.surfaces] using hn) hr h0 h1 hd (Or.inl hside) (by rw [hf]; exact hT)
  rw [hf] at hb hTT
  have hcont : ∀ (o : SicRes) (y : Ray), c.S.step s.ray o.outcome = some y → G (some o) = branchesStack c n g K (fun i => V (i + 1)) { ray := y, r := o.pos, d := o.dir } := by
    intro o y h
    rw [hG]
    simp only [RTStack.advance, h]
  have hbody : branchesStack c n g (K + 1) V s = branchesMeet c cell tab ni nj G ⟨(V 0).u, (V 0).v, (V 0).surfaces n s.ray.surf⟩ s := by
    rw [branchesStack]
    simp only [hrun, hcell, htab, hni, hnj, Bool.false_eq_true, if_false]
    congr 1
    rw [hG]
    funext o
    cases c.advance s o <;> rfl
  rw [hbody, hb]
  have cR := hcont oR yR (by rw [hR1]; exact hyR)
  have cA := hcont oA yA (by rw [hA]; exact hyA)
  by_cases ht : f.trns = 0
  · refine ⟨{ ray := yR, r := oR.pos, d := oR.dir }, s, { ray := yA, r := oA.pos, d := oA.dir }, ?_, ⟨rfl, hR2, rR, hR3, hR4⟩, fun h => absurd ht h, rfl⟩
    simp only [cR, cA, ht, zero_mul]
  · obtain ⟨a0, a1, a2, a3, a4⟩ := hTT ht
    have cT := hcont oT yT (by rw [a2]; exact hyT)
    refine ⟨{ ray := yR, r := oR.pos, d := oR.dir }, { ray := yT, r := oT.pos, d := oT.dir }, { ray := yA, r := oA.pos, d := oA.dir }, ?_, ⟨rfl, hR2, rR, hR3, hR4⟩, fun _ => ⟨a0, a1, rfl, a3, a4⟩, rfl⟩
    simp only [cR, cA, cT]

theorem refrOf_range {coated : Bool} {n0 n1 : ℂ} (hn0 : 0 < n0.re) (hn1 : 0 < n1.re) {θ : ℝ} (h0 : 0 ≤ θ) (h1 : θ < Real.pi / 2) (hlt : sinRefr coated n0 n1 θ < 1) :
    0 ≤ refrOf coated n0 n1 θ ∧ refrOf coated n0 n1 θ < Real.pi / 2 := by
  have hs : 0 ≤ Real.sin θ := Real.sin_nonneg_of_nonneg_of_le_pi h0 (by linarith [Real.pi_pos])
  unfold sinRefr at hlt
  unfold refrOf
  cases coated
  · simp only [Bool.false_eq_true, if_false] at hlt ⊢
    exact ⟨Real.arcsin_nonneg.mpr (by positivity), Real.arcsin_lt_pi_div_two.mpr hlt⟩
  · simp only [if_true] at hlt ⊢
    exact ⟨Real.arctan_nonneg.mpr (by positivity), Real.arctan_lt_pi_div_two _⟩

section slab
variable {c : RTStack} {cell0 cell1 : Cell} {t0 t1 : Option Table} {n0 n1 n2 : ℂ} (hs : RTSlab c cell0 cell1 t0 t1 n0 n1 n2) {θ : ℝ} (h0 : 0 ≤ θ) (h1 : θ < Real.pi / 2)
  (hin : sinRefr t0.isSome n0 n1 θ < 1) {n : ℕ} (hn : 3 ≤ n)
include hs h0 h1 hin hn

theorem slab_front (g : StackRes → ℝ) (K : ℕ) {V : ℕ → Visit} (hflat : AllFlat cell0 cell1 V) {s : StackRay} (hrun : s.ray.stop = false) (hdir : s.ray.dir = 1) (hsurf : s.ray.surf = 0)
    (hmat : s.ray.mat = 0) (hidx : s.ray.aIdx = 0) (hgo : Going 1 θ s.d) {r : V3} (hr : s.r = some r) (hz : cell0.zcov < r.z) :
    ∃ sR sT sA : StackRay,
      branchesStack c n g (K + 1) V s = (slabOf c t0 t1 n0 n1 n2 θ).front.refl * branchesStack c n g K (fun i => V (i + 1)) sR + (slabOf c t0 t1 n0 n1 n2 θ).front.trns * branchesStack c n g K (fun i => V (i + 1)) sT
        + (1 - (slabOf c t0 t1 n0 n1 n2 θ).front.refl - (slabOf c t0 t1 n0 n1 n2 θ).front.trns) * branchesStack c n g K (fun i => V (i + 1)) sA ∧
      Leaves true s.ray sR ∧
      ((slabOf c t0 t1 n0 n1 n2 θ).front.trns ≠ 0 → Goes c.S.thresh cell0 cell1 (refrOf t0.isSome n0 n1 θ) (slabOf c t0 t1 n0 n1 n2 θ).pass 1 s.ray sT) ∧
      Caught 0 (layersAt t0 1 θ) s.ray sA := by
  obtain ⟨hr0, hr1⟩ := refrOf_range hs.re.1 hs.re.2.1 h0 h1 hin
  have hc := Going.cos_pos hr0 hr1
  obtain ⟨sR, sT, sA, hb, ⟨hR, -, -⟩, hT, hA⟩ := stack_branch hn (cell := cell0) (tab := t0) (ni := n0) (nj := n1) hrun (by rw [hs.cells, hsurf]; rfl) (by rw [hs.tabs, hsurf]; rfl)
    (by rw [hs.nks, hmat, if_pos hdir]; rfl) (by rw [hs.nks, hmat, if_pos hdir]; rfl) hs.periodic hs.size0 hs.re.1 hs.re.2.1 g K (V := V) (fun j => by rw [hsurf]; exact (hflat 0 j).1)
    hr h0 h1 (by rw [hdir]; exact hgo) (by rw [hdir]; exact Or.inl ⟨rfl, hz⟩) (f := (slabOf c t0 t1 n0 n1 n2 θ).front) (by rw [hdir]; rfl) (Or.inr (by rw [hdir]; simpa [mediaAt] using hin))
    (step3_front_reflect hs.three hrun _ hdir hsurf hmat) (step3_front_transmit hs.three hrun _ hdir hsurf hmat) (step3_absorb hs.three hrun _ (Or.inl ⟨hdir, Or.inl ⟨hsurf, hmat⟩⟩))
  refine ⟨sR, sT, sA, hb, ?_, ?_, ?_⟩
  · have : θ ≤ Real.pi / 2 := h1.le
    refine ⟨by rw [hR], by rw [hR], by rw [hR], by rw [hR]; exact hidx, ?_, ?_⟩ <;> rw [hR] <;> simp [Ray.isRefl, Ray.isTrns, hdir, this]
  · intro ht
    obtain ⟨a0, a1, hy, hg, r', hpos, hz'⟩ := hT ht
    simp only [hdir, mediaAt, if_true] at a0 a1 hg hy hz'
    obtain ⟨y, r0, d0⟩ := sT
    simp only at hy hg hpos
    subst hy hpos
    refine pass_goes (θ := Real.pi - refrOf t0.isSome n0 n1 θ) (δ := 1) ?_ ?_ ?_ ?_ ?_ ?_ ?_ ?_ hg ?_
    · rw [Real.cos_pi_sub, abs_neg, abs_of_pos hc]
    · rfl
    · rfl
    · rfl
    · rfl
    · rfl
    · rfl
    · exact hidx
    · refine Or.inl ⟨rfl, ?_⟩
      rw [if_pos rfl, hz']
      have := Real.cos_le_one (refrOf t0.isSome n0 n1 θ)
      have := hs.apart
      push_cast
      norm_num at *
      linarith
  · refine ⟨by rw [hA]; rfl, by rw [hA]; rfl, by rw [hA]; rfl, by rw [hA]; simp [Ray.interact, hsurf], by rw [hA]; simp [Ray.interact, hdir]⟩

theorem slab_rear (hrear : (slabOf c t0 t1 n0 n1 n2 θ).rear.trns = 0 ∨ sinRefr t1.isSome n1 n2 (refrOf t0.isSome n0 n1 θ) < 1)
    (g : StackRes → ℝ) (K : ℕ) {V : ℕ → Visit} (hflat : AllFlat cell0 cell1 V) {s : StackRay} (hS : InSlab cell0 cell1 (refrOf t0.isSome n0 n1 θ) 1 s) :
    ∃ sR sT sA : StackRay,
      branchesStack c n g (K + 1) V s = (slabOf c t0 t1 n0 n1 n2 θ).rear.refl * branchesStack c n g K (fun i => V (i + 1)) sR + (slabOf c t0 t1 n0 n1 n2 θ).rear.trns * branchesStack c n g K (fun i => V (i + 1)) sT
        + (1 - (slabOf c t0 t1 n0 n1 n2 θ).rear.refl - (slabOf c t0 t1 n0 n1 n2 θ).rear.trns) * branchesStack c n g K (fun i => V (i + 1)) sA ∧
      Goes c.S.thresh cell0 cell1 (refrOf t0.isSome n0 n1 θ) (slabOf c t0 t1 n0 n1 n2 θ).pass (-1) s.ray sR ∧
      ((slabOf c t0 t1 n0 n1 n2 θ).rear.trns ≠ 0 → Leaves false s.ray sT) ∧
      Caught 1 (layersAt t1 1 (refrOf t0.isSome n0 n1 θ)) s.ray sA := by
  obtain ⟨hr0, hr1⟩ := refrOf_range hs.re.1 hs.re.2.1 h0 h1 hin
  have hc := Going.cos_pos hr0 hr1
  have hdir := hS.dir
  have hsurf : s.ray.surf = 1 := by rw [hS.surf]; rfl
  have hmat := hS.mat
  obtain ⟨r, hr, hside⟩ := hS.pos
  obtain ⟨sR, sT, sA, hb, ⟨hR, hg, r', hpos, hz'⟩, hT, hA⟩ := stack_branch hn (cell := cell1) (tab := t1) (ni := n1) (nj := n2) hS.running (by rw [hs.cells, hsurf]; rfl) (by rw [hs.tabs, hsurf]; rfl)
    (by rw [hs.nks, hmat, if_pos hdir]; rfl) (by rw [hs.nks, hmat, if_pos hdir]; rfl) hs.periodic hs.size1 hs.re.2.1 hs.re.2.2 g K (V := V) (fun j => by rw [hsurf]; exact (hflat 0 j).2)
    hr hr0 hr1 (by rw [hdir]; exact hS.going) (by rw [hdir]; simpa using hside) (f := (slabOf c t0 t1 n0 n1 n2 θ).rear) (by rw [hdir]; rfl) (by rw [hdir]; simpa [mediaAt] using hrear)
    (step3_rear_reflect hs.three hS.running _ hdir hsurf hmat) (step3_rear_transmit hs.three hS.running _ hdir hsurf hmat) (step3_absorb hs.three hS.running _ (Or.inl ⟨hdir, Or.inr ⟨hsurf, hmat⟩⟩))
  refine ⟨sR, sT, sA, hb, ?_, ?_, ?_⟩
  · simp only [hdir, if_true] at hg hR hz'
    obtain ⟨y, r0, d0⟩ := sR
    simp only at hR hg hpos
    subst hR hpos
    refine pass_goes (θ := refrOf t0.isSome n0 n1 θ) (δ := -1) (abs_of_pos hc) ?_ ?_ ?_ ?_ ?_ ?_ ?_ hg ?_
    · rfl
    · rfl
    · rfl
    · rfl
    · rfl
    · exact hmat
    · exact hS.idx
    refine Or.inr ⟨rfl, ?_⟩
    rw [if_neg (by norm_num), hz']
    have := Real.cos_le_one (refrOf t0.isSome n0 n1 θ)
    have := hs.apart
    push_cast
    norm_num at *
    linarith
  · intro ht
    obtain ⟨a0, a1, hy, -, -⟩ := hT ht
    simp only [hdir, mediaAt, if_true] at a0 a1 hy
    have a2 : Real.pi / 2 < Real.pi - refrOf t1.isSome n1 n2 (refrOf t0.isSome n0 n1 θ) := by linarith
    refine ⟨by rw [hy], by rw [hy], by rw [hy], by rw [hy]; exact hS.idx, ?_, ?_⟩ <;> rw [hy] <;> simp only [Ray.isRefl, Ray.isTrns]
    · exact decide_eq_false (not_le.mpr a2)
    · exact decide_eq_true a2
  · refine ⟨by rw [hA]; rfl, by rw [hA]; rfl, by rw [hA]; rfl, by rw [hA]; simp [Ray.interact, hsurf], by rw [hA]; simp [Ray.interact, hdir]⟩

theorem slab_back (hback : (slabOf c t0 t1 n0 n1 n2 θ).back.trns = 0 ∨ sinRefr t0.isSome n1 n0 (refrOf t0.isSome n0 n1 θ) < 1)
    (g : StackRes → ℝ) (K : ℕ) {V : ℕ → Visit} (hflat : AllFlat cell0 cell1 V) {s : StackRay} (hS : InSlab cell0 cell1 (refrOf t0.isSome n0 n1 θ) (-1) s) :
    ∃ sR sT sA : StackRay,
      branchesStack c n g (K + 1) V s = (slabOf c t0 t1 n0 n1 n2 θ).back.refl * branchesStack c n g K (fun i => V (i + 1)) sR + (slabOf c t0 t1 n0 n1 n2 θ).back.trns * branchesStack c n g K (fun i => V (i + 1)) sT
        + (1 - (slabOf c t0 t1 n0 n1 n2 θ).back.refl - (slabOf c t0 t1 n0 n1 n2 θ).back.trns) * branchesStack c n g K (fun i => V (i + 1)) sA ∧
      Goes c.S.thresh cell0 cell1 (refrOf t0.isSome n0 n1 θ) (slabOf c t0 t1 n0 n1 n2 θ).pass 1 s.ray sR ∧
      ((slabOf c t0 t1 n0 n1 n2 θ).back.trns ≠ 0 → Leaves true s.ray sT) ∧
      Caught 0 (layersAt t0 (-1) (refrOf t0.isSome n0 n1 θ)) s.ray sA := by
  obtain ⟨hr0, hr1⟩ := refrOf_range hs.re.1 hs.re.2.1 h0 h1 hin
  have hc := Going.cos_pos hr0 hr1
  have hdir := hS.dir
  have hne : s.ray.dir ≠ 1 := by rw [hdir]; norm_num
  have hsurf : s.ray.surf = 0 := by rw [hS.surf]; rfl
  have hmat := hS.mat
  obtain ⟨r, hr, hside⟩ := hS.pos
  obtain ⟨sR, sT, sA, hb, ⟨hR, hg, r', hpos, hz'⟩, hT, hA⟩ := stack_branch hn (cell := cell0) (tab := t0) (ni := n0) (nj := n1) hS.running (by rw [hs.cells, hsurf]; rfl) (by rw [hs.tabs, hsurf]; rfl)
    (by rw [hs.nks, hmat, if_neg hne]; rfl) (by rw [hs.nks, hmat, if_neg hne]; rfl) hs.periodic hs.size0 hs.re.1 hs.re.2.1 g K (V := V) (fun j => by rw [hsurf]; exact (hflat 0 j).1)
    hr hr0 hr1 (by rw [hdir]; exact hS.going) (by rw [hdir]; simpa using hside) (f := (slabOf c t0 t1 n0 n1 n2 θ).back) (by rw [hdir]; rfl) (by rw [hdir]; simpa [mediaAt] using hback)
    (step3_back_reflect hs.three hS.running _ hdir hsurf hmat) (step3_back_transmit hs.three hS.running _ hdir hsurf hmat) (step3_absorb hs.three hS.running _ (Or.inr ⟨hdir, hsurf, hmat⟩))
  refine ⟨sR, sT, sA, hb, ?_, ?_, ?_⟩
  · simp only [hdir] at hg hR hz'
    rw [if_neg (by norm_num)] at hR
    obtain ⟨y, r0, d0⟩ := sR
    simp only at hR hg hpos
    subst hR hpos
    refine pass_goes (θ := Real.pi - refrOf t0.isSome n0 n1 θ) (δ := 1) ?_ ?_ ?_ ?_ ?_ ?_ ?_ ?_ (by simpa using hg) ?_
    · rw [Real.cos_pi_sub, abs_neg, abs_of_pos hc]
    · rfl
    · rfl
    · rfl
    · rfl
    · rfl
    · exact hmat
    · exact hS.idx
    refine Or.inl ⟨rfl, ?_⟩
    rw [if_pos rfl, hz']
    have := Real.cos_le_one (refrOf t0.isSome n0 n1 θ)
    have := hs.apart
    push_cast
    norm_num at *
    linarith
  · intro ht
    obtain ⟨a0, a1, hy, -, -⟩ := hT ht
    rw [if_neg hne] at hy
    refine ⟨by rw [hy], by rw [hy], by rw [hy], by rw [hy]; exact hS.idx, ?_, ?_⟩ <;> rw [hy] <;> simp only [Ray.isRefl, Ray.isTrns]
    · exact decide_eq_true a1.le
    · exact decide_eq_false (not_lt.mpr a1.le)
  · refine ⟨by rw [hA]; rfl, by rw [hA]; rfl, by rw [hA]; rfl, by rw [hA]; simp [Ray.interact, hsurf], by rw [hA]; simp [Ray.interact, hdir]⟩

end slab

/-! ## Helper lemmas: quantities that are averaged over the rays -/

theorem getD_le_sum {A : List ℝ} (h : ∀ a ∈ A, 0 ≤ a) (l : ℕ) : 0 ≤ A.getD l 0 ∧ A.getD l 0 ≤ A.sum := by
  by_cases hl : l < A.length
  · rw [List.getD_eq_getElem _ _ hl]
    exact ⟨h _ (List.getElem_mem hl), List.single_le_sum h _ (List.getElem_mem hl)⟩
  · rw [List.getD_eq_default _ _ (not_lt.mp hl)]
    exact ⟨le_refl _, List.sum_nonneg h⟩

theorem flatFace_ok {tab : Option Table} (h : SumToOne tab) (asin : ℂ → ℂ) (pol : Pol) (ni nj : ℂ) (side : ℤ) (θ : ℝ) :
    let f := faceOf asin pol tab ni nj side θ
    0 ≤ f.refl ∧ 0 ≤ f.trns ∧ f.refl + f.trns ≤ 1 ∧ (∀ l, 0 ≤ f.abs l ∧ f.abs l ≤ 1 - f.refl - f.trns) ∧
      ∀ (I : ℝ) (l : ℕ), (1 - f.refl - f.trns) * ((layersAt tab side θ).map fun a => I * a / (layersAt tab side θ).sum).getD l 0 = I * f.abs l := by
  cases tab with
  | none =>
    have := decideR_nonneg (if side = 1 then ni else nj) (if side = 1 then nj else ni) θ (asin ((if side = 1 then ni else nj) / (if side = 1 then nj else ni) * Complex.sin (θ : ℂ))) pol
    simp only [faceOf, layersAt]
    refine ⟨le_min zero_le_one this, sub_nonneg.mpr (min_le_left _ _), by linarith, fun l => ⟨le_refl _, by linarith⟩, fun I l => by simp⟩
  | some t =>
    obtain ⟨a, b, d, e⟩ := h t rfl side θ
    have hs : 1 - (t side θ).1 - (t side θ).2.1 = (t side θ).2.2.sum := by linarith
    have hsum := List.sum_nonneg d
    simp only [faceOf, layersAt]
    refine ⟨a, b, by linarith, fun l => by rw [hs]; exact getD_le_sum d l, fun I l => ?_⟩
    have hz : I * 0 / (t side θ).2.2.sum = 0 := by simp
    rw [hs, ← hz, List.getD_map, hz]
    by_cases h0 : (t side θ).2.2.sum = 0
    · have := getD_le_sum d l
      rw [h0] at this
      rw [h0, le_antisymm this.2 this.1]; simp
    · field_simp

/-- A combination of what is recorded for a ray: absorbed in the slab, reflected, transmitted, absorbed in layer `l` of surface `j`. -/
noncomputable def tally (e cR cT cI : ℝ) (j l : ℕ) (y : Ray) : ℝ :=
  e * y.A 1 + cR * (if y.isRefl then y.I else 0) + cT * (if y.isTrns then y.I else 0) + cI * (if y.aIdx = (j : ℤ) + 1 then y.aInt.getD l 0 else 0)

theorem tally_gone {e cR cT cI : ℝ} {j l : ℕ} {y : Ray} (hθ : y.θ = none) (hi : y.aIdx = 0) : tally e cR cT cI j l y = e * y.A 1 := by
  have : ¬ (0 : ℤ) = (j : ℤ) + 1 := by omega
  simp [tally, Ray.isRefl, Ray.isTrns, hθ, hi, this]

theorem tally_leaves {e cR cT cI : ℝ} {j l : ℕ} {up : Bool} {y : Ray} {s : StackRay} (h : Leaves up y s) : tally e cR cT cI j l s.ray = e * y.A 1 + (if up then cR else cT) * y.I := by
  have : ¬ (0 : ℤ) = (j : ℤ) + 1 := by omega
  obtain ⟨-, h2, h3, h4, h5, h6⟩ := h
  cases up <;> simp [tally, h2, h3, h4, h5, h6, this]

theorem tally_caught {e cR cT cI : ℝ} {j l : ℕ} {k : ℕ} {A : List ℝ} {y : Ray} {s : StackRay} (h : Caught k A y s) :
    tally e cR cT cI j l s.ray = e * y.A 1 + cI * (if k = j then (A.map fun a => y.I * a / A.sum).getD l 0 else 0) := by
  obtain ⟨-, h2, h3, h4, h5⟩ := h
  have : ((k : ℤ) + 1 = (j : ℤ) + 1) ↔ k = j := by omega
  simp [tally, Ray.isRefl, Ray.isTrns, h2, h3, h4, h5, this]

theorem branchesStack_stop {c : RTStack} {n : ℕ} {g : StackRes → ℝ} {s : StackRay} (h : s.ray.stop = true) : ∀ (K : ℕ) (V : ℕ → Visit), branchesStack c n g K V s = g (.next s)
  | 0, _ => rfl
  | K + 1, V => by rw [branchesStack]; simp [h]

/-- Contributions of transmission and absorption at a surface. -/
theorem face_terms {tab : Option Table} (h : SumToOne tab) {asin : ℂ → ℂ} {pol : Pol} {ni nj : ℂ} {side : ℤ} {θ : ℝ} {f : Face ℕ} (hf : faceOf asin pol tab ni nj side θ = f)
    {e cR cT cI : ℝ} {j l : ℕ} {k : ℕ} {y : Ray} {sA : StackRay} (hA : Caught k (layersAt tab side θ) y sA) :
    (1 - f.refl - f.trns) * tally e cR cT cI j l sA.ray = (1 - f.refl - f.trns) * (e * y.A 1) + y.I * (cI * (if k = j then f.abs l else 0)) := by
  have := (flatFace_ok h asin pol ni nj side θ).2.2.2.2 y.I l
  rw [hf] at this
  rw [tally_caught hA, mul_add]
  by_cases hk : k = j
  · rw [if_pos hk, if_pos hk]
    linear_combination cI * this
  · rw [if_neg hk, if_neg hk]; ring

/-- Expected contributions of one unit of light on its way down, on its way up, and before the first surface. -/
structure Potential (sl : Slab ℕ ℕ) (e cR cT cI : ℝ) (j l : ℕ) (xD xU xS : ℝ) : Prop where
  down : xD = cT * sl.rear.trns + cI * (if 1 = j then sl.rear.abs l else 0) + sl.rear.refl * ((1 - sl.pass) * e + sl.pass * xU)
  up : xU = cR * sl.back.trns + cI * (if 0 = j then sl.back.abs l else 0) + sl.back.refl * ((1 - sl.pass) * e + sl.pass * xD)
  start : xS = cR * sl.front.refl + cI * (if 0 = j then sl.front.abs l else 0) + sl.front.trns * ((1 - sl.pass) * e + sl.pass * xD)
  rangeD : 0 ≤ xD ∧ xD ≤ 1
  rangeU : 0 ≤ xU ∧ xU ≤ 1
  rangeS : 0 ≤ xS ∧ xS ≤ 1

/-- A surface that neither creates nor destroys light. -/
def Conserves (f : Face ℕ) : Prop := 0 ≤ f.refl ∧ 0 ≤ f.trns ∧ f.refl + f.trns ≤ 1 ∧ ∀ l, 0 ≤ f.abs l ∧ f.abs l ≤ 1 - f.refl - f.trns

theorem face_gain {f : Face ℕ} (hf : Conserves f) {c1 cI : ℝ} (h1 : 0 ≤ c1 ∧ c1 ≤ 1) (hI : 0 ≤ cI ∧ cI ≤ 1) (b : Prop) [Decidable b] (l : ℕ) :
    0 ≤ c1 * f.trns + cI * (if b then f.abs l else 0) ∧ c1 * f.trns + cI * (if b then f.abs l else 0) ≤ 1 - f.refl := by
  obtain ⟨a1, a2, a3, a4⟩ := hf
  have hx : 0 ≤ (if b then f.abs l else 0) ∧ (if b then f.abs l else 0) ≤ 1 - f.refl - f.trns := by
    split_ifs
    · exact a4 l
    · exact ⟨le_refl _, by linarith⟩
  generalize (if b then f.abs l else 0) = x at hx
  have b1 := mul_le_of_le_one_left a2 h1.2
  have b2 := mul_le_of_le_one_left hx.1 hI.2
  exact ⟨add_nonneg (mul_nonneg h1.1 a2) (mul_nonneg hI.1 hx.1), by linarith⟩

/-- Solution of the two equations for light inside the slab. -/
theorem solve_inside {r1 rb P c1 cb d : ℝ} (hr1 : 0 ≤ r1 ∧ r1 ≤ 1) (hrb : 0 ≤ rb ∧ rb ≤ 1) (hP : 0 ≤ P ∧ P ≤ 1) (hde : 0 ≤ d ∧ d ≤ 1 - P) (hc1 : 0 ≤ c1 ∧ c1 ≤ 1 - r1) (hcb : 0 ≤ cb ∧ cb ≤ 1 - rb) :
    let x := (c1 + r1 * (d + P * (cb + rb * (d)))) * (1 / (1 - P ^ 2 * r1 * rb))
    x = c1 + r1 * (d + P * (cb + rb * (d + P * x))) ∧ 0 ≤ x ∧ x ≤ 1 := by
  intro x
  have hP2 : P ^ 2 ≤ 1 := pow_le_one₀ hP.1 hP.2
  have hq1 : P ^ 2 * r1 * rb ≤ 1 := by
    have := mul_le_one₀ hP2 hr1.1 hr1.2
    exact mul_le_one₀ this hrb.1 hrb.2
  obtain ⟨hd, hd1⟩ := hde
  have hnum0 : 0 ≤ c1 + r1 * (d + P * (cb + rb * d)) := by
    have a1 := mul_nonneg hrb.1 hd
    have a2 := mul_nonneg hP.1 (add_nonneg hcb.1 a1)
    have a3 := mul_nonneg hr1.1 (add_nonneg hd a2)
    linarith [hc1.1]
  have hnum1 : c1 + r1 * (d + P * (cb + rb * d)) ≤ 1 - P ^ 2 * r1 * rb := by
    have a1 := mul_le_mul_of_nonneg_left hd1 hrb.1
    have a2 := mul_le_mul_of_nonneg_left (show cb + rb * d ≤ 1 - rb * P by linarith [hcb.2]) hP.1
    have a3 := mul_le_mul_of_nonneg_left (show d + P * (cb + rb * d) ≤ 1 - P ^ 2 * rb by linarith) hr1.1
    linarith [hc1.2]
  rcases eq_or_lt_of_le hq1 with hq | hq
  · have hx : x = 0 := by simp only [x, hq]; simp
    have hn : c1 + r1 * (d + P * (cb + rb * d)) = 0 := le_antisymm (by linarith) hnum0
    rw [hx]
    refine ⟨by linarith, le_refl _, zero_le_one⟩
  · have hpos : 0 < 1 - P ^ 2 * r1 * rb := by linarith
    refine ⟨?_, mul_nonneg hnum0 (by positivity), ?_⟩
    · have : x * (1 - P ^ 2 * r1 * rb) = c1 + r1 * (d + P * (cb + rb * d)) := by
        simp only [x]; rw [mul_assoc, one_div, inv_mul_cancel₀ hpos.ne', mul_one]
      linear_combination this
    · simp only [x]
      rw [mul_one_div, div_le_one hpos]
      exact hnum1

theorem potential_exists {sl : Slab ℕ ℕ} (hf : Conserves sl.front) (hr : Conserves sl.rear) (hb : Conserves sl.back) (hP : 0 ≤ sl.pass ∧ sl.pass ≤ 1) {e cR cT cI : ℝ} (he : 0 ≤ e ∧ e ≤ 1) (hcR : 0 ≤ cR ∧ cR ≤ 1)
    (hcT : 0 ≤ cT ∧ cT ≤ 1) (hcI : 0 ≤ cI ∧ cI ≤ 1) (j l : ℕ) :
    let xD := (cT * sl.rear.trns + cI * (if 1 = j then sl.rear.abs l else 0)
      + sl.rear.refl * ((1 - sl.pass) * e + sl.pass * (cR * sl.back.trns + cI * (if 0 = j then sl.back.abs l else 0) + sl.back.refl * ((1 - sl.pass) * e)))) * sl.trips
    Potential sl e cR cT cI j l xD (cR * sl.back.trns + cI * (if 0 = j then sl.back.abs l else 0) + sl.back.refl * ((1 - sl.pass) * e + sl.pass * xD))
      (cR * sl.front.refl + cI * (if 0 = j then sl.front.abs l else 0) + sl.front.trns * ((1 - sl.pass) * e + sl.pass * xD)) := by
  intro xD
  have g1 := face_gain hr hcT hcI (1 = j) l
  have g2 := face_gain hb hcR hcI (0 = j) l
  have hr1 : sl.rear.refl ≤ 1 := by linarith [hr.2.1, hr.2.2.1]
  have hb1 : sl.back.refl ≤ 1 := by linarith [hb.2.1, hb.2.2.1]
  obtain ⟨q1, q2, q3⟩ := solve_inside ⟨hr.1, hr1⟩ ⟨hb.1, hb1⟩ hP (d := (1 - sl.pass) * e)
    ⟨mul_nonneg (by linarith [hP.2]) he.1, mul_le_of_le_one_right (by linarith [hP.2]) he.2⟩ g1 g2
  have hd : 0 ≤ (1 - sl.pass) * e + sl.pass * xD := add_nonneg (mul_nonneg (by linarith [hP.2]) he.1) (mul_nonneg hP.1 q2)
  have hd1 : (1 - sl.pass) * e + sl.pass * xD ≤ 1 := by
    have a := mul_le_of_le_one_right (show 0 ≤ 1 - sl.pass by linarith [hP.2]) he.2
    have b := mul_le_of_le_one_right hP.1 q3
    change sl.pass * xD ≤ _ at b
    linarith
  refine ⟨q1, rfl, rfl, ⟨q2, q3⟩, ⟨?_, ?_⟩, ⟨?_, ?_⟩⟩
  · exact add_nonneg g2.1 (mul_nonneg hb.1 hd)
  · have := mul_le_of_le_one_right hb.1 hd1
    linarith [g2.2]
  · have hx : 0 ≤ (if 0 = j then sl.front.abs l else 0) := by
      split_ifs
      · exact (hf.2.2.2 l).1
      · exact le_refl _
    have a := mul_nonneg hcR.1 hf.1
    have b := mul_nonneg hcI.1 hx
    have c := mul_nonneg hf.2.1 hd
    linarith
  · have hx : 0 ≤ (if 0 = j then sl.front.abs l else 0) ∧ (if 0 = j then sl.front.abs l else 0) ≤ 1 - sl.front.refl - sl.front.trns := by
      split_ifs
      · exact hf.2.2.2 l
      · exact ⟨le_refl _, by linarith [hf.2.2.1]⟩
    have a := mul_le_of_le_one_left hf.1 hcR.2
    have b := mul_le_of_le_one_left hx.1 hcI.2
    have c := mul_le_of_le_one_right hf.2.1 hd1
    linarith [hx.2]

section slab
variable {c : RTStack} {cell0 cell1 : Cell} {t0 t1 : Option Table} {n0 n1 n2 : ℂ} (hs : RTSlab c cell0 cell1 t0 t1 n0 n1 n2) {θ : ℝ} (h0 : 0 ≤ θ) (h1 : θ < Real.pi / 2)
  (hin : sinRefr t0.isSome n0 n1 θ < 1)

include hs h0 h1 hin in
theorem slab_pass_le : (slabOf c t0 t1 n0 n1 n2 θ).pass ≤ 1 := by
  obtain ⟨hr0, hr1⟩ := refrOf_range hs.re.1 hs.re.2.1 h0 h1 hin
  have hc := Going.cos_pos hr0 hr1
  have := div_nonneg (mul_nonneg hs.alpha hs.width) hc.le
  simp only [slabOf]
  rw [Real.exp_le_one_iff]
  linarith

variable {n : ℕ} (hn : 3 ≤ n)
  (hrear : (slabOf c t0 t1 n0 n1 n2 θ).rear.trns = 0 ∨ sinRefr t1.isSome n1 n2 (refrOf t0.isSome n0 n1 θ) < 1)
  (hback : (slabOf c t0 t1 n0 n1 n2 θ).back.trns = 0 ∨ sinRefr t0.isSome n1 n0 (refrOf t0.isSome n0 n1 θ) < 1)
  (ht0 : SumToOne t0) (ht1 : SumToOne t1) {e cR cT cI : ℝ} {j l : ℕ} {xD xU xS : ℝ} (pot : Potential (slabOf c t0 t1 n0 n1 n2 θ) e cR cT cI j l xD xU xS) (he : 0 ≤ e ∧ e ≤ 1)
  {g : StackRes → ℝ} (hg1 : ∀ s : StackRay, s.ray.stop = true → g (.next s) = tally e cR cT cI j l s.ray)
include hs h0 h1 hin hn hrear hback ht0 ht1 pot he hg1

theorem slab_upper (hg0 : ∀ s : StackRay, s.ray.stop = false → g (.next s) = 0) :
    ∀ (K : ℕ) (V : ℕ → Visit), AllFlat cell0 cell1 V → ∀ s : StackRay, 0 ≤ s.ray.I → 0 ≤ s.ray.A 1 →
      (InSlab cell0 cell1 (refrOf t0.isSome n0 n1 θ) 1 s → branchesStack c n g K V s ≤ e * s.ray.A 1 + s.ray.I * xD) ∧
      (InSlab cell0 cell1 (refrOf t0.isSome n0 n1 θ) (-1) s → branchesStack c n g K V s ≤ e * s.ray.A 1 + s.ray.I * xU) := by
  intro K
  have hP0 : 0 ≤ (slabOf c t0 t1 n0 n1 n2 θ).pass := (Real.exp_pos _).le
  have hP1 := slab_pass_le hs h0 h1 hin
  have hth := hs.thresh
  induction K with
  | zero =>
    intro V hV s hI hA
    refine ⟨fun h => ?_, fun h => ?_⟩
    · rw [show branchesStack c n g 0 V s = g (.next s) from rfl, hg0 s h.running]
      exact add_nonneg (mul_nonneg he.1 hA) (mul_nonneg hI pot.rangeD.1)
    · rw [show branchesStack c n g 0 V s = g (.next s) from rfl, hg0 s h.running]
      exact add_nonneg (mul_nonneg he.1 hA) (mul_nonneg hI pot.rangeU.1)
  | succ K ih =>
    intro V hV s hI hA
    have hV' : AllFlat cell0 cell1 fun i => V (i + 1) := fun i => hV (i + 1)
    have hIP := mul_nonneg hI hP0
    have hIP1 := mul_le_mul_of_nonneg_left hP1 hI
    refine ⟨fun h => ?_, fun h => ?_⟩
    · obtain ⟨sR, sT, sA, hb, ⟨hRI, hRA, hR⟩, hT, hA'⟩ := slab_rear hs h0 h1 hin hn hrear g K hV h
      have hf := flatFace_ok ht1 c.asin c.pol n1 n2 1 (refrOf t0.isSome n0 n1 θ)
      have hRb : branchesStack c n g K (fun i => V (i + 1)) sR ≤ e * (s.ray.A 1 + (s.ray.I - s.ray.I * (slabOf c t0 t1 n0 n1 n2 θ).pass)) + s.ray.I * (slabOf c t0 t1 n0 n1 n2 θ).pass * xU := by
        rw [← hRA, ← hRI]
        rcases hR with ⟨r1, r2, r3, r4⟩ | ⟨r1, r2⟩
        · rw [branchesStack_stop r1, hg1 sR r1, tally_gone r3 r4]
          have := mul_nonneg hIP pot.rangeU.1
          rw [hRI]; linarith
        · exact (ih _ hV' sR (by rw [hRI]; exact hIP) (by rw [hRA]; linarith)).2 r2
      have hTb : (slabOf c t0 t1 n0 n1 n2 θ).rear.trns * branchesStack c n g K (fun i => V (i + 1)) sT = (slabOf c t0 t1 n0 n1 n2 θ).rear.trns * (e * s.ray.A 1 + cT * s.ray.I) := by
        by_cases ht : (slabOf c t0 t1 n0 n1 n2 θ).rear.trns = 0
        · rw [ht, zero_mul, zero_mul]
        · have hL := hT ht
          rw [branchesStack_stop hL.1, hg1 sT hL.1, tally_leaves hL]
          rfl
      have hAb := face_terms ht1 (f := (slabOf c t0 t1 n0 n1 n2 θ).rear) (asin := c.asin) (pol := c.pol) (ni := n1) (nj := n2) (side := 1) (θ := refrOf t0.isSome n0 n1 θ) rfl (e := e) (cR := cR) (cT := cT) (cI := cI) (j := j) (l := l) hA'
      rw [branchesStack_stop hA'.1, hg1 sA hA'.1] at hb
      have hRm := mul_le_mul_of_nonneg_left hRb (show 0 ≤ (slabOf c t0 t1 n0 n1 n2 θ).rear.refl from hf.1)
      linear_combination hb + hRm + hTb + hAb - s.ray.I * pot.down
    · obtain ⟨sR, sT, sA, hb, ⟨hRI, hRA, hR⟩, hT, hA'⟩ := slab_back hs h0 h1 hin hn hback g K hV h
      have hf := flatFace_ok ht0 c.asin c.pol n0 n1 (-1) (refrOf t0.isSome n0 n1 θ)
      have hRb : branchesStack c n g K (fun i => V (i + 1)) sR ≤ e * (s.ray.A 1 + (s.ray.I - s.ray.I * (slabOf c t0 t1 n0 n1 n2 θ).pass)) + s.ray.I * (slabOf c t0 t1 n0 n1 n2 θ).pass * xD := by
        rw [← hRA, ← hRI]
        rcases hR with ⟨r1, r2, r3, r4⟩ | ⟨r1, r2⟩
        · rw [branchesStack_stop r1, hg1 sR r1, tally_gone r3 r4]
          have := mul_nonneg hIP pot.rangeD.1
          rw [hRI]; linarith
        · exact (ih _ hV' sR (by rw [hRI]; exact hIP) (by rw [hRA]; linarith)).1 r2
      have hTb : (slabOf c t0 t1 n0 n1 n2 θ).back.trns * branchesStack c n g K (fun i => V (i + 1)) sT = (slabOf c t0 t1 n0 n1 n2 θ).back.trns * (e * s.ray.A 1 + cR * s.ray.I) := by
        by_cases ht : (slabOf c t0 t1 n0 n1 n2 θ).back.trns = 0
        · rw [ht, zero_mul, zero_mul]
        · have hL := hT ht
          rw [branchesStack_stop hL.1, hg1 sT hL.1, tally_leaves hL]
          rfl
      have hAb := face_terms ht0 (f := (slabOf c t0 t1 n0 n1 n2 θ).back) (asin := c.asin) (pol := c.pol) (ni := n0) (nj := n1) (side := (-1)) (θ := refrOf t0.isSome n0 n1 θ) rfl (e := e) (cR := cR) (cT := cT) (cI := cI) (j := j) (l := l) hA'
      rw [branchesStack_stop hA'.1, hg1 sA hA'.1] at hb
      have hRm := mul_le_mul_of_nonneg_left hRb (show 0 ≤ (slabOf c t0 t1 n0 n1 n2 θ).back.refl from hf.1)
      linear_combination hb + hRm + hTb + hAb - s.ray.I * pot.up

theorem slab_lower (hg0 : ∀ s : StackRay, s.ray.stop = false → g (.next s) = 1) :
    ∀ (K : ℕ) (V : ℕ → Visit), AllFlat cell0 cell1 V → ∀ s : StackRay, 0 ≤ s.ray.I → 0 ≤ s.ray.A 1 → s.ray.A 1 + s.ray.I ≤ 1 →
      (InSlab cell0 cell1 (refrOf t0.isSome n0 n1 θ) 1 s → e * s.ray.A 1 + s.ray.I * xD - c.S.thresh ≤ branchesStack c n g K V s) ∧
      (InSlab cell0 cell1 (refrOf t0.isSome n0 n1 θ) (-1) s → e * s.ray.A 1 + s.ray.I * xU - c.S.thresh ≤ branchesStack c n g K V s) := by
  intro K
  have hP0 : 0 ≤ (slabOf c t0 t1 n0 n1 n2 θ).pass := (Real.exp_pos _).le
  have hP1 := slab_pass_le hs h0 h1 hin
  have hth := hs.thresh
  induction K with
  | zero =>
    intro V hV s hI hA hAI
    refine ⟨fun h => ?_, fun h => ?_⟩
    · rw [show branchesStack c n g 0 V s = g (.next s) from rfl, hg0 s h.running]
      have a := mul_le_mul_of_nonneg_right he.2 hA
      have b := mul_le_mul_of_nonneg_left pot.rangeD.2 hI
      linarith
    · rw [show branchesStack c n g 0 V s = g (.next s) from rfl, hg0 s h.running]
      have a := mul_le_mul_of_nonneg_right he.2 hA
      have b := mul_le_mul_of_nonneg_left pot.rangeU.2 hI
      linarith
  | succ K ih =>
    intro V hV s hI hA hAI
    have hV' : AllFlat cell0 cell1 fun i => V (i + 1) := fun i => hV (i + 1)
    have hIP := mul_nonneg hI hP0
    have hIP1 := mul_le_mul_of_nonneg_left hP1 hI
    refine ⟨fun h => ?_, fun h => ?_⟩
    · obtain ⟨sR, sT, sA, hb, ⟨hRI, hRA, hR⟩, hT, hA'⟩ := slab_rear hs h0 h1 hin hn hrear g K hV h
      have hf := flatFace_ok ht1 c.asin c.pol n1 n2 1 (refrOf t0.isSome n0 n1 θ)
      have hRb : e * (s.ray.A 1 + (s.ray.I - s.ray.I * (slabOf c t0 t1 n0 n1 n2 θ).pass)) + s.ray.I * (slabOf c t0 t1 n0 n1 n2 θ).pass * xU - c.S.thresh ≤ branchesStack c n g K (fun i => V (i + 1)) sR := by
        rw [← hRA, ← hRI]
        rcases hR with ⟨r1, r2, r3, r4⟩ | ⟨r1, r2⟩
        · rw [branchesStack_stop r1, hg1 sR r1, tally_gone r3 r4]
          have := mul_le_mul_of_nonneg_left pot.rangeU.2 hIP
          rw [hRI]; linarith
        · exact (ih _ hV' sR (by rw [hRI]; exact hIP) (by rw [hRA]; linarith) (by rw [hRA, hRI]; linarith)).2 r2
      have hTb : (slabOf c t0 t1 n0 n1 n2 θ).rear.trns * branchesStack c n g K (fun i => V (i + 1)) sT = (slabOf c t0 t1 n0 n1 n2 θ).rear.trns * (e * s.ray.A 1 + cT * s.ray.I) := by
        by_cases ht : (slabOf c t0 t1 n0 n1 n2 θ).rear.trns = 0
        · rw [ht, zero_mul, zero_mul]
        · have hL := hT ht
          rw [branchesStack_stop hL.1, hg1 sT hL.1, tally_leaves hL]
          rfl
      have hAb := face_terms ht1 (f := (slabOf c t0 t1 n0 n1 n2 θ).rear) (asin := c.asin) (pol := c.pol) (ni := n1) (nj := n2) (side := 1) (θ := refrOf t0.isSome n0 n1 θ) rfl (e := e) (cR := cR) (cT := cT) (cI := cI) (j := j) (l := l) hA'
      rw [branchesStack_stop hA'.1, hg1 sA hA'.1] at hb
      have hRm := mul_le_mul_of_nonneg_left hRb (show 0 ≤ (slabOf c t0 t1 n0 n1 n2 θ).rear.refl from hf.1)
      have hr1 : (slabOf c t0 t1 n0 n1 n2 θ).rear.refl * c.S.thresh ≤ c.S.thresh := mul_le_of_le_one_left hth (by
        have a := hf.2.1
        have b := hf.2.2.1
        change (slabOf c t0 t1 n0 n1 n2 θ).rear.refl ≤ 1
        change 0 ≤ (slabOf c t0 t1 n0 n1 n2 θ).rear.trns at a
        change (slabOf c t0 t1 n0 n1 n2 θ).rear.refl + (slabOf c t0 t1 n0 n1 n2 θ).rear.trns ≤ 1 at b
        linarith)
      linear_combination -hb + hRm - hTb - hAb + s.ray.I * pot.down + hr1
    · obtain ⟨sR, sT, sA, hb, ⟨hRI, hRA, hR⟩, hT, hA'⟩ := slab_back hs h0 h1 hin hn hback g K hV h
      have hf := flatFace_ok ht0 c.asin c.pol n0 n1 (-1) (refrOf t0.isSome n0 n1 θ)
      have hRb : e * (s.ray.A 1 + (s.ray.I - s.ray.I * (slabOf c t0 t1 n0 n1 n2 θ).pass)) + s.ray.I * (slabOf c t0 t1 n0 n1 n2 θ).pass * xD - c.S.thresh ≤ branchesStack c n g K (fun i => V (i + 1)) sR := by
        rw [← hRA, ← hRI]
        rcases hR with ⟨r1, r2, r3, r4⟩ | ⟨r1, r2⟩
        · rw [branchesStack_stop r1, hg1 sR r1, tally_gone r3 r4]
          have := mul_le_mul_of_nonneg_left pot.rangeD.2 hIP
          rw [hRI]; linarith
        · exact (ih _ hV' sR (by rw [hRI]; exact hIP) (by rw [hRA]; linarith) (by rw [hRA, hRI]; linarith)).1 r2
      have hTb : (slabOf c t0 t1 n0 n1 n2 θ).back.trns * branchesStack c n g K (fun i => V (i + 1)) sT = (slabOf c t0 t1 n0 n1 n2 θ).back.trns * (e * s.ray.A 1 + cR * s.ray.I) := by
        by_cases ht : (slabOf c t0 t1 n0 n1 n2 θ).back.trns = 0
        · rw [ht, zero_mul, zero_mul]
        · have hL := hT ht
          rw [branchesStack_stop hL.1, hg1 sT hL.1, tally_leaves hL]
          rfl
      have hAb := face_terms ht0 (f := (slabOf c t0 t1 n0 n1 n2 θ).back) (asin := c.asin) (pol := c.pol) (ni := n0) (nj := n1) (side := (-1)) (θ := refrOf t0.isSome n0 n1 θ) rfl (e := e) (cR := cR) (cT := cT) (cI := cI) (j := j) (l := l) hA'
      rw [branchesStack_stop hA'.1, hg1 sA hA'.1] at hb
      have hRm := mul_le_mul_of_nonneg_left hRb (show 0 ≤ (slabOf c t0 t1 n0 n1 n2 θ).back.refl from hf.1)
      have hr1 : (slabOf c t0 t1 n0 n1 n2 θ).back.refl * c.S.thresh ≤ c.S.thresh := mul_le_of_le_one_left hth (by
        have a := hf.2.1
        have b := hf.2.2.1
        change (slabOf c t0 t1 n0 n1 n2 θ).back.refl ≤ 1
        change 0 ≤ (slabOf c t0 t1 n0 n1 n2 θ).back.trns at a
        change (slabOf c t0 t1 n0 n1 n2 θ).back.refl + (slabOf c t0 t1 n0 n1 n2 θ).back.trns ≤ 1 at b
        linarith)
      linear_combination -hb + hRm - hTb - hAb + s.ray.I * pot.up + hr1


/-- Before the first surface. -/
theorem slab_start {K : ℕ} {V : ℕ → Visit} (hV : AllFlat cell0 cell1 V) {s : StackRay} (hrun : s.ray.stop = false) (hdir : s.ray.dir = 1) (hsurf : s.ray.surf = 0)
    (hmat : s.ray.mat = 0) (hidx : s.ray.aIdx = 0) (hI : s.ray.I = 1) (hA : s.ray.A 1 = 0) (hgo : Going 1 θ s.d) {r : V3} (hr : s.r = some r) (hz : cell0.zcov < r.z) :
    ((∀ s : StackRay, s.ray.stop = false → g (.next s) = 0) → branchesStack c n g K V s ≤ xS) ∧
    ((∀ s : StackRay, s.ray.stop = false → g (.next s) = 1) → xS - c.S.thresh ≤ branchesStack c n g K V s) := by
  have hP0 : 0 ≤ (slabOf c t0 t1 n0 n1 n2 θ).pass := (Real.exp_pos _).le
  have hP1 := slab_pass_le hs h0 h1 hin
  have hth := hs.thresh
  cases K with
  | zero =>
    refine ⟨fun hg0 => ?_, fun hg0 => ?_⟩
    · rw [show branchesStack c n g 0 V s = g (.next s) from rfl, hg0 s hrun]
      exact pot.rangeS.1
    · rw [show branchesStack c n g 0 V s = g (.next s) from rfl, hg0 s hrun]
      linarith [pot.rangeS.2]
  | succ K =>
    have hV' : AllFlat cell0 cell1 fun i => V (i + 1) := fun i => hV (i + 1)
    obtain ⟨sR, sT, sA, hb, hR, hT, hA'⟩ := slab_front hs h0 h1 hin hn g K hV hrun hdir hsurf hmat hidx hgo hr hz
    have hf := flatFace_ok ht0 c.asin c.pol n0 n1 1 θ
    have hRb : branchesStack c n g K (fun i => V (i + 1)) sR = cR := by
      rw [branchesStack_stop hR.1, hg1 sR hR.1, tally_leaves hR, hA, hI]; simp
    have hAb := face_terms ht0 (f := (slabOf c t0 t1 n0 n1 n2 θ).front) (asin := c.asin) (pol := c.pol) (ni := n0) (nj := n1) (side := 1) (θ := θ) rfl (e := e) (cR := cR) (cT := cT) (cI := cI) (j := j) (l := l) hA'
    rw [branchesStack_stop hA'.1, hg1 sA hA'.1, hRb] at hb
    rw [hA, hI] at hAb
    have hTn : 0 ≤ (slabOf c t0 t1 n0 n1 n2 θ).front.trns := hf.2.1
    refine ⟨fun hg0 => ?_, fun hg0 => ?_⟩
    · have hTb : (slabOf c t0 t1 n0 n1 n2 θ).front.trns * branchesStack c n g K (fun i => V (i + 1)) sT
          ≤ (slabOf c t0 t1 n0 n1 n2 θ).front.trns * ((1 - (slabOf c t0 t1 n0 n1 n2 θ).pass) * e + (slabOf c t0 t1 n0 n1 n2 θ).pass * xD) := by
        by_cases ht : (slabOf c t0 t1 n0 n1 n2 θ).front.trns = 0
        · rw [ht, zero_mul, zero_mul]
        · refine mul_le_mul_of_nonneg_left ?_ hTn
          obtain ⟨q1, q2, q3⟩ := hT ht
          rw [hI, one_mul] at q1
          rw [hI, hA, one_mul, zero_add] at q2
          rcases q3 with ⟨r1, r2, r3, r4⟩ | ⟨r1, r2⟩
          · rw [branchesStack_stop r1, hg1 sT r1, tally_gone r3 r4, q2]
            have := mul_nonneg hP0 pot.rangeD.1
            linarith
          · have := (slab_upper hs h0 h1 hin hn hrear hback ht0 ht1 pot he hg1 hg0 K _ hV' sT (by rw [q1]; exact hP0) (by rw [q2]; linarith)).1 r2
            rw [q1, q2] at this
            linarith
      linear_combination hb + hTb + hAb - pot.start
    · have hTb : (slabOf c t0 t1 n0 n1 n2 θ).front.trns * ((1 - (slabOf c t0 t1 n0 n1 n2 θ).pass) * e + (slabOf c t0 t1 n0 n1 n2 θ).pass * xD - c.S.thresh)
          ≤ (slabOf c t0 t1 n0 n1 n2 θ).front.trns * branchesStack c n g K (fun i => V (i + 1)) sT := by
        by_cases ht : (slabOf c t0 t1 n0 n1 n2 θ).front.trns = 0
        · rw [ht, zero_mul, zero_mul]
        · refine mul_le_mul_of_nonneg_left ?_ hTn
          obtain ⟨q1, q2, q3⟩ := hT ht
          rw [hI, one_mul] at q1
          rw [hI, hA, one_mul, zero_add] at q2
          rcases q3 with ⟨r1, r2, r3, r4⟩ | ⟨r1, r2⟩
          · rw [branchesStack_stop r1, hg1 sT r1, tally_gone r3 r4, q2]
            rw [hI, one_mul] at r2
            have := mul_le_mul_of_nonneg_left pot.rangeD.2 hP0
            linarith
          · have := (slab_lower hs h0 h1 hin hn hrear hback ht0 ht1 pot he hg1 hg0 K _ hV' sT (by rw [q1]; exact hP0) (by rw [q2]; linarith) (by rw [q1, q2]; linarith)).1 r2
            rw [q1, q2] at this
            linarith
      have hT1 : (slabOf c t0 t1 n0 n1 n2 θ).front.trns * c.S.thresh ≤ c.S.thresh := mul_le_of_le_one_left hth (by
        have a := hf.1
        have b := hf.2.2.1
        change 0 ≤ (slabOf c t0 t1 n0 n1 n2 θ).front.refl at a
        change (slabOf c t0 t1 n0 n1 n2 θ).front.refl + (slabOf c t0 t1 n0 n1 n2 θ).front.trns ≤ 1 at b
        linarith)
      linear_combination -hb + hTb - hAb + pot.start + hT1

end slab

section late
variable {c : RTStack} {cell0 cell1 : Cell} {t0 t1 : Option Table} {n0 n1 n2 : ℂ} (hs : RTSlab c cell0 cell1 t0 t1 n0 n1 n2) {θ : ℝ} (h0 : 0 ≤ θ) (h1 : θ < Real.pi / 2)
  (hin : sinRefr t0.isSome n0 n1 θ < 1) {n : ℕ} (hn : 3 ≤ n)
  (hrear : (slabOf c t0 t1 n0 n1 n2 θ).rear.trns = 0 ∨ sinRefr t1.isSome n1 n2 (refrOf t0.isSome n0 n1 θ) < 1)
  (hback : (slabOf c t0 t1 n0 n1 n2 θ).back.trns = 0 ∨ sinRefr t0.isSome n1 n0 (refrOf t0.isSome n0 n1 θ) < 1)
  (ht0 : SumToOne t0) (ht1 : SumToOne t1)
  {g : StackRes → ℝ} (hg1 : ∀ s : StackRay, s.ray.stop = true → g (.next s) = 0) (hg0 : ∀ s : StackRay, s.ray.stop = false → g (.next s) = 1)
include hs h0 h1 hin hn hrear hback hg1 hg0

/-- The branches of a ray inside the slab: only the reflected one goes on. -/
theorem late_step (K : ℕ) {V : ℕ → Visit} (hV : AllFlat cell0 cell1 V) {s : StackRay} :
    (InSlab cell0 cell1 (refrOf t0.isSome n0 n1 θ) 1 s → ∃ sR, Goes c.S.thresh cell0 cell1 (refrOf t0.isSome n0 n1 θ) (slabOf c t0 t1 n0 n1 n2 θ).pass (-1) s.ray sR ∧
      branchesStack c n g (K + 1) V s = (slabOf c t0 t1 n0 n1 n2 θ).rear.refl * branchesStack c n g K (fun i => V (i + 1)) sR) ∧
    (InSlab cell0 cell1 (refrOf t0.isSome n0 n1 θ) (-1) s → ∃ sR, Goes c.S.thresh cell0 cell1 (refrOf t0.isSome n0 n1 θ) (slabOf c t0 t1 n0 n1 n2 θ).pass 1 s.ray sR ∧
      branchesStack c n g (K + 1) V s = (slabOf c t0 t1 n0 n1 n2 θ).back.refl * branchesStack c n g K (fun i => V (i + 1)) sR) := by
  refine ⟨fun h => ?_, fun h => ?_⟩
  · obtain ⟨sR, sT, sA, hb, hR, hT, hA'⟩ := slab_rear hs h0 h1 hin hn hrear g K hV h
    refine ⟨sR, hR, ?_⟩
    have hTb : (slabOf c t0 t1 n0 n1 n2 θ).rear.trns * branchesStack c n g K (fun i => V (i + 1)) sT = 0 := by
      by_cases ht : (slabOf c t0 t1 n0 n1 n2 θ).rear.trns = 0
      · rw [ht, zero_mul]
      · rw [branchesStack_stop (hT ht).1, hg1 sT (hT ht).1, mul_zero]
    rw [branchesStack_stop hA'.1, hg1 sA hA'.1, hTb, mul_zero, add_zero, add_zero] at hb
    exact hb
  · obtain ⟨sR, sT, sA, hb, hR, hT, hA'⟩ := slab_back hs h0 h1 hin hn hback g K hV h
    refine ⟨sR, hR, ?_⟩
    have hTb : (slabOf c t0 t1 n0 n1 n2 θ).back.trns * branchesStack c n g K (fun i => V (i + 1)) sT = 0 := by
      by_cases ht : (slabOf c t0 t1 n0 n1 n2 θ).back.trns = 0
      · rw [ht, zero_mul]
      · rw [branchesStack_stop (hT ht).1, hg1 sT (hT ht).1, mul_zero]
    rw [branchesStack_stop hA'.1, hg1 sA hA'.1, hTb, mul_zero, add_zero, add_zero] at hb
    exact hb

/-- A ray that loses light at each pass is given up after finitely many passes. -/
theorem late_zero : ∀ (K : ℕ) (V : ℕ → Visit), AllFlat cell0 cell1 V → ∀ s : StackRay, c.S.thresh ≤ s.ray.I → s.ray.I * (slabOf c t0 t1 n0 n1 n2 θ).pass ^ K < c.S.thresh →
    (InSlab cell0 cell1 (refrOf t0.isSome n0 n1 θ) 1 s ∨ InSlab cell0 cell1 (refrOf t0.isSome n0 n1 θ) (-1) s) → branchesStack c n g K V s = 0 := by
  intro K
  induction K with
  | zero => intro V hV s hle hlt; rw [pow_zero, mul_one] at hlt; exact absurd hle (not_le.mpr hlt)
  | succ K ih =>
    intro V hV s hle hlt hin'
    have hV' : AllFlat cell0 cell1 fun i => V (i + 1) := fun i => hV (i + 1)
    have key : ∀ δ sR, (δ = 1 ∨ δ = -1) → Goes c.S.thresh cell0 cell1 (refrOf t0.isSome n0 n1 θ) (slabOf c t0 t1 n0 n1 n2 θ).pass δ s.ray sR → branchesStack c n g K (fun i => V (i + 1)) sR = 0 := by
      rintro δ sR hδ ⟨q1, -, ⟨r1, -⟩ | ⟨r1, r2⟩⟩
      · rw [branchesStack_stop r1, hg1 sR r1]
      · refine ih _ hV' sR (by rw [q1]; exact r1) (by rw [q1, mul_assoc, ← pow_succ']; exact hlt) ?_
        rcases hδ with rfl | rfl
        · exact Or.inl r2
        · exact Or.inr r2
    rcases hin' with h | h
    · obtain ⟨sR, hR, hb⟩ := (late_step hs h0 h1 hin hn hrear hback hg1 hg0 K hV).1 h
      rw [hb, key _ sR (Or.inr rfl) hR, mul_zero]
    · obtain ⟨sR, hR, hb⟩ := (late_step hs h0 h1 hin hn hrear hback hg1 hg0 K hV).2 h
      rw [hb, key _ sR (Or.inl rfl) hR, mul_zero]

include ht0 ht1

/-- Two more surfaces: the ray must be reflected at both. -/
theorem late_pow : ∀ (K : ℕ) (V : ℕ → Visit), AllFlat cell0 cell1 V → ∀ s : StackRay,
    (InSlab cell0 cell1 (refrOf t0.isSome n0 n1 θ) 1 s ∨ InSlab cell0 cell1 (refrOf t0.isSome n0 n1 θ) (-1) s) →
    branchesStack c n g K V s ≤ ((slabOf c t0 t1 n0 n1 n2 θ).rear.refl * (slabOf c t0 t1 n0 n1 n2 θ).back.refl) ^ (K / 2) := by
  have hf1 := flatFace_ok ht1 c.asin c.pol n1 n2 1 (refrOf t0.isSome n0 n1 θ)
  have hfb := flatFace_ok ht0 c.asin c.pol n0 n1 (-1) (refrOf t0.isSome n0 n1 θ)
  have r0 : 0 ≤ (slabOf c t0 t1 n0 n1 n2 θ).rear.refl := hf1.1
  have r1 : (slabOf c t0 t1 n0 n1 n2 θ).rear.refl ≤ 1 := by
    have a := hf1.2.1; have b := hf1.2.2.1
    change (faceOf c.asin c.pol t1 n1 n2 1 (refrOf t0.isSome n0 n1 θ)).refl ≤ 1
    linarith
  have b0 : 0 ≤ (slabOf c t0 t1 n0 n1 n2 θ).back.refl := hfb.1
  have b1 : (slabOf c t0 t1 n0 n1 n2 θ).back.refl ≤ 1 := by
    have a := hfb.2.1; have b := hfb.2.2.1
    change (faceOf c.asin c.pol t0 n0 n1 (-1) (refrOf t0.isSome n0 n1 θ)).refl ≤ 1
    linarith
  have hq0 : 0 ≤ (slabOf c t0 t1 n0 n1 n2 θ).rear.refl * (slabOf c t0 t1 n0 n1 n2 θ).back.refl := mul_nonneg r0 b0
  -- one surface
  have one : ∀ (K : ℕ) (V : ℕ → Visit), AllFlat cell0 cell1 V → ∀ C : ℝ, 0 ≤ C →
      (∀ s, InSlab cell0 cell1 (refrOf t0.isSome n0 n1 θ) (-1) s → branchesStack c n g K (fun i => V (i + 1)) s ≤ C) → ∀ s, InSlab cell0 cell1 (refrOf t0.isSome n0 n1 θ) 1 s →
      branchesStack c n g (K + 1) V s ≤ (slabOf c t0 t1 n0 n1 n2 θ).rear.refl * C := by
    intro K V hV C hC ih s h
    obtain ⟨sR, hR, hb⟩ := (late_step hs h0 h1 hin hn hrear hback hg1 hg0 K hV).1 h
    rw [hb]
    refine mul_le_mul_of_nonneg_left ?_ r0
    obtain ⟨-, -, ⟨e1, -⟩ | ⟨-, e2⟩⟩ := hR
    · rw [branchesStack_stop e1, hg1 sR e1]; exact hC
    · exact ih sR e2
  have two : ∀ (K : ℕ) (V : ℕ → Visit), AllFlat cell0 cell1 V → ∀ C : ℝ, 0 ≤ C →
      (∀ s, InSlab cell0 cell1 (refrOf t0.isSome n0 n1 θ) 1 s → branchesStack c n g K (fun i => V (i + 1)) s ≤ C) → ∀ s, InSlab cell0 cell1 (refrOf t0.isSome n0 n1 θ) (-1) s →
      branchesStack c n g (K + 1) V s ≤ (slabOf c t0 t1 n0 n1 n2 θ).back.refl * C := by
    intro K V hV C hC ih s h
    obtain ⟨sR, hR, hb⟩ := (late_step hs h0 h1 hin hn hrear hback hg1 hg0 K hV).2 h
    rw [hb]
    refine mul_le_mul_of_nonneg_left ?_ b0
    obtain ⟨-, -, ⟨e1, -⟩ | ⟨-, e2⟩⟩ := hR
    · rw [branchesStack_stop e1, hg1 sR e1]; exact hC
    · exact ih sR e2
  have zero : ∀ (V : ℕ → Visit) (s : StackRay), branchesStack c n g 0 V s ≤ 1 := by
    intro V s
    rw [show branchesStack c n g 0 V s = g (.next s) from rfl]
    rcases hst : s.ray.stop with _ | _
    · rw [hg0 s hst]
    · rw [hg1 s hst]; exact zero_le_one
  intro K
  induction K using Nat.twoStepInduction with
  | zero => intro V _ s _; rw [Nat.zero_div, pow_zero]; exact zero V s
  | one =>
    intro V hV s h
    rw [show (1 / 2 : ℕ) = 0 from rfl, pow_zero]
    rcases h with h | h
    · have := one 0 V hV 1 zero_le_one (fun s _ => zero _ s) s h
      linarith
    · have := two 0 V hV 1 zero_le_one (fun s _ => zero _ s) s h
      linarith
  | more K ih _ =>
    intro V hV s h
    have hV' : AllFlat cell0 cell1 fun i => V (i + 1) := fun i => hV (i + 1)
    have hV'' : AllFlat cell0 cell1 fun i => V (i + 1 + 1) := fun i => hV (i + 1 + 1)
    rw [show (K + 2) / 2 = K / 2 + 1 by omega, pow_succ]
    have hp := pow_nonneg hq0 (K / 2)
    rcases h with h | h
    · have := one (K + 1) V hV _ (mul_nonneg b0 hp) (two K _ hV' _ hp fun s hS => ih _ hV'' s (Or.inl hS)) s h
      linarith
    · have := two (K + 1) V hV _ (mul_nonneg r0 hp) (one K _ hV' _ hp fun s hS => ih _ hV'' s (Or.inr hS)) s h
      linarith

/-- Rays not finished after `K` surfaces, from the start. -/
theorem late_start {K : ℕ} {V : ℕ → Visit} (hV : AllFlat cell0 cell1 V) {s : StackRay} (hrun : s.ray.stop = false) (hdir : s.ray.dir = 1) (hsurf : s.ray.surf = 0)
    (hmat : s.ray.mat = 0) (hidx : s.ray.aIdx = 0) (hI : s.ray.I = 1) (hgo : Going 1 θ s.d) {r : V3} (hr : s.r = some r) (hz : cell0.zcov < r.z) :
    branchesStack c n g K V s ≤ ((slabOf c t0 t1 n0 n1 n2 θ).rear.refl * (slabOf c t0 t1 n0 n1 n2 θ).back.refl) ^ ((K - 1) / 2) ∧
    (1 ≤ K → (slabOf c t0 t1 n0 n1 n2 θ).pass ^ K < c.S.thresh → branchesStack c n g K V s = 0) := by
  have hf := flatFace_ok ht0 c.asin c.pol n0 n1 1 θ
  have f0 : 0 ≤ (slabOf c t0 t1 n0 n1 n2 θ).front.trns := hf.2.1
  have f1 : (slabOf c t0 t1 n0 n1 n2 θ).front.trns ≤ 1 := by
    have a := hf.1; have b := hf.2.2.1
    change (faceOf c.asin c.pol t0 n0 n1 1 θ).trns ≤ 1
    linarith
  have r0 : 0 ≤ (slabOf c t0 t1 n0 n1 n2 θ).rear.refl := (flatFace_ok ht1 c.asin c.pol n1 n2 1 (refrOf t0.isSome n0 n1 θ)).1
  have b0 : 0 ≤ (slabOf c t0 t1 n0 n1 n2 θ).back.refl := (flatFace_ok ht0 c.asin c.pol n0 n1 (-1) (refrOf t0.isSome n0 n1 θ)).1
  cases K with
  | zero =>
    refine ⟨?_, fun h => absurd h (by norm_num)⟩
    rw [show branchesStack c n g 0 V s = g (.next s) from rfl, hg0 s hrun]
    simp
  | succ K =>
    have hV' : AllFlat cell0 cell1 fun i => V (i + 1) := fun i => hV (i + 1)
    obtain ⟨sR, sT, sA, hb, hR, hT, hA'⟩ := slab_front hs h0 h1 hin hn g K hV hrun hdir hsurf hmat hidx hgo hr hz
    rw [branchesStack_stop hR.1, hg1 sR hR.1, branchesStack_stop hA'.1, hg1 sA hA'.1, mul_zero, mul_zero, zero_add, add_zero] at hb
    rw [hb, Nat.add_sub_cancel]
    have hp := pow_nonneg (mul_nonneg r0 b0) (K / 2)
    by_cases ht : (slabOf c t0 t1 n0 n1 n2 θ).front.trns = 0
    · rw [ht, zero_mul]
      exact ⟨hp, fun _ _ => rfl⟩
    obtain ⟨q1, -, q3⟩ := hT ht
    rw [hI, one_mul] at q1 q3
    rcases q3 with ⟨e1, -⟩ | ⟨e1, e2⟩
    · rw [branchesStack_stop e1, hg1 sT e1, mul_zero]
      exact ⟨hp, fun _ _ => rfl⟩
    · refine ⟨?_, fun _ hlt => ?_⟩
      · have := late_pow hs h0 h1 hin hn hrear hback ht0 ht1 hg1 hg0 K _ hV' sT (Or.inl e2)
        have h2 := mul_le_mul_of_nonneg_left this f0
        have h3 := mul_le_mul_of_nonneg_right f1 hp
        linarith
      · rw [late_zero hs h0 h1 hin hn hrear hback hg1 hg0 K _ hV' sT (by rw [q1]; exact e1) (by rw [q1, ← pow_succ']; exact hlt) (Or.inl e2), mul_zero]

end late

end Rayflare
