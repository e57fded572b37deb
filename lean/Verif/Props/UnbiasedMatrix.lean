import Verif.Props.Unbiased

/-!
# Property C129 for redistribution matrices: the mean of each entry over the random numbers
-/

namespace Rayflare

open Rayflare.Np Rayflare.Model Rayflare.Spec Rayflare.Lemmas MeasureTheory Real

/-- A ray to be launched: direction, position, and the surfaces it is checked against. -/
structure Launch where
  θ : ℝ
  φ : ℝ
  x : ℝ
  y : ℝ
  D : ℕ → Draw

/-- The ray traced with the random numbers `u`. -/
noncomputable def Launch.trace (c : Texture) (dec : ℝ → ℝ → V3 → V3 → ℤ → V3 × ℤ × Option (List ℝ)) {n : ℕ} (l : Launch) (u : Fin n → ℝ) : Option SicRes :=
  traceInterface c l.θ l.φ l.x l.y (drawsOf l.D dec u)

/-- What `RT` records for the ray if its outcome is `o` (a ray that is not finished is not recorded; the value given for it is not used). -/
noncomputable def Launch.ray (l : Launch) (o : Option SicRes) : RTRay := { θin := l.θ, φin := l.φ, out := match o with | some res => res.rayOut | none => .leaves 0 0 }

/-- Random numbers strictly between 0 and 1. -/
def Inside {K n : ℕ} (u : Fin K → Fin n → ℝ) : Prop := ∀ k i, 0 < u k i ∧ u k i < 1

theorem inside_ae (K n : ℕ) : ∀ᵐ u ∂(Measure.pi fun _ : Fin K => uniform n), Inside u := by
  unfold Inside
  rw [ae_all_iff]
  intro k
  rw [ae_all_iff]
  intro i
  have h1 : ∀ᵐ x ∂(volume.restrict (Set.Icc (0 : ℝ) 1)), 0 < x ∧ x < 1 := by
    rw [ae_restrict_iff' measurableSet_Icc]
    have a := Measure.ae_ne (volume : Measure ℝ) (0 : ℝ)
    have b := Measure.ae_ne (volume : Measure ℝ) (1 : ℝ)
    filter_upwards [a, b] with x hx0 hx1 hx
    exact ⟨lt_of_le_of_ne hx.1 (Ne.symm hx0), lt_of_le_of_ne hx.2 hx1⟩
  have e1 := (measurePreserving_eval (fun _ : Fin n => volume.restrict (Set.Icc (0 : ℝ) 1)) i).quasiMeasurePreserving.ae h1
  have e2 := (measurePreserving_eval (fun _ : Fin K => uniform n) k).quasiMeasurePreserving.ae (p := fun v => 0 < v i ∧ v i < 1) e1
  exact e2

/-- Mean of a function of the outcome of a ray. -/
theorem trace_mean {n : ℕ} (c : Texture) (dec : ℝ → ℝ → V3 → V3 → ℤ → V3 × ℤ × Option (List ℝ)) (law : FacetLaw) (hlaw : ByThresholds dec law)
    (l : Launch) (g : Option SicRes → ℝ) :
    Measurable (fun v : Fin n → ℝ => g (l.trace c dec v)) ∧ ∫ v, g (l.trace c dec v) ∂uniform n = branchesInterface c law g l.θ l.φ l.x l.y (List.ofFn fun i : Fin n => l.D i) ∧
    ∃ C, ∀ v : Fin n → ℝ, |g (l.trace c dec v)| ≤ C := by
  set d := launchD l.x l.y (rA0 c.h l.θ l.φ) with hd
  set s := sicStart (wrapRay (launchA l.x l.y (rA0 c.h l.θ l.φ)) d c.Lx c.Ly c.zcov) d 1 0 with hs
  obtain ⟨hm, ⟨C, hC⟩, hI⟩ := unbiased_aux c.Lx c.Ly d dec law hlaw g n l.D s
  have e : ∀ v : Fin n → ℝ, l.trace c dec v = returned (sicRun c.Lx c.Ly d (drawsOf l.D dec v) s) := by
    intro v
    unfold Launch.trace traceInterface
    simp only [← hd, ← hs]
    rcases sicRun c.Lx c.Ly d (drawsOf l.D dec v) s with _ | _ <;> rfl
  simp only [e]
  refine ⟨hm, ?_, C, hC⟩
  rw [hI]
  unfold branchesInterface
  simp only [← hd, ← hs]

/-- Mean of a function of the outcome of one of several rays traced with independent random numbers. -/
theorem mean_one {K n : ℕ} (c : Texture) (dec : ℝ → ℝ → V3 → V3 → ℤ → V3 × ℤ × Option (List ℝ)) (law : FacetLaw) (hlaw : ByThresholds dec law)
    (l : Launch) (k : Fin K) (g : Option SicRes → ℝ) :
    Integrable (fun u : Fin K → Fin n → ℝ => g (l.trace c dec (u k))) (Measure.pi fun _ : Fin K => uniform n) ∧
    ∫ u, g (l.trace c dec (u k)) ∂(Measure.pi fun _ : Fin K => uniform n)
      = branchesInterface c law g l.θ l.φ l.x l.y (List.ofFn fun i : Fin n => l.D i) := by
  obtain ⟨hm, hI, C, hC⟩ := trace_mean (n := n) c dec law hlaw l g
  have hmp := measurePreserving_eval (fun _ : Fin K => uniform n) k
  refine ⟨?_, ?_⟩
  · refine Integrable.of_bound (C := C) ?_ (Filter.Eventually.of_forall fun u => by simpa using hC _)
    exact (hm.comp (measurable_pi_apply k)).aestronglyMeasurable
  · have h1 := integral_map (μ := Measure.pi fun _ : Fin K => uniform n) (φ := fun u : Fin K → Fin n → ℝ => u k) (measurable_pi_apply k).aemeasurable
      (f := fun v => g (l.trace c dec v)) hm.aestronglyMeasurable
    have h2 : Measure.map (fun u : Fin K → Fin n → ℝ => u k) (Measure.pi fun _ : Fin K => uniform n) = uniform n := hmp.map_eq
    rw [h2] at h1
    rw [← h1, hI]

open Classical in
theorem nOf_ofFn {K : ℕ} (f : Fin K → RTRay) (P : RTRay → Prop) : nOf (List.ofFn f) P = ∑ k, if P (f k) then (1 : ℝ) else 0 := by
  unfold nOf
  induction K with
  | zero => simp
  | succ K ih =>
    rw [List.ofFn_succ, List.countP_cons, Fin.sum_univ_succ, Nat.cast_add, ih, add_comm]
    congr 1
    by_cases h : P (f 0) <;> simp [h]

section
variable (c : Texture) (nAbove nBelow : ℂ) (ha : 0 < nAbove.re) (hb : 0 < nBelow.re) (ka : 0 ≤ nAbove.im) (kb : 0 ≤ nBelow.im) (hh : c.h + 1e-8 ≠ 0)
  (tmm : Bool) (nL : ℕ) (n : ℕ) (hn : 0 < n) (cz : ℝ) (hc : 0 < cz) (m : ℕ) (hm : 0 < m) (sp : Spacing) (front : Bool)

include ha hb ka kb hh hn hc hm in
open Classical in
/-- The entries of the matrix are means over the rays launched in an incidence bin. -/
theorem matrix_entries (dec : ℝ → ℝ → V3 → V3 → ℤ → V3 × ℤ × Option (List ℝ))
    (hdec : ∀ u < 1, ∀ w : Draw, w.dec = dec u → FacetDraw nAbove nBelow tmm nL w) {K N : ℕ} (L : Fin K → Launch)
    (hL : ∀ k, 0 < (L k).θ ∧ (L k).θ < π / 2 ∧ OffEdge (2 * π / m) (L k).φ) (u : Fin K → Fin N → ℝ) (hu : Inside u)
    (hfin : ∀ k, (L k).trace c dec (u k) ≠ none ∧ OutOffEdge (2 * π / m) front ((L k).ray ((L k).trace c dec (u k))))
    (junk : RTJunk) (M : RTMat)
    (hM : rtMatrix (rtArgs n (2 * π / m) cz sp tmm front nL) junk (List.ofFn fun k => (L k).ray ((L k).trace c dec (u k))) = some M)
    (j : ℕ) (hj : ∃ k, IncidentIn n cz (2 * π / m) sp front j ((L k).ray none)) :
    let inc := fun k => IncidentIn n cz (2 * π / m) sp front j ((L k).ray none)
    (∀ i, M.out i j = (∑ k with inc k, (fun o => if LeavesIn n cz (2 * π / m) sp front i ((L k).ray o) then (1 : ℝ) else 0) ((L k).trace c dec (u k)))
      / (Finset.univ.filter inc).card) ∧
    ∑ l ∈ Finset.range nL, M.A l j = (∑ k with inc k, (fun o => if IsAbsorbed ((L k).ray o) then (1 : ℝ) else 0) ((L k).trace c dec (u k)))
      / (Finset.univ.filter inc).card := by
  intro inc
  have hincEq : ∀ k o, IncidentIn n cz (2 * π / m) sp front j ((L k).ray o) ↔ inc k := fun k o => Iff.rfl
  have hden : nOf (List.ofFn fun k => (L k).ray ((L k).trace c dec (u k))) (fun r => IncidentIn n cz (2 * π / m) sp front j r)
      = ((Finset.univ.filter inc).card : ℝ) := by
    rw [nOf_ofFn]
    simp only [hincEq]
    rw [Finset.sum_boole]
  have hentries := C48_entries n hn cz hc m hm sp tmm front nL (List.ofFn fun k => (L k).ray ((L k).trace c dec (u k)))
    (by
      intro r hr
      obtain ⟨k, rfl⟩ := (List.mem_ofFn' _ _).mp hr
      obtain ⟨res, hres⟩ := Option.ne_none_iff_exists'.mp (hfin k).1
      refine trace_ok c nAbove nBelow ha hb ka kb hh tmm nL
        { ray := (L k).ray ((L k).trace c dec (u k)), res := res, ws := drawsOf (L k).D dec (u k) } ⟨?_, (L k).x, (L k).y, ?_, ?_⟩ (hL k).1 (hL k).2.1 (hL k).2.2
      · intro w hw
        obtain ⟨i, rfl⟩ := (List.mem_ofFn' _ _).mp hw
        exact hdec _ (hu k i).2 _ rfl
      · exact hres
      · rw [hres]; rfl)
    (by
      intro r hr
      obtain ⟨k, rfl⟩ := (List.mem_ofFn' _ _).mp hr
      exact (hfin k).2) junk M hM j
    (by
      obtain ⟨k, hk⟩ := hj
      exact ⟨_, (List.mem_ofFn' _ _).mpr ⟨k, rfl⟩, hk⟩)
  have hnum : ∀ P : RTRay → Prop,
      nOf (List.ofFn fun k => (L k).ray ((L k).trace c dec (u k))) (fun r => IncidentIn n cz (2 * π / m) sp front j r ∧ P r)
        = ∑ k with inc k, (fun o => if P ((L k).ray o) then (1 : ℝ) else 0) ((L k).trace c dec (u k)) := by
    intro P
    rw [nOf_ofFn, Finset.sum_filter]
    apply Finset.sum_congr rfl
    intro k _
    by_cases h : inc k
    · simp [hincEq, h]
    · simp [hincEq, h]
  exact ⟨fun i => by rw [hentries.1 i, hden, hnum], by rw [hentries.2, hden, hnum]⟩

include ha hb ka kb hh hn hc hm in
open Classical in
theorem matrix_mean (dec : ℝ → ℝ → V3 → V3 → ℤ → V3 × ℤ × Option (List ℝ)) (law : FacetLaw) (hlaw : ByThresholds dec law)
    (hdec : ∀ u < 1, ∀ w : Draw, w.dec = dec u → FacetDraw nAbove nBelow tmm nL w) {K N : ℕ} (L : Fin K → Launch)
    (hL : ∀ k, 0 < (L k).θ ∧ (L k).θ < π / 2 ∧ OffEdge (2 * π / m) (L k).φ)
    (hfin : ∀ u : Fin K → Fin N → ℝ, Inside u → ∀ k, (L k).trace c dec (u k) ≠ none ∧ OutOffEdge (2 * π / m) front ((L k).ray ((L k).trace c dec (u k))))
    (junk : (Fin K → Fin N → ℝ) → RTJunk) (M : (Fin K → Fin N → ℝ) → RTMat)
    (hM : ∀ u, Inside u → rtMatrix (rtArgs n (2 * π / m) cz sp tmm front nL) (junk u) (List.ofFn fun k => (L k).ray ((L k).trace c dec (u k))) = some (M u))
    (j : ℕ) (hj : ∃ k, IncidentIn n cz (2 * π / m) sp front j ((L k).ray none)) :
    let inc := fun k => IncidentIn n cz (2 * π / m) sp front j ((L k).ray none)
    let mean := fun (k : Fin K) (P : RTRay → Prop) => branchesInterface c law (fun o => if P ((L k).ray o) then 1 else 0) (L k).θ (L k).φ (L k).x (L k).y
      (List.ofFn fun i : Fin N => (L k).D i)
    (∀ i, ∫ u, (M u).out i j ∂(Measure.pi fun _ : Fin K => uniform N)
      = (∑ k with inc k, mean k (LeavesIn n cz (2 * π / m) sp front i)) / (Finset.univ.filter inc).card) ∧
    ∫ u, ∑ l ∈ Finset.range nL, (M u).A l j ∂(Measure.pi fun _ : Fin K => uniform N)
      = (∑ k with inc k, mean k IsAbsorbed) / (Finset.univ.filter inc).card := by
  intro inc mean
  have hmean : ∀ P : RTRay → Prop, ∫ u, (∑ k with inc k, (fun o => if P ((L k).ray o) then (1 : ℝ) else 0) ((L k).trace c dec (u k))) / ((Finset.univ.filter inc).card : ℝ)
      ∂(Measure.pi fun _ : Fin K => uniform N) = (∑ k with inc k, mean k P) / (Finset.univ.filter inc).card := by
    intro P
    rw [integral_div, integral_finset_sum]
    · congr 1
      apply Finset.sum_congr rfl
      intro k _
      exact (mean_one c dec law hlaw (L k) k (fun o => if P ((L k).ray o) then (1 : ℝ) else 0)).2
    · intro k _
      exact (mean_one c dec law hlaw (L k) k (fun o => if P ((L k).ray o) then (1 : ℝ) else 0)).1
  constructor
  · intro i
    rw [← hmean]
    apply integral_congr_ae
    filter_upwards [inside_ae K N] with u hu
    exact (matrix_entries c nAbove nBelow ha hb ka kb hh tmm nL n hn cz hc m hm sp front dec hdec L hL u hu (hfin u hu) (junk u) (M u) (hM u hu) j hj).1 i
  · rw [← hmean]
    apply integral_congr_ae
    filter_upwards [inside_ae K N] with u hu
    exact (matrix_entries c nAbove nBelow ha hb ka kb hh tmm nL n hn cz hc m hm sp front dec hdec L hL u hu (hfin u hu) (junk u) (M u) (hM u hu) j hj).2

include ha hb ka kb hh hn hc hm in
open Classical in
/-- **C129, matrices of coated surfaces.** Rays are launched in given directions at given positions and traced with independent uniform random numbers, all of them to the end and none leaving along
an edge of the grid.  The mean of entry `(i, j)` of the matrix is then the mean, over the rays launched in incidence bin `j`, of the total weight of the branches that leave into bin `i`; likewise for the
absorbed fraction.  The matrix has no systematic error, however few rays are traced. -/
theorem C129_matrix (tab : ℤ → ℝ → ℝ × ℝ × List ℝ)
    (htab : ∀ side θ, 0 ≤ (tab side θ).1 ∧ 0 ≤ (tab side θ).2.1 ∧ (tab side θ).2.2.length = nL ∧ (∀ a ∈ (tab side θ).2.2, 0 ≤ a) ∧
      (tab side θ).1 + (tab side θ).2.1 + (tab side θ).2.2.sum = 1)
    {K N : ℕ} (L : Fin K → Launch) (hL : ∀ k, 0 < (L k).θ ∧ (L k).θ < π / 2 ∧ OffEdge (2 * π / m) (L k).φ)
    (hfin : ∀ u : Fin K → Fin N → ℝ, Inside u → ∀ k, (L k).trace c (tmmDraw nAbove nBelow tab) (u k) ≠ none ∧
      OutOffEdge (2 * π / m) front ((L k).ray ((L k).trace c (tmmDraw nAbove nBelow tab) (u k))))
    (junk : (Fin K → Fin N → ℝ) → RTJunk) (M : (Fin K → Fin N → ℝ) → RTMat)
    (hM : ∀ u, Inside u → rtMatrix (rtArgs n (2 * π / m) cz sp true front nL) (junk u)
      (List.ofFn fun k => (L k).ray ((L k).trace c (tmmDraw nAbove nBelow tab) (u k))) = some (M u))
    (j : ℕ) (hj : ∃ k, IncidentIn n cz (2 * π / m) sp front j ((L k).ray none)) :
    let inc := fun k => IncidentIn n cz (2 * π / m) sp front j ((L k).ray none)
    let mean := fun (k : Fin K) (P : RTRay → Prop) => branchesInterface c (tmmLaw nAbove nBelow tab) (fun o => if P ((L k).ray o) then 1 else 0)
      (L k).θ (L k).φ (L k).x (L k).y (List.ofFn fun i : Fin N => (L k).D i)
    (∀ i, ∫ u, (M u).out i j ∂(Measure.pi fun _ : Fin K => uniform N)
      = (∑ k with inc k, mean k (LeavesIn n cz (2 * π / m) sp front i)) / (Finset.univ.filter inc).card) ∧
    ∫ u, ∑ l ∈ Finset.range nL, (M u).A l j ∂(Measure.pi fun _ : Fin K => uniform N)
      = (∑ k with inc k, mean k IsAbsorbed) / (Finset.univ.filter inc).card := by
  refine matrix_mean c nAbove nBelow ha hb ka kb hh true nL n hn cz hc m hm sp front _ _ (tmm_byThresholds ?_) ?_ L hL hfin junk M hM j hj
  · intro side θ
    obtain ⟨h1, h2, -, h4, h5⟩ := htab side θ
    have := List.sum_nonneg h4
    exact ⟨h1, h2, by linarith⟩
  · intro u hu w hw
    exact Or.inr ⟨rfl, tab, u, hu, hw, fun side θ => (htab side θ).2.2⟩

end

section
variable (c : Texture) (nAbove nBelow : ℝ) (ha : 0 < nAbove) (hb : 0 < nBelow) (hh : c.h + 1e-8 ≠ 0)
  (nL : ℕ) (n : ℕ) (hn : 0 < n) (cz : ℝ) (hc : 0 < cz) (m : ℕ) (hm : 0 < m) (sp : Spacing) (front : Bool)

include ha hb hh hn hc hm in
open Classical in
/-- **C129, matrices of bare surfaces** between transparent media. -/
theorem C129_matrix_bare (arc : ℤ → ℝ → ℂ) (pol : Pol)
    (harc : ∀ side θ, IsArcsin (((if side = 1 then nAbove else nBelow : ℝ) : ℂ) / ((if side = 1 then nBelow else nAbove : ℝ) : ℂ) * Complex.sin ((|θ| : ℝ) : ℂ)) (arc side θ))
    {K N : ℕ} (L : Fin K → Launch) (hL : ∀ k, 0 < (L k).θ ∧ (L k).θ < π / 2 ∧ OffEdge (2 * π / m) (L k).φ)
    (hfin : ∀ u : Fin K → Fin N → ℝ, Inside u → ∀ k, (L k).trace c (fresnelDraw nAbove nBelow arc pol) (u k) ≠ none ∧
      OutOffEdge (2 * π / m) front ((L k).ray ((L k).trace c (fresnelDraw nAbove nBelow arc pol) (u k))))
    (junk : (Fin K → Fin N → ℝ) → RTJunk) (M : (Fin K → Fin N → ℝ) → RTMat)
    (hM : ∀ u, Inside u → rtMatrix (rtArgs n (2 * π / m) cz sp false front nL) (junk u)
      (List.ofFn fun k => (L k).ray ((L k).trace c (fresnelDraw nAbove nBelow arc pol) (u k))) = some (M u))
    (j : ℕ) (hj : ∃ k, IncidentIn n cz (2 * π / m) sp front j ((L k).ray none)) :
    let inc := fun k => IncidentIn n cz (2 * π / m) sp front j ((L k).ray none)
    let mean := fun (k : Fin K) (P : RTRay → Prop) => branchesInterface c (fresnelLaw nAbove nBelow arc pol) (fun o => if P ((L k).ray o) then 1 else 0)
      (L k).θ (L k).φ (L k).x (L k).y (List.ofFn fun i : Fin N => (L k).D i)
    ∀ i, ∫ u, (M u).out i j ∂(Measure.pi fun _ : Fin K => uniform N)
      = (∑ k with inc k, mean k (LeavesIn n cz (2 * π / m) sp front i)) / (Finset.univ.filter inc).card := by
  refine (matrix_mean c nAbove nBelow (by simpa using ha) (by simpa using hb) (by simp) (by simp) hh false nL n hn cz hc m hm sp front _ _ (fresnel_byThresholds ?_) ?_
    L hL hfin junk M hM j hj).1
  · intro d N side
    have h := harc side (localTheta N d)
    by_cases hs : side = 1
    · simp only [hs, if_true] at h ⊢
      exact decideR_le_one ha hb (localTheta_le N d) h pol
    · simp only [hs, if_false] at h ⊢
      exact decideR_le_one hb ha (localTheta_le N d) h pol
  · intro u hu w hw
    exact Or.inl ⟨rfl, arc, pol, u, hu, hw⟩

end

/-! ## The hypotheses can be met -/

/-- A ray launched from any direction at the point (1, 1) of the facet `exTri`. -/
noncomputable def exLaunch (θ φ : ℝ) : Launch := { θ := θ, φ := φ, x := 1, y := 1, D := fun _ => exDraw }

/-- A coating that absorbs everything. -/
def exTab : ℤ → ℝ → ℝ × ℝ × List ℝ := fun _ _ => (0, 0, [1])

theorem exLaunch_absorbed {θ φ : ℝ} (h0 : 0 < θ) (h1 : θ < π / 2) (u : Fin 1 → ℝ) (hu : 0 < u 0) :
    ∃ r d θl k side, (exLaunch θ φ).trace exTexture (tmmDraw 1 2 exTab) u = some (.absorbed [1] r d θl k side) := by
  have hc : 0 < cos θ := cos_pos_of_mem_Ioo ⟨by linarith [pi_pos], h1⟩
  have hh : exTexture.h + 1e-8 ≠ 0 := by norm_num [exTexture]
  have habs : |exTexture.h + 1e-8| = 1 := by norm_num [exTexture]
  have hA : launchA 1 1 (rA0 exTexture.h θ φ) = ⟨1 + 1 / cos θ * sin θ * cos φ, 1 + 1 / cos θ * sin θ * sin φ, 1⟩ := by
    rw [rA0_vec hc, launchA, habs]
    ext <;> simp [add_comm]
  have hw : wrapRay ⟨1 + 1 / cos θ * sin θ * cos φ, 1 + 1 / cos θ * sin θ * sin φ, 1⟩ (incoming θ φ) 10 10 0
      = ⟨1 + 1 / cos θ * sin θ * cos φ, 1 + 1 / cos θ * sin θ * sin φ, 1⟩ := by
    have f : ⌊(1 : ℝ) / 10⌋ = 0 := by rw [Int.floor_eq_zero_iff]; constructor <;> norm_num
    have e1 : 1 + 1 / cos θ * sin θ * cos φ + (incoming θ φ).x * (0 - 1) / (incoming θ φ).z = 1 := by
      unfold incoming; simp only; field_simp; ring
    have e2 : 1 + 1 / cos θ * sin θ * sin φ + (incoming θ φ).y * (0 - 1) / (incoming θ φ).z = 1 := by
      unfold incoming; simp only; field_simp; ring
    unfold wrapRay
    simp only [e1, e2, f]
    simp
  have hhit : exTri.hit ⟨1 + 1 / cos θ * sin θ * cos φ, 1 + 1 / cos θ * sin θ * sin φ, 1⟩ (incoming θ φ) = true := by
    refine (hit_of_inTri (t := 1 / cos θ) ?_ (by positivity) ?_).1
    · unfold Parallel incoming; simp only [exTri, V3.dot, V3.cross, V3.sub_x, V3.sub_y, V3.sub_z]; norm_num; exact hc.ne'
    · refine ⟨1 / 10, 1 / 10, by norm_num, by norm_num, by norm_num, ?_⟩
      ext <;> simp [exTri, incoming] <;> field_simp <;> ring
  unfold Launch.trace traceInterface
  simp only [exLaunch, launchD_eq 1 1 hc hh, hA]
  simp only [show exTexture.Lx = 10 from rfl, show exTexture.Ly = 10 from rfl, show exTexture.zcov = 0 from rfl, hw]
  simp only [drawsOf, List.ofFn_succ, List.ofFn_zero, sicRun]
  have hchk : checkIntersect (sicStart ⟨1 + 1 / cos θ * sin θ * cos φ, 1 + 1 / cos θ * sin θ * sin φ, 1⟩ (incoming θ φ) 1 0).r
      (sicStart ⟨1 + 1 / cos θ * sin θ * cos φ, 1 + 1 / cos θ * sin θ * sin φ, 1⟩ (incoming θ φ) 1 0).d exDraw.tris = _ :=
    checkIntersect_single_hit hhit
  rw [sicStep_facet (w := { exDraw with dec := tmmDraw 1 2 exTab (u 0) }) hchk]
  have hdec : ∀ t d N side, tmmDraw 1 2 exTab (u 0) t d N side = (d, side, some [1]) := by
    intro t d N side
    unfold tmmDraw tmmDec decideTMM exTab
    simp only
    rw [if_neg (not_le.mpr hu), if_neg (fun h => by linarith [h.2])]
  simp only [hdec, afterFacet]
  exact ⟨_, _, _, _, _, rfl⟩

/-- Two rays launched on a coating that absorbs everything, from directions off the edges of the grid: the hypotheses of `C129_matrix` are met. -/
example (θ φ : ℝ) (h0 : 0 < θ) (h1 : θ < π / 2) (h2 : 0 < φ) (h3 : φ < 2 * π) (u : Fin 2 → Fin 1 → ℝ) (hu : Inside u) (front : Bool) (k : Fin 2) :
    OffEdge (2 * π / (1 : ℕ)) (exLaunch θ φ).φ ∧ (exLaunch θ φ).trace exTexture (tmmDraw 1 2 exTab) (u k) ≠ none ∧
      OutOffEdge (2 * π / (1 : ℕ)) front ((exLaunch θ φ).ray ((exLaunch θ φ).trace exTexture (tmmDraw 1 2 exTab) (u k))) := by
  obtain ⟨r, d, θl, i, side, e⟩ := exLaunch_absorbed (φ := φ) h0 h1 (u k) (hu k 0).1
  refine ⟨?_, by rw [e]; simp, by rw [e]; trivial⟩
  intro q hq
  simp only [exLaunch, Nat.cast_one, div_one] at hq
  have hp := Real.two_pi_pos
  rw [hq] at h2 h3
  have a : 0 < (q : ℝ) := by by_contra h; push Not at h; nlinarith
  have b : (q : ℝ) < 1 := by nlinarith
  have a' : 0 < q := by exact_mod_cast a
  have b' : q < 1 := by exact_mod_cast b
  omega

end Rayflare
