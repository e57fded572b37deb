import Verif.Props.Profile

/-!
# C15-C20 assembled: from the user's options and the stored matrices to R, A, T

The hypotheses of C15-C20 on the launch vector, the ray format changes and the bin angles are discharged here for the
objects the code itself builds.
-/

namespace Rayflare

open Rayflare.Np Rayflare.Model Rayflare.Spec Rayflare.Lemmas Matrix

set_option linter.unusedSectionVars false

variable {ω κ₀ κ₁ : Type*} [Fintype κ₀] [Fintype κ₁]

/-- What is assumed of the stored matrices: at each wavelength every column of `RT` plus the column of `A` sums to one,
with non-negative entries. -/
def StoredOk {h : ℕ} {κ : Type*} [Fintype κ] (m : Matrix (Fin (h + h)) (Fin h) ℝ × Matrix κ (Fin h) ℝ) : Prop :=
  (∀ j, ∑ r, m.1 r j + ∑ l, m.2 l j = 1) ∧ (∀ r j, 0 ≤ m.1 r j) ∧ ∀ l j, 0 ≤ m.2 l j

theorem pyIndex_lt {len : ℕ} {i : ℤ} {k : ℕ} (h : pyIndex len i = some k) : k < len := by
  unfold pyIndex at h
  split_ifs at h with h1 h2
  · simp at h; omega
  · simp at h; omega

theorem relabels_of_preserves {h : ℕ} {M : ℕ → ℕ → ℝ} (hM : PreservesPower h M) :
    Relabels (fun r j : Fin h => M r j) := by
  intro j
  have := hM (fun i => if i = (j : ℕ) then 1 else 0)
  rw [Finset.sum_range (fun i => if i = (j : ℕ) then (1 : ℝ) else 0), Finset.sum_range] at this
  have e : ∀ r : Fin h, ∑ i ∈ Finset.range h, M r i * (if i = (j : ℕ) then 1 else 0) = M r j := by
    intro r
    simp [Finset.sum_ite_eq', j.2]
  simp only [e] at this
  rw [this]
  simp [Fin.val_inj]

theorem nonneg_of_preserves {h : ℕ} {M : ℕ → ℕ → ℝ} (hM : PreservesNonneg h M) (r j : Fin h) : 0 ≤ M r j := by
  have := hM (fun i => if i = (j : ℕ) then 1 else 0) (fun i _ => by split_ifs <;> norm_num) r r.2
  simpa [Finset.sum_ite_eq', j.2] using this

theorem sum_getD (v : List ℝ) (h : ℕ) (hl : v.length = h) : ∑ j : Fin h, v.getD j 0 = v.sum := by
  subst hl
  rw [← Fin.sum_univ_getElem]
  exact Finset.sum_congr rfl fun j _ => by simp

/-- The launch vector built by `make_v0` is non-negative with total one, whenever it is built at all. -/
theorem launch_total (n : ℕ) (hn : 0 < n) (s c : ℝ) (hc : 0 < c) (sp : Spacing) (thIn : ℝ)
    (ht0 : 0 ≤ thIn) (ht1 : thIn < Real.pi / 2) (phiIn : PhiIn) (v : List ℝ)
    (hv : makeV0Row (makeAngleVector n s c sp) thIn phiIn = some v) :
    v.length = (makeAngleVector n s c sp).half ∧ v.sum = 1 ∧ ∀ x ∈ v, 0 ≤ x := by
  cases phiIn with
  | all =>
    obtain ⟨i, v', _, _, _, h, hl, hsum, _⟩ := C09_launch_all n hn s c hc sp 1 thIn ht0 ht1
    rw [makeV0, hv] at h
    simp at h
    subst h
    refine ⟨hl, hsum, ?_⟩
    unfold makeV0Row at hv
    obtain ⟨e, _, he⟩ := Option.bind_eq_some_iff.mp hv
    simp only [Option.some.injEq] at he
    subst he
    intro x hx
    obtain ⟨r, _, rfl⟩ := List.mem_map.mp hx
    split_ifs <;> positivity
  | val p =>
    unfold makeV0Row at hv
    obtain ⟨e, _, he⟩ := Option.bind_eq_some_iff.mp hv
    simp only [Option.map_eq_some_iff] at he
    obtain ⟨i, hi, rfl⟩ := he
    have hlt := pyIndex_lt hi
    refine ⟨by simp, ?_, ?_⟩
    · rw [sum_map_range]
      simp [Finset.sum_ite_eq', hlt]
    · intro x hx
      obtain ⟨r, _, rfl⟩ := List.mem_map.mp hx
      split_ifs <;> norm_num

/-- **C15/C16 set-up.** For the full azimuthal range and for every even number of symmetry sectors, the system built by
`matrix_multiplication` from good stored matrices satisfies all hypotheses of C15-C20, with unit launched power. -/
theorem C15_assembled (n : ℕ) (hn : 0 < n) (s : ℝ)
    (hs : (∃ q : ℕ, 0 < q ∧ s = 2 * Real.pi / ((2 * q : ℕ) : ℝ)) ∨ s = 2 * Real.pi) (c : ℝ) (hc : 0 < c) (sp : Spacing)
    (thIn : ℝ) (ht0 : 0 ≤ thIn) (ht1 : thIn < Real.pi / 2) (phiIn : PhiIn)
    (inp : RatInput ω κ₀ κ₁ (makeAngleVector n s c sp).half)
    (hα : ∀ w, 0 ≤ inp.α w) (hd : 0 ≤ inp.thick)
    (h0 : ∀ w, StoredOk (inp.front0 w)) (h1 : ∀ w, StoredOk (inp.front1 w)) (h2 : ∀ w, StoredOk (inp.rear0 w))
    (S : Sys ω (Fin (makeAngleVector n s c sp).half) κ₀ κ₁) (hS : assemble n s c sp thIn phiIn inp = some S) :
    EnergyConserving S ∧ NonnegData S ∧ (∀ j, Real.cos (S.θ j) ≠ 0) ∧ (∀ w, ∑ j, S.v0 w j = 1) := by
  set g := makeAngleVector n s c sp with hg
  have hfmt : PreservesPower g.half (upToDown g s) ∧ PreservesPower g.half (downToUp g s) ∧
      PreservesNonneg g.half (upToDown g s) ∧ PreservesNonneg g.half (downToUp g s) := by
    rcases hs with ⟨q, hq, rfl⟩ | rfl
    · exact (C12_format_change n hn q hq c hc sp).2.2
    · exact (C12_format_change_full n hn c hc sp).2.2
  unfold assemble at hS
  simp only [Option.map_eq_some_iff] at hS
  obtain ⟨v, hv, rfl⟩ := hS
  obtain ⟨hl, hsum, hnn⟩ := launch_total n hn s c hc sp thIn ht0 ht1 _ v hv
  refine ⟨⟨relabels_of_preserves hfmt.1, relabels_of_preserves hfmt.2.1, ?_, ?_, ?_⟩,
    ⟨?_, nonneg_of_preserves hfmt.2.2.1, nonneg_of_preserves hfmt.2.2.2, hα, hd, ?_, ?_, ?_⟩, ?_, ?_⟩
  · exact fun w => C22_conserves _ _ _ (h0 w).1
  · exact fun w => C22_conserves _ _ _ (h1 w).1
  · exact fun w => C22_conserves _ _ _ (h2 w).1
  · intro w j
    have hj : (j : ℕ) < v.length := by rw [hl]; exact j.2
    simp only [List.getD_eq_getElem?_getD, List.getElem?_eq_getElem hj, Option.getD_some]
    exact hnn _ (List.getElem_mem _)
  · exact fun w => C22_fractions _ _ _ (h0 w).2.1 (h0 w).2.2
  · exact fun w => C22_fractions _ _ _ (h1 w).2.1 (h1 w).2.2
  · exact fun w => C22_fractions _ _ _ (h2 w).2.1 (h2 w).2.2
  · intro j
    have hlen := (C02_hemispheres n hn s c sp).1
    have hj : (j : ℕ) < g.angleVector.length := by
      have hj2 : (j : ℕ) < g.angleVector.length / 2 := j.2
      omega
    simp only [← hg, List.getElem?_eq_getElem hj, Option.elim_some]
    exact C14_grid_angles n hn s c sp j _ j.2 (List.getElem?_eq_getElem hj)
  · intro w
    rw [← hsum]
    exact sum_getD v _ hl

/-- **C22, in the assembled system.** Whatever direction a stored row stands for: if it points up, light from above that is scattered into it counts as reflected (front side of either surface) and light from
below as transmitted (rear side of the front surface); if it points down the reverse. -/
theorem C22_assembled (n : ℕ) (hn : 0 < n) (s c : ℝ) (sp : Spacing) (thIn : ℝ) (phiIn : PhiIn) (inp : RatInput ω κ₀ κ₁ (makeAngleVector n s c sp).half)
    (S : Sys ω (Fin (makeAngleVector n s c sp).half) κ₀ κ₁) (hS : assemble n s c sp thIn phiIn inp = some S) (w : ω) (j : Fin (makeAngleVector n s c sp).half)
    (r : Fin ((makeAngleVector n s c sp).half + (makeAngleVector n s c sp).half)) (row : Row) (hr : (makeAngleVector n s c sp).angleVector[(r : ℕ)]? = some row) :
    (row.theta < Real.pi / 2 → ∃ k : Fin (makeAngleVector n s c sp).half, (k : ℕ) = r ∧
      (S.front0 w).R k j = (inp.front0 w).1 r j ∧ (S.front1 w).R k j = (inp.front1 w).1 r j ∧ (S.rear0 w).T k j = (inp.rear0 w).1 r j) ∧
    (Real.pi / 2 < row.theta → ∃ k : Fin (makeAngleVector n s c sp).half, (makeAngleVector n s c sp).half + (k : ℕ) = r ∧
      (S.front0 w).T k j = (inp.front0 w).1 r j ∧ (S.front1 w).T k j = (inp.front1 w).1 r j ∧ (S.rear0 w).R k j = (inp.rear0 w).1 r j) ∧
    (S.front0 w).A = (inp.front0 w).2 ∧ (S.front1 w).A = (inp.front1 w).2 ∧ (S.rear0 w).A = (inp.rear0 w).2 := by
  have hh := (C02_hemispheres n hn s c sp).2.1 r row hr
  unfold assemble at hS
  simp only [Option.map_eq_some_iff] at hS
  obtain ⟨v, _, rfl⟩ := hS
  refine ⟨fun ht => ?_, fun ht => ?_, rfl, rfl, rfl⟩
  · have hlt : (r : ℕ) < (makeAngleVector n s c sp).half := hh.1.mpr ht
    exact ⟨⟨r, hlt⟩, rfl, rfl, rfl, rfl⟩
  · have hle : (makeAngleVector n s c sp).half ≤ (r : ℕ) := hh.2.mpr ht
    have hr2 := r.2
    obtain ⟨k, hk⟩ : ∃ k : Fin (makeAngleVector n s c sp).half, r = Fin.natAdd _ k :=
      ⟨⟨(r : ℕ) - (makeAngleVector n s c sp).half, by omega⟩, Fin.ext (by simp; omega)⟩
    subst hk
    exact ⟨k, rfl, rfl, rfl, rfl⟩

/-- **C16, end to end.** For every option set with `phi_symmetry = 2π/(2q)` or `2π`, every incidence angle below 90 degrees
and all stored matrices whose columns sum to one: whenever the loop ends (with or without profiles),
`1 - I_thresh ≤ R + T + A_bulk + A_interface ≤ 1` at every wavelength, all parts being non-negative. -/
theorem C16_end_to_end (n : ℕ) (hn : 0 < n) (s : ℝ)
    (hs : (∃ q : ℕ, 0 < q ∧ s = 2 * Real.pi / ((2 * q : ℕ) : ℝ)) ∨ s = 2 * Real.pi) (c : ℝ) (hc : 0 < c) (sp : Spacing)
    (thIn : ℝ) (ht0 : 0 ≤ thIn) (ht1 : thIn < Real.pi / 2) (phiIn : PhiIn)
    (inp : RatInput ω κ₀ κ₁ (makeAngleVector n s c sp).half)
    (hα : ∀ w, 0 ≤ inp.α w) (hd : 0 ≤ inp.thick)
    (h0 : ∀ w, StoredOk (inp.front0 w)) (h1 : ∀ w, StoredOk (inp.front1 w)) (h2 : ∀ w, StoredOk (inp.rear0 w))
    (S : Sys ω (Fin (makeAngleVector n s c sp).half) κ₀ κ₁) (hS : assemble n s c sp thIn phiIn inp = some S)
    (o : ProfOpts ω (Fin (makeAngleVector n s c sp).half)) (k : ℕ)
    (t : LoopState ω (Fin (makeAngleVector n s c sp).half) κ₀ κ₁) (ht : S.Exits k t ∨ S.ExitsProf o k t) (w : ω) :
    1 - inp.thresh ≤ t.R w + t.T w + t.Abulk w + t.Aint0 w + t.Aint1 w ∧
    t.R w + t.T w + t.Abulk w + t.Aint0 w + t.Aint1 w ≤ 1 ∧
    0 ≤ t.R w ∧ 0 ≤ t.T w ∧ 0 ≤ t.Abulk w ∧ 0 ≤ t.Aint0 w ∧ 0 ≤ t.Aint1 w := by
  obtain ⟨hE, hN, _, hv⟩ := C15_assembled n hn s hs c hc sp thIn ht0 ht1 phiIn inp hα hd h0 h1 h2 S hS
  have hthr : S.thresh = inp.thresh := by
    unfold assemble at hS
    simp only [Option.map_eq_some_iff] at hS
    obtain ⟨v, _, rfl⟩ := hS
    rfl
  have h := C16_total S hE hN o k t ht w
  rw [hv w, hthr] at h
  refine ⟨h.1, h.2, ?_⟩
  rcases ht with ⟨rfl, _, _⟩ | ⟨rfl, _, _⟩
  · exact (C15_nonneg S hE hN o k _ (Or.inl rfl)).2.2.2.2.2.2 w
  · exact (C15_nonneg S hE hN o k _ (Or.inr rfl)).2.2.2.2.2.2 w

/-- **C17, end to end.** With an absorbing bulk `calculate_RAT` returns after at most `⌈ln(1/I_thresh)/(2 a d)⌉` passes. -/
theorem C17_end_to_end (n : ℕ) (hn : 0 < n) (s : ℝ)
    (hs : (∃ q : ℕ, 0 < q ∧ s = 2 * Real.pi / ((2 * q : ℕ) : ℝ)) ∨ s = 2 * Real.pi) (c : ℝ) (hc : 0 < c) (sp : Spacing)
    (thIn : ℝ) (ht0 : 0 ≤ thIn) (ht1 : thIn < Real.pi / 2) (phi : ℝ) (hphi0 : 0 ≤ phi) (hphi : phi ≠ s)
    (inp : RatInput ω κ₀ κ₁ (makeAngleVector n s c sp).half) (a : ℝ) (ha : 0 < a)
    (hα : ∀ w, a ≤ inp.α w) (hd : 0 < inp.thick) (hthr : 0 < inp.thresh)
    (h0 : ∀ w, StoredOk (inp.front0 w)) (h1 : ∀ w, StoredOk (inp.front1 w)) (h2 : ∀ w, StoredOk (inp.rear0 w)) :
    ∃ S, assemble n s c sp thIn (.val phi) inp = some S ∧ ∀ o,
      ∃ k ≤ ⌈Real.log (1 / inp.thresh) / (2 * (a * inp.thick))⌉₊, (∃ t, S.Exits k t) ∧ ∃ t, S.ExitsProf o k t := by
  have hspos : 0 < s := by
    rcases hs with ⟨q, hq, rfl⟩ | rfl
    · have := Real.pi_pos; positivity
    · have := Real.pi_pos; positivity
  obtain ⟨v, hv, _⟩ := C10_launch_any_azimuth_partial n hn s c hspos hc sp 1 thIn phi ht0 ht1 hphi0 hphi
  have hrow : makeV0Row (makeAngleVector n s c sp) thIn (launchPhi (.val phi) s) = some v := by
    unfold launch makeV0 at hv
    obtain ⟨v', h, h'⟩ := Option.map_eq_some_iff.mp hv
    simp at h'
    rw [h, h']
  have hsome : ∃ S, assemble n s c sp thIn (.val phi) inp = some S := by
    unfold assemble; simp only [hrow, Option.map_some]; exact ⟨_, rfl⟩
  obtain ⟨S, hS⟩ := hsome
  refine ⟨S, hS, fun o => ?_⟩
  obtain ⟨hE, hN, hcos, hv0⟩ := C15_assembled n hn s hs c hc sp thIn ht0 ht1 (.val phi) inp
    (fun w => ha.le.trans (hα w)) hd.le h0 h1 h2 S hS
  have hfields : S.thresh = inp.thresh ∧ S.α = inp.α ∧ S.thick = inp.thick := by
    unfold assemble at hS
    simp only [Option.map_eq_some_iff] at hS
    obtain ⟨v, _, rfl⟩ := hS
    exact ⟨rfl, rfl, rfl⟩
  have := C17_absorbing_bulk S hE hN hcos a ha (by rw [hfields.2.1]; exact hα) (by rw [hfields.2.2]; exact hd)
    (fun w => (hv0 w).le) (by rw [hfields.1]; exact hthr) o
  rw [hfields.1, hfields.2.2] at this
  exact this

/-- Concrete stored matrices meeting the hypotheses: everything is transmitted straight, for a grid with `h > 0`
incidence bins, half of it absorbed. -/
example (h : ℕ) : ∃ m : Matrix (Fin (h + h)) (Fin h) ℝ × Matrix (Fin 1) (Fin h) ℝ, StoredOk m ∧
    ∀ j, 0 < m.2 0 j := by
  refine ⟨(fun r j => if r = Fin.natAdd h j then 1 / 2 else 0, fun _ _ => 1 / 2), ⟨?_, ?_, ?_⟩, ?_⟩
  · intro j; simp; norm_num
  · intro r j; simp only; split_ifs <;> norm_num
  · intro l j; norm_num
  · intro j; norm_num

example : (∃ q : ℕ, 0 < q ∧ Real.pi / 2 = 2 * Real.pi / ((2 * q : ℕ) : ℝ)) ∨ Real.pi / 2 = 2 * Real.pi :=
  Or.inl ⟨2, by norm_num, by push_cast; ring⟩

/-! ## C70: the returned dataset -/

/-- **C70, positive part.** After at least one pass the dataset has `R`, `A_bulk` and `T`, plus `A_interface` exactly when profiles were
requested. -/
theorem C70_variables_partial (prof : Bool) (k : ℕ) (hk : 0 < k) :
    "R" ∈ ratVariables prof k ∧ "A_bulk" ∈ ratVariables prof k ∧ "T" ∈ ratVariables prof k ∧
    ("A_interface" ∈ ratVariables prof k ↔ prof = true) := by
  cases prof <;> simp [ratVariables, hk]

/-- **C70 (violated).** If the front surface lets less than `I_thresh` through at every wavelength, no pass is made and the returned
dataset has no `T`, `A_bulk` or `A_interface` at all (even though the front surface may absorb). -/
theorem C70_no_pass_fails {ι : Type*} [Fintype ι] [DecidableEq ι] (S : Sys ω ι κ₀ κ₁)
    (h : ∀ w, ∑ j, ((S.front0 w).T *ᵥ S.v0 w) j ≤ S.thresh) (o : ProfOpts ω ι) (k : ℕ) (t : LoopState ω ι κ₀ κ₁)
    (ht : S.Exits k t ∨ S.ExitsProf o k t) (prof : Bool) :
    (∃ t', S.Exits 0 t') ∧ ratVariables prof k = ["R"] := by
  have h0 : S.Done S.init := h
  have hk : k = 0 := by
    rcases ht with ht | ht
    · exact (exit_unique ht (k' := 0) (t' := S.init) ⟨rfl, h0, by simp⟩).1
    · exact (exit_unique ht (k' := 0) (t' := S.init) ⟨rfl, h0, by simp⟩).1
  exact ⟨⟨S.init, rfl, h0, by simp⟩, by simp [ratVariables, hk]⟩

/-- A valid system of that kind: an absorbing opaque front surface. -/
theorem C70_fails : ∃ S : Sys (Fin 1) (Fin 1) (Fin 1) (Fin 1), EnergyConserving S ∧ NonnegData S ∧ 0 < S.thresh ∧
    S.Exits 0 S.init ∧ S.init.Aint0 0 = 1 / 2 ∧ ∀ prof, "A_interface" ∉ ratVariables prof 0 := by
  let S : Sys (Fin 1) (Fin 1) (Fin 1) (Fin 1) :=
    { trapSys with front0 := fun _ => ⟨fun _ _ => 1 / 2, fun _ _ => 0, fun _ _ => 1 / 2⟩ }
  refine ⟨S, ?_, ?_, by norm_num [S, trapSys], ⟨rfl, ?_, by simp⟩, ?_, by intro p; cases p <;> simp [ratVariables]⟩
  · constructor <;> simp [S, trapSys, Relabels, Conserves] <;> norm_num
  · constructor <;> simp [S, trapSys, Fractions]
  · intro w; simp [S, trapSys, Sys.init, power, dotWl, Matrix.mulVec, dotProduct]
  · simp [S, trapSys, Sys.init, LoopState.Aint0, dotWl, Matrix.mulVec, dotProduct]

end Rayflare
