import Verif.Lemmas.RTCalculate
import Verif.Props.TraceStack

/-!
# C145: what `rt_structure.calculate` returns
-/

namespace Rayflare

open Rayflare.Np Rayflare.Model Rayflare.Spec Rayflare.Lemmas

section
variable (a : CalcArgs) (ux uy : ℕ → ℝ) (junk : ℕ → ℕ → ℕ → Bool) (nWl : ℕ) (tracer : ℕ → ℕ → ℕ → ℝ → ℝ → Option RayOut)

theorem xs_length : (a.xs ux).length = a.nx := by
  unfold CalcArgs.xs calcCoords
  split_ifs <;> simp [linspace]

theorem ys_length : (a.ys uy).length = a.ny := by
  unfold CalcArgs.ys calcCoords
  split_ifs <;> simp [linspace]

variable {a ux uy junk nWl tracer} {out : ℕ → ℕ → ℕ → ℕ → RayOut}

theorem parallelInner_eq (h : AllTraced a ux uy nWl tracer out) (hnls : ∀ nls, a.tmm = some nls → nls.length = a.widths.length + 1)
    (hsay : ∀ w < nWl, ∀ j < a.nReps, ∀ i < a.nx, ∀ k < a.ny, SaysWhere (a.widths.length + 1) a.tmm (out w j i k)) {w : ℕ} (hw : w < nWl) :
    parallelInner (a.widths.length + 1) a.nx a.ny a.nReps (a.xs ux) (a.ys uy) a.tmm (tracer w) =
      some (after (a.widths.length + 1) (a.nReps * a.nx * a.ny) (raysInOrder a.nReps a.nx a.ny (out w)),
        a.tmm.map fun nls => nls.zipIdx.map fun p => layerSums (a.nReps * a.nx * a.ny) p.1
          (((raysInOrder a.nReps a.nx a.ny (out w)).filter fun o => decide (o.ray.aIdx = (p.2 : ℤ) + 1)).map fun o => o.ray.aInt)) := by
  unfold parallelInner
  rw [innerLoop_eq (nSurf := a.widths.length + 1) (xs_length a ux) (ys_length a uy) (out := out w)]
  · rw [Option.bind_some]
    cases ht : a.tmm with
    | none => rfl
    | some nls =>
      simp only
      rw [innerInterfaces_eq (hnls nls ht)]
      · rfl
      · intro o ho j n hidx hn
        obtain ⟨j', hj', i, hi, k, hk, rfl⟩ := mem_raysInOrder.mp ho
        rcases hsay w hw j' hj' i hi k hk with h0 | ⟨j2, -, hj2, hlen⟩
        · omega
        · obtain rfl : j2 = j := by omega
          have := hlen nls ht
          rw [hn] at this
          simpa using this.symm
  · intro j hj i x hx k y hy
    refine ⟨h w hw j hj i x hx k y hy, ?_⟩
    have hi : i < a.nx := by rw [← xs_length a ux]; exact (List.getElem?_eq_some_iff.mp hx).1
    have hk : k < a.ny := by rw [← ys_length a uy]; exact (List.getElem?_eq_some_iff.mp hy).1
    rcases hsay w hw j hj i hi k hk with h0 | ⟨j2, hj2, hj3, -⟩
    · exact ⟨0, Nat.zero_le _, by simpa using h0⟩
    · exact ⟨j2 + 1, hj2, by rw [hj3]; push_cast; ring⟩

theorem after_full {nSurf N : ℕ} {outs : List RayOut} (hN : outs.length = N) :
    (after nSurf N outs).Is = outs.map (fun o => o.ray.I) ∧ (after nSurf N outs).thetas = outs.map (fun o => o.ray.θ) ∧ (after nSurf N outs).phis = outs.map (fun o => o.phi) ∧
    (after nSurf N outs).nPasses = outs.map (fun o => o.ray.nPasses) ∧ (after nSurf N outs).nInts = outs.map (fun o => o.nInt) := by
  simp [after, hN]

theorem getElem?_zipIdx_map_range {α : Type*} (f : ℕ → α) {n w : ℕ} (hw : w < n) : ((List.range n).map f).zipIdx[w]? = some (f w, w) := by
  simp [List.getElem?_zipIdx, List.getElem?_range hw]

theorem collectMasked_get {N nW w : ℕ} (hw : w < nW) {jk : ℕ → ℕ → Bool} {mask : Bool → Option ℝ → ℕ → Bool} {m : Option ℝ → ℕ → Bool} (hm : ∀ b t n, mask b t n = m t n)
    {nSurf : ℕ} {rays : ℕ → List RayOut} (hN : ∀ w, (rays w).length = N) {ai : ℕ → Option (List (List ℝ))} :
    (collectMasked N jk mask ((List.range nW).map fun w => (after nSurf N (rays w), ai w)))[w]? = some (average (rays w) fun o => if m o.ray.θ o.ray.nPasses then o.ray.I else 0) := by
  unfold collectMasked
  rw [List.getElem?_map, getElem?_zipIdx_map_range _ hw, Option.map_some]
  obtain ⟨e1, e2, -, e4, -⟩ := after_full (nSurf := nSurf) (hN w)
  simp only [e1, e2, e4]
  rw [maskedSum_eq (hN w) (junk := fun t => jk w t) hm]

theorem sum_filter_map {α : Type*} (p : α → Bool) (f : α → ℝ) (l : List α) : ((l.filter p).map f).sum = (l.map fun o => if p o then f o else 0).sum := by
  induction l with
  | nil => simp
  | cons b l ih => cases h : p b <;> simp [List.filter_cons, h, ih]

open Classical in
/-- **C145, what is returned.** Every entry of the dictionary returned by `calculate`, at every wavelength, is the stated average over (or list of) the results of all the rays launched at that
wavelength; unset memory plays no role. -/
theorem C145_reports (h : AllTraced a ux uy nWl tracer out) (hnls : ∀ nls, a.tmm = some nls → nls.length = a.widths.length + 1)
    (hsay : ∀ w < nWl, ∀ j < a.nReps, ∀ i < a.nx, ∀ k < a.ny, SaysWhere (a.widths.length + 1) a.tmm (out w j i k)) :
    ∃ res, calculate a ux uy junk nWl tracer = some res ∧ res.R.length = nWl ∧ res.T.length = nWl ∧ res.thetas.length = nWl ∧
      ∀ w < nWl, Reports a.widths.length (calcZ a.widths a.spacing).length a.tmm res w (raysInOrder a.nReps a.nx a.ny (out w)) := by
  set N := a.nReps * a.nx * a.ny with hNdef
  set rays : ℕ → List RayOut := fun w => raysInOrder a.nReps a.nx a.ny (out w) with hrays
  have hN : ∀ w, (rays w).length = N := fun w => raysInOrder_length _ _ _ _
  set row : ℕ → ℕ × ℕ → List ℝ := fun w p => layerSums N p.1 (((rays w).filter fun o => decide (o.ray.aIdx = (p.2 : ℤ) + 1)).map fun o => o.ray.aInt) with hrow
  have hall : ((List.range nWl).mapM fun w => parallelInner (a.widths.length + 1) a.nx a.ny a.nReps (a.xs ux) (a.ys uy) a.tmm (tracer w)) =
      some ((List.range nWl).map fun w => (after (a.widths.length + 1) N (rays w), a.tmm.map fun nls => nls.zipIdx.map (row w))) :=
    mapM_some_of fun w hw => parallelInner_eq h hnls hsay (List.mem_range.mp hw)
  have hint : collectInt a.tmm ((List.range nWl).map fun w => (after (a.widths.length + 1) N (rays w), a.tmm.map fun nls => nls.zipIdx.map (row w))) =
      some (a.tmm.map fun nls => nls.zipIdx.map fun p => (List.range nWl).map fun w => row w p) := by
    cases ht : a.tmm with
    | none => rfl
    | some nls =>
      simp only [collectInt, Option.map_some]
      have e : ((List.range nWl).map fun w => (after (a.widths.length + 1) N (rays w), some (nls.zipIdx.map (row w)))).mapM Prod.snd =
          some ((List.range nWl).map fun w => nls.zipIdx.map (row w)) := by
        rw [mapM_some_of (g := fun s : Inner × Option (List (List ℝ)) => s.2.getD [])]
        · simp [Function.comp_def]
        · intro x hx
          obtain ⟨w, -, rfl⟩ := List.mem_map.mp hx
          rfl
      rw [e, Option.bind_some, perInterface_eq (row := row)]
      · rfl
      · intro w p; simp [hrow, layerSums]
  unfold calculate
  rw [hall, Option.bind_some]
  unfold collect
  rw [hint, Option.map_some]
  refine ⟨_, rfl, by simp [collectMasked], by simp [collectMasked], by simp, ?_⟩
  intro w hw
  obtain ⟨e1, e2, e3, e4, e5⟩ := after_full (nSurf := a.widths.length + 1) (hN w)
  have hg : ∀ {β : Type} (f : Inner × Option (List (List ℝ)) → β),
      (((List.range nWl).map fun w => (after (a.widths.length + 1) N (rays w), a.tmm.map fun nls => nls.zipIdx.map (row w))).map f)[w]? =
        some (f (after (a.widths.length + 1) N (rays w), a.tmm.map fun nls => nls.zipIdx.map (row w))) := by
    intro β f
    simp [List.getElem?_range hw]
  have hcong : ∀ (f g : RayOut → ℝ), (∀ o, f o = g o) → average (rays w) f = average (rays w) g := by
    intro f g hfg; rw [show f = g from funext hfg]
  constructor
  · simp only
    rw [collectMasked_get hw (m := fun t _ => reflMask false t) (by intro b t n; cases t <;> simp [reflMask]) hN]
    congr 1
    apply hcong
    intro o
    cases ht : o.ray.θ <;> simp [reflMask, LeftUp, ht]
  · simp only
    rw [collectMasked_get hw (m := fun t _ => trnsMask false t) (by intro b t n; cases t <;> simp [trnsMask]) hN]
    congr 1
    apply hcong
    intro o
    cases ht : o.ray.θ <;> simp [trnsMask, LeftDown, ht]
  · simp only
    rw [collectMasked_get hw (m := fun t n => reflMask false t && decide (n = 0)) (by intro b t n; cases t <;> simp [reflMask]) hN]
    congr 1
    apply hcong
    intro o
    cases ht : o.ray.θ <;> simp [reflMask, LeftUp, ht]
  · refine ⟨_, hg _, by simp, ?_⟩
    intro m hm
    simp only [Nat.add_sub_cancel, List.getElem?_map, List.getElem?_range hm, Option.map_some, Option.some.injEq]
    exact average_eq (hN w) fun o => o.ray.A (m + 1)
  · refine ⟨_, hg _, by simp, ?_⟩
    intro z hz
    simp only [List.getElem?_map, List.getElem?_range hz, Option.map_some, Option.some.injEq]
    have e : (after (a.widths.length + 1) N (rays w)).profiles z = average (rays w) fun o => o.ray.profile z := average_eq (hN w) fun o => o.ray.profile z
    rw [e]
    split_ifs with h0
    · rw [max_eq_left h0.le]; norm_num
    · rw [max_eq_right (not_lt.mp h0)]; norm_num
  · exact (hg _).trans (by rw [e2])
  · exact (hg _).trans (by rw [e3])
  · exact (hg _).trans (by rw [e4])
  · exact (hg _).trans (by rw [e5])
  · cases ht : a.tmm with
    | none => rfl
    | some nls =>
      refine ⟨_, rfl, by simp, ?_⟩
      intro j n hn
      refine ⟨(List.range nWl).map fun w => row w (n, j), row w (n, j), ?_, by simp [List.getElem?_range hw], by simp [hrow, layerSums], ?_⟩
      · simp [List.getElem?_zipIdx, hn]
      · intro l hl
        simp only [hrow, layerSums, List.getElem?_map, List.getElem?_range hl, Option.map_some, Option.some.injEq, List.map_map, Function.comp_def]
        rw [sum_filter_map]
        unfold average
        rw [hN w]
        simp only [decide_eq_true_eq, hrays]

/-- **C145, order.** There are `n_reps·nx·ny` rays, at least `n_rays` and fewer than `n_rays + nx·ny`.  Ray number `(j·nx + i)·ny + k` is the one launched in repetition `j` at the point `(x_i, y_k)`, and that is the
position of its entry in `thetas`, `phis`, `n_passes` and `n_interactions`. -/
theorem C145_order (hx : 0 < a.nx) (hy : 0 < a.ny) :
    a.nRays ≤ a.nReps * a.nx * a.ny ∧ a.nReps * a.nx * a.ny < a.nRays + a.nx * a.ny ∧
    ∀ o : ℕ → ℕ → ℕ → RayOut, (raysInOrder a.nReps a.nx a.ny o).length = a.nReps * a.nx * a.ny ∧
      ∀ j < a.nReps, ∀ i < a.nx, ∀ k < a.ny, (raysInOrder a.nReps a.nx a.ny o)[(j * a.nx + i) * a.ny + k]? = some (o j i k) := by
  have hp : (0 : ℝ) < (a.nx : ℝ) * a.ny := by positivity
  refine ⟨?_, ?_, fun o => ⟨raysInOrder_length _ _ _ _, fun j hj i hi k hk => raysInOrder_getElem? hj hi hk⟩⟩
  · have h1 := Nat.le_ceil ((a.nRays : ℝ) / ((a.nx : ℝ) * a.ny))
    rw [div_le_iff₀ hp] at h1
    have : (a.nRays : ℝ) ≤ ((a.nReps * a.nx * a.ny : ℕ) : ℝ) := by
      unfold CalcArgs.nReps nAngles
      push_cast
      linarith
    exact_mod_cast this
  · have h1 := Nat.ceil_lt_add_one (a := (a.nRays : ℝ) / ((a.nx : ℝ) * a.ny)) (by positivity)
    have h2 := mul_lt_mul_of_pos_right h1 hp
    rw [add_mul, div_mul_cancel₀ _ hp.ne'] at h2
    have : ((a.nReps * a.nx * a.ny : ℕ) : ℝ) < ((a.nRays + a.nx * a.ny : ℕ) : ℝ) := by
      unfold CalcArgs.nReps nAngles
      push_cast
      linarith
    exact_mod_cast this

theorem foldlM_some_mem {α β : Type*} {f : β → α → Option β} : ∀ {l : List α} {s s' : β}, l.foldlM f s = some s' → ∀ x ∈ l, ∃ s1 s2, f s1 x = some s2 := by
  intro l
  induction l with
  | nil => intro s s' _ x hx; simp at hx
  | cons b l ih =>
    intro s s' h x hx
    rw [List.foldlM_cons] at h
    cases hb : f s b with
    | none => rw [hb] at h; simp at h
    | some s1 =>
      rw [hb] at h
      rcases List.mem_cons.mp hx with rfl | hx
      · exact ⟨s, s1, hb⟩
      · exact ih h x hx

theorem mapM_some_mem {α β : Type*} {f : α → Option β} : ∀ {l : List α} {r : List β}, l.mapM f = some r → ∀ x ∈ l, ∃ y, f x = some y := by
  intro l
  induction l with
  | nil => intro r _ x hx; simp at hx
  | cons b l ih =>
    intro r h x hx
    rw [List.mapM_cons] at h
    cases hb : f b with
    | none => rw [hb] at h; simp at h
    | some y =>
      rw [hb] at h
      rcases List.mem_cons.mp hx with rfl | hx
      · exact ⟨y, hb⟩
      · cases hl : l.mapM f with
        | none => rw [hl] at h; simp at h
        | some r' => exact ih hl x hx

/-- **C145, no ray is lost.** If `calculate` returns at all, every ray has been traced to its end without an exception: no ray is skipped. -/
theorem C145_all_rays {res : RTResult} (h : calculate a ux uy junk nWl tracer = some res) : ∃ out, AllTraced a ux uy nWl tracer out := by
  have key : ∀ w < nWl, ∀ j < a.nReps, ∀ i x, (a.xs ux)[i]? = some x → ∀ k y, (a.ys uy)[k]? = some y → ∃ o, tracer w j (i * a.ny + k) x y = some o := by
    intro w hw j hj i x hx k y hy
    unfold calculate at h
    rw [Option.bind_eq_some_iff] at h
    obtain ⟨r, h1, -⟩ := h
    obtain ⟨z, h2⟩ := mapM_some_mem h1 w (List.mem_range.mpr hw)
    unfold parallelInner at h2
    rw [Option.bind_eq_some_iff] at h2
    obtain ⟨s, h3, -⟩ := h2
    unfold innerLoop at h3
    obtain ⟨s1, s2, h4⟩ := foldlM_some_mem h3 j (List.mem_range.mpr hj)
    have hmem : ((x, y), i * a.ny + k) ∈ ((a.xs ux).product (a.ys uy)).zipIdx := by
      rw [List.mk_mem_zipIdx_iff_getElem?, ← ys_length a uy]
      exact product_getElem? _ _ _ _ _ _ hx hy
    obtain ⟨s3, s4, h5⟩ := foldlM_some_mem h4 _ hmem
    rw [Option.bind_eq_some_iff] at h5
    obtain ⟨o, h6, -⟩ := h5
    exact ⟨o, h6⟩
  classical
  refine ⟨fun w j i k => if h : ∃ o, tracer w j (i * a.ny + k) ((a.xs ux).getD i 0) ((a.ys uy).getD k 0) = some o then h.choose
    else { ray := Stack.start 0 1, phi := 0, nInt := 0 }, ?_⟩
  intro w hw j hj i x hx k y hy
  have hx' : (a.xs ux).getD i 0 = x := by simp [List.getD_eq_getElem?_getD, hx]
  have hy' : (a.ys uy).getD k 0 = y := by simp [List.getD_eq_getElem?_getD, hy]
  have := key w hw j hj i x hx k y hy
  simp only [hx', hy']
  rw [dif_pos this]
  exact this.choose_spec

/-! ## With the rays of `single_ray_stack` -/

theorem average_ray (outs : List RayOut) (f : Ray → ℝ) : average outs (fun o => f o.ray) = rayMean (outs.map RayOut.ray) f := by
  unfold rayMean
  rw [← average_eq rfl]
  simp [Function.comp_def]

theorem sum_of_entries {row : List ℝ} {n : ℕ} {f : ℕ → ℝ} (h1 : row.length = n) (h2 : ∀ m < n, row[m]? = some (f m)) : row.sum = ∑ m ∈ Finset.range n, f m := by
  have : row = (List.range n).map f := by
    apply List.ext_getElem?
    intro m
    by_cases hm : m < n
    · simp [h2 m hm, List.getElem?_range hm]
    · rw [List.getElem?_eq_none (by omega), List.getElem?_eq_none (by simp; omega)]
  rw [this, Finset.sum_range, ← List.sum_ofFn, List.ofFn_eq_map, ← List.map_coe_finRange_eq_range, List.map_map]
  rfl

end

theorem finished_energy {S : Stack} (hS : Passive S) {matI dirI : ℤ} (hv : ValidStart S matI dirI) {s : Ray} (h : FinishedFrom S matI dirI s) : Energy S s := by
  obtain ⟨os, ho, htr, hstop⟩ := h
  obtain ⟨s1, h1, -, h3⟩ := trace_energy hS (start_onTrack hv) (start_energy S matI dirI) os ho
  rw [htr] at h1
  simp only [Option.some.injEq] at h1
  exact h1 ▸ h3

section
variable {a : CalcArgs} {ux uy : ℕ → ℝ} {junk : ℕ → ℕ → ℕ → Bool} {nWl : ℕ} {tracer : ℕ → ℕ → ℕ → ℝ → ℝ → Option RayOut} {out : ℕ → ℕ → ℕ → ℕ → RayOut}
  {c : ℕ → RTStack} {ks : ℕ → List ℝ} {wl : ℕ → ℝ} {thresh : ℝ} {matI dirI : ℤ} {h θ φ : ℝ}

variable (H : Physical a ux uy nWl tracer out c ks wl thresh matI dirI h θ φ)
include H

theorem physical_finished {w : ℕ} (hw : w < nWl) {o : RayOut} (ho : o ∈ raysInOrder a.nReps a.nx a.ny (out w)) :
    ∃ s : StackRay, o.ray = s.ray ∧ TracedThrough (c w) matI dirI h θ φ s := by
  obtain ⟨j, hj, i, hi, k, hk, rfl⟩ := mem_raysInOrder.mp ho
  obtain ⟨s, ⟨ms, h1, h2, h3, h4⟩, hs⟩ := H.rays w hw j hj i _ (List.getElem?_eq_getElem (by rw [xs_length]; exact hi)) k _ (List.getElem?_eq_getElem (by rw [ys_length]; exact hk))
  exact ⟨s, hs, _, _, ms, h1, h2, h3, h4⟩

theorem physical_says {w : ℕ} (hw : w < nWl) {o : RayOut} (ho : o ∈ raysInOrder a.nReps a.nx a.ny (out w)) : SaysWhere (a.widths.length + 1) a.tmm o := by
  obtain ⟨s, hs, ht⟩ := physical_finished H hw ho
  obtain ⟨h1, h2⟩ := traced_finished (c w) (layersIn a.tmm) (H.physical w hw) matI dirI (H.start w hw) h θ φ H.angle.1 H.angle.2 H.height ht
  have he := finished_energy (H.physical w hw).passive (H.start w hw) h1
  unfold SaysWhere
  rw [hs]
  rcases he.noInt with ⟨h0, -⟩ | ⟨-, -, -, j, hj, hidx⟩
  · exact Or.inl h0
  · have hS : (c w).S.nSurf = a.widths.length + 1 := by rw [H.stack w hw]; simp [Stack.nSurf, calcStack, calcWidths]
    refine Or.inr ⟨j, by omega, hidx, ?_⟩
    intro nls hn
    have hlen := h2.layers j hidx
    have hj' : j < nls.length := by rw [H.layers nls hn]; omega
    rw [hlen, layersIn, hn]
    simp [List.getD_eq_getElem?_getD, List.getElem?_eq_getElem hj']

/-- **C145, energy.** At every wavelength the `R`, `T`, `A_per_layer` and `A_per_interface` that are returned add up to between `1 - I_thresh` and 1. -/
theorem C145_totals (hx : 0 < a.nx) (hy : 0 < a.ny) (hn : 0 < a.nRays) :
    ∃ res, calculate a ux uy junk nWl tracer = some res ∧ ∀ w < nWl, ∃ R T A, res.R[w]? = some R ∧ res.T[w]? = some T ∧ res.A_per_layer[w]? = some A ∧ 0 ≤ R ∧ 0 ≤ T ∧ (∀ x ∈ A, 0 ≤ x) ∧
      1 - thresh ≤ R + T + A.sum + interfaceTotal res w ∧ R + T + A.sum + interfaceTotal res w ≤ 1 := by
  have hsay : ∀ w < nWl, ∀ j < a.nReps, ∀ i < a.nx, ∀ k < a.ny, SaysWhere (a.widths.length + 1) a.tmm (out w j i k) := by
    intro w hw j hj i hi k hk
    exact physical_says H hw (mem_raysInOrder.mpr ⟨j, hj, i, hi, k, hk, rfl⟩)
  obtain ⟨res, hres, -, -, -, hrep⟩ := C145_reports (junk := junk) H.traced H.layers hsay
  refine ⟨res, hres, fun w hw => ?_⟩
  have r := hrep w hw
  set outs := raysInOrder a.nReps a.nx a.ny (out w) with houts
  have hlen : outs.length = a.nReps * a.nx * a.ny := raysInOrder_length _ _ _ _
  have hne : outs ≠ [] := by
    intro h0
    have := (C145_order (a := a) hx hy).1
    rw [← hlen, h0] at this
    simp at this
    omega
  choose f hf using fun (o : {o // o ∈ outs}) => physical_finished H hw o.2
  have hrays : (outs.attach.map f).map StackRay.ray = outs.map RayOut.ray := by
    rw [List.map_map, ← List.attach_map_val (l := outs)]
    apply List.map_congr_left
    intro o _
    exact ((hf o).1).symm
  have hC := C130_totals (c w) (layersIn a.tmm) (H.physical w hw) matI dirI (H.start w hw) h θ φ H.angle.1 H.angle.2 H.height (outs.attach.map f)
    (by simpa using hne) (by
      intro s hs
      obtain ⟨o, -, rfl⟩ := List.mem_map.mp hs
      exact (hf o).2)
  simp only [hrays] at hC
  obtain ⟨c1, c2, c3, c4, c5, c6⟩ := hC
  have hS : (c w).S.widths.length = a.widths.length + 2 := by rw [H.stack w hw]; simp [calcStack, calcWidths]
  have hnS : (c w).S.nSurf = a.widths.length + 1 := by simp [Stack.nSurf, hS]
  have hth : (c w).S.thresh = thresh := by rw [H.stack w hw]; rfl
  classical
  have eR : res.R[w]? = some (resR (outs.map RayOut.ray)) := by
    rw [r.R]
    congr 1
    unfold resR
    rw [← average_ray]
    congr 1
    funext o
    cases ht : o.ray.θ <;> simp [Ray.isRefl, LeftUp, ht]
  have eT : res.T[w]? = some (resT (outs.map RayOut.ray)) := by
    rw [r.T]
    congr 1
    unfold resT
    rw [← average_ray]
    congr 1
    funext o
    cases ht : o.ray.θ <;> simp [Ray.isTrns, LeftDown, ht]
  obtain ⟨A, a1, a2, a3⟩ := r.A
  have eA : A.sum = ∑ m ∈ Finset.Ico 1 ((c w).S.widths.length - 1), resA (outs.map RayOut.ray) m := by
    rw [sum_of_entries a2 a3, hS, Finset.sum_Ico_eq_sum_range]
    simp only [show a.widths.length + 2 - 1 - 1 = a.widths.length by omega]
    apply Finset.sum_congr rfl
    intro m _
    rw [average_ray outs fun s => s.A (m + 1), resA, Nat.add_comm]
  have eI : interfaceTotal res w = ∑ j ∈ Finset.range (c w).S.nSurf, ∑ l ∈ Finset.range (layersIn a.tmm j), resAint (outs.map RayOut.ray) j l := by
    have hi := r.interfaces
    cases ht : a.tmm with
    | none =>
      rw [ht] at hi
      simp only at hi
      simp [interfaceTotal, hi, layersIn]
    | some nls =>
      rw [ht] at hi
      simp only at hi
      obtain ⟨tab, t1, t2, t3⟩ := hi
      have hl : nls.length = a.widths.length + 1 := H.layers nls ht
      rw [interfaceTotal, t1, hnS]
      simp only
      refine sum_of_entries (by rw [List.length_map, t2, hl]) ?_
      intro j hj
      have hj' : nls[j]? = some (layersIn (some nls) j) := by
        simp [layersIn, List.getD_eq_getElem?_getD, List.getElem?_eq_getElem (show j < nls.length by omega)]
      obtain ⟨rows, row, q1, q2, q3, q4⟩ := t3 j _ hj'
      rw [List.getElem?_map, q1, Option.map_some, List.getD_eq_getElem?_getD, q2]
      congr 1
      simp only [Option.getD_some]
      rw [sum_of_entries q3 q4]
      apply Finset.sum_congr rfl
      intro l _
      rw [average_ray outs fun s => if s.aIdx = (j : ℤ) + 1 then s.aInt.getD l 0 else 0]
      rfl
  refine ⟨_, _, A, eR, eT, a1, c3, c4, ?_, ?_, ?_⟩
  · intro x hxA
    obtain ⟨m, hm⟩ := List.getElem?_of_mem hxA
    have hm' : m < a.widths.length := by rw [← a2]; exact (List.getElem?_eq_some_iff.mp hm).1
    rw [a3 m hm', average_ray outs fun s => s.A (m + 1)] at hm
    simp only [Option.some.injEq] at hm
    rw [← hm]
    exact c5 (m + 1)
  · rw [eA, eI, ← hth]; exact c1
  · rw [eA, eI]; exact c2

omit H

theorem calcWidths_take (widths : List ℝ) {m : ℕ} (hm : m ≤ widths.length) : ((calcWidths widths).take (m + 1)).sum = 1e6 * (widths.take m).sum := by
  unfold calcWidths
  rw [← List.map_take, List.cons_append, List.take_succ_cons, List.take_append_of_le_length hm, List.map_cons, List.sum_cons, List.sum_map_mul_left]
  simp

theorem trapz_scale (c d : ℝ) : ∀ (l : List ℕ) (f g : ℕ → ℝ), trapz (l.map fun k => c * f k) (l.map fun k => d * g k) = c * d * trapz (l.map f) (l.map g) := by
  intro l
  induction l with
  | nil => intro f g; simp
  | cons k l ih =>
    intro f g
    cases l with
    | nil => simp
    | cons k' l =>
      have := ih f g
      simp only [List.map_cons, trapz] at this ⊢
      rw [this]; ring

include H

/-- **C145, profile.** Integrated over the depths (in nm) inside a layer, the `profile` that is returned gives the absorption of that layer in `A_per_layer`, if the layer contains two or more depth samples. -/
theorem C145_profile (hd : 0 < a.spacing) :
    ∃ res, calculate a ux uy junk nWl tracer = some res ∧ ∀ w < nWl, ∃ P A, res.profile[w]? = some P ∧ res.A_per_layer[w]? = some A ∧ ∀ m < a.widths.length,
      2 ≤ (samplesIn a.widths a.spacing P.length m).length →
      A[m]? = some (trapz ((samplesIn a.widths a.spacing P.length m).map fun k => P.getD k 0) ((samplesIn a.widths a.spacing P.length m).map fun k : ℕ => 1e9 * ((k : ℝ) * a.spacing))) := by
  have hsay : ∀ w < nWl, ∀ j < a.nReps, ∀ i < a.nx, ∀ k < a.ny, SaysWhere (a.widths.length + 1) a.tmm (out w j i k) := by
    intro w hw j hj i hi k hk
    exact physical_says H hw (mem_raysInOrder.mpr ⟨j, hj, i, hi, k, hk, rfl⟩)
  obtain ⟨res, hres, -, -, -, hrep⟩ := C145_reports (junk := junk) H.traced H.layers hsay
  refine ⟨res, hres, fun w hw => ?_⟩
  have r := hrep w hw
  set outs := raysInOrder a.nReps a.nx a.ny (out w) with houts
  obtain ⟨A, a1, a2, a3⟩ := r.A
  obtain ⟨P, p1, p2, p3⟩ := r.profile
  refine ⟨P, A, p1, a1, fun m hm h2 => ?_⟩
  have hz : ∀ k, k < (calcZ a.widths a.spacing).length → (calcZ a.widths a.spacing).getD k 0 = 1e6 * (k * a.spacing) := by
    intro k hk
    unfold calcZ arange at hk ⊢
    rw [List.length_map, List.length_range] at hk
    rw [List.getD_eq_getElem?_getD, List.getElem?_map, List.getElem?_range hk]
    simp only [Option.map_some, Option.getD_some]
    ring
  have hS := H.stack w hw
  have hsamp : layerSamples (c w).S (m + 1) = samplesIn a.widths a.spacing P.length m := by
    unfold layerSamples samplesIn
    rw [hS, p2]
    apply List.filter_congr
    intro k hk
    rw [List.mem_range] at hk
    rw [decide_eq_decide]
    simp only [calcStack] at hk ⊢
    rw [hz k hk, calcWidths_take _ hm.le, calcWidths_take _ (Nat.succ_le_of_lt hm), mul_le_mul_iff_right₀ (by norm_num : (0 : ℝ) < 1e6), mul_lt_mul_iff_right₀ (by norm_num : (0 : ℝ) < 1e6)]
  have hfin : ∀ s ∈ outs.map RayOut.ray, FinishedFrom (c w).S matI dirI s := by
    intro s hs
    obtain ⟨o, ho, rfl⟩ := List.mem_map.mp hs
    obtain ⟨s', hs', ht⟩ := physical_finished H hw ho
    rw [hs']
    exact (traced_finished (c w) (layersIn a.tmm) (H.physical w hw) matI dirI (H.start w hw) h θ φ H.angle.1 H.angle.2 H.height ht).1
  have hinc : (c w).S.zpos.Pairwise (· < ·) := by
    rw [hS]
    simp only [calcStack, calcZ, arange]
    rw [List.pairwise_map]
    apply List.Pairwise.imp _ List.pairwise_lt_range
    intro i j hij
    have : (i : ℝ) < j := by exact_mod_cast hij
    have h6 : (0 : ℝ) < 1e6 * a.spacing := by positivity
    nlinarith
  have key := C40_profile (c w).S (H.physical w hw).passive hinc matI dirI (H.start w hw) (outs.map RayOut.ray) hfin (m + 1) (by rw [hsamp]; exact h2)
  rw [a3 m hm, average_ray outs fun s => s.A (m + 1)]
  congr 1
  change resA (outs.map RayOut.ray) (m + 1) = _
  rw [← key]
  unfold layerIntegral
  rw [hsamp]
  set L := samplesIn a.widths a.spacing P.length m with hL
  have hLmem : ∀ k ∈ L, k < P.length := by
    intro k hk
    rw [hL, samplesIn, List.mem_filter, List.mem_range] at hk
    exact hk.1
  have e1 : L.map (resProfile (outs.map RayOut.ray)) = L.map fun k => 1e3 * P.getD k 0 := by
    apply List.map_congr_left
    intro k hk
    have hk' := hLmem k hk
    rw [List.getD_eq_getElem?_getD, p3 k (by rw [← p2]; exact hk'), Option.getD_some, average_ray outs fun s => s.profile k]
    unfold resProfile
    simp only
    split_ifs with h0
    · rw [max_eq_left h0.le]; norm_num
    · rw [max_eq_right (not_lt.mp h0)]; ring
  have e2 : (L.map fun k => (c w).S.zpos.getD k 0) = L.map fun k : ℕ => 1e6 * ((k : ℝ) * a.spacing) := by
    apply List.map_congr_left
    intro k hk
    rw [hS]
    exact hz k (by rw [← p2]; exact hLmem k hk)
  rw [e1, e2, trapz_scale]
  have e3 := trapz_scale 1 1e9 L (fun k => P.getD k 0) (fun k => (k : ℝ) * a.spacing)
  simp only [one_mul] at e3
  rw [e3]
  congr 1
  norm_num

omit H

/-- **C145, units.** Widths and wavelengths are given in metres: a ray that crosses layer `m` of width `w` at polar angle `θ`, at wavelength `λ`, keeps the fraction `exp(-4π·k·w / (λ·|cos θ|))` of its intensity, where `k` is the extinction coefficient
of that layer (number `m + 1` in the list, which starts with the incidence medium). -/
theorem C145_units (widths ks : List ℝ) (wl spacing thresh : ℝ) (hwl : wl ≠ 0) (s : Ray) (t : ℝ) (hs : s.θ = some t) (m : ℕ) (hm : m < widths.length) (k : ℝ) (hk : ks[m + 1]? = some k) :
    ((calcStack widths ks wl spacing thresh).pass s (m + 1)).I = s.I * Real.exp (-(4 * Real.pi * k * widths[m] / (wl * |Real.cos t|))) := by
  have hw : (calcStack widths ks wl spacing thresh).widths.getD (m + 1) 0 = 1e6 * widths[m] := by
    simp [calcStack, calcWidths, List.getD_eq_getElem?_getD, List.getElem?_append_left (show m < (widths.map fun w => 1e6 * w).length by simpa using hm), hm]
  have ha : (calcStack widths ks wl spacing thresh).alphas.getD (m + 1) 0 = k * 4 * Real.pi / (wl * 1e6) := by
    simp [calcStack, calcAlphas, List.getD_eq_getElem?_getD, hk]
  unfold Stack.pass Model.traverse
  simp only [hw, ha, hs, Option.getD_some]
  congr 2
  by_cases hc : |Real.cos t| = 0
  · rw [hc]; simp
  · field_simp

end

/-! ## Example -/

/-- One layer, 2 µm thick, two rays launched at (1, 1). -/
noncomputable def exCalc : CalcArgs :=
  { widths := [2e-6], spacing := 5e-7, nx := 1, ny := 1, nRays := 2, random := false, xlim := some (1, 1), ylim := some (1, 1), xmin := 0, xmax := 10, ymin := 0, ymax := 10, tmm := none }

theorem exCalc_nReps : exCalc.nReps = 2 := by
  simp [CalcArgs.nReps, exCalc, nAngles]

theorem exCalc_xs (u : ℕ → ℝ) : exCalc.xs u = [1] ∧ exCalc.ys u = [1] := by
  simp [CalcArgs.xs, CalcArgs.ys, calcCoords, calcLimits, exCalc, linspace]

theorem exCalc_length : (calcStack exCalc.widths [0, 1, 0] 1e-6 exCalc.spacing (1 / 100)).widths.length = 3 := by simp [calcStack, calcWidths, exCalc]

/-- The hypotheses of C145 can be met, with a ray that is traced by `single_ray_stack`. -/
theorem exCalc_physical : ∃ tracer out, Physical exCalc (fun _ => 0) (fun _ => 0) 3 tracer out (fun _ => { exRT with S := calcStack exCalc.widths [0, 1, 0] 1e-6 exCalc.spacing (1 / 100) })
    (fun _ => [0, 1, 0]) (fun _ => 1e-6) (1 / 100) 0 1 (5 - 1e-8) 0 0 := by
  obtain ⟨ms, s, h1, h2, h3, h4, -⟩ := exRT_run _ exCalc_length
  refine ⟨fun _ _ _ _ _ => some ⟨s.ray, 0, 1⟩, fun _ _ _ _ => ⟨s.ray, 0, 1⟩, ?_⟩
  constructor
  · intro w _ j _ i x _ k y _; rfl
  · intro nls h; simp [exCalc] at h
  · intro w _; rfl
  · intro w _
    constructor
    · constructor
      · intro x hx; simp [calcStack, calcWidths, exCalc] at hx; rcases hx with rfl | rfl | rfl <;> norm_num
      · intro x hx; simp [calcStack, calcAlphas] at hx
        rcases hx with rfl | rfl | rfl <;> positivity
      · norm_num [calcStack]
    · simp [Stack.nSurf, calcStack, calcWidths, exCalc, exRT]
    · simp [Stack.nSurf, calcStack, calcWidths, exCalc, exRT]
    · simp [calcStack, calcWidths, exCalc, exRT]
    · exact exRT_physical.re
    · exact exRT_physical.im
    · intro k tab hk
      rcases k with _ | _ | k <;> simp [exRT] at hk
  · intro w _; exact Or.inl ⟨rfl, le_refl _, by simp [Stack.nSurf, calcStack, calcWidths, exCalc]⟩
  · exact ⟨le_refl _, by positivity⟩
  · norm_num
  · intro w _ j _ i x hx k y hy
    rw [(exCalc_xs _).1] at hx
    rw [(exCalc_xs _).2] at hy
    have hx1 : x = 1 := by have := List.mem_of_getElem? hx; simpa using this
    have hy1 : y = 1 := by have := List.mem_of_getElem? hy; simpa using this
    subst hx1 hy1
    exact ⟨s, ⟨ms, h1, h2, h3, h4⟩, rfl⟩

example : ∃ tracer res, calculate exCalc (fun _ => 0) (fun _ => 0) (fun _ _ _ => true) 3 tracer = some res ∧ ∃ R T A, res.R[2]? = some R ∧ res.T[2]? = some T ∧ res.A_per_layer[2]? = some A ∧
    1 - 1 / 100 ≤ R + T + A.sum + interfaceTotal res 2 := by
  obtain ⟨tracer, out, H⟩ := exCalc_physical
  obtain ⟨res, h1, h2⟩ := C145_totals (junk := fun _ _ _ => true) H (by simp [exCalc]) (by simp [exCalc]) (by simp [exCalc])
  obtain ⟨R, T, A, r1, r2, r3, -, -, -, r4, -⟩ := h2 2 (by norm_num)
  exact ⟨tracer, res, h1, R, T, A, r1, r2, r3, r4⟩

/-- The layer of the example has four depth samples. -/
example : 2 ≤ (samplesIn exCalc.widths exCalc.spacing 4 0).length := by
  have : samplesIn exCalc.widths exCalc.spacing 4 0 = [0, 1, 2, 3] := by
    unfold samplesIn exCalc
    rw [show List.range 4 = [0, 1, 2, 3] from rfl]
    norm_num [List.filter_cons]
  rw [this]; simp

end Rayflare
