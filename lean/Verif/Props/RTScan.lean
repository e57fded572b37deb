import Verif.Lemmas.RTScan
import Verif.Props.RTCalculate

/-!
# Properties C146 and C147: the points at which rays are launched by `rt_structure.calculate`
-/

namespace Rayflare

open Rayflare.Np Rayflare.Model Rayflare.Spec Rayflare.Lemmas MeasureTheory

/-! ## Helper lemmas -/

theorem nReps_pos {a : CalcArgs} (hx : 0 < a.nx) (hy : 0 < a.ny) (hr : 0 < a.nRays) : 0 < a.nReps := by
  unfold CalcArgs.nReps nAngles
  apply Nat.ceil_pos.mpr
  positivity

theorem launchMean_eq {a : CalcArgs} (hx : 0 < a.nx) (hy : 0 < a.ny) (hr : 0 < a.nRays) (ux uy : ℕ → ℝ) (f : ℝ → ℝ → ℝ) :
    launchMean a ux uy f = (∑ i ∈ Finset.range a.nx, ∑ k ∈ Finset.range a.ny, f ((a.xs ux).getD i 0) ((a.ys uy).getD k 0)) / (a.nx * a.ny) := by
  have h : (0 : ℝ) < a.nReps := by exact_mod_cast nReps_pos hx hy hr
  have hx' : (0 : ℝ) < a.nx := by exact_mod_cast hx
  have hy' : (0 : ℝ) < a.ny := by exact_mod_cast hy
  unfold launchMean
  rw [Finset.sum_const, Finset.card_range, nsmul_eq_mul]
  push_cast
  rw [mul_assoc, mul_div_mul_left _ _ h.ne']

theorem coords_random {lim : ℝ × ℝ} {u : ℕ → ℝ} {n i : ℕ} (hi : i < n) : (calcCoords true u lim n).getD i 0 = lim.1 + (lim.2 - lim.1) * u i := by
  simp [calcCoords, List.getD_eq_getElem?_getD, List.getElem?_range hi]

theorem coords_scan {lim : ℝ × ℝ} {u : ℕ → ℝ} {n i : ℕ} (hi : i < n) : (calcCoords false u lim n).getD i 0 = lim.1 + (lim.2 - lim.1) * (i / ((n - 1 : ℕ) : ℝ)) := by
  simp only [calcCoords, linspace, List.getD_eq_getElem?_getD, Bool.false_eq_true, if_false, List.getElem?_map, List.getElem?_range hi, Option.map_some, Option.getD_some]
  ring

theorem map_range_sum (n : ℕ) (g : ℕ → ℝ) : ((List.range n).map g).sum = ∑ i ∈ Finset.range n, g i := by
  induction n with
  | zero => simp
  | succ n ih => rw [List.range_succ, List.map_append, List.sum_append, ih, Finset.sum_range_succ]; simp

theorem flatMap_range_sum (n : ℕ) (g : ℕ → List ℝ) : ((List.range n).flatMap g).sum = ∑ i ∈ Finset.range n, (g i).sum := by
  induction n with
  | zero => simp
  | succ n ih => rw [List.range_succ, List.flatMap_append, List.sum_append, ih, Finset.sum_range_succ]; simp

/-! ## C146: random positions -/

section
variable {a : CalcArgs}

/-- **C146, where the points are.** Every point lies in the window. -/
theorem C146_inside (hr : a.random = true) {ux uy : ℕ → ℝ} (hux : ∀ i, 0 ≤ ux i ∧ ux i < 1) (huy : ∀ k, 0 ≤ uy k ∧ uy k < 1)
    (hwx : (windowX a).1 ≤ (windowX a).2) (hwy : (windowY a).1 ≤ (windowY a).2) :
    ∀ p ∈ (a.xs ux).product (a.ys uy), (windowX a).1 ≤ p.1 ∧ p.1 ≤ (windowX a).2 ∧ (windowY a).1 ≤ p.2 ∧ p.2 ≤ (windowY a).2 := by
  rintro ⟨x, y⟩ hp
  have hp' := List.mem_product.mp hp
  simp only [CalcArgs.xs, CalcArgs.ys, hr, calcCoords, if_true, List.mem_map, List.mem_range] at hp'
  obtain ⟨⟨i, -, rfl⟩, ⟨k, -, rfl⟩⟩ := hp'
  change (windowX a).1 ≤ (windowX a).1 + ((windowX a).2 - (windowX a).1) * ux i ∧ (windowX a).1 + ((windowX a).2 - (windowX a).1) * ux i ≤ (windowX a).2 ∧
    (windowY a).1 ≤ (windowY a).1 + ((windowY a).2 - (windowY a).1) * uy k ∧ (windowY a).1 + ((windowY a).2 - (windowY a).1) * uy k ≤ (windowY a).2
  refine ⟨?_, ?_, ?_, ?_⟩ <;> nlinarith [hux i, huy k]

/-- **C146 fails.** The documentation promises `nx*ny` random points. For every window of some extent in `x`, and at least two points per `x`, there are `nx*ny` points inside the window which can never be drawn together. -/
theorem C146_fails (hr : a.random = true) (hx : 0 < a.nx) (hy : 2 ≤ a.ny) (hwx : (windowX a).1 < (windowX a).2) (hwy : (windowY a).1 ≤ (windowY a).2) :
    ∃ pts : List (ℝ × ℝ), pts.length = a.nx * a.ny ∧
      (∀ p ∈ pts, (windowX a).1 ≤ p.1 ∧ p.1 < (windowX a).2 ∧ (windowY a).1 ≤ p.2 ∧ p.2 ≤ (windowY a).2) ∧ ∀ ux uy, (a.xs ux).product (a.ys uy) ≠ pts := by
  have hn : 2 ≤ a.nx * a.ny := by nlinarith
  refine ⟨((windowX a).1, (windowY a).1) :: List.replicate (a.nx * a.ny - 1) (((windowX a).1 + (windowX a).2) / 2, (windowY a).1), by simp; omega, ?_, ?_⟩
  · intro p hp
    rcases List.mem_cons.mp hp with rfl | hp
    · exact ⟨le_rfl, hwx, le_rfl, hwy⟩
    · obtain rfl := (List.mem_replicate.mp hp).2
      refine ⟨?_, ?_, le_rfl, hwy⟩ <;> simp only <;> linarith
  · intro ux uy h
    obtain ⟨x, hx0⟩ : ∃ x, (a.xs ux)[0]? = some x := ⟨_, List.getElem?_eq_getElem (by rw [xs_length]; omega)⟩
    obtain ⟨y0, hy0⟩ : ∃ y, (a.ys uy)[0]? = some y := ⟨_, List.getElem?_eq_getElem (by rw [ys_length]; omega)⟩
    obtain ⟨y1, hy1⟩ : ∃ y, (a.ys uy)[1]? = some y := ⟨_, List.getElem?_eq_getElem (by rw [ys_length]; omega)⟩
    have h0 := product_getElem? _ _ _ _ _ _ hx0 hy0
    have h1 := product_getElem? _ _ _ _ _ _ hx0 hy1
    rw [h] at h0 h1
    simp only [zero_mul, zero_add, List.getElem?_cons_zero, Option.some.injEq, Prod.mk.injEq] at h0
    rw [zero_mul, zero_add, List.getElem?_cons_succ, List.getElem?_replicate, if_pos (by omega)] at h1
    simp only [Option.some.injEq, Prod.mk.injEq] at h1
    linarith [h0.1, h1.1]

/-- **C146, few different coordinates.** Of a quantity that depends on `x` only, the average over the `nx*ny` points is the average over just `nx` numbers, however large `ny` and `n_rays` are. -/
theorem C146_columns (hx : 0 < a.nx) (hy : 0 < a.ny) (hn : 0 < a.nRays) (ux uy : ℕ → ℝ) (g : ℝ → ℝ) :
    launchMean a ux uy (fun x _ => g x) = (∑ i ∈ Finset.range a.nx, g ((a.xs ux).getD i 0)) / a.nx := by
  have hx' : (0 : ℝ) < a.nx := by exact_mod_cast hx
  have hy' : (0 : ℝ) < a.ny := by exact_mod_cast hy
  rw [launchMean_eq hx hy hn]
  simp only [Finset.sum_const, Finset.card_range, nsmul_eq_mul, ← Finset.mul_sum]
  rw [mul_comm (a.ny : ℝ), mul_div_mul_right _ _ hy'.ne']

/-- **C146, more rays.** The number of rays has no influence on the points: the average over the points is the same for any two numbers of rays. -/
theorem C146_rays (hx : 0 < a.nx) (hy : 0 < a.ny) (ux uy : ℕ → ℝ) (f : ℝ → ℝ → ℝ) {n n' : ℕ} (hn : 0 < n) (hn' : 0 < n') :
    launchMean { a with nRays := n } ux uy f = launchMean { a with nRays := n' } ux uy f := by
  rw [launchMean_eq (a := { a with nRays := n }) hx hy hn, launchMean_eq (a := { a with nRays := n' }) hx hy hn']
  rfl

/-- **C146, no bias (partial).** If the two random numbers of each point are uniformly distributed over the unit square, the expected average over the points is the average over the window. The points of one column (or row) need
not be independent of each other for this. Missing from the property: that the `nx*ny` points are drawn independently, which is false. -/
theorem C146_unbiased_partial {Ω : Type*} [MeasurableSpace Ω] (P : Measure Ω) [IsProbabilityMeasure P] {ux uy : Ω → ℕ → ℝ} (hr : a.random = true) (hx : 0 < a.nx) (hy : 0 < a.ny) (hn : 0 < a.nRays)
    (hu : ∀ i < a.nx, ∀ k < a.ny, UniformPair P (fun ω => ux ω i) (fun ω => uy ω k)) {f : ℝ → ℝ → ℝ} (hf : Measurable (Function.uncurry f)) {C : ℝ} (hC : ∀ x y, |f x y| ≤ C) :
    ∫ ω, launchMean a (ux ω) (uy ω) f ∂P = rectMean (windowX a) (windowY a) f := by
  have hx' : (0 : ℝ) < a.nx := by exact_mod_cast hx
  have hy' : (0 : ℝ) < a.ny := by exact_mod_cast hy
  set F : ℝ × ℝ → ℝ := fun p => f ((windowX a).1 + ((windowX a).2 - (windowX a).1) * p.1) ((windowY a).1 + ((windowY a).2 - (windowY a).1) * p.2) with hF
  have hFm : Measurable F := hf.comp (by fun_prop : Measurable fun p : ℝ × ℝ => ((windowX a).1 + ((windowX a).2 - (windowX a).1) * p.1, (windowY a).1 + ((windowY a).2 - (windowY a).1) * p.2))
  have hone : ∀ i < a.nx, ∀ k < a.ny, Integrable (fun ω => F (ux ω i, uy ω k)) P ∧ ∫ ω, F (ux ω i, uy ω k) ∂P = rectMean (windowX a) (windowY a) f := by
    intro i hi k hk
    obtain ⟨h1, h2⟩ := hu i hi k hk
    have hb : ∀ ω, ‖F (ux ω i, uy ω k)‖ ≤ C := fun ω => hC _ _
    refine ⟨Integrable.of_bound (hFm.comp_aemeasurable h1).aestronglyMeasurable C (Filter.Eventually.of_forall hb), ?_⟩
    rw [← integral_map (φ := fun ω => (ux ω i, uy ω k)) h1 hFm.aestronglyMeasurable, h2, integral_prod]
    · unfold rectMean
      rw [intervalIntegral.integral_of_le zero_le_one]
      congr 1
      funext s
      rw [intervalIntegral.integral_of_le zero_le_one]
    · exact Integrable.of_bound hFm.aestronglyMeasurable C (Filter.Eventually.of_forall fun p => hC _ _)
  have e : ∀ ω, launchMean a (ux ω) (uy ω) f = (∑ i ∈ Finset.range a.nx, ∑ k ∈ Finset.range a.ny, F (ux ω i, uy ω k)) / (a.nx * a.ny) := by
    intro ω
    rw [launchMean_eq hx hy hn]
    congr 1
    refine Finset.sum_congr rfl fun i hi => Finset.sum_congr rfl fun k hk => ?_
    simp only [CalcArgs.xs, CalcArgs.ys, hr]
    rw [coords_random (Finset.mem_range.mp hi), coords_random (Finset.mem_range.mp hk)]
    rfl
  simp only [e]
  rw [integral_div, integral_finsetSum]
  · have : ∀ i ∈ Finset.range a.nx, ∫ ω, ∑ k ∈ Finset.range a.ny, F (ux ω i, uy ω k) ∂P = a.ny * rectMean (windowX a) (windowY a) f := by
      intro i hi
      rw [integral_finsetSum _ fun k hk => (hone i (Finset.mem_range.mp hi) k (Finset.mem_range.mp hk)).1,
        Finset.sum_congr rfl fun k hk => (hone i (Finset.mem_range.mp hi) k (Finset.mem_range.mp hk)).2]
      simp
    rw [Finset.sum_congr rfl this]
    simp only [Finset.sum_const, Finset.card_range, nsmul_eq_mul]
    field_simp
  · intro i hi
    exact integrable_finsetSum _ fun k hk => (hone i (Finset.mem_range.mp hi) k (Finset.mem_range.mp hk)).1

/-! ## C147: the regular scan -/

/-- **C147, error of the scan.** If the quantity changes in total by at most `Vx` along any line in `x` through the window, and by at most `Vy` along any line in `y`, its average over the points differs from its average over the
window by at most `Vx / nx + Vy / ny`. The quantity need not be continuous. -/
theorem C147_scan (hr : a.random = false) (hx : 0 < a.nx) (hy : 0 < a.ny) (hn : 0 < a.nRays) (ux uy : ℕ → ℝ)
    (hwx : (windowX a).1 ≤ (windowX a).2) (hwy : (windowY a).1 ≤ (windowY a).2) {f : ℝ → ℝ → ℝ} (hf : Measurable (Function.uncurry f)) {C : ℝ} (hC : ∀ x y, |f x y| ≤ C)
    {Vx Vy : ℝ} (hVx0 : 0 ≤ Vx) (hVy0 : 0 ≤ Vy)
    (hVx : ∀ y ∈ Set.Icc (windowY a).1 (windowY a).2, eVariationOn (fun x => f x y) (Set.Icc (windowX a).1 (windowX a).2) ≤ ENNReal.ofReal Vx)
    (hVy : ∀ x ∈ Set.Icc (windowX a).1 (windowX a).2, eVariationOn (fun y => f x y) (Set.Icc (windowY a).1 (windowY a).2) ≤ ENNReal.ofReal Vy) :
    |launchMean a ux uy f - rectMean (windowX a) (windowY a) f| ≤ Vx / a.nx + Vy / a.ny := by
  set F : ℝ → ℝ → ℝ := fun s t => f ((windowX a).1 + ((windowX a).2 - (windowX a).1) * s) ((windowY a).1 + ((windowY a).2 - (windowY a).1) * t) with hF
  have hFm : Measurable (Function.uncurry F) :=
    hf.comp (by fun_prop : Measurable fun p : ℝ × ℝ => ((windowX a).1 + ((windowX a).2 - (windowX a).1) * p.1, (windowY a).1 + ((windowY a).2 - (windowY a).1) * p.2))
  have aff : ∀ {w : ℝ × ℝ}, w.1 ≤ w.2 → MonotoneOn (fun s : ℝ => w.1 + (w.2 - w.1) * s) (Set.Icc 0 1) ∧ Set.MapsTo (fun s : ℝ => w.1 + (w.2 - w.1) * s) (Set.Icc 0 1) (Set.Icc w.1 w.2) := by
    intro w hw
    constructor
    · intro s _ t _ hst
      simp only
      nlinarith
    · intro s hs
      constructor <;> simp only <;> nlinarith [hs.1, hs.2]
  have key := scan_unit (F := F) hFm (C := C) (fun s t => hC _ _) hVx0 hVy0
    (fun t ht => (eVariationOn.comp_le_of_monotoneOn (fun x => f x _) _ (aff hwx).1 (aff hwx).2).trans (hVx _ ((aff hwy).2 ht)))
    (fun s hs => (eVariationOn.comp_le_of_monotoneOn (fun y => f _ y) _ (aff hwy).1 (aff hwy).2).trans (hVy _ ((aff hwx).2 hs))) hx hy
    (p := fun i => (i : ℝ) / ((a.nx - 1 : ℕ) : ℝ)) (q := fun k => (k : ℝ) / ((a.ny - 1 : ℕ) : ℝ)) (fun i hi => scan_cell hi) (fun k hk => scan_cell hk)
  rw [launchMean_eq hx hy hn]
  refine le_of_eq_of_le ?_ key
  congr 3
  refine Finset.sum_congr rfl fun i hi => Finset.sum_congr rfl fun k hk => ?_
  simp only [CalcArgs.xs, CalcArgs.ys, hr]
  rw [coords_scan (Finset.mem_range.mp hi), coords_scan (Finset.mem_range.mp hk)]
  rfl

/-- The average over the middle 98 % of an interval compared to that over the interval. -/
theorem margin_one {g : ℝ → ℝ} (hg : Measurable g) (h0 : ∀ s, 0 ≤ g s ∧ g s ≤ 1) : |(∫ s in (0 : ℝ)..1, g (0.01 + 0.98 * s)) - ∫ s in (0 : ℝ)..1, g s| ≤ 0.02 := by
  have hb : ∀ s, |g s| ≤ 1 := fun s => by rw [abs_of_nonneg (h0 s).1]; exact (h0 s).2
  have hi := fun x y => bounded_integrable hg hb x y
  have e1 := intervalIntegral.integral_comp_add_mul (a := 0) (b := 1) g (by norm_num : (0.98 : ℝ) ≠ 0) 0.01
  rw [show (0.01 : ℝ) + 0.98 * 0 = 0.01 by norm_num, show (0.01 : ℝ) + 0.98 * 1 = 0.99 by norm_num, smul_eq_mul] at e1
  have e2 := intervalIntegral.integral_add_adjacent_intervals (hi 0 0.01) (hi 0.01 0.99)
  have e3 := intervalIntegral.integral_add_adjacent_intervals (hi 0 0.99) (hi 0.99 1)
  have bd : ∀ x y : ℝ, x ≤ y → 0 ≤ ∫ s in x..y, g s ∧ ∫ s in x..y, g s ≤ y - x := by
    intro x y hxy
    refine ⟨intervalIntegral.integral_nonneg hxy fun s _ => (h0 s).1, ?_⟩
    have := intervalIntegral.integral_mono_on (μ := volume) hxy (hi x y) (intervalIntegrable_const (c := (1 : ℝ))) fun s _ => (h0 s).2
    simpa using this
  have b1 := bd 0 0.01 (by norm_num)
  have b2 := bd 0.01 0.99 (by norm_num)
  have b3 := bd 0.99 1 (by norm_num)
  rw [e1, abs_le]
  norm_num at *
  constructor <;> linarith

/-- **C147, the margin.** Without `x_limits` and `y_limits`, rays are not launched in the outermost hundredth of the unit cell; for a quantity between 0 and 1, the average over the window differs from that over the unit cell by at
most 0.04. -/
theorem C147_margin (hxl : a.xlim = none) (hyl : a.ylim = none) {f : ℝ → ℝ → ℝ} (hf : Measurable (Function.uncurry f)) (h01 : ∀ x y, 0 ≤ f x y ∧ f x y ≤ 1) :
    |rectMean (windowX a) (windowY a) f - rectMean (a.xmin, a.xmax) (a.ymin, a.ymax) f| ≤ 0.04 := by
  set F : ℝ → ℝ → ℝ := fun s t => f (a.xmin + (a.xmax - a.xmin) * s) (a.ymin + (a.ymax - a.ymin) * t) with hF
  have hFm : Measurable (Function.uncurry F) :=
    hf.comp (by fun_prop : Measurable fun p : ℝ × ℝ => (a.xmin + (a.xmax - a.xmin) * p.1, a.ymin + (a.ymax - a.ymin) * p.2))
  have hFs : ∀ s, Measurable fun t => F s t := fun s => hFm.comp (measurable_const.prodMk measurable_id)
  have h01F : ∀ s t, 0 ≤ F s t ∧ F s t ≤ 1 := fun s t => h01 _ _
  have hFb : ∀ s t, |F s t| ≤ 1 := fun s t => by rw [abs_of_nonneg (h01F s t).1]; exact (h01F s t).2
  have e1 : rectMean (windowX a) (windowY a) f = ∫ s in (0 : ℝ)..1, ∫ t in (0 : ℝ)..1, F (0.01 + 0.98 * s) (0.01 + 0.98 * t) := by
    unfold rectMean
    simp only [windowX, windowY, hxl, hyl, calcLimits, Option.getD_none, hF]
    congr 1
    funext s
    congr 1
    funext t
    congr 1 <;> ring
  set G : ℝ → ℝ := fun s => ∫ t in (0 : ℝ)..1, F s t with hG
  set H : ℝ → ℝ := fun s => ∫ t in (0 : ℝ)..1, F s (0.01 + 0.98 * t) with hH
  have hFm' : Measurable (Function.uncurry fun s t => F s (0.01 + 0.98 * t)) := hFm.comp (by fun_prop : Measurable fun p : ℝ × ℝ => (p.1, 0.01 + 0.98 * p.2))
  have hGm : Measurable G := by
    simp only [hG, intervalIntegral.integral_of_le zero_le_one]
    exact (hFm.stronglyMeasurable.integral_prod_right (ν := volume.restrict (Set.Ioc (0 : ℝ) 1))).measurable
  have hHm : Measurable H := by
    simp only [hH, intervalIntegral.integral_of_le zero_le_one]
    exact (hFm'.stronglyMeasurable.integral_prod_right (ν := volume.restrict (Set.Ioc (0 : ℝ) 1))).measurable
  have unit : ∀ {g : ℝ → ℝ}, Measurable g → (∀ s, 0 ≤ g s ∧ g s ≤ 1) → 0 ≤ ∫ s in (0 : ℝ)..1, g s ∧ ∫ s in (0 : ℝ)..1, g s ≤ 1 := by
    intro g hg h
    have hb : ∀ s, |g s| ≤ 1 := fun s => by rw [abs_of_nonneg (h s).1]; exact (h s).2
    refine ⟨intervalIntegral.integral_nonneg zero_le_one fun s _ => (h s).1, ?_⟩
    have := intervalIntegral.integral_mono_on (μ := volume) zero_le_one (bounded_integrable hg hb 0 1) (intervalIntegrable_const (c := (1 : ℝ))) fun s _ => (h s).2
    simpa using this
  have hG01 : ∀ s, 0 ≤ G s ∧ G s ≤ 1 := fun s => unit (hFs s) (h01F s)
  have hH01 : ∀ s, 0 ≤ H s ∧ H s ≤ 1 := fun s => unit ((hFs s).comp (by fun_prop : Measurable fun t : ℝ => 0.01 + 0.98 * t)) fun t => h01F s _
  have hHb : ∀ s, |H s| ≤ 1 := fun s => by rw [abs_of_nonneg (hH01 s).1]; exact (hH01 s).2
  have hGb : ∀ s, |G s| ≤ 1 := fun s => by rw [abs_of_nonneg (hG01 s).1]; exact (hG01 s).2
  have d1 : |(∫ s in (0 : ℝ)..1, H (0.01 + 0.98 * s)) - ∫ s in (0 : ℝ)..1, H s| ≤ 0.02 := margin_one hHm hH01
  have d2 : |(∫ s in (0 : ℝ)..1, H s) - ∫ s in (0 : ℝ)..1, G s| ≤ 0.02 := by
    rw [← intervalIntegral.integral_sub (bounded_integrable hHm hHb 0 1) (bounded_integrable hGm hGb 0 1)]
    have := intervalIntegral.norm_integral_le_of_norm_le_const (a := 0) (b := 1) (C := 0.02) (f := fun s => H s - G s) fun s _ => by
      rw [Real.norm_eq_abs]
      exact margin_one (hFs s) (h01F s)
    simpa using this
  rw [e1]
  change |(∫ s in (0 : ℝ)..1, H (0.01 + 0.98 * s)) - ∫ s in (0 : ℝ)..1, G s| ≤ 0.04
  have := abs_sub_le (∫ s in (0 : ℝ)..1, H (0.01 + 0.98 * s)) (∫ s in (0 : ℝ)..1, H s) (∫ s in (0 : ℝ)..1, G s)
  norm_num at *
  linarith

/-- **C147 (partial).** With the default limits, the average over the points of the scan differs from the average over the unit cell by at most `Vx / nx + Vy / ny + 0.04`. Missing from the property: that the error can be made as small
as desired, which is false. -/
theorem C147_cell_partial (hxl : a.xlim = none) (hyl : a.ylim = none) (hr : a.random = false) (hx : 0 < a.nx) (hy : 0 < a.ny) (hn : 0 < a.nRays) (ux uy : ℕ → ℝ)
    (hcx : a.xmin ≤ a.xmax) (hcy : a.ymin ≤ a.ymax) {f : ℝ → ℝ → ℝ} (hf : Measurable (Function.uncurry f)) (h01 : ∀ x y, 0 ≤ f x y ∧ f x y ≤ 1) {Vx Vy : ℝ} (hVx0 : 0 ≤ Vx) (hVy0 : 0 ≤ Vy)
    (hVx : ∀ y, eVariationOn (fun x => f x y) (Set.Icc a.xmin a.xmax) ≤ ENNReal.ofReal Vx) (hVy : ∀ x, eVariationOn (fun y => f x y) (Set.Icc a.ymin a.ymax) ≤ ENNReal.ofReal Vy) :
    |launchMean a ux uy f - rectMean (a.xmin, a.xmax) (a.ymin, a.ymax) f| ≤ Vx / a.nx + Vy / a.ny + 0.04 := by
  have ew : windowX a = (a.xmin + 0.01 * (a.xmax - a.xmin), a.xmax - 0.01 * (a.xmax - a.xmin)) := by simp [windowX, calcLimits, hxl]
  have ew' : windowY a = (a.ymin + 0.01 * (a.ymax - a.ymin), a.ymax - 0.01 * (a.ymax - a.ymin)) := by simp [windowY, calcLimits, hyl]
  have s1 : Set.Icc (windowX a).1 (windowX a).2 ⊆ Set.Icc a.xmin a.xmax := by
    rw [ew]; apply Set.Icc_subset_Icc <;> norm_num <;> linarith
  have s2 : Set.Icc (windowY a).1 (windowY a).2 ⊆ Set.Icc a.ymin a.ymax := by
    rw [ew']; apply Set.Icc_subset_Icc <;> norm_num <;> linarith
  have h1 := C147_scan hr hx hy hn ux uy (by rw [ew]; norm_num; linarith) (by rw [ew']; norm_num; linarith) hf (C := 1)
    (fun x y => by rw [abs_of_nonneg (h01 x y).1]; exact (h01 x y).2) hVx0 hVy0
    (fun y _ => (eVariationOn.mono _ s1).trans (hVx y)) (fun x _ => (eVariationOn.mono _ s2).trans (hVy x))
  have h2 := C147_margin hxl hyl hf h01
  have h3 := abs_sub_le (launchMean a ux uy f) (rectMean (windowX a) (windowY a) f) (rectMean (a.xmin, a.xmax) (a.ymin, a.ymax) f)
  linarith

/-- **C147 fails.** With the default limits there is, for every unit cell, a quantity (1 in a strip along the edge, 0 elsewhere) whose average over the unit cell is 0.01, and whose average over the points is 0 for all numbers of
points, rays and whether or not positions are random: more points or rays do not help. -/
theorem C147_fails (hxl : a.xlim = none) (hc : a.xmin < a.xmax) :
    ∃ f : ℝ → ℝ → ℝ, Measurable (Function.uncurry f) ∧ (∀ x y, f x y = 0 ∨ f x y = 1) ∧ (∀ y x x', eVariationOn (fun x => f x y) (Set.Icc x x') ≤ 1) ∧ (∀ x y y', f x y = f x y') ∧
      rectMean (a.xmin, a.xmax) (a.ymin, a.ymax) f = 0.01 ∧
      ∀ nx ny nRays random ux uy, (∀ i, 0 ≤ ux i ∧ ux i < 1) → launchMean { a with nx := nx, ny := ny, nRays := nRays, random := random } ux uy f = 0 := by
  have ew : calcLimits a.xlim a.xmin a.xmax = (a.xmin + 0.01 * (a.xmax - a.xmin), a.xmax - 0.01 * (a.xmax - a.xmin)) := by simp [calcLimits, hxl]
  have hmono : Monotone fun x : ℝ => if a.xmax - 0.01 * (a.xmax - a.xmin) < x then (1 : ℝ) else 0 := by
    intro x x' h
    simp only
    split_ifs <;> norm_num
    linarith
  have hm : Measurable fun x : ℝ => if a.xmax - 0.01 * (a.xmax - a.xmin) < x then (1 : ℝ) else 0 := hmono.measurable
  refine ⟨fun x _ => if a.xmax - 0.01 * (a.xmax - a.xmin) < x then 1 else 0, hm.comp measurable_fst, ?_, ?_, fun _ _ _ => rfl, ?_, ?_⟩
  · intro x y; simp only; split_ifs <;> simp
  · intro y u v
    have h := (hmono.monotoneOn Set.univ).eVariationOn_le (Set.mem_univ u) (Set.mem_univ v)
    rw [Set.univ_inter] at h
    refine h.trans ?_
    rw [← ENNReal.ofReal_one]
    apply ENNReal.ofReal_le_ofReal
    split_ifs <;> norm_num
  · unfold rectMean
    simp only
    have e : ∀ s : ℝ, (a.xmax - 0.01 * (a.xmax - a.xmin) < a.xmin + (a.xmax - a.xmin) * s) ↔ 0.99 < s := by
      intro s
      rw [show a.xmax - 0.01 * (a.xmax - a.xmin) = a.xmin + (a.xmax - a.xmin) * 0.99 by ring, add_lt_add_iff_left, mul_lt_mul_iff_right₀ (by linarith)]
    simp only [e, intervalIntegral.integral_const, sub_zero, one_smul]
    have hb : Measurable fun s : ℝ => if 0.99 < s then (1 : ℝ) else 0 := Measurable.ite measurableSet_Ioi measurable_const measurable_const
    have hi := fun x y => bounded_integrable hb (C := 1) (fun s => by split_ifs <;> simp) x y
    rw [← intervalIntegral.integral_add_adjacent_intervals (hi 0 0.99) (hi 0.99 1)]
    have e1 : ∫ s in (0 : ℝ)..0.99, (if 0.99 < s then (1 : ℝ) else 0) = 0 := by
      have : ∫ s in (0 : ℝ)..0.99, (if 0.99 < s then (1 : ℝ) else 0) = ∫ s in (0 : ℝ)..0.99, 0 := by
        apply intervalIntegral.integral_congr
        intro s hs
        rw [Set.uIcc_of_le (by norm_num)] at hs
        simp only
        rw [if_neg (not_lt.mpr hs.2)]
      rw [this]; simp
    have e2 : ∫ s in (0.99 : ℝ)..1, (if 0.99 < s then (1 : ℝ) else 0) = 0.01 := by
      have : ∫ s in (0.99 : ℝ)..1, (if 0.99 < s then (1 : ℝ) else 0) = ∫ s in (0.99 : ℝ)..1, 1 := by
        apply intervalIntegral.integral_congr_ae
        refine Filter.Eventually.of_forall fun s hs => ?_
        rw [Set.uIoc_of_le (by norm_num)] at hs
        rw [if_pos hs.1]
      rw [this]; norm_num
    rw [e1, e2, zero_add]
  · intro nx ny nRays random ux uy hu
    unfold launchMean
    rw [div_eq_zero_iff]
    left
    refine Finset.sum_eq_zero fun j _ => Finset.sum_eq_zero fun i hi => Finset.sum_eq_zero fun k _ => if_neg ?_
    have hi' := Finset.mem_range.mp hi
    simp only at hi'
    rw [not_lt]
    simp only [CalcArgs.xs, ew]
    cases random with
    | true =>
      rw [coords_random hi']
      have := hu i
      simp only
      nlinarith
    | false =>
      rw [coords_scan hi']
      have h1 : (i : ℝ) / ((nx - 1 : ℕ) : ℝ) ≤ 1 := div_le_one_of_le₀ (by exact_mod_cast (by omega : i ≤ nx - 1)) (by positivity)
      simp only
      nlinarith

end

/-! ## What this means for the results of `calculate` -/

open Classical in
/-- **C146/C147, the reflection returned.** If the expected intensity that leaves upwards, for a ray launched at `(x, y)` at wavelength number `w`, is `ρ x y`, then the expected value of the `R` returned by `calculate` is the average of `ρ` over
the points: the errors of C146 and C147 are those of the result. -/
theorem C147_expected {a : CalcArgs} {ux uy : ℕ → ℝ} {junk : ℕ → ℕ → ℕ → Bool} {nWl : ℕ} {Ω : Type*} [MeasurableSpace Ω] (P : Measure Ω) {tracer : Ω → ℕ → ℕ → ℕ → ℝ → ℝ → Option RayOut}
    {out : Ω → ℕ → ℕ → ℕ → ℕ → RayOut} (h : ∀ ω, AllTraced a ux uy nWl (tracer ω) (out ω)) (hnls : ∀ nls, a.tmm = some nls → nls.length = a.widths.length + 1)
    (hsay : ∀ ω, ∀ w < nWl, ∀ j < a.nReps, ∀ i < a.nx, ∀ k < a.ny, SaysWhere (a.widths.length + 1) a.tmm (out ω w j i k)) {w : ℕ} (hw : w < nWl) {ρ : ℝ → ℝ → ℝ}
    (hint : ∀ j < a.nReps, ∀ i < a.nx, ∀ k < a.ny, Integrable (fun ω => if LeftUp (out ω w j i k) then (out ω w j i k).ray.I else 0) P)
    (hρ : ∀ j < a.nReps, ∀ i x, (a.xs ux)[i]? = some x → ∀ k y, (a.ys uy)[k]? = some y → ∫ ω, (if LeftUp (out ω w j i k) then (out ω w j i k).ray.I else 0) ∂P = ρ x y) :
    ∃ res : Ω → RTResult, (∀ ω, calculate a ux uy junk nWl (tracer ω) = some (res ω)) ∧ (∀ ω, (res ω).R.length = nWl) ∧
      ∫ ω, (res ω).R.getD w 0 ∂P = launchMean a ux uy ρ := by
  choose res h1 h2 h3 h4 h5 using fun ω => C145_reports (junk := junk) (h ω) hnls (hsay ω)
  refine ⟨res, h1, h2, ?_⟩
  have e : ∀ ω, (res ω).R.getD w 0 = (∑ j ∈ Finset.range a.nReps, ∑ i ∈ Finset.range a.nx, ∑ k ∈ Finset.range a.ny, if LeftUp (out ω w j i k) then (out ω w j i k).ray.I else 0) / (a.nReps * a.nx * a.ny : ℕ) := by
    intro ω
    rw [List.getD_eq_getElem?_getD, (h5 ω w hw).R, Option.getD_some]
    unfold Spec.average
    rw [raysInOrder_length]
    congr 1
    unfold raysInOrder
    simp only [List.map_flatMap, List.map_map, flatMap_range_sum, map_range_sum, Function.comp_def]
  simp only [e]
  unfold launchMean
  rw [integral_div]
  congr 1
  rw [integral_finsetSum]
  · refine Finset.sum_congr rfl fun j hj => ?_
    rw [Finset.mem_range] at hj
    rw [integral_finsetSum]
    · refine Finset.sum_congr rfl fun i hi => ?_
      rw [Finset.mem_range] at hi
      rw [integral_finsetSum]
      · refine Finset.sum_congr rfl fun k hk => ?_
        rw [Finset.mem_range] at hk
        refine hρ j hj i _ ?_ k _ ?_
        · rw [List.getD_eq_getElem?_getD, List.getElem?_eq_getElem (by rw [xs_length]; exact hi)]; rfl
        · rw [List.getD_eq_getElem?_getD, List.getElem?_eq_getElem (by rw [ys_length]; exact hk)]; rfl
      · exact fun k hk => hint j hj i hi k (Finset.mem_range.mp hk)
    · exact fun i hi => integrable_finsetSum _ fun k hk => hint j hj i (Finset.mem_range.mp hi) k (Finset.mem_range.mp hk)
  · exact fun j hj => integrable_finsetSum _ fun i hi => integrable_finsetSum _ fun k hk =>
      hint j (Finset.mem_range.mp hj) i (Finset.mem_range.mp hi) k (Finset.mem_range.mp hk)

/-! ## Examples -/

/-- Two by three points in a cell of size 10, default limits. -/
noncomputable def exScan (random : Bool) : CalcArgs :=
  { widths := [2e-6], spacing := 5e-7, nx := 2, ny := 3, nRays := 12, random := random, xlim := none, ylim := none, xmin := 0, xmax := 10, ymin := 0, ymax := 10, tmm := none }

theorem exScan_window (r : Bool) : windowX (exScan r) = (0.1, 9.9) ∧ windowY (exScan r) = (0.1, 9.9) := by
  constructor <;> simp only [windowX, windowY, calcLimits, exScan, Option.getD_none] <;> norm_num

/-- C146 fails for this structure. -/
example : ∃ pts : List (ℝ × ℝ), pts.length = 6 ∧ ∀ ux uy, ((exScan true).xs ux).product ((exScan true).ys uy) ≠ pts := by
  obtain ⟨pts, h1, -, h2⟩ := C146_fails (a := exScan true) rfl (by simp [exScan]) (by simp [exScan]) (by rw [(exScan_window _).1]; norm_num) (by rw [(exScan_window _).2]; norm_num)
  exact ⟨pts, h1, h2⟩

/-- A sequence made of finitely many numbers. -/
def extend {n : ℕ} (v : Fin n → ℝ) (i : ℕ) : ℝ := if h : i < n then v ⟨i, h⟩ else 0

/-- What `np.random.uniform` draws, `n` and `m` independent numbers, meets the hypothesis of `C146_unbiased_partial`. -/
theorem independent_uniformPair (n m : ℕ) {i k : ℕ} (hi : i < n) (hk : k < m) :
    UniformPair ((Measure.pi fun _ : Fin n => volume.restrict (Set.Ioc (0 : ℝ) 1)).prod (Measure.pi fun _ : Fin m => volume.restrict (Set.Ioc (0 : ℝ) 1)))
      (fun ω => extend ω.1 i) (fun ω => extend ω.2 k) := by
  have : IsProbabilityMeasure (volume.restrict (Set.Ioc (0 : ℝ) 1)) := ⟨by simp⟩
  have e : (fun ω : (Fin n → ℝ) × (Fin m → ℝ) => (extend ω.1 i, extend ω.2 k)) = Prod.map (Function.eval ⟨i, hi⟩) (Function.eval ⟨k, hk⟩) := by
    funext ω
    simp only [extend, hi, hk, dif_pos]
    rfl
  have m1 : Measurable (Function.eval (⟨i, hi⟩ : Fin n) : (Fin n → ℝ) → ℝ) := measurable_pi_apply _
  have m2 : Measurable (Function.eval (⟨k, hk⟩ : Fin m) : (Fin m → ℝ) → ℝ) := measurable_pi_apply _
  unfold UniformPair
  rw [e]
  refine ⟨(m1.prodMap m2).aemeasurable, ?_⟩
  rw [← Measure.map_prod_map _ _ m1 m2, (measurePreserving_eval _ (⟨i, hi⟩ : Fin n)).map_eq, (measurePreserving_eval _ (⟨k, hk⟩ : Fin m)).map_eq]

example : ∫ ω, launchMean (exScan true) (extend ω.1) (extend ω.2) (fun x _ => if x < 5 then 1 else 0)
      ∂((Measure.pi fun _ : Fin 2 => volume.restrict (Set.Ioc (0 : ℝ) 1)).prod (Measure.pi fun _ : Fin 3 => volume.restrict (Set.Ioc (0 : ℝ) 1)))
    = rectMean (0.1, 9.9) (0.1, 9.9) fun x _ => if x < 5 then 1 else 0 := by
  have : IsProbabilityMeasure (volume.restrict (Set.Ioc (0 : ℝ) 1)) := ⟨by simp⟩
  have hm : Measurable (Function.uncurry fun x _ : ℝ => if x < 5 then (1 : ℝ) else 0) :=
    (Measurable.ite measurableSet_Iio measurable_const measurable_const : Measurable fun x : ℝ => if x < 5 then (1 : ℝ) else 0).comp measurable_fst
  rw [C146_unbiased_partial _ (a := exScan true) rfl (by simp [exScan]) (by simp [exScan]) (by simp [exScan])
    (fun i hi k hk => independent_uniformPair 2 3 hi hk) hm (C := 1) (fun x y => by split_ifs <;> simp), (exScan_window _).1, (exScan_window _).2]

/-- The hypotheses of C147 are met by the discontinuous quantity of `C147_fails`. -/
example : ∃ f : ℝ → ℝ → ℝ, (∀ n, 0 < n → |launchMean { exScan false with nx := n } (fun _ => 0) (fun _ => 0) f - rectMean (0, 10) (0, 10) f| ≤ 1 / n + 0.04) ∧ rectMean (0, 10) (0, 10) f = 0.01 := by
  obtain ⟨f, h1, h2, h3, h4, h5, -⟩ := C147_fails (a := exScan false) rfl (by simp [exScan])
  refine ⟨f, fun n hn => ?_, h5⟩
  have := C147_cell_partial (a := { exScan false with nx := n }) (f := f) rfl rfl rfl hn (by simp [exScan]) (by simp [exScan]) (fun _ => 0) (fun _ => 0) (by simp [exScan]) (by simp [exScan]) h1
    (fun x y => by rcases h2 x y with h | h <;> rw [h] <;> norm_num) (Vx := 1) (Vy := 0) zero_le_one le_rfl (fun y => by simpa using h3 y _ _)
    (fun x => by
      rw [eVariationOn.constant_on]
      · simp
      · rintro _ ⟨y, -, rfl⟩ _ ⟨y', -, rfl⟩
        exact h4 x y y')
  simpa [exScan] using this

/-- The hypotheses of `C147_expected` are met by rays which leave upwards with an intensity given by the position. -/
example : ∃ (tracer : Unit → ℕ → ℕ → ℕ → ℝ → ℝ → Option RayOut) (res : Unit → RTResult), (∀ ω, calculate (exScan false) (fun _ => 0) (fun _ => 0) (fun _ _ _ => true) 1 (tracer ω) = some (res ω)) ∧
    ∫ ω, (res ω).R.getD 0 0 ∂(Measure.dirac ()) = launchMean (exScan false) (fun _ => 0) (fun _ => 0) fun x _ => x := by
  set out : ℕ → ℝ → RayOut := fun _ x => { ray := { Stack.start 0 1 with I := x, θ := some 0 }, phi := 0, nInt := 1 } with hout
  have hup : ∀ j x, LeftUp (out j x) := fun j x => ⟨0, rfl, by positivity⟩
  obtain ⟨res, h1, -, h2⟩ := C147_expected (a := exScan false) (ux := fun _ => 0) (uy := fun _ => 0) (junk := fun _ _ _ => true) (nWl := 1) (Measure.dirac ())
    (tracer := fun _ _ _ c x _ => some (out c x)) (out := fun _ _ _ i k => out (i * (exScan false).ny + k) (((exScan false).xs fun _ => 0).getD i 0)) (ρ := fun x _ => x)
    (by
      intro _ w _ j _ i x hx k y _
      simp only [List.getD_eq_getElem?_getD, hx, Option.getD_some])
    (by intro nls h; simp [exScan] at h) (by intro _ w _ j _ i _ k _; left; rfl) (w := 0) Nat.one_pos
    (by intro j _ i _ k _; exact integrable_const _)
    (by
      intro j _ i x hx k y _
      simp only [hup, if_true, List.getD_eq_getElem?_getD, hx, Option.getD_some]
      simp [hout])
  exact ⟨_, res, h1, h2⟩

end Rayflare
