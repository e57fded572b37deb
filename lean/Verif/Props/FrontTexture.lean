import Verif.Spec.FrontTexture
import Verif.Props.Gentle
import Verif.Props.UnbiasedStack
import Verif.Props.FlatTrace
import Verif.Props.RTStart

/-!
# Property C156: reflection from the front texture of a stack (`R0`)
-/

namespace Rayflare

open Rayflare.Np Rayflare.Model Rayflare.Spec Rayflare.Lemmas MeasureTheory

/-! ## Helper lemmas -/

theorem passes_step (S : Stack) {s s' : Ray} {o : Outcome} (h : S.step s o = some s') : s.nPasses ≤ s'.nPasses := by
  have hint : ∀ s : Ray, (S.checkEnd (s.interact o)).nPasses = s.nPasses := by
    intro s
    have a : ∀ r : Ray, (S.checkEnd r).nPasses = r.nPasses := by intro r; unfold Stack.checkEnd; split_ifs <;> rfl
    rw [a]; cases o <;> rfl
  unfold Stack.step at h
  by_cases hst : s.stop
  · rw [if_pos hst] at h; cases h; rfl
  · rw [if_neg hst] at h
    simp only [Option.bind_eq_some_iff] at h
    obtain ⟨_, _, _, _, _, _, h⟩ := h
    by_cases h2 : (S.checkEnd (s.interact o)).stop
    · rw [if_pos h2] at h; cases h; rw [hint]
    · rw [if_neg h2] at h
      obtain ⟨m, _, rfl⟩ := Option.map_eq_some_iff.mp h
      simp only [Stack.pass, hint]; omega

theorem passes_next (c : RTStack) {m : Meeting} {s s' : StackRay} (h : c.step m s = .next s') : s.ray.nPasses ≤ s'.ray.nPasses := by
  unfold RTStack.step at h
  by_cases hst : s.ray.stop
  · rw [if_pos hst] at h; cases h; rfl
  · rw [if_neg hst] at h
    split at h
    · rename_i cell tab ni nj _ _ _ _
      cases hm : c.meet cell tab ni nj m s with
      | none => rw [hm] at h; simp [RTStack.advance] at h
      | some res =>
        rw [hm] at h
        simp only [RTStack.advance] at h
        cases hs : c.S.step s.ray res.outcome with
        | none => rw [hs] at h; simp at h
        | some ray =>
          rw [hs] at h
          simp only [StackRes.next.injEq] at h
          subst h
          exact passes_step c.S hs
    · simp at h

/-- Once the ray has passed through a layer it does not count for `R0`. -/
theorem passed_R0 (c : RTStack) {n : ℕ} : ∀ (K : ℕ) (V : ℕ → Visit) (u : Fin K → Fin n → ℝ) (s : StackRay), 0 < s.ray.nPasses → R0of (recorded 0 1 (traceWith c K V u s)) = 0 := by
  have fin : ∀ s : StackRay, 0 < s.ray.nPasses → R0of (recorded 0 1 (.next s)) = 0 := by
    intro s hs
    unfold recorded
    by_cases hst : s.ray.stop
    · simp only [hst, if_true]; unfold R0of; rw [if_neg]; simp; omega
    · simp only [hst]; simp [R0of, Stack.start, Ray.isRefl]
  have none' : R0of (Stack.start 0 1) = 0 := by simp [R0of, Stack.start, Ray.isRefl]
  intro K
  induction K with
  | zero => intro V u s hs; exact fin s hs
  | succ K ih =>
    intro V u s hs
    simp only [traceWith]
    cases hst : c.step ((V 0).meeting s.ray.surf (u 0)) s with
    | next s' => exact ih _ _ _ (hs.trans_le (passes_next c hst))
    | indexError => exact none'
    | running => exact none'

/-- A finished ray stays as it is. -/
theorem stopped_trace (c : RTStack) {n : ℕ} : ∀ (K : ℕ) (V : ℕ → Visit) (u : Fin K → Fin n → ℝ) (s : StackRay), s.ray.stop = true → traceWith c K V u s = .next s := by
  intro K
  induction K with
  | zero => intro V u s _; rfl
  | succ K ih =>
    intro V u s hs
    have : c.step ((V 0).meeting s.ray.surf (u 0)) s = .next s := by unfold RTStack.step; rw [if_pos hs]
    simp only [traceWith, this]
    exact ih _ _ _ hs

/-- The mean of a quantity that is 1 if the first random number is at most `R`, and 0 otherwise. -/
theorem mean_threshold {K n : ℕ} {R : ℝ} (h0 : 0 ≤ R) (h1 : R ≤ 1) {f : (Fin (K + 1) → Fin (n + 1) → ℝ) → ℝ} (hA : ∀ u, u 0 0 ≤ R → f u = 1) (hB : ∀ u, R < u 0 0 → f u = 0) :
    ∫ u, f u ∂uniform2 (K + 1) (n + 1) = R := by
  have hf : f = fun u => (Set.Iic R).indicator (fun _ => (1 : ℝ)) (u 0 0) := by
    funext u
    by_cases h : u 0 0 ≤ R
    · rw [hA u h, Set.indicator_of_mem (Set.mem_Iic.mpr h)]
    · rw [hB u (not_le.mp h), Set.indicator_of_notMem (fun hm => h (Set.mem_Iic.mp hm))]
  have m1 := measurePreserving_eval (fun _ : Fin (K + 1) => uniform (n + 1)) 0
  have m2 := measurePreserving_eval (fun _ : Fin (n + 1) => volume.restrict (Set.Icc (0 : ℝ) 1)) 0
  have hm : Measurable ((Set.Iic R).indicator fun _ => (1 : ℝ)) := measurable_const.indicator measurableSet_Iic
  have m : MeasurePreserving (fun u : Fin (K + 1) → Fin (n + 1) → ℝ => u 0 0) (uniform2 (K + 1) (n + 1)) (volume.restrict (Set.Icc (0 : ℝ) 1)) := m2.comp m1
  have h2 := integral_map (μ := uniform2 (K + 1) (n + 1)) m.measurable.aemeasurable (f := (Set.Iic R).indicator fun _ => (1 : ℝ)) hm.aestronglyMeasurable
  rw [m.map_eq] at h2
  rw [hf, ← h2, integral_indicator measurableSet_Iic, Measure.restrict_restrict measurableSet_Iic]
  have : Set.Iic R ∩ Set.Icc (0 : ℝ) 1 = Set.Icc 0 R := by
    ext x; simp only [Set.mem_inter_iff, Set.mem_Iic, Set.mem_Icc]; constructor
    · rintro ⟨a, b, _⟩; exact ⟨b, a⟩
    · rintro ⟨a, b⟩; exact ⟨b, a, b.trans h1⟩
  rw [this]
  simp [Measure.real, h0]

/-- The condition does not depend on the unit cell. -/
theorem resolved_shift {Lx Ly s ℓ x y : ℝ} {tris : List Tri} (h : Resolved Lx Ly s ℓ x y tris) (i j : ℤ) : Resolved Lx Ly s ℓ (x - Lx * i) (y - Ly * j) tris := by
  rcases h with h | ⟨hx, hy, δ, h0, hδ, a, b, c, hpl⟩
  · exact Or.inl h
  · refine Or.inr ⟨hx, hy, δ, h0, hδ, a, b, c + a * (i * Lx) + b * (j * Ly), fun τ hτ i' j' q hq hd => ?_⟩
    have := hpl τ hτ (i' + i) (j' + j) q hq (by
      push_cast
      rwa [show q.x + (i' + i) * Lx - x = q.x + i' * Lx - (x - Lx * i) by ring, show q.y + (j' + j) * Ly - y = q.y + j' * Ly - (y - Ly * j) by ring])
    rw [this]; push_cast; ring

/-! ## The property -/

section
variable {c : RTStack} {cell : Cell} {nAbove nBelow : ℝ} (F : FrontSurface c cell nAbove nBelow) (ha : 0 < nAbove) (hb : nAbove ≤ nBelow) (hasin : ∀ z, IsArcsin z (c.asin z))
include F ha hb hasin

/-- **C156, one ray.** The front surface of a stack is a height map with slopes below 30° (as in C155) between transparent media.  Light comes from straight above.  For a ray launched at any point (not too close to an edge between facets, unless they are small: `Resolved`), the mean over the random numbers of what it contributes to `R0` is the textbook reflectance for the
inclination of the facet at this point (of the texture continued periodically), whatever lies below. -/
theorem C156_ray {s ℓ : ℝ} {h : ℝ → ℝ → ℝ} {tris : List Tri} (H : HeightMap cell.Lx cell.Ly s ℓ h tris) (hs : 0 ≤ s) (hgentle : 3 * s ^ 2 < 1)
    {top : ℝ} (htop : ∀ x y, h x y ≤ top) (htop0 : top + 1e-8 ≠ 0) (φ x y : ℝ) (hsize : Resolved cell.Lx cell.Ly s ℓ x y tris) (V : ℕ → Visit) (hV : ∀ j, ((V 0).geo 0 j).tris = tris) (K n : ℕ) :
    ∃ τ ∈ tris, ∃ p, InTri (1 / 10 ^ 10) τ p ∧ (∃ i j : ℤ, p.x = x - cell.Lx * i ∧ p.y = y - cell.Ly * j) ∧
      ∀ β', 0 ≤ β' → β' < Real.pi / 2 → nAbove * Real.sin (inclination τ) = nBelow * Real.sin β' →
      ∫ u : Fin (K + 1) → Fin (n + 3) → ℝ, R0of (recorded 0 1 (traceWith c (K + 1) V u (c.start x y 0 1 (rA0 top 0 φ)))) ∂uniform2 (K + 1) (n + 3) = textbookR nAbove nBelow (inclination τ) β' c.pol := by
  have hpi := Real.pi_pos
  obtain ⟨px, py, pz⟩ := C101_above_first_surface c.S top 0 φ x y le_rfl (by linarith) htop0
  have hd0 := (C101_direction top 0 φ x y le_rfl (by linarith) htop0).1
  have hdir : startDir x y 1 (rA0 top 0 φ) = straightDown := by rw [hd0]; simp [incoming, straightDown]
  obtain ⟨r0, hr0⟩ : ∃ r0, r0 = c.S.startPos x y 0 1 (rA0 top 0 φ) := ⟨_, rfl⟩
  rw [← hr0] at px py pz
  obtain ⟨r, hr⟩ : ∃ r, r = wrapRay r0 straightDown cell.Lx cell.Ly cell.zcov := ⟨_, rfl⟩
  have hw := flat_wrap (z := cell.zcov) (r := r0) (d := straightDown) (by simp [straightDown]) F.sizeX F.sizeY
  simp only [← hr] at hw
  have hcell : InCell cell.Lx cell.Ly r := by simpa [InCell, straightDown] using hw.1
  have hsize' : Resolved cell.Lx cell.Ly s ℓ r.x r.y tris := by
    have ex : r.x = x - cell.Lx * (⌊(r0.x + straightDown.x * (cell.zcov - r0.z) / straightDown.z) / cell.Lx⌋ : ℤ) := by rw [hr, ← px]; rfl
    have ey : r.y = y - cell.Ly * (⌊(r0.y + straightDown.y * (cell.zcov - r0.z) / straightDown.z) / cell.Ly⌋ : ℤ) := by rw [hr, ← py]; rfl
    rw [ex, ey]; exact resolved_shift hsize _ _
  obtain ⟨τ, hτ, p, hpx, hpy, hin, b0, b1, hall⟩ := C155_gentle H hs c.asin hasin nAbove nBelow ha hb c.pol hgentle r hcell hsize' (by rw [hw.2]; exact (htop _ _).trans_lt pz)
  refine ⟨τ, hτ, p, hin, ⟨⌊(r0.x + straightDown.x * (cell.zcov - r0.z) / straightDown.z) / cell.Lx⌋, ⌊(r0.y + straightDown.y * (cell.zcov - r0.z) / straightDown.z) / cell.Ly⌋, ?_, ?_⟩, ?_⟩
  · rw [hpx, hr, ← px]; rfl
  · rw [hpy, hr, ← py]; rfl
  intro β' hb0 hb1 hsnell
  have hle : β' ≤ inclination τ := by
    by_contra hcon
    push Not at hcon
    have h1 := Real.sin_lt_sin_of_lt_of_le_pi_div_two (by linarith) hb1.le hcon
    have h2 : 0 ≤ Real.sin (inclination τ) := Real.sin_nonneg_of_nonneg_of_le_pi b0 (by linarith)
    nlinarith
  obtain ⟨R, hR⟩ : ∃ R, R = textbookR nAbove nBelow (inclination τ) β' c.pol := ⟨_, rfl⟩
  have hu := textbookR_unit ha (ha.trans_le hb) (Real.cos_nonneg_of_mem_Icc (x := inclination τ) ⟨by linarith, by linarith⟩) (Real.cos_nonneg_of_mem_Icc (x := β') ⟨by linarith, hb1.le⟩) c.pol
  rw [← hR] at hu ⊢
  have hang : ∀ side θ, refrAngle c.asin nAbove nBelow side θ = refractionAngle c.asin nAbove nBelow side θ := fun _ _ => rfl
  -- what happens at the front surface
  have meet : ∀ (u : Fin (K + 1) → Fin (n + 3) → ℝ) (res : ℕ) (ot : ℝ) (side : ℤ), (∀ (n : ℕ) (w1 w2 w3 : Draw) (ws : List Draw), w1.tris = tris → w2.tris = tris → w3.tris = tris →
        Leaves (sicRun cell.Lx cell.Ly straightDown ({ w1 with dec := fresnelDec nAbove nBelow (refractionAngle c.asin nAbove nBelow) c.pol (u 0 0) } :: w2 :: w3 :: ws) (sicStart r straightDown 1 n)) res ot (n + 1) side) →
      ∃ r' d' θ, c.step ((V 0).meeting (c.start x y 0 1 (rA0 top 0 φ)).ray.surf (u 0)) (c.start x y 0 1 (rA0 top 0 φ)) = c.advance (c.start x y 0 1 (rA0 top 0 φ)) (some (.out res ot r' d' θ 1 side)) := by
    intro u res ot side hL
    obtain ⟨r', d', θ, ho⟩ := hL 0 (({ (V 0).geo 0 0 with rnd := u 0 0 } : IterDraw).draw c.asin c.pol none nAbove nBelow) (({ (V 0).geo 0 1 with rnd := u 0 1 } : IterDraw).draw c.asin c.pol none nAbove nBelow)
      (({ (V 0).geo 0 2 with rnd := u 0 2 } : IterDraw).draw c.asin c.pol none nAbove nBelow)
      (List.ofFn fun i : Fin n => ({ (V 0).geo 0 (i + 1 + 1 + 1) with rnd := u 0 i.succ.succ.succ } : IterDraw).draw c.asin c.pol none nAbove nBelow) (hV 0) (hV 1) (hV 2)
    refine ⟨r', d', θ, ?_⟩
    have gc : pyGet c.cells 0 = some cell := by simpa [pyGet] using F.first
    have gt : pyGet c.tabs 0 = some none := by simpa [pyGet] using F.tab
    have ga : pyGet c.nks 0 = some (nAbove : ℂ) := by simpa [pyGet] using F.above
    have gb : pyGet c.nks 1 = some (nBelow : ℂ) := by simpa [pyGet] using F.below
    have hm : c.meet cell none nAbove nBelow ((V 0).meeting 0 (u 0)) (c.start x y 0 1 (rA0 top 0 φ)) = some (.out res ot r' d' θ 1 side) := by
      have hrd : c.randomised cell ((V 0).meeting 0 (u 0)) (c.start x y 0 1 (rA0 top 0 φ)) = (some r0, straightDown) := by
        unfold RTStack.randomised
        rw [if_neg (by simp [RTStack.start, Stack.start])]
        simp only [RTStack.start, hdir, ← hr0]
      have hwr : wrapOpt (some r0) straightDown cell = some r := by
        unfold wrapOpt
        rw [if_neg (by simp [straightDown]), hr]; rfl
      have hws : (((V 0).meeting 0 (u 0)).ws.map fun w => w.draw c.asin c.pol none nAbove nBelow) =
          ({ (({ (V 0).geo 0 0 with rnd := u 0 0 } : IterDraw).draw c.asin c.pol none nAbove nBelow) with dec := fresnelDec nAbove nBelow (refractionAngle c.asin nAbove nBelow) c.pol (u 0 0) } ::
            (({ (V 0).geo 0 1 with rnd := u 0 1 } : IterDraw).draw c.asin c.pol none nAbove nBelow) :: (({ (V 0).geo 0 2 with rnd := u 0 2 } : IterDraw).draw c.asin c.pol none nAbove nBelow) ::
            (List.ofFn fun i : Fin n => ({ (V 0).geo 0 (i + 1 + 1 + 1) with rnd := u 0 i.succ.succ.succ } : IterDraw).draw c.asin c.pol none nAbove nBelow)) := by
        simp only [Visit.meeting, List.ofFn_succ, List.map_cons, List.map_ofFn]
        rfl
      unfold RTStack.meet
      simp only [hrd, hwr, hws, F.periodic, if_true]
      have : (c.start x y 0 1 (rA0 top 0 φ)).ray.dir = 1 := rfl
      rw [this, ho]; rfl
    unfold RTStack.step
    have e1 : (c.start x y 0 1 (rA0 top 0 φ)).ray = Stack.start 0 1 := rfl
    simp only [e1, Stack.start, if_true, Bool.false_eq_true, if_false, zero_add, gc, gt, ga, gb]
    rw [hm]
  have media : (pyIndex c.S.nSurf 0) = some 0 ∧ pyIndex c.S.widths.length 0 = some 0 ∧ pyIndex c.S.widths.length 1 = some 1 := by
    have := F.media
    unfold pyIndex Stack.nSurf
    refine ⟨?_, ?_, ?_⟩ <;> rw [if_pos (by constructor <;> omega)] <;> rfl
  refine mean_threshold hu.1 hu.2 (fun u hle' => ?_) (fun u hlt => ?_)
  · obtain ⟨r', d', θ, hst⟩ := meet u 0 (2 * inclination τ) 1 fun n w1 w2 w3 ws e1 e2 e3 => (hall β' hb0 hb1 hsnell n w1 w2 w3 ws e1 e2 e3 (u 0 0)).1 (hR ▸ hle')
    have hadv : c.advance (c.start x y 0 1 (rA0 top 0 φ)) (some (.out 0 (2 * inclination τ) r' d' θ 1 1)) =
        .next { ray := { (Stack.start 0 1).interact (.reflect (2 * inclination τ)) with stop := true }, r := some r', d := d' } := by
      simp only [RTStack.advance, RTStack.start, SicRes.outcome, if_true, Stack.step, Stack.start, Ray.interact, Stack.checkEnd, Bool.false_eq_true, if_false, media, zero_add, Option.bind_some, SicRes.pos, SicRes.dir]
      simp
    simp only [traceWith, hst, hadv]
    rw [stopped_trace _ _ _ _ _ rfl]
    simp only [recorded, if_true, R0of, Ray.interact, Stack.start, Ray.isRefl]
    rw [if_pos]
    simp; linarith
  · obtain ⟨r', d', θ, hst⟩ := meet u 1 (Real.pi - (inclination τ - β')) (-1) fun n w1 w2 w3 ws e1 e2 e3 => (hall β' hb0 hb1 hsnell n w1 w2 w3 ws e1 e2 e3 (u 0 0)).2 (hR ▸ hlt)
    simp only [traceWith, hst]
    by_cases hw2 : c.S.widths.length = 2
    · have hadv : c.advance (c.start x y 0 1 (rA0 top 0 φ)) (some (.out 1 (Real.pi - (inclination τ - β')) r' d' θ 1 (-1))) =
          .next { ray := { (Stack.start 0 1).interact (.transmit (Real.pi - (inclination τ - β'))) with stop := true }, r := some r', d := d' } := by
        simp only [RTStack.advance, RTStack.start, SicRes.outcome, if_true, Stack.step, Stack.start, Ray.interact, Stack.checkEnd, Bool.false_eq_true, if_false, media, zero_add, Option.bind_some, SicRes.pos, SicRes.dir, hw2]
        simp [pyIndex]
      simp only [hadv]
      rw [stopped_trace _ _ _ _ _ rfl]
      simp only [recorded, if_true, R0of, Ray.interact, Stack.start, Ray.isRefl]
      rw [if_neg]
      simp; linarith
    · have hadv : c.advance (c.start x y 0 1 (rA0 top 0 φ)) (some (.out 1 (Real.pi - (inclination τ - β')) r' d' θ 1 (-1))) =
          .next { ray := c.S.pass ((Stack.start 0 1).interact (.transmit (Real.pi - (inclination τ - β')))) 1, r := some r', d := d' } := by
        have h3 : ¬ ((1 : ℤ) = (c.S.widths.length : ℤ) - 1) := by omega
        simp only [RTStack.advance, RTStack.start, SicRes.outcome, one_ne_zero, if_true, Stack.step, Stack.start, Ray.interact, Stack.checkEnd, Bool.false_eq_true, if_false, media, zero_add, Option.bind_some, SicRes.pos, SicRes.dir]
        simp [h3, media]
      simp only [hadv]
      exact passed_R0 c _ _ _ _ (by simp [Stack.pass])

/-- **C156.** The front surface carries `regular_pyramids` with an elevation angle below 30° (upright or inverted), between transparent media; the rest of the stack is arbitrary.  For light from straight above, launched at any points (not too close to an edge, unless the pyramids are small), the mean of `R0` over the random numbers is
the textbook reflectance of a flat surface at the elevation angle. -/
theorem C156_pyramids (deg L : ℝ) (hLx : cell.Lx = L) (hLy : cell.Ly = L) (h0 : 0 ≤ deg) (h1 : deg < 30) (upright : Bool)
    (htab : ∀ t, some t ∈ c.tabs → ∀ side θ, 0 ≤ (t side θ).1 ∧ 0 ≤ (t side θ).2.1 ∧ (t side θ).1 + (t side θ).2.1 ≤ 1)
    (β' : ℝ) (hb0 : 0 ≤ β') (hb1 : β' < Real.pi / 2) (hsnell : nAbove * Real.sin (deg * Real.pi / 180) = nBelow * Real.sin β')
    {top : ℝ} (htop : pyramidHeight deg L ≤ top) (φ : ℝ) {N : ℕ} (hN : 0 < N) (launch : Fin N → StackLaunch) (hsize : ∀ k, PyramidsResolved (Real.tan (deg * Real.pi / 180)) L (launch k).x (launch k).y)
    (hV : ∀ k j, (((launch k).V 0).geo 0 j).tris = pyramidFacets (pyramidHeight deg L) L upright) (K n : ℕ) :
    let rays := fun U : Fin N → Fin (K + 1) → Fin (n + 3) → ℝ => List.ofFn fun k => recorded 0 1 (traceWith c (K + 1) (launch k).V (U k) (c.start (launch k).x (launch k).y 0 1 (rA0 top 0 φ)))
    ∫ U, resR0 (rays U) ∂(Measure.pi fun _ : Fin N => uniform2 (K + 1) (n + 3)) = textbookR nAbove nBelow (deg * Real.pi / 180) β' c.pol := by
  intro rays
  have hpi := Real.pi_pos
  have hL : 0 < L := hLx ▸ F.sizeX
  obtain ⟨h, H, hmax, hinc⟩ := pyramid_facets deg L hL h0 (by linarith) upright
  have ha0 : 0 ≤ deg * Real.pi / 180 := by positivity
  have ha1 : deg * Real.pi / 180 < Real.pi / 6 := by nlinarith
  have ht : 0 ≤ Real.tan (deg * Real.pi / 180) := Real.tan_nonneg_of_nonneg_of_le_pi_div_two ha0 (by linarith)
  have htop0 : top + 1e-8 ≠ 0 := by
    have : 0 ≤ pyramidHeight deg L := by unfold pyramidHeight; positivity
    norm_num; linarith
  have hgentle := tan_gentle h0 h1
  have H' : HeightMap cell.Lx cell.Ly (Real.tan (deg * Real.pi / 180)) (2 * L) h (pyramidFacets (pyramidHeight deg L) L upright) := by rw [hLx, hLy]; exact H
  have e : ∀ U, resR0 (rays U) = rayMean (rays U) R0of := fun _ => rfl
  simp only [e, rays]
  rw [rayMean_unbiased c htab]
  have hk : ∀ k, branchesStack c (n + 3) (fun o => R0of (recorded 0 1 o)) (K + 1) (launch k).V (c.start (launch k).x (launch k).y 0 1 (rA0 top 0 φ)) = textbookR nAbove nBelow (deg * Real.pi / 180) β' c.pol := by
    intro k
    obtain ⟨τ, hτ, p, -, -, hall⟩ := C156_ray F ha hb hasin H' ht hgentle (fun x y => (hmax x y).trans htop) htop0 φ (launch k).x (launch k).y (by rw [hLx, hLy]; exact pyramids_resolved hL h0 h1 upright (hsize k)) (launch k).V (hV k) K n
    rw [hinc τ hτ] at hall
    rw [← C131_unbiased c htab]
    exact hall β' hb0 hb1 hsnell
  simp only [hk, Finset.sum_const, Finset.card_univ, Fintype.card_fin, nsmul_eq_mul]
  have : (N : ℝ) ≠ 0 := by exact_mod_cast hN.ne'
  field_simp

end

/-- The hypotheses are met: air on glass with an absorbing layer, air below it, with pyramids of slope 1/3 and base 2 at the front. -/
example : ∃ (c : RTStack) (cell : Cell) (deg β' : ℝ), FrontSurface c cell 1 2 ∧ (∀ z, IsArcsin z (c.asin z)) ∧ cell.Lx = 2 ∧ cell.Ly = 2 ∧ 0 ≤ deg ∧ deg < 30 ∧ c.S.widths.length = 3 ∧ Real.tan (deg * Real.pi / 180) = 1 / 3 ∧
    4 / 5 * Real.tan (deg * Real.pi / 180) * 2 * (1 + Real.tan (deg * Real.pi / 180) ^ 2) ≤ 1 - 3 * Real.tan (deg * Real.pi / 180) ^ 2 ∧ (∀ t, some t ∉ c.tabs) ∧
    0 ≤ β' ∧ β' < Real.pi / 2 ∧ 1 * Real.sin (deg * Real.pi / 180) = 2 * Real.sin β' ∧ pyramidHeight deg 2 = 1 / 3 := by
  have hpi := Real.pi_pos
  choose asin hasin using exists_isArcsin
  have e : 180 / Real.pi * Real.arctan (1 / 3) * Real.pi / 180 = Real.arctan (1 / 3) := by field_simp
  have h3p : 0 < Real.sqrt 3 := Real.sqrt_pos.mpr (by norm_num)
  have h3 : Real.sqrt 3 ^ 2 = 3 := Real.sq_sqrt (by norm_num)
  have a0 : 0 < Real.arctan (1 / 3) := Real.arctan_pos.mpr (by norm_num)
  have hlt : Real.arctan (1 / 3) < Real.pi / 6 := by
    rw [← Real.arctan_tan (x := Real.pi / 6) (by linarith) (by linarith), Real.tan_pi_div_six]
    refine Real.arctan_strictMono ?_
    rw [lt_div_iff₀ h3p]; nlinarith
  have s0 : 0 < Real.sin (Real.arctan (1 / 3)) := Real.sin_pos_of_pos_of_lt_pi a0 (by linarith)
  have s1 := Real.sin_le_one (Real.arctan (1 / 3))
  refine ⟨{ exRT with asin := asin, cells := [⟨2, 2, 0, 1 / 3, 0⟩, ⟨10, 10, -2, -2, -2⟩] }, ⟨2, 2, 0, 1 / 3, 0⟩, 180 / Real.pi * Real.arctan (1 / 3), Real.arcsin (Real.sin (Real.arctan (1 / 3)) / 2),
    ⟨rfl, by simp [exRT, exStack], rfl, rfl, by simp [exRT], by simp [exRT], by norm_num, by norm_num⟩, hasin, rfl, rfl, by positivity, ?_, rfl, by rw [e, Real.tan_arctan], by rw [e, Real.tan_arctan]; norm_num,
    by simp [exRT], Real.arcsin_nonneg.mpr (by linarith), Real.arcsin_lt_pi_div_two.mpr (by linarith), ?_, ?_⟩
  · rw [div_mul_eq_mul_div, div_lt_iff₀ hpi]; linarith
  · rw [e, Real.sin_arcsin (by linarith) (by linarith)]; ring
  · unfold pyramidHeight; rw [e, Real.tan_arctan]; norm_num

end Rayflare
