import Verif.Props.RCWA

/-!
# Properties C55, C56, C85, C86: redistribution matrices from rigorous coupled-wave analysis
-/

namespace Rayflare

open Rayflare.Np Rayflare.Model Rayflare.Spec Rayflare.Lemmas Real

section
variable (n : ℕ) (hn : 0 < n) (c : ℝ) (hc : 0 < c) (m : ℕ) (hm : 0 < m) (sp : Spacing) (front : Bool)

include hn hc hm in
theorem angle_same (hs : (1e-10 : ℝ) ≤ 2 * π / m) (cell : RcwaCell) (hcell : PolarOk cell) (θ φ : ℝ) (sol : RcwaSol) (hR : Reflects cell θ φ sol) (j : ℕ) (mat : Mat) :
    rcwaAngle (makeAngleVector n (2 * π / m) c sp) (2 * π / m) front cell j j θ φ sol mat =
      some (addTo j (contributions (makeAngleVector n (2 * π / m) c sp) (2 * π / m) front cell θ φ sol) mat) := by
  unfold rcwaAngle
  rw [if_neg (rsum_pos cell θ φ sol hR).ne']
  refine (put_fold _ j _ (fun e => (tmmBin (makeAngleVector n (2 * π / m) c sp) (thetaBin (makeAngleVector n (2 * π / m) c sp) (nudge e.1)) (nudge e.2.1)).getD 0) ?_ mat).trans ?_
  · intro e he
    obtain ⟨b, hb, -⟩ := entry_bin n hn c hc m hm sp front hs cell hcell θ φ sol e he
    rw [hb]; rfl
  · rfl

include hn hc hm in
/-- The loop always runs through: any source column. -/
theorem angle_some (hs : (1e-10 : ℝ) ≤ 2 * π / m) (cell : RcwaCell) (hcell : PolarOk cell) (θ φ : ℝ) (sol : RcwaSol) (hR : Reflects cell θ φ sol) (dst src : ℕ) (mat : Mat) :
    ∃ mat', rcwaAngle (makeAngleVector n (2 * π / m) c sp) (2 * π / m) front cell dst src θ φ sol mat = some mat' := by
  unfold rcwaAngle
  rw [if_neg (rsum_pos cell θ φ sol hR).ne']
  have h := entry_bin n hn c hc m hm sp front hs cell hcell θ φ sol
  simp only at h
  revert h
  generalize rcwaReflected (2 * π / m) front cell θ φ sol ++ rcwaTransmitted (2 * π / m) front cell θ φ sol = es
  intro h
  induction es generalizing mat with
  | nil => exact ⟨mat, rfl⟩
  | cons e es ih =>
    obtain ⟨b, hb, -⟩ := h e (by simp)
    rw [List.foldlM_cons]
    unfold rcwaPut
    split_ifs
    · exact ih _ (fun e he => h e (List.mem_cons_of_mem _ he))
    · rw [hb]
      exact ih _ (fun e he => h e (List.mem_cons_of_mem _ he))

/-- Column of the matrix into which angle of incidence number `j` goes. -/
noncomputable def rcwaCol (g : Grid) (front : Bool) (j : ℕ) : ℕ := ((g.angleVector[j]?).bind (rcwaInBin g front j)).getD 0

include hn hc in
/-- For rear incidence angle number `j` of the upper hemisphere goes into the column of the mirrored direction. -/
theorem inBin_rear (s : ℝ) (hs0 : 0 < s) {i k : ℕ} (hi : i < n) (hk : k < ringSize n c i) :
    rcwaInBin (makeAngleVector n s c sp) false (ringStart n c i + k) ({ ring := i, theta := polarMid n sp i, phi := azimuthMid n c s i k } : Row) =
      some (ringStart n c (2 * n - 1 - i) + k - ringStart n c n) ∧
    ringStart n c n ≤ ringStart n c (2 * n - 1 - i) ∧ ringStart n c (2 * n - 1 - i) + k < 2 * ringStart n c n := by
  have hsz := ringSize_symm n c (show i < 2 * n by omega)
  have h1 := ringStart_mono n c (show n ≤ 2 * n - 1 - i by omega)
  have h2 : ringStart n c (2 * n - 1 - i) + k < ringStart n c (2 * n) := by
    have := ringStart_mono n c (show 2 * n - 1 - i + 1 ≤ 2 * n by omega)
    rw [ringStart_succ, hsz] at this; omega
  rw [ringStart_half] at h2
  refine ⟨?_, h1, h2⟩
  have hhalf : (makeAngleVector n s c sp).half = ringStart n c n := half_eq n hn c sp s
  have hb := mid_inBin n hn s c hs0 sp (i := 2 * n - 1 - i) (k := k) (by omega) (by rw [hsz]; exact hk)
  have hpm : π - polarMid n sp i = polarMid n sp (2 * n - 1 - i) := by rw [polarMid_symm n hn sp (show i < 2 * n by omega)]
  have haz : azimuthMid n c s i k = azimuthMid n c s (2 * n - 1 - i) k := by
    unfold azimuthMid azimuthEdge; rw [hsz]
  unfold rcwaInBin
  simp only [Bool.false_eq_true, if_false]
  rw [hpm, haz, thetaBin_eq n hn s c sp (by omega) hb.1 hb.2.1,
    overallBin_eq n hn s c hs0 hc sp (by omega) (by rw [hsz]; exact hk) hb.2.2.1 hb.2.2.2, Option.bind_some, hhalf]
  unfold pyIndex
  rw [if_pos ⟨by omega, by omega⟩]
  congr 1; omega

include hn hc in
/-- Every angle of incidence has a column, no two share one. -/
theorem col_spec (s : ℝ) (hs0 : 0 < s) :
    (∀ j < ringStart n c n, ∃ row, (makeAngleVector n s c sp).angleVector[j]? = some row ∧
      rcwaInBin (makeAngleVector n s c sp) front j row = some (rcwaCol (makeAngleVector n s c sp) front j) ∧ rcwaCol (makeAngleVector n s c sp) front j < ringStart n c n) ∧
    (∀ j < ringStart n c n, ∀ j' < ringStart n c n, rcwaCol (makeAngleVector n s c sp) front j = rcwaCol (makeAngleVector n s c sp) front j' → j = j') ∧
    (front = true → ∀ j < ringStart n c n, rcwaCol (makeAngleVector n s c sp) front j = j) ∧
    (front = false → ∀ i < n, ∀ k < ringSize n c i, rcwaCol (makeAngleVector n s c sp) front (ringStart n c i + k) = ringStart n c (2 * n - 1 - i) + k - ringStart n c n) := by
  have hblock : ∀ j < ringStart n c n, ∃ i < n, ∃ k < ringSize n c i, j = ringStart n c i + k ∧
      (makeAngleVector n s c sp).angleVector[j]? = some ({ ring := i, theta := polarMid n sp i, phi := azimuthMid n c s i k } : Row) := by
    intro j hj
    obtain ⟨i, k, hi, hk, he⟩ := exists_block (ringSize n c) n j (by rw [← ringStart_eq']; exact hj)
    rw [← ringStart_eq'] at he
    refine ⟨i, hi, k, hk, he, ?_⟩
    rw [he, angleVector_get n hn s c sp (by omega) hk]
  have hrear : front = false → ∀ i < n, ∀ k < ringSize n c i,
      rcwaCol (makeAngleVector n s c sp) front (ringStart n c i + k) = ringStart n c (2 * n - 1 - i) + k - ringStart n c n := by
    rintro rfl i hi k hk
    unfold rcwaCol
    rw [angleVector_get n hn s c sp (by omega) hk]
    have := (inBin_rear n hn c hc sp s hs0 hi hk).1
    rw [Option.bind_some]
    exact (congrArg (fun o => o.getD 0) this).trans rfl
  have hfront : front = true → ∀ j < ringStart n c n, rcwaCol (makeAngleVector n s c sp) front j = j := by
    rintro rfl j hj
    obtain ⟨i, hi, k, hk, he, hrow⟩ := hblock j hj
    unfold rcwaCol rcwaInBin
    rw [hrow]; simp
  refine ⟨?_, ?_, hfront, hrear⟩
  · intro j hj
    obtain ⟨i, hi, k, hk, he, hrow⟩ := hblock j hj
    refine ⟨_, hrow, ?_⟩
    cases front
    · obtain ⟨h1, h2, h3⟩ := inBin_rear n hn c hc sp s hs0 hi hk
      have := hrear rfl i hi k hk
      rw [he, this, h1]
      exact ⟨rfl, by omega⟩
    · rw [hfront rfl j hj]
      exact ⟨by simp [rcwaInBin], hj⟩
  · intro j hj j' hj' h
    cases front
    · obtain ⟨i, hi, k, hk, he, -⟩ := hblock j hj
      obtain ⟨i', hi', k', hk', he', -⟩ := hblock j' hj'
      have h1 := (inBin_rear n hn c hc sp s hs0 hi hk).2
      have h2 := (inBin_rear n hn c hc sp s hs0 hi' hk').2
      rw [he, he', hrear rfl i hi k hk, hrear rfl i' hi' k' hk'] at h
      have h3 : ringStart n c (2 * n - 1 - i) + k = ringStart n c (2 * n - 1 - i') + k' := by omega
      rw [ringStart_eq'] at h3
      obtain ⟨e1, e2⟩ := block_unique (ringSize n c) (by rw [ringSize_symm n c (show i < 2 * n by omega)]; exact hk)
        (by rw [ringSize_symm n c (show i' < 2 * n by omega)]; exact hk') h3
      have : i = i' := by omega
      subst this; subst e2; rw [he, he']
    · rwa [hfront rfl j hj, hfront rfl j' hj'] at h

include hn hc hm in
/-- The whole loop over the angles of incidence. -/
theorem matrix_columns (hs : (1e-10 : ℝ) ≤ 2 * π / m) (cell : RcwaCell) (hcell : PolarOk cell) (sol : ℕ → RcwaSol)
    (hR : ∀ j < ringStart n c n, ∀ row, (makeAngleVector n (2 * π / m) c sp).angleVector[j]? = some row → Reflects cell row.theta row.phi (sol j)) :
    let g := makeAngleVector n (2 * π / m) c sp
    ∃ fin, rcwaMatrix g (2 * π / m) front cell sol = some fin ∧
      ∀ j < ringStart n c n, ∀ row, g.angleVector[j]? = some row → ∃ mat mat',
        rcwaAngle g (2 * π / m) front cell (rcwaCol g front j) j row.theta row.phi (sol j) mat = some mat' ∧
        (∀ r, mat r (rcwaCol g front j) = 0) ∧ (∀ r, fin r (rcwaCol g front j) = mat' r (rcwaCol g front j)) ∧
        (∀ c', (∀ j' < j, rcwaCol g front j' ≠ c') → ∀ r, mat r c' = 0) := by
  intro g
  have hs0 : (0 : ℝ) < 2 * π / m := lt_of_lt_of_le (by norm_num) hs
  have hhalf : g.half = ringStart n c n := half_eq n hn c sp _
  obtain ⟨h1, h2, -, -⟩ := col_spec n hn c hc sp front (2 * π / m) hs0
  have hF : ∀ mat, ∀ i < ringStart n c n, ∃ mat', rcwaStep g (2 * π / m) front cell sol mat i = some mat' := by
    intro mat j hj
    obtain ⟨row, hrow, hb, -⟩ := h1 j hj
    unfold rcwaStep
    rw [hrow, Option.bind_some, hb, Option.bind_some]
    exact angle_some n hn c hc m hm sp front hs cell hcell _ _ _ (hR j hj row hrow) _ _ _
  have hoth : ∀ mat mat' i, rcwaStep g (2 * π / m) front cell sol mat i = some mat' → ∀ c' ≠ rcwaCol g front i, ∀ r, mat' r c' = mat r c' := by
    intro mat mat' j hstep c' hc' r
    unfold rcwaStep at hstep
    cases hrow : g.angleVector[j]? with
    | none => rw [hrow] at hstep; cases hstep
    | some row =>
      rw [hrow, Option.bind_some] at hstep
      cases hb : rcwaInBin g front j row with
      | none => rw [hb] at hstep; cases hstep
      | some d =>
        rw [hb, Option.bind_some] at hstep
        have hd : rcwaCol g front j = d := by unfold rcwaCol; rw [hrow, Option.bind_some, hb]; rfl
        unfold rcwaAngle at hstep
        split_ifs at hstep
        exact put_other _ _ _ _ _ _ hstep (by rw [← hd]; exact hc') r
  obtain ⟨fin, hfin, hcols⟩ := columns_fold (rcwaStep g (2 * π / m) front cell sol) (rcwaCol g front) (ringStart n c n) h2 hF hoth
  refine ⟨fin, ?_, ?_⟩
  · unfold rcwaMatrix; rw [hhalf]; exact hfin
  · intro j hj row hrow
    obtain ⟨mat, mat', e1, e2, e3, e4⟩ := hcols j hj
    refine ⟨mat, mat', ?_, e2, e3, e4⟩
    obtain ⟨row', hrow', hb, -⟩ := h1 j hj
    have : row = row' := by rw [hrow] at hrow'; exact Option.some.inj hrow'
    subst this
    unfold rcwaStep at e1
    rw [hrow, Option.bind_some, hb, Option.bind_some] at e1
    exact e1

theorem addTo_sums (N : ℕ) (half : ℕ) (j : ℕ) (es : List (ℕ × ℝ)) (hes : ∀ e ∈ es, e.1 < N) (mat : Mat) (hz : ∀ r, mat r j = 0) :
    ∑ r ∈ Finset.range half, addTo j es mat r j = (es.map fun x => if x.1 < half then x.2 else 0).sum ∧
    ∑ r ∈ Finset.range N, addTo j es mat r j = (es.map fun x => x.2).sum := by
  constructor
  · rw [← sum_rows']
    refine Finset.sum_congr rfl fun r _ => ?_
    simp [addTo, hz]
  · rw [show (es.map fun x => x.2) = es.map Prod.snd from rfl, ← sum_rows N es hes]
    refine Finset.sum_congr rfl fun r _ => ?_
    simp [addTo, hz]

include hn hc hm in
theorem contributions_lt (hs : (1e-10 : ℝ) ≤ 2 * π / m) (cell : RcwaCell) (hcell : PolarOk cell) (θ φ : ℝ) (sol : RcwaSol) :
    ∀ e ∈ contributions (makeAngleVector n (2 * π / m) c sp) (2 * π / m) front cell θ φ sol, e.1 < ringStart n c (2 * n) := by
  intro e he
  obtain ⟨e', he', rfl⟩ := List.mem_map.mp he
  obtain ⟨b, hb, hlt, -⟩ := entry_bin n hn c hc m hm sp front hs cell hcell θ φ sol e' he'
  rw [hb]; exact hlt

include hn hc hm in
/-- **C55.** Front incidence: in every column of the matrix the bins of the upper hemisphere total `R = 1 - T - A` and the bins of the lower one the sum of the powers of the transmitted
orders, however many orders share a bin. -/
theorem C55_front (hs : (1e-10 : ℝ) ≤ 2 * π / m) (cell : RcwaCell) (hcell : PolarOk cell) (sol : ℕ → RcwaSol)
    (hR : ∀ j < ringStart n c n, ∀ row, (makeAngleVector n (2 * π / m) c sp).angleVector[j]? = some row → Reflects cell row.theta row.phi (sol j)) :
    let g := makeAngleVector n (2 * π / m) c sp
    ∃ mat, rcwaMatrix g (2 * π / m) true cell sol = some mat ∧
      ∀ j < ringStart n c n, ∀ row, g.angleVector[j]? = some row →
        ∑ r ∈ Finset.range (ringStart n c n), mat r j = 1 - (sol j).T - (sol j).A.sum ∧
        ∑ r ∈ Finset.range (ringStart n c (2 * n)), mat r j =
          1 - (sol j).T - (sol j).A.sum + ((sol j).orders.map (transmittedPower cell row.theta row.phi)).sum := by
  intro g
  have hs0 : (0 : ℝ) < 2 * π / m := lt_of_lt_of_le (by norm_num) hs
  obtain ⟨fin, h1, h2⟩ := matrix_columns n hn c hc m hm sp true hs cell hcell sol hR
  refine ⟨fin, h1, fun j hj row hrow => ?_⟩
  obtain ⟨mat, mat', e1, e2, e3, -⟩ := h2 j hj row hrow
  have hcol := (col_spec n hn c hc sp true (2 * π / m) hs0).2.2.1 rfl j hj
  rw [hcol] at e1 e2 e3
  rw [angle_same n hn c hc m hm sp true hs cell hcell _ _ _ (hR j hj row hrow)] at e1
  have e1' := Option.some.inj e1
  obtain ⟨s1, s2⟩ := addTo_sums (ringStart n c (2 * n)) (ringStart n c n) j _
    (contributions_lt n hn c hc m hm sp true hs cell hcell row.theta row.phi (sol j)) mat e2
  obtain ⟨t1, t2⟩ := contributions_sum n hn c hc m hm sp true hs cell hcell row.theta row.phi (sol j) (hR j hj row hrow)
  rw [Finset.sum_congr rfl (fun r _ => e3 r), Finset.sum_congr rfl (fun r _ => e3 r), ← e1', s1, s2]
  exact ⟨t1, t2⟩

end

end Rayflare
