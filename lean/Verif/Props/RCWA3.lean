import Verif.Props.RCWA2
import Mathlib.Tactic.IntervalCases

/-!
# Properties C56, C85, C86: rear incidence, directions of the orders, reflectionless interfaces
-/

namespace Rayflare

open Rayflare.Np Rayflare.Model Rayflare.Spec Rayflare.Lemmas Real

/-! ## Directions of the orders -/

/-- **C85, polar angle.** A propagating order with in-plane frequency `f` is given the polar angle `θ` with `sin θ = |f| / (n / λ)`. -/
theorem C85_polar (eps wl : ℝ) (hwl : 0 < wl) (f : ℝ × ℝ) (hp : Propagates eps wl f) :
    0 ≤ polarOf eps wl f ∧ polarOf eps wl f < π / 2 ∧ √eps / wl * Real.sin (polarOf eps wl f) = √(f.1 ^ 2 + f.2 ^ 2) := by
  obtain ⟨h0, h1⟩ := polarOf_range eps wl f
  refine ⟨h0, lt_of_le_of_ne h1 fun h => (polarOf_eq_half eps wl f).mp h hp, ?_⟩
  have hp' : f.1 ^ 2 + f.2 ^ 2 < eps / wl ^ 2 := hp
  have hE : 0 < eps / wl ^ 2 := lt_of_le_of_lt (by positivity) hp'
  have heps : 0 < eps := by
    by_contra hcon
    exact absurd hE (not_lt.mpr (div_nonpos_of_nonpos_of_nonneg (not_lt.mp hcon) (by positivity)))
  unfold polarOf
  rw [if_pos hp'.le, Real.sin_arccos]
  have hk : √eps / wl = √(eps / wl ^ 2) := by
    rw [Real.sqrt_div' _ (by positivity), Real.sqrt_sq hwl.le]
  rw [hk, ← Real.sqrt_mul hE.le]
  congr 1
  rw [div_pow, Real.sq_sqrt (by linarith), Real.sq_sqrt hE.le]
  field_simp
  ring

/-- The angle is determined by its sine. -/
theorem polarOf_eq (eps wl : ℝ) (hwl : 0 < wl) (f : ℝ × ℝ) {α : ℝ} (h0 : 0 ≤ α) (h1 : α < π / 2) (heps : 0 < eps)
    (h : f.1 ^ 2 + f.2 ^ 2 = eps / wl ^ 2 * Real.sin α ^ 2) : polarOf eps wl f = α := by
  have hE : 0 < eps / wl ^ 2 := by positivity
  have hs1 : Real.sin α < 1 := by
    have := Real.strictMonoOn_sin (show α ∈ Set.Icc (-(π / 2)) (π / 2) from ⟨by linarith, h1.le⟩) (show π / 2 ∈ Set.Icc (-(π / 2)) (π / 2) from ⟨by linarith, le_rfl⟩) h1
    rwa [Real.sin_pi_div_two] at this
  have hs0 : 0 ≤ Real.sin α := Real.sin_nonneg_of_nonneg_of_le_pi h0 (by linarith [Real.pi_pos])
  have hsq : Real.sin α ^ 2 < 1 := by nlinarith
  have hp : Propagates eps wl f := by unfold Propagates; rw [h]; nlinarith
  obtain ⟨a, b, e⟩ := C85_polar eps wl hwl f hp
  have hk : √eps / wl = √(eps / wl ^ 2) := by
    rw [Real.sqrt_div' _ (by positivity), Real.sqrt_sq hwl.le]
  rw [h, hk, Real.sqrt_mul hE.le, Real.sqrt_sq hs0] at e
  have e2 : Real.sin (polarOf eps wl f) = Real.sin α := mul_left_cancel₀ (Real.sqrt_pos.mpr hE).ne' e
  exact Real.injOn_sin ⟨by linarith, b.le⟩ ⟨by linarith, h1.le⟩ e2

theorem arctan_azimuth (f : ℝ × ℝ) (φ : ℝ) (h : IsAzimuth f φ) : ∃ k : ℤ, rcwaArctan f = φ + k * π := by
  obtain ⟨ρ, hρ, rfl⟩ := h
  have hpi := Real.pi_pos
  unfold rcwaArctan
  simp only
  by_cases hcos : Real.cos φ = 0
  · have hsin : Real.sin φ = 1 ∨ Real.sin φ = -1 := by
      have := Real.sin_sq_add_cos_sq φ
      rw [hcos] at this
      have h2 : (Real.sin φ - 1) * (Real.sin φ + 1) = 0 := by nlinarith
      rcases mul_eq_zero.mp h2 with h3 | h3
      · left; linarith
      · right; linarith
    obtain ⟨k, hk⟩ := Real.cos_eq_zero_iff.mp hcos
    rw [if_pos (by rw [hcos]; ring)]
    rcases hsin with h1 | h1
    · rw [h1, mul_one, if_neg hρ.ne', if_pos hρ]
      exact ⟨-k, by rw [hk]; push_cast; ring⟩
    · rw [h1, mul_neg, mul_one, if_neg (by linarith [hρ.ne'] : ¬ -ρ = 0) , if_neg (by linarith)]
      exact ⟨-k - 1, by rw [hk]; push_cast; ring⟩
  · rw [if_neg (mul_ne_zero hρ.ne' hcos)]
    have htan : ρ * Real.sin φ / (ρ * Real.cos φ) = Real.tan φ := by
      rw [Real.tan_eq_sin_div_cos]; field_simp
    rw [htan]
    obtain ⟨k, hk, -⟩ := existsUnique_add_zsmul_mem_Ioc hpi φ (-(π / 2))
    simp only [zsmul_eq_mul, Set.mem_Ioc] at hk
    have hlt : φ + k * π < π / 2 := by
      refine lt_of_le_of_ne (by linarith [hk.2]) fun he => hcos ?_
      have : φ = π / 2 - k * π := by linarith
      rw [this, Real.cos_sub_int_mul_pi, Real.cos_pi_div_two, mul_zero]
    refine ⟨k, ?_⟩
    rw [← Real.tan_add_int_mul_pi φ k, Real.arctan_tan hk.1 hlt]

/-- **C85, azimuth.** If the symmetry angle divides 180 degrees (`2π/m` with even `m`), the azimuth given to an order is its azimuth modulo the symmetry angle. Missing: odd `m`, where it fails. -/
theorem C85_azimuth_partial (m : ℕ) (hm : 0 < m) (heven : Even m) (f : ℝ × ℝ) (φ : ℝ) (h : IsAzimuth f φ) :
    ∃ k : ℤ, rcwaPhi (2 * π / m) f = φ + k * (2 * π / m) := by
  obtain ⟨k, hk⟩ := arctan_azimuth f φ h
  obtain ⟨-, ⟨q, hq⟩, -⟩ := C05_fold m hm (rcwaArctan f)
  obtain ⟨p, hp⟩ := heven
  refine ⟨q + k * p, ?_⟩
  unfold rcwaPhi
  rw [hq, hk]
  have hm' : (m : ℝ) ≠ 0 := by positivity
  have : π = p * (2 * π / m) := by
    field_simp
    rw [hp]; push_cast; ring
  push_cast
  linear_combination (k : ℝ) * this

/-- **C85 fails without symmetry.** With `phi_symmetry` a full circle, opposite directions are given the same azimuth, for every pair of opposite orders off the x axis. -/
theorem C85_azimuth_fails (f : ℝ × ℝ) (hf : f.2 ≠ 0) : rcwaPhi (2 * π / (1 : ℕ)) f = rcwaPhi (2 * π / (1 : ℕ)) (-f) ∧
    ∃ φ, IsAzimuth f φ ∧ IsAzimuth (-f) (φ + π) ∧
      ¬ ((∃ k : ℤ, rcwaPhi (2 * π / (1 : ℕ)) f = φ + k * (2 * π / (1 : ℕ))) ∧ ∃ k : ℤ, rcwaPhi (2 * π / (1 : ℕ)) (-f) = φ + π + k * (2 * π / (1 : ℕ))) := by
  have hsame : rcwaPhi (2 * π / (1 : ℕ)) f = rcwaPhi (2 * π / (1 : ℕ)) (-f) := by
    unfold rcwaPhi rcwaArctan
    rw [if_neg hf, if_neg (by simpa using hf)]
    simp
  refine ⟨hsame, ?_⟩
  obtain ⟨φ, ρ, hρ, h1⟩ : ∃ φ, ∃ ρ, 0 < ρ ∧ f = (ρ * Real.sin φ, ρ * Real.cos φ) := by
    have hne : (⟨f.2, f.1⟩ : ℂ) ≠ 0 := fun h => hf (congrArg Complex.re h)
    refine ⟨Complex.arg ⟨f.2, f.1⟩, ‖(⟨f.2, f.1⟩ : ℂ)‖, norm_pos_iff.mpr hne, ?_⟩
    rw [Complex.norm_mul_sin_arg, Complex.norm_mul_cos_arg]
  refine ⟨φ, ⟨ρ, hρ, h1⟩, ⟨ρ, hρ, ?_⟩, ?_⟩
  · rw [h1, Real.sin_add_pi, Real.cos_add_pi]; simp
  · rintro ⟨⟨k, hk⟩, ⟨l, hl⟩⟩
    rw [← hsame, hk] at hl
    have hpi := Real.pi_pos
    push_cast at hl
    have h2 : (k : ℝ) * 2 = 1 + l * 2 := by
      have : π * ((k : ℝ) * 2) = π * (1 + l * 2) := by linarith
      exact mul_left_cancel₀ hpi.ne' this
    have h3 : k * 2 = 1 + l * 2 := by exact_mod_cast h2
    omega

section
variable (n : ℕ) (hn : 0 < n) (c : ℝ) (hc : 0 < c) (m : ℕ) (hm : 0 < m) (sp : Spacing)

open Classical in
include hn hc hm in
/-- **C85, bins.** Front incidence, symmetry angle dividing 180 degrees: the entry in row `r` is the total power of the orders whose direction lies in bin `r`; reflected powers are scaled to total `R`.
`az` gives the azimuth of each order; excluded are orders exactly along the normal, and azimuths exactly on an edge of the symmetry element. -/
theorem C85_bins_partial (heven : Even m) (hs : (1e-10 : ℝ) ≤ 2 * π / m) (cell : RcwaCell) (hwl : 0 < cell.wl) (hcell : PolarOk cell) (sol : ℕ → RcwaSol)
    (hR : ∀ j < ringStart n c n, ∀ row, (makeAngleVector n (2 * π / m) c sp).angleVector[j]? = some row → Reflects cell row.theta row.phi (sol j))
    (j : ℕ) (hj : j < ringStart n c n) (row : Row) (hrow : (makeAngleVector n (2 * π / m) c sp).angleVector[j]? = some row)
    (az : ℤ × ℤ → ℝ) (haz : ∀ o ∈ (sol j).orders, IsAzimuth (gratingFreq cell row.theta row.phi o.1) (az o.1) ∧ OffEdge (2 * π / m) (az o.1)) :
    let f := fun g => gratingFreq cell row.theta row.phi g
    let rsum := ((sol j).orders.map (reflectedPower cell row.theta row.phi)).sum
    ∃ mat, rcwaMatrix (makeAngleVector n (2 * π / m) c sp) (2 * π / m) true cell sol = some mat ∧
      ∀ r, mat r j =
        ((sol j).orders.map fun o => if DirInBin n c (2 * π / m) sp r (polarOf cell.eps cell.wl (f o.1)) (az o.1) then
          (1 - (sol j).T - (sol j).A.sum) / rsum * reflectedPower cell row.theta row.phi o else 0).sum +
        ((sol j).orders.map fun o => if DirInBin n c (2 * π / m) sp r (π - cell.polarT (f o.1).1 (f o.1).2) (az o.1) then
          transmittedPower cell row.theta row.phi o else 0).sum := by
  intro f rsum
  have hs0 : (0 : ℝ) < 2 * π / m := lt_of_lt_of_le (by norm_num) hs
  obtain ⟨fin, h1, h2⟩ := matrix_columns n hn c hc m hm sp true hs cell hcell sol hR
  refine ⟨fin, h1, fun r => ?_⟩
  obtain ⟨mat, mat', e1, e2, e3, -⟩ := h2 j hj row hrow
  have hcol := (col_spec n hn c hc sp true (2 * π / m) hs0).2.2.1 rfl j hj
  rw [hcol] at e1 e2 e3
  rw [angle_same n hn c hc m hm sp true hs cell hcell _ _ _ (hR j hj row hrow)] at e1
  have e1' := Option.some.inj e1
  rw [e3, ← e1']
  unfold addTo
  rw [e2, if_pos rfl, zero_add]
  unfold contributions rcwaReflected rcwaTransmitted
  rw [List.map_append, List.map_append, List.sum_append, List.map_map, List.map_map, List.map_map, List.map_map]
  -- one order
  have key : ∀ o ∈ (sol j).orders, ∀ θ, 0 < θ → θ ≤ π →
      ((tmmBin (makeAngleVector n (2 * π / m) c sp) (thetaBin (makeAngleVector n (2 * π / m) c sp) (nudge θ)) (nudge (rcwaPhi (2 * π / m) (rcwaFreq cell row.theta row.phi o.1)))).getD 0 = r ↔
        DirInBin n c (2 * π / m) sp r θ (az o.1)) := by
    intro o ho θ t0 t1
    obtain ⟨hazo, hoff⟩ := haz o ho
    obtain ⟨k, hk⟩ := arctan_azimuth _ _ hazo
    have hmul : ∃ q : ℤ, rcwaArctan (rcwaFreq cell row.theta row.phi o.1) = az o.1 + q * (2 * π / m) := by
      obtain ⟨p, hp⟩ := heven
      refine ⟨k * p, ?_⟩
      have hk' : rcwaArctan (rcwaFreq cell row.theta row.phi o.1) = az o.1 + k * π := hk
      rw [hk']
      have hm' : (m : ℝ) ≠ 0 := by positivity
      have : π = p * (2 * π / m) := by
        field_simp
        rw [hp]; push_cast; ring
      push_cast
      linear_combination (k : ℝ) * this
    obtain ⟨q, hq⟩ := hmul
    have hoff' : OffEdge (2 * π / m) (rcwaArctan (rcwaFreq cell row.theta row.phi o.1)) := by
      intro l hl
      rw [hq] at hl
      exact hoff (l - q) (by push_cast; linarith)
    obtain ⟨i, kk, hi, hkk, hb, hlt, -, hdir⟩ := order_bin n hn c hc m hm sp hs t0.le t1 (rcwaArctan (rcwaFreq cell row.theta row.phi o.1))
    have hd := hdir t0 hoff'
    rw [hq] at hd
    have hd' : DirInBin n c (2 * π / m) sp (ringStart n c i + kk) θ (az o.1) := by
      obtain ⟨a, b, l, x1, x2, x3, x4⟩ := hd
      refine ⟨a, b, q + l, x1, x2, x3, ?_⟩
      rw [add_assoc, ← add_mul] at x4
      push_cast; exact x4
    unfold rcwaPhi
    rw [hb, Option.getD_some]
    constructor
    · rintro rfl; exact hd'
    · intro h; exact dirInBin_unique hn hs0 hd' h
  congr 1
  · congr 1
    refine List.map_congr_left fun o ho => ?_
    simp only [Function.comp]
    rw [clean_reflected, powers_eq]
    by_cases h0 : reflectedPower cell row.theta row.phi o = 0
    · simp [h0]
    · have hp : Propagates cell.eps cell.wl (f o.1) := by
        by_contra hcon
        apply h0
        unfold reflectedPower
        rw [if_neg]; exact fun hh => hcon hh.1
      obtain ⟨a, b, e⟩ := C85_polar cell.eps cell.wl hwl (f o.1) hp
      obtain ⟨ρ, hρ, hf⟩ := (haz o ho).1
      have hpos : 0 < polarOf cell.eps cell.wl (f o.1) := by
        refine lt_of_le_of_ne a fun h => ?_
        rw [← h, Real.sin_zero, mul_zero] at e
        have h3 : (f o.1).1 ^ 2 + (f o.1).2 ^ 2 = ρ ^ 2 := by
          show (gratingFreq cell row.theta row.phi o.1).1 ^ 2 + (gratingFreq cell row.theta row.phi o.1).2 ^ 2 = _
          rw [hf]
          linear_combination ρ ^ 2 * Real.sin_sq_add_cos_sq (az o.1)
        rw [h3, Real.sqrt_sq hρ.le] at e
        linarith
      have hk := key o ho _ hpos (by linarith [Real.pi_pos])
      exact if_congr hk rfl rfl
  · congr 1
    refine List.map_congr_left fun o ho => ?_
    simp only [Function.comp]
    rw [clean_transmitted cell hcell]
    have hc2 := hcell (f o.1).1 (f o.1).2
    have hk := key o ho (π - cell.polarT (f o.1).1 (f o.1).2) (by linarith [Real.pi_pos, hc2.2]) (by linarith [hc2.1])
    exact if_congr hk rfl rfl

/-! ## Rear incidence -/

include hn hc hm in
/-- **C56, what holds.** Rear incidence: angle of incidence number `j` (ring `i`, azimuth `k`) is stored in the column of the mirrored direction, and the lower hemisphere of that column totals `R`, the whole column
`R` plus the transmitted powers, if either that column has the same number `j` (in particular if there is only one ring), or no two orders share a bin and column `j` belongs to an angle that is
processed later.  Missing: all other columns, where it fails. -/
theorem C56_rear_partial (hs : (1e-10 : ℝ) ≤ 2 * π / m) (cell : RcwaCell) (hcell : PolarOk cell) (sol : ℕ → RcwaSol)
    (hR : ∀ j < ringStart n c n, ∀ row, (makeAngleVector n (2 * π / m) c sp).angleVector[j]? = some row → Reflects cell row.theta row.phi (sol j)) :
    let g := makeAngleVector n (2 * π / m) c sp
    ∃ mat, rcwaMatrix g (2 * π / m) false cell sol = some mat ∧
      ∀ i < n, ∀ k < ringSize n c i, ∀ row, g.angleVector[ringStart n c i + k]? = some row →
        let j := ringStart n c i + k
        let col := ringStart n c (2 * n - 1 - i) + k - ringStart n c n
        (col = j ∨ ((∀ i' < n, ∀ k' < ringSize n c i', ringStart n c i' + k' < j → ringStart n c (2 * n - 1 - i') + k' - ringStart n c n ≠ j) ∧
          (contributions g (2 * π / m) false cell row.theta row.phi (sol j)).Pairwise fun a b => a.2 ≠ 0 → b.2 ≠ 0 → a.1 ≠ b.1)) →
        ∑ r ∈ Finset.range (ringStart n c n), mat r col = ((sol j).orders.map (transmittedPower cell row.theta row.phi)).sum ∧
        ∑ r ∈ Finset.range (ringStart n c (2 * n)), mat r col =
          1 - (sol j).T - (sol j).A.sum + ((sol j).orders.map (transmittedPower cell row.theta row.phi)).sum := by
  intro g
  have hs0 : (0 : ℝ) < 2 * π / m := lt_of_lt_of_le (by norm_num) hs
  obtain ⟨fin, h1, h2⟩ := matrix_columns n hn c hc m hm sp false hs cell hcell sol hR
  refine ⟨fin, h1, ?_⟩
  intro i hi k hk row hrow j col hcond
  have hj : j < ringStart n c n := by
    have := ringStart_mono n c (show i + 1 ≤ n from hi)
    rw [ringStart_succ] at this
    show ringStart n c i + k < _
    omega
  obtain ⟨mat, mat', e1, e2, e3, e4⟩ := h2 j hj row hrow
  have hcols := (col_spec n hn c hc sp false (2 * π / m) hs0).2.2.2 rfl
  have hcol : rcwaCol g false j = col := hcols i hi k hk
  rw [hcol] at e1 e2 e3
  have hmat' : mat' = addTo col (contributions g (2 * π / m) false cell row.theta row.phi (sol j)) mat := by
    rcases hcond with hcj | ⟨hlater, hdist⟩
    · rw [hcj] at e1 ⊢
      rw [angle_same n hn c hc m hm sp false hs cell hcell _ _ _ (hR j hj row hrow)] at e1
      exact (Option.some.inj e1).symm
    · by_cases hcj : col = j
      · rw [hcj] at e1 ⊢
        rw [angle_same n hn c hc m hm sp false hs cell hcell _ _ _ (hR j hj row hrow)] at e1
        exact (Option.some.inj e1).symm
      · have hz : ∀ r, mat r j = 0 := by
          refine e4 j fun j' hj' hcc => ?_
          obtain ⟨i', k', hi', hk', he'⟩ := exists_block (ringSize n c) n j' (by rw [← ringStart_eq']; omega)
          rw [← ringStart_eq'] at he'
          rw [he', hcols i' hi' k' hk'] at hcc
          exact hlater i' hi' k' hk' (by omega) hcc
        unfold rcwaAngle at e1
        rw [if_neg (rsum_pos cell _ _ _ (hR j hj row hrow)).ne'] at e1
        have hfold := put_fold_other g col j (Ne.symm hcj) _
          (fun e => (tmmBin g (thetaBin g (nudge e.1)) (nudge e.2.1)).getD 0)
          (fun e he => by
            obtain ⟨b, hb, -⟩ := entry_bin n hn c hc m hm sp false hs cell hcell row.theta row.phi (sol j) e he
            show _ = some ((tmmBin g (thetaBin g (nudge e.1)) (nudge e.2.1)).getD 0)
            have hb' : tmmBin g (thetaBin g (nudge e.1)) (nudge e.2.1) = some b := hb
            rw [hb']; rfl) mat hz (by
              unfold contributions at hdist
              rw [List.pairwise_map] at hdist
              exact hdist) (fun e _ _ => e2 _)
        rw [hfold] at e1
        exact (Option.some.inj e1).symm
  obtain ⟨s1, s2⟩ := addTo_sums (ringStart n c (2 * n)) (ringStart n c n) col _
    (contributions_lt n hn c hc m hm sp false hs cell hcell row.theta row.phi (sol j)) mat e2
  obtain ⟨t1, t2⟩ := contributions_sum n hn c hc m hm sp false hs cell hcell row.theta row.phi (sol j) (hR j hj row hrow)
  rw [Finset.sum_congr rfl (fun r _ => e3 r), Finset.sum_congr rfl (fun r _ => e3 r), hmat', s1, s2]
  exact ⟨t1, t2⟩

/-- A loop that gets through has got through every pass. -/
theorem foldlM_mem {α β : Type*} (F : β → α → Option β) (l : List α) (b fin : β) (h : l.foldlM F b = some fin) : ∀ a ∈ l, ∃ b b', F b a = some b' := by
  induction l generalizing b with
  | nil => intro a ha; simp at ha
  | cons x l ih =>
    rw [List.foldlM_cons] at h
    cases hx : F b x with
    | none => rw [hx] at h; cases h
    | some b1 =>
      rw [hx] at h
      intro a ha
      rcases List.mem_cons.mp ha with rfl | ha
      · exact ⟨b, b1, hx⟩
      · exact ih b1 h a ha

end

/-- **C86 fails.** If for one angle of incidence no propagating reflected order carries power (at least 1e-16), the matrix contains NaN, whatever the other orders and angles. -/
theorem C86_no_reflection_fails (n : ℕ) (hn : 0 < n) (c : ℝ) (s : ℝ) (sp : Spacing) (front : Bool) (cell : RcwaCell) (sol : ℕ → RcwaSol)
    (j : ℕ) (hj : j < ringStart n c n) (row : Row) (hrow : (makeAngleVector n s c sp).angleVector[j]? = some row)
    (h : ∀ o ∈ (sol j).orders, reflectedPower cell row.theta row.phi o = 0) :
    rcwaMatrix (makeAngleVector n s c sp) s front cell sol = none := by
  have hhalf : (makeAngleVector n s c sp).half = ringStart n c n := half_eq n hn c sp s
  cases hm : rcwaMatrix (makeAngleVector n s c sp) s front cell sol with
  | none => rfl
  | some fin =>
    exfalso
    unfold rcwaMatrix at hm
    obtain ⟨b, b', hb⟩ := foldlM_mem _ _ _ _ hm j (by rw [hhalf]; exact List.mem_range.mpr hj)
    unfold rcwaStep at hb
    rw [hrow, Option.bind_some] at hb
    cases hd : rcwaInBin (makeAngleVector n s c sp) front j row with
    | none => rw [hd] at hb; cases hb
    | some d =>
      rw [hd, Option.bind_some] at hb
      unfold rcwaAngle at hb
      rw [if_pos] at hb
      · cases hb
      · rw [powers_eq]
        apply List.sum_eq_zero
        intro x hx
        obtain ⟨o, ho, rfl⟩ := List.mem_map.mp hx
        exact h o ho

/-- **C86, what holds.** Otherwise all entries are numbers. -/
theorem C86_reflection_partial (n : ℕ) (hn : 0 < n) (c : ℝ) (hc : 0 < c) (m : ℕ) (hm : 0 < m) (sp : Spacing) (front : Bool) (hs : (1e-10 : ℝ) ≤ 2 * π / m)
    (cell : RcwaCell) (hcell : PolarOk cell) (sol : ℕ → RcwaSol)
    (hR : ∀ j < ringStart n c n, ∀ row, (makeAngleVector n (2 * π / m) c sp).angleVector[j]? = some row → Reflects cell row.theta row.phi (sol j)) :
    ∃ mat, rcwaMatrix (makeAngleVector n (2 * π / m) c sp) (2 * π / m) front cell sol = some mat := by
  obtain ⟨fin, h1, -⟩ := matrix_columns n hn c hc m hm sp front hs cell hcell sol hR
  exact ⟨fin, h1⟩

/-! ## Concrete cases -/

/-- The two-ring grid with one bin per ring used below. -/
theorem size_one {i : ℕ} (hi : i < 4) : ringSize 2 (1/10) i = 1 := by
  unfold ringSize
  have h : min (i + 1) (2 * 2 - i) = 1 ∨ min (i + 1) (2 * 2 - i) = 2 := by
    interval_cases i <;> simp
  rcases h with h | h <;> rw [h] <;> rw [Nat.ceil_eq_iff] <;> norm_num

theorem start_one {i : ℕ} (hi : i ≤ 4) : ringStart 2 (1/10) i = i := by
  induction i with
  | zero => exact ringStart_zero _ _
  | succ i ih => rw [ringStart_succ, ih (by omega), size_one (by omega)]

/-- A grating in the Littrow configuration: for light arriving from the first ring of directions orders (0,0) and (0,1) are symmetric about the normal. -/
noncomputable def littrow : RcwaCell := ⟨1, 1, (1, 0), (0, 2 * Real.sin (π / 8)), fun _ _ => 0⟩

/-- Both orders get half of the light. -/
noncomputable def littrowSol : RcwaSol := ⟨0, [], [((0, 0), 1 / 2, 0), ((0, 1), 1 / 2, 0)]⟩

theorem littrow_polarOk : PolarOk littrow := fun _ _ => ⟨le_rfl, by have := Real.pi_pos; show (0 : ℝ) ≤ π / 2; positivity⟩

/-- The specular order propagates. -/
theorem specular_reflects (θ φ : ℝ) (h0 : 0 ≤ θ) (h1 : θ < π / 2) : Reflects littrow θ φ littrowSol := by
  refine ⟨((0, 0), 1 / 2, 0), by simp [littrowSol], ?_⟩
  unfold reflectedPower
  rw [if_pos]
  · norm_num
  · refine ⟨?_, by norm_num⟩
    unfold Propagates gratingFreq littrow
    simp only [Real.sqrt_one, Int.cast_zero, zero_mul, add_zero, div_one, one_mul]
    have hs1 : Real.sin θ < 1 := by
      have := Real.strictMonoOn_sin (show θ ∈ Set.Icc (-(π / 2)) (π / 2) from ⟨by linarith, h1.le⟩) (show π / 2 ∈ Set.Icc (-(π / 2)) (π / 2) from ⟨by linarith, le_rfl⟩) h1
      rwa [Real.sin_pi_div_two] at this
    have hs0 : 0 ≤ Real.sin θ := Real.sin_nonneg_of_nonneg_of_le_pi h0 (by linarith [Real.pi_pos])
    have h2 : (Real.sin θ * Real.sin φ) ^ 2 + (Real.sin θ * Real.cos φ) ^ 2 = Real.sin θ ^ 2 := by
      linear_combination Real.sin θ ^ 2 * Real.sin_sq_add_cos_sq φ
    rw [h2, one_pow, div_one]; nlinarith

theorem littrow_reflects (j : ℕ) (hj : j < ringStart 2 (1/10) 2) (row : Row) (hrow : (makeAngleVector 2 (2 * π / (1 : ℕ)) (1/10) .linear).angleVector[j]? = some row) :
    Reflects littrow row.theta row.phi littrowSol := by
  rw [start_one (by norm_num)] at hj
  have h := angleVector_get 2 (by norm_num) (2 * π / (1 : ℕ)) (1/10) .linear (i := j) (k := 0) (by omega) (by rw [size_one (by omega)]; norm_num)
  rw [start_one (by omega), add_zero, hrow] at h
  have := Option.some.inj h
  subst this
  refine specular_reflects _ _ ?_ (polarMid_lt_half 2 (by norm_num) .linear hj)
  simp only [polarMid, polarEdge]
  have := Real.pi_pos
  positivity

/-- **C56 fails.** Two rings, rear incidence, one wavelength, two reflected orders in the same bin and everything reflected (R = 1): the column holds only half of the light. -/
theorem C56_rear_fails : ∃ mat, rcwaMatrix (makeAngleVector 2 (2 * π / (1 : ℕ)) (1/10) .linear) (2 * π / (1 : ℕ)) false littrow (fun _ => littrowSol) = some mat ∧
    1 - littrowSol.T - littrowSol.A.sum = 1 ∧
    ∑ r ∈ Finset.range (ringStart 2 (1/10) (2 * 2)), mat r (ringStart 2 (1/10) (2 * 2 - 1 - 0) + 0 - ringStart 2 (1/10) 2) = 1 / 2 := by
  have hpi := Real.pi_gt_three
  have hs : (1e-10 : ℝ) ≤ 2 * π / (1 : ℕ) := by norm_num; linarith
  have hs0 : (0 : ℝ) < 2 * π / (1 : ℕ) := lt_of_lt_of_le (by norm_num) hs
  have hc : (0 : ℝ) < 1 / 10 := by norm_num
  obtain ⟨fin, h1, h2⟩ := matrix_columns 2 (by norm_num) (1/10) hc 1 (by norm_num) .linear false hs littrow littrow_polarOk (fun _ => littrowSol) littrow_reflects
  refine ⟨fin, h1, by norm_num [littrowSol], ?_⟩
  set g := makeAngleVector 2 (2 * π / (1 : ℕ)) (1/10) .linear with hg
  have hrow := angleVector_get 2 (by norm_num) (2 * π / (1 : ℕ)) (1/10) .linear (i := 0) (k := 0) (by omega) (by rw [size_one (by omega)]; norm_num)
  rw [ringStart_zero, add_zero] at hrow
  obtain ⟨mat, mat', e1, e2, e3, e4⟩ := h2 0 (by rw [start_one (by norm_num)]; norm_num) _ hrow
  have hcol : rcwaCol g false 0 = 1 := by
    have := (col_spec 2 (by norm_num) (1/10) hc .linear false (2 * π / (1 : ℕ)) hs0).2.2.2 rfl 0 (by norm_num) 0 (by rw [size_one (by omega)]; norm_num)
    rw [ringStart_zero, start_one (by norm_num), start_one (by norm_num)] at this
    exact this
  rw [hcol] at e1 e2 e3
  have hz : ∀ r c, mat r c = 0 := fun r c => e4 c (fun j' hj' => absurd hj' (by omega)) r
  rw [start_one (by norm_num), start_one (by norm_num), start_one (by norm_num)]
  have hth : polarMid 2 .linear 0 = π / 8 := by simp [polarMid, polarEdge]; ring
  have hph : azimuthMid 2 (1/10) (2 * π / (1 : ℕ)) 0 0 = π := by
    unfold azimuthMid azimuthEdge; rw [size_one (by omega)]; norm_num
  simp only [hth, hph] at e1
  -- the two orders
  have hf0 : rcwaFreq littrow (π / 8) π (0, 0) = (0, -Real.sin (π / 8)) := by
    simp [rcwaFreq, littrow]
  have hf1 : rcwaFreq littrow (π / 8) π (0, 1) = (0, Real.sin (π / 8)) := by
    simp [rcwaFreq, littrow]; ring
  have hp0 : rcwaThetaR littrow (0, -Real.sin (π / 8)) = π / 8 :=
    polarOf_eq 1 1 (by norm_num) _ (by positivity) (by linarith) (by norm_num) (by simp)
  have hp1 : rcwaThetaR littrow (0, Real.sin (π / 8)) = π / 8 :=
    polarOf_eq 1 1 (by norm_num) _ (by positivity) (by linarith) (by norm_num) (by simp)
  have hclean : rcwaClean (π / 8) (1 / 2) = 1 / 2 := by
    rw [clean_eq, if_pos ⟨by intro h; linarith, by norm_num⟩]
  have hclean0 : ∀ θ, rcwaClean θ 0 = 0 := by intro θ; rw [clean_eq]; split_ifs <;> rfl
  have hpow : (rcwaRPowers littrow (π / 8) π littrowSol).sum = 1 := by
    unfold rcwaRPowers littrowSol
    simp only [List.map_cons, List.map_nil, hf0, hf1, hp0, hp1, hclean]
    norm_num
  have hside : nudge (rcwaSide false (π / 8)) = 7 * π / 8 := by
    unfold nudge rcwaSide
    simp only [Bool.false_eq_true, if_false]
    rw [if_neg (by linarith)]; ring
  have hbin : ∀ f, tmmBin g (thetaBin g (nudge (rcwaSide false (π / 8)))) (nudge (rcwaPhi (2 * π / (1 : ℕ)) f)) = some 3 := by
    intro f
    rw [hside, thetaBin_eq 2 (by norm_num) _ (1/10) .linear (i := 3) (by norm_num) (by simp [polarEdge]; linarith) (by simp [polarEdge]; linarith)]
    obtain ⟨⟨f0, f1⟩, -, -⟩ := C05_fold 1 (by norm_num) (rcwaArctan f)
    obtain ⟨p0, p1⟩ := nudge_range f0 f1.le hs
    obtain ⟨k, hk, -, -, e, -⟩ := tmmBin_ring 2 (by norm_num) (1/10) hc .linear (2 * π / (1 : ℕ)) hs0 (i := 3) (by norm_num) p0 p1
    rw [size_one (by norm_num)] at hk
    have hk0 : k = 0 := by omega
    rw [hk0, start_one (by norm_num)] at e
    exact e
  have hrefl : rcwaReflected (2 * π / (1 : ℕ)) false littrow (π / 8) π littrowSol =
      [(rcwaSide false (π / 8), rcwaPhi (2 * π / (1 : ℕ)) (0, -Real.sin (π / 8)), 1 / 2), (rcwaSide false (π / 8), rcwaPhi (2 * π / (1 : ℕ)) (0, Real.sin (π / 8)), 1 / 2)] := by
    unfold rcwaReflected
    simp only [hpow]
    unfold littrowSol rcwaR
    simp only [List.map_cons, List.map_nil, hf0, hf1, hp0, hp1, hclean]
    norm_num
  have htrans : ∀ e ∈ rcwaTransmitted (2 * π / (1 : ℕ)) false littrow (π / 8) π littrowSol, e.2.2 = 0 := by
    intro e he
    unfold rcwaTransmitted littrowSol at he
    simp only [List.map_cons, List.map_nil, hclean0, List.mem_cons, List.not_mem_nil, or_false] at he
    rcases he with rfl | rfl <;> rfl
  have hskip : ∀ (es : List (ℝ × ℝ × ℝ)) (M : Mat), (∀ e ∈ es, e.2.2 = 0) → es.foldlM (rcwaPut g 1 0) M = some M := by
    intro es
    induction es with
    | nil => intro M _; rfl
    | cons e es ih =>
      intro M h
      rw [List.foldlM_cons]
      have : rcwaPut g 1 0 M e = some M := by unfold rcwaPut; rw [if_pos (h e (by simp))]
      rw [this]
      exact ih M (fun e he => h e (List.mem_cons_of_mem _ he))
  have hput : ∀ (M : Mat) f, (∀ r, M r 0 = 0) → rcwaPut g 1 0 M (rcwaSide false (π / 8), rcwaPhi (2 * π / (1 : ℕ)) f, 1 / 2) =
      some (fun r c => if r = 3 ∧ c = 1 then 1 / 2 else M r c) := by
    intro M f hM
    unfold rcwaPut
    simp only
    rw [if_neg (by norm_num), hbin, Option.map_some, hM, zero_add]
  have hfold : (rcwaReflected (2 * π / (1 : ℕ)) false littrow (π / 8) π littrowSol).foldlM (rcwaPut g 1 0) mat =
      some (fun r c => if r = 3 ∧ c = 1 then 1 / 2 else if r = 3 ∧ c = 1 then 1 / 2 else mat r c) := by
    rw [hrefl, List.foldlM_cons, hput _ _ (fun r => hz r 0)]
    show List.foldlM (rcwaPut g 1 0) _ _ = _
    rw [List.foldlM_cons, hput _ _ (fun r => by simp [hz])]
    rfl
  unfold rcwaAngle at e1
  rw [if_neg (by rw [hpow]; norm_num), List.foldlM_append, hfold] at e1
  have e1' := (hskip _ _ htrans).symm.trans e1
  have e1'' := Option.some.inj e1'
  simp only [show 3 + 0 - 2 = 1 from rfl, e3, ← e1'', hz]
  norm_num [Finset.sum_range_succ]

/-- C55 applies to the Littrow grating: both orders together give R = 1. -/
example : ∃ mat, rcwaMatrix (makeAngleVector 2 (2 * π / (1 : ℕ)) (1/10) .linear) (2 * π / (1 : ℕ)) true littrow (fun _ => littrowSol) = some mat ∧
    ∑ r ∈ Finset.range (ringStart 2 (1/10) 2), mat r 0 = 1 := by
  have hpi := Real.pi_gt_three
  have hs : (1e-10 : ℝ) ≤ 2 * π / (1 : ℕ) := by norm_num; linarith
  obtain ⟨mat, h1, h2⟩ := C55_front 2 (by norm_num) (1/10) (by norm_num) 1 (by norm_num) .linear hs littrow littrow_polarOk (fun _ => littrowSol) littrow_reflects
  have hrow := angleVector_get 2 (by norm_num) (2 * π / (1 : ℕ)) (1/10) .linear (i := 0) (k := 0) (by omega) (by rw [size_one (by omega)]; norm_num)
  rw [ringStart_zero, add_zero] at hrow
  refine ⟨mat, h1, ?_⟩
  rw [(h2 0 (by rw [start_one (by norm_num)]; norm_num) _ hrow).1]
  norm_num [littrowSol]

/-- C56_rear_partial applies to every column if there is one ring. -/
example (i k : ℕ) (hi : i < 1) : ringStart 1 1 (2 * 1 - 1 - i) + k - ringStart 1 1 1 = ringStart 1 1 i + k := by
  have : i = 0 := by omega
  subst this
  simp [ringStart_zero]

/-- The hypotheses of C85_bins_partial: one specular order, symmetry angle π, light arriving at azimuth π/2. -/
example : IsAzimuth (gratingFreq littrow (π / 8) (π / 2) (0, 0)) (π / 2) ∧ OffEdge (2 * π / (2 : ℕ)) (π / 2) ∧ Even 2 := by
  have hpi := Real.pi_pos
  refine ⟨⟨Real.sin (π / 8), Real.sin_pos_of_pos_of_lt_pi (by positivity) (by linarith), by simp [gratingFreq, littrow]⟩, ?_, by decide⟩
  intro q hq
  have h2 : (1 : ℝ) = q * 2 := by
    have : π * 1 = π * (q * 2) := by push_cast at hq; linarith
    exact mul_left_cancel₀ hpi.ne' this
  have h3 : (1 : ℤ) = q * 2 := by exact_mod_cast h2
  omega

/-- C86: an index-matched interface (everything transmitted in the specular order) meets the hypothesis. -/
example : ∀ o ∈ (⟨1, [], [((0, 0), 0, 1)]⟩ : RcwaSol).orders, reflectedPower littrow (π / 8) 0 o = 0 := by
  intro o ho
  simp only [List.mem_singleton] at ho
  subst ho
  unfold reflectedPower
  split_ifs <;> rfl

end Rayflare
