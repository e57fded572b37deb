import Verif.Spec.RCWA
import Verif.Props.TMM

/-!
# Properties C55, C56, C85, C86: redistribution matrices from rigorous coupled-wave analysis
-/

namespace Rayflare

open Rayflare.Np Rayflare.Model Rayflare.Spec Rayflare.Lemmas Real

/-! ## The accumulation -/

/-- Adding to one column of a matrix: `e` lists (row, power). -/
noncomputable def addTo (j : ℕ) (e : List (ℕ × ℝ)) (mat : Mat) : Mat := fun r c => mat r c + if c = j then (e.map fun x => if x.1 = r then x.2 else 0).sum else 0

theorem addTo_nil (j : ℕ) (mat : Mat) : addTo j [] mat = mat := by
  funext r c; simp [addTo]

theorem put_fold (g : Grid) (j : ℕ) (es : List (ℝ × ℝ × ℝ)) (bin : ℝ × ℝ × ℝ → ℕ)
    (h : ∀ e ∈ es, tmmBin g (thetaBin g (nudge e.1)) (nudge e.2.1) = some (bin e)) (mat : Mat) :
    es.foldlM (rcwaPut g j j) mat = some (addTo j (es.map fun e => (bin e, e.2.2)) mat) := by
  induction es generalizing mat with
  | nil => rw [List.map_nil, addTo_nil]; rfl
  | cons e es ih =>
    rw [List.foldlM_cons]
    have hput : rcwaPut g j j mat e = some (addTo j [(bin e, e.2.2)] mat) := by
      unfold rcwaPut
      split_ifs with h0
      · congr 1
        funext r c
        simp [addTo, h0]
      · rw [h e (by simp), Option.map_some]
        congr 1
        funext r c
        unfold addTo
        by_cases hc : c = j <;> by_cases hr : r = bin e
        · simp [hc, hr]
        · simp [hc, hr, Ne.symm hr]
        · simp [hc, hr]
        · simp [hc, hr]
    rw [hput]
    show (es.foldlM (rcwaPut g j j) (addTo j [(bin e, e.2.2)] mat)) = _
    rw [ih (fun e he => h e (List.mem_cons_of_mem _ he))]
    congr 1
    funext r c
    simp only [addTo, List.map_cons, List.map_nil, List.sum_cons, List.sum_nil]
    split_ifs <;> ring

/-- Whatever is read, only the column `dst` is written. -/
theorem put_other (g : Grid) (dst src : ℕ) (es : List (ℝ × ℝ × ℝ)) (mat mat' : Mat) (h : es.foldlM (rcwaPut g dst src) mat = some mat')
    {c : ℕ} (hc : c ≠ dst) (r : ℕ) : mat' r c = mat r c := by
  induction es generalizing mat with
  | nil => cases h; rfl
  | cons e es ih =>
    rw [List.foldlM_cons] at h
    unfold rcwaPut at h
    split_ifs at h with h0
    · exact ih mat h
    · cases hb : tmmBin g (thetaBin g (nudge e.1)) (nudge e.2.1) with
      | none => rw [hb] at h; cases h
      | some b =>
        rw [hb] at h
        have := ih _ h
        rw [this]; simp [hc]

/-- Reading from a column that is zero and stays so: an entry is the last power written there, and the power itself if the bins of the orders are distinct. -/
theorem put_fold_other (g : Grid) (dst src : ℕ) (hne : src ≠ dst) (es : List (ℝ × ℝ × ℝ)) (bin : ℝ × ℝ × ℝ → ℕ)
    (h : ∀ e ∈ es, tmmBin g (thetaBin g (nudge e.1)) (nudge e.2.1) = some (bin e)) (mat : Mat) (hz : ∀ r, mat r src = 0)
    (hd : es.Pairwise fun a b => a.2.2 ≠ 0 → b.2.2 ≠ 0 → bin a ≠ bin b)
    (hz' : ∀ e ∈ es, e.2.2 ≠ 0 → mat (bin e) dst = 0) :
    es.foldlM (rcwaPut g dst src) mat = some (addTo dst (es.map fun e => (bin e, e.2.2)) mat) := by
  induction es generalizing mat with
  | nil => rw [List.map_nil, addTo_nil]; rfl
  | cons e es ih =>
    rw [List.foldlM_cons]
    have hput : rcwaPut g dst src mat e = some (addTo dst [(bin e, e.2.2)] mat) := by
      unfold rcwaPut
      split_ifs with h0
      · congr 1
        funext r c
        simp [addTo, h0]
      · rw [h e (by simp), Option.map_some]
        congr 1
        funext r c
        unfold addTo
        by_cases hc : c = dst <;> by_cases hr : r = bin e
        · simp [hc, hr, hz, hz' e (by simp) h0]
        · simp [hc, hr, Ne.symm hr]
        · simp [hc, hr]
        · simp [hc, hr]
    rw [hput]
    show (es.foldlM (rcwaPut g dst src) (addTo dst [(bin e, e.2.2)] mat)) = _
    rw [List.pairwise_cons] at hd
    rw [ih (fun e he => h e (List.mem_cons_of_mem _ he)) _ (fun r => by simp [addTo, hne, hz]) hd.2]
    · congr 1
      funext r c
      simp only [addTo, List.map_cons, List.map_nil, List.sum_cons, List.sum_nil]
      split_ifs <;> ring
    · intro e' he' h0'
      simp only [addTo, List.map_cons, List.map_nil, List.sum_cons, List.sum_nil, if_true, add_zero]
      rw [hz' e' (List.mem_cons_of_mem _ he') h0']
      by_cases h0 : e.2.2 = 0
      · simp [h0]
      · rw [if_neg (hd.1 e' he' h0 h0')]; simp

/-- A loop each pass of which writes one column of its own, started from the zero matrix. -/
theorem columns_fold (F : Mat → ℕ → Option Mat) (dst : ℕ → ℕ) (N : ℕ) (hinj : ∀ i < N, ∀ i' < N, dst i = dst i' → i = i')
    (hF : ∀ mat, ∀ i < N, ∃ mat', F mat i = some mat')
    (hoth : ∀ mat mat' i, F mat i = some mat' → ∀ c ≠ dst i, ∀ r, mat' r c = mat r c) :
    ∃ fin, (List.range N).foldlM F (fun _ _ => 0) = some fin ∧
      ∀ i < N, ∃ mat mat', F mat i = some mat' ∧ (∀ r, mat r (dst i) = 0) ∧ (∀ r, fin r (dst i) = mat' r (dst i)) ∧
        (∀ c, (∀ i' < i, dst i' ≠ c) → ∀ r, mat r c = 0) := by
  suffices h : ∀ M ≤ N, ∃ fin, (List.range M).foldlM F (fun _ _ => 0) = some fin ∧
      (∀ c, (∀ i' < M, dst i' ≠ c) → ∀ r, fin r c = 0) ∧
      ∀ i < M, ∃ mat mat', F mat i = some mat' ∧ (∀ r, mat r (dst i) = 0) ∧ (∀ r, fin r (dst i) = mat' r (dst i)) ∧
        (∀ c, (∀ i' < i, dst i' ≠ c) → ∀ r, mat r c = 0) by
    obtain ⟨fin, h1, -, h2⟩ := h N le_rfl
    exact ⟨fin, h1, h2⟩
  intro M
  induction M with
  | zero => intro _; exact ⟨_, rfl, fun _ _ _ => rfl, fun i hi => absurd hi (by omega)⟩
  | succ M ih =>
    intro hM
    obtain ⟨fin, h1, h2, h3⟩ := ih (by omega)
    obtain ⟨fin', hf⟩ := hF fin M (by omega)
    have hzero : ∀ r, fin r (dst M) = 0 := h2 _ (fun i' hi' he => by have := hinj i' (by omega) M (by omega) he; omega)
    refine ⟨fin', ?_, ?_, ?_⟩
    · rw [List.range_succ, List.foldlM_append, h1]
      show ([M].foldlM F fin) = _
      rw [List.foldlM_cons, hf]; rfl
    · intro c hc r
      rw [hoth _ _ _ hf c (Ne.symm (hc M (by omega))) r]
      exact h2 c (fun i' hi' => hc i' (by omega)) r
    · intro i hi
      rcases Nat.lt_succ_iff_lt_or_eq.mp hi with h | h
      · obtain ⟨a, b, e1, e2, e3, e4⟩ := h3 i h
        refine ⟨a, b, e1, e2, fun r => ?_, e4⟩
        rw [hoth _ _ _ hf (dst i) (fun he => by have := hinj i (by omega) M (by omega) he; omega) r, e3 r]
      · subst h
        exact ⟨fin, fin', hf, hzero, fun _ => rfl, h2⟩

theorem sum_rows' (N : ℕ) (es : List (ℕ × ℝ)) :
    ∑ r ∈ Finset.range N, (es.map fun x => if x.1 = r then x.2 else 0).sum = (es.map fun x => if x.1 < N then x.2 else 0).sum := by
  induction es with
  | nil => simp
  | cons e es ih =>
    simp only [List.map_cons, List.sum_cons, Finset.sum_add_distrib]
    rw [ih, Finset.sum_ite_eq]
    simp

theorem sum_rows (N : ℕ) (es : List (ℕ × ℝ)) (h : ∀ e ∈ es, e.1 < N) :
    ∑ r ∈ Finset.range N, (es.map fun x => if x.1 = r then x.2 else 0).sum = (es.map Prod.snd).sum := by
  induction es with
  | nil => simp
  | cons e es ih =>
    simp only [List.map_cons, List.sum_cons, Finset.sum_add_distrib]
    rw [ih (fun e he => h e (List.mem_cons_of_mem _ he)), Finset.sum_ite_eq, if_pos (Finset.mem_range.mpr (h e (by simp)))]

/-! ## Angles -/

theorem polarOf_range (eps wl : ℝ) (f : ℝ × ℝ) : 0 ≤ polarOf eps wl f ∧ polarOf eps wl f ≤ π / 2 := by
  have hpi := Real.pi_pos
  unfold polarOf
  split_ifs
  · refine ⟨arccos_nonneg _, ?_⟩
    rw [Real.arccos_le_pi_div_two]
    positivity
  · constructor <;> linarith

theorem nudge_range {x b : ℝ} (h0 : 0 ≤ x) (h1 : x ≤ b) (hb : 1e-10 ≤ b) : 0 < nudge x ∧ nudge x ≤ b := by
  unfold nudge
  split_ifs with h
  · exact ⟨by norm_num, hb⟩
  · exact ⟨lt_of_le_of_ne h0 (Ne.symm h), h1⟩

/-- The transmission medium: the polar angle of every order, measured from the surface normal, is between 0 and 90 degrees. -/
def PolarOk (cell : RcwaCell) : Prop := ∀ fx fy, 0 ≤ cell.polarT fx fy ∧ cell.polarT fx fy ≤ π / 2

section
variable (n : ℕ) (hn : 0 < n) (c : ℝ) (hc : 0 < c) (m : ℕ) (hm : 0 < m) (sp : Spacing) (front : Bool)

include hn hc hm in
/-- The bin of an order. -/
theorem order_bin (hs : (1e-10 : ℝ) ≤ 2 * π / m) {θ : ℝ} (h0 : 0 ≤ θ) (h1 : θ ≤ π) (x : ℝ) :
    ∃ i k, i < 2 * n ∧ k < ringSize n c i ∧
      tmmBin (makeAngleVector n (2 * π / m) c sp) (thetaBin (makeAngleVector n (2 * π / m) c sp) (nudge θ)) (nudge (foldPhi x (2 * π / m))) = some (ringStart n c i + k) ∧
      ringStart n c i + k < ringStart n c (2 * n) ∧ (nudge θ ≤ π / 2 ↔ i < n) ∧
      (0 < θ → OffEdge (2 * π / m) x → DirInBin n c (2 * π / m) sp (ringStart n c i + k) θ x) := by
  have hpi := Real.pi_gt_three
  have hs0 : (0 : ℝ) < 2 * π / m := lt_of_lt_of_le (by norm_num) hs
  obtain ⟨⟨f0, f1⟩, ⟨q, hq⟩, -⟩ := C05_fold m hm x
  obtain ⟨t0, t1⟩ := nudge_range h0 h1 (by norm_num; linarith)
  obtain ⟨p0, p1⟩ := nudge_range f0 f1.le hs
  obtain ⟨i, hi, a, b, hhalf⟩ := exists_ring n hn sp t0 t1
  obtain ⟨k, hk, e1, e2, e3, e4⟩ := tmmBin_ring n hn c hc sp _ hs0 hi p0 p1
  refine ⟨i, k, hi, hk, ?_, e4, hhalf, ?_⟩
  · rw [thetaBin_eq n hn _ c sp hi a b, e3]
  · intro hpos hoff
    have hθ : nudge θ = θ := by unfold nudge; rw [if_neg hpos.ne']
    have hne : foldPhi x (2 * π / m) ≠ 0 := by
      intro h
      rw [h] at hq
      exact absurd (show x = ((-q : ℤ) : ℝ) * (2 * π / m) by push_cast; linarith) (hoff (-q))
    have hφ : nudge (foldPhi x (2 * π / m)) = x + q * (2 * π / m) := by unfold nudge; rw [if_neg hne, hq]
    rw [hθ] at a b
    rw [hφ] at e1 e2
    exact ⟨i, k, q, hi, hk, rfl, a, b, e1, e2⟩

/-! ## Powers -/

theorem polarOf_eq_half (eps wl : ℝ) (f : ℝ × ℝ) : polarOf eps wl f = π / 2 ↔ ¬ Propagates eps wl f := by
  unfold polarOf Propagates
  split_ifs with h
  · rw [Real.arccos_eq_pi_div_two, div_eq_zero_iff, Real.sqrt_eq_zero', Real.sqrt_eq_zero']
    constructor
    · rintro (h1 | h1)
      · linarith
      · nlinarith [sq_nonneg f.1, sq_nonneg f.2]
    · intro h1; left; linarith
  · simp only [true_iff]; intro h1; exact h h1.le

theorem clean_eq (θ p : ℝ) : rcwaClean θ p = if θ ≠ π / 2 ∧ 1e-16 ≤ p then p else 0 := by
  unfold rcwaClean
  by_cases h1 : θ = π / 2 <;> by_cases h2 : p < 1e-16
  · simp [h1]
  · simp [h1]
  · simp [h1, h2, not_le.mpr h2]
  · simp [h1, h2, not_lt.mp h2]

theorem clean_reflected (cell : RcwaCell) (θ φ : ℝ) (o : (ℤ × ℤ) × ℝ × ℝ) :
    rcwaClean (rcwaThetaR cell (rcwaFreq cell θ φ o.1)) o.2.1 = reflectedPower cell θ φ o := by
  rw [clean_eq]
  unfold reflectedPower
  have : rcwaThetaR cell (rcwaFreq cell θ φ o.1) ≠ π / 2 ↔ Propagates cell.eps cell.wl (gratingFreq cell θ φ o.1) := by
    unfold rcwaThetaR
    rw [Ne, polarOf_eq_half, not_not]; rfl
  by_cases h : Propagates cell.eps cell.wl (gratingFreq cell θ φ o.1)
  · simp [h, this.mpr h]
  · have h2 := mt this.mp h
    rw [if_neg (fun hh => h2 hh.1), if_neg (fun hh => h hh.1)]

theorem clean_transmitted (cell : RcwaCell) (hcell : PolarOk cell) (θ φ : ℝ) (o : (ℤ × ℤ) × ℝ × ℝ) :
    rcwaClean (rcwaThetaT cell (rcwaFreq cell θ φ o.1)) o.2.2 = transmittedPower cell θ φ o := by
  rw [clean_eq]
  unfold transmittedPower
  have : rcwaThetaT cell (rcwaFreq cell θ φ o.1) ≠ π / 2 ↔ cell.polarT (gratingFreq cell θ φ o.1).1 (gratingFreq cell θ φ o.1).2 < π / 2 := by
    unfold rcwaThetaT
    have h2 := (hcell (rcwaFreq cell θ φ o.1).1 (rcwaFreq cell θ φ o.1).2).2
    constructor
    · intro h
      refine lt_of_le_of_ne h2 fun h3 => h ?_
      have h4 : cell.polarT (rcwaFreq cell θ φ o.1).1 (rcwaFreq cell θ φ o.1).2 = π / 2 := h3
      rw [h4]; ring
    · intro h h3
      have : cell.polarT (rcwaFreq cell θ φ o.1).1 (rcwaFreq cell θ φ o.1).2 < π / 2 := h
      linarith
  simp only [this]

/-- Some propagating reflected order carries power. -/
def Reflects (cell : RcwaCell) (θ φ : ℝ) (sol : RcwaSol) : Prop := ∃ o ∈ sol.orders, 0 < reflectedPower cell θ φ o

theorem reflectedPower_nonneg (cell : RcwaCell) (θ φ : ℝ) (o : (ℤ × ℤ) × ℝ × ℝ) : 0 ≤ reflectedPower cell θ φ o := by
  unfold reflectedPower
  split_ifs with h
  · exact le_trans (by norm_num) h.2
  · exact le_rfl

theorem powers_eq (cell : RcwaCell) (θ φ : ℝ) (sol : RcwaSol) : rcwaRPowers cell θ φ sol = sol.orders.map (reflectedPower cell θ φ) := by
  unfold rcwaRPowers
  exact List.map_congr_left fun o _ => clean_reflected cell θ φ o

theorem rsum_pos (cell : RcwaCell) (θ φ : ℝ) (sol : RcwaSol) (h : Reflects cell θ φ sol) : 0 < (rcwaRPowers cell θ φ sol).sum := by
  rw [powers_eq]
  obtain ⟨o, ho, hp⟩ := h
  refine lt_of_lt_of_le hp ?_
  exact List.single_le_sum (fun x hx => by obtain ⟨o', -, rfl⟩ := List.mem_map.mp hx; exact reflectedPower_nonneg cell θ φ o') _ (List.mem_map_of_mem ho)

/-- All contributions to the column of one angle of incidence. -/
noncomputable def contributions (g : Grid) (s : ℝ) (front : Bool) (cell : RcwaCell) (θ φ : ℝ) (sol : RcwaSol) : List (ℕ × ℝ) :=
  (rcwaReflected s front cell θ φ sol ++ rcwaTransmitted s front cell θ φ sol).map fun e =>
    ((tmmBin g (thetaBin g (nudge e.1)) (nudge e.2.1)).getD 0, e.2.2)

theorem side_range {θ : ℝ} (front : Bool) (h0 : 0 ≤ θ) (h1 : θ ≤ π) : 0 ≤ rcwaSide front θ ∧ rcwaSide front θ ≤ π := by
  unfold rcwaSide
  cases front <;> constructor <;> simp <;> linarith

include hn hc hm in
theorem entry_bin (hs : (1e-10 : ℝ) ≤ 2 * π / m) (cell : RcwaCell) (hcell : PolarOk cell) (θ φ : ℝ) (sol : RcwaSol) :
    let s := 2 * π / m
    let g := makeAngleVector n s c sp
    ∀ e ∈ rcwaReflected s front cell θ φ sol ++ rcwaTransmitted s front cell θ φ sol,
      ∃ b, tmmBin g (thetaBin g (nudge e.1)) (nudge e.2.1) = some b ∧ b < ringStart n c (2 * n) ∧ (nudge e.1 ≤ π / 2 ↔ b < ringStart n c n) := by
  intro s g e he
  have hpi := Real.pi_pos
  have hkey : ∃ x, e.2.1 = foldPhi x s ∧ 0 ≤ e.1 ∧ e.1 ≤ π := by
    rw [List.mem_append] at he
    rcases he with he | he
    · unfold rcwaReflected at he
      obtain ⟨o, -, rfl⟩ := List.mem_map.mp he
      have := polarOf_range cell.eps cell.wl (rcwaFreq cell θ φ o.1)
      exact ⟨_, rfl, side_range front this.1 (this.2.trans (by linarith))⟩
    · unfold rcwaTransmitted at he
      obtain ⟨o, -, rfl⟩ := List.mem_map.mp he
      have := hcell (rcwaFreq cell θ φ o.1).1 (rcwaFreq cell θ φ o.1).2
      refine ⟨_, rfl, side_range front ?_ ?_⟩ <;> unfold rcwaThetaT <;> linarith [this.1, this.2]
  obtain ⟨x, hx, h0, h1⟩ := hkey
  obtain ⟨i, k, hi, hk, hb, hlt, hhalf, -⟩ := order_bin n hn c hc m hm sp hs h0 h1 x
  refine ⟨_, ?_, hlt, ?_⟩
  · rw [hx]; exact hb
  · rw [hhalf]
    constructor
    · intro h
      have := ringStart_mono n c (show i + 1 ≤ n from h)
      rw [ringStart_succ] at this; omega
    · intro h
      by_contra hcon
      have := ringStart_mono n c (show n ≤ i by omega)
      omega

include hn hc hm in
/-- Sum of the contributions by hemisphere. -/
theorem contributions_sum (hs : (1e-10 : ℝ) ≤ 2 * π / m) (cell : RcwaCell) (hcell : PolarOk cell) (θ φ : ℝ) (sol : RcwaSol) (hR : Reflects cell θ φ sol) :
    let s := 2 * π / m
    let g := makeAngleVector n s c sp
    let up := ((contributions g s front cell θ φ sol).map fun x => if x.1 < ringStart n c n then x.2 else 0).sum
    let all := ((contributions g s front cell θ φ sol).map fun x => x.2).sum
    up = (if front then rcwaR sol else (sol.orders.map (transmittedPower cell θ φ)).sum) ∧
    all = rcwaR sol + (sol.orders.map (transmittedPower cell θ φ)).sum := by
  intro s g up all
  have hpi := Real.pi_gt_three
  have hbin := entry_bin n hn c hc m hm sp front hs cell hcell θ φ sol
  have hRsum : ((rcwaReflected s front cell θ φ sol).map fun e => e.2.2).sum = rcwaR sol := by
    have h1 : (rcwaReflected s front cell θ φ sol).map (fun e => e.2.2) =
        sol.orders.map fun o => rcwaR sol / (rcwaRPowers cell θ φ sol).sum * rcwaClean (rcwaThetaR cell (rcwaFreq cell θ φ o.1)) o.2.1 := by
      unfold rcwaReflected; rw [List.map_map]; rfl
    rw [h1, List.sum_map_mul_left]
    exact div_mul_cancel₀ _ (rsum_pos cell θ φ sol hR).ne'
  have hTsum : ((rcwaTransmitted s front cell θ φ sol).map fun e => e.2.2).sum = (sol.orders.map (transmittedPower cell θ φ)).sum := by
    unfold rcwaTransmitted; rw [List.map_map]
    congr 1
    exact List.map_congr_left fun o _ => clean_transmitted cell hcell θ φ o
  -- an entry with non-zero power is in the hemisphere of its direction
  have hup : ∀ e ∈ rcwaReflected s front cell θ φ sol, (if (tmmBin g (thetaBin g (nudge e.1)) (nudge e.2.1)).getD 0 < ringStart n c n then e.2.2 else 0) =
      if front then e.2.2 else 0 := by
    intro e he
    obtain ⟨b, hb, -, hiff⟩ := hbin e (List.mem_append_left _ he)
    rw [hb, Option.getD_some]
    unfold rcwaReflected at he
    obtain ⟨o, -, rfl⟩ := List.mem_map.mp he
    have hr := polarOf_range cell.eps cell.wl (rcwaFreq cell θ φ o.1)
    by_cases hp : rcwaThetaR cell (rcwaFreq cell θ φ o.1) = π / 2
    · have h0 : rcwaClean (rcwaThetaR cell (rcwaFreq cell θ φ o.1)) o.2.1 = 0 := by rw [clean_eq]; simp [hp]
      simp [h0]
    · have hlt : rcwaThetaR cell (rcwaFreq cell θ φ o.1) < π / 2 := lt_of_le_of_ne hr.2 hp
      have h0 : 0 ≤ rcwaThetaR cell (rcwaFreq cell θ φ o.1) := hr.1
      simp only [← hiff]
      cases front
      · have : ¬ nudge (rcwaSide false (rcwaThetaR cell (rcwaFreq cell θ φ o.1))) ≤ π / 2 := by
          unfold rcwaSide nudge
          simp only [Bool.false_eq_true, if_false]
          rw [if_neg (by linarith)]; linarith
        simp [this]
      · have : nudge (rcwaSide true (rcwaThetaR cell (rcwaFreq cell θ φ o.1))) ≤ π / 2 := by
          exact (nudge_range (by simpa [rcwaSide] using h0) (by simpa [rcwaSide] using hlt.le) (by norm_num; linarith)).2
        simp [this]
  have hdown : ∀ e ∈ rcwaTransmitted s front cell θ φ sol, (if (tmmBin g (thetaBin g (nudge e.1)) (nudge e.2.1)).getD 0 < ringStart n c n then e.2.2 else 0) =
      if front then 0 else e.2.2 := by
    intro e he
    obtain ⟨b, hb, -, hiff⟩ := hbin e (List.mem_append_right _ he)
    rw [hb, Option.getD_some]
    unfold rcwaTransmitted at he
    obtain ⟨o, -, rfl⟩ := List.mem_map.mp he
    have hr := hcell (rcwaFreq cell θ φ o.1).1 (rcwaFreq cell θ φ o.1).2
    by_cases hp : rcwaThetaT cell (rcwaFreq cell θ φ o.1) = π / 2
    · have h0 : rcwaClean (rcwaThetaT cell (rcwaFreq cell θ φ o.1)) o.2.2 = 0 := by rw [clean_eq]; simp [hp]
      simp [h0]
    · have h2 : π / 2 ≤ rcwaThetaT cell (rcwaFreq cell θ φ o.1) := by unfold rcwaThetaT; linarith [hr.2]
      have hlt : π / 2 < rcwaThetaT cell (rcwaFreq cell θ φ o.1) := lt_of_le_of_ne h2 (Ne.symm hp)
      have h0 : rcwaThetaT cell (rcwaFreq cell θ φ o.1) ≤ π := by unfold rcwaThetaT; linarith [hr.1]
      simp only [← hiff]
      cases front
      · have : nudge (rcwaSide false (rcwaThetaT cell (rcwaFreq cell θ φ o.1))) ≤ π / 2 := by
          refine (nudge_range ?_ ?_ (by norm_num; linarith)).2 <;> simp [rcwaSide] <;> linarith
        simp [this]
      · have : ¬ nudge (rcwaSide true (rcwaThetaT cell (rcwaFreq cell θ φ o.1))) ≤ π / 2 := by
          unfold rcwaSide nudge
          simp only [if_true]
          rw [if_neg (by linarith)]; linarith
        simp [this]
  constructor
  · show (((rcwaReflected s front cell θ φ sol ++ rcwaTransmitted s front cell θ φ sol).map _).map _).sum = _
    rw [List.map_append, List.map_append, List.sum_append, List.map_map, List.map_map]
    refine (congrArg₂ (· + ·) (congrArg List.sum (List.map_congr_left (g := fun e => if front then e.2.2 else 0) hup))
      (congrArg List.sum (List.map_congr_left (g := fun e => if front then 0 else e.2.2) hdown))).trans ?_
    cases front
    · simp only [Bool.false_eq_true, if_false]
      rw [hTsum]; simp
    · simp only [if_true]
      rw [hRsum]; simp
  · show (((rcwaReflected s front cell θ φ sol ++ rcwaTransmitted s front cell θ φ sol).map _).map _).sum = _
    rw [List.map_append, List.map_append, List.sum_append, List.map_map, List.map_map]
    rw [← hRsum, ← hTsum]; rfl

end

end Rayflare
