import Verif.Model.RTProfiles
import Mathlib.Tactic.Linarith
import Mathlib.Tactic.FieldSimp
import Mathlib.Tactic.Ring
import Mathlib.Tactic.NormNum
import Mathlib.Tactic.Positivity
import Mathlib.Analysis.Real.Pi.Bounds
import Mathlib.Analysis.SpecialFunctions.Trigonometric.Bounds

/-!
# Properties C107, C108: absorption profiles in interface layers of ray-traced surfaces
-/

namespace Rayflare

open Rayflare.Np Rayflare.Model Finset

/-! ## Vocabulary -/

/-- Absorption density of a layer at depth `z`, in real form: two exponentials and an interference term. -/
noncomputable def density (c : Coeff) (z : ℝ) : ℝ :=
  c.A1 * Real.exp (c.a1 * z) + c.A2 * Real.exp (-(c.a1 * z)) + 2 * (c.A3r * Real.cos (c.a3 * z) - c.A3i * Real.sin (c.a3 * z))

/-! ## Helper lemmas -/

theorem coeff_at (c : Coeff) (z : ℝ) : c.at z = density c z := by
  unfold Coeff.at density
  have e1 : Complex.exp ((c.a1 : ℂ) * z) = ((Real.exp (c.a1 * z) : ℝ) : ℂ) := by push_cast; rfl
  have e2 : Complex.exp (-(c.a1 : ℂ) * z) = ((Real.exp (-(c.a1 * z)) : ℝ) : ℂ) := by push_cast; congr 1; ring
  have e3 : Complex.exp (Complex.I * c.a3 * z) = ((Real.cos (c.a3 * z) : ℝ) : ℂ) + ((Real.sin (c.a3 * z) : ℝ) : ℂ) * Complex.I := by
    rw [show Complex.I * (c.a3 : ℂ) * z = ((c.a3 * z : ℝ) : ℂ) * Complex.I by push_cast; ring, Complex.exp_mul_I]
    push_cast; rfl
  have e4 : Complex.exp (-Complex.I * c.a3 * z) = ((Real.cos (c.a3 * z) : ℝ) : ℂ) - ((Real.sin (c.a3 * z) : ℝ) : ℂ) * Complex.I := by
    rw [show -Complex.I * (c.a3 : ℂ) * z = ((-(c.a3 * z) : ℝ) : ℂ) * Complex.I by push_cast; ring, Complex.exp_mul_I]
    push_cast
    rw [Complex.cos_neg, Complex.sin_neg]; ring
  rw [e1, e2, e3, e4]
  generalize Real.exp (c.a1 * z) = u
  generalize Real.exp (-(c.a1 * z)) = v
  generalize Real.cos (c.a3 * z) = x
  generalize Real.sin (c.a3 * z) = y
  simp
  ring

theorem density_scale (k : ℝ) (c : Coeff) (z : ℝ) : density (c.scale k) z = k * density c z := by
  unfold density Coeff.scale
  simp only
  ring

theorem density_weighted (w : ℝ) (c : Coeff) (z : ℝ) : (weighted w c).at z = w * density c z := by
  rw [coeff_at]
  by_cases h : w = 0
  · subst h; simp [weighted, density, Coeff.scale]
  · unfold weighted density Coeff.scale
    simp only [ne_eq, h, not_false_eq_true, if_true]
    ring

theorem trapzDx_smul {α : Type*} (dx k : ℝ) (ax : List α) (f : α → ℝ) : trapzDx dx (ax.map fun q => k * f q) = k * trapzDx dx (ax.map f) := by
  induction ax with
  | nil => simp [trapzDx]
  | cons a ax ih =>
    cases ax with
    | nil => simp [trapzDx]
    | cons b ax =>
      simp only [List.map_cons, trapzDx] at ih ⊢
      rw [ih]; ring

theorem trapzDx_add {α : Type*} (dx : ℝ) (ax : List α) (f g : α → ℝ) : trapzDx dx (ax.map fun q => f q + g q) = trapzDx dx (ax.map f) + trapzDx dx (ax.map g) := by
  induction ax with
  | nil => simp [trapzDx]
  | cons a ax ih =>
    cases ax with
    | nil => simp [trapzDx]
    | cons b ax =>
      simp only [List.map_cons, trapzDx] at ih ⊢
      rw [ih]; ring

theorem trapzDx_zero {α : Type*} (dx : ℝ) (ax : List α) : trapzDx dx (ax.map fun _ => (0 : ℝ)) = 0 := by
  have := trapzDx_smul dx 0 ax (fun _ => (0 : ℝ))
  simpa using this

theorem trapzDx_sum {α : Type*} (dx : ℝ) (ax : List α) (L : ℕ) (f : ℕ → α → ℝ) :
    trapzDx dx (ax.map fun q => ∑ l ∈ range L, f l q) = ∑ l ∈ range L, trapzDx dx (ax.map (f l)) := by
  induction L with
  | zero => simpa using trapzDx_zero dx ax
  | succ L ih => simp only [sum_range_succ]; rw [trapzDx_add, ih]

theorem trapzDx_pos {α : Type*} (dx : ℝ) (hdx : 0 < dx) (ax : List α) (f : α → ℝ) (h2 : 2 ≤ ax.length) (h : ∀ q ∈ ax, 0 < f q) : 0 < trapzDx dx (ax.map f) := by
  have nn : ∀ ax : List α, (∀ q ∈ ax, 0 < f q) → 0 ≤ trapzDx dx (ax.map f) := by
    intro ax
    induction ax with
    | nil => simp [trapzDx]
    | cons a ax ih =>
      intro h
      cases ax with
      | nil => simp [trapzDx]
      | cons b ax =>
        simp only [List.map_cons, trapzDx]
        have h1 := h a (by simp)
        have h2 := h b (by simp)
        have := ih fun q hq => h q (by simp [hq])
        simp only [List.map_cons] at this
        have : 0 < dx * (f b + f a) / 2 := by positivity
        linarith
  match ax, h2, h with
  | a :: b :: ax, _, h =>
    simp only [List.map_cons, trapzDx]
    have h1 := h a (by simp)
    have h2 := h b (by simp)
    have h3 := nn (b :: ax) fun q hq => h q (List.mem_cons_of_mem _ hq)
    simp only [List.map_cons] at h3
    have : 0 < dx * (f b + f a) / 2 := by positivity
    linarith

theorem depthAxis_lt {L : ℕ} {n : ℕ → ℕ} {q : ℕ × ℕ} (h : q ∈ depthAxis L n) : q.1 < L ∧ q.2 < n q.1 := by
  simp only [depthAxis, List.mem_flatMap, List.mem_range, List.mem_map] at h
  obtain ⟨l, hl, j, hj, rfl⟩ := h
  exact ⟨hl, hj⟩

theorem pick (L : ℕ) (p : ℕ → ℕ → ℝ) {q : ℕ × ℕ} (h : q.1 < L) : (∑ l ∈ range L, if q.1 = l then p q.1 q.2 else 0) = p q.1 q.2 := by
  rw [Finset.sum_ite_eq, if_pos (mem_range.mpr h)]

theorem integrated_eq (L : ℕ) (n : ℕ → ℕ) (dx : ℝ) (p : ℕ → ℕ → ℝ) :
    integratedProfile L n dx p = trapzDx dx ((depthAxis L n).map fun q => p q.1 q.2) := by
  unfold integratedProfile
  rw [← trapzDx_sum dx (depthAxis L n) L (fun l (q : ℕ × ℕ) => if q.1 = l then p q.1 q.2 else 0)]
  congr 1
  apply List.map_congr_left
  intro q hq
  exact pick L p (depthAxis_lt hq).1

theorem interfaceProfile_eq (L : ℕ) (n : ℕ → ℕ) (dx : ℝ) (look : Bool → ℝ → Option (ℕ → ℝ × Coeff)) (evs : List ProfEvent) (Acorr : ℝ) :
    interfaceProfile L n dx look evs Acorr = (depthAxis L n).map fun q =>
      (if integratedProfile L n dx (rawProfile L n dx look evs) > 0 then Acorr / integratedProfile L n dx (rawProfile L n dx look evs) else 0) * rawProfile L n dx look evs q.1 q.2 := by
  unfold interfaceProfile
  apply List.map_congr_left
  intro q hq
  rw [pick L _ (depthAxis_lt hq).1]

theorem sumNaN_some (l : List ℝ) : sumNaN (l.map some) = some l.sum := by
  induction l with
  | nil => rfl
  | cons a l ih => simp [sumNaN, ih]

theorem sumNaN_none (l : List (Option ℝ)) (h : none ∈ l) : sumNaN l = none := by
  induction l with
  | nil => simp at h
  | cons a l ih =>
    simp only [sumNaN]
    rcases a with _ | x
    · rfl
    · simp only [List.mem_cons, reduceCtorEq, false_or] at h
      simp [ih h]

/-! ## C107 -/

/-- What one ray contributes, when its angle is inside the table and some requested layer absorbs. -/
theorem eventAt_some (L : ℕ) (n : ℕ → ℕ) (dx : ℝ) (look : Bool → ℝ → Option (ℕ → ℝ × Coeff)) (ev : ProfEvent) (t : ℕ → ℝ × Coeff)
    (ht : look ev.front |ev.θ| = some t) (hA : ∃ l < L, (1e-10 : ℝ) < (t l).1) (hd : ∀ l < L, 0 < ev.data l) :
    ∃ k, 0 < k ∧ ∀ l j, eventAt L n dx look ev l j = some (k * density (t l).2 (((if ev.front then j else n l - 1 - j : ℕ) : ℝ) * dx)) := by
  obtain ⟨l0, hl0, hA0⟩ := hA
  have hmem : l0 ∈ (range L).filter fun l => (t l).1 > 1e-10 := by simp only [mem_filter, mem_range]; exact ⟨hl0, hA0⟩
  have hne : ((range L).filter fun l => (t l).1 > 1e-10) ≠ ∅ := Finset.ne_empty_of_mem hmem
  refine ⟨(∑ l ∈ (range L).filter (fun l => (t l).1 > 1e-10), ev.data l / (t l).1) / ((range L).filter fun l => (t l).1 > 1e-10).card, ?_, ?_⟩
  · apply div_pos
    · apply Finset.sum_pos
      · intro l hl
        simp only [mem_filter, mem_range] at hl
        exact div_pos (hd l hl.1) (lt_trans (by norm_num) hl.2)
      · exact ⟨l0, hmem⟩
    · exact_mod_cast Finset.card_pos.mpr ⟨l0, hmem⟩
  · intro l j
    unfold eventAt
    rw [ht]
    simp only [Option.bind_some, scaleFactor]
    rw [if_neg hne, Option.map_some, coeff_at, density_scale]

/-- **C107 (partial).** The absorption profile in the interface layers for which it was requested integrates (trapezoidal rule over the depth samples) to the light absorbed in these layers per incident ray,
and it is nowhere negative, if at least one ray was absorbed, every absorbed ray arrived at an angle covered by the table and left something in each requested layer, at least one of which absorbs more than 1e-10 at this angle, and the tabulated
profiles are positive.  Missing: angles beyond the table, see `C107_one_grazing_ray_fails`. -/
theorem C107_integral_partial (L : ℕ) (n : ℕ → ℕ) (dx : ℝ) (hdx : 0 < dx) (look : Bool → ℝ → Option (ℕ → ℝ × Coeff)) (evs : List ProfEvent) (nRays : ℕ) (hne : evs ≠ [])
    (h2 : 2 ≤ (depthAxis L n).length) (hd : ∀ e ∈ evs, ∀ l < L, 0 < e.data l)
    (hin : ∀ e ∈ evs, ∃ t, look e.front |e.θ| = some t ∧ (∃ l < L, (1e-10 : ℝ) < (t l).1) ∧ ∀ l < L, ∀ j < n l, 0 < density (t l).2 ((j : ℝ) * dx)) :
    trapzDx dx (interfaceProfile L n dx look evs (totalInLayers L evs nRays)) = ∑ l ∈ range L, (evs.map fun e => e.data l).sum / nRays ∧
      ∀ x ∈ interfaceProfile L n dx look evs (totalInLayers L evs nRays), 0 ≤ x := by
  have hpos : ∀ e ∈ evs, ∀ l < L, ∀ j < n l, ∃ v, 0 < v ∧ eventAt L n dx look e l j = some v := by
    intro e he l hl j hj
    obtain ⟨t, ht, hA, hP⟩ := hin e he
    obtain ⟨k, hk, hv⟩ := eventAt_some L n dx look e t ht hA (hd e he)
    refine ⟨_, mul_pos hk ?_, hv l j⟩
    split
    · exact hP l hl j hj
    · exact hP l hl _ (by omega)
  have hside : ∀ b : Bool, ∀ l < L, ∀ j < n l, 0 ≤ sideProfile L n dx look evs b l j ∧ ((∃ e ∈ evs, e.front = b) → 0 < sideProfile L n dx look evs b l j) := by
    intro b l hl j hj
    have key : ∀ es : List ProfEvent, (∀ e ∈ es, e ∈ evs) → ∃ v, sumNaN (es.map fun e => eventAt L n dx look e l j) = some v ∧ 0 ≤ v ∧ (es ≠ [] → 0 < v) := by
      intro es
      induction es with
      | nil => intro _; exact ⟨0, rfl, le_rfl, fun h => absurd rfl h⟩
      | cons e es ih =>
        intro hes
        obtain ⟨v, hv, hv0, -⟩ := ih fun e' he' => hes e' (List.mem_cons_of_mem _ he')
        obtain ⟨u, hu, hue⟩ := hpos e (hes e (by simp)) l hl j hj
        exact ⟨u + v, by simp [sumNaN, hue, hv], by linarith, fun _ => by linarith⟩
    obtain ⟨v, hv, hv0, hvp⟩ := key (evs.filter fun e => e.front == b) fun e he => List.mem_of_mem_filter he
    unfold sideProfile
    rw [hv]
    refine ⟨hv0, fun ⟨e, he, hb⟩ => hvp ?_⟩
    exact List.ne_nil_of_mem (List.mem_filter.mpr ⟨he, by simp [hb]⟩)
  have hraw : ∀ q ∈ depthAxis L n, 0 < rawProfile L n dx look evs q.1 q.2 := by
    intro q hq
    obtain ⟨h1, h2⟩ := depthAxis_lt hq
    obtain ⟨a1, a2⟩ := hside true q.1 h1 q.2 h2
    obtain ⟨b1, b2⟩ := hside false q.1 h1 q.2 h2
    obtain ⟨e, he⟩ := List.exists_mem_of_ne_nil evs hne
    unfold rawProfile
    rcases hf : e.front with _ | _
    · have := b2 ⟨e, he, hf⟩; linarith
    · have := a2 ⟨e, he, hf⟩; linarith
  have htot : 0 < integratedProfile L n dx (rawProfile L n dx look evs) := by
    rw [integrated_eq]
    exact trapzDx_pos dx hdx _ _ h2 hraw
  have hcorr : 0 ≤ totalInLayers L evs nRays := by
    unfold totalInLayers
    apply Finset.sum_nonneg
    intro l hl
    apply div_nonneg _ (Nat.cast_nonneg _)
    apply List.sum_nonneg
    intro x hx
    obtain ⟨e, he, rfl⟩ := List.mem_map.mp hx
    exact (hd e he l (mem_range.mp hl)).le
  rw [interfaceProfile_eq, if_pos htot]
  refine ⟨?_, ?_⟩
  · rw [trapzDx_smul dx _ _ (fun q : ℕ × ℕ => rawProfile L n dx look evs q.1 q.2), ← integrated_eq, div_mul_cancel₀ _ htot.ne']
    rfl
  · intro x hx
    obtain ⟨q, hq, rfl⟩ := List.mem_map.mp hx
    exact mul_nonneg (div_nonneg hcorr htot.le) (hraw q hq).le

/-- **C107 fails.** If all light arrives from the same side and one of the absorbed rays arrives at an angle the table does not cover (it ends 1e-3 rad below 90 degrees), the whole profile is zero, however much light the other rays left in the
layers. -/
theorem C107_one_grazing_ray_fails (L : ℕ) (n : ℕ → ℕ) (dx : ℝ) (look : Bool → ℝ → Option (ℕ → ℝ × Coeff)) (evs : List ProfEvent) (Acorr : ℝ) (side : Bool)
    (hside : ∀ e ∈ evs, e.front = side) (e : ProfEvent) (he : e ∈ evs) (hout : look e.front |e.θ| = none) :
    ∀ x ∈ interfaceProfile L n dx look evs Acorr, x = 0 := by
  have hz : ∀ b l j, sideProfile L n dx look evs b l j = 0 := by
    intro b l j
    unfold sideProfile
    by_cases hb : b = side
    · subst hb
      rw [sumNaN_none]
      · rfl
      · refine List.mem_map.mpr ⟨e, List.mem_filter.mpr ⟨he, by simp [hside e he]⟩, ?_⟩
        simp [eventAt, hout]
    · have : evs.filter (fun e => e.front == b) = [] := by
        rw [List.filter_eq_nil_iff]
        intro e' he'
        rw [hside e' he']
        simpa using Ne.symm hb
      rw [this]; rfl
  intro x hx
  rw [interfaceProfile_eq] at hx
  obtain ⟨q, -, rfl⟩ := List.mem_map.mp hx
  unfold rawProfile
  rw [hz, hz]; simp

/-- A table for one layer that covers angles up to `π/2 - 1e-3` (lookup_table.py 65) and two absorbed rays, one of them too oblique for the table. -/
example : ∃ (look : Bool → ℝ → Option (ℕ → ℝ × Coeff)) (e1 e2 : ProfEvent), (∀ b θ, look b θ = none ↔ Real.pi / 2 - 1e-3 < θ) ∧ look e1.front |e1.θ| ≠ none ∧ look e2.front |e2.θ| = none ∧
    e2.θ < Real.pi / 2 ∧ 0 < totalInLayers 1 [e1, e2] 10 ∧
    (∃ t, look e1.front |e1.θ| = some t ∧ (∃ l < 1, (1e-10 : ℝ) < (t l).1) ∧ ∀ l < 1, ∀ j < 5, 0 < density (t l).2 ((j : ℝ) * 1)) ∧ 2 ≤ (depthAxis 1 fun _ => 5).length := by
  classical
  have hpi := Real.pi_gt_three
  refine ⟨fun _ θ => if Real.pi / 2 - 1e-3 < θ then none else some fun _ => (0.5, ⟨0, 1, 0, 0, 1, 0⟩), ⟨0, true, fun _ => 1⟩, ⟨Real.pi / 2 - 5e-4, true, fun _ => 1⟩, ?_, ?_, ?_, ?_, ?_, ?_, ?_⟩
  · intro b θ
    by_cases h : Real.pi / 2 - 1e-3 < θ
    · simp [h]
    · simp [h]
  · have : ¬ Real.pi / 2 - 1e-3 < (0 : ℝ) := by norm_num; linarith
    simp [this]
  · have h1 : |Real.pi / 2 - 5e-4| = Real.pi / 2 - 5e-4 := abs_of_pos (by norm_num; linarith)
    simp only [h1]
    rw [if_pos (by norm_num)]
  · norm_num
  · simp [totalInLayers]
  · have : ¬ Real.pi / 2 - 1e-3 < |(0 : ℝ)| := by norm_num; linarith
    simp only [this, if_false]
    refine ⟨_, rfl, ⟨0, by norm_num, by norm_num⟩, ?_⟩
    intro l _ j _
    simp [density, Real.exp_pos]
  · simp [depthAxis]

/-! ## C108 -/

/-- **C108 (partial).** For each direction of incidence the unnormalised profile in a requested layer is the weighted mean over the local angles of incidence of the tabulated profiles (negative values replaced by zero), upside down for rear
incidence – provided no local angle with non-zero weight is dropped: its coefficients `A1` do not add up to zero over the layers, or profiles were not requested for all layers. -/
theorem C108_weighted_partial (N : ℕ) (n : ℕ → ℕ) (dx : ℝ) (front : Bool) (rows : List (ℝ × (ℕ → Option Coeff))) (l j : ℕ) (c : (ℕ → Option Coeff) → Coeff)
    (hl : ∀ r ∈ rows, r.2 l = some (c r.2))
    (hkeep : ∀ r ∈ rows, r.1 ≠ 0 → (∃ m < N, r.2 m = none) ∨ ∃ a : ℕ → Coeff, (∀ m < N, r.2 m = some (a m)) ∧ (∑ m ∈ range N, (a m).A1) ≠ 0) :
    profileWl N n dx front rows l j = max 0 ((rows.map fun r => r.1 * density (c r.2) (((if front then j else n l - 1 - j : ℕ) : ℝ) * dx)).sum) := by
  have hlist : ∀ N : ℕ, ∀ f : ℕ → ℝ, ((List.range N).map f).sum = ∑ m ∈ range N, f m := by
    intro N f
    induction N with
    | zero => rfl
    | succ N ih => rw [List.range_succ, List.map_append, List.sum_append, ih, sum_range_succ]; simp
  have hk : ∀ r ∈ rows, r.1 ≠ 0 → rowKept N r.1 r.2 = true := by
    intro r hr hw
    unfold rowKept
    rcases hkeep r hr hw with ⟨m, hm, h⟩ | ⟨a, ha, hsum⟩
    · rw [sumNaN_none]
      exact List.mem_map.mpr ⟨m, List.mem_range.mpr hm, by rw [h]; rfl⟩
    · have e : ((List.range N).map fun l => (r.2 l).map fun c => c.A1 * r.1) = ((List.range N).map fun l => (a l).A1 * r.1).map some := by
        rw [List.map_map]
        apply List.map_congr_left
        intro m hm
        rw [ha m (List.mem_range.mp hm)]; rfl
      rw [e, sumNaN_some, hlist, ← Finset.sum_mul]
      simp [hsum, hw]
  have main : ∀ rs : List (ℝ × (ℕ → Option Coeff)), (∀ r ∈ rs, r ∈ rows) →
      sumNaN ((rs.filter fun r => rowKept N r.1 r.2).map fun r => (r.2 l).map fun c => (weighted r.1 c).at (((if front then j else n l - 1 - j : ℕ) : ℝ) * dx)) =
        some ((rs.map fun r => r.1 * density (c r.2) (((if front then j else n l - 1 - j : ℕ) : ℝ) * dx)).sum) := by
    intro rs
    induction rs with
    | nil => intro _; rfl
    | cons r rs ih =>
      intro h
      have hr := h r (by simp)
      have ih' := ih fun r' hr' => h r' (List.mem_cons_of_mem _ hr')
      by_cases hkp : rowKept N r.1 r.2 = true
      · rw [List.filter_cons_of_pos (p := fun r : ℝ × (ℕ → Option Coeff) => rowKept N r.1 r.2) hkp]
        rw [List.map_cons, sumNaN, ih', hl r hr, Option.map_some, Option.bind_some, Option.map_some, density_weighted, List.map_cons, List.sum_cons]
      · rw [List.filter_cons_of_neg (p := fun r : ℝ × (ℕ → Option Coeff) => rowKept N r.1 r.2) hkp, ih']
        have : r.1 = 0 := by
          by_contra hw
          exact hkp (hk r hr hw)
        simp [this]
  unfold profileWl
  simp only
  rw [main rows fun r hr => hr, Option.getD_some]
  by_cases h : 0 ≤ (rows.map fun r => r.1 * density (c r.2) (((if front then j else n l - 1 - j : ℕ) : ℝ) * dx)).sum
  · rw [if_pos h, max_eq_right h]
  · rw [if_neg h, max_eq_left (by linarith)]

/-- **C108 fails for incoherent layers.** If profiles are requested for all layers of the interface and all of them are treated as incoherent (coefficient `A1` is zero, tmm.py 508-509), the profile is identically zero. -/
theorem C108_incoherent_fails (N : ℕ) (n : ℕ → ℕ) (dx : ℝ) (front : Bool) (rows : List (ℝ × (ℕ → Option Coeff)))
    (h : ∀ r ∈ rows, ∃ a : ℕ → Coeff, (∀ m < N, r.2 m = some (a m)) ∧ ∀ m < N, (a m).A1 = 0) (l j : ℕ) :
    profileWl N n dx front rows l j = 0 := by
  have : rows.filter (fun r => rowKept N r.1 r.2) = [] := by
    rw [List.filter_eq_nil_iff]
    intro r hr
    obtain ⟨a, ha, h0⟩ := h r hr
    unfold rowKept
    have e : ((List.range N).map fun l => (r.2 l).map fun c => c.A1 * r.1) = ((List.range N).map fun _ => (0 : ℝ)).map some := by
      rw [List.map_map]
      apply List.map_congr_left
      intro m hm
      rw [ha m (List.mem_range.mp hm)]
      simp [h0 m (List.mem_range.mp hm)]
    rw [e, sumNaN_some]
    simp
  unfold profileWl
  rw [this]
  simp [sumNaN]

/-- **C108 fails for finer angular grids than the table**: if one local angle of the grid lies outside the table (more than 785 polar rings with linear spacing), the profile is identically zero, even if no light arrives at this angle. -/
theorem C108_outside_table_fails (N : ℕ) (hN : 0 < N) (n : ℕ → ℕ) (dx : ℝ) (front : Bool) (rows : List (ℝ × (ℕ → Option Coeff))) (r : ℝ × (ℕ → Option Coeff)) (hr : r ∈ rows)
    (hout : ∀ m, r.2 m = none) (l j : ℕ) : profileWl N n dx front rows l j = 0 := by
  have hk : rowKept N r.1 r.2 = true := by
    unfold rowKept
    rw [sumNaN_none]
    exact List.mem_map.mpr ⟨0, List.mem_range.mpr hN, by rw [hout]; rfl⟩
  unfold profileWl
  simp only
  rw [sumNaN_none]
  · simp
  · exact List.mem_map.mpr ⟨r, List.mem_filter.mpr ⟨hr, hk⟩, by rw [hout]; rfl⟩

/-- The last polar bin centre of a linear grid with more than 785 rings is beyond the table. -/
example : Real.pi / 2 - 1e-3 < Real.pi / 2 - Real.pi / 2 / 786 / 2 := by
  have := Real.pi_lt_d4
  norm_num
  linarith

/-- An absorbing incoherent layer. -/
example : ∃ rows : List (ℝ × (ℕ → Option Coeff)), (∀ r ∈ rows, ∃ a : ℕ → Coeff, (∀ m < 1, r.2 m = some (a m)) ∧ ∀ m < 1, (a m).A1 = 0) ∧
    ∀ z, 0 < (rows.map fun r => r.1 * density (((r.2 0).getD ⟨0, 0, 0, 0, 0, 0⟩)) z).sum := by
  refine ⟨[(1, fun _ => some ⟨0, 1, 0, 0, 1, 0⟩)], ?_, ?_⟩
  · intro r hr
    simp only [List.mem_singleton] at hr
    subst hr
    exact ⟨fun _ => ⟨0, 1, 0, 0, 1, 0⟩, fun _ _ => rfl, fun _ _ => rfl⟩
  · intro z
    simp [density, Real.exp_pos]

/-- A coherent layer for which the weighted mean theorem applies. -/
example : ∃ (rows : List (ℝ × (ℕ → Option Coeff))) (c : (ℕ → Option Coeff) → Coeff), rows ≠ [] ∧ (∀ r ∈ rows, r.2 0 = some (c r.2)) ∧
    ∀ r ∈ rows, r.1 ≠ 0 → (∃ m < 1, r.2 m = none) ∨ ∃ a : ℕ → Coeff, (∀ m < 1, r.2 m = some (a m)) ∧ (∑ m ∈ range 1, (a m).A1) ≠ 0 := by
  refine ⟨[(1, fun _ => some ⟨0.1, 1, 0.2, 0.1, 1, 3⟩), (0, fun _ => some ⟨0.1, 1, 0.2, 0.1, 1, 3⟩)], fun _ => ⟨0.1, 1, 0.2, 0.1, 1, 3⟩, by simp, ?_, ?_⟩
  · intro r hr
    simp only [List.mem_cons, List.not_mem_nil, or_false] at hr
    rcases hr with rfl | rfl <;> rfl
  · intro r hr _
    right
    refine ⟨fun _ => ⟨0.1, 1, 0.2, 0.1, 1, 3⟩, ?_, by norm_num⟩
    simp only [List.mem_cons, List.not_mem_nil, or_false] at hr
    rcases hr with rfl | rfl <;> exact fun _ _ => rfl

end Rayflare
