import Verif.Model.RcwaMaps
import Verif.Props.RcwaFields
import Verif.Lemmas.Intersect

/-!
# Properties C163, C164: maps of fields and permittivity
-/

namespace Rayflare

open Rayflare.Np Rayflare.Model Rayflare.Spec Rayflare.Lemmas

theorem meshIJ_length {A B : Type*} (xs : List A) (ys : List B) : (meshIJ xs ys).length = xs.length * ys.length := by
  induction xs with
  | nil => simp [meshIJ]
  | cons a xs ih =>
    simp only [meshIJ, List.flatMap_cons, List.length_append, List.length_map, List.length_cons] at ih ⊢
    rw [ih]; ring

/-- Entry `i * len(ys) + j` of the flattened arrays belongs to the points `xs[i]`, `ys[j]`. -/
theorem meshIJ_get {A B : Type*} (xs : List A) (ys : List B) {i j : ℕ} {a : A} {b : B} (hi : xs[i]? = some a) (hj : ys[j]? = some b) : (meshIJ xs ys)[i * ys.length + j]? = some (a, b) := by
  have hjl : j < ys.length := (List.getElem?_eq_some_iff.mp hj).1
  induction xs generalizing i with
  | nil => simp at hi
  | cons a' xs ih =>
    cases i with
    | zero =>
      simp only [List.getElem?_cons_zero, Option.some.injEq] at hi
      subst hi
      simp only [meshIJ, List.flatMap_cons, Nat.zero_mul, Nat.zero_add]
      rw [List.getElem?_append_left (by simpa using hjl), List.getElem?_map, hj]; rfl
    | succ i =>
      have := ih (i := i) (by simpa using hi)
      simp only [meshIJ, List.flatMap_cons] at this ⊢
      rw [List.getElem?_append_right (by simp; nlinarith), List.length_map, show (i + 1) * ys.length + j - ys.length = i * ys.length + j by rw [Nat.add_mul, Nat.one_mul]; omega]
      exact this

theorem div_mod_unique {n i j k : ℕ} (hj : j < n) (h : k = i * n + j) : k / n = i ∧ k % n = j := by
  subst h
  constructor
  · rw [Nat.mul_comm, Nat.mul_add_div (by omega), Nat.div_eq_of_lt hj, Nat.add_zero]
  · rw [Nat.mul_comm, Nat.mul_add_mod, Nat.mod_eq_of_lt hj]

/-- The loop has filled the entries of the points it has been at. -/
theorem fieldLoop_prefix {V : Type*} (zero : V) (get : ℝ → ℝ → V) (xs ys : List ℝ) (m : ℕ) (hm : m ≤ xs.length * ys.length) {i j : ℕ} {x y : ℝ} (hx : xs[i]? = some x) (hy : ys[j]? = some y) :
    ((List.range m).foldl (fun E k => match (meshIJ xs ys)[k]?, (meshIJ (List.range xs.length) (List.range ys.length))[k]? with
      | some p, some ij => setAt E ij.1 ij.2 (get p.1 p.2)
      | _, _ => E) (fun _ _ => zero)) i j = if i * ys.length + j < m then get x y else zero := by
  have hjl : j < ys.length := (List.getElem?_eq_some_iff.mp hy).1
  induction m with
  | zero => simp
  | succ m ih =>
    have hyl : 0 < ys.length := by omega
    have hi' : m / ys.length < xs.length := Nat.div_lt_of_lt_mul (by rw [Nat.mul_comm]; omega)
    have hj' : m % ys.length < ys.length := Nat.mod_lt _ hyl
    have hmk : m = m / ys.length * ys.length + m % ys.length := by rw [Nat.mul_comm]; exact (Nat.div_add_mod _ _).symm
    have h1 := meshIJ_get xs ys (List.getElem?_eq_getElem hi') (List.getElem?_eq_getElem hj')
    have h2 := meshIJ_get (List.range xs.length) (List.range ys.length) (i := m / ys.length) (j := m % ys.length) (a := m / ys.length) (b := m % ys.length) (by simp [hi']) (by simp [hj'])
    rw [List.length_range] at h2
    rw [← hmk] at h1 h2
    rw [List.range_succ, List.foldl_append, List.foldl_cons, List.foldl_nil, h1, h2]
    simp only [setAt]
    by_cases hk : i * ys.length + j = m
    · obtain ⟨e1, e2⟩ := div_mod_unique hjl hk.symm
      rw [if_pos ⟨e1.symm, e2.symm⟩, if_pos (by omega)]
      have ex : xs[m / ys.length] = x := by
        rw [← e1] at hx; rw [List.getElem?_eq_getElem hi'] at hx; exact Option.some.inj hx
      have ey : ys[m % ys.length] = y := by
        rw [← e2] at hy; rw [List.getElem?_eq_getElem hj'] at hy; exact Option.some.inj hy
      rw [ex, ey]
    · rw [if_neg, ih (by omega)]
      · by_cases h : i * ys.length + j < m
        · rw [if_pos h, if_pos (by omega)]
        · rw [if_neg h, if_neg (by omega)]
      · rintro ⟨e1, e2⟩
        apply hk; rw [e1, e2]; exact hmk.symm

/-- **C163** (the entries of the maps): entry `[i, j]` of the fields and of the permittivity is what the solver returns at the `i`-th of the x points and the `j`-th of the y points. -/
theorem C163_entries {V : Type*} (zero : V) (get : ℝ → ℝ → V) (xs ys : List ℝ) {i j : ℕ} {x y : ℝ} (hx : xs[i]? = some x) (hy : ys[j]? = some y) :
    fieldLoop zero get xs ys i j = get x y ∧ epsilonLoop zero get xs ys i j = get x y := by
  have hil : i < xs.length := (List.getElem?_eq_some_iff.mp hx).1
  have hjl : j < ys.length := (List.getElem?_eq_some_iff.mp hy).1
  have hlt : i * ys.length + j < xs.length * ys.length := by
    have : (i + 1) * ys.length ≤ xs.length * ys.length := Nat.mul_le_mul_right _ hil
    rw [Nat.add_mul, Nat.one_mul] at this
    omega
  constructor
  · have := fieldLoop_prefix zero get xs ys (xs.length * ys.length) le_rfl hx hy
    rw [if_pos hlt] at this
    rw [← this, fieldLoop]
    simp only [meshIJ_length]
    rfl
  · simp only [epsilonLoop, List.getD_eq_getElem?_getD, List.getElem?_map, meshIJ_get xs ys hx hy, Option.map_some, Option.getD_some]

/-- **C163** (the points): `n` points at equal distances, from one end of the area to the other. -/
theorem C163_points (size : (ℝ × ℝ) × (ℝ × ℝ)) (x0 x1 y0 y1 : ℝ) (n i : ℕ) (hn : 2 ≤ n) (hi : i < n) :
    let p := mapPoints size (some ((x0, x1), (y0, y1))) n
    p.1.length = n ∧ p.2.length = n ∧ p.1[i]? = some (x0 + i / ((n - 1 : ℕ) : ℝ) * (x1 - x0)) ∧ p.2[i]? = some (y0 + i / ((n - 1 : ℕ) : ℝ) * (y1 - y0)) ∧ p.1[0]? = some x0 ∧ p.1[n - 1]? = some x1 ∧ p.2[0]? = some y0 ∧ p.2[n - 1]? = some y1 := by
  have h : ((n - 1 : ℕ) : ℝ) ≠ 0 := by
    have : n - 1 ≠ 0 := by omega
    exact_mod_cast this
  have g : ∀ (a b : ℝ) (k : ℕ), k < n → (linspace a b n)[k]? = some (a + k / ((n - 1 : ℕ) : ℝ) * (b - a)) := by
    intro a b k hk
    simp only [linspace, List.getElem?_map, List.getElem?_range hk, Option.map_some, Option.some.injEq]
    ring
  refine ⟨by simp [mapPoints], by simp [mapPoints], g _ _ i hi, g _ _ i hi, ?_, ?_, ?_, ?_⟩
  · rw [show (mapPoints size (some ((x0, x1), (y0, y1))) n).1 = linspace x0 x1 n from rfl, g _ _ 0 (by omega)]; simp
  · rw [show (mapPoints size (some ((x0, x1), (y0, y1))) n).1 = linspace x0 x1 n from rfl, g _ _ (n - 1) (by omega), div_self h]; simp
  · rw [show (mapPoints size (some ((x0, x1), (y0, y1))) n).2 = linspace y0 y1 n from rfl, g _ _ 0 (by omega)]; simp
  · rw [show (mapPoints size (some ((x0, x1), (y0, y1))) n).2 = linspace y0 y1 n from rfl, g _ _ (n - 1) (by omega), div_self h]; simp

/-- **C163** (the default area): the default area is the same as the given one with these limits, and it shows the whole structure: every point of the plane is, up to lattice vectors, in it. -/
theorem C163_area (ax ay bx by' : ℝ) (hdet : ax * by' - ay * bx ≠ 0) :
    let X := 3 / 2 * max |ax| |bx|
    let Y := 3 / 2 * max |ay| |by'|
    (∀ n, mapPoints ((ax, ay), (bx, by')) none n = mapPoints ((ax, ay), (bx, by')) (some ((-X, X), (-Y, Y))) n) ∧
    ∀ x y : ℝ, ∃ m n : ℤ, -X ≤ x + m * ax + n * bx ∧ x + m * ax + n * bx ≤ X ∧ -Y ≤ y + m * ay + n * by' ∧ y + m * ay + n * by' ≤ Y := by
  intro X Y
  refine ⟨fun n => ?_, fun x y => ?_⟩
  · simp only [mapPoints, defaultHalf, X, Y, neg_mul]
  · obtain ⟨s, hs⟩ : ∃ s, s = (x * by' - y * bx) / (ax * by' - ay * bx) := ⟨_, rfl⟩
    obtain ⟨t, ht⟩ : ∃ t, t = (ax * y - ay * x) / (ax * by' - ay * bx) := ⟨_, rfl⟩
    have ex : x = s * ax + t * bx := by rw [hs, ht, div_mul_eq_mul_div, div_mul_eq_mul_div, ← add_div, eq_div_iff hdet]; ring
    have ey : y = s * ay + t * by' := by rw [hs, ht, div_mul_eq_mul_div, div_mul_eq_mul_div, ← add_div, eq_div_iff hdet]; ring
    refine ⟨-round s, -round t, ?_⟩
    have h1 := abs_sub_round s
    have h2 := abs_sub_round t
    have key : ∀ a b : ℝ, |(s - round s) * a + (t - round t) * b| ≤ 3 / 2 * max |a| |b| := by
      intro a b
      have i1 : |(s - round s) * a| ≤ 1 / 2 * |a| := by rw [abs_mul]; exact mul_le_mul_of_nonneg_right h1 (abs_nonneg _)
      have i2 : |(t - round t) * b| ≤ 1 / 2 * |b| := by rw [abs_mul]; exact mul_le_mul_of_nonneg_right h2 (abs_nonneg _)
      have := abs_add_le ((s - round s) * a) ((t - round t) * b)
      have m1 := le_max_left |a| |b|
      have m2 := le_max_right |a| |b|
      have := abs_nonneg a
      linarith
    have k1 := abs_le.mp (key ax bx)
    have k2 := abs_le.mp (key ay by')
    have e1 : x + ((-round s : ℤ) : ℝ) * ax + ((-round t : ℤ) : ℝ) * bx = (s - round s) * ax + (t - round t) * bx := by rw [ex]; push_cast; ring
    have e2 : y + ((-round s : ℤ) : ℝ) * ay + ((-round t : ℤ) : ℝ) * by' = (s - round s) * ay + (t - round t) * by' := by rw [ey]; push_cast; ring
    rw [e1, e2]
    exact ⟨k1.1, k1.2, k2.1, k2.2⟩

/-- **C163** (the wavelength): the optical constants are those of a wavelength of the last calculation to which no other one of them is closer; of the wavelength asked for, if it is one of them. -/
theorem C163_wavelength (ws : List ℝ) (hw : ws ≠ []) (wl : ℝ) :
    ∃ w, ws[wlIndex ws wl]? = some w ∧ (∀ w' ∈ ws, |w * 10 ^ 9 - wl| ≤ |w' * 10 ^ 9 - wl|) ∧ ∀ w' ∈ ws, wl = w' * 10 ^ 9 → w = w' := by
  obtain ⟨hk, hmin⟩ := argmin_spec (l := ws.map fun w => |w * 10 ^ 9 - wl|) (by simpa using hw)
  have hk' : wlIndex ws wl < ws.length := by simpa [wlIndex] using hk
  have hall : ∀ w' ∈ ws, |ws[wlIndex ws wl] * 10 ^ 9 - wl| ≤ |w' * 10 ^ 9 - wl| := by
    intro w' hw'
    have := hmin _ (List.mem_map_of_mem (f := fun w => |w * 10 ^ 9 - wl|) hw')
    rw [List.getElem_map] at this
    exact this
  refine ⟨ws[wlIndex ws wl], List.getElem?_eq_getElem hk', hall, fun w' hw' e => ?_⟩
  have := hall w' hw'
  have h0 : |w' * 10 ^ 9 - wl| = 0 := by rw [← e, sub_self, abs_zero]
  have := abs_nonpos_iff.mp (h0 ▸ this)
  linarith

/-- **C163** (`get_fields`): in a layer of the structure and in the transmission medium, the fields at the points of the area, at the depth in the layer. -/
theorem C163_fields {V : Type*} (zero : V) (solver : ℕ → ℝ → ℝ → ℝ → ℝ → V) (size : (ℝ × ℝ) × (ℝ × ℝ)) (w ws : List ℝ) (k : ℕ) (wl : ℝ) (extent : Option ((ℝ × ℝ) × (ℝ × ℝ))) (d : ℝ) (n : ℕ)
    (h1 : 1 ≤ k) (h2 : k ≤ w.length + 1) (hd : 0 ≤ d) (hk : ∀ x, w[k - 1]? = some x → d ≤ x) :
    ∃ E z, getFields zero solver size w ws k wl extent d n = some ((mapPoints size extent n).1, (mapPoints size extent n).2, E) ∧ z = (w.take (k - 1)).sum + d ∧ InLayer w k z ∧
      ∀ i j x y, (mapPoints size extent n).1[i]? = some x → (mapPoints size extent n).2[j]? = some y → E i j = solver (wlIndex ws wl) wl z x y := by
  obtain ⟨e, -, hin⟩ := C94_depth_partial w k d h1 h2 hd hk
  refine ⟨fieldLoop zero (solver (wlIndex ws wl) wl ((w.take (k - 1)).sum + d)) (mapPoints size extent n).1 (mapPoints size extent n).2, _, ?_, rfl, hin, fun i j x y hx hy => (C163_entries zero _ _ _ hx hy).1⟩
  simp only [getFields, e, Option.map_some]

/-- **C163** (`get_fourier_epsilon`): also in the incidence medium. -/
theorem C163_permittivity {V : Type*} (zero : V) (solver : ℕ → ℝ → ℝ → ℝ → V) (size : (ℝ × ℝ) × (ℝ × ℝ)) (w ws : List ℝ) (k : ℕ) (wl : ℝ) (extent : Option ((ℝ × ℝ) × (ℝ × ℝ))) (n : ℕ)
    (h2 : k ≤ w.length + 1) (hk : ∀ x ∈ w, 1 / 10 ^ 10 ≤ x) :
    ∃ eps z, getEpsilon zero solver size w ws k wl extent n = some ((mapPoints size extent n).1, (mapPoints size extent n).2, eps) ∧ InLayer w k z ∧
      ∀ i j x y, (mapPoints size extent n).1[i]? = some x → (mapPoints size extent n).2[j]? = some y → eps i j = solver (wlIndex ws wl) z x y := by
  obtain ⟨⟨z, e, hin⟩, -⟩ := C94_epsilon w k h2 hk
  refine ⟨epsilonLoop zero (solver (wlIndex ws wl) z) (mapPoints size extent n).1 (mapPoints size extent n).2, z, ?_, hin, fun i j x y hx hy => (C163_entries zero _ _ _ hx hy).2⟩
  simp only [getEpsilon, e, Option.map_some]

/-- **C164**, as far as it holds: the magnitude is the one documented, `sqrt(abs(Ex² + Ey² + Ez²))`, if the components are in phase; it is never smaller than that. -/
theorem C164_magnitude_partial (E : Fin 3 → ℂ) :
    Real.sqrt ‖∑ c, E c ^ 2‖ ≤ fieldMag E ∧ ((∃ (u : ℂ) (r : Fin 3 → ℝ), ∀ c, E c = u * r c) → fieldMag E = Real.sqrt ‖∑ c, E c ^ 2‖) := by
  constructor
  · apply Real.sqrt_le_sqrt
    refine (norm_sum_le _ _).trans (le_of_eq ?_)
    simp only [norm_pow]
  · rintro ⟨u, r, h⟩
    unfold fieldMag
    congr 1
    have e1 : ∑ c, E c ^ 2 = u ^ 2 * ((∑ c, r c ^ 2 : ℝ) : ℂ) := by
      push_cast; rw [Finset.mul_sum]; exact Finset.sum_congr rfl fun c _ => by rw [h]; ring
    have e2 : ∑ c, ‖E c‖ ^ 2 = ‖u‖ ^ 2 * ∑ c, r c ^ 2 := by
      rw [Finset.mul_sum]; exact Finset.sum_congr rfl fun c _ => by rw [h, norm_mul, mul_pow, Complex.norm_real, Real.norm_eq_abs, sq_abs]
    rw [e1, e2, norm_mul, norm_pow, Complex.norm_real, Real.norm_eq_abs, abs_of_nonneg (Finset.sum_nonneg fun c _ => sq_nonneg _)]

/-- **C164 fails**: for a circularly polarised field the documented expression is zero, and the magnitude returned is not. -/
theorem C164_magnitude_fails : ∃ E : Fin 3 → ℂ, Real.sqrt ‖∑ c, E c ^ 2‖ = 0 ∧ fieldMag E = Real.sqrt 2 := by
  refine ⟨![1, Complex.I, 0], ?_, ?_⟩
  · simp [Fin.sum_univ_three]
  · simp only [fieldMag, Fin.sum_univ_three]
    congr 1
    simp
    norm_num

/-! ## Examples -/

/-- A hexagonal lattice, three layers; the third one at half its depth, on a grid of 5 times 5 points. -/
example : ∃ E z, getFields (0 : ℝ) (fun k wl z x y => k + wl + z + 2 * x - y) ((500, 0), (250, 433)) [100, 200, 50] [600 / 10 ^ 9, 700 / 10 ^ 9] 3 700 none 25 5 =
    some ((mapPoints ((500, 0), (250, 433)) none 5).1, (mapPoints ((500, 0), (250, 433)) none 5).2, E) ∧ z = 325 ∧ InLayer [100, 200, 50] 3 z ∧ E 4 0 = 1 + 700 + 325 + 2 * 750 + 3 / 2 * 433 := by
  obtain ⟨E, z, h, hz, hin, hE⟩ := C163_fields (0 : ℝ) (fun k wl z x y => k + wl + z + 2 * x - y) ((500, 0), (250, 433)) [100, 200, 50] [600 / 10 ^ 9, 700 / 10 ^ 9] 3 700 none 25 5 (by norm_num) (by norm_num) (by norm_num)
    (by intro x hx; simp at hx; subst hx; norm_num)
  have hz' : z = 325 := by rw [hz]; norm_num
  have hw : wlIndex [600 / 10 ^ 9, 700 / 10 ^ 9] 700 = 1 := argmin_eq (k := 1) (by norm_num) (by norm_num) (fun j hj => by
    obtain rfl : j = 0 := by omega
    norm_num)
  have hd : defaultHalf ((500, 0), (250, 433)) = (500, 433) := by
    simp only [defaultHalf]; norm_num
  refine ⟨E, z, h, hz', hin, ?_⟩
  rw [hE 4 0 750 (-(3 / 2) * 433) (by norm_num [mapPoints, hd, linspace, List.range_succ]) (by norm_num [mapPoints, hd, linspace, List.range_succ]), hw, hz']
  norm_num

/-- The hypotheses of `C163_area` hold for this lattice, those of `C163_permittivity` for these layers. -/
example : (500 : ℝ) * 433 - 0 * 250 ≠ 0 ∧ (2 : ℕ) ≤ [100, 200, (50 : ℝ)].length + 1 ∧ ∀ x ∈ [100, 200, (50 : ℝ)], 1 / 10 ^ 10 ≤ x := by
  norm_num

end Rayflare
