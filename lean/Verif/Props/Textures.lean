import Verif.Model.Surface
import Verif.Lemmas.Np
import Mathlib.Data.List.GetD
import Mathlib.Data.List.Perm.Basic
import Mathlib.Tactic.Linarith
import Mathlib.Tactic.FieldSimp
import Mathlib.Tactic.Ring
import Mathlib.Tactic.NormNum
import Mathlib.Tactic.IntervalCases

/-!
# Properties C63 to C66 and C97: the points of the textures
-/

namespace Rayflare

open Rayflare.Np Rayflare.Model Real

/-! ## C63 -/

theorem grid_get {α : Type} (f : ℕ → ℕ → α) (a b k : ℕ) (hk : k < a * b) :
    ((List.range a).flatMap fun i => (List.range b).map fun j => f i j)[k]? = some (f (k / b) (k % b)) := by
  induction a generalizing k with
  | zero => simp at hk
  | succ a ih =>
    have hb : 0 < b := by
      rcases Nat.eq_zero_or_pos b with rfl | h
      · simp at hk
      · exact h
    have hlen : ((List.range a).flatMap fun i => (List.range b).map fun j => f i j).length = a * b := by simp [List.length_flatMap]
    rw [List.range_succ, List.flatMap_append]
    by_cases hlt : k < a * b
    · rw [List.getElem?_append_left (by rw [hlen]; exact hlt)]
      exact ih k hlt
    · rw [List.getElem?_append_right (by rw [hlen]; omega), hlen]
      have hk' : k < a * b + b := by rw [Nat.succ_mul] at hk; exact hk
      have hd : k / b = a := by
        apply Nat.div_eq_of_lt_le
        · omega
        · rw [Nat.succ_mul]; exact hk'
      have hm : k % b = k - a * b := by
        have := Nat.div_add_mod k b
        rw [hd, Nat.mul_comm] at this
        omega
      have : k - a * b < b := by omega
      simp [List.getElem?_map, List.getElem?_range this, hd, hm]

theorem heights_get (n0 n1 : ℕ) (z : ℕ → ℕ → ℝ) (xw yw : ℝ) (k : ℕ) (hk : k < n0 * n1) :
    (heightsPoints n0 n1 z xw yw)[k]? = some ⟨((k % n0 : ℕ) : ℝ) * (xw / ((n0 - 1 : ℕ) : ℝ)), ((k / n0 : ℕ) : ℝ) * (yw / ((n1 - 1 : ℕ) : ℝ)), z (k / n1) (k % n1)⟩ := by
  unfold heightsPoints
  have e1 : meshPairs (linspace 0 xw n0) (linspace 0 yw n1) =
      (List.range n1).flatMap fun b => (List.range n0).map fun a => (((a : ℕ) : ℝ) * (xw / ((n0 - 1 : ℕ) : ℝ)), ((b : ℕ) : ℝ) * (yw / ((n1 - 1 : ℕ) : ℝ))) := by
    unfold meshPairs linspace
    rw [List.flatMap_map]
    simp [Function.comp_def]
  rw [List.getElem?_zipWith, e1, grid_get _ _ _ _ (by rw [Nat.mul_comm]; exact hk)]
  unfold flatten2
  rw [grid_get _ _ _ _ hk]

theorem heights_length (n0 n1 : ℕ) (z : ℕ → ℕ → ℝ) (xw yw : ℝ) : (heightsPoints n0 n1 z xw yw).length = n0 * n1 := by
  unfold heightsPoints meshPairs flatten2
  simp [List.length_flatMap, Nat.mul_comm]

/-- **C63, what holds.** A square height map of `n × n` values is put on the regular grid over the unit cell: the value `z i j` at column `j` in x and row `i` in y (as when an image is drawn), and nothing else is on
the surface. Missing: height maps that are not square (next theorem). -/
theorem C63_heightmap_partial (n : ℕ) (z : ℕ → ℕ → ℝ) (xw yw : ℝ) :
    (∀ i < n, ∀ j < n, (⟨(j : ℝ) * (xw / ((n - 1 : ℕ) : ℝ)), (i : ℝ) * (yw / ((n - 1 : ℕ) : ℝ)), z i j⟩ : V3) ∈ heightsPoints n n z xw yw) ∧
    (∀ p ∈ heightsPoints n n z xw yw, ∃ i < n, ∃ j < n, p = ⟨(j : ℝ) * (xw / ((n - 1 : ℕ) : ℝ)), (i : ℝ) * (yw / ((n - 1 : ℕ) : ℝ)), z i j⟩) ∧
    (heightsPoints n n z xw yw).length = n * n := by
  refine ⟨?_, ?_, heights_length n n z xw yw⟩
  · intro i hi j hj
    have hk : i * n + j < n * n := by nlinarith
    have := heights_get n n z xw yw (i * n + j) hk
    have hd : (i * n + j) / n = i := by
      rw [Nat.add_comm, Nat.add_mul_div_right _ _ (by omega), Nat.div_eq_of_lt hj, Nat.zero_add]
    have hm : (i * n + j) % n = j := by
      rw [Nat.add_comm, Nat.add_mul_mod_self_right, Nat.mod_eq_of_lt hj]
    rw [hd, hm] at this
    exact List.mem_of_getElem? this
  · intro p hp
    obtain ⟨k, hk, rfl⟩ := List.getElem_of_mem hp
    have hk' := hk
    rw [heights_length] at hk'
    have h := heights_get n n z xw yw k hk'
    rw [List.getElem?_eq_getElem hk] at h
    have hn : 0 < n := by
      rcases Nat.eq_zero_or_pos n with rfl | h
      · simp at hk'
      · exact h
    exact ⟨k / n, Nat.div_lt_of_lt_mul hk', k % n, Nat.mod_lt _ hn, Option.some.inj h⟩

/-- **C63 fails** for height maps that are not square: in a map of 2 × 3 values the value at row 1, column 0 is put at the middle of the side `x = xw`, neither at `(x_1, y_0) = (xw, 0)` nor at `(x_0, y_1) = (0, yw/2)`. -/
theorem C63_heightmap_fails (z : ℕ → ℕ → ℝ) (xw yw : ℝ) (hinj : ∀ i < 2, ∀ j < 3, z i j = z 1 0 → i = 1 ∧ j = 0) :
    (∃ p ∈ heightsPoints 2 3 z xw yw, p.z = z 1 0) ∧ ∀ p ∈ heightsPoints 2 3 z xw yw, p.z = z 1 0 → p.x = xw ∧ p.y = yw / 2 := by
  constructor
  · exact ⟨_, List.mem_of_getElem? (heights_get 2 3 z xw yw 3 (by norm_num)), by norm_num⟩
  · intro p hp hz
    obtain ⟨k, hk, rfl⟩ := List.getElem_of_mem hp
    have hk' := hk
    rw [heights_length] at hk'
    have h := heights_get 2 3 z xw yw k hk'
    rw [List.getElem?_eq_getElem hk] at h
    have h := Option.some.inj h
    rw [h] at hz ⊢
    simp only at hz ⊢
    obtain ⟨h1, h2⟩ := hinj (k / 3) (by omega) (k % 3) (by omega) hz
    have : k = 3 := by omega
    subst this
    norm_num

/-- The hypothesis is met by any six different heights. -/
example : ∀ i < 2, ∀ j < 3, (fun i j : ℕ => (3 * i + j : ℝ)) i j = (fun i j : ℕ => (3 * i + j : ℝ)) 1 0 → i = 1 ∧ j = 0 := by
  intro i hi j hj h
  simp only at h
  have h' : 3 * i + j = 3 := by
    have : ((3 * i + j : ℕ) : ℝ) = ((3 : ℕ) : ℝ) := by push_cast; push_cast at h; linarith
    exact_mod_cast this
  omega

/-- **C63 fails for every height map that is not square** (at least two rows and two columns, unequal numbers): the value in row 1, column 0 is not at column 0, row 1 of the grid, as it is for square maps, and the value in
row 0, column 1 is not at the position `(x_0, y_1)` either. -/
theorem C63_not_square_fails (n0 n1 : ℕ) (h0 : 2 ≤ n0) (h1 : 2 ≤ n1) (hne : n0 ≠ n1) (z : ℕ → ℕ → ℝ) (hinj : ∀ i < n0, ∀ j < n1, ∀ i' < n0, ∀ j' < n1, z i j = z i' j' → i = i' ∧ j = j')
    (xw yw : ℝ) (hx : 0 < xw) (hy : 0 < yw) :
    (∀ p ∈ heightsPoints n0 n1 z xw yw, p.z = z 1 0 → ¬ (p.x = 0 ∧ p.y = yw / ((n1 - 1 : ℕ) : ℝ))) ∧
    (∀ p ∈ heightsPoints n0 n1 z xw yw, p.z = z 0 1 → ¬ (p.x = 0 ∧ p.y = yw / ((n1 - 1 : ℕ) : ℝ))) := by
  have hn0 : (0 : ℝ) < ((n0 - 1 : ℕ) : ℝ) := by exact_mod_cast (show 0 < n0 - 1 by omega)
  have hn1 : (0 : ℝ) < ((n1 - 1 : ℕ) : ℝ) := by exact_mod_cast (show 0 < n1 - 1 by omega)
  have hdx : 0 < xw / ((n0 - 1 : ℕ) : ℝ) := div_pos hx hn0
  have hdy : 0 < yw / ((n1 - 1 : ℕ) : ℝ) := div_pos hy hn1
  have key : ∀ i0 j0, i0 < n0 → j0 < n1 → ∀ p ∈ heightsPoints n0 n1 z xw yw, p.z = z i0 j0 → p.x = 0 → p.y = yw / ((n1 - 1 : ℕ) : ℝ) → i0 * n1 + j0 = n0 := by
    intro i0 j0 hi0 hj0 p hp hz hpx hpy
    obtain ⟨k, hk, rfl⟩ := List.getElem_of_mem hp
    have hk' := hk
    rw [heights_length] at hk'
    have h := heights_get n0 n1 z xw yw k hk'
    rw [List.getElem?_eq_getElem hk] at h
    have h := Option.some.inj h
    rw [h] at hz hpx hpy
    simp only at hz hpx hpy
    obtain ⟨e1, e2⟩ := hinj (k / n1) (Nat.div_lt_of_lt_mul (by rw [Nat.mul_comm]; exact hk')) (k % n1) (Nat.mod_lt _ (by omega)) i0 hi0 j0 hj0 hz
    have hm : k % n0 = 0 := by
      have := (mul_eq_zero.mp hpx).resolve_right hdx.ne'
      exact_mod_cast this
    have hd : k / n0 = 1 := by
      have : ((k / n0 : ℕ) : ℝ) = 1 := by
        have := mul_right_cancel₀ hdy.ne' (hpy.trans (one_mul _).symm)
        exact this
      exact_mod_cast this
    have a1 := Nat.div_add_mod k n0
    have a2 := Nat.div_add_mod k n1
    rw [hm, hd, Nat.mul_one, Nat.add_zero] at a1
    rw [e1, e2, Nat.mul_comm] at a2
    omega
  constructor
  · rintro p hp hz ⟨hpx, hpy⟩
    have := key 1 0 (by omega) (by omega) p hp hz hpx hpy
    omega
  · rintro p hp hz ⟨hpx, hpy⟩
    have := key 0 1 (by omega) (by omega) p hp hz hpx hpy
    omega

/-! ## C64 -/

/-- The four corners of the unit cell, in order round the cell. -/
def cellCorner (L : ℝ) : Fin 4 → V3
  | 0 => ⟨0, 0, 0⟩
  | 1 => ⟨L, 0, 0⟩
  | 2 => ⟨L, L, 0⟩
  | 3 => ⟨0, L, 0⟩

/-- The tip of the pyramid (or of the inverted pyramid). -/
noncomputable def tip (L h : ℝ) (upright : Bool) : V3 := ⟨L / 2, L / 2, if upright then h else -h⟩

/-- The six orders in which three points can be the corners of a triangle. -/
def IsFacet (τ : Tri) (a b c : V3) : Prop :=
  τ = ⟨a, b, c⟩ ∨ τ = ⟨a, c, b⟩ ∨ τ = ⟨b, a, c⟩ ∨ τ = ⟨b, c, a⟩ ∨ τ = ⟨c, a, b⟩ ∨ τ = ⟨c, b, a⟩

theorem facet_cross (L h : ℝ) (up : Bool) (q : Fin 4) (τ : Tri) (hτ : IsFacet τ (tip L h up) (cellCorner L q) (cellCorner L (q + 1))) :
    τ.crossP.z ^ 2 = (L ^ 2 / 2) ^ 2 ∧ V3.dot τ.crossP τ.crossP = (L ^ 2 / 2) ^ 2 + (L * h) ^ 2 := by
  have hs : (if up then h else -h) ^ 2 = h ^ 2 := by cases up <;> simp
  generalize hg : (if up then h else -h) = g at hs
  have htip : tip L h up = ⟨L / 2, L / 2, g⟩ := by rw [tip, hg]
  rw [htip] at hτ
  have e : (L * h) ^ 2 = L ^ 2 * g ^ 2 := by rw [mul_pow, hs]
  rw [e]
  fin_cases q <;> (rcases hτ with rfl | rfl | rfl | rfl | rfl | rfl) <;>
    simp [Tri.crossP, V3.cross, V3.dot, cellCorner] <;> constructor <;> ring

/-- **C64, facets.** Every facet of `regular_pyramids(angle, upright, size)` (the tip and two neighbouring corners of the unit cell, in any order) makes the requested angle with the horizontal. -/
theorem C64_facet_angle (deg L : ℝ) (up : Bool) (hL : 0 < L) (h0 : 0 < deg) (h90 : deg < 90) (q : Fin 4) (τ : Tri)
    (hτ : IsFacet τ (tip L (pyramidHeight deg L) up) (cellCorner L q) (cellCorner L (q + 1))) : Real.arccos |τ.N.z| = deg * π / 180 := by
  have hα0 : 0 < deg * π / 180 := by positivity
  have hα1 : deg * π / 180 < π / 2 := by
    have := Real.pi_pos
    nlinarith
  set α := deg * π / 180 with hα
  have hcos : 0 < Real.cos α := Real.cos_pos_of_mem_Ioo ⟨by linarith [Real.pi_pos], hα1⟩
  obtain ⟨hz, hd⟩ := facet_cross L (pyramidHeight deg L) up q τ hτ
  have hn : V3.norm τ.crossP = L ^ 2 / 2 / Real.cos α := by
    unfold V3.norm
    rw [hd]
    have : (L ^ 2 / 2) ^ 2 + (L * pyramidHeight deg L) ^ 2 = (L ^ 2 / 2 / Real.cos α) ^ 2 := by
      unfold pyramidHeight
      rw [← hα, Real.tan_eq_sin_div_cos]
      have := Real.sin_sq_add_cos_sq α
      field_simp
      linear_combination this
    rw [this, Real.sqrt_sq (by positivity)]
  have hzabs : |τ.crossP.z| = L ^ 2 / 2 := by
    rw [← Real.sqrt_sq_eq_abs, hz, Real.sqrt_sq (by positivity)]
  have : |τ.N.z| = Real.cos α := by
    unfold Tri.N
    rw [V3.smul_z, abs_mul, hzabs, hn, abs_of_pos (by positivity)]
    field_simp
  rw [this, Real.arccos_cos hα0.le (by linarith [Real.pi_pos])]

/-- **C64, mesh.** The mesh consists of the corners of the unit cell at height 0 and of the tip, at `±tan(angle)·size/2`; the rear surface is the mirror image. -/
theorem C64_mesh (deg L : ℝ) (up : Bool) (ss ss' : List (ℕ × ℕ × ℕ)) (cov : Option ℝ) (f r : Surface)
    (hf : (pyramidTexture deg L up none ss ss' cov).1 = some f) (hr : (pyramidTexture deg L up none ss ss' cov).2 = some r) :
    (∀ p : V3, p ∈ f.points ↔ p = tip L (Real.tan (deg * π / 180) * L / 2) up ∨ ∃ q, p = cellCorner L q) ∧
    ∀ p : V3, p ∈ r.points ↔ (⟨p.x, p.y, -p.z⟩ : V3) ∈ f.points := by
  unfold pyramidTexture at hf hr
  unfold mkSurface at hf hr
  simp only [Option.map_eq_some_iff] at hf hr
  obtain ⟨zf, hzf, rfl⟩ := hf
  obtain ⟨zr, hzr, rfl⟩ := hr
  simp only [Option.getD_none]
  constructor
  · intro p
    have : pyramidHeight deg L = Real.tan (deg * π / 180) * L / 2 := by unfold pyramidHeight; ring
    rw [this]
    simp only [pyramidPoints, List.mem_cons, List.not_mem_nil, or_false, tip]
    constructor
    · rintro (h | h | h | h | h)
      · exact Or.inr ⟨0, h⟩
      · exact Or.inl h
      · exact Or.inr ⟨1, h⟩
      · exact Or.inr ⟨3, h⟩
      · exact Or.inr ⟨2, h⟩
    · rintro (h | ⟨q, h⟩)
      · exact Or.inr (Or.inl h)
      · fin_cases q <;> simp [cellCorner] at h <;> simp [h]
  · intro p
    unfold mirrorPoints
    rw [List.mem_map]
    constructor
    · rintro ⟨a, ha, rfl⟩
      simpa using ha
    · intro h
      exact ⟨_, h, by ext <;> simp⟩

/-- The facets and the texture exist, for example for the usual 55°. -/
example : IsFacet ⟨tip 1 (pyramidHeight 55 1) true, cellCorner 1 3, cellCorner 1 0⟩ (tip 1 (pyramidHeight 55 1) true) (cellCorner 1 3) (cellCorner 1 (3 + 1)) := Or.inl rfl

example : ∃ f r, (pyramidTexture 55 1 true none [(1, 0, 2)] [(1, 0, 2)] (some 0)).1 = some f ∧
    mkSurface false false (mirrorPoints (pyramidPoints (pyramidHeight 55 1) 1 true)) [(1, 0, 2)] 1 (some 0) = some r := ⟨_, _, rfl, rfl⟩

/-! ## C65 -/

/-- **C65, what holds.** With `width = 1` all points of the V-groove mesh are in the unit cell, the four corners are there, and the ridge, at height `tan(angle)/2`, runs from one edge to the opposite one. -/
theorem C65_grooves_partial (deg : ℝ) :
    (∀ dir, ∀ p ∈ groovePoints deg 1 dir, 0 ≤ p.x ∧ p.x ≤ 1 ∧ 0 ≤ p.y ∧ p.y ≤ 1) ∧ (∀ dir q, cellCorner 1 q ∈ groovePoints deg 1 dir) ∧
    ((⟨1 / 2, 0, Real.tan (deg * π / 180) / 2⟩ : V3) ∈ groovePoints deg 1 .alongY ∧ (⟨1 / 2, 1, Real.tan (deg * π / 180) / 2⟩ : V3) ∈ groovePoints deg 1 .alongY) ∧
    ((⟨0, 1 / 2, Real.tan (deg * π / 180) / 2⟩ : V3) ∈ groovePoints deg 1 .alongX ∧ (⟨1, 1 / 2, Real.tan (deg * π / 180) / 2⟩ : V3) ∈ groovePoints deg 1 .alongX) := by
  refine ⟨?_, ?_, ?_, ?_⟩
  · intro dir p hp
    cases dir <;> simp only [groovePoints, List.mem_cons, List.not_mem_nil, or_false] at hp <;>
      rcases hp with rfl | rfl | rfl | rfl | rfl | rfl <;> norm_num
  · intro dir q
    cases dir <;> fin_cases q <;> simp [groovePoints, cellCorner]
  · simp [groovePoints]
  · simp [groovePoints]

/-- **C65 fails** for every other width: the ridge ends at coordinate 1, not at `width`; for a width below 1 it ends outside the unit cell. -/
theorem C65_grooves_fails (deg w : ℝ) (hw : 0 < w) (h1 : w ≠ 1) (h0 : 0 < deg) (h90 : deg < 90) :
    ((∃ p ∈ groovePoints deg w .alongY, 0 < p.z ∧ p.y = 0) ∧ ∀ p ∈ groovePoints deg w .alongY, 0 < p.z → p.y ≠ w) ∧
    ((∃ p ∈ groovePoints deg w .alongX, 0 < p.z ∧ p.x = 0) ∧ ∀ p ∈ groovePoints deg w .alongX, 0 < p.z → p.x ≠ w) ∧
    (w < 1 → (∃ p ∈ groovePoints deg w .alongY, w < p.y) ∧ ∃ p ∈ groovePoints deg w .alongX, w < p.x) := by
  have htan : 0 < w * Real.tan (deg * π / 180) / 2 := by
    have : 0 < Real.tan (deg * π / 180) := Real.tan_pos_of_pos_of_lt_pi_div_two (by positivity) (by have := Real.pi_pos; nlinarith)
    positivity
  refine ⟨⟨⟨⟨w / 2, 0, w * Real.tan (deg * π / 180) / 2⟩, by simp [groovePoints], htan, rfl⟩, ?_⟩, ⟨⟨⟨0, w / 2, w * Real.tan (deg * π / 180) / 2⟩, by simp [groovePoints], htan, rfl⟩, ?_⟩, ?_⟩
  · intro p hp hz
    simp only [groovePoints, List.mem_cons, List.not_mem_nil, or_false] at hp
    rcases hp with rfl | rfl | rfl | rfl | rfl | rfl <;> simp at hz ⊢
    · exact hw.ne
    · exact h1.symm
  · intro p hp hz
    simp only [groovePoints, List.mem_cons, List.not_mem_nil, or_false] at hp
    rcases hp with rfl | rfl | rfl | rfl | rfl | rfl <;> simp at hz ⊢
    · exact hw.ne
    · exact h1.symm
  · intro hlt
    exact ⟨⟨⟨w / 2, 1, w * Real.tan (deg * π / 180) / 2⟩, by simp [groovePoints], hlt⟩, ⟨⟨1, w / 2, w * Real.tan (deg * π / 180) / 2⟩, by simp [groovePoints], hlt⟩⟩

/-! ## C66 -/

/-- On the edge of the unit cell `[0, size]²`. -/
def OnEdge (size : ℝ) (p : V3) : Prop := p.x = 0 ∨ p.x = size ∨ p.y = 0 ∨ p.y = size

theorem zeroWhere_xy (c : V3 → ℝ) (v : ℝ) (pts : List V3) : (zeroWhere c v pts).map (fun p => (p.x, p.y)) = pts.map (fun p => (p.x, p.y)) := by
  unfold zeroWhere
  rw [List.map_map]
  apply List.map_congr_left
  intro p _
  simp only [Function.comp]
  split_ifs <;> rfl

open Classical in
theorem zeroEdges_eq (size : ℝ) (pts : List V3) : zeroEdges size pts = pts.map fun p => if OnEdge size p then ⟨p.x, p.y, 0⟩ else p := by
  unfold zeroEdges zeroWhere
  simp only [List.map_map]
  apply List.map_congr_left
  intro p _
  simp only [Function.comp, OnEdge]
  by_cases h1 : p.x = 0 <;> by_cases h2 : p.y = 0 <;> by_cases h3 : p.x = size <;> by_cases h4 : p.y = size <;> simp_all

theorem zeroEdges_mem (size : ℝ) (pts : List V3) (p : V3) (hp : p ∈ zeroEdges size pts) : (OnEdge size p → p.z = 0) ∧ (¬ OnEdge size p → p ∈ pts) := by
  classical
  rw [zeroEdges_eq] at hp
  obtain ⟨q, hq, rfl⟩ := List.mem_map.mp hp
  by_cases h : OnEdge size q
  · rw [if_pos h]
    exact ⟨fun _ => rfl, fun hn => absurd (by simpa [OnEdge] using h) hn⟩
  · rw [if_neg h]
    exact ⟨fun h' => absurd h' h, fun _ => hq⟩

theorem zeroEdges_xy (size : ℝ) (pts : List V3) : (zeroEdges size pts).map (fun p => (p.x, p.y)) = pts.map (fun p => (p.x, p.y)) := by
  unfold zeroEdges
  simp only [zeroWhere_xy]

/-- **C66, rough planes.** Whatever the random numbers, the points of a rough planar surface are the chosen coordinates (and, for random coordinates, the corners of the cell); points on the edge of the cell have height
0; a point inside has `noise` times its random number as height. -/
theorem C66_rough_plane (size noiseHeight : ℝ) (regular : Bool) (coords : List (ℝ × ℝ)) (noise : ℕ → ℝ) :
    ((roughPlanar size noiseHeight regular coords noise).map (fun p => (p.x, p.y)) = coords ++ if regular then [] else [(0, 0), (0, size), (size, size), (size, 0)]) ∧
    (∀ p ∈ roughPlanar size noiseHeight regular coords noise, OnEdge size p → p.z = 0) ∧
    (∀ p ∈ roughPlanar size noiseHeight regular coords noise, ¬ OnEdge size p → ∃ k : ℕ, coords[k]? = some (p.x, p.y) ∧ p.z = noiseHeight * noise k) := by
  refine ⟨?_, fun p hp => (zeroEdges_mem size _ p hp).1, ?_⟩
  · unfold roughPlanar
    rw [zeroEdges_xy]
    have : (coords.zipIdx.map fun c => (⟨c.1.1, c.1.2, noiseHeight * noise c.2⟩ : V3)).map (fun p => (p.x, p.y)) = coords := by
      rw [List.map_map]
      have : ((fun p : V3 => (p.x, p.y)) ∘ fun c : (ℝ × ℝ) × ℕ => (⟨c.1.1, c.1.2, noiseHeight * noise c.2⟩ : V3)) = Prod.fst := by funext c; rfl
      rw [this, List.zipIdx_map_fst]
    cases regular <;> simp [this, roughCorners]
  · intro p hp hedge
    have hm := (zeroEdges_mem size _ p hp).2 hedge
    have key : p ∈ (coords.zipIdx.map fun c => (⟨c.1.1, c.1.2, noiseHeight * noise c.2⟩ : V3)) := by
      cases regular
      · simp only [Bool.false_eq_true, if_false, List.mem_append] at hm
        rcases hm with hm | hm
        · exact hm
        · exfalso; apply hedge
          simp only [roughCorners, List.mem_cons, List.not_mem_nil, or_false] at hm
          rcases hm with rfl | rfl | rfl | rfl <;> simp [OnEdge]
      · simpa using hm
    obtain ⟨c, hc, rfl⟩ := List.mem_map.mp key
    exact ⟨c.2, List.mem_zipIdx_iff_getElem?.mp hc, rfl⟩

theorem roughQuadrant_mem (t nh s : ℝ) (d : ℝ × ℝ → ℝ) (noise : ℕ → ℝ) (cs : List (ℝ × ℝ)) (p : V3) (hp : p ∈ roughQuadrant t nh s d noise cs) :
    (p.x, p.y) ∈ cs ∧ ∃ k, p.z = s * (d (p.x, p.y) * t + nh * noise k) := by
  obtain ⟨c, hc, rfl⟩ := List.mem_map.mp hp
  exact ⟨List.mem_of_getElem? (List.mem_zipIdx_iff_getElem?.mp hc), c.2, rfl⟩

theorem roughQuadrant_xy (t nh s : ℝ) (d : ℝ × ℝ → ℝ) (noise : ℕ → ℝ) (cs : List (ℝ × ℝ)) : (roughQuadrant t nh s d noise cs).map (fun p => (p.x, p.y)) = cs := by
  unfold roughQuadrant
  rw [List.map_map]
  have : ((fun p : V3 => (p.x, p.y)) ∘ fun c : (ℝ × ℝ) × ℕ => (⟨c.1.1, c.1.2, s * (d c.1 * t + nh * noise c.2)⟩ : V3)) = Prod.fst := by funext c; rfl
  rw [this, List.zipIdx_map_fst]

theorem filter_gt {l : List (ℝ × ℝ)} (f g : ℝ × ℝ → ℝ) : (l.filter fun c => decide (f c ≤ g c)) ++ (l.filter fun c => decide (f c > g c)) |>.Perm l := by
  have : (fun c => decide (f c > g c)) = fun c => !(decide (f c ≤ g c)) := by
    funext c
    by_cases h : f c ≤ g c
    · simp [h]
    · simp [h, lt_of_not_ge h]
  rw [this]
  exact List.filter_append_perm _ l

/-- **C66, rough pyramids.** Whatever the random numbers, the points are the chosen coordinates (and the corners, for random coordinates), in some order; points on the edge of the cell have height 0; the height of a
point inside is, up to the sign, `tan(angle)` times its distance from the nearest edge plus `noise` times one of the random numbers. -/
theorem C66_rough_pyramid (size tanα noiseHeight : ℝ) (upright regular : Bool) (coords : List (ℝ × ℝ)) (noise : ℕ → ℕ → ℝ) :
    ((roughPyramids size tanα noiseHeight upright regular coords noise).map (fun p => (p.x, p.y))).Perm (coords ++ if regular then [] else [(0, 0), (0, size), (size, size), (size, 0)]) ∧
    (∀ p ∈ roughPyramids size tanα noiseHeight upright regular coords noise, OnEdge size p → p.z = 0) ∧
    (∀ p ∈ roughPyramids size tanα noiseHeight upright regular coords noise, ¬ OnEdge size p →
      ∃ q k, p.z = (if upright then 1 else -1) * (min (min p.x p.y) (min (size - p.x) (size - p.y)) * tanα + noiseHeight * noise q k)) := by
  refine ⟨?_, fun p hp => (zeroEdges_mem size _ p hp).1, ?_⟩
  · unfold roughPyramids
    simp only
    rw [zeroEdges_xy]
    have key : ∀ (a b c d : List (ℝ × ℝ)) (T B : List (ℝ × ℝ)), (d ++ b).Perm T → (a ++ c).Perm B → (T ++ B).Perm coords → (a ++ b ++ c ++ d).Perm coords := by
      intro a b c d T B h1 h2 h3
      refine List.Perm.trans ?_ ((h1.append h2).trans h3)
      have : (a ++ b ++ c ++ d).Perm (d ++ (a ++ b ++ c)) := List.perm_append_comm
      refine this.trans ?_
      rw [List.append_assoc d b]
      refine List.Perm.append_left d ?_
      rw [List.append_assoc a b c, ← List.append_assoc b a c, ← List.append_assoc a b c]
      exact List.Perm.append_right c List.perm_append_comm
    have hperm := key
      ((coords.filter fun c => decide (c.1 > c.2)).filter fun c => decide (c.2 ≤ -c.1 + size))
      ((coords.filter fun c => decide (c.1 ≤ c.2)).filter fun c => decide (c.2 > -c.1 + size))
      ((coords.filter fun c => decide (c.1 > c.2)).filter fun c => decide (c.2 > -c.1 + size))
      ((coords.filter fun c => decide (c.1 ≤ c.2)).filter fun c => decide (c.2 ≤ -c.1 + size))
      (coords.filter fun c => decide (c.1 ≤ c.2)) (coords.filter fun c => decide (c.1 > c.2))
      (filter_gt (fun c => c.2) (fun c => -c.1 + size)) (filter_gt (fun c => c.2) (fun c => -c.1 + size)) (filter_gt (fun c => c.1) (fun c => c.2))
    cases regular
    · simp only [Bool.false_eq_true, if_false, List.map_append, roughQuadrant_xy]
      exact hperm.append_right _
    · simp only [if_true, List.map_append, roughQuadrant_xy, List.append_nil]
      exact hperm
  · intro p hp hedge
    have hm := (zeroEdges_mem size _ p hp).2 hedge
    have hs : ∀ (l c : List V3), (∀ x ∈ c, OnEdge size x) → p ∈ (if regular then l else l ++ c) → p ∈ l := by
      intro l c hc h
      cases regular
      · simp only [Bool.false_eq_true, if_false, List.mem_append] at h
        exact h.resolve_right fun h' => hedge (hc p h')
      · simpa using h
    have hm := hs _ _ (by
      intro x hx
      simp only [roughCorners, List.mem_cons, List.not_mem_nil, or_false] at hx
      rcases hx with rfl | rfl | rfl | rfl <;> simp [OnEdge]) hm
    simp only [List.mem_append] at hm
    rcases hm with ((hm | hm) | hm) | hm
    · obtain ⟨h1, k, h2⟩ := roughQuadrant_mem _ _ _ _ _ _ p hm
      simp only [List.mem_filter, decide_eq_true_eq] at h1
      refine ⟨0, k, ?_⟩
      rw [h2]
      have : min (min p.x p.y) (min (size - p.x) (size - p.y)) = p.y := by
        rw [min_eq_right (by linarith : p.y ≤ p.x)]
        exact min_eq_left (le_min (by linarith) (by linarith))
      rw [this]
    · obtain ⟨h1, k, h2⟩ := roughQuadrant_mem _ _ _ _ _ _ p hm
      simp only [List.mem_filter, decide_eq_true_eq] at h1
      refine ⟨1, k, ?_⟩
      rw [h2]
      have : min (min p.x p.y) (min (size - p.x) (size - p.y)) = size - p.y := by
        rw [min_eq_right (by linarith : size - p.y ≤ size - p.x)]
        exact min_eq_right (le_min (by linarith) (by linarith))
      rw [this]
    · obtain ⟨h1, k, h2⟩ := roughQuadrant_mem _ _ _ _ _ _ p hm
      simp only [List.mem_filter, decide_eq_true_eq] at h1
      refine ⟨2, k, ?_⟩
      rw [h2]
      have : min (min p.x p.y) (min (size - p.x) (size - p.y)) = size - p.x := by
        rw [min_eq_left (by linarith : size - p.x ≤ size - p.y)]
        exact min_eq_right (le_min (by linarith) (by linarith))
      rw [this]
    · obtain ⟨h1, k, h2⟩ := roughQuadrant_mem _ _ _ _ _ _ p hm
      simp only [List.mem_filter, decide_eq_true_eq] at h1
      refine ⟨3, k, ?_⟩
      rw [h2]
      have : min (min p.x p.y) (min (size - p.x) (size - p.y)) = p.x := by
        rw [min_eq_left (by linarith : p.x ≤ p.y)]
        exact min_eq_left (le_min (by linarith) (by linarith))
      rw [this]

/-- On a regular grid of at least 2 × 2 points the corners of the unit cell are grid points, so the mesh covers the unit cell. -/
theorem C66_grid_corners (size : ℝ) (n : ℕ) (hn : 2 ≤ n) : ∀ q, ((cellCorner size q).x, (cellCorner size q).y) ∈ roughGrid size n := by
  have h0 : (0 : ℝ) ∈ linspace 0 size n := by
    unfold linspace
    exact List.mem_map.mpr ⟨0, List.mem_range.mpr (by omega), by simp⟩
  have h1 : size ∈ linspace 0 size n := by
    unfold linspace
    refine List.mem_map.mpr ⟨n - 1, List.mem_range.mpr (by omega), ?_⟩
    have : ((n - 1 : ℕ) : ℝ) ≠ 0 := by
      have : 0 < n - 1 := by omega
      exact_mod_cast this.ne'
    field_simp
    ring
  have key : ∀ a b, a ∈ linspace 0 size n → b ∈ linspace 0 size n → (a, b) ∈ roughGrid size n := by
    intro a b ha hb
    unfold roughGrid meshPairs
    exact List.mem_flatMap.mpr ⟨b, hb, List.mem_map.mpr ⟨a, ha, rfl⟩⟩
  intro q
  fin_cases q
  · exact key _ _ h0 h0
  · exact key _ _ h1 h0
  · exact key _ _ h1 h1
  · exact key _ _ h0 h1

/-- The statements are not empty: a point on the edge and a point inside. -/
example : (⟨0, 1, 0⟩ : V3) ∈ roughPlanar 2 1 true [(0, 1), (1, 1)] (fun _ => 5) ∧ (⟨1, 1, 5⟩ : V3) ∈ roughPlanar 2 1 true [(0, 1), (1, 1)] (fun _ => 5) := by
  classical
  unfold roughPlanar
  simp only [if_true]
  rw [zeroEdges_eq]
  constructor
  · exact List.mem_map.mpr ⟨⟨0, 1, 1 * 5⟩, by simp [List.zipIdx], by simp [OnEdge]⟩
  · exact List.mem_map.mpr ⟨⟨1, 1, 1 * 5⟩, by simp [List.zipIdx], by norm_num [OnEdge]⟩

/-! ## C97 -/

/-- A point on the upper part of the ellipsoid of which `hemisphere_surface` takes the cap: horizontal half axis `radius`, centre under the middle of the cell, `stretch·offset` below the plane. -/
def OnCap (size radius offset stretch : ℝ) (p : V3) : Prop :=
  0 < p.z ∧ (p.x - size / 2) ^ 2 + (p.y - size / 2) ^ 2 + (p.z / stretch + offset) ^ 2 = radius ^ 2

theorem hemisphereHeight_cap (size radius offset stretch nh rnd x y h : ℝ) (hr : 0 < radius) (ho : 0 ≤ offset) (hs : 0 < stretch)
    (hc : x ^ 2 + y ^ 2 < radius ^ 2 - offset ^ 2) (hh : hemisphereHeight size radius offset stretch nh rnd (x, y) = some h) :
    0 < h ∧ x ^ 2 + y ^ 2 + (h / stretch + offset) ^ 2 = radius ^ 2 := by
  unfold hemisphereHeight at hh
  simp only at hh
  rw [if_pos hc, Option.some.injEq] at hh
  have hd : 0 ≤ x ^ 2 + y ^ 2 := by positivity
  have hcos : radius * Real.cos (Real.arcsin (√(x ^ 2 + y ^ 2) / radius)) = √(radius ^ 2 - (x ^ 2 + y ^ 2)) := by
    rw [Real.cos_arcsin, div_pow, Real.sq_sqrt hd]
    have : radius ^ 2 - (x ^ 2 + y ^ 2) = radius ^ 2 * (1 - (x ^ 2 + y ^ 2) / radius ^ 2) := by field_simp
    rw [this, Real.sqrt_mul (by positivity), Real.sqrt_sq hr.le]
  rw [hcos] at hh
  have hlt : offset < √(radius ^ 2 - (x ^ 2 + y ^ 2)) := by
    rw [Real.lt_sqrt ho]
    linarith
  have hq : h / stretch + offset = √(radius ^ 2 - (x ^ 2 + y ^ 2)) := by
    rw [← hh]; field_simp; ring
  refine ⟨by rw [← hh]; exact mul_pos hs (by linarith), ?_⟩
  rw [hq, Real.sq_sqrt (by nlinarith)]
  ring

/-- A point seen from the side the cap is on: a cap that points downwards (`upright=False`) is turned over. -/
def capSide (upright : Bool) (p : V3) : V3 := ⟨p.x, p.y, if upright then p.z else -p.z⟩

/-- **C97, what holds.** Every point of `hemisphere_surface`, pointing upwards or downwards, is on the cap or belongs to the surroundings of the cap, where its height is between 0 and the height of the roughness. If the cap fits
into the unit cell all points are inside the unit cell, and those on its edges have height 0, so that neighbouring cells join. -/
theorem C97_hemisphere_partial (size : ℝ) (n : ℕ) (radius offset stretch noiseHeight : ℝ) (upright : Bool) (rnd : ℕ → ℝ) (hr : 0 < radius) (ho : 0 ≤ offset) (hor : offset ≤ radius) (hs : 0 < stretch) (hsize : 0 < size)
    (hn : 2 ≤ n) (hnh : 0 ≤ noiseHeight) (hrnd : ∀ k, 0 ≤ rnd k ∧ rnd k < 1)
    (pts : List V3) (h : hemispherePoints size n radius offset stretch noiseHeight upright rnd = some pts) :
    (∀ p ∈ pts, OnCap size radius offset stretch (capSide upright p) ∨
      (radius ^ 2 - offset ^ 2 ≤ (p.x - size / 2) ^ 2 + (p.y - size / 2) ^ 2 ∧ 0 ≤ (capSide upright p).z ∧ (capSide upright p).z ≤ noiseHeight)) ∧
    (√(radius ^ 2 - offset ^ 2) ≤ size / 2 → ∀ p ∈ pts, (0 ≤ p.x ∧ p.x ≤ size ∧ 0 ≤ p.y ∧ p.y ≤ size) ∧ (OnEdge size p → p.z = 0)) := by
  unfold hemispherePoints at h
  rw [if_neg (by linarith)] at h
  simp only [Option.some.injEq] at h
  subst h
  have hlin : ∀ a ∈ linspace (-size / 2) (size / 2) n, -(size / 2) ≤ a ∧ a ≤ size / 2 := by
    intro a ha
    unfold linspace at ha
    obtain ⟨i, hi, rfl⟩ := List.mem_map.mp ha
    have hi' : i ≤ n - 1 := by have := List.mem_range.mp hi; omega
    have hn1 : (0 : ℝ) < ((n - 1 : ℕ) : ℝ) := by
      have : 0 < n - 1 := by omega
      exact_mod_cast this
    have hle : (i : ℝ) ≤ ((n - 1 : ℕ) : ℝ) := by exact_mod_cast hi'
    have hstep : (i : ℝ) * ((size / 2 - -size / 2) / ((n - 1 : ℕ) : ℝ)) = (i : ℝ) / ((n - 1 : ℕ) : ℝ) * size := by field_simp; ring
    have hq : (i : ℝ) / ((n - 1 : ℕ) : ℝ) ≤ 1 := (div_le_one hn1).mpr hle
    have hq0 : 0 ≤ (i : ℝ) / ((n - 1 : ℕ) : ℝ) := by positivity
    rw [hstep]
    constructor <;> nlinarith
  -- points of the grid, before they are moved and turned over
  have grid : ∀ p ∈ ((meshPairs (linspace (-size / 2) (size / 2) n) (linspace (-size / 2) (size / 2) n)).zipIdx.filterMap fun c =>
      (hemisphereHeight size radius offset stretch noiseHeight (rnd c.2) c.1).map fun h => (⟨c.1.1, c.1.2, h⟩ : V3)),
      ((p.x ^ 2 + p.y ^ 2 < radius ^ 2 - offset ^ 2 ∧ OnCap size radius offset stretch ⟨p.x + size / 2, p.y + size / 2, p.z⟩) ∨
        (radius ^ 2 - offset ^ 2 ≤ p.x ^ 2 + p.y ^ 2 ∧ 0 ≤ p.z ∧ p.z ≤ noiseHeight ∧ (p.x = -size / 2 ∨ p.x = size / 2 ∨ p.y = -size / 2 ∨ p.y = size / 2 → p.z = 0))) ∧
      (-(size / 2) ≤ p.x ∧ p.x ≤ size / 2) ∧ (-(size / 2) ≤ p.y ∧ p.y ≤ size / 2) := by
    intro p hp
    obtain ⟨c, hc, hcp⟩ := List.mem_filterMap.mp hp
    rw [Option.map_eq_some_iff] at hcp
    obtain ⟨h, hh, rfl⟩ := hcp
    have hmem := List.mem_of_getElem? (List.mem_zipIdx_iff_getElem?.mp hc)
    unfold meshPairs at hmem
    obtain ⟨b, hb, hmem⟩ := List.mem_flatMap.mp hmem
    obtain ⟨a, ha, hab⟩ := List.mem_map.mp hmem
    refine ⟨?_, by rw [← hab]; exact hlin a ha, by rw [← hab]; exact hlin b hb⟩
    by_cases hcap : c.1.1 ^ 2 + c.1.2 ^ 2 < radius ^ 2 - offset ^ 2
    · left
      obtain ⟨k1, k2⟩ := hemisphereHeight_cap size radius offset stretch noiseHeight (rnd c.2) c.1.1 c.1.2 h hr ho hs hcap hh
      refine ⟨hcap, k1, ?_⟩
      simp only [add_sub_cancel_right]
      exact k2
    · right
      unfold hemisphereHeight at hh
      rw [if_neg hcap] at hh
      refine ⟨not_lt.mp hcap, ?_⟩
      split_ifs at hh with h2 h3
      · obtain rfl := Option.some.inj hh
        exact ⟨le_refl _, hnh, fun _ => rfl⟩
      · obtain rfl := Option.some.inj hh
        have := hrnd c.2
        refine ⟨by simp only; nlinarith, by simp only; nlinarith, fun h => absurd h h2⟩
  -- all points before they are moved and turned over
  have all : ∀ p ∈ (if noiseHeight = 0 then (((meshPairs (linspace (-size / 2) (size / 2) n) (linspace (-size / 2) (size / 2) n)).zipIdx.filterMap fun c =>
      (hemisphereHeight size radius offset stretch noiseHeight (rnd c.2) c.1).map fun h => (⟨c.1.1, c.1.2, h⟩ : V3)).filter fun p => decide (p.z ≥ 0)) ++
        (linspace 0 (2 * π) (5 * n)).map fun a => (⟨√(radius ^ 2 - offset ^ 2) * Real.cos a, √(radius ^ 2 - offset ^ 2) * Real.sin a, 0⟩ : V3) else
      ((meshPairs (linspace (-size / 2) (size / 2) n) (linspace (-size / 2) (size / 2) n)).zipIdx.filterMap fun c =>
      (hemisphereHeight size radius offset stretch noiseHeight (rnd c.2) c.1).map fun h => (⟨c.1.1, c.1.2, h⟩ : V3)).filter fun p => decide (p.z ≥ 0)),
      (∃ a, p = ⟨√(radius ^ 2 - offset ^ 2) * Real.cos a, √(radius ^ 2 - offset ^ 2) * Real.sin a, 0⟩) ∨
      p ∈ ((meshPairs (linspace (-size / 2) (size / 2) n) (linspace (-size / 2) (size / 2) n)).zipIdx.filterMap fun c =>
      (hemisphereHeight size radius offset stretch noiseHeight (rnd c.2) c.1).map fun h => (⟨c.1.1, c.1.2, h⟩ : V3)) := by
    intro p hp
    split_ifs at hp
    · rcases List.mem_append.mp hp with hq | hq
      · exact Or.inr (List.mem_filter.mp hq).1
      · obtain ⟨a, -, rfl⟩ := List.mem_map.mp hq
        exact Or.inl ⟨a, rfl⟩
    · exact Or.inr (List.mem_filter.mp hp).1
  have side : ∀ q : V3, (capSide upright ⟨q.x + size / 2, q.y + size / 2, if upright then q.z else -q.z⟩) = ⟨q.x + size / 2, q.y + size / 2, q.z⟩ := by
    intro q
    cases upright <;> simp [capSide]
  constructor
  · intro p hp
    obtain ⟨q, hq, rfl⟩ := List.mem_map.mp hp
    rcases all q hq with ⟨a, rfl⟩ | hq
    · right
      have hp : 0 ≤ radius ^ 2 - offset ^ 2 := by nlinarith
      refine ⟨?_, by cases upright <;> simp [capSide], by cases upright <;> simpa [capSide] using hnh⟩
      simp only [add_sub_cancel_right, mul_pow, Real.sq_sqrt hp]
      rw [← mul_add, Real.cos_sq_add_sin_sq, mul_one]
    · rw [side]
      rcases (grid q hq).1 with ⟨-, hc⟩ | ⟨h1, h2, h3, -⟩
      · exact Or.inl hc
      · exact Or.inr ⟨by simpa using h1, h2, h3⟩
  · intro hfit p hp
    obtain ⟨q, hq, rfl⟩ := List.mem_map.mp hp
    have hr0 : 0 ≤ √(radius ^ 2 - offset ^ 2) := Real.sqrt_nonneg _
    rcases all q hq with ⟨a, rfl⟩ | hq
    · have c1 := Real.cos_le_one a
      have c2 := Real.neg_one_le_cos a
      have s1 := Real.sin_le_one a
      have s2 := Real.neg_one_le_sin a
      refine ⟨⟨by simp only; nlinarith, by simp only; nlinarith, by simp only; nlinarith, by simp only; nlinarith⟩, fun _ => ?_⟩
      cases upright <;> simp
    · obtain ⟨hg, ⟨h1, h2⟩, h3, h4⟩ := grid q hq
      refine ⟨⟨by simp only; linarith, by simp only; linarith, by simp only; linarith, by simp only; linarith⟩, fun he => ?_⟩
      have he' : q.x = -size / 2 ∨ q.x = size / 2 ∨ q.y = -size / 2 ∨ q.y = size / 2 := by
        unfold OnEdge at he
        simp only at he
        rcases he with he | he | he | he
        · left; linarith
        · right; left; linarith
        · right; right; left; linarith
        · right; right; right; linarith
      rcases hg with ⟨hc, -⟩ | ⟨-, -, -, hz⟩
      · exfalso
        have hpos : 0 ≤ radius ^ 2 - offset ^ 2 := le_trans (by positivity) hc.le
        have hsq : radius ^ 2 - offset ^ 2 ≤ (size / 2) ^ 2 := by
          have := mul_self_le_mul_self hr0 hfit
          rw [Real.mul_self_sqrt hpos] at this
          linarith [sq (size / 2)]
        rcases he' with he | he | he | he <;> nlinarith [sq_nonneg q.x, sq_nonneg q.y]
      · have := hz he'
        cases upright <;> simp [this]

/-- The default arguments (`radius = size/2`, no offset) meet the hypotheses. -/
example (upright : Bool) : ∃ pts, hemispherePoints 1 20 (1 / 2) 0 1 0 upright (fun _ => 0) = some pts ∧ √((1 / 2 : ℝ) ^ 2 - 0 ^ 2) ≤ 1 / 2 := by
  refine ⟨_, by unfold hemispherePoints; rw [if_neg (lt_irrefl _)], ?_⟩
  rw [zero_pow two_ne_zero, sub_zero, Real.sqrt_sq (by norm_num)]

/-- **C97 fails** for a cap that does not fit: points outside the unit cell are generated (no error), so the mesh is larger than the requested `size`. -/
theorem C97_hemisphere_fails (size : ℝ) (n : ℕ) (radius offset stretch : ℝ) (rnd : ℕ → ℝ) (ho : 0 ≤ offset) (hbig : size / 2 < √(radius ^ 2 - offset ^ 2)) (hn : 1 ≤ n) :
    ∃ pts, hemispherePoints size n radius offset stretch 0 true rnd = some pts ∧ ∃ p ∈ pts, size < p.x := by
  unfold hemispherePoints
  rw [if_neg (by linarith)]
  simp only [if_true]
  refine ⟨_, rfl, ?_⟩
  refine ⟨⟨√(radius ^ 2 - offset ^ 2) * Real.cos 0 + size / 2, √(radius ^ 2 - offset ^ 2) * Real.sin 0 + size / 2, 0⟩, ?_, ?_⟩
  · refine List.mem_map.mpr ⟨⟨√(radius ^ 2 - offset ^ 2) * Real.cos 0, √(radius ^ 2 - offset ^ 2) * Real.sin 0, 0⟩, ?_, rfl⟩
    refine List.mem_append_right _ (List.mem_map.mpr ⟨0, ?_, rfl⟩)
    unfold linspace
    exact List.mem_map.mpr ⟨0, List.mem_range.mpr (by omega), by simp⟩
  · simp only [Real.cos_zero, mul_one]
    linarith

/-- Such caps exist. -/
example : (1 : ℝ) / 2 < √(1 ^ 2 - 0 ^ 2) := by norm_num

end Rayflare
