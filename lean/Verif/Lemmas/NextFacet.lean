import Verif.Spec.NextFacet
import Verif.Props.Wander

/-!
# Lemmas for C181
-/

namespace Rayflare.Lemmas

open Rayflare.Model Rayflare.Spec

variable {Lx Ly lo hi : ℝ} {tris : List Tri} {r d : V3}

theorem fromCell_add (m n : ℤ) (T t : ℝ) : fromCell Lx Ly m n (r + T • d) + t • d = fromCell Lx Ly m n (r + (T + t) • d) := by
  ext <;> simp [fromCell] <;> ring

theorem fromCell_zero (p : V3) : fromCell Lx Ly 0 0 p = p := by
  ext <;> simp [fromCell]

/-- Seen from a cell, a point is within the tolerance of the cell. -/
def Nearly (Lx Ly : ℝ) (p : V3) : Prop :=
  -(2 / 10 ^ 10 * Lx) ≤ p.x ∧ p.x ≤ Lx + 2 / 10 ^ 10 * Lx ∧ -(2 / 10 ^ 10 * Ly) ≤ p.y ∧ p.y ≤ Ly + 2 / 10 ^ 10 * Ly

theorem InCell.nearly (hLx : 0 < Lx) (hLy : 0 < Ly) {p : V3} (h : InCell Lx Ly p) : Nearly Lx Ly p := by
  obtain ⟨h1, h2, h3, h4⟩ := h
  refine ⟨?_, ?_, ?_, ?_⟩ <;> norm_num <;> linarith

theorem weight_range {ε L u v a b c : ℝ} (hε : 0 ≤ ε) (hu : -ε ≤ u) (hv : -ε ≤ v) (huv : u + v ≤ 1) (ha : 0 ≤ a ∧ a ≤ L) (hb : 0 ≤ b ∧ b ≤ L) (hc : 0 ≤ c ∧ c ≤ L) :
    -(2 * ε * L) ≤ a + u * (b - a) + v * (c - a) ∧ a + u * (b - a) + v * (c - a) ≤ L + 2 * ε * L := by
  have key : ∀ x y z : ℝ, 0 ≤ x ∧ x ≤ L → 0 ≤ y ∧ y ≤ L → 0 ≤ z ∧ z ≤ L → -(2 * ε * L) ≤ x + u * (y - x) + v * (z - x) := by
    intro x y z hx hy hz
    have h1 : 0 ≤ (1 - u - v) * x := mul_nonneg (by linarith) hx.1
    have h2 : 0 ≤ (u + ε) * y := mul_nonneg (by linarith) hy.1
    have h3 : 0 ≤ (v + ε) * z := mul_nonneg (by linarith) hz.1
    have h4 : ε * y ≤ ε * L := mul_le_mul_of_nonneg_left hy.2 hε
    have h5 : ε * z ≤ ε * L := mul_le_mul_of_nonneg_left hz.2 hε
    nlinarith
  refine ⟨key a b c ha hb hc, ?_⟩
  have := key (L - a) (L - b) (L - c) ⟨by linarith, by linarith⟩ ⟨by linarith, by linarith⟩ ⟨by linarith, by linarith⟩
  nlinarith

theorem InTri.nearly (hover : OverCell Lx Ly lo hi tris) {τ : Tri} (hτ : τ ∈ tris) {p : V3} (h : InTri (1 / 10 ^ 10) τ p) : Nearly Lx Ly p := by
  obtain ⟨u, v, hu, hv, huv, rfl⟩ := h
  obtain ⟨⟨a1, a2, a3, a4⟩, -⟩ := hover τ hτ τ.P0 (Or.inl rfl)
  obtain ⟨⟨b1, b2, b3, b4⟩, -⟩ := hover τ hτ τ.P1 (Or.inr (Or.inl rfl))
  obtain ⟨⟨c1, c2, c3, c4⟩, -⟩ := hover τ hτ τ.P2 (Or.inr (Or.inr rfl))
  obtain ⟨x1, x2⟩ := weight_range (by norm_num) hu hv huv ⟨a1, a2⟩ ⟨b1, b2⟩ ⟨c1, c2⟩
  obtain ⟨y1, y2⟩ := weight_range (by norm_num) hu hv huv ⟨a3, a4⟩ ⟨b3, b4⟩ ⟨c3, c4⟩
  refine ⟨?_, ?_, ?_, ?_⟩ <;> simp only [V3.add_x, V3.add_y, V3.smul_x, V3.smul_y, V3.sub_x, V3.sub_y] <;> linarith

theorem InTri.height (hover : OverCell Lx Ly lo hi tris) {τ : Tri} (hτ : τ ∈ tris) {p : V3} (h : InTri 0 τ p) : lo ≤ p.z ∧ p.z ≤ hi := by
  obtain ⟨u, v, hu, hv, huv, rfl⟩ := h
  obtain ⟨-, a1, a2⟩ := hover τ hτ τ.P0 (Or.inl rfl)
  obtain ⟨-, b1, b2⟩ := hover τ hτ τ.P1 (Or.inr (Or.inl rfl))
  obtain ⟨-, c1, c2⟩ := hover τ hτ τ.P2 (Or.inr (Or.inr rfl))
  have hu' : 0 ≤ u := by linarith
  have hv' : 0 ≤ v := by linarith
  have hw : 0 ≤ 1 - u - v := by linarith
  simp only [V3.add_z, V3.smul_z, V3.sub_z]
  constructor
  · have h1 := mul_nonneg hw (sub_nonneg.mpr a1)
    have h2 := mul_nonneg hu' (sub_nonneg.mpr b1)
    have h3 := mul_nonneg hv' (sub_nonneg.mpr c1)
    nlinarith
  · have h1 := mul_nonneg hw (sub_nonneg.mpr a2)
    have h2 := mul_nonneg hu' (sub_nonneg.mpr b2)
    have h3 := mul_nonneg hv' (sub_nonneg.mpr c2)
    nlinarith

theorem int_eq_of_near {L x : ℝ} (hL : 0 < L) {m m' : ℤ} (h1 : 2 / 10 ^ 10 * L < x - m * L) (h2 : x - m * L < L - 2 / 10 ^ 10 * L) (h3 : -(2 / 10 ^ 10 * L) ≤ x - m' * L)
    (h4 : x - m' * L ≤ L + 2 / 10 ^ 10 * L) : m = m' := by
  have e1 : ((m : ℝ) - m') * L < 1 * L := by linarith
  have e2 : (-1) * L < ((m : ℝ) - m') * L := by linarith
  have f1 := lt_of_mul_lt_mul_right e1 hL.le
  have f2 := lt_of_mul_lt_mul_right e2 hL.le
  have g1 : m - m' < 1 := by exact_mod_cast f1
  have g2 : -1 < m - m' := by exact_mod_cast f2
  omega

/-- Only one cell can contain a point well inside. -/
theorem cell_unique (hLx : 0 < Lx) (hLy : 0 < Ly) {m n m' n' : ℤ} {p : V3} (h : WellInside Lx Ly (fromCell Lx Ly m n p)) (h' : Nearly Lx Ly (fromCell Lx Ly m' n' p)) : m = m' ∧ n = n' := by
  obtain ⟨a1, a2, a3, a4⟩ := h
  obtain ⟨b1, b2, b3, b4⟩ := h'
  exact ⟨int_eq_of_near hLx a1 a2 b1 b2, int_eq_of_near hLy a3 a4 b3 b4⟩

theorem between {a v T t u lo hi : ℝ} (h1 : T ≤ t) (h2 : t ≤ u) (hT : lo ≤ a + T * v ∧ a + T * v ≤ hi) (hu : lo ≤ a + u * v ∧ a + u * v ≤ hi) : lo ≤ a + t * v ∧ a + t * v ≤ hi := by
  rcases le_total 0 v with hv | hv
  · have k1 := mul_le_mul_of_nonneg_right h1 hv
    have k2 := mul_le_mul_of_nonneg_right h2 hv
    constructor <;> linarith
  · have k1 := mul_le_mul_of_nonpos_right h1 hv
    have k2 := mul_le_mul_of_nonpos_right h2 hv
    constructor <;> linarith

theorem nearly_between {m n : ℤ} {T t u : ℝ} (h1 : T ≤ t) (h2 : t ≤ u) (hT : Nearly Lx Ly (fromCell Lx Ly m n (r + T • d))) (hu : Nearly Lx Ly (fromCell Lx Ly m n (r + u • d))) :
    Nearly Lx Ly (fromCell Lx Ly m n (r + t • d)) := by
  obtain ⟨a1, a2, a3, a4⟩ := hT
  obtain ⟨b1, b2, b3, b4⟩ := hu
  simp only [fromCell, V3.add_x, V3.add_y, V3.smul_x, V3.smul_y] at a1 a2 a3 a4 b1 b2 b3 b4
  have hx := between (a := r.x - m * Lx) (v := d.x) h1 h2 (lo := -(2 / 10 ^ 10 * Lx)) (hi := Lx + 2 / 10 ^ 10 * Lx) ⟨by linarith, by linarith⟩ ⟨by linarith, by linarith⟩
  have hy := between (a := r.y - n * Ly) (v := d.y) h1 h2 (lo := -(2 / 10 ^ 10 * Ly)) (hi := Ly + 2 / 10 ^ 10 * Ly) ⟨by linarith, by linarith⟩ ⟨by linarith, by linarith⟩
  refine ⟨?_, ?_, ?_, ?_⟩ <;> simp only [fromCell, V3.add_x, V3.add_y, V3.smul_x, V3.smul_y] <;> linarith [hx.1, hx.2, hy.1, hy.2]

/-- The position `q` is on the way of the ray from `r`, at parameter `T`, seen from the cell in which it now is; no facet was met so far. -/
def OnWay (Lx Ly : ℝ) (tris : List Tri) (r d : V3) (q : V3) : Prop :=
  ∃ (m n : ℤ) (T : ℝ), 0 ≤ T ∧ q = fromCell Lx Ly m n (r + T • d) ∧ InCellInward Lx Ly q d ∧ ∀ t ≤ T, ¬ MeetsAt Lx Ly tris r d t

theorem onWay_start (hr : StrictlyInside Lx Ly r) : OnWay Lx Ly tris r d r := by
  obtain ⟨h1, h2, h3, h4⟩ := hr
  refine ⟨0, 0, 0, le_rfl, ?_, ⟨⟨h1.le, h2.le, h3.le, h4.le⟩, fun _ => h2, fun _ => h1, fun _ => h4, fun _ => h3⟩, ?_⟩
  · rw [fromCell_zero]; ext <;> simp
  · rintro t ht ⟨m, n, h, -⟩
    exact absurd h (not_lt.mpr ht)

/-- A test in a cell that finds nothing: no facet is met in this cell from there on. -/
theorem none_in_cell {m n : ℤ} {T : ℝ} (h : checkIntersect (fromCell Lx Ly m n (r + T • d)) d tris = none) {t : ℝ} (ht : T < t) : ¬ MeetsIn Lx Ly tris r d t m n := by
  rintro ⟨-, -, τ, hτ, hp, hin⟩
  have := C45_complete _ _ _ h τ hτ hp (t - T) (by linarith)
  rw [fromCell_add] at this
  apply this
  rwa [show T + (t - T) = t by ring]

/-- The lattice vector of a translation. -/
theorem translation_cell (i : ℕ) : ∃ a b : ℤ, ∀ m n : ℤ, ∀ p : V3, fromCell Lx Ly m n p + translation Lx Ly i = fromCell Lx Ly (m + a) (n + b) p := by
  rcases i with _ | _ | _ | i
  · exact ⟨0, 1, fun m n p => by ext <;> simp [fromCell, translation]; ring⟩
  · exact ⟨1, 0, fun m n p => by ext <;> simp [fromCell, translation]; ring⟩
  · exact ⟨0, -1, fun m n p => by ext <;> simp [fromCell, translation]; ring⟩
  · exact ⟨-1, 0, fun m n p => by ext <;> simp [fromCell, translation]; ring⟩

/-- Going on to the next cell. -/
theorem onWay_exit (hLx : 0 < Lx) (hLy : 0 < Ly) (hcorner : MissesCorners Lx Ly r d) (hd : d.x ≠ 0 ∨ d.y ≠ 0) {q : V3} (hq : OnWay Lx Ly tris r d q) (hnone : checkIntersect q d tris = none) :
    ∃ t, (exitSide q d Lx Ly).2 = some t ∧ 0 < t ∧ OnWay Lx Ly tris r d (q + t • d + translation Lx Ly (exitSide q d Lx Ly).1) := by
  obtain ⟨m, n, T, hT, rfl, hin, hno⟩ := hq
  obtain ⟨i, t, he, ht, hstay, hcell, hside⟩ := C46_exit Lx Ly _ d hin hd
  rw [he]
  refine ⟨t, rfl, ht, ?_⟩
  simp only
  obtain ⟨a, b, hab⟩ := translation_cell (Lx := Lx) (Ly := Ly) i
  rw [fromCell_add, hab] at hcell hside ⊢
  simp only [fromCell_add] at hstay
  refine ⟨m + a, n + b, T + t, by linarith, rfl, ?_, ?_⟩
  · have hc := hcorner (T + t) (by linarith)
    set p := r + (T + t) • d with hp
    simp only [fromCell, InCell, InCellInward] at hcell hside ⊢
    push_cast at hcell hside ⊢
    obtain ⟨c1, c2, c3, c4⟩ := hcell
    have hx : (p.y - ((n : ℝ) + b) * Ly = 0 ∨ p.y - ((n : ℝ) + b) * Ly = Ly) → p.x - ((m : ℝ) + a) * Lx ≠ Lx ∧ p.x - ((m : ℝ) + a) * Lx ≠ 0 := by
      rintro (hy | hy)
      · refine ⟨fun hx => ?_, fun hx => ?_⟩
        · exact hc (m + a + 1) (n + b) ⟨by push_cast; linarith, by push_cast; linarith⟩
        · exact hc (m + a) (n + b) ⟨by push_cast; linarith, by push_cast; linarith⟩
      · refine ⟨fun hx => ?_, fun hx => ?_⟩
        · exact hc (m + a + 1) (n + b + 1) ⟨by push_cast; linarith, by push_cast; linarith⟩
        · exact hc (m + a) (n + b + 1) ⟨by push_cast; linarith, by push_cast; linarith⟩
    have hy : (p.x - ((m : ℝ) + a) * Lx = 0 ∨ p.x - ((m : ℝ) + a) * Lx = Lx) → p.y - ((n : ℝ) + b) * Ly ≠ Ly ∧ p.y - ((n : ℝ) + b) * Ly ≠ 0 := by
      rintro h
      refine ⟨fun hy => ?_, fun hy => ?_⟩
      · rcases h with h | h
        · exact (hx (Or.inr hy)).2 h
        · exact (hx (Or.inr hy)).1 h
      · rcases h with h | h
        · exact (hx (Or.inl hy)).2 h
        · exact (hx (Or.inl hy)).1 h
    refine ⟨⟨c1, c2, c3, c4⟩, ?_⟩
    rcases hside with ⟨-, hs, -, h0⟩ | ⟨-, hs, -, h0⟩ | ⟨-, hs, -, h0⟩ | ⟨-, hs, -, h0⟩
    · obtain ⟨k1, k2⟩ := hx (Or.inl h0)
      exact ⟨fun _ => lt_of_le_of_ne c2 k1, fun _ => lt_of_le_of_ne c1 (Ne.symm k2), fun _ => by linarith, fun h => by linarith⟩
    · obtain ⟨k1, k2⟩ := hy (Or.inl h0)
      exact ⟨fun _ => by linarith, fun h => by linarith, fun _ => lt_of_le_of_ne c4 k1, fun _ => lt_of_le_of_ne c3 (Ne.symm k2)⟩
    · obtain ⟨k1, k2⟩ := hx (Or.inr h0)
      exact ⟨fun _ => lt_of_le_of_ne c2 k1, fun _ => lt_of_le_of_ne c1 (Ne.symm k2), fun h => by linarith, fun h => by linarith⟩
    · obtain ⟨k1, k2⟩ := hy (Or.inr h0)
      exact ⟨fun h => by linarith, fun h => by linarith, fun _ => lt_of_le_of_ne c4 k1, fun _ => lt_of_le_of_ne c3 (Ne.symm k2)⟩
  · rintro u hu ⟨m', n', hm⟩
    by_cases huT : u ≤ T
    · exact hno u huT ⟨m', n', hm⟩
    · push Not at huT
      have hcell' := hstay (u - T) (by linarith) (by linarith)
      rw [show T + (u - T) = u by ring] at hcell'
      obtain ⟨rfl, rfl⟩ := cell_unique hLx hLy hm.2.1 (InCell.nearly hLx hLy hcell')
      exact none_in_cell hnone huT hm

/-- A facet found from a position on the way is the first one in the way. -/
theorem onWay_found (hLx : 0 < Lx) (hLy : 0 < Ly) (hover : OverCell Lx Ly lo hi tris) {q p N : V3} {θ : ℝ} (hq : OnWay Lx Ly tris r d q) (hsome : checkIntersect q d tris = some (p, θ, N)) :
    FirstFacet Lx Ly tris r d p N := by
  obtain ⟨m, n, T, hT, rfl, hin, hno⟩ := hq
  obtain ⟨τ, hτ, t, ht, hp, htri, hN, -, hnear⟩ := C45_sound_nearest _ _ _ _ _ _ hsome
  rw [fromCell_add] at hp
  refine ⟨T + t, by linarith, ⟨m, n, hp⟩, ⟨τ, hτ, htri, hN⟩, ?_⟩
  rintro u ⟨m', n', hm⟩
  by_contra hlt
  push Not at hlt
  by_cases huT : u ≤ T
  · exact hno u huT ⟨m', n', hm⟩
  · push Not at huT
    have hnear' := nearly_between (m := m) (n := n) (r := r) (d := d) huT.le hlt.le (InCell.nearly hLx hLy hin.1) (by rw [← hp]; exact InTri.nearly hover hτ htri)
    obtain ⟨rfl, rfl⟩ := cell_unique hLx hLy hm.2.1 hnear'
    obtain ⟨-, -, τ', hτ', hpar, hin'⟩ := hm
    have := hnear τ' hτ' hpar (u - T) (by linarith) (by rw [fromCell_add, show T + (u - T) = u by ring]; exact hin')
    linarith

/-- The first cell, and the test from the same position in the neighbouring cell. -/
theorem neighbour_found (hLx : 0 < Lx) (hLy : 0 < Ly) (hover : OverCell Lx Ly lo hi tris) (hcorner : MissesCorners Lx Ly r d) (hd : d.x ≠ 0 ∨ d.y ≠ 0) (hr : StrictlyInside Lx Ly r)
    (hnone : checkIntersect r d tris = none) {p N : V3} {θ : ℝ} (hsome : checkIntersect (r + translation Lx Ly (exitSide r d Lx Ly).1) d tris = some (p, θ, N)) :
    FirstFacet Lx Ly tris r d p N := by
  obtain ⟨t0, he, ht0, m, n, T, hT, hq, hin, hno⟩ := onWay_exit hLx hLy hcorner hd (onWay_start (tris := tris) (d := d) hr) hnone
  obtain ⟨a, b, hab⟩ := translation_cell (Lx := Lx) (Ly := Ly) (exitSide r d Lx Ly).1
  have e0 : r + translation Lx Ly (exitSide r d Lx Ly).1 = fromCell Lx Ly a b (r + (0 : ℝ) • d) := by
    rw [show r + (0 : ℝ) • d = r by ext <;> simp, ← zero_add a, ← zero_add b, ← hab, fromCell_zero]
  have e1 : r + t0 • d + translation Lx Ly (exitSide r d Lx Ly).1 = fromCell Lx Ly a b (r + t0 • d) := by
    rw [← zero_add a, ← zero_add b, ← hab, fromCell_zero]
  rw [e0] at hsome
  obtain ⟨τ, hτ, t, ht, hp, htri, hN, -, hnear⟩ := C45_sound_nearest _ _ _ _ _ _ hsome
  rw [fromCell_add, zero_add] at hp
  refine ⟨t, ht, ⟨a, b, hp⟩, ⟨τ, hτ, htri, hN⟩, ?_⟩
  rintro u ⟨m', n', hm⟩
  by_contra hlt
  push Not at hlt
  -- the parameter `T` of the way is `t0`
  have hback : ∀ u, u ≤ t0 → ¬ MeetsAt Lx Ly tris r d u := by
    obtain ⟨i, t1, he', ht1, hstay, -, -⟩ := C46_exit Lx Ly r d (by obtain ⟨h1, h2, h3, h4⟩ := hr; exact ⟨⟨h1.le, h2.le, h3.le, h4.le⟩, fun _ => h2, fun _ => h1, fun _ => h4, fun _ => h3⟩) hd
    rw [he'] at he
    cases he
    rintro u hu ⟨m'', n'', hm''⟩
    have hc := hstay u hm''.1.le hu
    have hz := fromCell_zero (Lx := Lx) (Ly := Ly) (r + u • d)
    rw [← hz] at hc
    obtain ⟨rfl, rfl⟩ := cell_unique hLx hLy hm''.2.1 (InCell.nearly hLx hLy hc)
    refine none_in_cell (T := 0) ?_ hm''.1 hm''
    rw [fromCell_zero, show r + (0 : ℝ) • d = r by ext <;> simp]
    exact hnone
  by_cases hu0 : u ≤ t0
  · exact hback u hu0 ⟨m', n', hm⟩
  · push Not at hu0
    have hc : InCell Lx Ly (fromCell Lx Ly a b (r + t0 • d)) := by rw [← e1]; exact hin.1
    have hnear' := nearly_between (m := a) (n := b) (r := r) (d := d) hu0.le hlt.le (InCell.nearly hLx hLy hc) (by rw [← hp]; exact InTri.nearly hover hτ htri)
    obtain ⟨rfl, rfl⟩ := cell_unique hLx hLy hm.2.1 hnear'
    have hu := hm.1
    obtain ⟨-, -, τ', hτ', hpar, hin'⟩ := hm
    have := hnear τ' hτ' hpar u hu (by rw [fromCell_add, zero_add]; exact hin')
    linarith

theorem backInto_self {x L : ℝ} (h : 0 ≤ x ∧ x ≤ L) : backInto x L = x := by
  unfold backInto
  rw [if_neg]
  rintro (h' | h') <;> linarith [h.1, h.2]

theorem backInto_shift {x L : ℝ} (hL : 0 < L) (h : 0 < x ∧ x < L) (k : ℤ) (hk : k = 1 ∨ k = -1 ∨ k = 0) : backInto (x - k * L) L = x := by
  have hf : ⌊(x - k * L) / L⌋ = -k := by
    rw [Int.floor_eq_iff]
    push_cast
    constructor
    · rw [le_div_iff₀ hL]; linarith [h.1]
    · rw [div_lt_iff₀ hL]; nlinarith [h.2]
  rcases hk with rfl | rfl | rfl
  · unfold backInto
    rw [if_pos (Or.inr (by push_cast; linarith [h.2])), hf]; push_cast; ring
  · unfold backInto
    rw [if_pos (Or.inl (by push_cast; linarith [h.1])), hf]; push_cast; ring
  · push_cast
    rw [zero_mul, sub_zero]
    exact backInto_self ⟨h.1.le, h.2.le⟩

theorem translation_back (hLx : 0 < Lx) (hLy : 0 < Ly) (hr : StrictlyInside Lx Ly r) (i : ℕ) :
    (⟨backInto (r + translation Lx Ly i).x Lx, backInto (r + translation Lx Ly i).y Ly, (r + translation Lx Ly i).z⟩ : V3) = r := by
  obtain ⟨h1, h2, h3, h4⟩ := hr
  have bx : ∀ k : ℤ, k = 1 ∨ k = -1 ∨ k = 0 → backInto (r.x - k * Lx) Lx = r.x := fun k hk => backInto_shift hLx ⟨h1, h2⟩ k hk
  have byy : ∀ k : ℤ, k = 1 ∨ k = -1 ∨ k = 0 → backInto (r.y - k * Ly) Ly = r.y := fun k hk => backInto_shift hLy ⟨h3, h4⟩ k hk
  have x0 := bx 0 (by simp); have x1 := bx 1 (by simp); have x2 := bx (-1) (by simp)
  have y0 := byy 0 (by simp); have y1 := byy 1 (by simp); have y2 := byy (-1) (by simp)
  push_cast at x0 x1 x2 y0 y1 y2
  rcases i with _ | _ | _ | i
  · ext <;> simp only [translation, V3.add_x, V3.add_y, V3.add_z]
    · exact (congrArg (backInto · _) (by ring)).trans x0
    · exact (congrArg (backInto · _) (by ring)).trans y1
    · ring
  · ext <;> simp only [translation, V3.add_x, V3.add_y, V3.add_z]
    · exact (congrArg (backInto · _) (by ring)).trans x1
    · exact (congrArg (backInto · _) (by ring)).trans y0
    · ring
  · ext <;> simp only [translation, V3.add_x, V3.add_y, V3.add_z]
    · exact (congrArg (backInto · _) (by ring)).trans x0
    · exact (congrArg (backInto · _) (by ring)).trans y2
    · ring
  · ext <;> simp only [translation, V3.add_x, V3.add_y, V3.add_z]
    · exact (congrArg (backInto · _) (by ring)).trans x2
    · exact (congrArg (backInto · _) (by ring)).trans y0
    · ring

end Rayflare.Lemmas
