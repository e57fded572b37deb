import Verif.Lemmas.NextFacet
import Verif.Props.Gentle
import Verif.Props.Geometry2
import Verif.Props.Turn

/-!
# Property C181: between two facets a ray goes straight to the next facet in its way
-/

namespace Rayflare

open Rayflare.Model Rayflare.Spec Rayflare.Lemmas

variable {Lx Ly lo hi : ℝ} {tris : List Tri}

/-! ## Helper lemmas -/

/-- A ray that has met a facet is not started anew. -/
theorem leaves_i1 {d0 : V3} : ∀ (ws : List Draw) (s0 s : Sic), (s0.θ = none ∨ 1 ≤ s0.i1) → sicRun Lx Ly d0 ws s0 = .inl s → (s.θ = none ∨ 1 ≤ s.i1) := by
  intro ws
  induction ws with
  | nil => intro s0 s h e; cases e; exact h
  | cons w ws ih =>
    intro s0 s h e
    simp only [sicRun] at e
    rcases hst : sicStep Lx Ly d0 w s0 with s1 | r1
    · rw [hst] at e
      refine ih s1 s ?_ e
      unfold sicStep at hst
      simp only at hst
      rcases hc : checkIntersect s0.r s0.d w.tris with _ | ⟨p, θ, Nf⟩
      · rw [hc] at hst
        simp only at hst
        split_ifs at hst with h1 h2 h3 h4
        · cases Sum.inl.inj hst; right; simp
        · cases Sum.inl.inj hst
          left
          rcases h with h | h
          · exact h
          · exfalso; omega
        · rcases ht : (exitSide ⟨backInto s0.r.x Lx, backInto s0.r.y Ly, s0.r.z⟩ s0.d Lx Ly).2 with _ | t
          · rw [ht] at hst; simp at hst
          · rw [ht] at hst
            cases Sum.inl.inj hst; right; simp
      · rw [hc] at hst
        simp only at hst
        split at hst
        · simp at hst
        · cases Sum.inl.inj hst; right; simp
    · rw [hst] at e; simp at e

/-- Where the loop is between two facets, relative to the state `s` after the first one. -/
def BetweenFacets (Lx Ly : ℝ) (tris : List Tri) (s s' : Sic) : Prop :=
  s'.d = s.d ∧ s'.side = s.side ∧ s'.nInt = s.nInt ∧ s'.θ = s.θ ∧ 1 ≤ s'.i1 ∧
  ((s'.checked = false ∧ s'.r = s.r) ∨
   (s'.checked = true ∧ checkIntersect s.r s.d tris = none ∧ s'.r = s.r + translation Lx Ly (exitSide s.r s.d Lx Ly).1) ∨
   (s'.checked = true ∧ checkIntersect s.r s.d tris = none ∧ ComesFrom s.side s.d ∧ OnWay Lx Ly tris s.r s.d s'.r))

/-- What the loop knows when it finds nothing more. -/
def NothingLeft (Lx Ly : ℝ) (tris : List Tri) (s : Sic) : Prop :=
  (ComesFrom s.side s.d → ∀ t, ¬ MeetsAt Lx Ly tris s.r s.d t) ∧ ∀ t, WithinTwoCells Lx Ly s.r s.d t → ¬ MeetsAt Lx Ly tris s.r s.d t

theorem within_cell {L a v t0 te t : ℝ} {m : ℤ} (hL : 0 < L) (h0 : 0 ≤ a + te * v ∧ a + te * v ≤ L) (hte : te ≤ t) (hm : ∀ u, te ≤ u → u ≤ t → 0 ≤ a + u * v - m * L ∧ a + u * v - m * L ≤ L)
    (hne : a + te * v ≠ 0 ∧ a + te * v ≠ L) : m = 0 := by
  obtain ⟨h1, h2⟩ := hm te le_rfl hte
  have e1 : (m : ℝ) * L < 1 * L := by
    have := lt_of_le_of_ne h0.2 hne.2
    linarith
  have e2 : (-1) * L < (m : ℝ) * L := by
    have := lt_of_le_of_ne h0.1 (Ne.symm hne.1)
    linarith
  have f1 := lt_of_mul_lt_mul_right e1 hL.le
  have f2 := lt_of_mul_lt_mul_right e2 hL.le
  have g1 : m < 1 := by exact_mod_cast f1
  have g2 : -1 < m := by exact_mod_cast f2
  omega

theorem within_next_pos {L a v te t : ℝ} {m : ℤ} (hL : 0 < L) (he : a + te * v = L) (hv : 0 < v) (hte : te < t) (hm : ∀ u, te ≤ u → u ≤ t → 0 ≤ a + u * v - m * L ∧ a + u * v - m * L ≤ L) : m = 1 := by
  obtain ⟨h1, -⟩ := hm te le_rfl hte.le
  obtain ⟨-, h2⟩ := hm t hte.le le_rfl
  have h3 := mul_lt_mul_of_pos_right hte hv
  have e1 : (m : ℝ) * L ≤ 1 * L := by linarith
  have e2 : 0 * L < (m : ℝ) * L := by linarith
  have f1 := le_of_mul_le_mul_right e1 hL
  have f2 := lt_of_mul_lt_mul_right e2 hL.le
  have g1 : m ≤ 1 := by exact_mod_cast f1
  have g2 : 0 < m := by exact_mod_cast f2
  omega

theorem within_next_neg {L a v te t : ℝ} {m : ℤ} (hL : 0 < L) (he : a + te * v = 0) (hv : v < 0) (hte : te < t) (hm : ∀ u, te ≤ u → u ≤ t → 0 ≤ a + u * v - m * L ∧ a + u * v - m * L ≤ L) : m = -1 := by
  obtain ⟨-, h1⟩ := hm te le_rfl hte.le
  obtain ⟨h2, -⟩ := hm t hte.le le_rfl
  have h3 := mul_lt_mul_of_neg_right hte hv
  have e1 : (-1) * L ≤ (m : ℝ) * L := by linarith
  have e2 : (m : ℝ) * L < 0 * L := by linarith
  have f1 := le_of_mul_le_mul_right e1 hL
  have f2 := lt_of_mul_lt_mul_right e2 hL.le
  have g1 : -1 ≤ m := by exact_mod_cast f1
  have g2 : m < 0 := by exact_mod_cast f2
  omega

theorem inward_of_strict {r : V3} (hr : StrictlyInside Lx Ly r) (d : V3) : InCellInward Lx Ly r d := by
  obtain ⟨h1, h2, h3, h4⟩ := hr
  exact ⟨⟨h1.le, h2.le, h3.le, h4.le⟩, fun _ => h2, fun _ => h1, fun _ => h4, fun _ => h3⟩

/-- Nothing in the first cell and nothing in the neighbouring one: nothing within two cells. -/
theorem two_cells (hLx : 0 < Lx) (hLy : 0 < Ly) {r d : V3} (hcorner : MissesCorners Lx Ly r d) (hd : d.x ≠ 0 ∨ d.y ≠ 0) (hr : StrictlyInside Lx Ly r) (hnone : checkIntersect r d tris = none)
    (hnone' : checkIntersect (r + translation Lx Ly (exitSide r d Lx Ly).1) d tris = none) (t : ℝ) (ht : WithinTwoCells Lx Ly r d t) : ¬ MeetsAt Lx Ly tris r d t := by
  rintro ⟨m', n', hm⟩
  obtain ⟨t0, ht0, ht0t, hfirst, m, n, hsecond⟩ := ht
  obtain ⟨i, te, he, hte, hstay, -, hside⟩ := C46_exit Lx Ly r d (inward_of_strict hr d) hd
  rw [he] at hnone'
  by_cases hle : t ≤ te
  · have hc := hstay t (by linarith) hle
    rw [← fromCell_zero (Lx := Lx) (Ly := Ly) (r + t • d)] at hc
    obtain ⟨rfl, rfl⟩ := cell_unique hLx hLy hm.2.1 (InCell.nearly hLx hLy hc)
    refine none_in_cell (T := 0) ?_ hm.1 hm
    rw [fromCell_zero, show r + (0 : ℝ) • d = r by ext <;> simp]
    exact hnone
  · push Not at hle
    have hcell := hstay te hte.le le_rfl
    have hc0 := hcorner te hte
    -- the first cell has been left at `te`
    have ht0e : t0 ≤ te := by
      by_contra hgt
      push Not at hgt
      have hin := hfirst t0 ht0 le_rfl
      simp only [InCell, V3.add_x, V3.add_y, V3.smul_x, V3.smul_y] at hin hside
      rcases hside with ⟨-, hs, hy, -⟩ | ⟨-, hs, hx, -⟩ | ⟨-, hs, hy, -⟩ | ⟨-, hs, hx, -⟩
      · have := mul_lt_mul_of_pos_right hgt hs; linarith [hin.2.2.2]
      · have := mul_lt_mul_of_pos_right hgt hs; linarith [hin.2.1]
      · have := mul_lt_mul_of_neg_right hgt hs; linarith [hin.2.2.1]
      · have := mul_lt_mul_of_neg_right hgt hs; linarith [hin.1]
    have hx : ∀ u, te ≤ u → u ≤ t → 0 ≤ r.x + u * d.x - m * Lx ∧ r.x + u * d.x - m * Lx ≤ Lx := fun u h1 h2 => by
      have := hsecond u (by linarith) h2
      simp only [InCell, fromCell, V3.add_x, V3.add_y, V3.smul_x, V3.smul_y] at this
      exact ⟨this.1, this.2.1⟩
    have hy : ∀ u, te ≤ u → u ≤ t → 0 ≤ r.y + u * d.y - n * Ly ∧ r.y + u * d.y - n * Ly ≤ Ly := fun u h1 h2 => by
      have := hsecond u (by linarith) h2
      simp only [InCell, fromCell, V3.add_x, V3.add_y, V3.smul_x, V3.smul_y] at this
      exact ⟨this.2.2.1, this.2.2.2⟩
    simp only [InCell, V3.add_x, V3.add_y, V3.smul_x, V3.smul_y] at hcell
    simp only [V3.add_x, V3.add_y, V3.smul_x, V3.smul_y] at hc0
    -- it is the cell reached by the translation
    have hmn : ∀ p : V3, fromCell Lx Ly m n p = p + translation Lx Ly i := by
      intro p
      rcases hside with ⟨rfl, hs, hy', -⟩ | ⟨rfl, hs, hx', -⟩ | ⟨rfl, hs, hy', -⟩ | ⟨rfl, hs, hx', -⟩
      · have hn : n = 1 := within_next_pos hLy (by simpa using hy') hs hle hy
        have hyy : r.y + te * d.y = Ly := by simpa using hy'
        have hm0 : m = 0 := within_cell (t0 := 0) hLx ⟨hcell.1, hcell.2.1⟩ hle.le hx
          ⟨fun h => hc0 0 1 ⟨by push_cast; linarith, by push_cast; linarith⟩, fun h => hc0 1 1 ⟨by push_cast; linarith, by push_cast; linarith⟩⟩
        subst hn hm0
        ext <;> simp [fromCell, translation]; ring
      · have hm1 : m = 1 := within_next_pos hLx (by simpa using hx') hs hle hx
        have hxx : r.x + te * d.x = Lx := by simpa using hx'
        have hn0 : n = 0 := within_cell (t0 := 0) hLy ⟨hcell.2.2.1, hcell.2.2.2⟩ hle.le hy
          ⟨fun h => hc0 1 0 ⟨by push_cast; linarith, by push_cast; linarith⟩, fun h => hc0 1 1 ⟨by push_cast; linarith, by push_cast; linarith⟩⟩
        subst hm1 hn0
        ext <;> simp [fromCell, translation]; ring
      · have hn : n = -1 := within_next_neg hLy (by simpa using hy') hs hle hy
        have hyy : r.y + te * d.y = 0 := by simpa using hy'
        have hm0 : m = 0 := within_cell (t0 := 0) hLx ⟨hcell.1, hcell.2.1⟩ hle.le hx
          ⟨fun h => hc0 0 0 ⟨by push_cast; linarith, by push_cast; linarith⟩, fun h => hc0 1 0 ⟨by push_cast; linarith, by push_cast; linarith⟩⟩
        subst hn hm0
        ext <;> simp [fromCell, translation]
      · have hm1 : m = -1 := within_next_neg hLx (by simpa using hx') hs hle hx
        have hxx : r.x + te * d.x = 0 := by simpa using hx'
        have hn0 : n = 0 := within_cell (t0 := 0) hLy ⟨hcell.2.2.1, hcell.2.2.2⟩ hle.le hy
          ⟨fun h => hc0 0 0 ⟨by push_cast; linarith, by push_cast; linarith⟩, fun h => hc0 0 1 ⟨by push_cast; linarith, by push_cast; linarith⟩⟩
        subst hm1 hn0
        ext <;> simp [fromCell, translation]
    obtain ⟨rfl, rfl⟩ := cell_unique hLx hLy hm.2.1 (InCell.nearly hLx hLy (hsecond t (by linarith) le_rfl))
    refine none_in_cell (T := 0) ?_ hm.1 hm
    rw [show r + (0 : ℝ) • d = r by ext <;> simp, hmn]
    exact hnone'

/-- Past the surface: nothing more is met. -/
theorem past_surface (hover : OverCell Lx Ly lo hi tris) {r d : V3} {T : ℝ} (h : (d.z < 0 ∧ (r + T • d).z ≤ lo) ∨ (0 < d.z ∧ hi ≤ (r + T • d).z)) {t : ℝ} (ht : T < t) : ¬ MeetsAt Lx Ly tris r d t := by
  rintro ⟨m, n, -, -, τ, hτ, -, hin⟩
  obtain ⟨h1, h2⟩ := InTri.height hover hτ hin
  simp only [fromCell, V3.add_z, V3.smul_z] at h h1 h2
  rcases h with ⟨hd, h⟩ | ⟨hd, h⟩
  · have := mul_lt_mul_of_neg_right ht hd; linarith
  · have := mul_lt_mul_of_pos_right ht hd; linarith

/-- One iteration between two facets that finds no facet. -/
theorem going_step (hLx : 0 < Lx) (hLy : 0 < Ly) (hover : OverCell Lx Ly lo hi tris) {s s' : Sic} (hcorner : MissesCorners Lx Ly s.r s.d) (hd : s.d.x ≠ 0 ∨ s.d.y ≠ 0) (hr : StrictlyInside Lx Ly s.r)
    (hg : BetweenFacets Lx Ly tris s s') {w : Draw} (h1 : w.tris = tris) (h2 : w.zmin = lo) (h3 : w.zmax = hi) (hnone : checkIntersect s'.r s'.d tris = none) (d0 : V3) :
    (∃ s'', sicStep Lx Ly d0 w s' = .inl s'' ∧ BetweenFacets Lx Ly tris s s'') ∨
    ((∃ l ot r', sicStep Lx Ly d0 w s' = .inr (.out l ot r' s.d s.θ s.nInt s.side)) ∧ NothingLeft Lx Ly tris s) := by
  obtain ⟨g1, g2, g3, g4, g5, g6⟩ := hg
  unfold sicStep
  simp only [h1, h2, h3, hnone]
  rcases g6 with ⟨gc, gr⟩ | ⟨gc, gn, gr⟩ | ⟨gc, gn, gf, gr⟩
  · -- the neighbouring cell is tried
    rw [gc]
    simp only [Bool.not_false, if_true]
    rw [if_pos (by omega)]
    left
    refine ⟨_, rfl, g1, g2, g3, g4, by simp, Or.inr (Or.inl ⟨rfl, ?_, ?_⟩)⟩
    · rw [← gr, ← g1]; exact hnone
    · simp only [gr, g1]
  · rw [gc]
    simp only [Bool.not_true, Bool.false_eq_true, if_false]
    have hback := translation_back hLx hLy hr (exitSide s.r s.d Lx Ly).1
    rw [← gr] at hback
    have hz : s'.r.z = s.r.z := by rw [← hback]
    by_cases hcond : (s'.side = 1 ∧ s'.d.z < 0 ∧ s'.r.z > lo) ∨ (s'.side = -1 ∧ s'.d.z > 0 ∧ s'.r.z < hi)
    · rw [if_pos hcond, hback, g1]
      obtain ⟨t, he, ht, hon⟩ := onWay_exit hLx hLy hcorner hd (onWay_start (tris := tris) (d := s.d) hr) gn
      rw [he]
      left
      refine ⟨_, rfl, rfl, g2, g3, g4, by simp, Or.inr (Or.inr ⟨rfl, gn, ?_, hon⟩)⟩
      rw [g1, g2] at hcond
      rcases hcond with ⟨c1, c2, -⟩ | ⟨c1, c2, -⟩
      · exact Or.inl ⟨c1, c2⟩
      · exact Or.inr ⟨c1, c2⟩
    · rw [if_neg hcond, g1, g2, g3, g4]
      right
      refine ⟨⟨_, _, _, rfl⟩, ?_, fun t => two_cells hLx hLy hcorner hd hr gn (by rw [← gr, ← g1]; exact hnone) t⟩
      intro hf t hm
      rw [g1, g2, hz] at hcond
      push Not at hcond
      have hpos : 0 < t := by obtain ⟨_, _, h, -⟩ := hm; exact h
      refine past_surface (T := 0) hover ?_ hpos hm
      rw [show s.r + (0 : ℝ) • s.d = s.r by ext <;> simp]
      rcases hf with ⟨f1, f2⟩ | ⟨f1, f2⟩
      · exact Or.inl ⟨f2, hcond.1 f1 f2⟩
      · exact Or.inr ⟨f2, hcond.2 f1 f2⟩
  · rw [gc]
    simp only [Bool.not_true, Bool.false_eq_true, if_false]
    have hin : InCell Lx Ly s'.r := by obtain ⟨_, _, _, _, _, h, _⟩ := gr; exact h.1
    have hback : (⟨backInto s'.r.x Lx, backInto s'.r.y Ly, s'.r.z⟩ : V3) = s'.r := by
      rw [backInto_self ⟨hin.1, hin.2.1⟩, backInto_self ⟨hin.2.2.1, hin.2.2.2⟩]
    by_cases hcond : (s'.side = 1 ∧ s'.d.z < 0 ∧ s'.r.z > lo) ∨ (s'.side = -1 ∧ s'.d.z > 0 ∧ s'.r.z < hi)
    · rw [if_pos hcond, hback, g1]
      obtain ⟨t, he, ht, hon⟩ := onWay_exit hLx hLy hcorner hd gr (by rw [← g1]; exact hnone)
      rw [he]
      left
      exact ⟨_, rfl, rfl, g2, g3, g4, by simp, Or.inr (Or.inr ⟨rfl, gn, gf, hon⟩)⟩
    · rw [if_neg hcond, g1, g2, g3, g4]
      right
      have hall : ∀ t, ¬ MeetsAt Lx Ly tris s.r s.d t := by
        obtain ⟨m, n, T, hT, hq, -, hno⟩ := gr
        intro t hm
        by_cases htT : t ≤ T
        · exact hno t htT hm
        · push Not at htT
          have hz : s'.r.z = (s.r + T • s.d).z := by rw [hq]; rfl
          rw [g1, g2, hz] at hcond
          push Not at hcond
          refine past_surface (T := T) hover ?_ htT hm
          rcases gf with ⟨f1, f2⟩ | ⟨f1, f2⟩
          · exact Or.inl ⟨f2, hcond.1 f1 f2⟩
          · exact Or.inr ⟨f2, hcond.2 f1 f2⟩
      exact ⟨⟨_, _, _, rfl⟩, fun _ => hall, fun t _ => hall t⟩

theorem going_found (hLx : 0 < Lx) (hLy : 0 < Ly) (hover : OverCell Lx Ly lo hi tris) {s s' : Sic} (hcorner : MissesCorners Lx Ly s.r s.d) (hd : s.d.x ≠ 0 ∨ s.d.y ≠ 0) (hr : StrictlyInside Lx Ly s.r)
    (hg : BetweenFacets Lx Ly tris s s') {p N : V3} {θ : ℝ} (hsome : checkIntersect s'.r s.d tris = some (p, θ, N)) : FirstFacet Lx Ly tris s.r s.d p N := by
  obtain ⟨g1, g2, g3, g4, g5, g6⟩ := hg
  rcases g6 with ⟨-, gr⟩ | ⟨-, gn, gr⟩ | ⟨-, gn, -, gr⟩
  · rw [gr] at hsome
    exact onWay_found hLx hLy hover (onWay_start hr) hsome
  · rw [gr] at hsome
    exact neighbour_found hLx hLy hover hcorner hd hr gn hsome
  · exact onWay_found hLx hLy hover gr hsome

theorem going_run (hLx : 0 < Lx) (hLy : 0 < Ly) (hover : OverCell Lx Ly lo hi tris) {s : Sic} (hcorner : MissesCorners Lx Ly s.r s.d) (hd : s.d.x ≠ 0 ∨ s.d.y ≠ 0) (hr : StrictlyInside Lx Ly s.r) (d0 : V3) :
    ∀ (ws : List Draw), Unchanged tris lo hi ws → ∀ (s' : Sic), BetweenFacets Lx Ly tris s s' → ∀ res, sicRun Lx Ly d0 ws s' = .inr res →
      (∃ ws1 w ws2 s'' p θ N, ws = ws1 ++ w :: ws2 ∧ sicRun Lx Ly d0 ws1 s' = .inl s'' ∧ s''.nInt = s.nInt ∧ s''.d = s.d ∧ s''.side = s.side ∧
        checkIntersect s''.r s.d w.tris = some (p, θ, N) ∧ FirstFacet Lx Ly tris s.r s.d p N) ∨
      ((∃ l ot r', res = .out l ot r' s.d s.θ s.nInt s.side) ∧ NothingLeft Lx Ly tris s) := by
  intro ws
  induction ws with
  | nil => intro _ s' _ res h; simp [sicRun] at h
  | cons w ws ih =>
    intro hun s' hg res h
    obtain ⟨h1, h2, h3⟩ := hun w (by simp)
    rcases hc : checkIntersect s'.r s'.d tris with _ | ⟨p, θ, N⟩
    · rcases going_step hLx hLy hover hcorner hd hr hg h1 h2 h3 hc d0 with ⟨s'', he, hg''⟩ | ⟨⟨l, ot, r', he⟩, hno⟩
      · simp only [sicRun, he] at h
        rcases ih (fun w' hw' => hun w' (by simp [hw'])) s'' hg'' res h with ⟨ws1, w', ws2, s3, p, θ, N, rfl, hrun, hrest⟩ | hrest
        · left
          exact ⟨w :: ws1, w', ws2, s3, p, θ, N, rfl, by simp only [sicRun, he]; exact hrun, hrest⟩
        · exact Or.inr hrest
      · simp only [sicRun, he] at h
        right
        exact ⟨⟨l, ot, r', (Sum.inr.inj h).symm⟩, hno⟩
    · left
      have hd' := hg.1
      rw [hd'] at hc
      exact ⟨[], w, ws, s', p, θ, N, rfl, rfl, hg.2.2.1, hg.1, hg.2.1, by rw [h1]; exact hc, going_found hLx hLy hover hcorner hd hr hg hc⟩

/-! ## C181 -/

/-- **C181, what holds.** A ray has just left a facet of a periodic surface of any shape, in any direction that is not vertical, strictly inside the unit cell, and does not pass exactly over a corner of the unit cells. If the interaction with the surface then comes to an end, there are two cases.
Either the ray meets a further facet, and the next one it meets is the first in its way on the periodically continued surface (in whichever cell). Or it meets none and is reported with its direction and medium unchanged, and then there is no facet in its way,
provided it moves towards the other side of the surface (down in the upper medium, up in the lower one); if it moves away from the surface, there is none as far as the end of the next unit cell. Missing: rays that move away, beyond the next cell, where the claim is false (`C181_fails`). -/
theorem C181_next_partial (hLx : 0 < Lx) (hLy : 0 < Ly) (hover : OverCell Lx Ly lo hi tris) {s : Sic} (hs : LeavesFacet Lx Ly s) (hr : StrictlyInside Lx Ly s.r) (hd : s.d.x ≠ 0 ∨ s.d.y ≠ 0) (hcorner : MissesCorners Lx Ly s.r s.d)
    {ws : List Draw} (hws : Unchanged tris lo hi ws) (d0 : V3) {res : SicRes} (hres : sicRun Lx Ly d0 ws s = .inr res) :
    (∃ ws1 w ws2 s' p θ N, ws = ws1 ++ w :: ws2 ∧ sicRun Lx Ly d0 ws1 s = .inl s' ∧ s'.nInt = s.nInt ∧ s'.d = s.d ∧ s'.side = s.side ∧
      checkIntersect s'.r s.d w.tris = some (p, θ, N) ∧ FirstFacet Lx Ly tris s.r s.d p N) ∨
    ((∃ l ot r', res = .out l ot r' s.d s.θ s.nInt s.side) ∧ (ComesFrom s.side s.d → ∀ t, ¬ MeetsAt Lx Ly tris s.r s.d t) ∧
      ∀ t, WithinTwoCells Lx Ly s.r s.d t → ¬ MeetsAt Lx Ly tris s.r s.d t) := by
  obtain ⟨⟨d0', r, side, n, ws0, hrun⟩, hθ, hc⟩ := hs
  have hi1 : 1 ≤ s.i1 := by
    rcases leaves_i1 ws0 (sicStart r d0' side n) s (Or.inl rfl) hrun with h | h
    · exact absurd h hθ
    · exact h
  exact going_run hLx hLy hover hcorner hd hr d0 ws hws s ⟨rfl, rfl, rfl, rfl, hi1, Or.inl ⟨hc, rfl⟩⟩ res hres

/-! ## A V-groove -/

/-- The front surface of `V_grooves(elevation_angle=45, width=1, direction="x")`: two facets, two triangles each. -/
noncomputable def vGroove : List Tri := trisOf (groovePoints 45 1 .alongX) [(0, 2, 5), (0, 5, 4), (4, 5, 3), (4, 3, 1)]

noncomputable def vg1 : Tri := ⟨⟨0, 0, 0⟩, ⟨1, 0, 0⟩, ⟨1, 1 / 2, 1 / 2⟩⟩
noncomputable def vg2 : Tri := ⟨⟨0, 0, 0⟩, ⟨1, 1 / 2, 1 / 2⟩, ⟨0, 1 / 2, 1 / 2⟩⟩
noncomputable def vg3 : Tri := ⟨⟨0, 1 / 2, 1 / 2⟩, ⟨1, 1 / 2, 1 / 2⟩, ⟨1, 1, 0⟩⟩
noncomputable def vg4 : Tri := ⟨⟨0, 1 / 2, 1 / 2⟩, ⟨1, 1, 0⟩, ⟨0, 1, 0⟩⟩

theorem vGroove_eq : vGroove = [vg1, vg2, vg3, vg4] := by
  have h : Real.tan (45 * Real.pi / 180) = 1 := by rw [show 45 * Real.pi / 180 = Real.pi / 4 by ring]; exact Real.tan_pi_div_four
  simp [vGroove, trisOf, groovePoints, h, vg1, vg2, vg3, vg4]

theorem vGroove_over : OverCell 1 1 0 (1 / 2) vGroove := by
  rw [vGroove_eq]
  intro τ hτ p hp
  simp only [List.mem_cons, List.not_mem_nil, or_false] at hτ
  rcases hτ with rfl | rfl | rfl | rfl <;> simp only [vg1, vg2, vg3, vg4] at hp <;> rcases hp with rfl | rfl | rfl <;> norm_num [InCell]

theorem vGroove_none {r d : V3} (h1 : vg1.hit r d = false) (h2 : vg2.hit r d = false) (h3 : vg3.hit r d = false) (h4 : vg4.hit r d = false) : checkIntersect r d vGroove = none := by
  rw [vGroove_eq]; simp [checkIntersect, h1, h2, h3, h4]

theorem vGroove_fourth {r d : V3} (h1 : vg1.hit r d = false) (h2 : vg2.hit r d = false) (h3 : vg3.hit r d = false) (h4 : vg4.hit r d = true) : checkIntersect r d vGroove = some (r + vg4.t r d • d, localTheta vg4.N d, vg4.N) := by
  rw [vGroove_eq, ← checkIntersect_single_hit h4]; simp [checkIntersect, h1, h2, h3, h4]

theorem vGroove_first {r d : V3} (h1 : vg1.hit r d = true) (h2 : vg2.hit r d = false) (h3 : vg3.hit r d = false) (h4 : vg4.hit r d = false) : checkIntersect r d vGroove = some (r + vg1.t r d • d, localTheta vg1.N d, vg1.N) := by
  rw [vGroove_eq, ← checkIntersect_single_hit h1]; simp [checkIntersect, h1, h2, h3, h4]

theorem vg4_reflect (a b c : ℝ) (h : a * a + b * b + c * c = 1) : normalise (reflectDir ⟨a, -c, -b⟩ (((1 : ℤ) : ℝ) • vg4.N)) = ⟨a, b, c⟩ := by
  have hc : vg4.crossP = ⟨0, 1 / 2, 1 / 2⟩ := by simp [vg4, Tri.crossP, V3.cross]; norm_num
  have hn : V3.norm vg4.crossP * V3.norm vg4.crossP = 1 / 2 := by
    rw [hc]; unfold V3.norm V3.dot; rw [Real.mul_self_sqrt (by norm_num)]; norm_num
  have hn0 : V3.norm vg4.crossP ≠ 0 := fun h0 => by rw [h0] at hn; norm_num at hn
  have e : reflectDir ⟨a, -c, -b⟩ (((1 : ℤ) : ℝ) • vg4.N) = ⟨a, b, c⟩ := by
    generalize hk : V3.norm vg4.crossP = k at hn hn0
    have hN : vg4.N = ⟨0, 1 / k * (1 / 2), 1 / k * (1 / 2)⟩ := by unfold Tri.N; rw [hk, hc]; ext <;> simp
    have hkk : 1 / k * (1 / k) = 2 := by
      rw [div_mul_div_comm, hn]; norm_num
    rw [hN]
    generalize 1 / k = q at hkk
    ext
    · simp [reflectDir, V3.dot]
    · simp only [reflectDir, V3.dot, V3.sub_y, V3.smul_x, V3.smul_y, V3.smul_z, Int.cast_one]
      linear_combination (b + c) / 2 * hkk
    · simp only [reflectDir, V3.dot, V3.sub_z, V3.smul_x, V3.smul_y, V3.smul_z, Int.cast_one]
      linear_combination (b + c) / 2 * hkk
  rw [e]; unfold normalise
  rw [show V3.norm ⟨a, b, c⟩ = 1 by rw [norm_one_iff]; simpa [V3.dot] using h]
  ext <;> simp

/-- A draw for this surface: Fresnel reflection between any two media, with random number 0. -/
noncomputable def grooveDraw (nA nB : ℂ) (arc : ℤ → ℝ → ℂ) (pol : Pol) : Draw := ⟨vGroove, 0, 1 / 2, 0, 0, fresnelDec nA nB arc pol 0⟩

theorem grooveDraw_dec (nA nB : ℂ) (arc : ℤ → ℝ → ℂ) (pol : Pol) (θ : ℝ) (d N : V3) : (grooveDraw nA nB arc pol).dec θ d N 1 = (normalise (reflectDir d N), 1, none) := by
  simp only [grooveDraw, fresnelDec, if_true, decideFresnel]
  rw [if_pos (decideR_nonneg _ _ _ _ _)]

noncomputable def awayIn : V3 := ⟨14 / 15, -(2 / 15), -(5 / 15)⟩
noncomputable def awayOut : V3 := ⟨14 / 15, 5 / 15, 2 / 15⟩
noncomputable def awayStart : V3 := ⟨-(11 / 25), 23 / 25, 1 / 2⟩
noncomputable def awayAt : V3 := ⟨2 / 5 + 14 / 15 / 10 ^ 9, 4 / 5 + 5 / 15 / 10 ^ 9, 1 / 5 + 2 / 15 / 10 ^ 9⟩

/-- The ray after its reflection. -/
noncomputable def awaySic : Sic := { r := awayAt, d := awayOut, side := 1, checked := false, misses := 0, i1 := 1, nInt := 1, θ := some (localTheta vg4.N awayIn) }

theorem away_first (nA nB : ℂ) (arc : ℤ → ℝ → ℂ) (pol : Pol) : sicRun 1 1 awayIn [grooveDraw nA nB arc pol] (sicStart awayStart awayIn 1 0) = .inl awaySic := by
  have ht : vg4.t awayStart awayIn = 9 / 10 := by norm_num [Tri.t, Tri.det, Tri.crossP, V3.cross, V3.dot, vg4, awayStart, awayIn]
  have hc : checkIntersect awayStart awayIn vGroove = some (awayStart + (9 / 10 : ℝ) • awayIn, localTheta vg4.N awayIn, vg4.N) := by
    rw [← ht]
    apply vGroove_fourth <;> norm_num [Tri.hit, Tri.t, Tri.u, Tri.v, Tri.det, Tri.crossP, V3.cross, V3.dot, vg1, vg2, vg3, vg4, awayStart, awayIn]
  have hn : normalise (reflectDir awayIn (((1 : ℤ) : ℝ) • vg4.N)) = awayOut := vg4_reflect _ _ _ (by norm_num)
  simp only [sicRun]
  rw [sicStep_facet (s := sicStart awayStart awayIn 1 0) (by exact hc)]
  simp only [sicStart, grooveDraw_dec, hn, afterFacet]
  have : awayStart + (9 / 10 : ℝ) • awayIn + (1 / 10 ^ 9 : ℝ) • awayOut = awayAt := by
    ext <;> simp [awayStart, awayIn, awayOut, awayAt] <;> norm_num
  rw [this]
  rfl

theorem away_leaves : LeavesFacet 1 1 awaySic := ⟨⟨_, _, _, _, _, away_first 1 1 (fun _ _ => 0) .s⟩, by simp [awaySic], rfl⟩

theorem away_inside : StrictlyInside 1 1 awayAt := by norm_num [StrictlyInside, awayAt]

theorem away_corners : MissesCorners 1 1 awayAt awayOut := by
  rintro t - m n ⟨h1, h2⟩
  simp only [awayAt, awayOut, V3.add_x, V3.add_y, V3.smul_x, V3.smul_y] at h1 h2
  have h : (25 * m - 70 * n : ℝ) = -46 := by linear_combination -25 * h1 + 70 * h2
  have h' : 25 * m - 70 * n = -46 := by exact_mod_cast h
  omega

theorem away_exit : (exitSide awayAt awayOut 1 1).1 = 0 := by
  rw [oneExit_eq 1 (i := 0) (t := 6 / 10 - 1 / 10 ^ 9) (by norm_num)]
  · norm_num [exitTs, planeT, awayAt, awayOut]
  · intro j hj t' ht'
    rcases j with _ | _ | _ | _ | j
    · exact absurd rfl hj
    all_goals
      norm_num [exitTs, planeT, awayAt, awayOut] at ht'
      first
        | (rw [← ht']; norm_num; done)
        | (exact absurd ht' (by simp))

/-- The interaction ends after the two cells. -/
theorem away_out (nA nB : ℂ) (arc : ℤ → ℝ → ℂ) (pol : Pol) : ∃ r', sicRun 1 1 awayIn [grooveDraw nA nB arc pol, grooveDraw nA nB arc pol] awaySic =
    .inr (.out 0 (polar awayOut) r' awayOut (some (localTheta vg4.N awayIn)) 1 1) := by
  have h1 : checkIntersect awayAt awayOut vGroove = none := by
    apply vGroove_none <;> norm_num [Tri.hit, Tri.t, Tri.u, Tri.v, Tri.det, Tri.crossP, V3.cross, V3.dot, vg1, vg2, vg3, vg4, awayAt, awayOut]
  have h2 : checkIntersect (awayAt + translation 1 1 0) awayOut vGroove = none := by
    apply vGroove_none <;> norm_num [Tri.hit, Tri.t, Tri.u, Tri.v, Tri.det, Tri.crossP, V3.cross, V3.dot, vg1, vg2, vg3, vg4, awayAt, awayOut, translation]
  have hf : finalRes awayIn awayOut = 0 := by norm_num [finalRes, npSign, awayIn, awayOut]
  have hz : ¬ awayOut.z < 0 := by norm_num [awayOut]
  refine ⟨⟨backInto (awayAt + translation 1 1 0).x 1, backInto (awayAt + translation 1 1 0).y 1, (awayAt + translation 1 1 0).z⟩, ?_⟩
  simp only [sicRun]
  have s1 : sicStep 1 1 awayIn (grooveDraw nA nB arc pol) awaySic = .inl { awaySic with r := awayAt + translation 1 1 0, checked := true, i1 := 2 } := by
    simp [sicStep, grooveDraw, awaySic, h1, away_exit]
  rw [s1]
  simp [sicStep, grooveDraw, awaySic, h2, hz, hf]

/-- **C181 is violated.** A ray comes down on a V-groove texture (45 degrees, period 1), is reflected there upwards along the grooves, and the interaction ends: it is reported as reflected with one interaction, whatever the media. But two cells further, and 0.47 above the bottom of the grooves (they are 0.5 deep), a facet is in its way. -/
theorem C181_fails (nA nB : ℂ) (arc : ℤ → ℝ → ℂ) (pol : Pol) : let w := grooveDraw nA nB arc pol
    OverCell 1 1 0 (1 / 2) w.tris ∧ LeavesFacet 1 1 awaySic ∧ StrictlyInside 1 1 awaySic.r ∧ MissesCorners 1 1 awaySic.r awaySic.d ∧
    (∃ r' θ, sicRun 1 1 awayIn [w, w, w] (sicStart awayStart awayIn 1 0) = .inr (.out 0 (polar awaySic.d) r' awaySic.d θ 1 1)) ∧
    ∃ t, MeetsIn 1 1 w.tris awaySic.r awaySic.d t 2 1 := by
  refine ⟨vGroove_over, away_leaves, away_inside, away_corners, ?_, 2 - 1 / 10 ^ 9, by norm_num, ?_, vg2, ?_, ?_, ?_⟩
  · obtain ⟨r', h⟩ := away_out nA nB arc pol
    have h1 := away_first nA nB arc pol
    refine ⟨r', some (localTheta vg4.N awayIn), ?_⟩
    simp only [sicRun] at h1 h ⊢
    rcases hs : sicStep 1 1 awayIn (grooveDraw nA nB arc pol) (sicStart awayStart awayIn 1 0) with s | s
    · rw [hs] at h1
      cases Sum.inl.inj h1
      exact h
    · rw [hs] at h1; simp at h1
  · norm_num [WellInside, fromCell, awaySic, awayAt, awayOut]
  · change vg2 ∈ vGroove
    rw [vGroove_eq]; simp
  · norm_num [Parallel, V3.cross, V3.dot, vg2, awaySic, awayOut]
  · refine ⟨4 / 15, 2 / 3, by norm_num, by norm_num, by norm_num, ?_⟩
    ext <;> simp [fromCell, awaySic, awayAt, awayOut, vg2] <;> norm_num

/-! ## A ray that meets `C181_next_partial` -/

noncomputable def towardsIn : V3 := ⟨14 / 15, -(-(2 / 15)), -(5 / 15)⟩
noncomputable def towardsOut : V3 := ⟨14 / 15, 5 / 15, -(2 / 15)⟩
noncomputable def towardsStart : V3 := ⟨-(11 / 25), 17 / 25, 1 / 2⟩
noncomputable def towardsAt : V3 := ⟨2 / 5 + 14 / 15 / 10 ^ 9, 4 / 5 + 5 / 15 / 10 ^ 9, 1 / 5 - 2 / 15 / 10 ^ 9⟩

noncomputable def towardsSic : Sic := { r := towardsAt, d := towardsOut, side := 1, checked := false, misses := 0, i1 := 1, nInt := 1, θ := some (localTheta vg4.N towardsIn) }

theorem towards_first (nA nB : ℂ) (arc : ℤ → ℝ → ℂ) (pol : Pol) : sicRun 1 1 towardsIn [grooveDraw nA nB arc pol] (sicStart towardsStart towardsIn 1 0) = .inl towardsSic := by
  have ht : vg4.t towardsStart towardsIn = 9 / 10 := by norm_num [Tri.t, Tri.det, Tri.crossP, V3.cross, V3.dot, vg4, towardsStart, towardsIn]
  have hc : checkIntersect towardsStart towardsIn vGroove = some (towardsStart + (9 / 10 : ℝ) • towardsIn, localTheta vg4.N towardsIn, vg4.N) := by
    rw [← ht]
    apply vGroove_fourth <;> norm_num [Tri.hit, Tri.t, Tri.u, Tri.v, Tri.det, Tri.crossP, V3.cross, V3.dot, vg1, vg2, vg3, vg4, towardsStart, towardsIn]
  have hn : normalise (reflectDir towardsIn (((1 : ℤ) : ℝ) • vg4.N)) = towardsOut := vg4_reflect _ _ _ (by norm_num)
  simp only [sicRun]
  rw [sicStep_facet (s := sicStart towardsStart towardsIn 1 0) (by exact hc)]
  simp only [sicStart, grooveDraw_dec, hn, afterFacet]
  have : towardsStart + (9 / 10 : ℝ) • towardsIn + (1 / 10 ^ 9 : ℝ) • towardsOut = towardsAt := by
    ext <;> simp [towardsStart, towardsIn, towardsOut, towardsAt] <;> norm_num
  rw [this]
  rfl

theorem towards_corners : MissesCorners 1 1 towardsAt towardsOut := by
  rintro t - m n ⟨h1, h2⟩
  simp only [towardsAt, towardsOut, V3.add_x, V3.add_y, V3.smul_x, V3.smul_y] at h1 h2
  have h : (25 * m - 70 * n : ℝ) = -46 := by linear_combination -25 * h1 + 70 * h2
  have h' : 25 * m - 70 * n = -46 := by exact_mod_cast h
  omega

theorem towards_inside : StrictlyInside 1 1 towardsAt := by norm_num [StrictlyInside, towardsAt]

/-- The last draw: the ray is absorbed in the layers of the facet it meets. -/
noncomputable def absorbDraw : Draw := ⟨vGroove, 0, 1 / 2, 0, 0, fun _ d _ side => (d, side, some [1])⟩

theorem towards_run : ∃ res, sicRun 1 1 towardsIn [absorbDraw, absorbDraw, absorbDraw, absorbDraw] towardsSic = .inr res := by
  have e0 : exitSide towardsAt towardsOut 1 1 = (0, some (6 / 10 - 1 / 10 ^ 9)) := by
    apply oneExit_eq 1 (i := 0) (by norm_num)
    · norm_num [exitTs, planeT, towardsAt, towardsOut]
    · intro j hj t' ht'
      rcases j with _ | _ | _ | _ | j
      · exact absurd rfl hj
      all_goals
        norm_num [exitTs, planeT, towardsAt, towardsOut] at ht'
        first
          | (rw [← ht']; norm_num; done)
          | (exact absurd ht' (by simp))
  have h1 : checkIntersect towardsAt towardsOut vGroove = none := by
    apply vGroove_none <;> norm_num [Tri.hit, Tri.t, Tri.u, Tri.v, Tri.det, Tri.crossP, V3.cross, V3.dot, vg1, vg2, vg3, vg4, towardsAt, towardsOut]
  have h2 : checkIntersect (towardsAt + translation 1 1 0) towardsOut vGroove = none := by
    apply vGroove_none <;> norm_num [Tri.hit, Tri.t, Tri.u, Tri.v, Tri.det, Tri.crossP, V3.cross, V3.dot, vg1, vg2, vg3, vg4, towardsAt, towardsOut, translation]
  obtain ⟨q, hq⟩ : ∃ q : V3, q = ⟨24 / 25, 0, 3 / 25⟩ := ⟨_, rfl⟩
  have hq' : towardsAt + (6 / 10 - 1 / 10 ^ 9 : ℝ) • towardsOut + translation 1 1 0 = q := by
    rw [hq]; ext <;> simp [towardsAt, towardsOut, translation] <;> norm_num
  have h3 : checkIntersect q towardsOut vGroove = none := by
    rw [hq]
    apply vGroove_none <;> norm_num [Tri.hit, Tri.t, Tri.u, Tri.v, Tri.det, Tri.crossP, V3.cross, V3.dot, vg1, vg2, vg3, vg4, towardsOut]
  have e1 : exitSide q towardsOut 1 1 = (1, some (3 / 70)) := by
    rw [hq]
    apply oneExit_eq 1 (i := 1) (by norm_num)
    · norm_num [exitTs, planeT, towardsOut]
    · intro j hj t' ht'
      rcases j with _ | _ | _ | _ | j
      rotate_left
      · exact absurd rfl hj
      all_goals
        norm_num [exitTs, planeT, towardsOut] at ht'
        first
          | (rw [← ht']; norm_num; done)
          | (exact absurd ht' (by simp))
  obtain ⟨q', hqq⟩ : ∃ q' : V3, q' = ⟨0, 1 / 70, 4 / 35⟩ := ⟨_, rfl⟩
  have hqq' : q + (3 / 70 : ℝ) • towardsOut + translation 1 1 1 = q' := by
    rw [hq, hqq]; ext <;> simp [towardsOut, translation] <;> norm_num
  have h4 : checkIntersect q' towardsOut vGroove = some (q' + vg1.t q' towardsOut • towardsOut, localTheta vg1.N towardsOut, vg1.N) := by
    rw [hqq]
    apply vGroove_first <;> norm_num [Tri.hit, Tri.t, Tri.u, Tri.v, Tri.det, Tri.crossP, V3.cross, V3.dot, vg1, vg2, vg3, vg4, towardsOut]
  have s1 : sicStep 1 1 towardsIn absorbDraw towardsSic = .inl { towardsSic with r := towardsAt + translation 1 1 0, checked := true, i1 := 2 } := by
    simp [sicStep, absorbDraw, towardsSic, h1, e0]
  have hback := translation_back one_pos one_pos towards_inside 0
  have s2 : sicStep 1 1 towardsIn absorbDraw { towardsSic with r := towardsAt + translation 1 1 0, checked := true, i1 := 2 } = .inl { towardsSic with r := q, checked := true, i1 := 3 } := by
    unfold sicStep
    simp only [absorbDraw, towardsSic, h2]
    rw [if_neg (by simp), if_pos (Or.inl ⟨by trivial, by norm_num [towardsOut], by norm_num [towardsAt, translation]⟩), hback, e0]
    simp only [hq']
  have s3 : sicStep 1 1 towardsIn absorbDraw { towardsSic with r := q, checked := true, i1 := 3 } = .inl { towardsSic with r := q', checked := true, i1 := 4 } := by
    unfold sicStep
    simp only [absorbDraw, towardsSic, h3]
    have hb : (⟨backInto q.x 1, backInto q.y 1, q.z⟩ : V3) = q := by
      rw [backInto_self (by rw [hq]; norm_num), backInto_self (by rw [hq]; norm_num)]
    rw [if_neg (by simp), if_pos (Or.inl ⟨by trivial, by norm_num [towardsOut], by rw [hq]; norm_num⟩), hb, e1]
    simp only [hqq']
  have s4 : ∃ res, sicStep 1 1 towardsIn absorbDraw { towardsSic with r := q', checked := true, i1 := 4 } = .inr res := by
    rw [sicStep_facet (s := { towardsSic with r := q', checked := true, i1 := 4 }) (by exact h4)]
    exact ⟨_, rfl⟩
  obtain ⟨res, s4⟩ := s4
  refine ⟨res, ?_⟩
  simp only [sicRun, s1, s2, s3, s4]

/-- The hypotheses of C181 are met by a ray that is reflected downwards along a groove; the next facet is found two cells further, as it should. -/
example : ∃ p N, FirstFacet 1 1 vGroove towardsAt towardsOut p N := by
  obtain ⟨res, hres⟩ := towards_run
  have hu : Unchanged vGroove 0 (1 / 2) [absorbDraw, absorbDraw, absorbDraw, absorbDraw] := by
    intro w hw
    simp only [List.mem_cons, List.not_mem_nil, or_false, or_self] at hw
    subst hw
    exact ⟨rfl, rfl, rfl⟩
  have hl : LeavesFacet 1 1 towardsSic := ⟨⟨_, _, _, _, _, towards_first 1 1 (fun _ _ => 0) .s⟩, by simp [towardsSic], rfl⟩
  rcases C181_next_partial one_pos one_pos vGroove_over hl towards_inside (Or.inl (by norm_num [towardsSic, towardsOut])) towards_corners hu towardsIn hres with ⟨-, -, -, -, p, θ, N, -, -, -, -, -, -, h⟩ | ⟨-, h, -⟩
  · exact ⟨p, N, h⟩
  · refine absurd (h (Or.inl ⟨rfl, by norm_num [towardsSic, towardsOut]⟩)) ?_
    intro hno
    refine hno (6 / 7 - 1 / 10 ^ 9) ⟨1, 1, by norm_num, ?_, vg1, by rw [vGroove_eq]; simp, ?_, ?_⟩
    · norm_num [WellInside, fromCell, towardsSic, towardsAt, towardsOut]
    · norm_num [Parallel, V3.cross, V3.dot, vg1, towardsSic, towardsOut]
    · refine ⟨1 / 35, 6 / 35, by norm_num, by norm_num, by norm_num, ?_⟩
      ext <;> simp [fromCell, towardsSic, towardsAt, towardsOut, vg1] <;> norm_num

end Rayflare
