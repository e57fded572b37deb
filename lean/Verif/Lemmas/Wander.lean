import Verif.Lemmas.Intersect
import Verif.Model.Intersect
import Mathlib.Tactic.IntervalCases

/-!
# Lemmas about a ray that wanders from unit cell to unit cell
-/

namespace Rayflare.Lemmas

open Rayflare.Model

/-- Time at which a coordinate `x` in [0, L] moving with speed `d` reaches the wall ahead, when that lies strictly ahead. -/
noncomputable def wallT (x d L : ℝ) : Option ℝ :=
  if 0 < d then (if x < L then some ((L - x) / d) else none) else if d < 0 then (if 0 < x then some (x / -d) else none) else none

/-- Coordinate at which a ray that left through the wall ahead comes in again. -/
noncomputable def entryC (d L : ℝ) : ℝ := if 0 < d then 0 else L

theorem planes_wall {x d L : ℝ} (h0 : 0 ≤ x) (h1 : x ≤ L) :
    (planeT (-(L - x)) (-d) = if 0 < d then wallT x d L else none) ∧ (planeT (0 - x) d = if d < 0 then wallT x d L else none) := by
  constructor
  · split_ifs with h
    · unfold wallT
      rw [if_pos h]
      split_ifs with hx
      · rw [planeT_neg_neg (by linarith) (by linarith)]; congr 1; rw [neg_div_neg_eq]
      · have : x = L := le_antisymm h1 (not_lt.mp hx)
        subst this
        unfold planeT; simp
    · exact planeT_none (by linarith) (by linarith [not_lt.mp h])
  · split_ifs with h
    · unfold wallT
      rw [if_neg (by linarith), if_pos h]
      split_ifs with hx
      · rw [planeT_neg_neg (by linarith) h]; congr 1; rw [zero_sub, neg_div, div_neg]
      · have : x = 0 := le_antisymm (not_lt.mp hx) h0
        subst this
        unfold planeT; simp
    · exact planeT_none (by linarith) (not_lt.mp h)

theorem wallT_pos {x d L t : ℝ} (h : wallT x d L = some t) : 0 < t := by
  unfold wallT at h
  split_ifs at h with a b c e
  · have : (L - x) / d = t := by simpa using h
    rw [← this]; exact div_pos (by linarith) a
  · have : x / -d = t := by simpa using h
    rw [← this]; exact div_pos e (by linarith)

/-- Reaching the wall ahead and coming in on the other side. -/
theorem wallT_entry {x d L t : ℝ} (h : wallT x d L = some t) :
    (0 < d ∧ x + t * d = L ∧ x + t * d - L = entryC d L) ∨ (d < 0 ∧ x + t * d = 0 ∧ x + t * d + L = entryC d L) := by
  unfold wallT at h
  split_ifs at h with a b c e
  · have : (L - x) / d = t := by simpa using h
    left
    have e : x + t * d = L := by rw [← this]; field_simp; ring
    refine ⟨a, e, ?_⟩
    rw [e]; unfold entryC; rw [if_pos a]; ring
  · have : x / -d = t := by simpa using h
    right
    have e' : x + t * d = 0 := by
      have hd : d ≠ 0 := c.ne
      rw [← this]; field_simp; ring
    refine ⟨c, e', ?_⟩
    rw [e']; unfold entryC; rw [if_neg a]; ring

/-- What `exit_side` and the translation that goes with it do, axis by axis. -/
theorem exitSide_axes {r d : V3} {Lx Ly : ℝ} (hx0 : 0 ≤ r.x) (hx1 : r.x ≤ Lx) (hy0 : 0 ≤ r.y) (hy1 : r.y ≤ Ly) {t : ℝ}
    (h : (exitSide r d Lx Ly).2 = some t) :
    (wallT r.x d.x Lx = some t ∧ (r + t • d + translation Lx Ly (exitSide r d Lx Ly).1).x = entryC d.x Lx ∧
      (r + t • d + translation Lx Ly (exitSide r d Lx Ly).1).y = r.y + t * d.y ∧ (∀ u, wallT r.y d.y Ly = some u → t ≤ u)) ∨
    (wallT r.y d.y Ly = some t ∧ (r + t • d + translation Lx Ly (exitSide r d Lx Ly).1).y = entryC d.y Ly ∧
      (r + t • d + translation Lx Ly (exitSide r d Lx Ly).1).x = r.x + t * d.x ∧ (∀ u, wallT r.x d.x Lx = some u → t ≤ u)) := by
  obtain ⟨i, hi, hexit, hmin⟩ := exitSide_spec r d Lx Ly
  obtain ⟨px, px'⟩ := planes_wall (d := d.x) hx0 hx1
  obtain ⟨py, py'⟩ := planes_wall (d := d.y) hy0 hy1
  have hts : exitTs r d Lx Ly = [if 0 < d.y then wallT r.y d.y Ly else none, if 0 < d.x then wallT r.x d.x Lx else none,
      if d.y < 0 then wallT r.y d.y Ly else none, if d.x < 0 then wallT r.x d.x Lx else none] := by
    unfold exitTs; rw [px, px', py, py']
  rw [hexit] at h ⊢
  simp only at h ⊢
  rw [h] at hmin
  have hle : ∀ u, some u ∈ exitTs r d Lx Ly → t ≤ u := by
    intro u hu; have := hmin _ hu; simpa [leInf] using this
  have lx : ∀ u, wallT r.x d.x Lx = some u → t ≤ u := by
    intro u hu
    apply hle
    rcases lt_trichotomy d.x 0 with q | q | q
    · rw [hts, ← hu]; simp [q]
    · rw [wallT, if_neg (by linarith), if_neg (by linarith)] at hu; simp at hu
    · rw [hts, ← hu]; simp [q]
  have ly : ∀ u, wallT r.y d.y Ly = some u → t ≤ u := by
    intro u hu
    apply hle
    rcases lt_trichotomy d.y 0 with q | q | q
    · rw [hts, ← hu]; simp [q]
    · rw [wallT, if_neg (by linarith), if_neg (by linarith)] at hu; simp at hu
    · rw [hts, ← hu]; simp [q]
  rw [hts] at h
  interval_cases i
  · simp only [List.getD_cons_zero] at h
    split_ifs at h with q
    right
    refine ⟨h, ?_, ?_, lx⟩
    · rcases wallT_entry h with ⟨_, _, e⟩ | ⟨q', _, _⟩
      · rw [← e]; simp [translation]; ring
      · linarith
    · simp [translation]
  · simp only [List.getD_cons_zero, List.getD_cons_succ] at h
    split_ifs at h with q
    left
    refine ⟨h, ?_, ?_, ly⟩
    · rcases wallT_entry h with ⟨_, _, e⟩ | ⟨q', _, _⟩
      · rw [← e]; simp [translation]; ring
      · linarith
    · simp [translation]
  · simp only [List.getD_cons_zero, List.getD_cons_succ] at h
    split_ifs at h with q
    right
    refine ⟨h, ?_, ?_, lx⟩
    · rcases wallT_entry h with ⟨q', _, _⟩ | ⟨_, _, e⟩
      · linarith
      · rw [← e]; simp [translation]
    · simp [translation]
  · simp only [List.getD_cons_zero, List.getD_cons_succ] at h
    split_ifs at h with q
    left
    refine ⟨h, ?_, ?_, ly⟩
    · rcases wallT_entry h with ⟨q', _, _⟩ | ⟨_, _, e⟩
      · linarith
      · rw [← e]; simp [translation]
    · simp [translation]

theorem backInto_mem {x L : ℝ} (hL : 0 < L) : 0 ≤ backInto x L ∧ backInto x L ≤ L := by
  unfold backInto
  split_ifs with h
  · have e : x - L * ((⌊x / L⌋ : ℤ) : ℝ) = L * Int.fract (x / L) := by
      rw [Int.fract]; field_simp
    rw [e]
    have a := Int.fract_nonneg (x / L)
    have b := Int.fract_lt_one (x / L)
    constructor <;> nlinarith
  · push Not at h
    exact ⟨h.2, h.1⟩

theorem backInto_id {x L : ℝ} (h0 : 0 ≤ x) (h1 : x ≤ L) : backInto x L = x := by
  unfold backInto
  rw [if_neg]
  push Not
  exact ⟨h1, h0⟩

/-- Time needed to cross the cell along one axis. -/
noncomputable def crossT (d L : ℝ) : ℝ := L / |d|

theorem wallT_from_entry {d L : ℝ} (hL : 0 < L) (hd : d ≠ 0) : wallT (entryC d L) d L = some (crossT d L) := by
  unfold wallT entryC crossT
  rcases lt_or_gt_of_ne hd with h | h
  · have h' : ¬ 0 < d := by linarith
    simp only [if_neg h', if_pos h, if_pos hL, abs_of_neg h]
  · rw [if_pos h, if_pos h, if_pos hL, abs_of_pos h]; simp

theorem wallT_ne {x d L t : ℝ} (h : wallT x d L = some t) : d ≠ 0 := by
  rintro rfl
  simp [wallT] at h

theorem entryC_mem {d L : ℝ} (hL : 0 < L) : 0 ≤ entryC d L ∧ entryC d L ≤ L := by
  unfold entryC
  split_ifs <;> constructor <;> linarith

/-- A ray that came in on one side, moves for `t` no longer than the cell is wide: the wall is that much nearer. -/
theorem wallT_later {d L t u : ℝ} (hd : d ≠ 0) (h0 : 0 ≤ t) (h1 : t ≤ crossT d L) :
    (0 ≤ entryC d L + t * d ∧ entryC d L + t * d ≤ L) ∧ (wallT (entryC d L + t * d) d L = some u → t + u = crossT d L) := by
  unfold crossT at h1 ⊢
  rcases lt_or_gt_of_ne hd with h | h
  · have he : entryC d L = L := by unfold entryC; rw [if_neg (by linarith)]
    rw [abs_of_neg h] at h1 ⊢
    rw [le_div_iff₀ (by linarith)] at h1
    rw [he]
    refine ⟨⟨by nlinarith, by nlinarith⟩, ?_⟩
    intro hw
    rcases wallT_entry hw with ⟨q, _, _⟩ | ⟨_, e, _⟩
    · linarith
    · rw [eq_div_iff (by linarith)]; linarith
  · have he : entryC d L = 0 := by unfold entryC; rw [if_pos h]
    rw [abs_of_pos h] at h1 ⊢
    rw [le_div_iff₀ h] at h1
    rw [he]
    refine ⟨⟨by nlinarith, by nlinarith⟩, ?_⟩
    intro hw
    rcases wallT_entry hw with ⟨_, e, _⟩ | ⟨q, _, _⟩
    · rw [eq_div_iff (by linarith)]; linarith
    · linarith

/-- One step of a ray from cell to cell: put back into the cell, moved on to the side it leaves through, and translated. -/
def CellStep (Lx Ly : ℝ) (d r r' : V3) (t : ℝ) : Prop :=
  (exitSide ⟨backInto r.x Lx, backInto r.y Ly, r.z⟩ d Lx Ly).2 = some t ∧
    r' = (⟨backInto r.x Lx, backInto r.y Ly, r.z⟩ : V3) + t • d + translation Lx Ly (exitSide ⟨backInto r.x Lx, backInto r.y Ly, r.z⟩ d Lx Ly).1

theorem cellStep_axes {Lx Ly : ℝ} (hLx : 0 < Lx) (hLy : 0 < Ly) {d r r' : V3} {t : ℝ} (h : CellStep Lx Ly d r r' t) :
    0 < t ∧ r'.z = r.z + t * d.z ∧
    ((wallT (backInto r.x Lx) d.x Lx = some t ∧ r'.x = entryC d.x Lx ∧ r'.y = backInto r.y Ly + t * d.y ∧
        (∀ u, wallT (backInto r.y Ly) d.y Ly = some u → t ≤ u)) ∨
     (wallT (backInto r.y Ly) d.y Ly = some t ∧ r'.y = entryC d.y Ly ∧ r'.x = backInto r.x Lx + t * d.x ∧
        (∀ u, wallT (backInto r.x Lx) d.x Lx = some u → t ≤ u))) := by
  obtain ⟨h1, h2⟩ := h
  have hx := backInto_mem (x := r.x) hLx
  have hy := backInto_mem (x := r.y) hLy
  have := exitSide_axes (r := ⟨backInto r.x Lx, backInto r.y Ly, r.z⟩) (d := d) hx.1 hx.2 hy.1 hy.2 h1
  rw [← h2] at this
  simp only at this
  refine ⟨?_, ?_, this⟩
  · rcases this with ⟨q, _⟩ | ⟨q, _⟩ <;> exact wallT_pos q
  · rw [h2]
    have : ∀ i, (translation Lx Ly i).z = 0 := by
      intro i; unfold translation; split <;> rfl
    simp [this]

/-- A ray that is just coming into a cell along one axis. -/
def JustIn (Lx Ly : ℝ) (d r : V3) : Prop := (d.x ≠ 0 ∧ r.x = entryC d.x Lx) ∨ (d.y ≠ 0 ∧ r.y = entryC d.y Ly)

theorem cellStep_justIn {Lx Ly : ℝ} (hLx : 0 < Lx) (hLy : 0 < Ly) {d r r' : V3} {t : ℝ} (h : CellStep Lx Ly d r r' t) : JustIn Lx Ly d r' := by
  obtain ⟨_, _, ⟨a, b, _⟩ | ⟨a, b, _⟩⟩ := cellStep_axes hLx hLy h
  · exact Or.inl ⟨wallT_ne a, b⟩
  · exact Or.inr ⟨wallT_ne a, b⟩

/-- The least time in which a cell is crossed along an axis. -/
noncomputable def leastT (Lx Ly : ℝ) (d : V3) : ℝ :=
  if d.x = 0 then crossT d.y Ly else if d.y = 0 then crossT d.x Lx else min (crossT d.x Lx) (crossT d.y Ly)

theorem leastT_x {Lx Ly : ℝ} {d : V3} (h : d.x ≠ 0) : leastT Lx Ly d ≤ crossT d.x Lx := by
  unfold leastT
  rw [if_neg h]
  split_ifs
  · exact le_refl _
  · exact min_le_left _ _

theorem leastT_y {Lx Ly : ℝ} {d : V3} (h : d.y ≠ 0) : leastT Lx Ly d ≤ crossT d.y Ly := by
  unfold leastT
  split_ifs
  · exact le_refl _
  · exact min_le_right _ _

theorem crossT_pos {d L : ℝ} (hL : 0 < L) (hd : d ≠ 0) : 0 < crossT d L := div_pos hL (abs_pos.mpr hd)

theorem leastT_pos {Lx Ly : ℝ} (hLx : 0 < Lx) (hLy : 0 < Ly) {d : V3} (h : d.x ≠ 0 ∨ d.y ≠ 0) : 0 < leastT Lx Ly d := by
  unfold leastT
  split_ifs with a b
  · exact crossT_pos hLy (h.resolve_left (not_not.mpr a))
  · exact crossT_pos hLx a
  · exact lt_min (crossT_pos hLx a) (crossT_pos hLy b)

/-- From a point just inside a cell, two steps take at least the least crossing time. -/
theorem two_steps {Lx Ly : ℝ} (hLx : 0 < Lx) (hLy : 0 < Ly) {d r0 r1 r2 : V3} {t u : ℝ} (h0 : JustIn Lx Ly d r0)
    (h1 : CellStep Lx Ly d r0 r1 t) (h2 : CellStep Lx Ly d r1 r2 u) : leastT Lx Ly d ≤ t + u := by
  obtain ⟨tp, _, c1⟩ := cellStep_axes hLx hLy h1
  obtain ⟨up, _, c2⟩ := cellStep_axes hLx hLy h2
  rcases h0 with ⟨hd, he⟩ | ⟨hd, he⟩
  · have m := entryC_mem (d := d.x) hLx
    have b : backInto r0.x Lx = entryC d.x Lx := by rw [he]; exact backInto_id m.1 m.2
    have w := wallT_from_entry hLx hd
    rw [← b] at w
    rcases c1 with ⟨a, _⟩ | ⟨a, a2, a3, a4⟩
    · rw [w] at a
      have : crossT d.x Lx = t := by simpa using a
      linarith [leastT_x (Lx := Lx) (Ly := Ly) hd]
    · have tle := a4 _ w
      have hdy := wallT_ne a
      rw [b] at a3
      obtain ⟨⟨q0, q1⟩, q2⟩ := wallT_later (u := u) hd tp.le tle
      rcases c2 with ⟨e, _⟩ | ⟨e, _⟩
      · rw [a3, backInto_id q0 q1] at e
        linarith [q2 e, leastT_x (Lx := Lx) (Ly := Ly) hd]
      · have m' := entryC_mem (d := d.y) hLy
        rw [a2, backInto_id m'.1 m'.2, wallT_from_entry hLy hdy] at e
        have : crossT d.y Ly = u := by simpa using e
        linarith [leastT_y (Lx := Lx) (Ly := Ly) hdy]
  · have m := entryC_mem (d := d.y) hLy
    have b : backInto r0.y Ly = entryC d.y Ly := by rw [he]; exact backInto_id m.1 m.2
    have w := wallT_from_entry hLy hd
    rw [← b] at w
    rcases c1 with ⟨a, a2, a3, a4⟩ | ⟨a, _⟩
    · have tle := a4 _ w
      have hdx := wallT_ne a
      rw [b] at a3
      obtain ⟨⟨q0, q1⟩, q2⟩ := wallT_later (u := u) hd tp.le tle
      rcases c2 with ⟨e, _⟩ | ⟨e, _⟩
      · have m' := entryC_mem (d := d.x) hLx
        rw [a2, backInto_id m'.1 m'.2, wallT_from_entry hLx hdx] at e
        have : crossT d.x Lx = u := by simpa using e
        linarith [leastT_x (Lx := Lx) (Ly := Ly) hdx]
      · rw [a3, backInto_id q0 q1] at e
        linarith [q2 e, leastT_y (Lx := Lx) (Ly := Ly) hd]
    · rw [w] at a
      have : crossT d.y Ly = t := by simpa using a
      linarith [leastT_y (Lx := Lx) (Ly := Ly) hd]

/-- A ray that goes from cell to cell for ever passes every height. -/
theorem cells_height {Lx Ly : ℝ} (hLx : 0 < Lx) (hLy : 0 < Ly) {d : V3} {r : ℕ → V3} (h : ∀ n, ∃ t, CellStep Lx Ly d (r n) (r (n + 1)) t) (B : ℝ) :
    ∃ n, ∃ τ, B ≤ τ ∧ (r n).z = (r 0).z + τ * d.z := by
  choose t ht using h
  have hj : ∀ n, JustIn Lx Ly d (r (n + 1)) := fun n => cellStep_justIn hLx hLy (ht n)
  have hT : 0 < leastT Lx Ly d := leastT_pos hLx hLy (by
    rcases hj 0 with h | h
    · exact Or.inl h.1
    · exact Or.inr h.1)
  have key : ∀ k : ℕ, ∃ τ, (k : ℝ) * leastT Lx Ly d ≤ τ ∧ (r (2 * k + 1)).z = (r 0).z + τ * d.z := by
    intro k
    induction k with
    | zero =>
      obtain ⟨p, q, _⟩ := cellStep_axes hLx hLy (ht 0)
      exact ⟨t 0, by simpa using p.le, q⟩
    | succ k ih =>
      obtain ⟨τ, h1, h2⟩ := ih
      obtain ⟨_, q1, _⟩ := cellStep_axes hLx hLy (ht (2 * k + 1))
      obtain ⟨_, q2, _⟩ := cellStep_axes hLx hLy (ht (2 * k + 1 + 1))
      have := two_steps hLx hLy (hj (2 * k)) (ht (2 * k + 1)) (ht (2 * k + 1 + 1))
      refine ⟨τ + (t (2 * k + 1) + t (2 * k + 1 + 1)), ?_, ?_⟩
      · push_cast; linarith
      · have e : 2 * (k + 1) + 1 = 2 * k + 1 + 1 + 1 := by ring
        rw [e, q2, q1, h2]; ring
  obtain ⟨k, hk⟩ := exists_nat_ge (B / leastT Lx Ly d)
  obtain ⟨τ, h1, h2⟩ := key k
  refine ⟨_, τ, ?_, h2⟩
  rw [div_le_iff₀ hT] at hk
  linarith

end Rayflare.Lemmas
