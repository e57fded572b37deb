import Verif.Spec.Restart
import Verif.Props.Wander
import Verif.Props.Geometry2

/-!
# Property C132: a ray that misses the surface is sent to it again from its own side
-/

namespace Rayflare

open Rayflare.Np Rayflare.Model Rayflare.Spec Rayflare.Lemmas

/-! ## Helper lemmas -/

/-- What is known as long as no facet was met. -/
structure RestartInv (Lx Ly : ℝ) (r0 d0 : V3) (side0 : ℤ) (n0 : ℕ) (ws : List Draw) (s : Sic) : Prop where
  hit : s.i1 ≠ 0 → s.θ ≠ none
  checked : s.checked = true → s.i1 ≠ 0
  fresh : s.i1 = 0 → s.θ = none ∧ s.d = d0 ∧ s.side = side0 ∧ s.nInt = n0 ∧ s.misses = ws.length ∧ ws.length ≤ 100 ∧
    s.r = (match ws.getLast? with | none => r0 | some w => relaunch Lx Ly w d0)

theorem restart_inv (Lx Ly : ℝ) (r0 d0 : V3) (side0 : ℤ) (n0 : ℕ) (ws : List Draw) : ∀ s, sicRun Lx Ly d0 ws (sicStart r0 d0 side0 n0) = .inl s →
    RestartInv Lx Ly r0 d0 side0 n0 ws s := by
  induction ws using List.reverseRecOn with
  | nil =>
    intro s hs
    simp only [sicRun, Sum.inl.injEq] at hs
    subst hs
    exact ⟨by simp [sicStart], by simp [sicStart], by simp [sicStart]⟩
  | append_singleton ws w ih =>
    intro s hs
    rw [sicRun_append] at hs
    cases h0 : sicRun Lx Ly d0 ws (sicStart r0 d0 side0 n0) with
    | inr res => simp [h0] at hs
    | inl s0 =>
      rw [h0] at hs
      obtain ⟨i1, i2, i3⟩ := ih s0 h0
      simp only at hs
      unfold sicStep at hs
      simp only at hs
      split at hs
      · split_ifs at hs with h1 h2 h3 h4
        · simp only [Sum.inl.injEq] at hs
          subst hs
          exact ⟨fun _ => i1 (by omega), fun _ => by simp, fun h => by simp at h⟩
        · simp only [Sum.inl.injEq] at hs
          subst hs
          have hi : s0.i1 = 0 := by omega
          obtain ⟨a, b, c, e, f, g, -⟩ := i3 hi
          refine ⟨fun h => absurd rfl h, fun h => by simp_all, fun _ => ⟨a, b, c, e, by simp [f], by simp; omega, ?_⟩⟩
          simp [b]
        · split at hs
          · simp at hs
          · simp only [Sum.inl.injEq] at hs
            subst hs
            have hi : s0.i1 ≠ 0 := i2 (by simpa using h1)
            exact ⟨fun _ => i1 hi, fun _ => by simp, fun h => by simp at h⟩
      · split at hs
        · simp at hs
        · simp only [Sum.inl.injEq] at hs
          subst hs
          exact ⟨fun _ => by simp, fun h => by simp at h, fun h => by simp at h⟩

theorem relaunch_side {Lx Ly : ℝ} (hLx : 0 ≤ Lx) (hLy : 0 ≤ Ly) {w : Draw} (hw : 0 ≤ w.rx ∧ w.rx ≤ 1 ∧ 0 ≤ w.ry ∧ w.ry ≤ 1) (d : V3) :
    OnItsSide Lx Ly w d (relaunch Lx Ly w d) := by
  obtain ⟨a, b, c, e⟩ := hw
  have h1 := mul_nonneg a hLx
  have h2 := mul_nonneg c hLy
  have h3 : w.rx * Lx ≤ Lx := by nlinarith
  have h4 : w.ry * Ly ≤ Ly := by nlinarith
  unfold OnItsSide relaunch
  split_ifs with hz
  · exact ⟨⟨h1, h3, h2, h4⟩, fun _ => by simp only; linarith, fun h => absurd hz (not_lt.mpr h)⟩
  · exact ⟨⟨h1, h3, h2, h4⟩, fun h => absurd h hz, fun _ => by simp only; linarith⟩

theorem sicRun_split (Lx Ly : ℝ) (d0 : V3) : ∀ (ws : List Draw) (s : Sic) (res : SicRes), sicRun Lx Ly d0 ws s = .inr res →
    ∃ ws1 w ws2 s', ws = ws1 ++ w :: ws2 ∧ sicRun Lx Ly d0 ws1 s = .inl s' ∧ sicStep Lx Ly d0 w s' = .inr res := by
  intro ws
  induction ws with
  | nil => intro s res h; simp [sicRun] at h
  | cons w ws ih =>
    intro s res h
    simp only [sicRun] at h
    cases hw : sicStep Lx Ly d0 w s with
    | inl s1 =>
      rw [hw] at h
      obtain ⟨ws1, w', ws2, s', rfl, h1, h2⟩ := ih s1 res h
      exact ⟨w :: ws1, w', ws2, s', rfl, by simp only [sicRun, hw, h1], h2⟩
    | inr r =>
      rw [hw] at h
      exact ⟨[], w, ws, s, rfl, rfl, by rw [hw, ← h]⟩

theorem sicStep_gaveUp {Lx Ly : ℝ} {d0 : V3} {w : Draw} {s : Sic} {ot : ℝ} {r' d' : V3} {n' : ℕ} {side' : ℤ} (h : sicStep Lx Ly d0 w s = .inr (.gaveUp ot r' d' n' side')) :
    checkIntersect s.r s.d w.tris = none ∧ d' = ⟨s.d.x, s.d.y, -s.d.z⟩ ∧ side' = s.side ∧ n' = s.nInt ∧ 100 ≤ s.misses ∧ s.i1 = 0 := by
  unfold sicStep at h
  simp only at h
  split at h
  · rename_i hmiss
    split_ifs at h with h1 h2 h3 h4
    · simp only [Sum.inr.injEq, SicRes.gaveUp.injEq] at h
      exact ⟨hmiss, h.2.2.1.symm, h.2.2.2.2.symm, h.2.2.2.1.symm, by omega, by omega⟩
    · split at h <;> simp at h
    · simp at h
  · split at h <;> simp at h

theorem restart_points (Lx Ly : ℝ) (r0 d0 : V3) (side0 : ℤ) (n0 : ℕ) (ws : List Draw) : ∀ s, sicRun Lx Ly d0 ws (sicStart r0 d0 side0 n0) = .inl s → s.i1 = 0 →
    ∃ p : ℕ → V3, p 0 = r0 ∧ (∀ i (hi : i < ws.length), checkIntersect (p i) d0 ws[i].tris = none ∧ p (i + 1) = relaunch Lx Ly ws[i] d0) ∧ s.r = p ws.length := by
  induction ws using List.reverseRecOn with
  | nil =>
    intro s hs _
    simp only [sicRun, Sum.inl.injEq] at hs
    subst hs
    exact ⟨fun _ => r0, rfl, by simp, rfl⟩
  | append_singleton ws w ih =>
    intro s hs hi
    rw [sicRun_append] at hs
    cases h0 : sicRun Lx Ly d0 ws (sicStart r0 d0 side0 n0) with
    | inr res => simp [h0] at hs
    | inl s0 =>
      rw [h0] at hs
      obtain ⟨-, i2, i3⟩ := restart_inv Lx Ly r0 d0 side0 n0 ws s0 h0
      simp only at hs
      unfold sicStep at hs
      simp only at hs
      split at hs
      · rename_i hmiss
        split_ifs at hs with h1 h2 h3 h4
        · simp only [Sum.inl.injEq] at hs
          subst hs; simp at hi
        · simp only [Sum.inl.injEq] at hs
          subst hs
          have hi0 : s0.i1 = 0 := by omega
          obtain ⟨-, b, -⟩ := i3 hi0
          obtain ⟨p, p0, p1, p2⟩ := ih s0 h0 hi0
          refine ⟨Function.update p (ws.length + 1) (relaunch Lx Ly w d0), by simp [Function.update, p0], fun i hil => ?_, by simp [b]⟩
          simp only [List.length_append, List.length_singleton] at hil
          rcases Nat.lt_or_ge i ws.length with hlt | hge
          · rw [Function.update_of_ne (by omega), Function.update_of_ne (by omega), List.getElem_append_left hlt]
            exact p1 i hlt
          · have : i = ws.length := by omega
            subst this
            rw [Function.update_of_ne (by omega), Function.update_self, List.getElem_concat_length (by rfl)]
            exact ⟨by rw [← p2, ← b]; exact hmiss, rfl⟩
        · split at hs
          · simp at hs
          · simp only [Sum.inl.injEq] at hs
            subst hs; simp at hi
      · split at hs
        · simp at hs
        · simp only [Sum.inl.injEq] at hs
          subst hs; simp at hi

/-! ## The property -/

/-- **C132, restart.** As long as a ray has met no facet, it has its original direction and medium, and after each miss (at most a hundred) it starts anew over the unit cell on the side it comes from. -/
theorem C132_restart (Lx Ly : ℝ) (hLx : 0 ≤ Lx) (hLy : 0 ≤ Ly) (r d : V3) (side : ℤ) (nInt : ℕ) (ws : List Draw) (w : Draw) (hw : 0 ≤ w.rx ∧ w.rx ≤ 1 ∧ 0 ≤ w.ry ∧ w.ry ≤ 1)
    (s : Sic) (hs : sicRun Lx Ly d (ws ++ [w]) (sicStart r d side nInt) = .inl s) (hnone : s.θ = none) :
    s.d = d ∧ s.side = side ∧ s.nInt = nInt ∧ ws.length < 100 ∧ OnItsSide Lx Ly w d s.r := by
  obtain ⟨i1, -, i3⟩ := restart_inv Lx Ly r d side nInt _ s hs
  have hi : s.i1 = 0 := by by_contra h; exact i1 h hnone
  obtain ⟨-, b, c, e, -, g, k⟩ := i3 hi
  refine ⟨b, c, e, by simpa using g, ?_⟩
  rw [k]
  simp only [List.getLast?_append, List.getLast?_singleton, Option.some_or]
  exact relaunch_side hLx hLy hw d

/-- **C132, giving up.** A ray is sent back without having met the surface only after it has missed it 101 times in succession: from where it came, and from a hundred new starting points on its side. -/
theorem C132_giving_up (Lx Ly : ℝ) (hLx : 0 ≤ Lx) (hLy : 0 ≤ Ly) (r d : V3) (side : ℤ) (nInt : ℕ) (ws : List Draw) (hws : ∀ w ∈ ws, 0 ≤ w.rx ∧ w.rx ≤ 1 ∧ 0 ≤ w.ry ∧ w.ry ≤ 1)
    (ot : ℝ) (r' d' : V3) (nInt' : ℕ) (side' : ℤ) (hs : sicRun Lx Ly d ws (sicStart r d side nInt) = .inr (.gaveUp ot r' d' nInt' side')) :
    d' = ⟨d.x, d.y, -d.z⟩ ∧ side' = side ∧ nInt' = nInt ∧ ∃ p : ℕ → V3, p 0 = r ∧ ∀ i ≤ 100, ∃ w, ws[i]? = some w ∧
      checkIntersect (p i) d w.tris = none ∧ (i < 100 → OnItsSide Lx Ly w d (p (i + 1))) := by
  obtain ⟨ws1, w, ws2, s, rfl, h1, h2⟩ := sicRun_split Lx Ly d ws _ _ hs
  obtain ⟨hmiss, hd, hsd, hn, hm, hi⟩ := sicStep_gaveUp h2
  obtain ⟨-, b, c, e, f, g, -⟩ := (restart_inv Lx Ly r d side nInt _ s h1).fresh hi
  have hlen : ws1.length = 100 := by omega
  obtain ⟨p, p0, p1, p2⟩ := restart_points Lx Ly r d side nInt ws1 s h1 hi
  refine ⟨by rw [hd, b], by rw [hsd, c], by rw [hn, e], p, p0, fun i hle => ?_⟩
  rcases Nat.lt_or_ge i 100 with hlt | hge
  · have hl : i < ws1.length := by omega
    obtain ⟨q1, q2⟩ := p1 i hl
    refine ⟨ws1[i], List.getElem?_append_left hl |>.trans (List.getElem?_eq_getElem hl), q1, fun _ => ?_⟩
    rw [q2]
    exact relaunch_side hLx hLy (hws _ (by simp)) d
  · have : i = ws1.length := by omega
    subst this
    refine ⟨w, by simp, ?_, fun h => by omega⟩
    rw [← p2, ← b]; exact hmiss

/-! ## Examples -/

/-- A ray going up from above the triangle `exTri` misses it and is restarted below it. -/
example : ∃ s, sicRun 10 10 ⟨0, 0, 1⟩ ([] ++ [exDraw]) (sicStart ⟨1, 1, 5⟩ ⟨0, 0, 1⟩ (-1) 0) = .inl s ∧ s.θ = none ∧ s.r.z < 0 := by
  have hmiss : checkIntersect ⟨1, 1, 5⟩ ⟨0, 0, 1⟩ exDraw.tris = none := checkIntersect_single_miss (exTri_miss _ (by norm_num))
  refine ⟨_, by simp only [List.nil_append, sicRun, sicStep, sicStart, hmiss]; rfl, rfl, ?_⟩
  simp [relaunch, exDraw]
  norm_num

/-- At a surface without facets a ray is sent back after 101 misses. -/
theorem exEmpty_misses : ∀ m ≤ 100, ∃ s, sicRun 10 10 ⟨0, 0, -1⟩ (List.replicate m { exDraw with tris := [] }) (sicStart ⟨1, 1, 5⟩ ⟨0, 0, -1⟩ 1 0) = .inl s ∧
    s.d = ⟨0, 0, -1⟩ ∧ s.checked = false ∧ s.i1 = 0 ∧ s.misses = m := by
  intro m
  induction m with
  | zero => intro _; exact ⟨_, rfl, rfl, rfl, rfl, rfl⟩
  | succ m ih =>
    intro hm
    obtain ⟨s, h1, h2, h3, h4, h5⟩ := ih (by omega)
    refine ⟨{ s with r := relaunch 10 10 { exDraw with tris := [] } s.d, misses := s.misses + 1, i1 := 0 }, ?_, h2, h3, rfl, by simp [h5]⟩
    rw [List.replicate_succ', sicRun_append, h1]
    have hc : checkIntersect s.r s.d [] = none := by simp [checkIntersect]
    simp only [sicStep, hc, h3, h4, h5]
    simp; omega

example : ∃ ot r' d' n' side', sicRun 10 10 ⟨0, 0, -1⟩ (List.replicate 101 { exDraw with tris := [] }) (sicStart ⟨1, 1, 5⟩ ⟨0, 0, -1⟩ 1 0) = .inr (.gaveUp ot r' d' n' side') := by
  obtain ⟨s, h1, h2, h3, h4, h5⟩ := exEmpty_misses 100 le_rfl
  have hc : checkIntersect s.r s.d [] = none := by simp [checkIntersect]
  refine ⟨polar ⟨s.d.x, s.d.y, -s.d.z⟩, s.r, ⟨s.d.x, s.d.y, -s.d.z⟩, s.nInt, s.side, ?_⟩
  rw [List.replicate_succ', sicRun_append, h1]
  simp only [sicStep, hc, h3, h4, h5]
  simp

end Rayflare
