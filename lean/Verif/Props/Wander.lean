import Verif.Lemmas.Wander
import Verif.Lemmas.Trapped
import Verif.Model.TraceSurface
import Verif.Props.TraceSurface

/-!
# Properties C127 and C128: a ray does not travel for ever from unit cell to unit cell, and is not reflected for ever on one side

`single_interface_check` runs in a `while` loop.  Between two meetings with a facet the ray is moved from one unit cell to the next, and this goes on until it meets a facet
or is past the surface.
-/

namespace Rayflare

open Rayflare.Model Rayflare.Spec Rayflare.Lemmas

/-- The first `n` draws of an infinite supply. -/
def firstDraws (w : ℕ → Draw) (n : ℕ) : List Draw := (List.range n).map w

theorem sicRun_append (Lx Ly : ℝ) (d0 : V3) : ∀ (ws : List Draw) (w : Draw) (s : Sic),
    sicRun Lx Ly d0 (ws ++ [w]) s = match sicRun Lx Ly d0 ws s with
      | .inl s' => sicStep Lx Ly d0 w s'
      | .inr r => .inr r := by
  intro ws
  induction ws with
  | nil =>
    intro w s
    simp only [List.nil_append, sicRun]
    cases sicStep Lx Ly d0 w s <;> rfl
  | cons a ws ih =>
    intro w s
    simp only [List.cons_append, sicRun]
    cases sicStep Lx Ly d0 a s with
    | inl s' => exact ih w s'
    | inr r => rfl

/-- What one iteration that does not return can be. -/
theorem sicStep_kinds {Lx Ly : ℝ} {d0 : V3} {w : Draw} {s s' : Sic} (h : sicStep Lx Ly d0 w s = .inl s') :
    s'.nInt = s.nInt + 1 ∨
    (s'.nInt = s.nInt ∧ s.checked = false ∧ s'.checked = true) ∨
    (s'.nInt = s.nInt ∧ s.checked = false ∧ s'.checked = false ∧ s.misses < 100 ∧ s'.misses = s.misses + 1) ∨
    (s'.nInt = s.nInt ∧ s.checked = true ∧ s'.checked = true ∧ s'.d = s.d ∧ s'.side = s.side ∧
      ((s.side = 1 ∧ s.d.z < 0 ∧ s.r.z > w.zmin) ∨ (s.side = -1 ∧ s.d.z > 0 ∧ s.r.z < w.zmax)) ∧ ∃ t, CellStep Lx Ly s.d s.r s'.r t) := by
  unfold sicStep at h
  simp only at h
  rcases hc : checkIntersect s.r s.d w.tris with _ | ⟨p, θ, Nf⟩
  · rw [hc] at h
    simp only at h
    split_ifs at h with h1 h2 h3 h4
    · right; left
      have := Sum.inl.inj h
      subst this
      exact ⟨rfl, by simpa using h1, rfl⟩
    · right; right; left
      have := Sum.inl.inj h
      subst this
      exact ⟨rfl, by simpa using h1, by simpa using h1, h3, rfl⟩
    · right; right; right
      rcases ht : (exitSide ⟨backInto s.r.x Lx, backInto s.r.y Ly, s.r.z⟩ s.d Lx Ly).2 with _ | t
      · rw [ht] at h; simp at h
      · rw [ht] at h
        have := Sum.inl.inj h
        subst this
        exact ⟨rfl, by simpa using h1, rfl, rfl, rfl, h4, t, ht, rfl⟩
  · rw [hc] at h
    simp only at h
    left
    split at h
    · simp at h
    · have := Sum.inl.inj h
      subst this
      rfl

/-- **C127.** For every periodic surface of positive period, every supply of draws (the surface may be refreshed at random on the way, as long as its heights stay bounded) and every starting
position and direction: the interaction with the surface returns after finitely many iterations, or the ray meets facets without end.  It never goes round for ever between two meetings. -/
theorem C127_wander (Lx Ly : ℝ) (hLx : 0 < Lx) (hLy : 0 < Ly) (w : ℕ → Draw) (lo hi : ℝ) (hlo : ∀ n, lo ≤ (w n).zmin) (hhi : ∀ n, (w n).zmax ≤ hi)
    (d0 r d : V3) (side : ℤ) (nInt : ℕ) :
    (∃ n res, sicRun Lx Ly d0 (firstDraws w n) (sicStart r d side nInt) = .inr res) ∨
    (∀ K, ∃ n s, sicRun Lx Ly d0 (firstDraws w n) (sicStart r d side nInt) = .inl s ∧ K ≤ s.nInt) := by
  by_contra hcon
  push Not at hcon
  obtain ⟨hno, K, hK⟩ := hcon
  have hrun : ∀ n, ∃ s, sicRun Lx Ly d0 (firstDraws w n) (sicStart r d side nInt) = .inl s := by
    intro n
    rcases hs : sicRun Lx Ly d0 (firstDraws w n) (sicStart r d side nInt) with s | res
    · exact ⟨s, rfl⟩
    · exact absurd hs (hno n res)
  choose s hs using hrun
  have hstep : ∀ n, sicStep Lx Ly d0 (w n) (s n) = .inl (s (n + 1)) := by
    intro n
    have := hs (n + 1)
    unfold firstDraws at this
    rw [List.range_succ, List.map_append, List.map_singleton, sicRun_append] at this
    have h2 := hs n
    unfold firstDraws at h2
    rw [h2] at this
    exact this
  have hkinds := fun n => sicStep_kinds (hstep n)
  have hbound : ∀ n, (s n).nInt < K := fun n => hK n (s n) (hs n)
  have hmono : ∀ n, (s n).nInt ≤ (s (n + 1)).nInt := by
    intro n
    rcases hkinds n with h | h | h | h <;> omega
  have hmono' : Monotone fun n => (s n).nInt := monotone_nat_of_le_succ hmono
  -- from some iteration on no facet is met
  obtain ⟨m, hm⟩ : ∃ m, ∀ n, m ≤ n → (s n).nInt = (s m).nInt := by
    by_contra hc
    push Not at hc
    have grow : ∀ k, ∃ n, k ≤ (s n).nInt := by
      intro k
      induction k with
      | zero => exact ⟨0, Nat.zero_le _⟩
      | succ k ih =>
        obtain ⟨n, hn⟩ := ih
        obtain ⟨n', h1, h2⟩ := hc n
        have : (s n).nInt ≤ (s n').nInt := hmono' h1
        exact ⟨n', by omega⟩
    obtain ⟨n, hn⟩ := grow K
    exact absurd (hbound n) (not_lt.mpr hn)
  have hmiss : ∀ n, m ≤ n → (s (n + 1)).nInt = (s n).nInt := by
    intro n hn
    rw [hm n hn, hm (n + 1) (by omega)]
  -- from some iteration on the ray has been checked
  obtain ⟨c, hcm, hc⟩ : ∃ c, m ≤ c ∧ (s c).checked = true := by
    by_contra hc
    push Not at hc
    have hmisses : ∀ k, (s (m + k)).misses = (s m).misses + k ∧ (s (m + k)).misses < 100 := by
      intro k
      induction k with
      | zero =>
        have u := hc m (le_refl _)
        have u' := hc (m + 1) (by omega)
        have e := hmiss m (le_refl _)
        rcases hkinds m with h | h | h | h
        · omega
        · exact absurd h.2.2 u'
        · exact ⟨rfl, h.2.2.2.1⟩
        · exact absurd h.2.1 u
      | succ k ih =>
        have u1 := hc (m + k) (by omega)
        have u2 := hc (m + k + 1) (by omega)
        have u3 := hc (m + k + 1 + 1) (by omega)
        have e1 := hmiss (m + k) (by omega)
        have e2 := hmiss (m + k + 1) (by omega)
        have a1 : (s (m + k + 1)).misses = (s (m + k)).misses + 1 := by
          rcases hkinds (m + k) with h | h | h | h
          · omega
          · exact absurd h.2.2 u2
          · exact h.2.2.2.2
          · exact absurd h.2.1 u1
        have a2 : (s (m + k + 1)).misses < 100 := by
          rcases hkinds (m + k + 1) with h | h | h | h
          · omega
          · exact absurd h.2.2 u3
          · exact h.2.2.2.1
          · exact absurd h.2.1 u2
        exact ⟨by rw [← Nat.add_assoc, a1, ih.1]; omega, a2⟩
    have h1 := (hmisses 100).1
    have h2 := (hmisses 100).2
    omega
  -- from then on it goes from cell to cell
  have hcell : ∀ k, (s (c + k)).checked = true ∧ (s (c + k)).d = (s c).d ∧ (s (c + k)).side = (s c).side := by
    intro k
    induction k with
    | zero => exact ⟨hc, rfl, rfl⟩
    | succ k ih =>
      have e := hmiss (c + k) (by omega)
      rcases hkinds (c + k) with h | h | h | h
      · omega
      · rw [ih.1] at h; exact absurd h.2.1 (by simp)
      · rw [ih.1] at h; exact absurd h.2.1 (by simp)
      · rw [← Nat.add_assoc]
        exact ⟨h.2.2.1, by rw [h.2.2.2.1, ih.2.1], by rw [h.2.2.2.2.1, ih.2.2]⟩
  have hmove : ∀ k, (((s c).side = 1 ∧ (s c).d.z < 0 ∧ (s (c + k)).r.z > (w (c + k)).zmin) ∨
      ((s c).side = -1 ∧ (s c).d.z > 0 ∧ (s (c + k)).r.z < (w (c + k)).zmax)) ∧ ∃ t, CellStep Lx Ly (s c).d (s (c + k)).r (s (c + k + 1)).r t := by
    intro k
    obtain ⟨q1, q2, q3⟩ := hcell k
    have e := hmiss (c + k) (by omega)
    rcases hkinds (c + k) with h | h | h | h
    · omega
    · rw [q1] at h; exact absurd h.2.1 (by simp)
    · rw [q1] at h; exact absurd h.2.1 (by simp)
    · have := h.2.2.2.2.2
      rw [q2, q3] at this
      exact this
  obtain ⟨k, τ, hτ, hz⟩ := cells_height hLx hLy (r := fun k => (s (c + k)).r) (d := (s c).d) (fun k => (hmove k).2)
    (max (((s c).r.z - lo) / -(s c).d.z) ((hi - (s c).r.z) / (s c).d.z))
  simp only [Nat.add_zero] at hz
  rcases (hmove k).1 with ⟨_, hd, hr⟩ | ⟨_, hd, hr⟩
  · have h1 := le_trans (le_max_left _ _) hτ
    rw [div_le_iff₀ (by linarith)] at h1
    have h2 := hlo (c + k)
    rw [hz] at hr
    nlinarith
  · have h1 := le_trans (le_max_right _ _) hτ
    rw [div_le_iff₀ (by linarith)] at h1
    have h2 := hhi (c + k)
    rw [hz] at hr
    nlinarith

/-- **C127.** In particular the interaction returns whenever the ray can meet facets only a bounded number of times. -/
theorem C127_returns (Lx Ly : ℝ) (hLx : 0 < Lx) (hLy : 0 < Ly) (w : ℕ → Draw) (lo hi : ℝ) (hlo : ∀ n, lo ≤ (w n).zmin) (hhi : ∀ n, (w n).zmax ≤ hi)
    (d0 r d : V3) (side : ℤ) (nInt K : ℕ)
    (hfew : ∀ n s, sicRun Lx Ly d0 (firstDraws w n) (sicStart r d side nInt) = .inl s → s.nInt ≤ K) :
    ∃ n res, sicRun Lx Ly d0 (firstDraws w n) (sicStart r d side nInt) = .inr res := by
  rcases C127_wander Lx Ly hLx hLy w lo hi hlo hhi d0 r d side nInt with h | h
  · exact h
  · obtain ⟨n, s, h1, h2⟩ := h (K + 1)
    have := hfew n s h1
    omega

/-- The hypotheses of C127 hold in a run that meets a facet, and it returns. -/
example : ∃ n res, sicRun 1 1 ⟨0, 0, -1⟩ (firstDraws (fun _ => exDraw) n) (sicStart ⟨1, 1, 5⟩ ⟨0, 0, -1⟩ 1 0) = .inr res := by
  refine C127_returns 1 1 one_pos one_pos (fun _ => exDraw) 0 0 (fun _ => le_refl _) (fun _ => le_refl _) _ _ _ _ _ 3 ?_
  obtain ⟨ot, r', θ, hret⟩ := exDraw_run
  have grow : ∀ n s, sicRun 1 1 ⟨0, 0, -1⟩ (firstDraws (fun _ => exDraw) n) (sicStart ⟨1, 1, 5⟩ ⟨0, 0, -1⟩ 1 0) = .inl s → s.nInt ≤ n ∧ n ≤ 3 := by
    intro n
    induction n with
    | zero =>
      intro s hs
      have : sicStart ⟨1, 1, 5⟩ ⟨0, 0, -1⟩ 1 0 = s := Sum.inl.inj hs
      subst this
      exact ⟨le_refl _, by norm_num⟩
    | succ n ih =>
      intro s hs
      have h3 : n ≠ 3 := by
        rintro rfl
        have e : firstDraws (fun _ => exDraw) (3 + 1) = [exDraw, exDraw, exDraw] ++ [exDraw] := rfl
        rw [e, sicRun_append, hret] at hs
        simp at hs
      have e : firstDraws (fun _ => exDraw) (n + 1) = firstDraws (fun _ => exDraw) n ++ [exDraw] := by
        unfold firstDraws; rw [List.range_succ, List.map_append]; rfl
      rw [e, sicRun_append] at hs
      rcases hs' : sicRun 1 1 ⟨0, 0, -1⟩ (firstDraws (fun _ => exDraw) n) (sicStart ⟨1, 1, 5⟩ ⟨0, 0, -1⟩ 1 0) with s' | res
      · rw [hs'] at hs
        have q := ih s' hs'
        rcases sicStep_kinds hs with h | h | h | h <;> omega
      · rw [hs'] at hs; simp at hs
  intro n s hs
  have := grow n s hs
  omega

/-! ## C128 -/

/-- The ray, wherever it is in the loop, meets the facet from the side it is on (its surface has not been slipped through at an edge). -/
def FromOwnSide (w : Draw) (s : Sic) : Prop :=
  ∀ p θ N, checkIntersect s.r s.d w.tris = some (p, θ, N) → (s.side : ℝ) * V3.dot s.d N < 0

theorem sicStep_moves {Lx Ly : ℝ} {d0 : V3} {w : Draw} {s s' : Sic} (h : sicStep Lx Ly d0 w s = .inl s') :
    (s'.nInt = s.nInt ∧ s'.d = s.d ∧ s'.side = s.side) ∨
    (∃ p θ N, checkIntersect s.r s.d w.tris = some (p, θ, N) ∧ w.dec θ s.d ((s.side : ℝ) • N) s.side = (s'.d, s'.side, none)) := by
  unfold sicStep at h
  simp only at h
  rcases hc : checkIntersect s.r s.d w.tris with _ | ⟨p, θ, Nf⟩
  · left
    rw [hc] at h
    simp only at h
    split_ifs at h with h1 h2 h3 h4
    · have := Sum.inl.inj h
      subst this
      exact ⟨rfl, rfl, rfl⟩
    · have := Sum.inl.inj h
      subst this
      exact ⟨rfl, rfl, rfl⟩
    · rcases ht : (exitSide ⟨backInto s.r.x Lx, backInto s.r.y Ly, s.r.z⟩ s.d Lx Ly).2 with _ | t
      · rw [ht] at h; simp at h
      · rw [ht] at h
        have := Sum.inl.inj h
        subst this
        exact ⟨rfl, rfl, rfl⟩
  · right
    rw [hc] at h
    simp only at h
    refine ⟨p, θ, Nf, rfl, ?_⟩
    split at h
    · simp at h
    · rename_i hA
      have := Sum.inl.inj h
      subst this
      simp only
      rw [← hA]

theorem facetDraw_reflect {nA nB : ℂ} {tmm : Bool} {nL : ℕ} {w : Draw} (h : FacetDraw nA nB tmm nL w) {θ : ℝ} {d N d' : V3} {side : ℤ}
    (hs : side = 1 ∨ side = -1) (he : w.dec θ d N side = (d', side, none)) : d' = normalise (reflectDir d N) := by
  have hne : -side ≠ side := by rcases hs with h | h <;> rw [h] <;> norm_num
  rcases h with ⟨_, arc, pol, rnd, _, hdec⟩ | ⟨_, tab, rnd, _, hdec, _⟩
  · rw [hdec] at he
    simp only [fresnelDec, decideFresnel] at he
    split_ifs at he
    · exact (congrArg Prod.fst he).symm
    · exact absurd (congrArg (fun o => o.2.1) he) hne
    · exact (congrArg Prod.fst he).symm
    · exact absurd (congrArg (fun o => o.2.1) he) hne
  · rw [hdec] at he
    simp only [tmmDec, decideTMM] at he
    split_ifs at he
    all_goals first
      | exact (congrArg Prod.fst he).symm
      | exact absurd (congrArg (fun o => o.2.1) he) hne
      | exact absurd (congrArg (fun o => o.2.2) he) (by simp)

/-- **C128.** A surface whose facets have finitely many orientations, none of them vertical or overhanging (any height map), between two media.  A ray that meets it only from the side it
is on cannot be reflected on that side without end, whatever the angles and however total the reflection: the interaction returns, or the ray crosses the surface again and again. -/
theorem C128_not_trapped (nAbove nBelow : ℂ) (ha : 0 < nAbove.re) (hb : 0 < nBelow.re) (ka : 0 ≤ nAbove.im) (kb : 0 ≤ nBelow.im) (tmm : Bool) (nL : ℕ)
    (Lx Ly : ℝ) (hLx : 0 < Lx) (hLy : 0 < Ly) (w : ℕ → Draw) (hw : ∀ n, FacetDraw nAbove nBelow tmm nL (w n))
    (lo hi : ℝ) (hlo : ∀ n, lo ≤ (w n).zmin) (hhi : ∀ n, (w n).zmax ≤ hi)
    (Ns : Finset V3) (hNs : ∀ n, ∀ τ ∈ (w n).tris, τ.N ∈ Ns ∧ 0 < τ.N.z)
    (d0 r d : V3) (hd : V3.norm d = 1) (side : ℤ) (hside : side = 1 ∨ side = -1) (nInt : ℕ)
    (hown : ∀ n s, sicRun Lx Ly d0 (firstDraws w n) (sicStart r d side nInt) = .inl s → FromOwnSide (w n) s) :
    (∃ n res, sicRun Lx Ly d0 (firstDraws w n) (sicStart r d side nInt) = .inr res) ∨
    (∀ M, ∃ n, M ≤ n ∧ ∃ s s', sicRun Lx Ly d0 (firstDraws w n) (sicStart r d side nInt) = .inl s ∧
      sicRun Lx Ly d0 (firstDraws w (n + 1)) (sicStart r d side nInt) = .inl s' ∧ s'.side = -s.side) := by
  classical
  by_contra hcon
  push Not at hcon
  obtain ⟨hno, M, hM⟩ := hcon
  have hrun : ∀ n, ∃ s, sicRun Lx Ly d0 (firstDraws w n) (sicStart r d side nInt) = .inl s := by
    intro n
    rcases hs : sicRun Lx Ly d0 (firstDraws w n) (sicStart r d side nInt) with s | res
    · exact ⟨s, rfl⟩
    · exact absurd hs (hno n res)
  choose s hs using hrun
  have hstep : ∀ n, sicStep Lx Ly d0 (w n) (s n) = .inl (s (n + 1)) := by
    intro n
    have := hs (n + 1)
    unfold firstDraws at this
    rw [List.range_succ, List.map_append, List.map_singleton, sicRun_append] at this
    have h2 := hs n
    unfold firstDraws at h2
    rw [h2] at this
    exact this
  have hmoves := fun n => sicStep_moves (hstep n)
  have hface := fun n => facetDraw_ok ha hb ka kb (hw n)
  -- direction of length one, side ±1
  have hinv : ∀ n, V3.norm (s n).d = 1 ∧ ((s n).side = 1 ∨ (s n).side = -1) := by
    intro n
    induction n with
    | zero =>
      have : sicStart r d side nInt = s 0 := Sum.inl.inj (hs 0)
      rw [← this]
      exact ⟨hd, hside⟩
    | succ n ih =>
      rcases hmoves n with ⟨_, h1, h2⟩ | ⟨p, θ, N, h1, h2⟩
      · rw [h1, h2]; exact ih
      · obtain ⟨u1, u2⟩ := hit_unit h1
        have q := (hface n).ok (s n).d N (s n).side ih.1 u1 ih.2
        have q2 := (hface n).side θ (s n).d (((s n).side : ℝ) • N) (s n).side
        rw [← u2, h2] at q
        rw [h2] at q2
        refine ⟨q.1, ?_⟩
        rcases ih.2 with e | e <;> rw [e] at q2 <;> simp only [neg_neg] at q2 <;> omega
  -- after `M` iterations the side stays
  have hkeep : ∀ n, M ≤ n → (s (n + 1)).side = (s n).side := by
    intro n hn
    rcases hmoves n with ⟨_, _, h2⟩ | ⟨p, θ, N, h1, h2⟩
    · exact h2
    · have q2 := (hface n).side θ (s n).d (((s n).side : ℝ) • N) (s n).side
      rw [h2] at q2
      rcases q2 with q2 | q2
      · exact q2
      · exact absurd q2 (hM n hn (s n) (s (n + 1)) (hs n) (hs (n + 1)))
  have hconst : ∀ k, (s (M + k)).side = (s M).side := by
    intro k
    induction k with
    | zero => rfl
    | succ k ih => rw [← Nat.add_assoc, hkeep _ (by omega), ih]
  set σ : ℝ := ((s M).side : ℝ) with hσ
  have hσ1 : σ = 1 ∨ σ = -1 := by
    rcases (hinv M).2 with e | e <;> rw [hσ, e] <;> simp
  have hrefl : ∀ k, ∀ p θ N, checkIntersect (s (M + k)).r (s (M + k)).d (w (M + k)).tris = some (p, θ, N) →
      (w (M + k)).dec θ (s (M + k)).d (((s (M + k)).side : ℝ) • N) (s (M + k)).side = ((s (M + k + 1)).d, (s (M + k + 1)).side, none) →
      (N ∈ Ns.filter fun N => V3.dot N N = 1 ∧ 0 < N.z) ∧ σ * V3.dot (s (M + k)).d N < 0 ∧ (s (M + k + 1)).d = reflectDir (s (M + k)).d N := by
    intro k p θ N h1 h2
    obtain ⟨τ, hτ, _, _, _, hN, _⟩ := checkIntersect_some h1
    have hu := (norm_one_iff N).mp (hit_unit h1).1
    have hmem := hNs (M + k) τ hτ
    rw [← hN] at hmem
    have hside' := hconst k
    have hkeep' := hkeep (M + k) (by omega)
    rw [hkeep'] at h2
    have h3 := facetDraw_reflect (hw (M + k)) (hinv (M + k)).2 h2
    have h4 := hown _ _ (hs (M + k)) p θ N h1
    rw [hside'] at h3 h4
    have e : reflectDir (s (M + k)).d (((s M).side : ℝ) • N) = reflectDir (s (M + k)).d N := by
      rw [← hσ]
      rcases hσ1 with q | q <;> rw [q] <;> ext <;> simp [reflectDir, V3.dot] <;> ring
    rw [e, normalise_unit] at h3
    · exact ⟨Finset.mem_filter.mpr ⟨hmem.1, hu, hmem.2⟩, h4, h3⟩
    · rw [norm_one_iff, dot_reflect hu]
      exact (norm_one_iff _).mp (hinv (M + k)).1
  obtain ⟨m, hm⟩ := no_endless_reflection (Ns.filter fun N => V3.dot N N = 1 ∧ 0 < N.z) (fun N hN => (Finset.mem_filter.mp hN).2.1)
    (fun N hN => (Finset.mem_filter.mp hN).2.2) σ hσ1 (fun k => (s (M + k)).d) (fun k => (norm_one_iff _).mp (hinv (M + k)).1) (by
      intro k
      rcases hmoves (M + k) with ⟨_, h1, _⟩ | ⟨p, θ, N, h1, h2⟩
      · exact Or.inl h1
      · obtain ⟨a, b, c⟩ := hrefl k p θ N h1 h2
        exact Or.inr ⟨N, a, b, c⟩)
  -- so from some iteration on no facet is met
  have hfew : ∀ n, (s n).nInt ≤ (s (M + m)).nInt := by
    have hmono : Monotone fun n => (s n).nInt := monotone_nat_of_le_succ fun n => by
      rcases sicStep_kinds (hstep n) with h | h | h | h <;> omega
    have hafter : ∀ k, (s (M + m + k)).nInt = (s (M + m)).nInt := by
      intro k
      induction k with
      | zero => rfl
      | succ k ih =>
        rcases hmoves (M + m + k) with ⟨h, _, _⟩ | ⟨p, θ, N, h1, h2⟩
        · rw [← Nat.add_assoc, h, ih]
        · exfalso
          have e : M + m + k = M + (m + k) := by ring
          rw [e] at h1 h2
          obtain ⟨a, b, c⟩ := hrefl (m + k) p θ N h1 h2
          exact hm (m + k) (by omega) ⟨N, a, b, c⟩
    intro n
    rcases le_total n (M + m) with h | h
    · exact hmono h
    · obtain ⟨k, rfl⟩ := Nat.exists_eq_add_of_le h
      exact (hafter k).le
  obtain ⟨n, res, hres⟩ := C127_returns Lx Ly hLx hLy w lo hi hlo hhi d0 r d side nInt (s (M + m)).nInt (by
    intro n s' hs'
    have : s n = s' := Sum.inl.inj ((hs n).symm.trans hs')
    rw [← this]
    exact hfew n)
  exact hno n res hres

/-- The hypotheses of C128 hold for a ray that falls onto the triangle `exTri` and is always reflected. -/
example : (∃ n res, sicRun 1 1 ⟨0, 0, -1⟩ (firstDraws (fun _ => exDraw) n) (sicStart ⟨1, 1, 5⟩ ⟨0, 0, -1⟩ 1 0) = .inr res) ∨
    (∀ M, ∃ n, M ≤ n ∧ ∃ s s', sicRun 1 1 ⟨0, 0, -1⟩ (firstDraws (fun _ => exDraw) n) (sicStart ⟨1, 1, 5⟩ ⟨0, 0, -1⟩ 1 0) = .inl s ∧
      sicRun 1 1 ⟨0, 0, -1⟩ (firstDraws (fun _ => exDraw) (n + 1)) (sicStart ⟨1, 1, 5⟩ ⟨0, 0, -1⟩ 1 0) = .inl s' ∧ s'.side = -s.side) := by
  have hmiss : ∀ r : V3, 0 < r.z → checkIntersect r ⟨0, 0, 1⟩ [exTri] = none := fun r hr => checkIntersect_single_miss (exTri_miss r hr)
  have hinv : ∀ n s, sicRun 1 1 ⟨0, 0, -1⟩ (firstDraws (fun _ => exDraw) n) (sicStart ⟨1, 1, 5⟩ ⟨0, 0, -1⟩ 1 0) = .inl s →
      s.side = 1 ∧ (s.d = ⟨0, 0, -1⟩ ∨ (s.d = ⟨0, 0, 1⟩ ∧ 0 < s.r.z ∧ 1 ≤ s.i1)) := by
    intro n
    induction n with
    | zero =>
      intro s hs
      have : sicStart ⟨1, 1, 5⟩ ⟨0, 0, -1⟩ 1 0 = s := Sum.inl.inj hs
      subst this
      exact ⟨rfl, Or.inl rfl⟩
    | succ n ih =>
      intro s hs
      have e : firstDraws (fun _ => exDraw) (n + 1) = firstDraws (fun _ => exDraw) n ++ [exDraw] := by
        unfold firstDraws; rw [List.range_succ, List.map_append]; rfl
      rw [e, sicRun_append] at hs
      rcases hs' : sicRun 1 1 ⟨0, 0, -1⟩ (firstDraws (fun _ => exDraw) n) (sicStart ⟨1, 1, 5⟩ ⟨0, 0, -1⟩ 1 0) with s' | res
      · rw [hs'] at hs
        simp only at hs
        obtain ⟨q1, q2⟩ := ih s' hs'
        rcases q2 with q2 | ⟨q2, q3, q4⟩
        · rcases sicStep_moves hs with ⟨_, h1, h2⟩ | ⟨p, θ, N, h1, h2⟩
          · exact ⟨by rw [h2, q1], Or.inl (by rw [h1, q2])⟩
          · have hexit := hs
            unfold sicStep at hexit
            simp only [h1, h2] at hexit
            obtain ⟨τ, hτ, _, hp, _, hN, _⟩ := checkIntersect_some h1
            have hτ' : τ = exTri := by simpa [exDraw] using hτ
            have hdec : exDraw.dec θ s'.d ((s'.side : ℝ) • N) s'.side = (⟨0, 0, 1⟩, 1, none) := by
              rw [hN, hτ', q2, q1]
              simp only [exDraw, fresnelDec_zero, exTri_reflect]
            have hr : s.r = p + (1 / 10 ^ 9 : ℝ) • s.d := by
              have := Sum.inl.inj hexit
              rw [← this]
            rw [hdec] at h2
            have e1 : s.d = ⟨0, 0, 1⟩ := (congrArg Prod.fst h2).symm
            have e2 : s.side = 1 := (congrArg (fun o => o.2.1) h2).symm
            refine ⟨e2, Or.inr ⟨e1, ?_, by rw [← Sum.inl.inj hexit]; simp⟩⟩
            rw [hr, e1, hp, hτ', q2]
            have ht : exTri.t s'.r ⟨0, 0, -1⟩ = s'.r.z := by
              unfold Tri.t Tri.det
              rw [exTri_cross]
              simp [exTri, V3.dot]
            rw [ht]
            simp
        · rcases sicStep_moves hs with ⟨_, h1, h2⟩ | ⟨p, θ, N, h1, h2⟩
          · refine ⟨by rw [h2, q1], Or.inr ⟨by rw [h1, q2], ?_⟩⟩
            clear h1 h2
            unfold sicStep at hs
            have hm : checkIntersect s'.r s'.d exDraw.tris = none := by rw [q2]; exact hmiss _ q3
            rw [hm] at hs
            simp only [q1, q2] at hs
            have tz : ∀ i, (translation 1 1 i).z = 0 := by
              intro i; unfold translation; split <;> rfl
            split_ifs at hs with c1 c2 c3 c4
            · rw [← Sum.inl.inj hs]; simpa [tz] using q3
            · omega
            · norm_num at c4
          · rw [q2] at h1
            have := hmiss _ q3
            have h1' : checkIntersect s'.r ⟨0, 0, 1⟩ [exTri] = some (p, θ, N) := h1
            rw [this] at h1'
            simp at h1'
      · rw [hs'] at hs; simp at hs
  refine C128_not_trapped 1 2 (by norm_num) (by norm_num) (by norm_num) (by norm_num) false 0 1 1 one_pos one_pos (fun _ => exDraw)
    (fun _ => Or.inl ⟨rfl, _, _, 0, one_pos, rfl⟩) 0 0 (fun _ => le_refl _) (fun _ => le_refl _) {⟨0, 0, 1⟩} ?_ _ _ _ ?_ 1 (Or.inl rfl) 0 ?_
  · intro n τ hτ
    have : τ = exTri := by simpa [exDraw] using hτ
    rw [this, exTri_N]
    simp
  · rw [norm_one_iff]; simp [V3.dot]
  · intro n s hs p θ N h1
    obtain ⟨q1, q2⟩ := hinv n s hs
    obtain ⟨τ, hτ, _, _, _, hN, _⟩ := checkIntersect_some h1
    have hτ' : τ = exTri := by simpa [exDraw] using hτ
    rcases q2 with q2 | ⟨q2, q3, q4⟩
    · rw [q1, q2, hN, hτ', exTri_N]; simp [V3.dot]
    · rw [q2] at h1
      have h1' : checkIntersect s.r ⟨0, 0, 1⟩ [exTri] = some (p, θ, N) := h1
      rw [hmiss _ q3] at h1'
      simp at h1'

end Rayflare
