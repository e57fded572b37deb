import Verif.Model.Surface
import Mathlib.Data.List.GetD
import Mathlib.Tactic.Linarith
import Mathlib.Tactic.FieldSimp
import Mathlib.Tactic.Ring
import Mathlib.Tactic.NormNum

/-!
# Properties C61, C62, C95, C96: moving and rescaling triangulated surfaces, front and rear surfaces
-/

namespace Rayflare

open Rayflare.Np Rayflare.Model Real

/-! ## Vocabulary -/

/-- A point lowered by `dz`. -/
def lower (dz : ℝ) (p : V3) : V3 := ⟨p.x, p.y, p.z - dz⟩

/-- The stored quantities of a surface agree with its points: triangles, facet normals, lowest and highest point. -/
structure Consistent (s : Surface) : Prop where
  corners : List.Forall₂ (fun (t : ℕ × ℕ × ℕ) (τ : Tri) => s.points[t.1]? = some τ.P0 ∧ s.points[t.2.1]? = some τ.P1 ∧ s.points[t.2.2]? = some τ.P2) s.simplices s.tris
  normals : s.N = s.tris.map Tri.N
  zmin : (∃ p ∈ s.points, p.z = s.zmin) ∧ ∀ p ∈ s.points, s.zmin ≤ p.z
  zmax : (∃ p ∈ s.points, p.z = s.zmax) ∧ ∀ p ∈ s.points, p.z ≤ s.zmax
  index : ∀ t ∈ s.simplices, t.1 < s.points.length ∧ t.2.1 < s.points.length ∧ t.2.2 < s.points.length

/-! ## Helper lemmas -/

theorem foldl_min_spec (l : List ℝ) (a : ℝ) : (l.foldl min a = a ∨ l.foldl min a ∈ l) ∧ l.foldl min a ≤ a ∧ ∀ x ∈ l, l.foldl min a ≤ x := by
  induction l generalizing a with
  | nil => simp
  | cons b l ih =>
    obtain ⟨h1, h2, h3⟩ := ih (min a b)
    refine ⟨?_, h2.trans (min_le_left _ _), ?_⟩
    · rcases h1 with h1 | h1
      · rcases min_choice a b with h | h
        · left; rw [List.foldl_cons, h1, h]
        · right; rw [List.foldl_cons, h1, h]; simp
      · right; simp [h1]
    · intro x hx
      rcases List.mem_cons.mp hx with rfl | hx
      · exact h2.trans (min_le_right _ _)
      · exact h3 x hx

theorem foldl_max_spec (l : List ℝ) (a : ℝ) : (l.foldl max a = a ∨ l.foldl max a ∈ l) ∧ a ≤ l.foldl max a ∧ ∀ x ∈ l, x ≤ l.foldl max a := by
  induction l generalizing a with
  | nil => simp
  | cons b l ih =>
    obtain ⟨h1, h2, h3⟩ := ih (max a b)
    refine ⟨?_, (le_max_left _ _).trans h2, ?_⟩
    · rcases h1 with h1 | h1
      · rcases max_choice a b with h | h
        · left; rw [List.foldl_cons, h1, h]
        · right; rw [List.foldl_cons, h1, h]; simp
      · right; simp [h1]
    · intro x hx
      rcases List.mem_cons.mp hx with rfl | hx
      · exact (le_max_right _ _).trans h2
      · exact h3 x hx

theorem pyMin_spec (l : List ℝ) (h : l ≠ []) : pyMin l ∈ l ∧ ∀ x ∈ l, pyMin l ≤ x := by
  cases l with
  | nil => exact absurd rfl h
  | cons a l =>
    obtain ⟨h1, -, h3⟩ := foldl_min_spec (a :: l) a
    exact ⟨by rcases h1 with h1 | h1
              · show (a :: l).foldl min a ∈ _; rw [h1]; simp
              · exact h1, h3⟩

theorem pyMax_spec (l : List ℝ) (h : l ≠ []) : pyMax l ∈ l ∧ ∀ x ∈ l, x ≤ pyMax l := by
  cases l with
  | nil => exact absurd rfl h
  | cons a l =>
    obtain ⟨h1, -, h3⟩ := foldl_max_spec (a :: l) a
    exact ⟨by rcases h1 with h1 | h1
              · show (a :: l).foldl max a ∈ _; rw [h1]; simp
              · exact h1, h3⟩

theorem zmin_spec (pts : List V3) (h : pts ≠ []) : (∃ p ∈ pts, p.z = pyMin (pts.map V3.z)) ∧ ∀ p ∈ pts, pyMin (pts.map V3.z) ≤ p.z := by
  obtain ⟨h1, h2⟩ := pyMin_spec (pts.map V3.z) (by simpa using h)
  obtain ⟨p, hp, e⟩ := List.mem_map.mp h1
  exact ⟨⟨p, hp, e⟩, fun q hq => h2 _ (List.mem_map_of_mem hq)⟩

theorem zmax_spec (pts : List V3) (h : pts ≠ []) : (∃ p ∈ pts, p.z = pyMax (pts.map V3.z)) ∧ ∀ p ∈ pts, p.z ≤ pyMax (pts.map V3.z) := by
  obtain ⟨h1, h2⟩ := pyMax_spec (pts.map V3.z) (by simpa using h)
  obtain ⟨p, hp, e⟩ := List.mem_map.mp h1
  exact ⟨⟨p, hp, e⟩, fun q hq => h2 _ (List.mem_map_of_mem hq)⟩

theorem tri_lower (dz : ℝ) (τ : Tri) : (⟨lower dz τ.P0, lower dz τ.P1, lower dz τ.P2⟩ : Tri).crossP = τ.crossP := by
  unfold Tri.crossP
  have : ∀ a b : V3, lower dz a - lower dz b = a - b := by
    intro a b
    ext <;> simp [lower]
  simp [this]

theorem trisOf_map (f : V3 → V3) (pts : List V3) (ss : List (ℕ × ℕ × ℕ)) (h : ∀ t ∈ ss, t.1 < pts.length ∧ t.2.1 < pts.length ∧ t.2.2 < pts.length) :
    trisOf (pts.map f) ss = (trisOf pts ss).map fun τ => ⟨f τ.P0, f τ.P1, f τ.P2⟩ := by
  unfold trisOf
  rw [List.map_map]
  apply List.map_congr_left
  intro t ht
  obtain ⟨h1, h2, h3⟩ := h t ht
  simp only [Function.comp, List.getD_eq_getElem?_getD, List.getElem?_map, List.getElem?_eq_getElem h1, List.getElem?_eq_getElem h2, List.getElem?_eq_getElem h3, Option.map_some, Option.getD_some]

theorem trisOf_corners (pts : List V3) (ss : List (ℕ × ℕ × ℕ)) (h : ∀ t ∈ ss, t.1 < pts.length ∧ t.2.1 < pts.length ∧ t.2.2 < pts.length) :
    List.Forall₂ (fun (t : ℕ × ℕ × ℕ) (τ : Tri) => pts[t.1]? = some τ.P0 ∧ pts[t.2.1]? = some τ.P1 ∧ pts[t.2.2]? = some τ.P2) ss (trisOf pts ss) := by
  unfold trisOf
  rw [List.forall₂_map_right_iff, List.forall₂_same]
  intro t ht
  obtain ⟨h1, h2, h3⟩ := h t ht
  simp [h1, h2, h3]

theorem Consistent.tris {s : Surface} (hs : Consistent s) : s.tris = trisOf s.points s.simplices := by
  have h := hs.corners
  unfold trisOf
  generalize s.simplices = ss at h
  generalize s.tris = ts at h
  induction h with
  | nil => rfl
  | cons h _ ih =>
    obtain ⟨h1, h2, h3⟩ := h
    rw [List.map_cons, ← ih]
    simp [h1, h2, h3]

/-- A new surface is consistent. -/
theorem mkSurface_consistent (isInt random : Bool) (pts : List V3) (ss : List (ℕ × ℕ × ℕ)) (hi : ℕ) (cov : Option ℝ) (s : Surface) (hne : pts ≠ [])
    (hidx : ∀ t ∈ ss, t.1 < pts.length ∧ t.2.1 < pts.length ∧ t.2.2 < pts.length) (h : mkSurface isInt random pts ss hi cov = some s) :
    Consistent s ∧ s.points = pts ∧ s.original = pts ∧ s.isInt = isInt ∧ s.random = random ∧ s.heightInd = hi := by
  unfold mkSurface at h
  simp only [Option.map_eq_some_iff] at h
  obtain ⟨zc, -, rfl⟩ := h
  exact ⟨⟨trisOf_corners pts ss hidx, rfl, zmin_spec pts hne, zmax_spec pts hne, hidx⟩, rfl, rfl, rfl, rfl, rfl⟩

/-! ## C61 -/

/-- **C61, what holds.** For a surface with real (floating point) coordinates `shift` lowers every point, the lowest and highest level and the reference height by the same amount; facets keep their shape, the stored
normals are unchanged and are the normals of the moved facets; the unit cell stays the same. So after any number of shifts all stored quantities agree. Missing: surfaces with integer coordinates (next theorem). -/
theorem C61_shift_partial (s : Surface) (dz : ℝ) (hs : Consistent s) (hf : s.isInt = false) :
    (s.shift dz).points = s.points.map (lower dz) ∧
    (s.shift dz).tris = s.tris.map (fun τ => ⟨lower dz τ.P0, lower dz τ.P1, lower dz τ.P2⟩) ∧
    (s.shift dz).N = s.N ∧ (s.shift dz).zmin = s.zmin - dz ∧ (s.shift dz).zmax = s.zmax - dz ∧ (s.shift dz).zcov = s.zcov - dz ∧
    (s.shift dz).Lx = s.Lx ∧ (s.shift dz).Ly = s.Ly ∧ (s.shift dz).isInt = false ∧ Consistent (s.shift dz) := by
  have hp : (s.points.map fun p => { p with z := storeAs s.isInt (p.z - dz) }) = s.points.map (lower dz) := by
    apply List.map_congr_left
    intro p _
    simp [storeAs, hf, lower]
  have hne : s.points ≠ [] := by
    obtain ⟨⟨p, hp, -⟩, -⟩ := hs.zmin
    exact List.ne_nil_of_mem hp
  have hne' : s.points.map (lower dz) ≠ [] := by simpa using hne
  have e1 : (s.shift dz).points = s.points.map (lower dz) := by simp only [Surface.shift]; exact hp
  have e2 : (s.shift dz).tris = s.tris.map (fun τ => ⟨lower dz τ.P0, lower dz τ.P1, lower dz τ.P2⟩) := by
    simp only [Surface.shift]
    rw [hp, trisOf_map _ _ _ hs.index, hs.tris]
  have e3 : (s.shift dz).N = (s.shift dz).tris.map Tri.N := by
    rw [e2, List.map_map]
    show s.N = _
    rw [hs.normals]
    apply List.map_congr_left
    intro τ _
    simp only [Function.comp, Tri.N, tri_lower]
  have z1 := zmin_spec _ hne'
  have z2 := zmax_spec _ hne'
  have e4 : (s.shift dz).zmin = pyMin ((s.points.map (lower dz)).map V3.z) := by simp only [Surface.shift]; rw [hp]
  have e5 : (s.shift dz).zmax = pyMax ((s.points.map (lower dz)).map V3.z) := by simp only [Surface.shift]; rw [hp]
  refine ⟨e1, e2, rfl, ?_, ?_, rfl, rfl, rfl, hf, ⟨?_, e3, ?_, ?_, ?_⟩⟩
  · rw [e4]
    obtain ⟨⟨q, hq, hqe⟩, hlow⟩ := z1
    obtain ⟨p, hp', rfl⟩ := List.mem_map.mp hq
    obtain ⟨⟨p0, hp0, h0⟩, hlow0⟩ := hs.zmin
    apply le_antisymm
    · have := hlow _ (List.mem_map_of_mem (f := lower dz) hp0)
      simp only [lower] at this ⊢
      linarith
    · rw [← hqe]
      have := hlow0 p hp'
      simp only [lower]
      linarith
  · rw [e5]
    obtain ⟨⟨q, hq, hqe⟩, hhigh⟩ := z2
    obtain ⟨p, hp', rfl⟩ := List.mem_map.mp hq
    obtain ⟨⟨p0, hp0, h0⟩, hhigh0⟩ := hs.zmax
    apply le_antisymm
    · rw [← hqe]
      have := hhigh0 p hp'
      simp only [lower]
      linarith
    · have := hhigh _ (List.mem_map_of_mem (f := lower dz) hp0)
      simp only [lower] at this ⊢
      linarith
  · rw [e1, e2]
    show List.Forall₂ _ s.simplices _
    rw [hs.tris, ← trisOf_map _ _ _ hs.index]
    exact trisOf_corners _ _ fun t ht => by rw [List.length_map]; exact hs.index t ht
  · rw [e1, e4]; exact z1
  · rw [e1, e5]; exact z2
  · intro t ht
    rw [e1, List.length_map]
    exact hs.index t ht

/-- Corners of the unit square: a small consistent surface, to show that the hypotheses can be met. -/
theorem planar_zcov (L : ℝ) (hL : 0 < L) : zcovGuess (planarPoints L) = some 0 := by
  have hx : pyMin ((planarPoints L).map V3.x) = 0 := by simp [planarPoints, pyMin, hL.le]
  have hy : pyMin ((planarPoints L).map V3.y) = 0 := by simp [planarPoints, pyMin, hL.le]
  unfold zcovGuess
  rw [hx, hy]
  simp [planarPoints]

theorem planar_surface_exists (isInt : Bool) : ∃ s, mkSurface isInt false (planarPoints 1) [(0, 1, 2), (0, 1, 3)] 0 none = some s ∧ Consistent s ∧ s.isInt = isInt ∧ s.points = planarPoints 1 ∧ s.zcov = 0 := by
  have hz := planar_zcov 1 one_pos
  obtain ⟨s, hs, hzc⟩ : ∃ s, mkSurface isInt false (planarPoints 1) [(0, 1, 2), (0, 1, 3)] 0 none = some s ∧ s.zcov = 0 := by
    simp only [mkSurface, hz, Option.map_some]
    exact ⟨_, rfl, rfl⟩
  obtain ⟨h1, h2, -, h4, -, -⟩ := mkSurface_consistent _ _ _ _ _ _ s (by simp [planarPoints]) (by
    intro t ht
    simp only [List.mem_cons, List.not_mem_nil, or_false] at ht
    rcases ht with rfl | rfl <;> simp [planarPoints]) hs
  exact ⟨s, hs, h1, h4, h2, hzc⟩

example : ∃ s : Surface, Consistent s ∧ s.isInt = false := by
  obtain ⟨s, -, h1, h2, -⟩ := planar_surface_exists false
  exact ⟨s, h1, h2⟩

/-- **C61 fails** for surfaces with integer coordinates, such as `planar_surface(size=1)`: shifting it by half a micrometre moves the reference height but not the surface. -/
theorem C61_shift_fails : ∃ s, mkSurface true false (planarPoints 1) [(0, 1, 2), (0, 1, 3)] 0 none = some s ∧
    (s.shift (1 / 2)).points = s.points ∧ (s.shift (1 / 2)).zcov = s.zcov - 1 / 2 := by
  obtain ⟨s, hs, -, hi, hp, -⟩ := planar_surface_exists true
  refine ⟨s, hs, ?_, rfl⟩
  simp only [Surface.shift, hi, hp, planarPoints, List.map_cons, List.map_nil, storeAs, if_true]
  have : ⌈(0 : ℝ) - 1 / 2⌉ = 0 := by
    rw [Int.ceil_eq_iff]; norm_num
  have h2 : ¬ (0 : ℝ) ≤ 0 - 1 / 2 := by norm_num
  rw [if_neg h2, this, Int.cast_zero]

/-! ## C62 -/

/-- The number by which `refresh` multiplies all heights above the reference height. -/
noncomputable def factor (s : Surface) (h : ℝ) : ℝ := |h / ((s.original.getD s.heightInd 0).z - s.zcov)|

theorem refresh_fields (s : Surface) (h : ℝ) (hr : s.random = true) (hf : s.isInt = false) :
    (s.refresh h).points = List.zipWith (fun (p o : V3) => (⟨p.x, p.y, factor s h * (o.z - s.zcov) + s.zcov⟩ : V3)) s.points s.original ∧
    (s.refresh h).original = s.original ∧ (s.refresh h).zcov = s.zcov ∧ (s.refresh h).heightInd = s.heightInd ∧ (s.refresh h).random = true ∧ (s.refresh h).isInt = false ∧
    (s.refresh h).simplices = s.simplices := by
  unfold Surface.refresh factor
  rw [if_neg (by simp [hr])]
  refine ⟨?_, rfl, rfl, rfl, hr, hf, rfl⟩
  simp [storeAs, hf]

/-- **C62, what holds.** Let a surface with a height distribution be made from points `pts` and refreshed any number of times (never shifted), the last height drawn being `h ≥ 0`. Then horizontal positions are
unchanged; points at the reference height are still there; the height of every point above the reference height is the original one times one common non-negative factor; the highest feature has height `h`; and
triangles, normals and levels agree with the points. -/
theorem C62_refresh_partial (pts : List V3) (ss : List (ℕ × ℕ × ℕ)) (hi : ℕ) (cov : Option ℝ) (s : Surface) (hs : mkSurface false true pts ss hi cov = some s) (hne : pts ≠ [])
    (hidx : ∀ t ∈ ss, t.1 < pts.length ∧ t.2.1 < pts.length ∧ t.2.2 < pts.length) (hhi : hi < pts.length) (hheight : pts[hi].z ≠ s.zcov) (earlier : List ℝ) (h : ℝ) (hpos : 0 ≤ h) :
    ∃ k, 0 ≤ k ∧ ((earlier ++ [h]).foldl Surface.refresh s).zcov = s.zcov ∧
      ((earlier ++ [h]).foldl Surface.refresh s).points = pts.map (fun p => ⟨p.x, p.y, s.zcov + k * (p.z - s.zcov)⟩) ∧
      k * |pts[hi].z - s.zcov| = h ∧ Consistent ((earlier ++ [h]).foldl Surface.refresh s) := by
  obtain ⟨hc, hp, ho, hint, hr, hhi'⟩ := mkSurface_consistent _ _ _ _ _ _ s hne hidx hs
  have hss : s.simplices = ss := by
    unfold mkSurface at hs
    simp only [Option.map_eq_some_iff] at hs
    obtain ⟨zc, -, rfl⟩ := hs
    rfl
  -- after any number of refreshes
  have inv : ∀ l : List ℝ, let t := l.foldl Surface.refresh s
      t.random = true ∧ t.isInt = false ∧ t.original = pts ∧ t.zcov = s.zcov ∧ t.heightInd = hi ∧ t.simplices = ss ∧ t.points.length = pts.length ∧
        (∀ i : ℕ, t.points[i]?.map V3.x = pts[i]?.map V3.x ∧ t.points[i]?.map V3.y = pts[i]?.map V3.y) := by
    intro l
    induction l using List.reverseRecOn with
    | nil => simp only [List.foldl_nil]; exact ⟨hr, hint, ho, by trivial, hhi', hss, by rw [hp], by intro i; simp [hp]⟩
    | append_singleton l a ih =>
      simp only [List.foldl_append, List.foldl_cons, List.foldl_nil] at ih ⊢
      generalize l.foldl Surface.refresh s = t at ih ⊢
      obtain ⟨i1, i2, i3, i4, i5, i6, i7, i8⟩ := ih
      obtain ⟨f1, f2, f3, f4, f5, f6, f7⟩ := refresh_fields t a i1 i2
      refine ⟨f5, f6, f2.trans i3, f3.trans i4, f4.trans i5, f7.trans i6, ?_, ?_⟩
      · rw [f1, List.length_zipWith, i3, i7, min_self]
      · intro i
        rw [← (i8 i).1, ← (i8 i).2, f1, i3, List.getElem?_zipWith]
        by_cases hi' : i < pts.length
        · rw [List.getElem?_eq_getElem hi', List.getElem?_eq_getElem (by omega : i < t.points.length)]
          simp
        · rw [List.getElem?_eq_none (by omega : pts.length ≤ i), List.getElem?_eq_none (by omega : t.points.length ≤ i)]
          simp
  have hinv := inv earlier
  rw [List.foldl_append, List.foldl_cons, List.foldl_nil]
  simp only at hinv
  generalize earlier.foldl Surface.refresh s = t at hinv ⊢
  obtain ⟨i1, i2, i3, i4, i5, i6, i7, i8⟩ := hinv
  obtain ⟨f1, f2, f3, f4, f5, f6, f7⟩ := refresh_fields t h i1 i2
  have hfac : factor t h = h / |pts[hi].z - s.zcov| := by
    unfold factor
    rw [i3, i4, i5, List.getD_eq_getElem _ _ hhi, abs_div, abs_of_nonneg hpos]
  have habs : 0 < |pts[hi].z - s.zcov| := abs_pos.mpr (sub_ne_zero.mpr hheight)
  have e1 : (t.refresh h).points = pts.map (fun p => ⟨p.x, p.y, s.zcov + factor t h * (p.z - s.zcov)⟩) := by
    rw [f1]
    apply List.ext_getElem
    · simp [i3, i7]
    · intro i h1 h2
      simp only [List.length_zipWith, i3, i7, min_self] at h1
      have h1' : i < t.points.length := by omega
      obtain ⟨k1, k2⟩ := i8 i
      rw [List.getElem?_eq_getElem h1, List.getElem?_eq_getElem h1'] at k1 k2
      simp only [Option.map_some, Option.some.injEq] at k1 k2
      simp only [List.getElem_zipWith, List.getElem_map, k1, k2, i4, i3]
      ext <;> simp <;> ring
  have hne' : (t.refresh h).points ≠ [] := by rw [e1]; simpa using hne
  refine ⟨factor t h, by rw [hfac]; positivity, f3.trans i4, e1, by rw [hfac]; field_simp, ?_⟩
  have r1 : (t.refresh h).tris = trisOf (t.refresh h).points (t.refresh h).simplices := by simp only [Surface.refresh, i1, Bool.true_eq_false, if_false]
  have r2 : (t.refresh h).N = (t.refresh h).tris.map Tri.N := by simp only [Surface.refresh, i1, Bool.true_eq_false, if_false]
  have r3 : (t.refresh h).zmin = pyMin ((t.refresh h).points.map V3.z) := by simp only [Surface.refresh, i1, Bool.true_eq_false, if_false]
  have r4 : (t.refresh h).zmax = pyMax ((t.refresh h).points.map V3.z) := by simp only [Surface.refresh, i1, Bool.true_eq_false, if_false]
  have z1 := zmin_spec _ hne'
  have z2 := zmax_spec _ hne'
  have hidx' : ∀ x ∈ (t.refresh h).simplices, x.1 < (t.refresh h).points.length ∧ x.2.1 < (t.refresh h).points.length ∧ x.2.2 < (t.refresh h).points.length := by
    intro x hx
    rw [f7, i6] at hx
    rw [e1, List.length_map]
    exact hidx x hx
  constructor
  · rw [r1]; exact trisOf_corners _ _ hidx'
  · exact r2
  · rw [r3]; exact z1
  · rw [r4]; exact z2
  · exact hidx'

/-- The triangulation of the pyramid. -/
def pyramidSimplices : List (ℕ × ℕ × ℕ) := [(1, 0, 2), (1, 2, 4), (1, 4, 3), (1, 3, 0)]

theorem pyramid_zcov (h L : ℝ) (up : Bool) (hL : 0 < L) : zcovGuess (pyramidPoints h L up) = some 0 := by
  have h2 : (0 : ℝ) ≤ L / 2 := by positivity
  have hx : pyMin ((pyramidPoints h L up).map V3.x) = 0 := by simp [pyramidPoints, pyMin, hL.le, h2]
  have hy : pyMin ((pyramidPoints h L up).map V3.y) = 0 := by simp [pyramidPoints, pyMin, hL.le, h2]
  unfold zcovGuess
  rw [hx, hy]
  simp [pyramidPoints]

theorem pyramid_surface (random : Bool) (h L : ℝ) (up : Bool) (hL : 0 < L) : ∃ s, mkSurface false random (pyramidPoints h L up) pyramidSimplices 1 none = some s ∧ s.zcov = 0 := by
  simp only [mkSurface, pyramid_zcov h L up hL, Option.map_some]
  exact ⟨_, rfl, rfl⟩

/-- Pyramids meet the hypotheses of `C62_refresh_partial`. -/
example : ∃ s, mkSurface false true (pyramidPoints 1 1 true) pyramidSimplices 1 none = some s ∧ (pyramidPoints 1 1 true)[1].z ≠ s.zcov ∧
    ∀ t ∈ pyramidSimplices, t.1 < (pyramidPoints 1 1 true).length ∧ t.2.1 < (pyramidPoints 1 1 true).length ∧ t.2.2 < (pyramidPoints 1 1 true).length := by
  obtain ⟨s, hs, hz⟩ := pyramid_surface true 1 1 true one_pos
  refine ⟨s, hs, by rw [hz]; simp [pyramidPoints], ?_⟩
  intro t ht
  simp only [pyramidSimplices, List.mem_cons, List.not_mem_nil, or_false] at ht
  rcases ht with rfl | rfl | rfl | rfl <;> simp [pyramidPoints]

/-- **C62 fails** for shifted surfaces: pyramids of height `H`, put at depth `z > 0` in a stack (as every surface but the first) and refreshed with height `h > 0`, no longer reach down to the reference height. -/
theorem C62_refresh_fails (H L z h : ℝ) (hL : 0 < L) (hH : 0 < H) (hz : 0 < z) (hh : 0 < h) :
    ∃ s, mkSurface false true (pyramidPoints H L true) pyramidSimplices 1 none = some s ∧ (s.shift z).zcov = -z ∧
      ((s.shift z).refresh h).zcov = -z ∧ ∀ p ∈ ((s.shift z).refresh h).points, -z < p.z := by
  obtain ⟨s, hs, hzc⟩ := pyramid_surface true H L true hL
  refine ⟨s, hs, by simp [Surface.shift, hzc], ?_⟩
  have hs' : s.points = pyramidPoints H L true ∧ s.original = pyramidPoints H L true ∧ s.isInt = false ∧ s.random = true ∧ s.heightInd = 1 := by
    unfold mkSurface at hs
    simp only [Option.map_eq_some_iff] at hs
    obtain ⟨zc, -, rfl⟩ := hs
    exact ⟨rfl, rfl, rfl, rfl, rfl⟩
  obtain ⟨h1, h2, h3, h4, h5⟩ := hs'
  have hf : (s.shift z).isInt = false := h3
  have hr : (s.shift z).random = true := h4
  obtain ⟨f1, -, f3, -⟩ := refresh_fields (s.shift z) h hr hf
  have e0 : (s.shift z).zcov = -z := by simp [Surface.shift, hzc]
  refine ⟨f3.trans e0, ?_⟩
  have ho : (s.shift z).original = pyramidPoints H L true := h2
  have hi : (s.shift z).heightInd = 1 := h5
  have hfac : factor (s.shift z) h = h / (H + z) := by
    unfold factor
    rw [ho, hi, e0]
    simp only [pyramidPoints, if_true, List.getD_cons_succ, List.getD_cons_zero, sub_neg_eq_add]
    exact abs_of_pos (by positivity)
  have hpt : (s.shift z).points = (pyramidPoints H L true).map (lower z) := by
    simp only [Surface.shift, h1, h3, storeAs, Bool.false_eq_true, if_false]
    rfl
  rw [f1, hpt, ho, e0, hfac]
  have hk : 0 < h / (H + z) := by positivity
  intro p hp
  simp only [pyramidPoints, if_true, List.map_cons, List.map_nil, lower, List.zipWith_cons_cons, List.zipWith_nil_left, List.mem_cons, List.not_mem_nil, or_false] at hp
  have base : 0 < h / (H + z) * (0 - -z) := by rw [zero_sub, neg_neg]; positivity
  have top : 0 < h / (H + z) * (H - -z) := by rw [sub_neg_eq_add]; positivity
  rcases hp with rfl | rfl | rfl | rfl | rfl <;> (simp only; linarith)

/-! ## C95 -/

theorem guess_mirror (pts : List V3) : zcovGuess (mirrorPoints pts) = (zcovGuess pts).map fun z => -z := by
  unfold zcovGuess mirrorPoints
  have hx : (pts.map fun p => (⟨p.x, p.y, -p.z⟩ : V3)).map V3.x = pts.map V3.x := by simp [Function.comp_def]
  have hy : (pts.map fun p => (⟨p.x, p.y, -p.z⟩ : V3)).map V3.y = pts.map V3.y := by simp [Function.comp_def]
  rw [hx, hy, List.find?_map]
  simp only [Function.comp_def, Option.map_map]

/-- **C95, what holds.** The rear surface of a texture given by coordinates is the mirror image of the front surface; so is its reference height, if `coverage_height` is not given or zero. -/
theorem C95_rear_partial (pts : List V3) (ss ss' : List (ℕ × ℕ × ℕ)) (hi hi' : ℕ) (random : Bool) (cov : Option ℝ) (hcov : cov = none ∨ cov = some 0) (f r : Surface)
    (hf : (xyzTexture pts ss ss' hi hi' random cov).1 = some f) (hr : (xyzTexture pts ss ss' hi hi' random cov).2 = some r) :
    r.points = f.points.map (fun p => ⟨p.x, p.y, -p.z⟩) ∧ r.zcov = -f.zcov := by
  unfold xyzTexture at hf hr
  unfold mkSurface at hf hr
  simp only [Option.map_eq_some_iff] at hf hr
  obtain ⟨zf, hzf, rfl⟩ := hf
  obtain ⟨zr, hzr, rfl⟩ := hr
  refine ⟨rfl, ?_⟩
  simp only
  rcases hcov with rfl | rfl
  · simp only at hzf hzr
    rw [guess_mirror, hzf] at hzr
    exact (Option.some.inj hzr).symm
  · simp only [Option.some.injEq] at hzf hzr
    rw [← hzf, ← hzr, neg_zero]

/-- The hypotheses are met by a pyramid. -/
example : ∃ f r, (xyzTexture (pyramidPoints 1 1 true) pyramidSimplices pyramidSimplices 1 1 false none).1 = some f ∧ (xyzTexture (pyramidPoints 1 1 true) pyramidSimplices pyramidSimplices 1 1 false none).2 = some r := by
  obtain ⟨s, hs, -⟩ := pyramid_surface false 1 1 true one_pos
  have hr : ∃ r, (xyzTexture (pyramidPoints 1 1 true) pyramidSimplices pyramidSimplices 1 1 false none).2 = some r := by
    simp only [xyzTexture, mkSurface, guess_mirror, pyramid_zcov 1 1 true one_pos, Option.map_some]
    exact ⟨_, rfl⟩
  obtain ⟨r, hr⟩ := hr
  exact ⟨s, r, hs, hr⟩

/-- **C95 fails** for any other `coverage_height`: the rear surface, although turned upside down, gets the same reference height as the front surface. -/
theorem C95_rear_fails (pts : List V3) (ss ss' : List (ℕ × ℕ × ℕ)) (hi hi' : ℕ) (random : Bool) (c : ℝ) (hc : c ≠ 0) :
    ∃ f r, (xyzTexture pts ss ss' hi hi' random (some c)).1 = some f ∧ (xyzTexture pts ss ss' hi hi' random (some c)).2 = some r ∧ r.zcov = f.zcov ∧ r.zcov ≠ -f.zcov := by
  refine ⟨_, _, rfl, rfl, rfl, ?_⟩
  simp only
  intro h
  exact hc (by linarith)

/-! ## C96 -/

/-- **C96, what holds.** Without a height distribution, front and rear surface of regular pyramids are mirror images for ever. -/
theorem C96_rear_partial (deg L : ℝ) (up : Bool) (ss ss' : List (ℕ × ℕ × ℕ)) (f r : Surface) (hs : List ℝ)
    (hf : (pyramidTexture deg L up none ss ss' none).1 = some f) (hr : (pyramidTexture deg L up none ss ss' none).2 = some r) :
    (hs.foldl Surface.refresh r).points = (hs.foldl Surface.refresh f).points.map (fun p => ⟨p.x, p.y, -p.z⟩) := by
  have key : ∀ (s : Surface), s.random = false → hs.foldl Surface.refresh s = s := by
    intro s h
    induction hs with
    | nil => rfl
    | cons a l ih =>
      rw [List.foldl_cons]
      have : s.refresh a = s := by simp [Surface.refresh, h]
      rw [this]; exact ih
  unfold pyramidTexture at hf hr
  unfold mkSurface at hf hr
  simp only [Option.map_eq_some_iff] at hf hr
  obtain ⟨zf, hzf, rfl⟩ := hf
  obtain ⟨zr, hzr, rfl⟩ := hr
  rw [key _ rfl, key _ rfl]
  rfl

example : ∃ f r, (pyramidTexture 55 1 true none pyramidSimplices pyramidSimplices none).1 = some f ∧ (pyramidTexture 55 1 true none pyramidSimplices pyramidSimplices none).2 = some r := by
  simp only [pyramidTexture, Option.getD_none, mkSurface, guess_mirror, pyramid_zcov _ 1 true one_pos, Option.map_some]
  exact ⟨_, _, rfl, rfl⟩

/-- **C96 fails** with a height distribution: the rear surface always keeps the height `h₀` drawn when the texture was made, the front surface gets the new height `h`. -/
theorem C96_rear_fails (deg L h₀ h : ℝ) (hL : 0 < L) (h0 : 0 < h₀) (hpos : 0 < h) :
    ∃ f r, (pyramidTexture deg L true (some h₀) pyramidSimplices pyramidSimplices none).1 = some f ∧ (pyramidTexture deg L true (some h₀) pyramidSimplices pyramidSimplices none).2 = some r ∧
      (f.refresh h).points = pyramidPoints h L true ∧ (r.refresh h).points = mirrorPoints (pyramidPoints h₀ L true) := by
  obtain ⟨f, hf, hz⟩ := pyramid_surface true h₀ L true hL
  have hr : ∃ r, (pyramidTexture deg L true (some h₀) pyramidSimplices pyramidSimplices none).2 = some r ∧ r.points = mirrorPoints (pyramidPoints h₀ L true) ∧ r.random = false := by
    simp only [pyramidTexture, Option.getD_some, mkSurface, guess_mirror, pyramid_zcov h₀ L true hL, Option.map_some]
    exact ⟨_, rfl, rfl, rfl⟩
  obtain ⟨r, hr, hrp, hrr⟩ := hr
  refine ⟨f, r, hf, hr, ?_, ?_⟩
  · have hs' : f.points = pyramidPoints h₀ L true ∧ f.original = pyramidPoints h₀ L true ∧ f.isInt = false ∧ f.random = true ∧ f.heightInd = 1 := by
      unfold mkSurface at hf
      simp only [Option.map_eq_some_iff] at hf
      obtain ⟨zc, -, rfl⟩ := hf
      exact ⟨rfl, rfl, rfl, rfl, rfl⟩
    obtain ⟨h1, h2, h3, h4, h5⟩ := hs'
    obtain ⟨f1, -⟩ := refresh_fields f h h4 h3
    have hfac : factor f h = h / h₀ := by
      unfold factor
      rw [h2, h5, hz]
      simp only [pyramidPoints, if_true, List.getD_cons_succ, List.getD_cons_zero, sub_zero]
      exact abs_of_pos (by positivity)
    rw [f1, h1, h2, hz, hfac]
    simp only [pyramidPoints, if_true, List.zipWith_cons_cons, List.zipWith_nil_left, sub_zero, mul_zero, add_zero]
    have : h / h₀ * h₀ = h := by field_simp
    rw [this]
  · simp only [Surface.refresh, hrr, if_true]
    exact hrp

end Rayflare
