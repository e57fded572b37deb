import Verif.Spec.Cell
import Verif.Props.Surface
import Verif.Props.Geometry
import Verif.Props.Textures
import Mathlib.Tactic.NormNum

/-!
# Property C170: the unit cell of a texture
-/

namespace Rayflare

open Rayflare.Np Rayflare.Model Rayflare.Spec Real

/-! ## Helper lemmas -/

theorem extent_of_min_max (pts : List V3) (h : pts ≠ []) :
    Extent pts (pyMin (pts.map V3.x)) (pyMin (pts.map V3.y)) |pyMin (pts.map V3.x) - pyMax (pts.map V3.x)| |pyMin (pts.map V3.y) - pyMax (pts.map V3.y)| := by
  obtain ⟨a1, a2⟩ := pyMin_spec (pts.map V3.x) (by simpa using h)
  obtain ⟨b1, b2⟩ := pyMax_spec (pts.map V3.x) (by simpa using h)
  obtain ⟨c1, c2⟩ := pyMin_spec (pts.map V3.y) (by simpa using h)
  obtain ⟨d1, d2⟩ := pyMax_spec (pts.map V3.y) (by simpa using h)
  have hx : |pyMin (pts.map V3.x) - pyMax (pts.map V3.x)| = pyMax (pts.map V3.x) - pyMin (pts.map V3.x) := by
    rw [abs_of_nonpos (by linarith [a2 _ b1])]; ring
  have hy : |pyMin (pts.map V3.y) - pyMax (pts.map V3.y)| = pyMax (pts.map V3.y) - pyMin (pts.map V3.y) := by
    rw [abs_of_nonpos (by linarith [c2 _ d1])]; ring
  rw [hx, hy]
  refine ⟨fun p hp => ⟨a2 _ (List.mem_map_of_mem hp), ?_, c2 _ (List.mem_map_of_mem hp), ?_⟩, ?_, ?_, ?_, ?_⟩
  · linarith [b2 _ (List.mem_map_of_mem (f := V3.x) hp)]
  · linarith [d2 _ (List.mem_map_of_mem (f := V3.y) hp)]
  · exact List.mem_map.mp a1
  · obtain ⟨p, hp, e⟩ := List.mem_map.mp b1
    exact ⟨p, hp, by linarith⟩
  · exact List.mem_map.mp c1
  · obtain ⟨p, hp, e⟩ := List.mem_map.mp d1
    exact ⟨p, hp, by linarith⟩

/-- Points determine their extent. -/
theorem extent_unique {pts : List V3} {x0 y0 Lx Ly x0' y0' Lx' Ly' : ℝ} (h : Extent pts x0 y0 Lx Ly) (h' : Extent pts x0' y0' Lx' Ly') :
    x0' = x0 ∧ y0' = y0 ∧ Lx' = Lx ∧ Ly' = Ly := by
  obtain ⟨i, ⟨a, ha, ea⟩, ⟨b, hb, eb⟩, ⟨c, hc, ec⟩, ⟨d, hd, ed⟩⟩ := h
  obtain ⟨i', ⟨a', ha', ea'⟩, ⟨b', hb', eb'⟩, ⟨c', hc', ec'⟩, ⟨d', hd', ed'⟩⟩ := h'
  have e1 : x0' = x0 := le_antisymm (by linarith [(i' a ha).1]) (by linarith [(i a' ha').1])
  have e2 : y0' = y0 := le_antisymm (by linarith [(i' c hc).2.2.1]) (by linarith [(i c' hc').2.2.1])
  refine ⟨e1, e2, le_antisymm ?_ ?_, le_antisymm ?_ ?_⟩
  · linarith [(i b' hb').2.1]
  · linarith [(i' b hb).2.1]
  · linarith [(i d' hd').2.2.2]
  · linarith [(i' d hd).2.2.2]

/-- Only the horizontal positions matter. -/
theorem extent_congr {pts pts' : List V3} {x0 y0 Lx Ly : ℝ} (h : pts'.map (fun p => (p.x, p.y)) = pts.map (fun p => (p.x, p.y))) (he : Extent pts x0 y0 Lx Ly) : Extent pts' x0 y0 Lx Ly := by
  have fwd : ∀ p ∈ pts, ∃ q ∈ pts', q.x = p.x ∧ q.y = p.y := by
    intro p hp
    have : (p.x, p.y) ∈ pts'.map (fun p => (p.x, p.y)) := by rw [h]; exact List.mem_map_of_mem (f := fun p : V3 => (p.x, p.y)) hp
    obtain ⟨q, hq, e⟩ := List.mem_map.mp this
    simp only [Prod.mk.injEq] at e
    exact ⟨q, hq, e.1, e.2⟩
  have bwd : ∀ q ∈ pts', ∃ p ∈ pts, q.x = p.x ∧ q.y = p.y := by
    intro p hp
    have : (p.x, p.y) ∈ pts.map (fun p => (p.x, p.y)) := by rw [← h]; exact List.mem_map_of_mem (f := fun p : V3 => (p.x, p.y)) hp
    obtain ⟨q, hq, e⟩ := List.mem_map.mp this
    simp only [Prod.mk.injEq] at e
    exact ⟨q, hq, e.1.symm, e.2.symm⟩
  refine ⟨fun q hq => ?_, ?_, ?_, ?_, ?_⟩
  · obtain ⟨p, hp, e1, e2⟩ := bwd q hq
    rw [e1, e2]
    exact he.inside p hp
  · obtain ⟨p, hp, e⟩ := he.left
    obtain ⟨q, hq, e1, -⟩ := fwd p hp
    exact ⟨q, hq, by rw [e1, e]⟩
  · obtain ⟨p, hp, e⟩ := he.right
    obtain ⟨q, hq, e1, -⟩ := fwd p hp
    exact ⟨q, hq, by rw [e1, e]⟩
  · obtain ⟨p, hp, e⟩ := he.front
    obtain ⟨q, hq, -, e1⟩ := fwd p hp
    exact ⟨q, hq, by rw [e1, e]⟩
  · obtain ⟨p, hp, e⟩ := he.rear
    obtain ⟨q, hq, -, e1⟩ := fwd p hp
    exact ⟨q, hq, by rw [e1, e]⟩

/-! ## The size of the cell -/

/-- **C170, size.** The unit cell of a new surface has the size of the extent of its points, wherever they lie. -/
theorem C170_size (isInt random : Bool) (pts : List V3) (ss : List (ℕ × ℕ × ℕ)) (hi : ℕ) (cov : Option ℝ) (s : Surface) (hne : pts ≠ [])
    (h : mkSurface isInt random pts ss hi cov = some s) (x0 y0 Lx Ly : ℝ) :
    Extent pts x0 y0 Lx Ly → s.Lx = Lx ∧ s.Ly = Ly := by
  intro he
  unfold mkSurface at h
  simp only [Option.map_eq_some_iff] at h
  obtain ⟨zc, -, rfl⟩ := h
  exact (extent_unique he (extent_of_min_max pts hne)).2.2

/-- **C170, the cell stays the same.** Moving a surface and drawing new heights leave the horizontal positions of its points and its unit cell alone, so the cell is the extent of the points at all times. -/
theorem C170_history (s : Surface) (x0 y0 : ℝ) (hl : s.points.length = s.original.length) (he : Extent s.points x0 y0 s.Lx s.Ly) (dz h : ℝ) :
    (Extent (s.shift dz).points x0 y0 (s.shift dz).Lx (s.shift dz).Ly ∧ (s.shift dz).points.length = (s.shift dz).original.length) ∧
    (Extent (s.refresh h).points x0 y0 (s.refresh h).Lx (s.refresh h).Ly ∧ (s.refresh h).points.length = (s.refresh h).original.length) := by
  refine ⟨⟨?_, ?_⟩, ?_⟩
  · apply extent_congr _ he
    simp [Surface.shift]
  · simp [Surface.shift, hl]
  · unfold Surface.refresh
    by_cases hr : s.random = false
    · rw [if_pos hr]; exact ⟨he, hl⟩
    · rw [if_neg hr]
      refine ⟨extent_congr ?_ he, by simp [hl]⟩
      simp only [List.map_zipWith]
      apply List.ext_getElem
      · simp [hl]
      · intro i h1 h2
        simp

/-- **C170, both sides.** The surface for light from the front and the one for light from the rear have the same unit cell. -/
theorem C170_both_sides (pts : List V3) (ss ss' : List (ℕ × ℕ × ℕ)) (hi hi' : ℕ) (random : Bool) (cov : Option ℝ) (hne : pts ≠ []) (front rear : Surface)
    (hf : (xyzTexture pts ss ss' hi hi' random cov).1 = some front) (hr : (xyzTexture pts ss ss' hi hi' random cov).2 = some rear) :
    rear.Lx = front.Lx ∧ rear.Ly = front.Ly := by
  have he := extent_of_min_max pts hne
  have hm : Extent (mirrorPoints pts) _ _ _ _ := extent_congr (pts' := mirrorPoints pts) (by simp [mirrorPoints]) he
  obtain ⟨a1, a2⟩ := C170_size _ _ _ _ _ _ _ hne hf _ _ _ _ he
  obtain ⟨b1, b2⟩ := C170_size _ _ _ _ _ _ _ (by simpa [mirrorPoints] using hne) hr _ _ _ _ hm
  exact ⟨by rw [a1, b1], by rw [a2, b2]⟩

/-- The flat surface of size `L` extends over the square with side `L` at the origin. -/
theorem C170_planar (L : ℝ) (hL : 0 ≤ L) : Extent (planarPoints L) 0 0 L L := by
  refine ⟨?_, ?_, ?_, ?_, ?_⟩ <;> simp [planarPoints, hL]

/-- Regular pyramids of size `L` extend over the square with side `L` at the origin. -/
theorem C170_pyramids (h L : ℝ) (up : Bool) (hL : 0 ≤ L) : Extent (pyramidPoints h L up) 0 0 L L := by
  refine ⟨?_, ?_, ?_, ?_, ?_⟩ <;> simp [pyramidPoints, hL]
  linarith

/-- V-grooves of width 1, in either direction, extend over the unit square (for other widths see C65). -/
theorem C170_grooves_partial (deg : ℝ) (dir : GrooveDir) : Extent (groovePoints deg 1 dir) 0 0 1 1 := by
  cases dir <;> refine ⟨?_, ?_, ?_, ?_, ?_⟩ <;> simp [groovePoints] <;> norm_num

/-- Two opposite corners and nothing outside. -/
theorem extent_of_corners {pts : List V3} {Lx Ly : ℝ} (h0 : ∃ p ∈ pts, p.x = 0 ∧ p.y = 0) (h1 : ∃ p ∈ pts, p.x = Lx ∧ p.y = Ly)
    (hin : ∀ p ∈ pts, 0 ≤ p.x ∧ p.x ≤ Lx ∧ 0 ≤ p.y ∧ p.y ≤ Ly) : Extent pts 0 0 Lx Ly := by
  obtain ⟨p, hp, e1, e2⟩ := h0
  obtain ⟨q, hq, e3, e4⟩ := h1
  refine ⟨fun a ha => ?_, ⟨p, hp, e1⟩, ⟨q, hq, by rw [e3, zero_add]⟩, ⟨p, hp, e2⟩, ⟨q, hq, by rw [e4, zero_add]⟩⟩
  rw [zero_add, zero_add]
  exact hin a ha

/-- Square height maps extend over the widths given (for other height maps see C63). -/
theorem C170_heights_partial (n : ℕ) (hn : 2 ≤ n) (z : ℕ → ℕ → ℝ) (xw yw : ℝ) (hx : 0 ≤ xw) (hy : 0 ≤ yw) : Extent (heightsPoints n n z xw yw) 0 0 xw yw := by
  obtain ⟨h1, h2, -⟩ := C63_heightmap_partial n z xw yw
  have hn1 : (0 : ℝ) < ((n - 1 : ℕ) : ℝ) := by exact_mod_cast (by omega : 0 < n - 1)
  have key : ∀ (w : ℝ), 0 ≤ w → ∀ j < n, 0 ≤ (j : ℝ) * (w / ((n - 1 : ℕ) : ℝ)) ∧ (j : ℝ) * (w / ((n - 1 : ℕ) : ℝ)) ≤ w := by
    intro w hw j hj
    have hj' : (j : ℝ) ≤ ((n - 1 : ℕ) : ℝ) := by exact_mod_cast (by omega : j ≤ n - 1)
    refine ⟨by positivity, ?_⟩
    rw [mul_div_assoc', div_le_iff₀ hn1, mul_comm]
    exact mul_le_mul_of_nonneg_left hj' hw
  refine extent_of_corners ⟨_, h1 0 (by omega) 0 (by omega), by simp, by simp⟩ ⟨_, h1 (n - 1) (by omega) (n - 1) (by omega), ?_, ?_⟩ ?_
  · simp only; field_simp
  · simp only; field_simp
  · intro p hp
    obtain ⟨i, hi, j, hj, rfl⟩ := h2 p hp
    exact ⟨(key xw hx j hj).1, (key xw hx j hj).2, (key yw hy i hi).1, (key yw hy i hi).2⟩

/-- Rough planes and rough pyramids from random coordinates within the cell extend over the whole cell. -/
theorem C170_rough (size noiseHeight tanα : ℝ) (hs : 0 ≤ size) (upright : Bool) (coords : List (ℝ × ℝ)) (hc : ∀ c ∈ coords, 0 ≤ c.1 ∧ c.1 ≤ size ∧ 0 ≤ c.2 ∧ c.2 ≤ size) (noise : ℕ → ℝ) (noise' : ℕ → ℕ → ℝ) :
    Extent (roughPlanar size noiseHeight false coords noise) 0 0 size size ∧ Extent (roughPyramids size tanα noiseHeight upright false coords noise') 0 0 size size := by
  have key : ∀ pts : List V3, (pts.map (fun p => (p.x, p.y))).Perm (coords ++ [(0, 0), (0, size), (size, size), (size, 0)]) → Extent pts 0 0 size size := by
    intro pts hp
    have hmem : ∀ c, c ∈ coords ++ [(0, 0), (0, size), (size, size), (size, 0)] → ∃ p ∈ pts, p.x = c.1 ∧ p.y = c.2 := by
      intro c hc
      obtain ⟨p, h1, h2⟩ := List.mem_map.mp (hp.mem_iff.mpr hc)
      exact ⟨p, h1, by rw [← h2], by rw [← h2]⟩
    refine extent_of_corners (hmem (0, 0) (by simp)) (hmem (size, size) (by simp)) ?_
    intro p hpm
    have : (p.x, p.y) ∈ coords ++ [(0, 0), (0, size), (size, size), (size, 0)] := hp.mem_iff.mp (List.mem_map_of_mem (f := fun p : V3 => (p.x, p.y)) hpm)
    rcases List.mem_append.mp this with h | h
    · exact hc _ h
    · simp only [List.mem_cons, Prod.mk.injEq, List.not_mem_nil, or_false] at h
      rcases h with ⟨h1, h2⟩ | ⟨h1, h2⟩ | ⟨h1, h2⟩ | ⟨h1, h2⟩ <;> rw [h1, h2] <;> simp [hs]
  constructor
  · apply key
    have := (C66_rough_plane size noiseHeight false coords noise).1
    simp only [Bool.false_eq_true, if_false] at this
    rw [this]
  · apply key
    have := (C66_rough_pyramid size tanα noiseHeight upright false coords noise').1
    simpa only [Bool.false_eq_true, if_false] using this

/-- The textures above give surfaces with the expected cell, before and after being moved down and drawn afresh. -/
example (dz h : ℝ) : ∃ s, mkSurface false true (pyramidPoints 1 2 true) pyramidSimplices 1 none = some s ∧ s.Lx = 2 ∧ Extent ((s.shift dz).refresh h).points 0 0 2 2 := by
  obtain ⟨s, hs, -⟩ := pyramid_surface true 1 2 true (by norm_num)
  have he := C170_pyramids 1 2 true (by norm_num)
  obtain ⟨e1, e2⟩ := C170_size _ _ _ _ _ _ _ (by simp [pyramidPoints]) hs _ _ _ _ he
  have hp : s.points = pyramidPoints 1 2 true ∧ s.points.length = s.original.length := by
    unfold mkSurface at hs
    simp only [Option.map_eq_some_iff] at hs
    obtain ⟨zc, -, rfl⟩ := hs
    exact ⟨rfl, rfl⟩
  have h1 := (C170_history s 0 0 hp.2 (by rw [hp.1, e1, e2]; exact he) dz h).1
  have h2 := (C170_history (s.shift dz) 0 0 h1.2 h1.1 dz h).2.1
  have l1 : ((s.shift dz).refresh h).Lx = 2 := by rw [← e1]; unfold Surface.refresh Surface.shift; split <;> rfl
  have l2 : ((s.shift dz).refresh h).Ly = 2 := by rw [← e2]; unfold Surface.refresh Surface.shift; split <;> rfl
  rw [l1, l2] at h2
  exact ⟨s, hs, e1, h2⟩

/-! ## Rays are put over the cell -/

/-- **C170, what holds of the position.** If the points of a texture start at the origin, as those of the textures above do, then every ray arrives at the reference height over the texture. Missing: textures that do not start at the origin (next theorem). -/
theorem C170_over_texture_partial (isInt random : Bool) (pts : List V3) (ss : List (ℕ × ℕ × ℕ)) (hi : ℕ) (cov : Option ℝ) (s : Surface) (hne : pts ≠ [])
    (h : mkSurface isInt random pts ss hi cov = some s) (Lx Ly : ℝ) (hLx : 0 < Lx) (hLy : 0 < Ly) (he : Extent pts 0 0 Lx Ly) (r d : V3) (hd : d.z ≠ 0) (t : ℝ)
    (ht : (wrapRay r d s.Lx s.Ly s.zcov + t • d).z = s.zcov) :
    (∃ p ∈ pts, p.x ≤ (wrapRay r d s.Lx s.Ly s.zcov + t • d).x) ∧ (∃ p ∈ pts, (wrapRay r d s.Lx s.Ly s.zcov + t • d).x ≤ p.x) ∧
    (∃ p ∈ pts, p.y ≤ (wrapRay r d s.Lx s.Ly s.zcov + t • d).y) ∧ (∃ p ∈ pts, (wrapRay r d s.Lx s.Ly s.zcov + t • d).y ≤ p.y) := by
  obtain ⟨e1, e2⟩ := C170_size _ _ _ _ _ _ _ hne h _ _ _ _ he
  obtain ⟨a, b, c, e⟩ := (C47_wrap s.Lx s.Ly s.zcov (by rw [e1]; exact hLx) (by rw [e2]; exact hLy) r d hd).2 t ht
  obtain ⟨p1, h1, q1⟩ := he.left
  obtain ⟨p2, h2, q2⟩ := he.right
  obtain ⟨p3, h3, q3⟩ := he.front
  obtain ⟨p4, h4, q4⟩ := he.rear
  refine ⟨⟨p1, h1, by rw [q1]; exact a⟩, ⟨p2, h2, ?_⟩, ⟨p3, h3, by rw [q3]; exact c⟩, ⟨p4, h4, ?_⟩⟩
  · rw [q2, ← e1]; linarith
  · rw [q4, ← e2]; linarith

/-- A flat square whose points do not start at the origin: x and y between 5 and 6. -/
def farSquare : List V3 := [⟨5, 5, 0⟩, ⟨6, 5, 0⟩, ⟨5, 6, 0⟩, ⟨6, 6, 0⟩]

/-- Two triangles that cover it. -/
def farTriangles : List (ℕ × ℕ × ℕ) := [(0, 1, 2), (3, 2, 1)]

theorem far_missed (r : V3) (hx : r.x ≤ 1) : checkIntersect r ⟨0, 0, -1⟩ (trisOf farSquare farTriangles) = none := by
  have h : ∀ τ ∈ trisOf farSquare farTriangles, τ.hit r ⟨0, 0, -1⟩ = false := by
    intro τ hτ
    simp only [trisOf, farTriangles, farSquare, List.map_cons, List.map_nil, List.mem_cons, List.not_mem_nil, or_false] at hτ
    simp only [Tri.hit, decide_eq_false_iff_not]
    rintro ⟨-, h1, ⟨h2, h3⟩, -⟩
    rcases hτ with rfl | rfl <;> simp [Tri.u, Tri.v, Tri.det, Tri.crossP, V3.dot, V3.cross] at h1 h2 h3 <;> norm_num at h1 h2 h3 <;> linarith
  have hf : (trisOf farSquare farTriangles).filter (fun τ => τ.hit r ⟨0, 0, -1⟩) = [] := by
    rw [List.filter_eq_nil_iff]
    intro τ hτ
    rw [h τ hτ]
    simp
  simp [checkIntersect, hf]

theorem far_run (ws : List Draw) (d0 : V3) (hw : ∀ w ∈ ws, w.tris = trisOf farSquare farTriangles ∧ 0 ≤ w.rx ∧ w.rx ≤ 1 ∧ 0 ≤ w.ry ∧ w.ry ≤ 1)
    (s : Sic) (hd : s.d = ⟨0, 0, -1⟩) (hc : s.checked = false) (hi : s.i1 = 0) (hx : s.r.x ≤ 1) (hm : s.misses ≤ 100) (hl : 101 ≤ s.misses + ws.length) :
    ∃ ot r, sicRun 1 1 d0 ws s = .inr (.gaveUp ot r ⟨0, 0, 1⟩ s.nInt s.side) := by
  induction ws generalizing s with
  | nil => simp only [List.length_nil] at hl; omega
  | cons w ws ih =>
    obtain ⟨ht, hw1⟩ := hw w (by simp)
    have hmiss : checkIntersect s.r s.d w.tris = none := by rw [hd, ht]; exact far_missed s.r hx
    unfold sicRun
    by_cases h100 : s.misses < 100
    · have hstep : sicStep 1 1 d0 w s = .inl { s with r := relaunch 1 1 w s.d, misses := s.misses + 1, i1 := 0 } := by
        simp only [sicStep, hmiss, hc, hi, h100]
        simp
      rw [hstep]
      refine ih (fun w' hw' => hw w' (by simp [hw'])) _ hd hc rfl ?_ (by simp only; omega) (by simp only [List.length_cons] at hl ⊢; omega)
      simp only [relaunch, hd]; norm_num; linarith [hw1.2.1]
    · have hstep : sicStep 1 1 d0 w s = .inr (.gaveUp (polar ⟨s.d.x, s.d.y, -s.d.z⟩) s.r ⟨s.d.x, s.d.y, -s.d.z⟩ s.nInt s.side) := by
        simp only [sicStep, hmiss, hc, hi, h100]
        simp
      rw [hstep]
      refine ⟨polar ⟨s.d.x, s.d.y, -s.d.z⟩, s.r, ?_⟩
      simp [hd]

/-- **C170 is violated for textures that do not start at the origin.** For the flat square at 5 ≤ x, y ≤ 6, of size 1, every ray from straight above is sent back without having met the surface, whatever the materials, the random
numbers and the position: a surface with no reflection at all is reported to reflect everything. -/
theorem C170_offset_fails (s : Surface) (hs : mkSurface false false farSquare farTriangles 0 none = some s) (r : V3) (ws : List Draw)
    (hw : ∀ w ∈ ws, w.tris = s.tris ∧ 0 ≤ w.rx ∧ w.rx ≤ 1 ∧ 0 ≤ w.ry ∧ w.ry ≤ 1) (hl : 101 ≤ ws.length) :
    s.Lx = 1 ∧ s.Ly = 1 ∧ ∃ ot r', sicRun s.Lx s.Ly ⟨0, 0, -1⟩ ws (sicStart (wrapRay r ⟨0, 0, -1⟩ s.Lx s.Ly s.zcov) ⟨0, 0, -1⟩ 1 0) = .inr (.gaveUp ot r' ⟨0, 0, 1⟩ 0 1) := by
  have he : Extent farSquare 5 5 1 1 := by
    refine ⟨?_, ?_, ?_, ?_, ?_⟩ <;> simp [farSquare] <;> norm_num
  obtain ⟨e1, e2⟩ := C170_size _ _ _ _ _ _ _ (by simp [farSquare]) hs _ _ _ _ he
  have ht : s.tris = trisOf farSquare farTriangles := by
    unfold mkSurface at hs
    simp only [Option.map_eq_some_iff] at hs
    obtain ⟨zc, -, rfl⟩ := hs
    rfl
  refine ⟨e1, e2, ?_⟩
  rw [e1, e2]
  refine far_run ws _ (fun w hw' => by rw [← ht]; exact hw w hw') _ rfl rfl rfl ?_ (by simp [sicStart]) (by simp only [sicStart]; omega)
  have hfr := Int.fract_lt_one r.x
  simp [sicStart, wrapRay]
  exact hfr.le

/-- The hypotheses are met: the surface can be made. -/
example : ∃ s, mkSurface false false farSquare farTriangles 0 none = some s := by
  have : zcovGuess farSquare = some 0 := by
    simp [zcovGuess, farSquare, pyMin]
    exact ⟨_, Or.inl ⟨by norm_num, rfl⟩, rfl⟩
  exact ⟨_, by simp only [mkSurface, this, Option.map_some]; rfl⟩

end Rayflare
