import Verif.Lemmas.Intersect
import Verif.Spec.Ray
import Verif.Props.Fresnel

/-!
# Properties C45–C47 and C76–C79: rays and triangulated surfaces
-/

namespace Rayflare

open Rayflare.Model Rayflare.Spec Rayflare.Lemmas

/-! ## C45 -/

/-- **C45, sound and nearest.** A reported intersection lies on the ray in front of its origin and in a triangle of the surface (barycentric tolerance 1e-10); the reported
normal and local angle are those of that triangle; and no triangle (not parallel to the ray) is met earlier. -/
theorem C45_sound_nearest (r d : V3) (tris : List Tri) (p : V3) (θ : ℝ) (N : V3) (h : checkIntersect r d tris = some (p, θ, N)) :
    ∃ τ ∈ tris, ∃ t : ℝ, 0 < t ∧ p = r + t • d ∧ InTri (1 / 10 ^ 10) τ p ∧ N = τ.N ∧ θ = localTheta τ.N d ∧
      ∀ τ' ∈ tris, ¬ Parallel τ' d → ∀ t' : ℝ, 0 < t' → InTri 0 τ' (r + t' • d) → t ≤ t' := by
  obtain ⟨τ, hτ, hhit, hp, hθ, hN, hmin⟩ := checkIntersect_some h
  have hh := hhit
  unfold Tri.hit at hh
  rw [decide_eq_true_eq] at hh
  obtain ⟨hdet, huv, ⟨hu, hv⟩, ht⟩ := hh
  refine ⟨τ, hτ, τ.t r d, ht, hp, ⟨τ.u r d, τ.v r d, hu, hv, huv, ?_⟩, hN, hθ, ?_⟩
  · rw [hp]; exact tri_solve τ r d hdet
  · intro τ' hτ' hpar t' ht' hin
    obtain ⟨g1, g2⟩ := hit_of_inTri hpar ht' hin
    rw [← g2]
    exact hmin τ' hτ' g1

/-- **C45, complete.** `False` is returned only if no triangle (not parallel to the ray) is met in front of the origin. -/
theorem C45_complete (r d : V3) (tris : List Tri) (h : checkIntersect r d tris = none) :
    ∀ τ ∈ tris, ¬ Parallel τ d → ∀ t : ℝ, 0 < t → ¬ InTri 0 τ (r + t • d) := by
  intro τ hτ hpar t ht hin
  obtain ⟨g1, -⟩ := hit_of_inTri hpar ht hin
  have := checkIntersect_none h τ hτ
  rw [g1] at this
  simp at this

/-- A horizontal triangle. -/
noncomputable def exTri : Tri := ⟨⟨0, 0, 0⟩, ⟨10, 0, 0⟩, ⟨0, 10, 0⟩⟩

theorem exTri_cross : exTri.crossP = ⟨0, 0, 100⟩ := by
  ext <;> simp [Tri.crossP, exTri, V3.cross] <;> norm_num

theorem exTri_N : exTri.N = ⟨0, 0, 1⟩ := by
  have hn : V3.norm exTri.crossP = 100 := by
    rw [exTri_cross]
    simp only [V3.norm, V3.dot]
    rw [show (0 : ℝ) * 0 + 0 * 0 + 100 * 100 = 100 ^ 2 by norm_num, Real.sqrt_sq (by norm_num)]
  unfold Tri.N
  rw [hn, exTri_cross]
  ext <;> simp

theorem checkIntersect_single_hit {r d : V3} {τ : Tri} (h : τ.hit r d = true) :
    checkIntersect r d [τ] = some (r + τ.t r d • d, localTheta τ.N d, τ.N) := by
  unfold checkIntersect
  have : [τ].filter (fun τ => τ.hit r d) = [τ] := by simp [h]
  simp only [this]
  have : Np.argmin ([τ].map fun τ => τ.t r d) = 0 := by
    simp [Np.argmin, List.findIdx_cons]
  rw [this]; rfl

theorem checkIntersect_single_miss {r d : V3} {τ : Tri} (h : τ.hit r d = false) : checkIntersect r d [τ] = none := by
  unfold checkIntersect
  have : [τ].filter (fun τ => τ.hit r d) = [] := by simp [h]
  simp [this]

/-- Downwards onto the triangle: hit. -/
theorem exTri_hit : exTri.hit ⟨1, 1, 5⟩ ⟨0, 0, -1⟩ = true ∧ exTri.t ⟨1, 1, 5⟩ ⟨0, 0, -1⟩ = 5 := by
  apply hit_of_inTri
  · unfold Parallel; simp only [exTri, V3.dot, V3.cross, V3.sub_x, V3.sub_y, V3.sub_z]; norm_num
  · norm_num
  · refine ⟨1 / 10, 1 / 10, by norm_num, by norm_num, by norm_num, ?_⟩
    ext <;> simp [exTri] <;> norm_num

/-- Upwards from above: no hit. -/
theorem exTri_miss (r : V3) (h : 0 < r.z) : exTri.hit r ⟨0, 0, 1⟩ = false := by
  unfold Tri.hit
  rw [decide_eq_false_iff_not]
  rintro ⟨-, -, -, ht⟩
  unfold Tri.t Tri.det at ht
  rw [exTri_cross] at ht
  simp only [exTri, V3.dot, V3.neg_x, V3.neg_y, V3.neg_z, V3.sub_x, V3.sub_y, V3.sub_z] at ht
  have e : (1 : ℝ) / (-0 * 0 + -0 * 0 + -1 * 100) * (0 * (r.x - 0) + 0 * (r.y - 0) + 100 * (r.z - 0)) = -r.z := by
    norm_num; ring
  rw [e] at ht
  linarith

example : ∃ p θ N, checkIntersect ⟨1, 1, 5⟩ ⟨0, 0, -1⟩ [exTri] = some (p, θ, N) :=
  ⟨_, _, _, checkIntersect_single_hit exTri_hit.1⟩

example : checkIntersect ⟨1, 1, 5⟩ ⟨0, 0, 1⟩ [exTri] = none := checkIntersect_single_miss (exTri_miss _ (by norm_num))

/-! ## C46 -/

/-- **C46.** For a point of the unit cell (not on its way out on the boundary) and a direction that is not vertical, `exit_side` returns a side and a positive parameter:
until then the ray stays in the cell, there it is on the named side moving outwards, and translated by the lattice vector used for that side it
is on the opposite side of the cell, inside, and moving inwards. -/
theorem C46_exit (Lx Ly : ℝ) (r d : V3) (hin : InCellInward Lx Ly r d) (hd : d.x ≠ 0 ∨ d.y ≠ 0) :
    ∃ i t, exitSide r d Lx Ly = (i, some t) ∧ 0 < t ∧ (∀ τ, 0 ≤ τ → τ ≤ t → InCell Lx Ly (r + τ • d)) ∧
      InCell Lx Ly (r + t • d + translation Lx Ly i) ∧
      ((i = 0 ∧ 0 < d.y ∧ (r + t • d).y = Ly ∧ (r + t • d + translation Lx Ly i).y = 0) ∨
       (i = 1 ∧ 0 < d.x ∧ (r + t • d).x = Lx ∧ (r + t • d + translation Lx Ly i).x = 0) ∨
       (i = 2 ∧ d.y < 0 ∧ (r + t • d).y = 0 ∧ (r + t • d + translation Lx Ly i).y = Ly) ∨
       (i = 3 ∧ d.x < 0 ∧ (r + t • d).x = 0 ∧ (r + t • d + translation Lx Ly i).x = Lx)) := by
  obtain ⟨⟨hx0, hx1, hy0, hy1⟩, ox, ox', oy, oy'⟩ := hin
  obtain ⟨i, hi, hexit, hmin⟩ := exitSide_spec r d Lx Ly
  -- the four planes
  have top : planeT (-(Ly - r.y)) (-d.y) = if 0 < d.y then some ((Ly - r.y) / d.y) else none := by
    split_ifs with h
    · rw [planeT_neg_neg (by linarith [oy h]) (by linarith)]; congr 1; rw [neg_div_neg_eq]
    · exact planeT_none (by linarith) (by linarith [not_lt.mp h])
  have right : planeT (-(Lx - r.x)) (-d.x) = if 0 < d.x then some ((Lx - r.x) / d.x) else none := by
    split_ifs with h
    · rw [planeT_neg_neg (by linarith [ox h]) (by linarith)]; congr 1; rw [neg_div_neg_eq]
    · exact planeT_none (by linarith) (by linarith [not_lt.mp h])
  have bottom : planeT (0 - r.y) d.y = if d.y < 0 then some (r.y / -d.y) else none := by
    split_ifs with h
    · rw [planeT_neg_neg (by linarith [oy' h]) h]; congr 1; rw [zero_sub, neg_div, div_neg]
    · exact planeT_none (by linarith) (not_lt.mp h)
  have left : planeT (0 - r.x) d.x = if d.x < 0 then some (r.x / -d.x) else none := by
    split_ifs with h
    · rw [planeT_neg_neg (by linarith [ox' h]) h]; congr 1; rw [zero_sub, neg_div, div_neg]
    · exact planeT_none (by linarith) (not_lt.mp h)
  set ts := exitTs r d Lx Ly with hts
  have hts' : ts = [if 0 < d.y then some ((Ly - r.y) / d.y) else none, if 0 < d.x then some ((Lx - r.x) / d.x) else none,
      if d.y < 0 then some (r.y / -d.y) else none, if d.x < 0 then some (r.x / -d.x) else none] := by
    rw [hts]; unfold exitTs; rw [top, right, bottom, left]
  -- some plane is met
  have hsome : ∃ t, ts.getD i none = some t := by
    rcases hg : ts.getD i none with _ | t
    · exfalso
      rw [hg] at hmin
      have hn : ∀ y ∈ ts, y = none := by
        intro y hy
        have := hmin y hy
        cases y <;> simp_all [leInf]
      have n0 := hn (if 0 < d.y then some ((Ly - r.y) / d.y) else none) (by rw [hts']; simp)
      have n1 := hn (if 0 < d.x then some ((Lx - r.x) / d.x) else none) (by rw [hts']; simp)
      have n2 := hn (if d.y < 0 then some (r.y / -d.y) else none) (by rw [hts']; simp)
      have n3 := hn (if d.x < 0 then some (r.x / -d.x) else none) (by rw [hts']; simp)
      have m0 : ¬ 0 < d.y := by intro h; rw [if_pos h] at n0; simp at n0
      have m1 : ¬ 0 < d.x := by intro h; rw [if_pos h] at n1; simp at n1
      have m2 : ¬ d.y < 0 := by intro h; rw [if_pos h] at n2; simp at n2
      have m3 : ¬ d.x < 0 := by intro h; rw [if_pos h] at n3; simp at n3
      rcases hd with h | h
      · exact h (le_antisymm (not_lt.mp m1) (not_lt.mp m3))
      · exact h (le_antisymm (not_lt.mp m0) (not_lt.mp m2))
    · exact ⟨t, rfl⟩
  obtain ⟨t, ht⟩ := hsome
  rw [ht] at hmin hexit
  have hle : ∀ y, some y ∈ ts → t ≤ y := by
    intro y hy; have := hmin (some y) hy; simpa [leInf] using this
  have b0 : 0 < d.y → t ≤ (Ly - r.y) / d.y := fun h => hle _ (by rw [hts']; simp [h])
  have b1 : 0 < d.x → t ≤ (Lx - r.x) / d.x := fun h => hle _ (by rw [hts']; simp [h])
  have b2 : d.y < 0 → t ≤ r.y / -d.y := fun h => hle _ (by rw [hts']; simp [h])
  have b3 : d.x < 0 → t ≤ r.x / -d.x := fun h => hle _ (by rw [hts']; simp [h])
  have stay : ∀ τ, 0 ≤ τ → τ ≤ t → InCell Lx Ly (r + τ • d) := by
    intro τ h0 h1
    refine ⟨?_, ?_, ?_, ?_⟩ <;> simp only [V3.add_x, V3.add_y, V3.smul_x, V3.smul_y]
    · rcases lt_or_ge d.x 0 with h | h
      · have := b3 h; rw [le_div_iff₀ (by linarith)] at this; nlinarith
      · nlinarith [mul_nonneg h0 h]
    · rcases lt_or_ge 0 d.x with h | h
      · have := b1 h; rw [le_div_iff₀ h] at this; nlinarith
      · nlinarith [mul_nonneg h0 (neg_nonneg.mpr h)]
    · rcases lt_or_ge d.y 0 with h | h
      · have := b2 h; rw [le_div_iff₀ (by linarith)] at this; nlinarith
      · nlinarith [mul_nonneg h0 h]
    · rcases lt_or_ge 0 d.y with h | h
      · have := b0 h; rw [le_div_iff₀ h] at this; nlinarith
      · nlinarith [mul_nonneg h0 (neg_nonneg.mpr h)]
  have hval : (i = 0 ∧ 0 < d.y ∧ t = (Ly - r.y) / d.y) ∨ (i = 1 ∧ 0 < d.x ∧ t = (Lx - r.x) / d.x) ∨
      (i = 2 ∧ d.y < 0 ∧ t = r.y / -d.y) ∨ (i = 3 ∧ d.x < 0 ∧ t = r.x / -d.x) := by
    rw [hts'] at ht
    interval_cases i
    · left
      simp only [List.getD_cons_zero] at ht
      split_ifs at ht with h
      exact ⟨rfl, h, by simpa using ht.symm⟩
    · right; left
      simp only [List.getD_cons_zero, List.getD_cons_succ] at ht
      split_ifs at ht with h
      exact ⟨rfl, h, by simpa using ht.symm⟩
    · right; right; left
      simp only [List.getD_cons_zero, List.getD_cons_succ] at ht
      split_ifs at ht with h
      exact ⟨rfl, h, by simpa using ht.symm⟩
    · right; right; right
      simp only [List.getD_cons_zero, List.getD_cons_succ] at ht
      split_ifs at ht with h
      exact ⟨rfl, h, by simpa using ht.symm⟩
  have hpos : 0 < t := by
    rcases hval with ⟨_, h, e⟩ | ⟨_, h, e⟩ | ⟨_, h, e⟩ | ⟨_, h, e⟩ <;> rw [e]
    · exact div_pos (by linarith [oy h]) h
    · exact div_pos (by linarith [ox h]) h
    · exact div_pos (oy' h) (by linarith)
    · exact div_pos (ox' h) (by linarith)
  obtain ⟨s0, s1, s2, s3⟩ := stay t hpos.le (le_refl _)
  refine ⟨i, t, hexit, hpos, stay, ?_, ?_⟩
  · rcases hval with ⟨rfl, h, e⟩ | ⟨rfl, h, e⟩ | ⟨rfl, h, e⟩ | ⟨rfl, h, e⟩
    · have e' : (r + t • d).y = Ly := by simp only [V3.add_y, V3.smul_y]; rw [e]; field_simp; ring
      refine ⟨?_, ?_, ?_, ?_⟩ <;> simp only [V3.add_x (r + t • d), V3.add_y (r + t • d), translation, e'] <;> linarith
    · have e' : (r + t • d).x = Lx := by simp only [V3.add_x, V3.smul_x]; rw [e]; field_simp; ring
      refine ⟨?_, ?_, ?_, ?_⟩ <;> simp only [V3.add_x (r + t • d), V3.add_y (r + t • d), translation, e'] <;> linarith
    · have hne : d.y ≠ 0 := h.ne
      have e' : (r + t • d).y = 0 := by simp only [V3.add_y, V3.smul_y]; rw [e]; field_simp; ring
      refine ⟨?_, ?_, ?_, ?_⟩ <;> simp only [V3.add_x (r + t • d), V3.add_y (r + t • d), translation, e'] <;> linarith
    · have hne : d.x ≠ 0 := h.ne
      have e' : (r + t • d).x = 0 := by simp only [V3.add_x, V3.smul_x]; rw [e]; field_simp; ring
      refine ⟨?_, ?_, ?_, ?_⟩ <;> simp only [V3.add_x (r + t • d), V3.add_y (r + t • d), translation, e'] <;> linarith
  · rcases hval with ⟨rfl, h, e⟩ | ⟨rfl, h, e⟩ | ⟨rfl, h, e⟩ | ⟨rfl, h, e⟩
    · have e' : (r + t • d).y = Ly := by simp only [V3.add_y, V3.smul_y]; rw [e]; field_simp; ring
      exact Or.inl ⟨rfl, h, e', by rw [V3.add_y, e']; simp [translation]⟩
    · have e' : (r + t • d).x = Lx := by simp only [V3.add_x, V3.smul_x]; rw [e]; field_simp; ring
      exact Or.inr (Or.inl ⟨rfl, h, e', by rw [V3.add_x, e']; simp [translation]⟩)
    · have hne : d.y ≠ 0 := h.ne
      have e' : (r + t • d).y = 0 := by simp only [V3.add_y, V3.smul_y]; rw [e]; field_simp; ring
      exact Or.inr (Or.inr (Or.inl ⟨rfl, h, e', by rw [V3.add_y, e']; simp [translation]⟩))
    · have hne : d.x ≠ 0 := h.ne
      have e' : (r + t • d).x = 0 := by simp only [V3.add_x, V3.smul_x]; rw [e]; field_simp; ring
      exact Or.inr (Or.inr (Or.inr ⟨rfl, h, e', by rw [V3.add_x, e']; simp [translation]⟩))

example : InCellInward 1 1 ⟨1/2, 1/3, 7⟩ ⟨1, -1, -1⟩ := by
  refine ⟨⟨?_, ?_, ?_, ?_⟩, ?_, ?_, ?_, ?_⟩ <;> norm_num

/-! ## C47 -/

/-- **C47.** The shift before a periodic surface is tested is by whole periods only, leaves the height alone, and afterwards the ray crosses the reference height inside the unit
cell. -/
theorem C47_wrap (Lx Ly zcov : ℝ) (hx : 0 < Lx) (hy : 0 < Ly) (r d : V3) (hd : d.z ≠ 0) :
    let r' := wrapRay r d Lx Ly zcov
    (∃ m n : ℤ, r'.x = r.x - m * Lx ∧ r'.y = r.y - n * Ly ∧ r'.z = r.z) ∧
    ∀ t : ℝ, (r' + t • d).z = zcov →
      0 ≤ (r' + t • d).x ∧ (r' + t • d).x < Lx ∧ 0 ≤ (r' + t • d).y ∧ (r' + t • d).y < Ly := by
  intro r'
  refine ⟨⟨⌊(r.x + d.x * (zcov - r.z) / d.z) / Lx⌋, ⌊(r.y + d.y * (zcov - r.z) / d.z) / Ly⌋, ?_, ?_, rfl⟩, ?_⟩
  · simp only [r', wrapRay]; ring
  · simp only [r', wrapRay]; ring
  · intro t ht
    have hz : (r' + t • d).z = r.z + t * d.z := rfl
    rw [hz] at ht
    have ht' : t = (zcov - r.z) / d.z := by field_simp; linarith
    have ex : (r' + t • d).x = (r.x + d.x * (zcov - r.z) / d.z) - Lx * (⌊(r.x + d.x * (zcov - r.z) / d.z) / Lx⌋ : ℤ) := by
      show r'.x + t * d.x = _
      simp only [r', wrapRay]
      rw [ht']; ring
    have ey : (r' + t • d).y = (r.y + d.y * (zcov - r.z) / d.z) - Ly * (⌊(r.y + d.y * (zcov - r.z) / d.z) / Ly⌋ : ℤ) := by
      show r'.y + t * d.y = _
      simp only [r', wrapRay]
      rw [ht']; ring
    have key : ∀ (a L : ℝ), 0 < L → 0 ≤ a - L * (⌊a / L⌋ : ℤ) ∧ a - L * (⌊a / L⌋ : ℤ) < L := by
      intro a L hL
      have h1 := Int.floor_le (a / L)
      have h2 := Int.lt_floor_add_one (a / L)
      rw [le_div_iff₀ hL] at h1
      rw [div_lt_iff₀ hL] at h2
      constructor <;> nlinarith
    rw [ex, ey]
    exact ⟨(key _ _ hx).1, (key _ _ hx).2, (key _ _ hy).1, (key _ _ hy).2⟩

/-- The crossing exists. -/
example (r d : V3) (h : d.z ≠ 0) (zcov : ℝ) : ∃ t : ℝ, (r + t • d).z = zcov :=
  ⟨(zcov - r.z) / d.z, by simp; field_simp; ring⟩

/-! ## C76–C79: the surface interaction as a whole -/

/-- Facts kept by the loop of `single_interface_check`. -/
structure SicInv (d0 : V3) (side0 : ℤ) (n0 : ℕ) (s : Sic) : Prop where
  side : s.side = 1 ∨ s.side = -1
  fresh : s.i1 = 0 → s.d = d0 ∧ s.side = side0
  angle : s.i1 ≠ 0 → s.θ ≠ none ∧ n0 < s.nInt
  checked : s.checked = true → s.i1 ≠ 0

theorem sicStep_inv {Lx Ly : ℝ} {d0 : V3} {side0 : ℤ} {n0 : ℕ} {w : Draw} (hw : SideOk w) {s s' : Sic} (h : SicInv d0 side0 n0 s)
    (hn : n0 ≤ s.nInt) (hs : sicStep Lx Ly d0 w s = .inl s') : SicInv d0 side0 n0 s' ∧ n0 ≤ s'.nInt := by
  unfold sicStep at hs
  simp only at hs
  split at hs
  · split_ifs at hs with h1 h2 h3 h4
    · simp only [Sum.inl.injEq] at hs
      subst hs
      have hi : s.i1 ≠ 0 := by omega
      exact ⟨⟨h.side, fun h0 => by simp at h0, fun _ => h.angle hi, fun _ => by simp⟩, hn⟩
    · simp only [Sum.inl.injEq] at hs
      subst hs
      have hi : s.i1 = 0 := by omega
      exact ⟨⟨h.side, fun _ => h.fresh hi, fun h0 => by simp at h0, fun hc => by simp at hc; simp [hc] at h1⟩, hn⟩
    · have hc : s.checked = true := by simpa using h1
      split at hs
      · simp at hs
      · simp only [Sum.inl.injEq] at hs
        subst hs
        exact ⟨⟨h.side, fun h0 => by simp at h0, fun _ => h.angle (h.checked hc), fun _ => by simp⟩, hn⟩
  · rename_i p θ Nf _
    split at hs
    · simp at hs
    · simp only [Sum.inl.injEq] at hs
      subst hs
      have hso := hw θ s.d ((s.side : ℝ) • Nf) s.side
      refine ⟨⟨?_, fun h0 => by simp at h0, fun _ => ⟨by simp, by simp only; omega⟩, fun hc => by simp at hc⟩, by simp only; omega⟩
      simp only
      rcases h.side with hs1 | hs1 <;> rcases hso with e | e <;> rw [e, hs1] <;> simp

/-- Every way the loop can return, with the state it returned from. -/
theorem sicRun_inv {Lx Ly : ℝ} {d0 : V3} {side0 : ℤ} {n0 : ℕ} : ∀ (ws : List Draw), (∀ w ∈ ws, SideOk w) → ∀ (s : Sic) (res : SicRes),
    SicInv d0 side0 n0 s → n0 ≤ s.nInt → sicRun Lx Ly d0 ws s = .inr res →
    ∃ w ∈ ws, ∃ s1, SicInv d0 side0 n0 s1 ∧ n0 ≤ s1.nInt ∧ sicStep Lx Ly d0 w s1 = .inr res := by
  intro ws
  induction ws with
  | nil => intro _ s res _ _ h; simp [sicRun] at h
  | cons w ws ih =>
    intro hw s res hs hn h
    unfold sicRun at h
    split at h
    · rename_i s' hs'
      obtain ⟨g1, g2⟩ := sicStep_inv (hw w (by simp)) hs hn hs'
      obtain ⟨w', hw', s1, a, b, c⟩ := ih (fun w hw' => hw w (by simp [hw'])) s' res g1 g2 h
      exact ⟨w', by simp [hw'], s1, a, b, c⟩
    · rename_i r hr
      simp only [Sum.inr.injEq] at h
      subst h
      exact ⟨w, by simp, s, hs, hn, hr⟩

theorem sicStart_inv (r d : V3) (side : ℤ) (n : ℕ) (h : side = 1 ∨ side = -1) : SicInv d side n (sicStart r d side n) :=
  ⟨h, fun _ => ⟨rfl, rfl⟩, fun h0 => absurd rfl h0, fun hc => by simp [sicStart] at hc⟩

theorem polar_le_iff {d : V3} (h : V3.norm d = 1) : polar d ≤ Real.pi / 2 ↔ 0 ≤ d.z := by
  unfold polar
  rw [h, div_one, Real.arccos_le_pi_div_two]

/-- **C76.** A ray that comes from its own side and is not absorbed is labelled correctly.  When the loop returns a label, either the ray has slipped past the
whole surface (on the upper side, still going down, below the lowest point of the surface; or the mirror image), or its direction is horizontal, or
`1` (transmission) is returned exactly if it ends in the other medium and `0` (reflection) exactly if it ends in the medium it came from; in
both cases it then moves away from the surface. -/
theorem C76_label (Lx Ly : ℝ) (r d : V3) (side : ℤ) (hfrom : ComesFrom side d) (n : ℕ) (ws : List Draw) (hw : ∀ w ∈ ws, SideOk w)
    (res : ℕ) (ot : ℝ) (r' d' : V3) (θ : Option ℝ) (n' : ℕ) (side' : ℤ)
    (h : sicRun Lx Ly d ws (sicStart r d side n) = .inr (.out res ot r' d' θ n' side')) :
    (∃ w ∈ ws, (side' = 1 ∧ d'.z < 0 ∧ r'.z ≤ w.zmin) ∨ (side' = -1 ∧ 0 < d'.z ∧ w.zmax ≤ r'.z)) ∨ d'.z = 0 ∨
    ((res = 1 ∨ res = 0) ∧ (res = 1 ↔ side' = -side) ∧ (res = 0 ↔ side' = side) ∧ (side' = 1 ↔ 0 < d'.z) ∧ (side' = -1 ↔ d'.z < 0)) := by
  have hside : side = 1 ∨ side = -1 := by rcases hfrom with ⟨h, _⟩ | ⟨h, _⟩ <;> simp [h]
  obtain ⟨w, hwm, s, hinv, hn, hs⟩ := sicRun_inv ws hw _ _ (sicStart_inv r d side n hside) (le_refl _) h
  unfold sicStep at hs
  simp only at hs
  split at hs
  · split_ifs at hs with h1 h2 h3 h4
    · simp at hs
    · split at hs <;> simp at hs
    · simp only [Sum.inr.injEq, SicRes.out.injEq] at hs
      obtain ⟨e1, -, e3, e4, -, -, e7⟩ := hs
      subst e4; subst e7
      have hrz : r'.z = s.r.z := by rw [← e3]
      by_cases hz : s.d.z = 0
      · exact Or.inr (Or.inl hz)
      rcases hinv.side with hsd | hsd
      · by_cases hneg : s.d.z < 0
        · left
          refine ⟨w, hwm, Or.inl ⟨hsd, hneg, ?_⟩⟩
          rw [hrz]
          by_contra hcon
          exact h4 (Or.inl ⟨hsd, hneg, not_le.mp hcon⟩)
        · have hpos : 0 < s.d.z := lt_of_le_of_ne (not_lt.mp hneg) (Ne.symm hz)
          right; right
          have hsign : npSign s.d.z = 1 := by simp [npSign, hpos]
          rcases hfrom with ⟨hf, hfd⟩ | ⟨hf, hfd⟩
          · have hs0 : npSign d.z = -1 := by simp [npSign, hfd, hfd.le]
            have : res = 0 := by rw [← e1]; simp [finalRes, hsign, hs0]
            rw [this, hsd, hf]
            exact ⟨by simp, by simp, by simp, by simp [hpos], by simp [hpos.le]⟩
          · have hs0 : npSign d.z = 1 := by simp [npSign, hfd]
            have : res = 1 := by rw [← e1]; simp [finalRes, hsign, hs0]
            rw [this, hsd, hf]
            exact ⟨by simp, by simp, by simp, by simp [hpos], by simp [hpos.le]⟩
      · by_cases hpos : 0 < s.d.z
        · left
          refine ⟨w, hwm, Or.inr ⟨hsd, hpos, ?_⟩⟩
          rw [hrz]
          by_contra hcon
          exact h4 (Or.inr ⟨hsd, hpos, not_le.mp hcon⟩)
        · have hneg : s.d.z < 0 := lt_of_le_of_ne (not_lt.mp hpos) hz
          right; right
          have hsign : npSign s.d.z = -1 := by simp [npSign, hneg, hneg.le]
          rcases hfrom with ⟨hf, hfd⟩ | ⟨hf, hfd⟩
          · have hs0 : npSign d.z = -1 := by simp [npSign, hfd, hfd.le]
            have : res = 1 := by rw [← e1]; simp [finalRes, hsign, hs0]
            rw [this, hsd, hf]
            exact ⟨by simp, by simp, by simp, by simp [hneg.le], by simp [hneg]⟩
          · have hs0 : npSign d.z = 1 := by simp [npSign, hfd]
            have : res = 0 := by rw [← e1]; simp [finalRes, hsign, hs0]
            rw [this, hsd, hf]
            exact ⟨by simp, by simp, by simp, by simp [hneg.le], by simp [hneg]⟩
  · split at hs
    · simp at hs
    · simp at hs

/-- **C77, no unassigned variable.** When `single_interface_check` returns a label it has met at least one facet, so the local incidence angle it returns has been
assigned. -/
theorem C77_angle_assigned (Lx Ly : ℝ) (r d : V3) (side : ℤ) (hside : side = 1 ∨ side = -1) (n : ℕ) (ws : List Draw) (hw : ∀ w ∈ ws, SideOk w)
    (res : ℕ) (ot : ℝ) (r' d' : V3) (θ : Option ℝ) (n' : ℕ) (side' : ℤ)
    (h : sicRun Lx Ly d ws (sicStart r d side n) = .inr (.out res ot r' d' θ n' side')) : θ ≠ none ∧ n < n' := by
  obtain ⟨w, hwm, s, hinv, hn, hs⟩ := sicRun_inv ws hw _ _ (sicStart_inv r d side n hside) (le_refl _) h
  unfold sicStep at hs
  simp only at hs
  split at hs
  · split_ifs at hs with h1 h2 h3 h4
    · simp at hs
    · split at hs <;> simp at hs
    · simp only [Sum.inr.injEq, SicRes.out.injEq] at hs
      obtain ⟨-, -, -, -, e5, e6, -⟩ := hs
      have hc : s.checked = true := by simpa using h1
      rw [← e5, ← e6]
      exact hinv.angle (hinv.checked hc)
  · split at hs <;> simp at hs

/-- **C77, back in the unit cell.** The position returned with a label is inside the unit cell. -/
theorem C77_in_cell (Lx Ly : ℝ) (hLx : 0 < Lx) (hLy : 0 < Ly) (r d : V3) (side : ℤ) (hside : side = 1 ∨ side = -1) (n : ℕ) (ws : List Draw)
    (hw : ∀ w ∈ ws, SideOk w) (res : ℕ) (ot : ℝ) (r' d' : V3) (θ : Option ℝ) (n' : ℕ) (side' : ℤ)
    (h : sicRun Lx Ly d ws (sicStart r d side n) = .inr (.out res ot r' d' θ n' side')) : InCell Lx Ly r' := by
  have key : ∀ (a L : ℝ), 0 < L → 0 ≤ backInto a L ∧ backInto a L ≤ L := by
    intro a L hL
    unfold backInto
    split_ifs with hc
    · have h1 := Int.floor_le (a / L)
      have h2 := Int.lt_floor_add_one (a / L)
      rw [le_div_iff₀ hL] at h1
      rw [div_lt_iff₀ hL] at h2
      constructor <;> nlinarith
    · push Not at hc
      exact ⟨hc.2, hc.1⟩
  obtain ⟨w, hwm, s, hinv, hn, hs⟩ := sicRun_inv ws hw _ _ (sicStart_inv r d side n hside) (le_refl _) h
  unfold sicStep at hs
  simp only at hs
  split at hs
  · split_ifs at hs with h1 h2 h3 h4
    · simp at hs
    · split at hs <;> simp at hs
    · simp only [Sum.inr.injEq, SicRes.out.injEq] at hs
      obtain ⟨-, -, e3, -⟩ := hs
      rw [← e3]
      exact ⟨(key s.r.x Lx hLx).1, (key s.r.x Lx hLx).2, (key s.r.y Ly hLy).1, (key s.r.y Ly hLy).2⟩
  · split at hs <;> simp at hs

theorem fresnelDec_side (nAbove nBelow : ℂ) (arc : ℤ → ℝ → ℂ) (pol : Pol) (rnd : ℝ) (tris : List Tri) (a b c e : ℝ) :
    SideOk { tris := tris, zmin := a, zmax := b, rx := c, ry := e, dec := fresnelDec nAbove nBelow arc pol rnd } := by
  intro θ d N side
  simp only [fresnelDec, decideFresnel]
  split_ifs <;> simp

/-- **C77, unit directions.** With Fresnel decisions on a surface without degenerate triangles, the direction stays of unit length and the result is never an
absorption, whatever the random numbers. -/
theorem C77_unit (Lx Ly : ℝ) (r d : V3) (hd : V3.norm d = 1) (side : ℤ) (hside : side = 1 ∨ side = -1) (n : ℕ) (nAbove nBelow : ℂ)
    (ha : 0 < nAbove.re) (hb : 0 < nBelow.re) (ws : List Draw)
    (hw : ∀ w ∈ ws, ∃ arc pol rnd, rnd < 1 ∧ w.dec = fresnelDec nAbove nBelow arc pol rnd ∧ ∀ τ ∈ w.tris, V3.dot τ.crossP τ.crossP ≠ 0) :
    (∀ res ot r' d' θ n' side', sicRun Lx Ly d ws (sicStart r d side n) = .inr (.out res ot r' d' θ n' side') → V3.norm d' = 1) ∧
    (∀ A r' d' θ n' side', sicRun Lx Ly d ws (sicStart r d side n) ≠ .inr (.absorbed A r' d' θ n' side')) := by
  -- invariant: unit direction and side = ±1
  have hN : ∀ τ : Tri, V3.dot τ.crossP τ.crossP ≠ 0 → V3.norm τ.N = 1 := fun τ h => normalise_norm h
  have key : ∀ (ws : List Draw), (∀ w ∈ ws, ∃ arc pol rnd, rnd < 1 ∧ w.dec = fresnelDec nAbove nBelow arc pol rnd ∧
      ∀ τ ∈ w.tris, V3.dot τ.crossP τ.crossP ≠ 0) → ∀ (d0 : V3) (s : Sic), V3.norm s.d = 1 → (s.side = 1 ∨ s.side = -1) →
      (∀ res ot r' d' θ n' side', sicRun Lx Ly d0 ws s = .inr (.out res ot r' d' θ n' side') → V3.norm d' = 1) ∧
      (∀ A r' d' θ n' side', sicRun Lx Ly d0 ws s ≠ .inr (.absorbed A r' d' θ n' side')) := by
    intro ws
    induction ws with
    | nil => intro _ d0 s _ _; constructor <;> intros <;> simp_all [sicRun]
    | cons w ws ih =>
      intro hws d0 s hsd hss
      obtain ⟨arc, pol, rnd, hr, hdec, htri⟩ := hws w (by simp)
      have hrest := ih (fun w' hw' => hws w' (by simp [hw'])) d0
      have hstep : (∃ s', sicStep Lx Ly d0 w s = .inl s' ∧ V3.norm s'.d = 1 ∧ (s'.side = 1 ∨ s'.side = -1)) ∨
          (∃ res ot r' θ n' side', sicStep Lx Ly d0 w s = .inr (.out res ot r' s.d θ n' side')) ∨
          (∃ ot r' d' n' side', sicStep Lx Ly d0 w s = .inr (.gaveUp ot r' d' n' side')) ∨
          (∃ res ot sd, sicStep Lx Ly d0 w s = .inr (.lost res ot s.d sd)) := by
        rcases hci : checkIntersect s.r s.d w.tris with _ | ⟨p, θ, Nf⟩
        · unfold sicStep
          simp only [hci]
          split_ifs with h1 h2 h3 h4
          · exact Or.inl ⟨_, rfl, hsd, hss⟩
          · exact Or.inl ⟨_, rfl, hsd, hss⟩
          · exact Or.inr (Or.inr (Or.inl ⟨_, _, _, _, _, rfl⟩))
          · split
            · exact Or.inr (Or.inr (Or.inr ⟨_, _, _, rfl⟩))
            · exact Or.inl ⟨_, rfl, hsd, hss⟩
          · exact Or.inr (Or.inl ⟨_, _, _, _, _, _, rfl⟩)
        · left
          obtain ⟨τ, hτ, -, -, hθ, hNf, -⟩ := checkIntersect_some hci
          have hNfu : V3.norm Nf = 1 := by rw [hNf]; exact hN τ (htri τ hτ)
          unfold sicStep
          simp only [hci, hdec, fresnelDec]
          have hn0 : 0 < (if s.side = 1 then nAbove else nBelow).re := by split_ifs <;> assumption
          have hn1 : 0 < (if s.side = 1 then nBelow else nAbove).re := by split_ifs <;> assumption
          have hc := C42_fresnel _ _ hn0 hn1 s.d Nf _ hsd hNfu s.side hss rfl (arc s.side θ) pol rnd hr
          have hθ' : θ = localTheta Nf s.d := by rw [hθ, hNf]
          rw [← hθ'] at hc
          refine ⟨_, rfl, hc.1, ?_⟩
          simp only
          rcases hc.2.1 with ⟨e, _⟩ | ⟨e, _⟩
          · rw [e]; exact hss
          · rw [e]; rcases hss with h | h <;> rw [h] <;> simp
      rcases hstep with ⟨s', hs', g1, g2⟩ | ⟨res, ot, r1, θ1, n1, sd1, he⟩ | ⟨ot, r1, d1, n1, sd1, he⟩ | ⟨_, _, _, he⟩
      · have := hrest s' g1 g2
        constructor
        · intro res ot r' d' θ n' side' hr'
          unfold sicRun at hr'
          rw [hs'] at hr'
          exact this.1 _ _ _ _ _ _ _ hr'
        · intro A r' d' θ n' side' hr'
          unfold sicRun at hr'
          rw [hs'] at hr'
          exact this.2 _ _ _ _ _ _ hr'
      · constructor
        · intro res ot r' d' θ n' side' hr'
          unfold sicRun at hr'
          rw [he] at hr'
          simp only [Sum.inr.injEq, SicRes.out.injEq] at hr'
          rw [← hr'.2.2.2.1]; exact hsd
        · intro A r' d' θ n' side' hr'
          unfold sicRun at hr'
          rw [he] at hr'
          simp at hr'
      · constructor
        · intro res ot r' d' θ n' side' hr'
          unfold sicRun at hr'
          rw [he] at hr'
          simp at hr'
        · intro A r' d' θ n' side' hr'
          unfold sicRun at hr'
          rw [he] at hr'
          simp at hr'
      · constructor
        · intro res ot r' d' θ n' side' hr'
          unfold sicRun at hr'
          rw [he] at hr'
          simp at hr'
        · intro A r' d' θ n' side' hr'
          unfold sicRun at hr'
          rw [he] at hr'
          simp at hr'
  exact key ws hw d (sicStart r d side n) hd hside

/-- **C79.** The polar angle returned with a label tells which way the ray is travelling, and the direction index kept by `single_ray_stack` follows the actual direction: if the
ray was travelling down exactly for direction index 1, then after the interaction the same holds, and the returned angle is at most 90° exactly if
the ray travels up.  (Directions that are exactly horizontal are excluded.) -/
theorem C79_direction_index (Lx Ly : ℝ) (r d : V3) (n : ℕ) (ws : List Draw) (hw : ∀ w ∈ ws, SideOk w) (s : Ray) (hfrom : ComesFrom s.dir d)
    (res : ℕ) (ot : ℝ) (r' d' : V3) (θ : Option ℝ) (n' : ℕ) (side' : ℤ) (hunit : V3.norm d' = 1) (hz : d'.z ≠ 0)
    (h : sicRun Lx Ly d ws (sicStart r d s.dir n) = .inr (.out res ot r' d' θ n' side')) :
    let o := if res = 0 then Outcome.reflect ot else Outcome.transmit ot
    AngleTells s o ∧ ComesFrom (s.interact o).dir d' := by
  have hside : s.dir = 1 ∨ s.dir = -1 := by rcases hfrom with ⟨h, _⟩ | ⟨h, _⟩ <;> simp [h]
  obtain ⟨w, hwm, st, hinv, hn, hs⟩ := sicRun_inv ws hw _ _ (sicStart_inv r d s.dir n hside) (le_refl _) h
  have hres : res = finalRes d d' ∧ ot = polar d' := by
    unfold sicStep at hs
    simp only at hs
    split at hs
    · split_ifs at hs with h1 h2 h3 h4
      · simp at hs
      · split at hs <;> simp at hs
      · simp only [Sum.inr.injEq, SicRes.out.injEq] at hs
        obtain ⟨e1, e2, e3, e4, -⟩ := hs
        rw [← e4]
        exact ⟨e1.symm, e2.symm⟩
    · split at hs <;> simp at hs
  obtain ⟨h1, h2⟩ := hres
  intro o
  have hp := polar_le_iff hunit
  rcases hfrom with ⟨hf, hfd⟩ | ⟨hf, hfd⟩ <;> rcases lt_or_gt_of_ne hz with hd' | hd'
  · have : res = 1 := by rw [h1]; simp [finalRes, npSign, hfd, hd', not_lt.mpr hfd.le, not_lt.mpr hd'.le]
    simp only [o, this, one_ne_zero, if_false, AngleTells, Ray.interact, hf, h2, hp]
    exact ⟨by simp [hd'], Or.inl ⟨rfl, hd'⟩⟩
  · have : res = 0 := by rw [h1]; simp [finalRes, npSign, hfd, hd', hfd.le]
    simp only [o, this, if_true, AngleTells, Ray.interact, hf, h2, hp]
    exact ⟨by simp [hd'.le], Or.inr ⟨rfl, hd'⟩⟩
  · have : res = 0 := by rw [h1]; simp [finalRes, npSign, hfd, hd', hd'.le]
    simp only [o, this, if_true, AngleTells, Ray.interact, hf, h2, hp]
    exact ⟨by simp [hd'], Or.inl ⟨rfl, hd'⟩⟩
  · have : res = 1 := by rw [h1]; simp [finalRes, npSign, hfd, hd']
    simp only [o, this, one_ne_zero, if_false, AngleTells, Ray.interact, hf, h2, hp]
    exact ⟨by simp [hd'.le], Or.inr ⟨rfl, hd'⟩⟩

/-- **C79, giving up.** The same when the surface is missed a hundred times and the ray is sent back: the result is a reflection with the vertical component of the
incoming direction reversed. -/
theorem C79_giving_up (Lx Ly : ℝ) (r d : V3) (n : ℕ) (ws : List Draw) (hw : ∀ w ∈ ws, SideOk w) (s : Ray) (hfrom : ComesFrom s.dir d)
    (ot : ℝ) (r' d' : V3) (n' : ℕ) (side' : ℤ) (hunit : V3.norm d = 1)
    (h : sicRun Lx Ly d ws (sicStart r d s.dir n) = .inr (.gaveUp ot r' d' n' side')) :
    d' = ⟨d.x, d.y, -d.z⟩ ∧ AngleTells s (.reflect ot) ∧ ComesFrom (s.interact (.reflect ot)).dir d' := by
  have hside : s.dir = 1 ∨ s.dir = -1 := by rcases hfrom with ⟨h, _⟩ | ⟨h, _⟩ <;> simp [h]
  obtain ⟨w, hwm, st, hinv, hn, hs⟩ := sicRun_inv ws hw _ _ (sicStart_inv r d s.dir n hside) (le_refl _) h
  have hres : ot = polar d' ∧ d' = ⟨d.x, d.y, -d.z⟩ := by
    unfold sicStep at hs
    simp only at hs
    split at hs
    · split_ifs at hs with h1 h2 h3 h4
      · simp only [Sum.inr.injEq, SicRes.gaveUp.injEq] at hs
        obtain ⟨e1, e2, e3, -⟩ := hs
        have hi : st.i1 = 0 := by omega
        have hd0 := (hinv.fresh hi).1
        rw [hd0] at e1 e3
        exact ⟨by rw [← e3]; exact e1.symm, e3.symm⟩
      · split at hs <;> simp at hs
      · simp at hs
    · split at hs <;> simp at hs
  obtain ⟨h1, h2⟩ := hres
  have hunit' : V3.norm d' = 1 := by
    rw [norm_one_iff] at hunit ⊢
    rw [h2]
    unfold V3.dot at hunit ⊢
    simp only
    linarith
  have hp := polar_le_iff hunit'
  refine ⟨h2, ?_⟩
  simp only [AngleTells, Ray.interact, h1, hp]
  rw [h2]
  simp only
  rcases hfrom with ⟨hf, hfd⟩ | ⟨hf, hfd⟩
  · rw [hf]
    exact ⟨by simp [hfd.le], Or.inr ⟨rfl, by simpa using hfd⟩⟩
  · rw [hf]
    exact ⟨by simp [hfd], Or.inl ⟨rfl, by simpa using hfd⟩⟩

end Rayflare
