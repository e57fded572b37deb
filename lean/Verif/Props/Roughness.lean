import Verif.Model.Roughness
import Verif.Props.Textures
import Mathlib.Analysis.SpecialFunctions.Trigonometric.Arctan

/-!
# Property C149: roughness and number of points of rough planar surfaces
-/

namespace Rayflare

open Rayflare.Np Rayflare.Model Real

/-- Angle between a facet and the horizontal: the tangent is the horizontal part of the normal over the vertical one. -/
noncomputable def inclination (P0 P1 P2 : V3) : ℝ :=
  arctan (√((V3.cross (P1 - P0) (P2 - P0)).x ^ 2 + (V3.cross (P1 - P0) (P2 - P0)).y ^ 2) / |(V3.cross (P1 - P0) (P2 - P0)).z|)

/-- `P1` and `P2` are the neighbours of `P0` along x and y on a square grid of spacing `d`, so the three are half of a cell of the grid. -/
structure HalfCell (d : ℝ) (P0 P1 P2 : V3) : Prop where
  x1 : |P1.x - P0.x| = d
  y1 : P1.y = P0.y
  x2 : P2.x = P0.x
  y2 : |P2.y - P0.y| = d

/-- A flat facet has inclination 0, and one rising by its length in one direction has 45 degrees. -/
example : inclination ⟨0, 0, 5⟩ ⟨1, 0, 5⟩ ⟨0, 1, 5⟩ = 0 ∧ inclination ⟨0, 0, 0⟩ ⟨1, 0, 1⟩ ⟨0, 1, 0⟩ = π / 4 := by
  constructor
  · simp [inclination, V3.cross]
  · simp [inclination, V3.cross]

theorem halfCell_inclination {d : ℝ} (hd : 0 < d) {P0 P1 P2 : V3} (h : HalfCell d P0 P1 P2) :
    inclination P0 P1 P2 = arctan (√((P1.z - P0.z) ^ 2 + (P2.z - P0.z) ^ 2) / d) := by
  obtain ⟨h1, h2, h3, h4⟩ := h
  unfold inclination
  congr 1
  have e1 : (V3.cross (P1 - P0) (P2 - P0)).x = -(P1.z - P0.z) * (P2.y - P0.y) := by simp [V3.cross, h2]; ring
  have e2 : (V3.cross (P1 - P0) (P2 - P0)).y = -(P1.x - P0.x) * (P2.z - P0.z) := by simp [V3.cross, h3]; ring
  have e3 : (V3.cross (P1 - P0) (P2 - P0)).z = (P1.x - P0.x) * (P2.y - P0.y) := by simp [V3.cross, h2]
  have s1 : (P1.x - P0.x) ^ 2 = d ^ 2 := by rw [← h1, sq_abs]
  have s2 : (P2.y - P0.y) ^ 2 = d ^ 2 := by rw [← h4, sq_abs]
  rw [e1, e2, e3, abs_mul, h1, h4]
  have : (-(P1.z - P0.z) * (P2.y - P0.y)) ^ 2 + (-(P1.x - P0.x) * (P2.z - P0.z)) ^ 2 = d ^ 2 * ((P1.z - P0.z) ^ 2 + (P2.z - P0.z) ^ 2) := by
    rw [mul_pow, mul_pow, s2, neg_sq, neg_sq, s1]; ring
  rw [this, sqrt_mul (sq_nonneg d), sqrt_sq hd.le]
  field_simp

theorem regularNoise_eq {size angle : ℝ} {n : ℕ} (hn : 2 ≤ n) : regularNoise size angle n = some (size / (n - 1 : ℕ) * tan angle) := by
  obtain ⟨m, rfl⟩ : ∃ m, n = m + 2 := ⟨n - 2, by omega⟩
  unfold regularNoise linspace
  rw [List.range_succ_eq_map, List.range_succ_eq_map]
  simp

theorem perSide_le {N k : ℕ} : perSide N ≤ k ↔ N ≤ k ^ 2 := by
  unfold perSide
  rw [Nat.ceil_le, sqrt_le_left (by positivity)]
  exact_mod_cast Iff.rfl

theorem two_le_perSide {N : ℕ} (h : 2 ≤ N) : 2 ≤ perSide N := by
  by_contra hc
  have : perSide N ≤ 1 := by omega
  rw [perSide_le] at this
  omega

theorem meshPairs_length (x y : List ℝ) : (meshPairs x y).length = y.length * x.length := by
  unfold meshPairs
  simp [List.length_flatMap]

theorem roughPlanar_length (size nh : ℝ) (regular : Bool) (coords : List (ℝ × ℝ)) (noise : ℕ → ℝ) :
    (roughPlanar size nh regular coords noise).length = coords.length + if regular then 0 else 4 := by
  have := congrArg List.length (C66_rough_plane size nh regular coords noise).1
  rw [List.length_map, List.length_append] at this
  rw [this]
  cases regular <;> rfl

/-- **C149, number of points.** On a regular grid the number of points is the smallest square number that is not smaller than `n_points`; with random positions it is `n_points`. -/
theorem C149_points (size angle : ℝ) (nPoints : ℕ) (u v noise : ℕ → ℝ) :
    (2 ≤ nPoints → ∃ pts m, roughPlanarSurface size angle nPoints true u v noise = some pts ∧ pts.length = m ^ 2 ∧ nPoints ≤ m ^ 2 ∧ ∀ k, nPoints ≤ k ^ 2 → m ≤ k) ∧
    (4 ≤ nPoints → ∃ pts, roughPlanarSurface size angle nPoints false u v noise = some pts ∧ pts.length = nPoints) := by
  constructor
  · intro h
    refine ⟨roughPlanar size (size / (perSide nPoints - 1 : ℕ) * tan angle) true (roughGrid size (perSide nPoints)) noise, perSide nPoints, ?_, ?_, ?_, ?_⟩
    · unfold roughPlanarSurface
      rw [if_pos rfl, regularNoise_eq (two_le_perSide h)]
      rfl
    · rw [roughPlanar_length]
      simp [roughGrid, meshPairs_length, linspace, sq]
    · exact perSide_le.mp le_rfl
    · exact fun k hk => perSide_le.mpr hk
  · intro h
    refine ⟨_, by unfold roughPlanarSurface; rw [if_neg (by simp), if_neg (by omega)], ?_⟩
    rw [roughPlanar_length]
    simp
    omega

/-- The heights are between 0 and the height of the roughness. -/
theorem rough_height {size nh : ℝ} (hnh : 0 ≤ nh) {regular : Bool} {coords : List (ℝ × ℝ)} {noise : ℕ → ℝ} (hu : ∀ k, 0 ≤ noise k ∧ noise k < 1) {p : V3}
    (hp : p ∈ roughPlanar size nh regular coords noise) : 0 ≤ p.z ∧ p.z ≤ nh := by
  obtain ⟨-, h1, h2⟩ := C66_rough_plane size nh regular coords noise
  by_cases he : OnEdge size p
  · rw [h1 p hp he]; exact ⟨le_rfl, hnh⟩
  · obtain ⟨k, -, hz⟩ := h2 p hp he
    have := hu k
    rw [hz]
    constructor <;> nlinarith

/-- **C149, too few points.** With fewer than two points on a regular grid, or fewer than the four corners, there is an exception. -/
theorem C149_few (size angle : ℝ) (nPoints : ℕ) (u v noise : ℕ → ℝ) :
    (nPoints < 2 → roughPlanarSurface size angle nPoints true u v noise = none) ∧ (nPoints < 4 → roughPlanarSurface size angle nPoints false u v noise = none) := by
  constructor
  · intro h
    have h1 : perSide nPoints ≤ 1 := perSide_le.mpr (by omega)
    unfold roughPlanarSurface
    rw [if_pos rfl]
    have : regularNoise size angle (perSide nPoints) = none := by
      unfold regularNoise linspace
      interval_cases perSide nPoints <;> simp
    rw [this]; rfl
  · intro h
    unfold roughPlanarSurface
    rw [if_neg (by simp), if_pos h]

/-- **C149, what holds.** On a regular grid the height changes by at most `tan(noise_angle)` times the distance from one grid point to the next, and every facet that is half of a cell of the grid is inclined by at most
`arctan(√2 tan(noise_angle))`. -/
theorem C149_inclination_partial {size angle : ℝ} {nPoints : ℕ} (hs : 0 < size) (hN : 2 ≤ nPoints) (ha : 0 ≤ angle) (ha' : angle < π / 2) {u v noise : ℕ → ℝ} (hu : ∀ k, 0 ≤ noise k ∧ noise k < 1)
    {pts : List V3} (h : roughPlanarSurface size angle nPoints true u v noise = some pts) :
    ∃ d, 0 < d ∧ d * (perSide nPoints - 1 : ℕ) = size ∧ ∀ P0 ∈ pts, ∀ P1 ∈ pts, ∀ P2 ∈ pts, HalfCell d P0 P1 P2 →
      |P1.z - P0.z| ≤ d * tan angle ∧ |P2.z - P0.z| ≤ d * tan angle ∧ inclination P0 P1 P2 ≤ arctan (√2 * tan angle) := by
  have h2 := two_le_perSide hN
  unfold roughPlanarSurface at h
  rw [if_pos rfl, regularNoise_eq h2, Option.map_some, Option.some.injEq] at h
  have hm : (0 : ℝ) < (perSide nPoints - 1 : ℕ) := by
    have : 0 < perSide nPoints - 1 := by omega
    exact_mod_cast this
  have ht : 0 ≤ tan angle := tan_nonneg_of_nonneg_of_le_pi_div_two ha ha'.le
  have hd : 0 < size / (perSide nPoints - 1 : ℕ) := div_pos hs hm
  refine ⟨size / (perSide nPoints - 1 : ℕ), hd, by field_simp, ?_⟩
  generalize size / ((perSide nPoints - 1 : ℕ) : ℝ) = d at h hd ⊢
  subst h
  intro P0 h0 P1 h1 P2 h2 hc
  have hz : ∀ p ∈ roughPlanar size (d * tan angle) true (roughGrid size (perSide nPoints)) noise, 0 ≤ p.z ∧ p.z ≤ d * tan angle := fun p hp => rough_height (by positivity) hu hp
  obtain ⟨a0, b0⟩ := hz P0 h0
  obtain ⟨a1, b1⟩ := hz P1 h1
  obtain ⟨a2, b2⟩ := hz P2 h2
  have k1 : |P1.z - P0.z| ≤ d * tan angle := abs_le.mpr ⟨by linarith, by linarith⟩
  have k2 : |P2.z - P0.z| ≤ d * tan angle := abs_le.mpr ⟨by linarith, by linarith⟩
  refine ⟨k1, k2, ?_⟩
  rw [halfCell_inclination hd hc]
  refine arctan_mono ((div_le_iff₀ hd).mpr ?_)
  rw [sqrt_le_left (by positivity)]
  have q1 := sq_le_sq' (by linarith [abs_nonneg (P1.z - P0.z), neg_abs_le (P1.z - P0.z)]) (le_trans (le_abs_self _) k1)
  have q2 := sq_le_sq' (by linarith [abs_nonneg (P2.z - P0.z), neg_abs_le (P2.z - P0.z)]) (le_trans (le_abs_self _) k2)
  have : (√2 * tan angle * d) ^ 2 = (d * tan angle) ^ 2 + (d * tan angle) ^ 2 := by
    rw [mul_pow, mul_pow, sq_sqrt (by norm_num)]; ring
  rw [this]
  linarith

theorem mem_zeroEdges {size : ℝ} {pts : List V3} {p : V3} (hp : p ∈ pts) (he : ¬ OnEdge size p) : p ∈ zeroEdges size pts := by
  unfold OnEdge at he
  push Not at he
  have w : ∀ (c : V3 → ℝ) (w : ℝ) (l : List V3), p ∈ l → c p ≠ w → p ∈ zeroWhere c w l := by
    intro c w l hl hc
    exact List.mem_map.mpr ⟨p, hl, if_neg hc⟩
  exact w _ _ _ (w _ _ _ (w _ _ _ (w _ _ _ hp he.1) he.2.2.1) he.2.1) he.2.2.2

/-- A point inside the cell on a regular grid. -/
theorem mem_regular {size nh : ℝ} (hs : 0 < size) {n i j : ℕ} (hi : 0 < i) (hi' : i < n - 1) (hj : 0 < j) (hj' : j < n - 1) (noise : ℕ → ℝ) :
    (⟨i * (size / (n - 1 : ℕ)), j * (size / (n - 1 : ℕ)), nh * noise (j * n + i)⟩ : V3) ∈ roughPlanar size nh true (roughGrid size n) noise := by
  have hm : (0 : ℝ) < (n - 1 : ℕ) := by
    have : 0 < n - 1 := by omega
    exact_mod_cast this
  have hd : 0 < size / (n - 1 : ℕ) := div_pos hs hm
  have hd1 : size = (n - 1 : ℕ) * (size / (n - 1 : ℕ)) := by field_simp
  have inside : ∀ i : ℕ, 0 < i → i < n - 1 → 0 < i * (size / (n - 1 : ℕ)) ∧ i * (size / (n - 1 : ℕ)) < size := by
    intro i h h'
    have h1 : (0 : ℝ) < i := by exact_mod_cast h
    have h2 : (i : ℝ) < (n - 1 : ℕ) := by exact_mod_cast h'
    refine ⟨by positivity, ?_⟩
    calc (i : ℝ) * (size / (n - 1 : ℕ)) < (n - 1 : ℕ) * (size / (n - 1 : ℕ)) := by nlinarith
      _ = size := hd1.symm
  unfold roughPlanar
  refine mem_zeroEdges ?_ ?_
  · simp only [if_true]
    refine List.mem_map.mpr ⟨((i * (size / (n - 1 : ℕ)), j * (size / (n - 1 : ℕ))), j * n + i), ?_, rfl⟩
    rw [List.mem_zipIdx_iff_getElem?]
    have e : roughGrid size n = (List.range n).flatMap fun j : ℕ => (List.range n).map fun i : ℕ => ((i : ℝ) * (size / (n - 1 : ℕ)), (j : ℝ) * (size / (n - 1 : ℕ))) := by
      unfold roughGrid meshPairs linspace
      simp [List.flatMap_map, Function.comp_def]
    have hlt : j * n + i < n * n := by nlinarith [Nat.lt_of_lt_of_le hj' (Nat.sub_le n 1), Nat.lt_of_lt_of_le hi' (Nat.sub_le n 1)]
    simp only
    rw [e, grid_get (fun j i : ℕ => ((i : ℝ) * (size / (n - 1 : ℕ)), (j : ℝ) * (size / (n - 1 : ℕ)))) n n _ hlt]
    have hn : i < n := by omega
    rw [Nat.mul_comm j n, Nat.mul_add_div (by omega), Nat.mul_add_mod, Nat.div_eq_of_lt hn, Nat.mod_eq_of_lt hn, Nat.add_zero]
  · have := inside i hi hi'
    have := inside j hj hj'
    unfold OnEdge
    push Not
    simp only
    refine ⟨by linarith, by linarith, by linarith, by linarith⟩

/-- **C149 fails on a regular grid.** For every grid of at least four by four points and every `noise_angle` there are random numbers for which, however the cells of the grid are divided into facets, a facet is inclined by more
than `noise_angle`: all four halves of one cell are. -/
theorem C149_regular_fails {size angle : ℝ} {nPoints : ℕ} (hs : 0 < size) (hN : 9 < nPoints) (ha : 0 < angle) (ha' : angle < π / 2) (u v : ℕ → ℝ) :
    ∃ noise : ℕ → ℝ, (∀ k, 0 ≤ noise k ∧ noise k < 1) ∧ ∃ pts, roughPlanarSurface size angle nPoints true u v noise = some pts ∧
      ∃ d, 0 < d ∧ ∃ A ∈ pts, ∃ B ∈ pts, ∃ C ∈ pts, ∃ D ∈ pts, HalfCell d A B C ∧ HalfCell d D C B ∧ HalfCell d B A D ∧ HalfCell d C D A ∧
        angle < inclination A B C ∧ angle < inclination D C B ∧ angle < inclination B A D ∧ angle < inclination C D A := by
  have h4 : 4 ≤ perSide nPoints := by
    by_contra hc
    have : perSide nPoints ≤ 3 := by omega
    rw [perSide_le] at this
    omega
  generalize hn : perSide nPoints = n at h4
  have ht : 0 < tan angle := tan_pos_of_pos_of_lt_pi_div_two ha ha'
  have hm : (0 : ℝ) < (n - 1 : ℕ) := by
    have : 0 < n - 1 := by omega
    exact_mod_cast this
  have hd : 0 < size / (n - 1 : ℕ) := div_pos hs hm
  let noise : ℕ → ℝ := fun k => if k = 1 * n + 2 ∨ k = 2 * n + 1 then 9 / 10 else 0
  have nA : noise (1 * n + 1) = 0 := if_neg (by omega)
  have nB : noise (1 * n + 2) = 9 / 10 := if_pos (Or.inl rfl)
  have nC : noise (2 * n + 1) = 9 / 10 := if_pos (Or.inr rfl)
  have nD : noise (2 * n + 2) = 0 := if_neg (by omega)
  refine ⟨noise, fun k => ?_, _, by unfold roughPlanarSurface; rw [if_pos rfl, hn, regularNoise_eq (by omega), Option.map_some], size / (n - 1 : ℕ), hd, ?_⟩
  · simp only [noise]
    split_ifs <;> norm_num
  have hA := mem_regular (nh := size / (n - 1 : ℕ) * tan angle) hs (i := 1) (j := 1) (n := n) (by omega) (by omega) (by omega) (by omega) noise
  have hB := mem_regular (nh := size / (n - 1 : ℕ) * tan angle) hs (i := 2) (j := 1) (n := n) (by omega) (by omega) (by omega) (by omega) noise
  have hC := mem_regular (nh := size / (n - 1 : ℕ) * tan angle) hs (i := 1) (j := 2) (n := n) (by omega) (by omega) (by omega) (by omega) noise
  have hD := mem_regular (nh := size / (n - 1 : ℕ) * tan angle) hs (i := 2) (j := 2) (n := n) (by omega) (by omega) (by omega) (by omega) noise
  rw [nA] at hA
  rw [nB] at hB
  rw [nC] at hC
  rw [nD] at hD
  have steep : ∀ {P0 P1 P2 : V3}, HalfCell (size / (n - 1 : ℕ)) P0 P1 P2 → (P1.z - P0.z) ^ 2 = (size / (n - 1 : ℕ) * tan angle * (9 / 10)) ^ 2 →
      (P2.z - P0.z) ^ 2 = (size / (n - 1 : ℕ) * tan angle * (9 / 10)) ^ 2 → angle < inclination P0 P1 P2 := by
    intro P0 P1 P2 hc e1 e2
    rw [halfCell_inclination hd hc, e1, e2]
    have : arctan (tan angle) = angle := arctan_tan (by linarith) ha'
    conv_lhs => rw [← this]
    refine arctan_strictMono ((lt_div_iff₀ hd).mpr ((lt_sqrt (by positivity)).mpr ?_))
    have : 0 < (size / (n - 1 : ℕ) * tan angle) ^ 2 := by positivity
    nlinarith
  have dpos : ∀ a b : ℝ, a - b = size / (n - 1 : ℕ) ∨ b - a = size / (n - 1 : ℕ) → |a - b| = size / (n - 1 : ℕ) := by
    intro a b h
    rcases h with h | h
    · rw [h, abs_of_pos hd]
    · rw [abs_sub_comm, h, abs_of_pos hd]
  have cA : HalfCell (size / (n - 1 : ℕ)) ⟨(1 : ℕ) * (size / (n - 1 : ℕ)), (1 : ℕ) * (size / (n - 1 : ℕ)), size / (n - 1 : ℕ) * tan angle * 0⟩
      ⟨(2 : ℕ) * (size / (n - 1 : ℕ)), (1 : ℕ) * (size / (n - 1 : ℕ)), size / (n - 1 : ℕ) * tan angle * (9 / 10)⟩
      ⟨(1 : ℕ) * (size / (n - 1 : ℕ)), (2 : ℕ) * (size / (n - 1 : ℕ)), size / (n - 1 : ℕ) * tan angle * (9 / 10)⟩ :=
    ⟨dpos _ _ (Or.inl (by push_cast; ring)), rfl, rfl, dpos _ _ (Or.inl (by push_cast; ring))⟩
  have cD : HalfCell (size / (n - 1 : ℕ)) ⟨(2 : ℕ) * (size / (n - 1 : ℕ)), (2 : ℕ) * (size / (n - 1 : ℕ)), size / (n - 1 : ℕ) * tan angle * 0⟩
      ⟨(1 : ℕ) * (size / (n - 1 : ℕ)), (2 : ℕ) * (size / (n - 1 : ℕ)), size / (n - 1 : ℕ) * tan angle * (9 / 10)⟩
      ⟨(2 : ℕ) * (size / (n - 1 : ℕ)), (1 : ℕ) * (size / (n - 1 : ℕ)), size / (n - 1 : ℕ) * tan angle * (9 / 10)⟩ :=
    ⟨dpos _ _ (Or.inr (by push_cast; ring)), rfl, rfl, dpos _ _ (Or.inr (by push_cast; ring))⟩
  have cB : HalfCell (size / (n - 1 : ℕ)) ⟨(2 : ℕ) * (size / (n - 1 : ℕ)), (1 : ℕ) * (size / (n - 1 : ℕ)), size / (n - 1 : ℕ) * tan angle * (9 / 10)⟩
      ⟨(1 : ℕ) * (size / (n - 1 : ℕ)), (1 : ℕ) * (size / (n - 1 : ℕ)), size / (n - 1 : ℕ) * tan angle * 0⟩
      ⟨(2 : ℕ) * (size / (n - 1 : ℕ)), (2 : ℕ) * (size / (n - 1 : ℕ)), size / (n - 1 : ℕ) * tan angle * 0⟩ :=
    ⟨dpos _ _ (Or.inr (by push_cast; ring)), rfl, rfl, dpos _ _ (Or.inl (by push_cast; ring))⟩
  have cC : HalfCell (size / (n - 1 : ℕ)) ⟨(1 : ℕ) * (size / (n - 1 : ℕ)), (2 : ℕ) * (size / (n - 1 : ℕ)), size / (n - 1 : ℕ) * tan angle * (9 / 10)⟩
      ⟨(2 : ℕ) * (size / (n - 1 : ℕ)), (2 : ℕ) * (size / (n - 1 : ℕ)), size / (n - 1 : ℕ) * tan angle * 0⟩
      ⟨(1 : ℕ) * (size / (n - 1 : ℕ)), (1 : ℕ) * (size / (n - 1 : ℕ)), size / (n - 1 : ℕ) * tan angle * 0⟩ :=
    ⟨dpos _ _ (Or.inl (by push_cast; ring)), rfl, rfl, dpos _ _ (Or.inr (by push_cast; ring))⟩
  exact ⟨_, hA, _, hB, _, hC, _, hD, cA, cD, cB, cC, steep cA (by simp only; ring) (by simp only; ring), steep cD (by simp only; ring) (by simp only; ring),
    steep cB (by simp only; ring) (by simp only; ring), steep cC (by simp only; ring) (by simp only; ring)⟩

/-- Three points are the corners of a Delaunay facet: a circle through them has all other points outside. -/
def DelaunayFacet (pts : List V3) (P0 P1 P2 : V3) : Prop :=
  ∃ cx cy ρ : ℝ, 0 < ρ ∧ (∀ P ∈ [P0, P1, P2], (P.x - cx) ^ 2 + (P.y - cy) ^ 2 = ρ ^ 2) ∧ ∀ P ∈ pts, P = P0 ∨ P = P1 ∨ P = P2 ∨ ρ ^ 2 < (P.x - cx) ^ 2 + (P.y - cy) ^ 2

/-- **C149 fails with random positions.** However small `noise_angle`, a facet can be inclined by any angle below 90 degrees. -/
theorem C149_random_fails {size angle β : ℝ} (hs : 0 < size) (ha : 0 < angle) (ha' : angle < π / 2) (hβ : β < π / 2) :
    ∃ u v noise : ℕ → ℝ, (∀ k, 0 ≤ u k ∧ u k < 1) ∧ (∀ k, 0 ≤ v k ∧ v k < 1) ∧ (∀ k, 0 ≤ noise k ∧ noise k < 1) ∧ ∃ pts, roughPlanarSurface size angle 7 false u v noise = some pts ∧
      ∃ P0 ∈ pts, ∃ P1 ∈ pts, ∃ P2 ∈ pts, DelaunayFacet pts P0 P1 P2 ∧ β < inclination P0 P1 P2 := by
  have ht : 0 < tan angle := tan_pos_of_pos_of_lt_pi_div_two ha ha'
  have h7 : (0 : ℝ) < √((7 : ℕ) : ℝ) := sqrt_pos.mpr (by norm_num)
  have hnh : 0 < randomNoise size angle 7 := mul_pos (div_pos hs h7) ht
  -- how close the three points have to be
  obtain ⟨ε, hε, hε4, hsteep⟩ : ∃ ε : ℝ, 0 < ε ∧ ε ≤ 1 / 4 ∧ tan β * (ε * size) < randomNoise size angle 7 * (9 / 10) := by
    have hM : 0 < |tan β| * size + 1 := by positivity
    refine ⟨min (1 / 4) (randomNoise size angle 7 * (9 / 10) / (2 * (|tan β| * size + 1))), by positivity, min_le_left _ _, ?_⟩
    have h1 := min_le_right (1 / 4) (randomNoise size angle 7 * (9 / 10) / (2 * (|tan β| * size + 1)))
    generalize hm : min (1 / 4) (randomNoise size angle 7 * (9 / 10) / (2 * (|tan β| * size + 1))) = ε at h1
    have hε : 0 < ε := by rw [← hm]; positivity
    rw [le_div_iff₀ (by positivity)] at h1
    have h2 : tan β * (ε * size) ≤ |tan β| * (ε * size) := mul_le_mul_of_nonneg_right (le_abs_self _) (by positivity)
    nlinarith
  let u : ℕ → ℝ := fun k => if k = 1 then 1 / 2 + ε else 1 / 2
  let v : ℕ → ℝ := fun k => if k = 2 then 1 / 2 + ε else 1 / 2
  let noise : ℕ → ℝ := fun k => if k = 0 then 0 else 9 / 10
  refine ⟨u, v, noise, fun k => ?_, fun k => ?_, fun k => ?_, _, by unfold roughPlanarSurface; rw [if_neg (by simp), if_neg (by omega)], ?_⟩
  · simp only [u]; split_ifs <;> constructor <;> linarith
  · simp only [v]; split_ifs <;> constructor <;> linarith
  · simp only [noise]; split_ifs <;> norm_num
  have hxy := (C66_rough_plane size (randomNoise size angle 7) false ((List.range (7 - 4)).map fun k => (size * u k, size * v k)) noise).1
  -- the three points
  have mem : ∀ k < 3, (⟨size * u k, size * v k, randomNoise size angle 7 * noise k⟩ : V3) ∈
      roughPlanar size (randomNoise size angle 7) false ((List.range (7 - 4)).map fun k => (size * u k, size * v k)) noise := by
    intro k hk
    unfold roughPlanar
    refine mem_zeroEdges ?_ ?_
    · simp only [Bool.false_eq_true, if_false]
      refine List.mem_append_left _ (List.mem_map.mpr ⟨((size * u k, size * v k), k), ?_, rfl⟩)
      rw [List.mem_zipIdx_iff_getElem?]
      simp [hk]
    · have a1 : 0 < u k ∧ u k < 1 := by simp only [u]; split_ifs <;> constructor <;> linarith
      have a2 : 0 < v k ∧ v k < 1 := by simp only [v]; split_ifs <;> constructor <;> linarith
      unfold OnEdge
      push Not
      simp only
      refine ⟨by nlinarith, by nlinarith, by nlinarith, by nlinarith⟩
  have hd : 0 < ε * size := by positivity
  have hc : HalfCell (ε * size) ⟨size * u 0, size * v 0, randomNoise size angle 7 * noise 0⟩ ⟨size * u 1, size * v 1, randomNoise size angle 7 * noise 1⟩
      ⟨size * u 2, size * v 2, randomNoise size angle 7 * noise 2⟩ := by
    refine ⟨?_, ?_, ?_, ?_⟩
    · have q1 : u 1 = 1 / 2 + ε := if_pos rfl
      have q0 : u 0 = 1 / 2 := if_neg (by omega)
      rw [q1, q0, show size * (1 / 2 + ε) - size * (1 / 2) = ε * size by ring, abs_of_pos hd]
    · simp [v]
    · simp [u]
    · have q1 : v 2 = 1 / 2 + ε := if_pos rfl
      have q0 : v 0 = 1 / 2 := if_neg (by omega)
      rw [q1, q0, show size * (1 / 2 + ε) - size * (1 / 2) = ε * size by ring, abs_of_pos hd]
  refine ⟨_, mem 0 (by omega), _, mem 1 (by omega), _, mem 2 (by omega), ?_, ?_⟩
  · refine ⟨size * (1 / 2 + ε / 2), size * (1 / 2 + ε / 2), size * ε / √2, by positivity, ?_, ?_⟩
    · intro P hP
      have e : (size * ε / √2) ^ 2 = (size * ε) ^ 2 / 2 := by rw [div_pow, sq_sqrt (by norm_num)]
      rw [e]
      simp only [List.mem_cons, List.not_mem_nil, or_false] at hP
      rcases hP with rfl | rfl | rfl <;> simp [u, v] <;> ring
    · intro P hP
      have e : (size * ε / √2) ^ 2 = (size * ε) ^ 2 / 2 := by rw [div_pow, sq_sqrt (by norm_num)]
      obtain ⟨-, -, h3⟩ := C66_rough_plane size (randomNoise size angle 7) false ((List.range (7 - 4)).map fun k => (size * u k, size * v k)) noise
      by_cases he : OnEdge size P
      · right; right; right
        rw [e]
        have hb : (size * ε) ^ 2 ≤ size ^ 2 / 16 := by
          rw [mul_pow]
          have : ε ^ 2 ≤ 1 / 16 := by nlinarith
          nlinarith [sq_nonneg size]
        have s0 : 0 < size ^ 2 := by positivity
        have far : ∀ w, w = 0 ∨ w = size → size ^ 2 / 16 < (w - size * (1 / 2 + ε / 2)) ^ 2 := by
          intro w hw
          rcases hw with hw | hw <;> rw [hw]
          · have : (0 - size * (1 / 2 + ε / 2)) ^ 2 = size ^ 2 * (1 / 2 + ε / 2) ^ 2 := by ring
            rw [this]; nlinarith
          · have : (size - size * (1 / 2 + ε / 2)) ^ 2 = size ^ 2 * (1 / 2 - ε / 2) ^ 2 := by ring
            rw [this]
            have : (1 : ℝ) / 16 < (1 / 2 - ε / 2) ^ 2 := by nlinarith
            nlinarith
        have f : size ^ 2 / 16 < (P.x - size * (1 / 2 + ε / 2)) ^ 2 ∨ size ^ 2 / 16 < (P.y - size * (1 / 2 + ε / 2)) ^ 2 := by
          rcases he with he | he | he | he
          · exact Or.inl (far _ (Or.inl he))
          · exact Or.inl (far _ (Or.inr he))
          · exact Or.inr (far _ (Or.inl he))
          · exact Or.inr (far _ (Or.inr he))
        rcases f with f | f <;> nlinarith [sq_nonneg (P.x - size * (1 / 2 + ε / 2)), sq_nonneg (P.y - size * (1 / 2 + ε / 2))]
      · obtain ⟨k, hk, hz⟩ := h3 P hP he
        have hk3 : k < 3 := by
          by_contra hc
          rw [List.getElem?_eq_none (by simp; omega)] at hk
          exact absurd hk (by simp)
        rw [List.getElem?_map, List.getElem?_range (by omega), Option.map_some, Option.some.injEq, Prod.mk.injEq] at hk
        have hP' : P = ⟨size * u k, size * v k, randomNoise size angle 7 * noise k⟩ := by
          ext
          · exact hk.1.symm
          · exact hk.2.symm
          · exact hz
        have : k = 0 ∨ k = 1 ∨ k = 2 := by omega
        rcases this with rfl | rfl | rfl
        · exact Or.inl hP'
        · exact Or.inr (Or.inl hP')
        · exact Or.inr (Or.inr (Or.inl hP'))
  · rw [halfCell_inclination hd hc]
    have e0 : noise 0 = 0 := if_pos rfl
    have e1 : noise 1 = 9 / 10 := if_neg (by omega)
    have e2 : noise 2 = 9 / 10 := if_neg (by omega)
    simp only [e0, e1, e2, mul_zero, sub_zero]
    by_cases hb : -(π / 2) < β
    · conv_lhs => rw [← arctan_tan hb hβ]
      refine arctan_strictMono ((lt_div_iff₀ hd).mpr ?_)
      refine lt_of_lt_of_le hsteep (le_sqrt_of_sq_le ?_)
      nlinarith [sq_nonneg (randomNoise size angle 7 * (9 / 10))]
    · exact lt_of_le_of_lt (not_lt.mp hb) (neg_pi_div_two_lt_arctan _)

/-- The default arguments `size=1, noise_angle=0.1, n_points=100` meet the hypotheses, with any random numbers in [0, 1). -/
example : (0 : ℝ) < 1 ∧ 9 < 100 ∧ (0 : ℝ) < 0.1 ∧ (0.1 : ℝ) < π / 2 ∧ perSide 100 = 10 ∧ ∃ pts, roughPlanarSurface 1 0.1 100 true (fun _ => 0) (fun _ => 0) (fun k => if k = 11 then 1 / 2 else 0) = some pts := by
  refine ⟨one_pos, by norm_num, by norm_num, by linarith [two_le_pi], ?_, ?_⟩
  · refine le_antisymm (perSide_le.mpr (by norm_num)) ?_
    by_contra hc
    have : perSide 100 ≤ 9 := by omega
    rw [perSide_le] at this
    omega
  · obtain ⟨pts, -, h, -⟩ := (C149_points 1 0.1 100 (fun _ => 0) (fun _ => 0) (fun k => if k = 11 then 1 / 2 else 0)).1 (by norm_num)
    exact ⟨pts, h⟩

end Rayflare
