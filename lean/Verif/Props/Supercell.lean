import Verif.Spec.Supercell
import Verif.Props.NextFacet

/-!
# Property C182: a texture may be described by a larger unit cell
-/

namespace Rayflare

open Rayflare.Model Rayflare.Spec Rayflare.Lemmas

variable {Lx Ly lo hi : ℝ} {tris : List Tri} {k l : ℕ}

/-! ## Helper lemmas -/

theorem mem_tiled {τ' : Tri} : τ' ∈ tiled k l Lx Ly tris ↔ ∃ i < k, ∃ j < l, ∃ τ ∈ tris, τ' = shiftFacet Lx Ly i j τ := by
  simp only [tiled, List.mem_flatMap, List.mem_range, List.mem_map]
  constructor
  · rintro ⟨i, hi, j, hj, τ, hτ, rfl⟩; exact ⟨i, hi, j, hj, τ, hτ, rfl⟩
  · rintro ⟨i, hi, j, hj, τ, hτ, rfl⟩; exact ⟨i, hi, j, hj, τ, hτ, rfl⟩

theorem shiftFacet_cross (i j : ℕ) (τ : Tri) : (shiftFacet Lx Ly i j τ).crossP = τ.crossP := by
  ext <;> simp [Tri.crossP, shiftFacet, V3.cross]

theorem shiftFacet_N (i j : ℕ) (τ : Tri) : (shiftFacet Lx Ly i j τ).N = τ.N := by
  unfold Tri.N; rw [shiftFacet_cross]

theorem shiftFacet_parallel (i j : ℕ) (τ : Tri) (d : V3) : Parallel (shiftFacet Lx Ly i j τ) d ↔ Parallel τ d := by
  have := shiftFacet_cross (Lx := Lx) (Ly := Ly) i j τ
  unfold Tri.crossP at this
  unfold Parallel
  rw [this]

theorem shiftFacet_in {ε : ℝ} (i j : ℕ) (τ : Tri) (p : V3) : InTri ε (shiftFacet Lx Ly i j τ) p ↔ InTri ε τ ⟨p.x - i * Lx, p.y - j * Ly, p.z⟩ := by
  unfold InTri
  constructor
  · rintro ⟨u, v, h1, h2, h3, h4⟩
    refine ⟨u, v, h1, h2, h3, ?_⟩
    rw [h4]
    ext <;> simp [shiftFacet] <;> ring
  · rintro ⟨u, v, h1, h2, h3, h4⟩
    refine ⟨u, v, h1, h2, h3, ?_⟩
    have hx := congrArg V3.x h4
    have hy := congrArg V3.y h4
    have hz := congrArg V3.z h4
    simp only [V3.add_x, V3.add_y, V3.add_z, V3.sub_x, V3.sub_y, V3.sub_z, V3.smul_x, V3.smul_y, V3.smul_z] at hx hy hz
    ext
    · simp [shiftFacet]; linarith
    · simp [shiftFacet]; linarith
    · simp [shiftFacet]; linarith

theorem tiled_over (hLx : 0 < Lx) (hLy : 0 < Ly) (hover : OverCell Lx Ly lo hi tris) : OverCell (k * Lx) (l * Ly) lo hi (tiled k l Lx Ly tris) := by
  intro τ' hτ' p hp
  obtain ⟨i, hi', j, hj, τ, hτ, rfl⟩ := mem_tiled.1 hτ'
  have hi1 : (i : ℝ) + 1 ≤ k := by exact_mod_cast hi'
  have hj1 : (j : ℝ) + 1 ≤ l := by exact_mod_cast hj
  have hi0 : (0 : ℝ) ≤ i := Nat.cast_nonneg i
  have hj0 : (0 : ℝ) ≤ j := Nat.cast_nonneg j
  have a1 := mul_le_mul_of_nonneg_right hi1 hLx.le
  have a2 := mul_le_mul_of_nonneg_right hj1 hLy.le
  have a3 := mul_nonneg hi0 hLx.le
  have a4 := mul_nonneg hj0 hLy.le
  have key : ∀ q, q = τ.P0 ∨ q = τ.P1 ∨ q = τ.P2 → InCell (k * Lx) (l * Ly) ⟨q.x + i * Lx, q.y + j * Ly, q.z⟩ ∧ lo ≤ q.z ∧ q.z ≤ hi := by
    intro q hq
    obtain ⟨⟨h1, h2, h3, h4⟩, h5⟩ := hover τ hτ q hq
    exact ⟨⟨by simp only; linarith, by simp only; linarith, by simp only; linarith, by simp only; linarith⟩, h5⟩
  rcases hp with rfl | rfl | rfl
  · exact key _ (Or.inl rfl)
  · exact key _ (Or.inr (Or.inl rfl))
  · exact key _ (Or.inr (Or.inr rfl))

/-- A cell of the large lattice, and in it a small cell. -/
theorem fromCell_big (M N : ℤ) (i j : ℕ) (p : V3) :
    (⟨(fromCell (k * Lx) (l * Ly) M N p).x - i * Lx, (fromCell (k * Lx) (l * Ly) M N p).y - j * Ly, (fromCell (k * Lx) (l * Ly) M N p).z⟩ : V3) = fromCell Lx Ly (M * k + i) (N * l + j) p := by
  ext <;> simp [fromCell] <;> ring

theorem fromCell_fromCell (m n a b : ℤ) (p : V3) : fromCell Lx Ly m n (fromCell Lx Ly a b p) = fromCell Lx Ly (m + a) (n + b) p := by
  ext <;> simp [fromCell] <;> ring

theorem fromCell_ray (a b : ℤ) (r d : V3) (t : ℝ) : fromCell Lx Ly a b r + t • d = fromCell Lx Ly a b (r + t • d) := by
  ext <;> simp [fromCell] <;> ring

/-- Small index `m` is small cell `m % k` in large cell `m / k`. -/
theorem split_index (hk : 0 < k) (m : ℤ) : ∃ (M : ℤ) (i : ℕ), i < k ∧ m = M * k + i := by
  have hk' : (0 : ℤ) < k := by exact_mod_cast hk
  refine ⟨m / k, (m % k).toNat, ?_, ?_⟩
  · have := Int.emod_lt_of_pos m hk'
    have := Int.emod_nonneg m hk'.ne'
    omega
  · have := Int.emod_nonneg m hk'.ne'
    rw [Int.toNat_of_nonneg this]
    have := Int.mul_ediv_add_emod m k
    linarith [mul_comm (k : ℤ) (m / k)]

theorem far_well (hLx : 0 < Lx) (hLy : 0 < Ly) (hk : 0 < k) (hl : 0 < l) {p : V3} (h : FarFromBorders k l Lx Ly p) : WellInside Lx Ly p := by
  obtain ⟨h1, h2, h3, h4⟩ := h
  have hk1 : (1 : ℝ) ≤ k := by exact_mod_cast hk
  have hl1 : (1 : ℝ) ≤ l := by exact_mod_cast hl
  have a := mul_le_mul_of_nonneg_right hk1 hLx.le
  have b := mul_le_mul_of_nonneg_right hl1 hLy.le
  refine ⟨?_, ?_, ?_, ?_⟩ <;> norm_num at h1 h2 h3 h4 ⊢ <;> linarith

theorem far_well_big (hLx : 0 < Lx) (hLy : 0 < Ly) {i j : ℕ} (hi' : i < k) (hj : j < l) {q : V3} (h : FarFromBorders k l Lx Ly ⟨q.x - i * Lx, q.y - j * Ly, q.z⟩) : WellInside (k * Lx) (l * Ly) q := by
  obtain ⟨h1, h2, h3, h4⟩ := h
  have hi1 : (i : ℝ) + 1 ≤ k := by exact_mod_cast hi'
  have hj1 : (j : ℝ) + 1 ≤ l := by exact_mod_cast hj
  have a1 := mul_le_mul_of_nonneg_right hi1 hLx.le
  have a2 := mul_le_mul_of_nonneg_right hj1 hLy.le
  have a3 := mul_nonneg (Nat.cast_nonneg (α := ℝ) i) hLx.le
  have a4 := mul_nonneg (Nat.cast_nonneg (α := ℝ) j) hLy.le
  simp only at h1 h2 h3 h4
  refine ⟨?_, ?_, ?_, ?_⟩ <;> linarith

variable {r d : V3}

/-- A facet of the small cell within the tolerance is met, in the small and in the large lattice. -/
theorem general_meets (hLx : 0 < Lx) (hLy : 0 < Ly) (hk : 0 < k) (hl : 0 < l) (hg : GeneralPosition k l Lx Ly tris r d) (a b : ℤ) {t : ℝ} (ht : 0 < t) {m n : ℤ} {τ : Tri} (hτ : τ ∈ tris)
    (h : InTri (1 / 10 ^ 10) τ (fromCell Lx Ly m n (r + t • d))) :
    MeetsAt Lx Ly tris r d t ∧ MeetsAt (k * Lx) (l * Ly) (tiled k l Lx Ly tris) (fromCell Lx Ly a b r) d t := by
  obtain ⟨h1, h2, h3⟩ := hg t ht m n τ hτ h
  refine ⟨⟨m, n, ht, far_well hLx hLy hk hl h3, τ, hτ, h1, h2⟩, ?_⟩
  obtain ⟨M, i, hi', hm⟩ := split_index hk (m - a)
  obtain ⟨N, j, hj, hn⟩ := split_index hl (n - b)
  have e : (⟨(fromCell (k * Lx) (l * Ly) M N (fromCell Lx Ly a b r + t • d)).x - i * Lx, (fromCell (k * Lx) (l * Ly) M N (fromCell Lx Ly a b r + t • d)).y - j * Ly, (fromCell (k * Lx) (l * Ly) M N (fromCell Lx Ly a b r + t • d)).z⟩ : V3) =
      fromCell Lx Ly m n (r + t • d) := by
    rw [fromCell_big, fromCell_ray, fromCell_fromCell, ← hm, ← hn, sub_add_cancel, sub_add_cancel]
  refine ⟨M, N, ht, far_well_big hLx hLy hi' hj (by rw [e]; exact h3), shiftFacet Lx Ly i j τ, mem_tiled.2 ⟨i, hi', j, hj, τ, hτ, rfl⟩, ?_, ?_⟩
  · rw [shiftFacet_parallel]; exact h1
  · rw [shiftFacet_in, e]; exact h2

/-- What is met in the large lattice is met in the small one. -/
theorem big_tolerance (a b : ℤ) {t : ℝ} {P : V3} {M N : ℤ} (hP : P = fromCell (k * Lx) (l * Ly) M N (fromCell Lx Ly a b r + t • d)) {τ' : Tri} (hτ' : τ' ∈ tiled k l Lx Ly tris) (h : InTri (1 / 10 ^ 10) τ' P) :
    ∃ i j : ℕ, ∃ τ ∈ tris, ∃ m n : ℤ, InTri (1 / 10 ^ 10) τ (fromCell Lx Ly m n (r + t • d)) ∧ (⟨P.x - i * Lx, P.y - j * Ly, P.z⟩ : V3) = fromCell Lx Ly m n (r + t • d) ∧ τ'.N = τ.N := by
  obtain ⟨i, hi', j, hj, τ, hτ, rfl⟩ := mem_tiled.1 hτ'
  rw [shiftFacet_in] at h
  have e : (⟨P.x - i * Lx, P.y - j * Ly, P.z⟩ : V3) = fromCell Lx Ly (M * k + i + a) (N * l + j + b) (r + t • d) := by
    rw [hP, fromCell_big, fromCell_ray, fromCell_fromCell]
  exact ⟨i, j, τ, hτ, _, _, by rw [← e]; exact h, e, shiftFacet_N i j τ⟩

/-- The first facets coincide. -/
theorem first_same (hLx : 0 < Lx) (hLy : 0 < Ly) (hk : 0 < k) (hl : 0 < l) (hover : OverCell Lx Ly lo hi tris) (hg : GeneralPosition k l Lx Ly tris r d) (a b : ℤ) {p N P N' : V3} (h : FirstFacet Lx Ly tris r d p N)
    (h' : FirstFacet (k * Lx) (l * Ly) (tiled k l Lx Ly tris) (fromCell Lx Ly a b r) d P N') : (∃ m n : ℤ, P = fromCell Lx Ly m n p) ∧ (OneNormal tris p → N' = N) := by
  obtain ⟨t, ht, ⟨m, n, hp⟩, ⟨τ, hτ, hin, hN⟩, hmin⟩ := h
  obtain ⟨t', ht', ⟨M', n', hP⟩, ⟨τ', hτ', hin', hN'⟩, hmin'⟩ := h'
  obtain ⟨i, j, τ2, hτ2, m2, n2, hin2, he, hNN⟩ := big_tolerance a b hP hτ' hin'
  rw [hp] at hin
  have c1 := general_meets hLx hLy hk hl hg a b ht hτ hin
  have c2 := general_meets hLx hLy hk hl hg a b ht' hτ2 hin2
  have htt : t = t' := le_antisymm (hmin _ c2.1) (hmin' _ c1.2)
  subst htt
  have hwell := far_well hLx hLy hk hl (hg t ht m n τ hτ hin).2.2
  obtain ⟨rfl, rfl⟩ := cell_unique hLx hLy hwell (InTri.nearly hover hτ2 hin2)
  constructor
  · refine ⟨-i, -j, ?_⟩
    rw [hp, ← he]
    ext <;> simp [fromCell]
  · intro ho
    rw [hN', hNN, hN]
    rw [← hp] at hin hin2
    exact ho τ2 hτ2 τ hτ hin2 hin

theorem corners_big {a b : ℤ} (h : MissesCorners Lx Ly r d) : MissesCorners (k * Lx) (l * Ly) (fromCell Lx Ly a b r) d := by
  rintro t ht m n ⟨h1, h2⟩
  rw [fromCell_ray] at h1 h2
  simp only [fromCell] at h1 h2
  exact h t ht (m * k + a) (n * l + b) ⟨by push_cast; linarith, by push_cast; linarith⟩

/-! ## C182 -/

/-- **C182, what holds.** A texture is described once by a unit cell and once by `k` times `l` of these cells. A ray has left a facet of each of them at the same place (up to whole periods), in the same direction, and moves towards the other side of the surface. Then the next facet
is met at the same place (up to whole periods), and has the same normal if there is only one normal at this place, or the interaction ends with both descriptions. The ray is in general position, that is, nothing hinges on the tolerances of the intersection test. Missing: rays that move away, for which the claim is false (`C182_fails`). -/
theorem C182_next_partial (hLx : 0 < Lx) (hLy : 0 < Ly) (hk : 0 < k) (hl : 0 < l) (hover : OverCell Lx Ly lo hi tris) {s S : Sic} (hs : LeavesFacet Lx Ly s) (hS : LeavesFacet (k * Lx) (l * Ly) S)
    {a b : ℤ} (hray : S.r = fromCell Lx Ly a b s.r ∧ S.d = s.d ∧ S.side = s.side) (hr : StrictlyInside Lx Ly s.r) (hR : StrictlyInside (k * Lx) (l * Ly) S.r) (hd : s.d.x ≠ 0 ∨ s.d.y ≠ 0) (htowards : ComesFrom s.side s.d)
    (hcorner : MissesCorners Lx Ly s.r s.d) (hg : GeneralPosition k l Lx Ly tris s.r s.d)
    {ws Ws : List Draw} (hws : Unchanged tris lo hi ws) (hWs : Unchanged (tiled k l Lx Ly tris) lo hi Ws) (d0 : V3) {res Res : SicRes} (hres : sicRun Lx Ly d0 ws s = .inr res) (hRes : sicRun (k * Lx) (l * Ly) d0 Ws S = .inr Res) :
    (∃ p N P N', MeetsNext Lx Ly d0 ws s p N ∧ MeetsNext (k * Lx) (l * Ly) d0 Ws S P N' ∧ (∃ m n : ℤ, P = fromCell Lx Ly m n p) ∧ (OneNormal tris p → N' = N)) ∨
    (EndsAs Lx Ly d0 ws s ∧ EndsAs (k * Lx) (l * Ly) d0 Ws S) := by
  obtain ⟨e1, e2, e3⟩ := hray
  have hk0 : (0 : ℝ) < k := by exact_mod_cast hk
  have hl0 : (0 : ℝ) < l := by exact_mod_cast hl
  have small := C181_next_partial hLx hLy hover hs hr hd hcorner hws d0 hres
  have big := C181_next_partial (mul_pos hk0 hLx) (mul_pos hl0 hLy) (tiled_over hLx hLy hover) hS hR (by rw [e2]; exact hd) (by rw [e1, e2]; exact corners_big hcorner) hWs d0 hRes
  rw [e1, e2, e3] at big
  rcases small with ⟨w1, w, w2, s', p, θ, N, f1, f2, f3, f4, -, f5, f6⟩ | ⟨⟨l1, ot1, r1, hout⟩, hno, -⟩ <;> rcases big with ⟨v1, v, v2, S', P, Θ, N', g1, g2, g3, g4, -, g5, g6⟩ | ⟨⟨l2, ot2, r2, hOut⟩, hNo, -⟩
  · left
    obtain ⟨q1, q2⟩ := first_same hLx hLy hk hl hover hg a b f6 g6
    exact ⟨p, N, P, N', ⟨w1, w, w2, s', θ, f1, f2, f3, by rw [f4]; exact f5⟩, ⟨v1, v, v2, S', Θ, g1, g2, g3, by rw [g4]; exact g5⟩, q1, q2⟩
  · exfalso
    obtain ⟨t, ht, ⟨m, n, hp⟩, ⟨τ, hτ, hin, -⟩, -⟩ := f6
    rw [hp] at hin
    exact hNo htowards t (general_meets hLx hLy hk hl hg a b ht hτ hin).2
  · exfalso
    obtain ⟨t, ht, ⟨M, n, hP⟩, ⟨τ', hτ', hin, -⟩, -⟩ := g6
    obtain ⟨i, j, τ, hτ, m2, n2, hin2, -, -⟩ := big_tolerance a b hP hτ' hin
    exact hno htowards t (general_meets hLx hLy hk hl hg a b ht hτ hin2).1
  · right
    exact ⟨⟨l1, ot1, r1, by rw [hres, hout]⟩, ⟨l2, ot2, r2, by rw [hRes, hOut, e2, e3]⟩⟩

/-! ## The V-groove with a larger unit cell -/

theorem checkIntersect_unique {r d : V3} {tris : List Tri} {τ : Tri} (hτ : τ ∈ tris) (hh : τ.hit r d = true) (hu : ∀ τ' ∈ tris, τ'.hit r d = true → τ' = τ) :
    checkIntersect r d tris = some (r + τ.t r d • d, localTheta τ.N d, τ.N) := by
  obtain ⟨p, θ, N, h⟩ := checkIntersect_isSome hτ hh
  obtain ⟨τ', h1, h2, rfl, rfl, rfl, -⟩ := checkIntersect_some h
  rw [h, hu τ' h1 h2]

theorem shiftFacet_zero (τ : Tri) : shiftFacet Lx Ly 0 0 τ = τ := by
  obtain ⟨⟨_, _, _⟩, ⟨_, _, _⟩, ⟨_, _, _⟩⟩ := τ
  simp [shiftFacet]

/-- A draw with the larger cell. -/
noncomputable def tiledDraw (k l : ℕ) (nA nB : ℂ) (arc : ℤ → ℝ → ℂ) (pol : Pol) : Draw := ⟨tiled k l 1 1 vGroove, 0, 1 / 2, 0, 0, fresnelDec nA nB arc pol 0⟩

theorem tiledDraw_dec (nA nB : ℂ) (arc : ℤ → ℝ → ℂ) (pol : Pol) (θ : ℝ) (d N : V3) : (tiledDraw k l nA nB arc pol).dec θ d N 1 = (normalise (reflectDir d N), 1, none) := by
  simp only [tiledDraw, fresnelDec, if_true, decideFresnel]
  rw [if_pos (decideR_nonneg _ _ _ _ _)]

theorem away_first_big (nA nB : ℂ) (arc : ℤ → ℝ → ℂ) (pol : Pol) : sicRun 3 2 awayIn [tiledDraw 3 2 nA nB arc pol] (sicStart awayStart awayIn 1 0) = .inl awaySic := by
  have ht : vg4.t awayStart awayIn = 9 / 10 := by norm_num [Tri.t, Tri.det, Tri.crossP, V3.cross, V3.dot, vg4, awayStart, awayIn]
  have hc : checkIntersect awayStart awayIn (tiled 3 2 1 1 vGroove) = some (awayStart + (9 / 10 : ℝ) • awayIn, localTheta vg4.N awayIn, vg4.N) := by
    rw [← ht]
    apply checkIntersect_unique
    · exact mem_tiled.2 ⟨0, by norm_num, 0, by norm_num, vg4, by rw [vGroove_eq]; simp, (shiftFacet_zero _).symm⟩
    · norm_num [Tri.hit, Tri.t, Tri.u, Tri.v, Tri.det, Tri.crossP, V3.cross, V3.dot, vg4, awayStart, awayIn]
    · intro τ' hτ' hh
      obtain ⟨i, hi', j, hj, τ, hτ, rfl⟩ := mem_tiled.1 hτ'
      rw [vGroove_eq] at hτ
      simp only [List.mem_cons, List.not_mem_nil, or_false] at hτ
      by_cases h0 : i = 0 ∧ j = 0 ∧ τ = vg4
      · obtain ⟨rfl, rfl, rfl⟩ := h0; exact shiftFacet_zero _
      · exfalso
        interval_cases i <;> interval_cases j <;> rcases hτ with rfl | rfl | rfl | rfl <;>
          first
            | exact h0 ⟨rfl, rfl, rfl⟩
            | (norm_num [shiftFacet, Tri.hit, Tri.t, Tri.u, Tri.v, Tri.det, Tri.crossP, V3.cross, V3.dot, vg1, vg2, vg3, vg4, awayStart, awayIn] at hh; done)
  have hn : normalise (reflectDir awayIn (((1 : ℤ) : ℝ) • vg4.N)) = awayOut := vg4_reflect _ _ _ (by norm_num)
  simp only [sicRun]
  rw [sicStep_facet (s := sicStart awayStart awayIn 1 0) (by exact hc)]
  simp only [sicStart, tiledDraw_dec, hn, afterFacet]
  have : awayStart + (9 / 10 : ℝ) • awayIn + (1 / 10 ^ 9 : ℝ) • awayOut = awayAt := by
    ext <;> simp [awayStart, awayIn, awayOut, awayAt] <;> norm_num
  rw [this]
  rfl

/-- **C182 is violated.** The ray of `C181_fails` on the V-groove texture is reported as reflected after it has met one facet, if the texture is described by one period. If the same texture is described by 3 times 2 periods, the same ray, reflected at the same place, meets a second facet, whatever happens there. -/
theorem C182_fails (nA nB : ℂ) (arc : ℤ → ℝ → ℂ) (pol : Pol) :
    (LeavesFacet 1 1 awaySic ∧ ∃ r' θ, let w := grooveDraw nA nB arc pol; sicRun 1 1 awayIn [w, w, w] (sicStart awayStart awayIn 1 0) = .inr (.out 0 (polar awaySic.d) r' awaySic.d θ 1 1)) ∧
    LeavesFacet 3 2 awaySic ∧ sicRun 3 2 awayIn [tiledDraw 3 2 nA nB arc pol] (sicStart awayStart awayIn 1 0) = .inl awaySic ∧
    ∀ (d0 : V3) (w : Draw) (ws : List Draw), w.tris = tiled 3 2 1 1 vGroove → ∃ p N, MeetsNext 3 2 d0 (w :: ws) awaySic p N := by
  refine ⟨⟨away_leaves, (C181_fails nA nB arc pol).2.2.2.2.1⟩, ⟨⟨_, _, _, _, _, away_first_big nA nB arc pol⟩, by simp [awaySic], rfl⟩, away_first_big nA nB arc pol, ?_⟩
  intro d0 w ws hw
  have hin : InTri 0 (shiftFacet 1 1 2 1 vg2) (awaySic.r + (2 - 1 / 10 ^ 9 : ℝ) • awaySic.d) := by
    rw [shiftFacet_in]
    refine ⟨4 / 15, 2 / 3, by norm_num, by norm_num, by norm_num, ?_⟩
    ext <;> simp [awaySic, awayAt, awayOut, vg2] <;> norm_num
  have hpar : ¬ Parallel (shiftFacet 1 1 2 1 vg2) awaySic.d := by
    rw [shiftFacet_parallel]
    norm_num [Parallel, V3.cross, V3.dot, vg2, awaySic, awayOut]
  have hmem : shiftFacet 1 1 2 1 vg2 ∈ w.tris := by
    rw [hw]; exact mem_tiled.2 ⟨2, by norm_num, 1, by norm_num, vg2, by rw [vGroove_eq]; simp, rfl⟩
  obtain ⟨p, θ, N, h⟩ := checkIntersect_isSome hmem (hit_of_inTri hpar (by norm_num) hin).1
  exact ⟨p, N, [], w, ws, awaySic, θ, rfl, rfl, rfl, h⟩

/-! ## A ray that meets `C182_next_partial` -/

theorem towards_first_big (nA nB : ℂ) (arc : ℤ → ℝ → ℂ) (pol : Pol) : sicRun ((2 : ℕ) * 1) ((1 : ℕ) * 1) towardsIn [tiledDraw 2 1 nA nB arc pol] (sicStart towardsStart towardsIn 1 0) = .inl towardsSic := by
  have ht : vg4.t towardsStart towardsIn = 9 / 10 := by norm_num [Tri.t, Tri.det, Tri.crossP, V3.cross, V3.dot, vg4, towardsStart, towardsIn]
  have hc : checkIntersect towardsStart towardsIn (tiled 2 1 1 1 vGroove) = some (towardsStart + (9 / 10 : ℝ) • towardsIn, localTheta vg4.N towardsIn, vg4.N) := by
    rw [← ht]
    apply checkIntersect_unique
    · exact mem_tiled.2 ⟨0, by norm_num, 0, by norm_num, vg4, by rw [vGroove_eq]; simp, (shiftFacet_zero _).symm⟩
    · norm_num [Tri.hit, Tri.t, Tri.u, Tri.v, Tri.det, Tri.crossP, V3.cross, V3.dot, vg4, towardsStart, towardsIn]
    · intro τ' hτ' hh
      obtain ⟨i, hi', j, hj, τ, hτ, rfl⟩ := mem_tiled.1 hτ'
      rw [vGroove_eq] at hτ
      simp only [List.mem_cons, List.not_mem_nil, or_false] at hτ
      by_cases h0 : i = 0 ∧ j = 0 ∧ τ = vg4
      · obtain ⟨rfl, rfl, rfl⟩ := h0; exact shiftFacet_zero _
      · exfalso
        interval_cases i <;> interval_cases j <;> rcases hτ with rfl | rfl | rfl | rfl <;>
          first
            | exact h0 ⟨rfl, rfl, rfl⟩
            | (norm_num [shiftFacet, Tri.hit, Tri.t, Tri.u, Tri.v, Tri.det, Tri.crossP, V3.cross, V3.dot, vg1, vg2, vg3, vg4, towardsStart, towardsIn] at hh; done)
  have hn : normalise (reflectDir towardsIn (((1 : ℤ) : ℝ) • vg4.N)) = towardsOut := vg4_reflect _ _ _ (by norm_num)
  simp only [sicRun]
  rw [sicStep_facet (s := sicStart towardsStart towardsIn 1 0) (by exact hc)]
  simp only [sicStart, tiledDraw_dec, hn, afterFacet]
  have : towardsStart + (9 / 10 : ℝ) • towardsIn + (1 / 10 ^ 9 : ℝ) • towardsOut = towardsAt := by
    ext <;> simp [towardsStart, towardsIn, towardsOut, towardsAt] <;> norm_num
  rw [this]
  rfl

theorem towards_general : GeneralPosition 2 1 1 1 vGroove towardsAt towardsOut := by
  intro t ht m n τ hτ hin
  rw [vGroove_eq] at hτ
  simp only [List.mem_cons, List.not_mem_nil, or_false] at hτ
  obtain ⟨u, v, hu, hv, huv, he⟩ := hin
  have hx := congrArg V3.x he
  have hy := congrArg V3.y he
  have hz := congrArg V3.z he
  have key : (7 : ℝ) * (t / 15 + 1 / 15 / 10 ^ 9) = n - 3 / 5 → -(1 / 10 ^ 10) ≤ 1 / 5 - 2 * (t / 15 + 1 / 15 / 10 ^ 9) → n = 1 := by
    intro h1 h2
    have g1 : (0 : ℝ) < n := by linarith
    have g2 : (n : ℝ) < 2 := by linarith
    have g3 : 0 < n := by exact_mod_cast g1
    have g4 : n < 2 := by exact_mod_cast g2
    omega
  have steep : (3 : ℝ) * (t / 15 + 1 / 15 / 10 ^ 9) = n → -(1 / 10 ^ 10) ≤ 1 / 5 - 2 * (t / 15 + 1 / 15 / 10 ^ 9) → False := by
    intro h1 h2
    have g1 : (0 : ℝ) < n := by linarith
    have g2 : (n : ℝ) < 1 := by linarith
    have g3 : 0 < n := by exact_mod_cast g1
    have g4 : n < 1 := by exact_mod_cast g2
    omega
  rcases hτ with rfl | rfl | rfl | rfl <;>
    simp only [fromCell, towardsAt, towardsOut, vg1, vg2, vg3, vg4, V3.add_x, V3.add_y, V3.add_z, V3.sub_x, V3.sub_y, V3.sub_z, V3.smul_x, V3.smul_y, V3.smul_z] at hx hy hz
  · have hn : n = 1 := key (by linarith) (by linarith)
    subst hn
    have htt : t = 6 / 7 - 1 / 10 ^ 9 := by push_cast at hy; linarith
    subst htt
    have g1 : (0 : ℝ) < m := by linarith
    have g2 : (m : ℝ) < 2 := by linarith
    have hm : m = 1 := by
      have g3 : 0 < m := by exact_mod_cast g1
      have g4 : m < 2 := by exact_mod_cast g2
      omega
    subst hm
    refine ⟨by norm_num [Parallel, V3.cross, V3.dot, vg1, towardsOut], ⟨1 / 35, 6 / 35, by norm_num, by norm_num, by norm_num, ?_⟩, ?_⟩
    · ext <;> simp [fromCell, towardsAt, towardsOut, vg1] <;> norm_num
    · norm_num [FarFromBorders, fromCell, towardsAt, towardsOut]
  · exfalso
    have hn : n = 1 := key (by linarith) (by linarith)
    subst hn
    have htt : t = 6 / 7 - 1 / 10 ^ 9 := by push_cast at hy; linarith
    subst htt
    have g1 : (1 : ℝ) < m := by linarith
    have g2 : (m : ℝ) < 2 := by linarith
    have g3 : 1 < m := by exact_mod_cast g1
    have g4 : m < 2 := by exact_mod_cast g2
    omega
  · exact (steep (by linarith) (by linarith)).elim
  · exact (steep (by linarith) (by linarith)).elim

/-- The ray is absorbed where it meets the larger cell. -/
noncomputable def absorbBig : Draw := ⟨tiled 2 1 1 1 vGroove, 0, 1 / 2, 0, 0, fun _ d _ side => (d, side, some [1])⟩

theorem towards_run_big : ∃ res, sicRun ((2 : ℕ) * 1) ((1 : ℕ) * 1) towardsIn [absorbBig, absorbBig] towardsSic = .inr res := by
  have e0 : (exitSide towardsAt towardsOut ((2 : ℕ) * 1) ((1 : ℕ) * 1)).1 = 0 := by
    rw [oneExit_eq _ (i := 0) (t := 6 / 10 - 1 / 10 ^ 9) (by norm_num)]
    · norm_num [exitTs, planeT, towardsAt, towardsOut]
    · intro j hj t' ht'
      rcases j with _ | _ | _ | _ | j
      · exact absurd rfl hj
      all_goals
        norm_num [exitTs, planeT, towardsAt, towardsOut] at ht'
        first
          | (rw [← ht']; norm_num; done)
          | (exact absurd ht' (by simp))
  rcases hc : checkIntersect towardsAt towardsOut (tiled 2 1 1 1 vGroove) with _ | ⟨p, θ, N⟩
  · have s1 : sicStep ((2 : ℕ) * 1) ((1 : ℕ) * 1) towardsIn absorbBig towardsSic = .inl { towardsSic with r := towardsAt + translation ((2 : ℕ) * 1) ((1 : ℕ) * 1) 0, checked := true, i1 := 2 } := by
      unfold sicStep
      simp only [absorbBig, towardsSic, hc]
      rw [if_pos (by simp)]
      exact (if_pos (by norm_num)).trans (by rw [e0])
    have hin : InTri 0 (shiftFacet 1 1 1 0 vg1) (towardsAt + translation ((2 : ℕ) * 1) ((1 : ℕ) * 1) 0 + (6 / 7 - 1 / 10 ^ 9 : ℝ) • towardsOut) := by
      rw [shiftFacet_in]
      refine ⟨1 / 35, 6 / 35, by norm_num, by norm_num, by norm_num, ?_⟩
      ext <;> simp [translation, towardsAt, towardsOut, vg1] <;> norm_num
    have hpar : ¬ Parallel (shiftFacet 1 1 1 0 vg1) towardsOut := by
      rw [shiftFacet_parallel]
      norm_num [Parallel, V3.cross, V3.dot, vg1, towardsOut]
    have hmem : shiftFacet 1 1 1 0 vg1 ∈ tiled 2 1 1 1 vGroove := mem_tiled.2 ⟨1, by norm_num, 0, by norm_num, vg1, by rw [vGroove_eq]; simp, rfl⟩
    obtain ⟨p, θ, N, h⟩ := checkIntersect_isSome hmem (hit_of_inTri hpar (by norm_num) hin).1
    simp only [sicRun, s1]
    rw [sicStep_facet (s := { towardsSic with r := towardsAt + translation ((2 : ℕ) * 1) ((1 : ℕ) * 1) 0, checked := true, i1 := 2 }) (by exact h)]
    exact ⟨_, rfl⟩
  · simp only [sicRun]
    rw [sicStep_facet (s := towardsSic) (by exact hc)]
    exact ⟨_, rfl⟩

theorem sicRun_append_list (Lx Ly : ℝ) (d0 : V3) (ws' : List Draw) : ∀ (ws : List Draw) (s s' : Sic), sicRun Lx Ly d0 ws s = .inl s' → sicRun Lx Ly d0 (ws ++ ws') s = sicRun Lx Ly d0 ws' s' := by
  intro ws
  induction ws with
  | nil => intro s s' h; cases h; rfl
  | cons w ws ih =>
    intro s s' h
    simp only [sicRun, List.cons_append] at h ⊢
    rcases hs : sicStep Lx Ly d0 w s with s1 | r1
    · rw [hs] at h; exact ih s1 s' h
    · rw [hs] at h; simp at h

/-- The hypotheses of C182 are met by the ray of the example for C181 and the V-groove texture described by two periods; it meets the facet. -/
example : ∃ p N P N', MeetsNext 1 1 towardsIn [absorbDraw, absorbDraw, absorbDraw, absorbDraw] towardsSic p N ∧ MeetsNext ((2 : ℕ) * 1) ((1 : ℕ) * 1) towardsIn [absorbBig, absorbBig] towardsSic P N' ∧ ∃ m n : ℤ, P = fromCell 1 1 m n p := by
  obtain ⟨res, hres⟩ := towards_run
  obtain ⟨Res, hRes⟩ := towards_run_big
  have hu : Unchanged vGroove 0 (1 / 2) [absorbDraw, absorbDraw, absorbDraw, absorbDraw] := by
    intro w hw
    simp only [List.mem_cons, List.not_mem_nil, or_false, or_self] at hw
    subst hw
    exact ⟨rfl, rfl, rfl⟩
  have hU : Unchanged (tiled 2 1 1 1 vGroove) 0 (1 / 2) [absorbBig, absorbBig] := by
    intro w hw
    simp only [List.mem_cons, List.not_mem_nil, or_false, or_self] at hw
    subst hw
    exact ⟨rfl, rfl, rfl⟩
  have hl : LeavesFacet 1 1 towardsSic := ⟨⟨_, _, _, _, _, towards_first 1 1 (fun _ _ => 0) .s⟩, by simp [towardsSic], rfl⟩
  have hL : LeavesFacet ((2 : ℕ) * 1) ((1 : ℕ) * 1) towardsSic := ⟨⟨_, _, _, _, _, towards_first_big 1 1 (fun _ _ => 0) .s⟩, by simp [towardsSic], rfl⟩
  have hfrom : ComesFrom towardsSic.side towardsSic.d := Or.inl ⟨rfl, by norm_num [towardsSic, towardsOut]⟩
  rcases C182_next_partial (k := 2) (l := 1) one_pos one_pos (by norm_num) (by norm_num) vGroove_over hl hL (a := 0) (b := 0) ⟨(fromCell_zero _).symm, rfl, rfl⟩ towards_inside (by norm_num [StrictlyInside, towardsSic, towardsAt])
    (Or.inl (by norm_num [towardsSic, towardsOut])) hfrom towards_corners towards_general hu hU towardsIn hres hRes with ⟨p, N, P, N', h1, h2, h3, -⟩ | ⟨⟨l, ot, r', h⟩, -⟩
  · exact ⟨p, N, P, N', h1, h2, h3⟩
  · exfalso
    rcases C181_next_partial one_pos one_pos vGroove_over hl towards_inside (Or.inl (by norm_num [towardsSic, towardsOut])) towards_corners hu towardsIn h with ⟨ws1, w, ws2, s', p, θ, N, e, h1, h2, h3, -, h4, -⟩ | ⟨-, h, -⟩
    · have hw : w = absorbDraw := by
        have : w ∈ [absorbDraw, absorbDraw, absorbDraw, absorbDraw] := by rw [e]; simp
        simpa using this
      rw [e, sicRun_append_list _ _ _ _ _ _ _ h1] at h
      simp only [sicRun] at h
      rw [sicStep_facet (s := s') (by rw [h3]; exact h4), hw] at h
      simp [absorbDraw, afterFacet] at h
    · refine h hfrom (6 / 7 - 1 / 10 ^ 9) ⟨1, 1, by norm_num, ?_, vg1, by rw [vGroove_eq]; simp, ?_, ?_⟩
      · norm_num [WellInside, fromCell, towardsSic, towardsAt, towardsOut]
      · norm_num [Parallel, V3.cross, V3.dot, vg1, towardsSic, towardsOut]
      · refine ⟨1 / 35, 6 / 35, by norm_num, by norm_num, by norm_num, ?_⟩
        ext <;> simp [fromCell, towardsSic, towardsAt, towardsOut, vg1] <;> norm_num

end Rayflare
