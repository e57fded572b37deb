import Verif.Model.Hyperhemisphere
import Verif.Props.Area
import Mathlib.Analysis.SpecialFunctions.Trigonometric.Basic
import Mathlib.Tactic.Positivity

/-!
# Property C122: the hyperhemisphere texture
-/

namespace Rayflare

open Rayflare.Np Rayflare.Model Rayflare.Lemmas

/-- On the sphere of radius `R` around `(0, 0, h)`. -/
def Spec.OnSphere (R h : ℝ) (p : V3) : Prop := p.x ^ 2 + p.y ^ 2 + (p.z - h) ^ 2 = R ^ 2

/-- All three angles are smaller than 90 degrees. -/
def Spec.Acute (τ : Tri) : Prop :=
  0 < V3.dot (τ.P1 - τ.P0) (τ.P2 - τ.P0) ∧ 0 < V3.dot (τ.P0 - τ.P1) (τ.P2 - τ.P1) ∧ 0 < V3.dot (τ.P0 - τ.P2) (τ.P1 - τ.P2)

/-- The normal of the facet points away from (0, 0, h). -/
def Spec.Outward (h : ℝ) (τ : Tri) : Prop := 0 < V3.dot τ.crossP (τ.P0 - ⟨0, 0, h⟩)

/-- The normal of the facet points towards (0, 0, h). -/
def Spec.Inward (h : ℝ) (τ : Tri) : Prop := V3.dot τ.crossP (τ.P0 - ⟨0, 0, h⟩) < 0

/-! ## Points -/

theorem spiral_sphere (N : ℕ) (R h : ℝ) (i : ℕ) (hi : i < N) : Spec.OnSphere R h (spiralPoint N R h i) := by
  unfold Spec.OnSphere spiralPoint
  simp only
  set z : ℝ := i * (2 / (N : ℝ)) - 1 + 2 / (N : ℝ) / 2 with hz
  set a : ℝ := i * (2 * Real.pi / ((1 + √5) / 2))
  have hN : (0 : ℝ) < N := by exact_mod_cast (by omega : 0 < N)
  have h1 : -1 ≤ z := by
    have : 0 ≤ i * (2 / (N : ℝ)) := by positivity
    have : 0 ≤ 2 / (N : ℝ) / 2 := by positivity
    rw [hz]; linarith
  have h2 : z ≤ 1 := by
    have : z = (2 * i + 1) / N - 1 := by rw [hz]; field_simp; ring
    rw [this]
    have : ((2 * i + 1 : ℕ) : ℝ) / N ≤ 2 := by
      rw [div_le_iff₀ hN]
      exact_mod_cast (by omega : 2 * i + 1 ≤ 2 * N)
    push_cast at this
    linarith
  have hs : √(1 - z * z) ^ 2 = 1 - z * z := Real.sq_sqrt (by nlinarith)
  have hc := Real.sin_sq_add_cos_sq a
  have : (R * (√(1 - z * z) * Real.cos a)) ^ 2 + (R * (√(1 - z * z) * Real.sin a)) ^ 2 + (R * z + h - h) ^ 2 = R ^ 2 * (√(1 - z * z) ^ 2 * (Real.sin a ^ 2 + Real.cos a ^ 2) + z ^ 2) := by ring
  rw [this, hs, hc]
  ring

/-- `C122`: all points of the surface are on the sphere, at or above `z = 0`; the points of the spiral at or above `z = 0` are all there; the rear surface is the mirror image. -/
theorem C122_points (N : ℕ) (R h : ℝ) :
    (∀ p ∈ hyperPoints N R h, Spec.OnSphere R h p ∧ 0 ≤ p.z) ∧ (∀ i < N, 0 ≤ (spiralPoint N R h i).z → spiralPoint N R h i ∈ hyperPoints N R h) ∧
      (∀ p ∈ mirrorPoints (hyperPoints N R h), Spec.OnSphere R (-h) p ∧ p.z ≤ 0) := by
  have key : ∀ p ∈ hyperPoints N R h, Spec.OnSphere R h p ∧ 0 ≤ p.z := by
    intro p hp
    unfold hyperPoints at hp
    rcases List.mem_append.mp hp with hp | hp
    · unfold rimPoints at hp
      obtain ⟨φ, hφ, rfl⟩ := List.mem_map.mp hp
      by_cases hle : h ^ 2 ≤ R ^ 2
      · refine ⟨?_, le_rfl⟩
        unfold Spec.OnSphere
        have h1 : √(R ^ 2 - h ^ 2) ^ 2 = R ^ 2 - h ^ 2 := Real.sq_sqrt (by linarith)
        have h2 := Real.sin_sq_add_cos_sq φ
        simp only
        calc _ = √(R ^ 2 - h ^ 2) ^ 2 * (Real.sin φ ^ 2 + Real.cos φ ^ 2) + h ^ 2 := by ring
          _ = _ := by rw [h1, h2]; ring
      · rw [rimCount, if_neg hle] at hφ
        simp [linspace] at hφ
    · unfold spiralPoints at hp
      rw [List.mem_filter] at hp
      obtain ⟨i, hi, rfl⟩ := List.mem_map.mp hp.1
      exact ⟨spiral_sphere N R h i (List.mem_range.mp hi), of_decide_eq_true hp.2⟩
  refine ⟨key, fun i hi hz => ?_, ?_⟩
  · unfold hyperPoints spiralPoints
    refine List.mem_append_right _ (List.mem_filter.mpr ⟨List.mem_map.mpr ⟨i, List.mem_range.mpr hi, rfl⟩, decide_eq_true hz⟩)
  · intro p hp
    obtain ⟨q, hq, rfl⟩ := List.mem_map.mp hp
    obtain ⟨h1, h2⟩ := key q hq
    refine ⟨?_, by simpa using h2⟩
    unfold Spec.OnSphere at *
    simp only
    linarith [h1, show (-q.z - -h) ^ 2 = (q.z - h) ^ 2 by ring]

/-! ## Geometry of acute facets -/

theorem frame (e1 e2 u Q : V3) : V3.dot (V3.cross e1 e2) (V3.cross e1 e2) * V3.dot u Q =
    V3.dot Q e1 * V3.dot u (V3.cross e2 (V3.cross e1 e2)) + V3.dot Q e2 * V3.dot u (V3.cross (V3.cross e1 e2) e1) + V3.dot Q (V3.cross e1 e2) * V3.dot u (V3.cross e1 e2) := by
  unfold V3.dot V3.cross; ring

theorem dot_self_pos {a b : V3} (h : 0 < V3.dot a b) : 0 < V3.dot b b := by
  unfold V3.dot at *
  by_contra hn
  have hx : b.x = 0 := by nlinarith [sq_nonneg b.x, sq_nonneg b.y, sq_nonneg b.z]
  have hy : b.y = 0 := by nlinarith [sq_nonneg b.x, sq_nonneg b.y, sq_nonneg b.z]
  have hz : b.z = 0 := by nlinarith [sq_nonneg b.x, sq_nonneg b.y, sq_nonneg b.z]
  simp [hx, hy, hz] at h

/-- The circumcentre of an acute triangle is inside it: the centre of a sphere through its corners, seen along the normal. -/
theorem acute_frame (R : ℝ) (q0 q1 q2 u : V3) (h0 : V3.dot q0 q0 = R ^ 2) (h1 : V3.dot q1 q1 = R ^ 2) (h2 : V3.dot q2 q2 = R ^ 2)
    (a0 : 0 < V3.dot (q1 - q0) (q2 - q0)) (a1 : 0 < V3.dot (q0 - q1) (q2 - q1)) (a2 : 0 < V3.dot (q0 - q2) (q1 - q2)) :
    ∃ w0 w1 w2 : ℝ, 0 < w0 ∧ 0 < w1 ∧ 0 < w2 ∧ 0 < V3.dot (V3.cross (q1 - q0) (q2 - q0)) (V3.cross (q1 - q0) (q2 - q0)) ∧
      V3.dot (V3.cross (q1 - q0) (q2 - q0)) (V3.cross (q1 - q0) (q2 - q0)) * (w0 * V3.dot u q0 + w1 * V3.dot u q1 + w2 * V3.dot u q2) =
        (w0 + w1 + w2) * V3.dot (V3.cross (q1 - q0) (q2 - q0)) q0 * V3.dot u (V3.cross (q1 - q0) (q2 - q0)) := by
  set g01 := V3.dot q0 q1 with e01
  set g02 := V3.dot q0 q2 with e02
  set g12 := V3.dot q1 q2 with e12
  have da : V3.dot (q1 - q0) (q2 - q0) = g12 - g01 - g02 + R ^ 2 := by
    rw [← h0, e01, e02, e12]; unfold V3.dot; simp only [V3.sub_x, V3.sub_y, V3.sub_z]; ring
  have db : V3.dot (q0 - q1) (q2 - q1) = g02 - g01 - g12 + R ^ 2 := by
    rw [← h1, e01, e02, e12]; unfold V3.dot; simp only [V3.sub_x, V3.sub_y, V3.sub_z]; ring
  have dc : V3.dot (q0 - q2) (q1 - q2) = g01 - g02 - g12 + R ^ 2 := by
    rw [← h2, e01, e02, e12]; unfold V3.dot; simp only [V3.sub_x, V3.sub_y, V3.sub_z]; ring
  rw [da] at a0; rw [db] at a1; rw [dc] at a2
  have p01 : 0 < R ^ 2 - g01 := by linarith
  have p02 : 0 < R ^ 2 - g02 := by linarith
  have p12 : 0 < R ^ 2 - g12 := by linarith
  refine ⟨(R ^ 2 - g12) * (g12 - g01 - g02 + R ^ 2), (R ^ 2 - g02) * (g02 - g01 - g12 + R ^ 2), (R ^ 2 - g01) * (g01 - g02 - g12 + R ^ 2), mul_pos p12 a0, mul_pos p02 a1, mul_pos p01 a2, ?_, ?_⟩
  · rw [lagrange, da]
    have l1 : V3.dot (q1 - q0) (q1 - q0) = 2 * (R ^ 2 - g01) := by
      have : V3.dot (q1 - q0) (q1 - q0) = V3.dot q0 q0 + V3.dot q1 q1 - 2 * g01 := by
        rw [e01]; unfold V3.dot; simp only [V3.sub_x, V3.sub_y, V3.sub_z]; ring
      rw [this, h0, h1]; ring
    have l2 : V3.dot (q2 - q0) (q2 - q0) = 2 * (R ^ 2 - g02) := by
      have : V3.dot (q2 - q0) (q2 - q0) = V3.dot q0 q0 + V3.dot q2 q2 - 2 * g02 := by
        rw [e02]; unfold V3.dot; simp only [V3.sub_x, V3.sub_y, V3.sub_z]; ring
      rw [this, h0, h2]; ring
    rw [l1, l2]
    nlinarith [mul_pos a0 a1, mul_pos a0 a2, mul_pos a1 a2]
  · set w0 := (R ^ 2 - g12) * (g12 - g01 - g02 + R ^ 2) with hw0
    set w1 := (R ^ 2 - g02) * (g02 - g01 - g12 + R ^ 2) with hw1
    set w2 := (R ^ 2 - g01) * (g01 - g02 - g12 + R ^ 2) with hw2
    have hf := frame (q1 - q0) (q2 - q0) u ((w0 • q0) + (w1 • q1) + (w2 • q2))
    have o1 : V3.dot ((w0 • q0) + (w1 • q1) + (w2 • q2)) (q1 - q0) = 0 := by
      have : V3.dot ((w0 • q0) + (w1 • q1) + (w2 • q2)) (q1 - q0) = w0 * (g01 - V3.dot q0 q0) + w1 * (V3.dot q1 q1 - g01) + w2 * (g12 - g02) := by
        rw [e01, e02, e12]; unfold V3.dot; simp only [V3.sub_x, V3.sub_y, V3.sub_z, V3.add_x, V3.add_y, V3.add_z, V3.smul_x, V3.smul_y, V3.smul_z]; ring
      rw [this, h0, h1, hw0, hw1, hw2]; ring
    have o2 : V3.dot ((w0 • q0) + (w1 • q1) + (w2 • q2)) (q2 - q0) = 0 := by
      have : V3.dot ((w0 • q0) + (w1 • q1) + (w2 • q2)) (q2 - q0) = w0 * (g02 - V3.dot q0 q0) + w1 * (g12 - g01) + w2 * (V3.dot q2 q2 - g02) := by
        rw [e01, e02, e12]; unfold V3.dot; simp only [V3.sub_x, V3.sub_y, V3.sub_z, V3.add_x, V3.add_y, V3.add_z, V3.smul_x, V3.smul_y, V3.smul_z]; ring
      rw [this, h0, h2, hw0, hw1, hw2]; ring
    have o3 : V3.dot ((w0 • q0) + (w1 • q1) + (w2 • q2)) (V3.cross (q1 - q0) (q2 - q0)) = (w0 + w1 + w2) * V3.dot (V3.cross (q1 - q0) (q2 - q0)) q0 := by
      unfold V3.dot V3.cross; simp only [V3.sub_x, V3.sub_y, V3.sub_z, V3.add_x, V3.add_y, V3.add_z, V3.smul_x, V3.smul_y, V3.smul_z]; ring
    have o4 : V3.dot u ((w0 • q0) + (w1 • q1) + (w2 • q2)) = w0 * V3.dot u q0 + w1 * V3.dot u q1 + w2 * V3.dot u q2 := by
      unfold V3.dot; simp only [V3.add_x, V3.add_y, V3.add_z, V3.smul_x, V3.smul_y, V3.smul_z]; ring
    rw [o1, o2, o3, o4] at hf
    linarith [hf]

/-- For an acute facet on a sphere around the origin that lies on one side of a plane through the origin: the normal is on this side exactly if it points outwards. -/
theorem acute_side (R : ℝ) (q0 q1 q2 u : V3) (h0 : V3.dot q0 q0 = R ^ 2) (h1 : V3.dot q1 q1 = R ^ 2) (h2 : V3.dot q2 q2 = R ^ 2)
    (a0 : 0 < V3.dot (q1 - q0) (q2 - q0)) (a1 : 0 < V3.dot (q0 - q1) (q2 - q1)) (a2 : 0 < V3.dot (q0 - q2) (q1 - q2))
    (u0 : 0 ≤ V3.dot u q0) (u1 : 0 ≤ V3.dot u q1) (u2 : 0 ≤ V3.dot u q2) (us : 0 < V3.dot u q0 + V3.dot u q1 + V3.dot u q2) :
    0 < V3.dot (V3.cross (q1 - q0) (q2 - q0)) q0 * V3.dot u (V3.cross (q1 - q0) (q2 - q0)) := by
  obtain ⟨w0, w1, w2, p0, p1, p2, hn, he⟩ := acute_frame R q0 q1 q2 u h0 h1 h2 a0 a1 a2
  have : 0 < w0 * V3.dot u q0 + w1 * V3.dot u q1 + w2 * V3.dot u q2 := by
    have e0 := mul_nonneg p0.le u0
    have e1 := mul_nonneg p1.le u1
    have e2 := mul_nonneg p2.le u2
    rcases lt_or_ge 0 (V3.dot u q0) with g0 | g0
    · have := mul_pos p0 g0; linarith
    rcases lt_or_ge 0 (V3.dot u q1) with g1 | g1
    · have := mul_pos p1 g1; linarith
    have g2 : 0 < V3.dot u q2 := by linarith
    have := mul_pos p2 g2; linarith
  have h := mul_pos hn this
  rw [he, mul_assoc] at h
  exact (mul_pos_iff_of_pos_left (by linarith)).mp h

/-! ## Orientation -/

/-- A facet that is acute, with its corners on the sphere around `(0, 0, h)` and, relative to the centre, on the side `u` of the plane normal to `u`. -/
structure Spec.SideOf (R h : ℝ) (u : V3) (τ : Tri) : Prop where
  acute : Spec.Acute τ
  s0 : Spec.OnSphere R h τ.P0
  s1 : Spec.OnSphere R h τ.P1
  s2 : Spec.OnSphere R h τ.P2
  u0 : 0 ≤ V3.dot u (τ.P0 - ⟨0, 0, h⟩)
  u1 : 0 ≤ V3.dot u (τ.P1 - ⟨0, 0, h⟩)
  u2 : 0 ≤ V3.dot u (τ.P2 - ⟨0, 0, h⟩)
  us : 0 < V3.dot u (τ.P0 - ⟨0, 0, h⟩) + V3.dot u (τ.P1 - ⟨0, 0, h⟩) + V3.dot u (τ.P2 - ⟨0, 0, h⟩)

theorem dot_comm' (a b : V3) : V3.dot a b = V3.dot b a := by unfold V3.dot; ring

theorem Spec.SideOf.switch {R h : ℝ} {u : V3} {f : HFacet} (hf : Spec.SideOf R h u f.tri) : Spec.SideOf R h u f.switch.tri := by
  obtain ⟨⟨a0, a1, a2⟩, s0, s1, s2, u0, u1, u2, us⟩ := hf
  refine ⟨⟨?_, ?_, ?_⟩, s0, s2, s1, u0, u2, u1, ?_⟩
  · rw [dot_comm']; exact a0
  · exact a2
  · exact a1
  · show 0 < V3.dot u (f.tri.P0 - ⟨0, 0, h⟩) + V3.dot u (f.tri.P2 - ⟨0, 0, h⟩) + V3.dot u (f.tri.P1 - ⟨0, 0, h⟩); linarith

theorem switch_crossP (f : HFacet) : f.switch.tri.crossP = -f.tri.crossP := by
  ext <;> simp [HFacet.switch, Tri.crossP, V3.cross] <;> ring

theorem Spec.SideOf.sign {R h : ℝ} {u : V3} {τ : Tri} (hf : Spec.SideOf R h u τ) : 0 < V3.dot τ.crossP (τ.P0 - ⟨0, 0, h⟩) * V3.dot u τ.crossP := by
  obtain ⟨⟨a0, a1, a2⟩, s0, s1, s2, u0, u1, u2, us⟩ := hf
  have sh : ∀ p q : V3, (p - ⟨0, 0, h⟩) - (q - ⟨0, 0, h⟩) = p - q := by
    intro p q; ext <;> simp
  have on : ∀ p : V3, Spec.OnSphere R h p → V3.dot (p - ⟨0, 0, h⟩) (p - ⟨0, 0, h⟩) = R ^ 2 := by
    intro p hp; rw [← hp]; unfold V3.dot; simp; ring
  have := acute_side R (τ.P0 - ⟨0, 0, h⟩) (τ.P1 - ⟨0, 0, h⟩) (τ.P2 - ⟨0, 0, h⟩) u (on _ s0) (on _ s1) (on _ s2) (by rw [sh, sh]; exact a0) (by rw [sh, sh]; exact a1) (by rw [sh, sh]; exact a2) u0 u1 u2 us
  rw [sh, sh] at this
  exact this

theorem mid_switch (f : HFacet) : f.switch.tri.mid = f.tri.mid := by
  ext <;> simp [HFacet.switch, Tri.mid] <;> ring

theorem switchXY_or (d : ℝ) (c : V3 → ℝ) (m : V3) (f : HFacet) : switchXY d c m f = f ∨ switchXY d c m f = f.switch := by
  unfold switchXY; split_ifs
  · exact Or.inr rfl
  · exact Or.inl rfl

theorem switch_switch (f : HFacet) : f.switch.switch = f := rfl

theorem or_switch {f g k : HFacet} (h : g = f ∨ g = f.switch) (h' : k = g ∨ k = g.switch) : k = f ∨ k = f.switch := by
  rcases h with rfl | rfl <;> rcases h' with rfl | rfl
  · exact Or.inl rfl
  · exact Or.inr rfl
  · exact Or.inr rfl
  · exact Or.inl (switch_switch f)

theorem ite_or {P : Prop} [Decidable P] {f : HFacet} : (if P then f.switch else f) = f ∨ (if P then f.switch else f) = f.switch := by
  split_ifs
  · exact Or.inr rfl
  · exact Or.inl rfl

theorem orientFront_or (h : ℝ) (b : Bool) (f : HFacet) : orientFront h b f = f ∨ orientFront h b f = f.switch := by
  unfold orientFront
  cases b
  · exact or_switch ite_or ite_or
  · exact or_switch (or_switch (or_switch (switchXY_or 1 V3.x f.tri.mid f) (switchXY_or 1 V3.y f.tri.mid _)) ite_or) ite_or

theorem orientRear_or (h : ℝ) (f : HFacet) : orientRear h f = f ∨ orientRear h f = f.switch := by
  unfold orientRear
  exact or_switch (or_switch (or_switch (switchXY_or (-1) V3.x f.tri.mid f) (switchXY_or (-1) V3.y f.tri.mid _)) ite_or) ite_or

theorem crossP_switch_z (f : HFacet) : f.switch.tri.crossP.z = -f.tri.crossP.z := by rw [switch_crossP]; simp
theorem crossP_switch_y (f : HFacet) : f.switch.tri.crossP.y = -f.tri.crossP.y := by rw [switch_crossP]; simp

theorem orientFront_above (h : ℝ) (b : Bool) (f : HFacet) (h1 : f.tri.mid.z > 103 / 100 * h) (h2 : ¬f.tri.mid.z < 97 / 100 * h) : 0 ≤ (orientFront h b f).tri.crossP.z := by
  unfold orientFront
  extract_lets m f1 f2 N f3
  rw [if_neg (fun h => h2 h.1)]
  by_cases hN : N.z < 0
  · have : f3 = f2.switch := if_pos ⟨h1, hN⟩
    rw [this, crossP_switch_z]
    have : f2.tri.crossP.z < 0 := hN
    linarith
  · have : f3 = f2 := if_neg (fun h => hN h.2)
    rw [this]
    exact not_lt.mp hN

theorem orientFront_below (h : ℝ) (b : Bool) (f : HFacet) (h1 : ¬f.tri.mid.z > 103 / 100 * h) (h2 : f.tri.mid.z < 97 / 100 * h) : (orientFront h b f).tri.crossP.z ≤ 0 := by
  unfold orientFront
  extract_lets m f1 f2 N f3
  have h3 : f3 = f2 := if_neg (fun h => h1 h.1)
  rw [h3]
  by_cases hN : N.z > 0
  · rw [if_pos ⟨h2, hN⟩, crossP_switch_z]
    have : f2.tri.crossP.z > 0 := hN
    linarith
  · rw [if_neg (fun h => hN h.2)]
    exact not_lt.mp hN

theorem switchXY_y (d : ℝ) (m : V3) (f : HFacet) (hN : f.tri.crossP.y ≠ 0) (hm : d * m.y ≠ 0) : 0 < d * m.y * (switchXY d V3.y m f).tri.crossP.y := by
  unfold switchXY
  rcases lt_or_gt_of_ne hN with hN | hN <;> rcases lt_or_gt_of_ne hm with hm | hm
  · rw [if_neg (by rw [sign_neg hN, sign_neg hm]; simp)]; exact mul_pos_of_neg_of_neg hm hN
  · rw [if_pos (by rw [sign_neg hN, sign_pos hm]; decide), crossP_switch_y]; exact mul_pos hm (by linarith)
  · rw [if_pos (by rw [sign_pos hN, sign_neg hm]; decide), crossP_switch_y]; exact mul_pos_of_neg_of_neg hm (by linarith)
  · rw [if_neg (by rw [sign_pos hN, sign_pos hm]; simp)]; exact mul_pos hm hN

theorem orientFront_mid (h : ℝ) (f : HFacet) (h1 : ¬f.tri.mid.z > 103 / 100 * h) (h2 : ¬f.tri.mid.z < 97 / 100 * h) (hN : f.tri.crossP.y ≠ 0) (hm : f.tri.mid.y ≠ 0) :
    0 < f.tri.mid.y * (orientFront h true f).tri.crossP.y := by
  unfold orientFront
  extract_lets m f1 f2 N f3
  have h3 : f3 = f2 := if_neg (fun h => h1 h.1)
  rw [if_neg (fun h => h2 h.1), h3]
  have h4 : f1.tri.crossP.y ≠ 0 := by
    rcases switchXY_or 1 V3.x m f with e | e
    · rw [show f1 = f from e]; exact hN
    · rw [show f1 = f.switch from e, crossP_switch_y]; exact neg_ne_zero.mpr hN
  have := switchXY_y 1 m f1 h4 (by rw [one_mul]; exact hm)
  rw [one_mul] at this
  exact this

theorem orientRear_above (h : ℝ) (f : HFacet) (h1 : f.tri.mid.z > -(97 / 100) * h) (h2 : ¬f.tri.mid.z < -(103 / 100) * h) : (orientRear h f).tri.crossP.z ≤ 0 := by
  unfold orientRear
  extract_lets m f1 f2 N f3
  rw [if_neg (fun h => h2 h.1)]
  by_cases hN : N.z > 0
  · have : f3 = f2.switch := if_pos ⟨h1, hN⟩
    rw [this, crossP_switch_z]
    have : f2.tri.crossP.z > 0 := hN
    linarith
  · have : f3 = f2 := if_neg (fun h => hN h.2)
    rw [this]
    exact not_lt.mp hN

theorem orientRear_below (h : ℝ) (f : HFacet) (h1 : ¬f.tri.mid.z > -(97 / 100) * h) (h2 : f.tri.mid.z < -(103 / 100) * h) : 0 ≤ (orientRear h f).tri.crossP.z := by
  unfold orientRear
  extract_lets m f1 f2 N f3
  have h3 : f3 = f2 := if_neg (fun h => h1 h.1)
  rw [h3]
  by_cases hN : N.z < 0
  · rw [if_pos ⟨h2, hN⟩, crossP_switch_z]
    have : f2.tri.crossP.z < 0 := hN
    linarith
  · rw [if_neg (fun h => hN h.2)]
    exact not_lt.mp hN

theorem orientRear_mid (h : ℝ) (f : HFacet) (h1 : ¬f.tri.mid.z > -(97 / 100) * h) (h2 : ¬f.tri.mid.z < -(103 / 100) * h) (hN : f.tri.crossP.y ≠ 0) (hm : f.tri.mid.y ≠ 0) :
    f.tri.mid.y * (orientRear h f).tri.crossP.y < 0 := by
  unfold orientRear
  extract_lets m f1 f2 N f3
  have h3 : f3 = f2 := if_neg (fun h => h1 h.1)
  rw [if_neg (fun h => h2 h.1), h3]
  have h4 : f1.tri.crossP.y ≠ 0 := by
    rcases switchXY_or (-1) V3.x m f with e | e
    · rw [show f1 = f from e]; exact hN
    · rw [show f1 = f.switch from e, crossP_switch_y]; exact neg_ne_zero.mpr hN
  have := switchXY_y (-1) m f1 h4 (by simpa using hm)
  have e : f2 = switchXY (-1) V3.y m f1 := rfl
  rw [e]
  show m.y * _ < 0
  linarith

/-- All corners are at or above (below) the height `h`, and their mean is outside the margin of 3% that the code leaves; or the mean is within the margin and all corners are on the same side of the plane `y = 0`. -/
def Spec.Decided (h : ℝ) (τ : Tri) : Prop :=
  (h ≤ τ.P0.z ∧ h ≤ τ.P1.z ∧ h ≤ τ.P2.z ∧ 103 / 100 * h < (τ.P0.z + τ.P1.z + τ.P2.z) / 3) ∨
  (τ.P0.z ≤ h ∧ τ.P1.z ≤ h ∧ τ.P2.z ≤ h ∧ (τ.P0.z + τ.P1.z + τ.P2.z) / 3 < 97 / 100 * h) ∨
  (97 / 100 * h ≤ (τ.P0.z + τ.P1.z + τ.P2.z) / 3 ∧ (τ.P0.z + τ.P1.z + τ.P2.z) / 3 ≤ 103 / 100 * h ∧
    ((0 < τ.P0.y ∧ 0 < τ.P1.y ∧ 0 < τ.P2.y) ∨ (τ.P0.y < 0 ∧ τ.P1.y < 0 ∧ τ.P2.y < 0)))

theorem Spec.Decided.switch {h : ℝ} {f : HFacet} (hf : Spec.Decided h f.tri) : Spec.Decided h f.switch.tri := by
  unfold Spec.Decided HFacet.switch at *
  simp only
  rcases hf with ⟨a, b, c, d⟩ | ⟨a, b, c, d⟩ | ⟨a, b, c⟩
  · exact Or.inl ⟨a, c, b, by linarith⟩
  · exact Or.inr (Or.inl ⟨a, c, b, by linarith⟩)
  · refine Or.inr (Or.inr ⟨by linarith, by linarith, ?_⟩)
    rcases c with ⟨x, y, z⟩ | ⟨x, y, z⟩
    · exact Or.inl ⟨x, z, y⟩
    · exact Or.inr ⟨x, z, y⟩

theorem mid_z (τ : Tri) : τ.mid.z = (τ.P0.z + τ.P1.z + τ.P2.z) / 3 := by simp [Tri.mid]; ring
theorem mid_y (τ : Tri) : τ.mid.y = (τ.P0.y + τ.P1.y + τ.P2.y) / 3 := by simp [Tri.mid]; ring

theorem pos_of_prod {a b : ℝ} (h : 0 < a * b) (hb : 0 ≤ b) : 0 < a := by
  by_contra ha; have := mul_nonpos_of_nonpos_of_nonneg (not_lt.mp ha) hb; linarith
theorem neg_of_prod {a b : ℝ} (h : 0 < a * b) (hb : b ≤ 0) : a < 0 := by
  by_contra ha; have := mul_nonpos_of_nonneg_of_nonpos (not_lt.mp ha) hb; linarith

theorem ex_side (h : ℝ) (a b c : ℝ) (τ : Tri) : ∀ p : V3, V3.dot ⟨a, b, c⟩ (p - ⟨0, 0, h⟩) = a * p.x + b * p.y + c * (p.z - h) := by
  intro p; unfold V3.dot; simp

theorem facet_outward (R h : ℝ) (b : Bool) (f : HFacet) (ha : Spec.Acute f.tri) (s0 : Spec.OnSphere R h f.tri.P0) (s1 : Spec.OnSphere R h f.tri.P1) (s2 : Spec.OnSphere R h f.tri.P2)
    (z0 : 0 ≤ f.tri.P0.z) (z1 : 0 ≤ f.tri.P1.z) (z2 : 0 ≤ f.tri.P2.z) (hd : Spec.Decided h f.tri)
    (hb : b = true ∨ (f.tri.P0.z + f.tri.P1.z + f.tri.P2.z) / 3 < 97 / 100 * h ∨ 103 / 100 * h < (f.tri.P0.z + f.tri.P1.z + f.tri.P2.z) / 3) :
    Spec.Outward h (orientFront h b f).tri := by
  have tr : ∀ u, Spec.SideOf R h u f.tri → Spec.SideOf R h u (orientFront h b f).tri := by
    intro u hu
    rcases orientFront_or h b f with e | e
    · rw [e]; exact hu
    · rw [e]; exact hu.switch
  rcases hd with ⟨a0, a1, a2, am⟩ | ⟨a0, a1, a2, am⟩ | ⟨m1, m2, hy⟩
  · have hs : Spec.SideOf R h ⟨0, 0, 1⟩ f.tri := by
      refine ⟨ha, s0, s1, s2, ?_, ?_, ?_, ?_⟩ <;> simp only [ex_side h _ _ _ f.tri] <;> [linarith; linarith; linarith; skip]
      rcases lt_or_ge h 0 with hh | hh <;> linarith
    have h3 := orientFront_above h b f (by rw [mid_z]; linarith) (by rw [mid_z]; rcases lt_or_ge h 0 with hh | hh <;> linarith)
    have h4 := (tr _ hs).sign
    refine pos_of_prod h4 ?_
    unfold V3.dot; simpa using h3
  · have hs : Spec.SideOf R h ⟨0, 0, -1⟩ f.tri := by
      refine ⟨ha, s0, s1, s2, ?_, ?_, ?_, ?_⟩ <;> simp only [ex_side h _ _ _ f.tri] <;> linarith
    have h3 := orientFront_below h b f (by rw [mid_z]; linarith) (by rw [mid_z]; linarith)
    have h4 := (tr _ hs).sign
    refine pos_of_prod h4 ?_
    unfold V3.dot; simpa using h3
  · obtain rfl : b = true := by
      rcases hb with hb | hb | hb
      · exact hb
      · linarith
      · linarith
    rcases hy with ⟨y0, y1, y2⟩ | ⟨y0, y1, y2⟩
    · have hs : Spec.SideOf R h ⟨0, 1, 0⟩ f.tri := by
        refine ⟨ha, s0, s1, s2, ?_, ?_, ?_, ?_⟩ <;> simp only [ex_side h _ _ _ f.tri] <;> linarith
      have hn : f.tri.crossP.y ≠ 0 := by
        intro e; have := hs.sign; unfold V3.dot at this; simp [e] at this
      have h3 := orientFront_mid h f (by rw [mid_z]; linarith) (by rw [mid_z]; linarith) hn (by rw [mid_y]; linarith)
      refine pos_of_prod (tr _ hs).sign ?_
      have : 0 < (orientFront h true f).tri.crossP.y := pos_of_prod (by rw [mul_comm]; exact h3) (by rw [mid_y]; linarith)
      unfold V3.dot; simpa using this.le
    · have hs : Spec.SideOf R h ⟨0, -1, 0⟩ f.tri := by
        refine ⟨ha, s0, s1, s2, ?_, ?_, ?_, ?_⟩ <;> simp only [ex_side h _ _ _ f.tri] <;> linarith
      have hn : f.tri.crossP.y ≠ 0 := by
        intro e; have := hs.sign; unfold V3.dot at this; simp [e] at this
      have h3 := orientFront_mid h f (by rw [mid_z]; linarith) (by rw [mid_z]; linarith) hn (by rw [mid_y]; intro e; linarith)
      refine pos_of_prod (tr _ hs).sign ?_
      have : (orientFront h true f).tri.crossP.y < 0 := neg_of_prod (by rw [mul_comm]; exact h3) (by rw [mid_y]; linarith)
      unfold V3.dot; simpa using this.le

/-- Mirror image in the plane `z = 0`. -/
def Spec.mirror (p : V3) : V3 := ⟨p.x, p.y, -p.z⟩

theorem facet_inward (R h : ℝ) (f : HFacet) (ha : Spec.Acute f.tri) (s0 : Spec.OnSphere R (-h) f.tri.P0) (s1 : Spec.OnSphere R (-h) f.tri.P1) (s2 : Spec.OnSphere R (-h) f.tri.P2)
    (z0 : f.tri.P0.z ≤ 0) (z1 : f.tri.P1.z ≤ 0) (z2 : f.tri.P2.z ≤ 0) (hd : Spec.Decided h ⟨Spec.mirror f.tri.P0, Spec.mirror f.tri.P1, Spec.mirror f.tri.P2⟩) :
    Spec.Inward (-h) (orientRear h f).tri := by
  have tr : ∀ u, Spec.SideOf R (-h) u f.tri → Spec.SideOf R (-h) u (orientRear h f).tri := by
    intro u hu
    rcases orientRear_or h f with e | e
    · rw [e]; exact hu
    · rw [e]; exact hu.switch
  unfold Spec.Decided Spec.mirror at hd
  simp only at hd
  rcases hd with ⟨a0, a1, a2, am⟩ | ⟨a0, a1, a2, am⟩ | ⟨m1, m2, hy⟩
  · have hs : Spec.SideOf R (-h) ⟨0, 0, -1⟩ f.tri := by
      refine ⟨ha, s0, s1, s2, ?_, ?_, ?_, ?_⟩ <;> simp only [ex_side (-h) _ _ _ f.tri] <;> [linarith; linarith; linarith; skip]
      rcases lt_or_ge h 0 with hh | hh <;> linarith
    have h3 := orientRear_below h f (by rw [mid_z]; rcases lt_or_ge h 0 with hh | hh <;> linarith) (by rw [mid_z]; linarith)
    refine neg_of_prod (tr _ hs).sign ?_
    unfold V3.dot; simpa using h3
  · have hs : Spec.SideOf R (-h) ⟨0, 0, 1⟩ f.tri := by
      refine ⟨ha, s0, s1, s2, ?_, ?_, ?_, ?_⟩ <;> simp only [ex_side (-h) _ _ _ f.tri] <;> linarith
    have h3 := orientRear_above h f (by rw [mid_z]; linarith) (by rw [mid_z]; linarith)
    refine neg_of_prod (tr _ hs).sign ?_
    unfold V3.dot; simpa using h3
  · rcases hy with ⟨y0, y1, y2⟩ | ⟨y0, y1, y2⟩
    · have hs : Spec.SideOf R (-h) ⟨0, 1, 0⟩ f.tri := by
        refine ⟨ha, s0, s1, s2, ?_, ?_, ?_, ?_⟩ <;> simp only [ex_side (-h) _ _ _ f.tri] <;> linarith
      have hn : f.tri.crossP.y ≠ 0 := by
        intro e; have := hs.sign; unfold V3.dot at this; simp [e] at this
      have h3 := orientRear_mid h f (by rw [mid_z]; linarith) (by rw [mid_z]; linarith) hn (by rw [mid_y]; linarith)
      refine neg_of_prod (tr _ hs).sign ?_
      have : (orientRear h f).tri.crossP.y < 0 := by
        have e : 0 < f.tri.mid.y := by rw [mid_y]; linarith
        by_contra hc; have := mul_nonneg e.le (not_lt.mp hc); linarith
      unfold V3.dot; simpa using this.le
    · have hs : Spec.SideOf R (-h) ⟨0, -1, 0⟩ f.tri := by
        refine ⟨ha, s0, s1, s2, ?_, ?_, ?_, ?_⟩ <;> simp only [ex_side (-h) _ _ _ f.tri] <;> linarith
      have hn : f.tri.crossP.y ≠ 0 := by
        intro e; have := hs.sign; unfold V3.dot at this; simp [e] at this
      have h3 := orientRear_mid h f (by rw [mid_z]; linarith) (by rw [mid_z]; linarith) hn (by rw [mid_y]; intro e; linarith)
      refine neg_of_prod (tr _ hs).sign ?_
      have : 0 < (orientRear h f).tri.crossP.y := by
        have e : f.tri.mid.y < 0 := by rw [mid_y]; linarith
        by_contra hc; have := mul_nonneg_of_nonpos_of_nonpos e.le (not_lt.mp hc); linarith
      unfold V3.dot; simpa using this.le

/-! ## The surfaces -/

/-- The indices the hull returns are indices of points. -/
def Spec.HullOk (n : ℕ) (hull : List (ℕ × ℕ × ℕ)) : Prop := ∀ s ∈ hull, s.1 < n ∧ s.2.1 < n ∧ s.2.2 < n

theorem hullFacets_points {P : V3 → Prop} {pts : List V3} {hull : List (ℕ × ℕ × ℕ)} (hh : Spec.HullOk pts.length hull) (hp : ∀ p ∈ pts, P p) {f : HFacet} (hf : f ∈ hullFacets pts hull) :
    P f.tri.P0 ∧ P f.tri.P1 ∧ P f.tri.P2 := by
  obtain ⟨s, hs, rfl⟩ := List.mem_map.mp hf
  obtain ⟨h0, h1, h2⟩ := hh s hs
  refine ⟨?_, ?_, ?_⟩ <;> simp only [List.getD_eq_getElem?_getD]
  · rw [List.getElem?_eq_getElem h0]; exact hp _ (List.getElem_mem h0)
  · rw [List.getElem?_eq_getElem h1]; exact hp _ (List.getElem_mem h1)
  · rw [List.getElem?_eq_getElem h2]; exact hp _ (List.getElem_mem h2)

theorem hyperFront_mem {N : ℕ} {R h : ℝ} {hull hullBack : List (ℕ × ℕ × ℕ)} {fs : List HFacet} (hfs : hyperFront N R h hull hullBack = some fs) {f : HFacet} (hf : f ∈ fs) :
    ∃ g ∈ hullFacets (hyperPoints N R h) hull, bottomPlanar R g = false ∧ ∃ b, f = orientFront h b g ∧ (fs.length = (hyperRear N R h hullBack).length → b = true) := by
  unfold hyperFront at hfs
  simp only at hfs
  split_ifs at hfs with hl
  simp only [Option.some.injEq] at hfs
  subst hfs
  obtain ⟨i, hi, rfl⟩ := List.mem_mapIdx.mp hf
  have hm := List.getElem_mem (l := (hullFacets (hyperPoints N R h) hull).filter fun f => !bottomPlanar R f) hi
  rw [List.mem_filter] at hm
  refine ⟨_, hm.1, by simpa using hm.2, _, rfl, fun he => ?_⟩
  rw [List.length_mapIdx] at he
  unfold hyperRear at he
  rw [List.length_map] at he
  rw [decide_eq_true_eq, ← he]
  exact hi

theorem acute_switch {f : HFacet} (h : Spec.Acute f.switch.tri) : Spec.Acute f.tri := by
  obtain ⟨a0, a1, a2⟩ := h
  refine ⟨?_, a2, a1⟩
  rw [dot_comm']; exact a0

/-- **C122, orientation.** Front surface: every acute facet whose position decides the orientation (all corners above the centre of the sphere, all below it, or within the margin all with positive or all with
negative `y`) is oriented outwards. (For facets within the margin of 3% around the centre: if both surfaces have the same number of facets.) -/
theorem C122_outward_partial (N : ℕ) (R h : ℝ) (hull hullBack : List (ℕ × ℕ × ℕ)) (hh : Spec.HullOk (hyperPoints N R h).length hull) (fs : List HFacet)
    (hfs : hyperFront N R h hull hullBack = some fs) (f : HFacet) (hf : f ∈ fs) (ha : Spec.Acute f.tri) (hd : Spec.Decided h f.tri)
    (hb : fs.length = (hyperRear N R h hullBack).length ∨ (f.tri.P0.z + f.tri.P1.z + f.tri.P2.z) / 3 < 97 / 100 * h ∨ 103 / 100 * h < (f.tri.P0.z + f.tri.P1.z + f.tri.P2.z) / 3) :
    Spec.Outward h f.tri := by
  obtain ⟨g, hg, -, b, rfl, hbt⟩ := hyperFront_mem hfs hf
  obtain ⟨⟨s0, z0⟩, ⟨s1, z1⟩, ⟨s2, z2⟩⟩ := hullFacets_points hh (C122_points N R h).1 hg
  have key : Spec.Acute g.tri ∧ Spec.Decided h g.tri ∧ ((orientFront h b g).tri.P0.z + (orientFront h b g).tri.P1.z + (orientFront h b g).tri.P2.z) / 3 = (g.tri.P0.z + g.tri.P1.z + g.tri.P2.z) / 3 := by
    rcases orientFront_or h b g with e | e
    · rw [e] at ha hd ⊢; exact ⟨ha, hd, rfl⟩
    · rw [e] at ha hd ⊢
      refine ⟨acute_switch ha, ?_, ?_⟩
      · have := hd.switch; rwa [switch_switch] at this
      · simp only [HFacet.switch]; ring
  rw [key.2.2] at hb
  exact facet_outward R h b g key.1 s0 s1 s2 z0 z1 z2 key.2.1 (hb.imp_left hbt)

/-- **C122, orientation.** Rear surface: every acute facet whose position decides the orientation is oriented inwards. -/
theorem C122_inward_partial (N : ℕ) (R h : ℝ) (hullBack : List (ℕ × ℕ × ℕ)) (hh : Spec.HullOk (hyperPoints N R h).length hullBack) (f : HFacet) (hf : f ∈ hyperRear N R h hullBack)
    (ha : Spec.Acute f.tri) (hd : Spec.Decided h ⟨Spec.mirror f.tri.P0, Spec.mirror f.tri.P1, Spec.mirror f.tri.P2⟩) : Spec.Inward (-h) f.tri := by
  unfold hyperRear at hf
  obtain ⟨g, hg, rfl⟩ := List.mem_map.mp hf
  have hg := (List.mem_filter.mp hg).1
  have hl : (mirrorPoints (hyperPoints N R h)).length = (hyperPoints N R h).length := by simp [mirrorPoints]
  obtain ⟨⟨s0, z0⟩, ⟨s1, z1⟩, ⟨s2, z2⟩⟩ := hullFacets_points (by rw [hl]; exact hh) (C122_points N R h).2.2 hg
  have key : Spec.Acute g.tri ∧ Spec.Decided h ⟨Spec.mirror g.tri.P0, Spec.mirror g.tri.P1, Spec.mirror g.tri.P2⟩ := by
    rcases orientRear_or h g with e | e
    · rw [e] at ha hd; exact ⟨ha, hd⟩
    · rw [e] at ha hd
      refine ⟨acute_switch ha, ?_⟩
      exact Spec.Decided.switch (f := ⟨(0, 0, 0), ⟨Spec.mirror g.tri.P0, Spec.mirror g.tri.P2, Spec.mirror g.tri.P1⟩⟩) hd
  exact facet_inward R h g key.1 s0 s1 s2 z0 z1 z2 key.2

/-- **C122, facets.** Every facet of the returned surfaces is a facet of the hull with corners in the same or in the opposite sense, its corner coordinates are those of the points with its indices, and every facet of the hull is
there unless all its corners are below `0.1 * radius` (rear: above `-0.1 * radius`) and its normal is within `arccos 0.9` of the vertical. -/
theorem C122_facets (N : ℕ) (R h : ℝ) (hull hullBack : List (ℕ × ℕ × ℕ)) (fs : List HFacet) (hfs : hyperFront N R h hull hullBack = some fs) :
    (∀ f ∈ fs, ∃ s ∈ hull, (f.s = s ∨ f.s = (s.1, s.2.2, s.2.1)) ∧
      f.tri = ⟨(hyperPoints N R h).getD f.s.1 0, (hyperPoints N R h).getD f.s.2.1 0, (hyperPoints N R h).getD f.s.2.2 0⟩) ∧
    (∀ s ∈ hull, (∃ f ∈ fs, f.s = s ∨ f.s = (s.1, s.2.2, s.2.1)) ∨
      let τ : Tri := ⟨(hyperPoints N R h).getD s.1 0, (hyperPoints N R h).getD s.2.1 0, (hyperPoints N R h).getD s.2.2 0⟩
      9 / 10 < |τ.N.z| ∧ τ.P0.z < 1 / 10 * R ∧ τ.P1.z < 1 / 10 * R ∧ τ.P2.z < 1 / 10 * R) ∧
    (∀ f ∈ hyperRear N R h hullBack, ∃ s ∈ hullBack, (f.s = s ∨ f.s = (s.1, s.2.2, s.2.1)) ∧
      f.tri = ⟨(mirrorPoints (hyperPoints N R h)).getD f.s.1 0, (mirrorPoints (hyperPoints N R h)).getD f.s.2.1 0, (mirrorPoints (hyperPoints N R h)).getD f.s.2.2 0⟩) ∧
    (∀ s ∈ hullBack, (∃ f ∈ hyperRear N R h hullBack, f.s = s ∨ f.s = (s.1, s.2.2, s.2.1)) ∨
      let τ : Tri := ⟨(mirrorPoints (hyperPoints N R h)).getD s.1 0, (mirrorPoints (hyperPoints N R h)).getD s.2.1 0, (mirrorPoints (hyperPoints N R h)).getD s.2.2 0⟩
      9 / 10 < |τ.N.z| ∧ -(1 / 10) * R < τ.P0.z ∧ -(1 / 10) * R < τ.P1.z ∧ -(1 / 10) * R < τ.P2.z) := by
  have sw : ∀ (pts : List V3) (hl : List (ℕ × ℕ × ℕ)) (g f : HFacet), g ∈ hullFacets pts hl → (f = g ∨ f = g.switch) →
      ∃ s ∈ hl, (f.s = s ∨ f.s = (s.1, s.2.2, s.2.1)) ∧ f.tri = ⟨pts.getD f.s.1 0, pts.getD f.s.2.1 0, pts.getD f.s.2.2 0⟩ := by
    intro pts hl g f hg hfg
    obtain ⟨s, hs, rfl⟩ := List.mem_map.mp hg
    refine ⟨s, hs, ?_⟩
    rcases hfg with rfl | rfl
    · exact ⟨Or.inl rfl, rfl⟩
    · exact ⟨Or.inr rfl, rfl⟩
  refine ⟨?_, ?_, ?_, ?_⟩
  · intro f hf
    obtain ⟨g, hg, -, b, rfl, -⟩ := hyperFront_mem hfs hf
    exact sw _ _ g _ hg (orientFront_or h b g)
  · intro s hs
    set g : HFacet := ⟨s, ⟨(hyperPoints N R h).getD s.1 0, (hyperPoints N R h).getD s.2.1 0, (hyperPoints N R h).getD s.2.2 0⟩⟩ with hg
    cases hb : bottomPlanar R g
    · left
      have hm : g ∈ (hullFacets (hyperPoints N R h) hull).filter fun f => !bottomPlanar R f := by
        rw [List.mem_filter]; exact ⟨List.mem_map.mpr ⟨s, hs, rfl⟩, by simp [hb]⟩
      obtain ⟨i, hi, he⟩ := List.mem_iff_getElem.mp hm
      unfold hyperFront at hfs
      simp only at hfs
      split_ifs at hfs with hl
      simp only [Option.some.injEq] at hfs
      subst hfs
      refine ⟨_, List.mem_mapIdx.mpr ⟨i, hi, rfl⟩, ?_⟩
      rw [he]
      rcases orientFront_or h (decide (i < ((hullFacets (mirrorPoints (hyperPoints N R h)) hullBack).filter fun f => !topPlanar R f).length)) g with e | e
      · rw [e]; exact Or.inl rfl
      · rw [e]; exact Or.inr rfl
    · right
      unfold bottomPlanar at hb
      simp only [Bool.and_eq_true, decide_eq_true_eq] at hb
      exact ⟨hb.1, hb.2.1.1, hb.2.1.2, hb.2.2⟩
  · intro f hf
    obtain ⟨g, hg, rfl⟩ := List.mem_map.mp hf
    exact sw _ _ g _ (List.mem_filter.mp hg).1 (orientRear_or h g)
  · intro s hs
    set g : HFacet := ⟨s, ⟨(mirrorPoints (hyperPoints N R h)).getD s.1 0, (mirrorPoints (hyperPoints N R h)).getD s.2.1 0, (mirrorPoints (hyperPoints N R h)).getD s.2.2 0⟩⟩ with hg
    cases hb : topPlanar R g
    · left
      refine ⟨orientRear h g, List.mem_map.mpr ⟨g, List.mem_filter.mpr ⟨List.mem_map.mpr ⟨s, hs, rfl⟩, by simp [hb]⟩, rfl⟩, ?_⟩
      rcases orientRear_or h g with e | e
      · rw [e]; exact Or.inl rfl
      · rw [e]; exact Or.inr rfl
    · right
      unfold topPlanar at hb
      simp only [Bool.and_eq_true, decide_eq_true_eq] at hb
      exact ⟨hb.1, hb.2.1.1, hb.2.1.2, hb.2.2⟩

theorem N_z (τ : Tri) : |τ.N.z| = |τ.crossP.z| / Real.sqrt (V3.dot τ.crossP τ.crossP) := by
  unfold Tri.N V3.norm
  rw [V3.smul_z, abs_mul, abs_of_nonneg (by positivity)]
  ring

/-- **C122, open bottom.** No facet with area in the plane `z = 0` is left in the front surface. -/
theorem C122_open (N : ℕ) (R h : ℝ) (hR : 0 < R) (hull hullBack : List (ℕ × ℕ × ℕ)) (fs : List HFacet) (hfs : hyperFront N R h hull hullBack = some fs) (f : HFacet) (hf : f ∈ fs)
    (hz : f.tri.P0.z = 0 ∧ f.tri.P1.z = 0 ∧ f.tri.P2.z = 0) : f.tri.crossP = 0 := by
  obtain ⟨g, hg, hb, b, rfl, -⟩ := hyperFront_mem hfs hf
  have hz' : g.tri.P0.z = 0 ∧ g.tri.P1.z = 0 ∧ g.tri.P2.z = 0 := by
    rcases orientFront_or h b g with e | e <;> rw [e] at hz
    · exact hz
    · exact ⟨hz.1, hz.2.2, hz.2.1⟩
  have hx : g.tri.crossP.x = 0 := by simp [Tri.crossP, V3.cross, hz'.1, hz'.2.1, hz'.2.2]
  have hy : g.tri.crossP.y = 0 := by simp [Tri.crossP, V3.cross, hz'.1, hz'.2.1, hz'.2.2]
  have hc : g.tri.crossP.z = 0 := by
    by_contra hn
    have h1 : |g.tri.N.z| = 1 := by
      rw [N_z]
      have : V3.dot g.tri.crossP g.tri.crossP = g.tri.crossP.z ^ 2 := by unfold V3.dot; rw [hx, hy]; ring
      rw [this, Real.sqrt_sq_eq_abs]
      exact div_self (abs_ne_zero.mpr hn)
    have : bottomPlanar R g = true := by
      unfold bottomPlanar
      simp only [Bool.and_eq_true, decide_eq_true_eq]
      rw [h1, hz'.1, hz'.2.1, hz'.2.2]
      refine ⟨by norm_num, ⟨?_, ?_⟩, ?_⟩ <;> linarith
    rw [hb] at this
    cases this
  have hcr : g.tri.crossP = 0 := by ext <;> simp [hx, hy, hc]
  rcases orientFront_or h b g with e | e <;> rw [e]
  · exact hcr
  · rw [switch_crossP, hcr]; ext <;> simp

/-- An acute facet on the sphere whose corners are all at least `k` above (or below) the centre has a normal with vertical component at least `k / R`. -/
theorem steep (R h k : ℝ) (hR : 0 < R) (hk : 0 ≤ k) (e : ℝ) (he : e = 1 ∨ e = -1) (τ : Tri) (ha : Spec.Acute τ) (s0 : Spec.OnSphere R h τ.P0) (s1 : Spec.OnSphere R h τ.P1) (s2 : Spec.OnSphere R h τ.P2)
    (z0 : k < e * (τ.P0.z - h)) (z1 : k < e * (τ.P1.z - h)) (z2 : k < e * (τ.P2.z - h)) : k < R * |τ.N.z| := by
  obtain ⟨a0, a1, a2⟩ := ha
  have sh : ∀ p q : V3, (p - ⟨0, 0, h⟩) - (q - ⟨0, 0, h⟩) = p - q := by
    intro p q; ext <;> simp
  have on : ∀ p : V3, Spec.OnSphere R h p → V3.dot (p - ⟨0, 0, h⟩) (p - ⟨0, 0, h⟩) = R ^ 2 := by
    intro p hp; rw [← hp]; unfold V3.dot; simp; ring
  obtain ⟨w0, w1, w2, p0, p1, p2, hn, hE⟩ := acute_frame R (τ.P0 - ⟨0, 0, h⟩) (τ.P1 - ⟨0, 0, h⟩) (τ.P2 - ⟨0, 0, h⟩) ⟨0, 0, e⟩ (on _ s0) (on _ s1) (on _ s2) (by rw [sh, sh]; exact a0) (by rw [sh, sh]; exact a1) (by rw [sh, sh]; exact a2)
  rw [sh, sh] at hn hE
  have hcp : V3.cross (τ.P1 - τ.P0) (τ.P2 - τ.P0) = τ.crossP := rfl
  rw [hcp] at hn hE
  simp only [ex_side h _ _ _ τ, zero_mul, zero_add] at hE
  have hu : V3.dot ⟨0, 0, e⟩ τ.crossP = e * τ.crossP.z := by unfold V3.dot; simp
  rw [hu] at hE
  set n := τ.crossP
  set W := w0 + w1 + w2 with hW
  have hWp : 0 < W := by linarith
  have h1 : k * W < w0 * (e * (τ.P0.z - h)) + w1 * (e * (τ.P1.z - h)) + w2 * (e * (τ.P2.z - h)) := by
    have := mul_lt_mul_of_pos_left z0 p0
    have := mul_lt_mul_of_pos_left z1 p1
    have := mul_lt_mul_of_pos_left z2 p2
    rw [hW]; linarith
  have h2 : V3.dot n n * (k * W) < W * V3.dot n (τ.P0 - ⟨0, 0, h⟩) * (e * n.z) := by
    rw [show V3.dot n (τ.P0 - ⟨0, 0, h⟩) = n.x * τ.P0.x + n.y * τ.P0.y + n.z * (τ.P0.z - h) from ex_side h n.x n.y n.z τ τ.P0, ← hE]
    exact mul_lt_mul_of_pos_left h1 hn
  have h3 : V3.dot n n * k < V3.dot n (τ.P0 - ⟨0, 0, h⟩) * (e * n.z) := by
    have : W * (V3.dot n n * k) < W * (V3.dot n (τ.P0 - ⟨0, 0, h⟩) * (e * n.z)) := by linarith
    exact lt_of_mul_lt_mul_left this hWp.le
  have h4 : |V3.dot n (τ.P0 - ⟨0, 0, h⟩)| ≤ Real.sqrt (V3.dot n n) * R := by
    rw [← Real.sqrt_sq hR.le, ← Real.sqrt_mul hn.le, ← on _ s0, ← Real.sqrt_sq_eq_abs]
    refine Real.sqrt_le_sqrt ?_
    have := lagrange n (τ.P0 - ⟨0, 0, h⟩)
    have hp : 0 ≤ V3.dot (V3.cross n (τ.P0 - ⟨0, 0, h⟩)) (V3.cross n (τ.P0 - ⟨0, 0, h⟩)) := by
      unfold V3.dot; nlinarith [mul_self_nonneg (V3.cross n (τ.P0 - ⟨0, 0, h⟩)).x, mul_self_nonneg (V3.cross n (τ.P0 - ⟨0, 0, h⟩)).y, mul_self_nonneg (V3.cross n (τ.P0 - ⟨0, 0, h⟩)).z]
    nlinarith
  have h5 : |e * n.z| = |n.z| := by
    rcases he with rfl | rfl <;> simp
  have hs : 0 < Real.sqrt (V3.dot n n) := Real.sqrt_pos.mpr hn
  have h6 : V3.dot n n * k < Real.sqrt (V3.dot n n) * R * |n.z| := by
    calc _ < _ := h3
      _ ≤ |V3.dot n (τ.P0 - ⟨0, 0, h⟩) * (e * n.z)| := le_abs_self _
      _ = |V3.dot n (τ.P0 - ⟨0, 0, h⟩)| * |n.z| := by rw [abs_mul, h5]
      _ ≤ _ := mul_le_mul_of_nonneg_right h4 (abs_nonneg _)
  rw [N_z]
  have h7 : Real.sqrt (V3.dot n n) * Real.sqrt (V3.dot n n) = V3.dot n n := Real.mul_self_sqrt hn.le
  have h8 : Real.sqrt (V3.dot n n) * k < R * |n.z| := by
    refine lt_of_mul_lt_mul_left (a := Real.sqrt (V3.dot n n)) ?_ hs.le
    calc _ = Real.sqrt (V3.dot n n) * Real.sqrt (V3.dot n n) * k := by ring
      _ < _ := by rw [h7]; exact h6
      _ = _ := by ring
  rw [← mul_div_assoc, lt_div_iff₀ hs]
  linarith

theorem kept_not_steep (N : ℕ) (R h : ℝ) (hR : 0 < R) (hull hullBack : List (ℕ × ℕ × ℕ)) (hh : Spec.HullOk (hyperPoints N R h).length hull) (fs : List HFacet) (hfs : hyperFront N R h hull hullBack = some fs)
    (f : HFacet) (hf : f ∈ fs) (ha : Spec.Acute f.tri) (hz : f.tri.P0.z < 1 / 10 * R ∧ f.tri.P1.z < 1 / 10 * R ∧ f.tri.P2.z < 1 / 10 * R) (e : ℝ) (he : e = 1 ∨ e = -1) :
    ¬(9 / 10 * R < e * (f.tri.P0.z - h) ∧ 9 / 10 * R < e * (f.tri.P1.z - h) ∧ 9 / 10 * R < e * (f.tri.P2.z - h)) := by
  rintro ⟨k0, k1, k2⟩
  obtain ⟨g, hg, hb, b, rfl, -⟩ := hyperFront_mem hfs hf
  obtain ⟨⟨s0, -⟩, ⟨s1, -⟩, ⟨s2, -⟩⟩ := hullFacets_points hh (C122_points N R h).1 hg
  have key : Spec.Acute g.tri ∧ (g.tri.P0.z < 1 / 10 * R ∧ g.tri.P1.z < 1 / 10 * R ∧ g.tri.P2.z < 1 / 10 * R) ∧
      (9 / 10 * R < e * (g.tri.P0.z - h) ∧ 9 / 10 * R < e * (g.tri.P1.z - h) ∧ 9 / 10 * R < e * (g.tri.P2.z - h)) := by
    rcases orientFront_or h b g with E | E <;> rw [E] at ha hz k0 k1 k2
    · exact ⟨ha, hz, k0, k1, k2⟩
    · exact ⟨acute_switch ha, ⟨hz.1, hz.2.2, hz.2.1⟩, k0, k2, k1⟩
  obtain ⟨ga, gz, g0, g1, g2⟩ := key
  have := steep R h (9 / 10 * R) hR (by positivity) e he g.tri ga s0 s1 s2 g0 g1 g2
  have hN : 9 / 10 < |g.tri.N.z| := by
    rw [mul_comm] at this
    exact lt_of_mul_lt_mul_left this hR.le
  have : bottomPlanar R g = true := by
    unfold bottomPlanar
    simp only [Bool.and_eq_true, decide_eq_true_eq]
    exact ⟨hN, ⟨gz.1, gz.2.1⟩, gz.2.2⟩
  rw [hb] at this
  cases this

/-- **C122 fails for shallow lenses.** If the centre is lowered by more than `0.9 * radius`, no acute facet of the hull is left in the front surface. -/
theorem C122_shallow_fails (N : ℕ) (R h : ℝ) (hR : 0 < R) (hh' : h < -(9 / 10) * R) (hull hullBack : List (ℕ × ℕ × ℕ)) (hh : Spec.HullOk (hyperPoints N R h).length hull) (fs : List HFacet)
    (hfs : hyperFront N R h hull hullBack = some fs) : ∀ f ∈ fs, ¬Spec.Acute f.tri := by
  intro f hf ha
  have hf' := hf
  obtain ⟨g, hg, hb, b, he, -⟩ := hyperFront_mem hfs hf
  have hp : ∀ p ∈ hyperPoints N R h, 0 ≤ p.z ∧ p.z < 1 / 10 * R := by
    intro p hp
    obtain ⟨h1, h2⟩ := (C122_points N R h).1 p hp
    unfold Spec.OnSphere at h1
    refine ⟨h2, ?_⟩
    have : (p.z - h) ^ 2 ≤ R ^ 2 := by nlinarith [sq_nonneg p.x, sq_nonneg p.y]
    have := abs_le_of_sq_le_sq this hR.le
    linarith [le_abs_self (p.z - h)]
  obtain ⟨p0, p1, p2⟩ := hullFacets_points hh hp hg
  have key : (0 ≤ f.tri.P0.z ∧ f.tri.P0.z < 1 / 10 * R) ∧ (0 ≤ f.tri.P1.z ∧ f.tri.P1.z < 1 / 10 * R) ∧ (0 ≤ f.tri.P2.z ∧ f.tri.P2.z < 1 / 10 * R) := by
    rcases orientFront_or h b g with E | E <;> rw [he, E]
    · exact ⟨p0, p1, p2⟩
    · exact ⟨p0, p2, p1⟩
  obtain ⟨q0, q1, q2⟩ := key
  refine kept_not_steep N R h hR hull hullBack hh fs hfs f hf' ha ⟨q0.2, q1.2, q2.2⟩ 1 (Or.inl rfl) ⟨?_, ?_, ?_⟩ <;> linarith [q0.1, q1.1, q2.1]

/-- **C122 fails for the whole sphere.** With `h = radius` the bottom of the sphere is missing: no acute facet with all corners below `0.1 * radius` is left in the front surface. -/
theorem C122_sphere_fails (N : ℕ) (R : ℝ) (hR : 0 < R) (hull hullBack : List (ℕ × ℕ × ℕ)) (hh : Spec.HullOk (hyperPoints N R R).length hull) (fs : List HFacet)
    (hfs : hyperFront N R R hull hullBack = some fs) (f : HFacet) (hf : f ∈ fs) (ha : Spec.Acute f.tri) : ¬(f.tri.P0.z < 1 / 10 * R ∧ f.tri.P1.z < 1 / 10 * R ∧ f.tri.P2.z < 1 / 10 * R) := by
  intro hz
  refine kept_not_steep N R R hR hull hullBack hh fs hfs f hf ha hz (-1) (Or.inr rfl) ⟨?_, ?_, ?_⟩ <;> linarith [hz.1, hz.2.1, hz.2.2]

/-- An acute facet just above the rim of a shallow lens (radius 1, `h = -0.95`). -/
example : let τ : Tri := ⟨⟨7 / 25, 0, 1 / 100⟩, ⟨-(21 / 125), 28 / 125, 1 / 100⟩, ⟨-(21 / 125), -(28 / 125), 1 / 100⟩⟩
    Spec.Acute τ ∧ Spec.OnSphere 1 (-(95 / 100)) τ.P0 ∧ Spec.OnSphere 1 (-(95 / 100)) τ.P1 ∧ Spec.OnSphere 1 (-(95 / 100)) τ.P2 ∧ (-(95 / 100) : ℝ) < -(9 / 10) * 1 := by
  refine ⟨⟨?_, ?_, ?_⟩, ?_, ?_, ?_, ?_⟩ <;> norm_num [V3.dot, Spec.OnSphere]

/-- A facet with two corners on the rim of a hemisphere and the third above the edge between them. -/
noncomputable def rimFacet : HFacet := ⟨(0, 1, 2), ⟨⟨4 / 5, 3 / 5, 0⟩, ⟨4 / 5, -(3 / 5), 0⟩, ⟨12 / 13, 0, 5 / 13⟩⟩⟩

theorem rimFacet_cross : rimFacet.tri.crossP = ⟨-(6 / 13), 0, 48 / 325⟩ := by
  ext <;> norm_num [rimFacet, Tri.crossP, V3.cross]

/-- **C122 fails at the rim.** A facet of a hemisphere with two corners on the rim and the third one close above the edge between them has an outward normal that points down. It is kept, but turned
inwards, because its centre is above the centre of the sphere. -/
theorem C122_rim_fails :
    (Spec.OnSphere 1 0 rimFacet.tri.P0 ∧ Spec.OnSphere 1 0 rimFacet.tri.P1 ∧ Spec.OnSphere 1 0 rimFacet.tri.P2) ∧ (0 ≤ rimFacet.tri.P0.z ∧ 0 ≤ rimFacet.tri.P1.z ∧ 0 ≤ rimFacet.tri.P2.z) ∧
      bottomPlanar 1 rimFacet = false ∧ ∀ b, Spec.Inward 0 (orientFront 0 b rimFacet).tri := by
  refine ⟨⟨by norm_num [rimFacet, Spec.OnSphere], by norm_num [rimFacet, Spec.OnSphere], by norm_num [rimFacet, Spec.OnSphere]⟩, ⟨by norm_num [rimFacet, Spec.OnSphere], by norm_num [rimFacet, Spec.OnSphere], by norm_num [rimFacet, Spec.OnSphere]⟩, ?_, fun b => ?_⟩
  · have : |rimFacet.tri.N.z| ≤ 9 / 10 := by
      rw [N_z, rimFacet_cross]
      have h1 : V3.dot (⟨-(6 / 13), 0, 48 / 325⟩ : V3) ⟨-(6 / 13), 0, 48 / 325⟩ = (6 / 13) ^ 2 + (48 / 325) ^ 2 := by unfold V3.dot; norm_num
      rw [h1]
      have h2 : (6 / 13 : ℝ) ≤ Real.sqrt ((6 / 13) ^ 2 + (48 / 325) ^ 2) := by
        apply Real.le_sqrt_of_sq_le; norm_num
      rw [abs_of_pos (by norm_num), div_le_iff₀ (by linarith)]
      show (48 / 325 : ℝ) ≤ _
      linarith
    unfold bottomPlanar
    rw [decide_eq_false (not_lt.mpr this)]
    rfl
  · have h1 := orientFront_above 0 b rimFacet (by rw [mid_z]; norm_num [rimFacet]) (by rw [mid_z]; norm_num [rimFacet])
    rcases orientFront_or 0 b rimFacet with e | e
    · rw [e]
      unfold Spec.Inward
      rw [rimFacet_cross]
      norm_num [rimFacet, V3.dot]
    · rw [e, crossP_switch_z, rimFacet_cross] at h1
      norm_num at h1

/-- A facet that meets the hypotheses of `C122_outward_partial`: above the centre of a unit hemisphere. -/
example : let τ : Tri := ⟨⟨3 / 5, 0, 4 / 5⟩, ⟨-(9 / 25), 12 / 25, 4 / 5⟩, ⟨-(9 / 25), -(12 / 25), 4 / 5⟩⟩
    Spec.Acute τ ∧ Spec.Decided 0 τ ∧ Spec.OnSphere 1 0 τ.P0 ∧ Spec.OnSphere 1 0 τ.P1 ∧ Spec.OnSphere 1 0 τ.P2 := by
  refine ⟨⟨?_, ?_, ?_⟩, Or.inl ⟨?_, ?_, ?_, ?_⟩, ?_, ?_, ?_⟩ <;> norm_num [V3.dot, Spec.OnSphere]

end Rayflare
