import Verif.Lemmas.Fresnel
import Mathlib.Topology.Order.MonotoneConvergence
import Mathlib.Topology.Instances.Real.Lemmas
import Mathlib.Topology.Algebra.Order.LiminfLimsup

/-!
# Reflections on one side of a surface come to an end
-/

namespace Rayflare.Lemmas

open Rayflare.Model Filter Topology

theorem coord_le_one {d : V3} (h : V3.dot d d = 1) : |d.x| ≤ 1 ∧ |d.y| ≤ 1 ∧ |d.z| ≤ 1 := by
  unfold V3.dot at h
  refine ⟨?_, ?_, ?_⟩ <;> rw [abs_le] <;> constructor <;>
    nlinarith [mul_self_nonneg d.x, mul_self_nonneg d.y, mul_self_nonneg d.z]

/-- A bounded sequence whose increments are at most those of a bounded nondecreasing sequence converges. -/
theorem conv_of_dominated {x f : ℕ → ℝ} {C : ℝ} (hC : 0 ≤ C) (hx : ∀ n, |x n| ≤ 1) (hf : ∀ n, |f n| ≤ 1)
    (h : ∀ n, |x (n + 1) - x n| ≤ C * (f (n + 1) - f n)) : ∃ l, Tendsto x atTop (𝓝 l) := by
  have hf0 : ∀ n, 0 ≤ C * (f (n + 1) - f n) := fun n => le_trans (abs_nonneg _) (h n)
  have m1 : Monotone fun n => C * f n := monotone_nat_of_le_succ fun n => by linarith [hf0 n]
  have m2 : Monotone fun n => x n + C * f n := monotone_nat_of_le_succ fun n => by linarith [(abs_le.mp (h n)).1]
  have b1 : BddAbove (Set.range fun n => C * f n) := by
    refine ⟨C, ?_⟩
    rintro _ ⟨n, rfl⟩
    have := (abs_le.mp (hf n)).2
    simp only; nlinarith
  have b2 : BddAbove (Set.range fun n => x n + C * f n) := by
    refine ⟨1 + C, ?_⟩
    rintro _ ⟨n, rfl⟩
    have := (abs_le.mp (hf n)).2
    have := (abs_le.mp (hx n)).2
    simp only; nlinarith
  have t1 := tendsto_atTop_ciSup m1 b1
  have t2 := tendsto_atTop_ciSup m2 b2
  refine ⟨_, (t2.sub t1).congr fun n => ?_⟩
  simp

/-- A direction cannot be reflected without end on the same side by facets of finitely many orientations none of which is vertical or overhanging. -/
theorem no_endless_reflection (Ns : Finset V3) (hu : ∀ N ∈ Ns, V3.dot N N = 1) (hup : ∀ N ∈ Ns, 0 < N.z) (σ : ℝ) (hσ : σ = 1 ∨ σ = -1)
    (d : ℕ → V3) (hd : ∀ n, V3.dot (d n) (d n) = 1)
    (hstep : ∀ n, d (n + 1) = d n ∨ ∃ N ∈ Ns, σ * V3.dot (d n) N < 0 ∧ d (n + 1) = reflectDir (d n) N) :
    ∃ m, ∀ n, m ≤ n → ¬ ∃ N ∈ Ns, σ * V3.dot (d n) N < 0 ∧ d (n + 1) = reflectDir (d n) N := by
  classical
  have hσ2 : σ * σ = 1 := by rcases hσ with h | h <;> rw [h] <;> norm_num
  -- the flattest facet bounds the vertical components of the normals
  obtain ⟨c, hc, hcN⟩ : ∃ c : ℝ, 0 < c ∧ ∀ N ∈ Ns, c ≤ N.z := by
    rcases Ns.eq_empty_or_nonempty with h | h
    · exact ⟨1, one_pos, by rw [h]; simp⟩
    · obtain ⟨N, hN, hmin⟩ := Ns.exists_min_image (fun N => N.z) h
      exact ⟨N.z, hup N hN, hmin⟩
  have hcoord := fun n => coord_le_one (hd n)
  have hNcoord : ∀ N ∈ Ns, |N.x| ≤ 1 ∧ |N.y| ≤ 1 ∧ |N.z| ≤ 1 := fun N hN => coord_le_one (hu N hN)
  -- every coordinate changes by at most a multiple of the rise of `σ * d.z`
  have hdom : ∀ n, |(d (n + 1)).x - (d n).x| ≤ 1 / c * (σ * (d (n + 1)).z - σ * (d n).z) ∧
      |(d (n + 1)).y - (d n).y| ≤ 1 / c * (σ * (d (n + 1)).z - σ * (d n).z) ∧
      |(d (n + 1)).z - (d n).z| ≤ 1 / c * (σ * (d (n + 1)).z - σ * (d n).z) ∧
      ∀ N ∈ Ns, σ * V3.dot (d n) N < 0 → d (n + 1) = reflectDir (d n) N → 2 * |V3.dot (d n) N| ≤ 1 / c * (σ * (d (n + 1)).z - σ * (d n).z) := by
    intro n
    have hrefl : ∀ N ∈ Ns, σ * V3.dot (d n) N < 0 → d (n + 1) = reflectDir (d n) N →
        2 * |V3.dot (d n) N| ≤ 1 / c * (σ * (d (n + 1)).z - σ * (d n).z) := by
      intro N hN hs he
      have ha : |V3.dot (d n) N| = -(σ * V3.dot (d n) N) := by
        rcases hσ with h | h <;> rw [h] at hs ⊢
        · rw [abs_of_neg (by linarith)]; ring
        · rw [abs_of_pos (by linarith)]; ring
      rw [he, one_div, le_inv_mul_iff₀ hc, ha]
      simp only [reflectDir, V3.sub_z, V3.smul_z]
      have := hcN N hN
      nlinarith
    refine ⟨?_, ?_, ?_, hrefl⟩ <;>
    · rcases hstep n with h | ⟨N, hN, hs, he⟩
      · rw [h]; simp
      · refine le_trans ?_ (hrefl N hN hs he)
        rw [he]
        simp only [reflectDir, V3.sub_x, V3.sub_y, V3.sub_z, V3.smul_x, V3.smul_y, V3.smul_z, sub_sub_cancel_left, abs_neg, abs_mul, abs_two]
        obtain ⟨q1, q2, q3⟩ := hNcoord N hN
        have := abs_nonneg (V3.dot (d n) N)
        nlinarith
  have hf : ∀ n, |σ * (d n).z| ≤ 1 := by
    intro n
    rw [abs_mul]
    have : |σ| = 1 := by rcases hσ with h | h <;> rw [h] <;> simp
    rw [this, one_mul]
    exact (hcoord n).2.2
  have hC : 0 ≤ 1 / c := by positivity
  obtain ⟨X, hX⟩ := conv_of_dominated hC (fun n => (hcoord n).1) hf (fun n => (hdom n).1)
  obtain ⟨Y, hY⟩ := conv_of_dominated hC (fun n => (hcoord n).2.1) hf (fun n => (hdom n).2.1)
  obtain ⟨Z, hZ⟩ := conv_of_dominated hC (fun n => (hcoord n).2.2) hf (fun n => (hdom n).2.2.1)
  set D : V3 := ⟨X, Y, Z⟩ with hD
  have hdotT : ∀ N : V3, Tendsto (fun n => V3.dot (d n) N) atTop (𝓝 (V3.dot D N)) := by
    intro N
    unfold V3.dot
    exact ((hX.mul_const _).add (hY.mul_const _)).add (hZ.mul_const _)
  have hrise : Tendsto (fun n => 1 / c * (σ * (d (n + 1)).z - σ * (d n).z)) atTop (𝓝 0) := by
    have h1 := (hZ.const_mul σ)
    have h2 := ((tendsto_add_atTop_iff_nat 1).mpr h1).sub h1
    rw [sub_self] at h2
    simpa using h2.const_mul (1 / c)
  -- facets met infinitely often are parallel to the limiting direction
  let hit : V3 → ℕ → Prop := fun N n => σ * V3.dot (d n) N < 0 ∧ d (n + 1) = reflectDir (d n) N
  have hpar : ∀ N ∈ Ns, (∃ᶠ n in atTop, hit N n) → V3.dot D N = 0 := by
    intro N hN hfreq
    by_contra hne
    have hpos : 0 < |V3.dot D N| := abs_pos.mpr hne
    have e1 : ∀ᶠ n in atTop, |V3.dot D N| / 2 < |V3.dot (d n) N| := by
      have := (hdotT N).abs
      exact this.eventually_const_lt (by linarith)
    have e2 : ∀ᶠ n in atTop, 1 / c * (σ * (d (n + 1)).z - σ * (d n).z) < |V3.dot D N| := hrise.eventually_lt_const hpos
    obtain ⟨n, h1, h2, h3⟩ := (hfreq.and_eventually (e1.and e2)).exists
    have := (hdom n).2.2.2 N hN h1.1 h1.2
    linarith
  have hev : ∀ᶠ n in atTop, ∀ N ∈ Ns, hit N n → V3.dot D N = 0 := by
    rw [Filter.eventually_all_finset]
    intro N hN
    by_cases hfreq : ∃ᶠ n in atTop, hit N n
    · exact Eventually.of_forall fun n _ => hpar N hN hfreq
    · rw [Filter.not_frequently] at hfreq
      exact hfreq.mono fun n hn hh => absurd hh hn
  obtain ⟨m, hm⟩ := Filter.eventually_atTop.mp hev
  -- the distance to the limiting direction no longer changes
  let E : ℕ → ℝ := fun n => ((d n).x - X) ^ 2 + ((d n).y - Y) ^ 2 + ((d n).z - Z) ^ 2
  have hE : ∀ n, m ≤ n → E (n + 1) = E n := by
    intro n hn
    rcases hstep n with h | ⟨N, hN, hs, he⟩
    · simp only [E, h]
    · have h0 := hm n hn N hN ⟨hs, he⟩
      have h1 := hu N hN
      simp only [E, he, reflectDir, V3.sub_x, V3.sub_y, V3.sub_z, V3.smul_x, V3.smul_y, V3.smul_z]
      unfold V3.dot at h0 h1 ⊢
      simp only [hD] at h0
      generalize hs' : (d n).x * N.x + (d n).y * N.y + (d n).z * N.z = s
      linear_combination 4 * s ^ 2 * h1 + 4 * s * h0 - 4 * s * hs'
  have hconst : ∀ k, E (m + k) = E m := by
    intro k
    induction k with
    | zero => rfl
    | succ k ih => rw [← Nat.add_assoc, hE _ (by omega), ih]
  have hEt : Tendsto E atTop (𝓝 0) := by
    have a := (hX.sub_const X).pow 2
    have b := (hY.sub_const Y).pow 2
    have e := (hZ.sub_const Z).pow 2
    have := (a.add b).add e
    simpa using this
  have hE0 : ∀ n, m ≤ n → E n = 0 := by
    intro n hn
    have h1 : ∀ k, E (m + k) = E n := fun k => by
      obtain ⟨j, rfl⟩ := Nat.exists_eq_add_of_le hn
      rw [hconst k, hconst j]
    have h2 : Tendsto (fun k => E (m + k)) atTop (𝓝 0) := by
      have := (tendsto_add_atTop_iff_nat m).mpr hEt
      exact this.congr fun k => by rw [Nat.add_comm]
    have h3 : Tendsto (fun k => E (m + k)) atTop (𝓝 (E n)) := by
      simp only [h1]; exact tendsto_const_nhds
    exact tendsto_nhds_unique h3 h2
  refine ⟨m, fun n hn => ?_⟩
  rintro ⟨N, hN, hs, he⟩
  have h0 := hm n hn N hN ⟨hs, he⟩
  have hz := hE0 n hn
  have hx : (d n).x = X ∧ (d n).y = Y ∧ (d n).z = Z := by
    simp only [E] at hz
    refine ⟨?_, ?_, ?_⟩ <;> nlinarith [sq_nonneg ((d n).x - X), sq_nonneg ((d n).y - Y), sq_nonneg ((d n).z - Z)]
  have : V3.dot (d n) N = V3.dot D N := by
    unfold V3.dot
    rw [hx.1, hx.2.1, hx.2.2]
  rw [this, h0] at hs
  simp at hs

end Rayflare.Lemmas
