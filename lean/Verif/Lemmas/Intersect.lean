import Verif.Spec.Geometry
import Verif.Lemmas.Fresnel
import Verif.Lemmas.Np
import Mathlib.Data.List.MinMax

/-! # Helper lemmas: intersections and the unit cell -/

namespace Rayflare.Lemmas

open Rayflare.Model Rayflare.Spec Rayflare.Np

theorem argmin_spec {K : Type*} [LinearOrder K] {l : List K} (h : l ≠ []) :
    ∃ hk : argmin l < l.length, ∀ y ∈ l, l[argmin l] ≤ y := by
  have hex : ∃ x ∈ l, l.all (fun y => decide (x ≤ y)) = true := by
    obtain ⟨m, hm⟩ : ∃ m : K, l.minimum = (m : WithTop K) := by
      obtain ⟨m, hm⟩ := WithTop.ne_top_iff_exists.mp (fun hmin => h (List.minimum_eq_top.mp hmin))
      exact ⟨m, hm.symm⟩
    refine ⟨m, List.minimum_mem hm, ?_⟩
    simp only [List.all_eq_true, decide_eq_true_eq]
    intro y hy
    exact List.minimum_le_of_mem hy hm
  have hk : argmin l < l.length := List.findIdx_lt_length_of_exists hex
  refine ⟨hk, ?_⟩
  have := List.findIdx_getElem (p := fun x => l.all (fun y => decide (x ≤ y))) (xs := l) (w := hk)
  simp only [List.all_eq_true, decide_eq_true_eq] at this
  exact this

theorem tri_solve (τ : Tri) (r d : V3) (h : τ.det d ≠ 0) :
    r + τ.t r d • d = τ.P0 + τ.u r d • (τ.P1 - τ.P0) + τ.v r d • (τ.P2 - τ.P0) := by
  unfold Tri.t Tri.u Tri.v
  have hd : τ.det d = V3.dot (-d) τ.crossP := rfl
  ext
  · simp only [V3.add_x, V3.smul_x, V3.sub_x]
    field_simp
    rw [hd]
    simp only [Tri.crossP, V3.dot, V3.cross, V3.sub_x, V3.sub_y, V3.sub_z, V3.neg_x, V3.neg_y, V3.neg_z]
    ring
  · simp only [V3.add_y, V3.smul_y, V3.sub_y]
    field_simp
    rw [hd]
    simp only [Tri.crossP, V3.dot, V3.cross, V3.sub_x, V3.sub_y, V3.sub_z, V3.neg_x, V3.neg_y, V3.neg_z]
    ring
  · simp only [V3.add_z, V3.smul_z, V3.sub_z]
    field_simp
    rw [hd]
    simp only [Tri.crossP, V3.dot, V3.cross, V3.sub_x, V3.sub_y, V3.sub_z, V3.neg_x, V3.neg_y, V3.neg_z]
    ring

theorem tri_unique (τ : Tri) (r d : V3) (h : τ.det d ≠ 0) {t u v : ℝ}
    (he : r + t • d = τ.P0 + u • (τ.P1 - τ.P0) + v • (τ.P2 - τ.P0)) : τ.t r d = t ∧ τ.u r d = u ∧ τ.v r d = v := by
  have hx := congrArg V3.x he
  have hy := congrArg V3.y he
  have hz := congrArg V3.z he
  simp only [V3.add_x, V3.add_y, V3.add_z, V3.smul_x, V3.smul_y, V3.smul_z, V3.sub_x, V3.sub_y, V3.sub_z] at hx hy hz
  have hr : r = ⟨τ.P0.x + u * (τ.P1.x - τ.P0.x) + v * (τ.P2.x - τ.P0.x) - t * d.x,
      τ.P0.y + u * (τ.P1.y - τ.P0.y) + v * (τ.P2.y - τ.P0.y) - t * d.y,
      τ.P0.z + u * (τ.P1.z - τ.P0.z) + v * (τ.P2.z - τ.P0.z) - t * d.z⟩ := by
    ext
    · show r.x = _; linarith
    · show r.y = _; linarith
    · show r.z = _; linarith
  have hd : τ.det d = V3.dot (-d) τ.crossP := rfl
  rw [hr]
  refine ⟨?_, ?_, ?_⟩
  · unfold Tri.t
    field_simp
    rw [hd]
    simp only [Tri.crossP, V3.dot, V3.cross, V3.sub_x, V3.sub_y, V3.sub_z, V3.neg_x, V3.neg_y, V3.neg_z]
    ring
  · unfold Tri.u
    field_simp
    rw [hd]
    simp only [Tri.crossP, V3.dot, V3.cross, V3.sub_x, V3.sub_y, V3.sub_z, V3.neg_x, V3.neg_y, V3.neg_z]
    ring
  · unfold Tri.v
    field_simp
    rw [hd]
    simp only [Tri.crossP, V3.dot, V3.cross, V3.sub_x, V3.sub_y, V3.sub_z, V3.neg_x, V3.neg_y, V3.neg_z]
    ring

theorem det_ne_zero_iff (τ : Tri) (d : V3) : τ.det d ≠ 0 ↔ ¬ Parallel τ d := by
  unfold Tri.det Parallel Tri.crossP
  have : ∀ c : V3, V3.dot (-d) c = -V3.dot d c := by intro c; unfold V3.dot; simp only [V3.neg_x, V3.neg_y, V3.neg_z]; ring
  rw [this, neg_ne_zero]

theorem hit_of_inTri {τ : Tri} {r d : V3} (hp : ¬ Parallel τ d) {t : ℝ} (ht : 0 < t) (h : InTri 0 τ (r + t • d)) :
    τ.hit r d = true ∧ τ.t r d = t := by
  obtain ⟨u, v, hu, hv, huv, he⟩ := h
  have hdet := (det_ne_zero_iff τ d).mpr hp
  obtain ⟨e1, e2, e3⟩ := tri_unique τ r d hdet he
  refine ⟨?_, e1⟩
  unfold Tri.hit
  rw [decide_eq_true_eq]
  rw [e1, e2, e3]
  refine ⟨hdet, huv, ⟨?_, ?_⟩, ht⟩
  · have : (0 : ℝ) < 1 / 10 ^ 10 := by positivity
    linarith
  · have : (0 : ℝ) < 1 / 10 ^ 10 := by positivity
    linarith

theorem checkIntersect_none {r d : V3} {tris : List Tri} (h : checkIntersect r d tris = none) :
    ∀ τ ∈ tris, τ.hit r d = false := by
  unfold checkIntersect at h
  simp only at h
  split at h
  · rename_i hn
    by_contra hcon
    push Not at hcon
    obtain ⟨τ, hτ, hh⟩ := hcon
    have hmem : τ ∈ tris.filter (fun τ => τ.hit r d) := List.mem_filter.mpr ⟨hτ, by simpa using hh⟩
    have hne : (tris.filter (fun τ => τ.hit r d)).map (fun τ => τ.t r d) ≠ [] := by
      intro h0
      rw [List.map_eq_nil_iff] at h0
      rw [h0] at hmem
      simp at hmem
    obtain ⟨hk, -⟩ := argmin_spec hne
    rw [List.length_map] at hk
    rw [List.getElem?_eq_none_iff] at hn
    omega
  · simp at h

theorem checkIntersect_some {r d : V3} {tris : List Tri} {p : V3} {θ : ℝ} {N : V3} (h : checkIntersect r d tris = some (p, θ, N)) :
    ∃ τ ∈ tris, τ.hit r d = true ∧ p = r + τ.t r d • d ∧ θ = localTheta τ.N d ∧ N = τ.N ∧
      ∀ τ' ∈ tris, τ'.hit r d = true → τ.t r d ≤ τ'.t r d := by
  unfold checkIntersect at h
  simp only at h
  split at h
  · simp at h
  · rename_i τ hn
    simp only [Option.some.injEq, Prod.mk.injEq] at h
    obtain ⟨hk, hget⟩ := List.getElem?_eq_some_iff.mp hn
    have hmem : τ ∈ tris.filter (fun τ => τ.hit r d) := hget ▸ List.getElem_mem hk
    have hne : (tris.filter (fun τ => τ.hit r d)).map (fun τ => τ.t r d) ≠ [] := by
      intro h0
      rw [List.map_eq_nil_iff] at h0
      rw [h0] at hmem
      simp at hmem
    obtain ⟨hk', hmin⟩ := argmin_spec hne
    rw [List.mem_filter] at hmem
    refine ⟨τ, hmem.1, by simpa using hmem.2, h.1.symm, h.2.1.symm, h.2.2.symm, ?_⟩
    intro τ' hτ' hh'
    have := hmin (τ'.t r d) (List.mem_map.mpr ⟨τ', List.mem_filter.mpr ⟨hτ', by simpa using hh'⟩, rfl⟩)
    rw [List.getElem_map, hget] at this
    exact this

/-! ## Leaving the unit cell -/

theorem leInf_total_min (l : List (Option ℝ)) (h : l ≠ []) :
    ∃ x ∈ l, ∀ y ∈ l, leInf x y = true := by
  induction l with
  | nil => exact absurd rfl h
  | cons a l ih =>
    rcases l with _ | ⟨b, l⟩
    · refine ⟨a, by simp, ?_⟩
      intro y hy
      simp only [List.mem_singleton] at hy
      subst hy
      cases y <;> simp [leInf]
    · obtain ⟨x, hx, hmin⟩ := ih (by simp)
      have htrans : ∀ a b c : Option ℝ, leInf a b = true → leInf b c = true → leInf a c = true := by
        intro a b c h1 h2
        cases a <;> cases b <;> cases c <;> simp_all [leInf]
        exact le_trans h1 h2
      have htot : leInf a x = true ∨ leInf x a = true := by
        cases a <;> cases x <;> simp [leInf]
        exact le_total _ _
      rcases htot with h | h
      · refine ⟨a, by simp, ?_⟩
        intro y hy
        rcases List.mem_cons.mp hy with rfl | hy
        · cases y <;> simp [leInf]
        · exact htrans _ _ _ h (hmin y hy)
      · refine ⟨x, by simp only [List.mem_cons] at hx ⊢; exact Or.inr hx, ?_⟩
        intro y hy
        rcases List.mem_cons.mp hy with rfl | hy
        · exact h
        · exact hmin y hy

theorem exitSide_spec (r d : V3) (Lx Ly : ℝ) :
    ∃ i < 4, exitSide r d Lx Ly = (i, (exitTs r d Lx Ly).getD i none) ∧
      ∀ y ∈ exitTs r d Lx Ly, leInf ((exitTs r d Lx Ly).getD i none) y = true := by
  set ts := exitTs r d Lx Ly with hts
  have hlen : ts.length = 4 := by rw [hts]; rfl
  obtain ⟨x, hx, hmin⟩ := leInf_total_min ts (by intro h; rw [h] at hlen; simp at hlen)
  have hk : ts.findIdx (fun x => ts.all (fun y => leInf x y)) < ts.length := by
    apply List.findIdx_lt_length_of_exists
    refine ⟨x, hx, ?_⟩
    simpa [List.all_eq_true] using hmin
  refine ⟨ts.findIdx (fun x => ts.all (fun y => leInf x y)), by omega, rfl, ?_⟩
  have := List.findIdx_getElem (p := fun x => ts.all (fun y => leInf x y)) (xs := ts) (w := hk)
  rw [List.getD_eq_getElem?_getD, List.getElem?_eq_getElem hk, Option.getD_some]
  simpa [List.all_eq_true] using this

theorem planeT_pos {num denom : ℝ} (h : 0 < num) (hd : 0 < denom) : planeT num denom = some (num / denom) := by
  unfold planeT
  simp only [if_neg hd.ne']
  rw [if_pos (div_pos h hd)]

theorem planeT_neg_neg {num denom : ℝ} (h : num < 0) (hd : denom < 0) : planeT num denom = some (num / denom) := by
  unfold planeT
  simp only [if_neg hd.ne]
  rw [if_pos (div_pos_of_neg_of_neg h hd)]

theorem planeT_none {num denom : ℝ} (h : num ≤ 0) (hd : 0 ≤ denom) : planeT num denom = none := by
  unfold planeT
  simp only
  rw [if_neg]
  rw [gt_iff_lt, not_lt]
  split_ifs
  · exact div_nonpos_of_nonpos_of_nonneg h (by positivity)
  · exact div_nonpos_of_nonpos_of_nonneg h hd

end Rayflare.Lemmas
