import Verif.Props.TmmDepths
import Verif.Props.RcwaProfiles

/-!
# Property C148: depth coordinates of stored profiles
-/

namespace Rayflare

open Rayflare.Np Rayflare.Model Rayflare.Lemmas

/-- Whatever the solver does on boundaries, layer and depth in the layer together are the depth asked for. -/
theorem locate_depth (first : Bool) (widths : List ℝ) (z : ℝ) : Spec.top widths (locate first widths z).1 + (locate first widths z).2 = z ∧ 1 ≤ (locate first widths z).1 := by
  induction widths generalizing z with
  | nil => simp [locate, Spec.top]
  | cons w ws ih =>
    unfold locate
    split_ifs with h
    · simp [Spec.top]
    · obtain ⟨h1, h2⟩ := ih (z - w)
      refine ⟨?_, by simp⟩
      obtain ⟨k, hk⟩ : ∃ k, (locate first ws (z - w)).1 = k + 1 := ⟨_, (Nat.sub_add_cancel h2).symm⟩
      simp only [Spec.top, hk, Nat.add_sub_cancel, List.take_succ_cons, List.sum_cons] at h1 ⊢
      linarith

/-- **C148 (partial), front.** In the profile stored by `TMM` for light from the front the value with coordinate `z`, strictly inside layer `l`, is the absorption in this layer at depth `z` of the stack. -/
theorem C148_front_partial (first : Bool) (A : ℕ → ℝ → ℝ) (widths : List ℝ) (hw : ∀ w ∈ widths, 0 ≤ w) (dist : List ℝ) (z v : ℝ) (h : (z, v) ∈ frontLabelled first A widths dist)
    (l : ℕ) (h1 : 1 ≤ l) (h2 : l ≤ widths.length) (ha : Spec.top widths l < z) (hb : z < Spec.bottom widths l) : v = A l (z - Spec.top widths l) := by
  unfold frontLabelled frontProfile at h
  rw [List.zip_map_right, List.mem_map] at h
  obtain ⟨⟨a, b⟩, hab, e⟩ := h
  obtain ⟨i, hi⟩ := List.getElem?_of_mem hab
  have hi' := hi
  rw [List.getElem?_zip_eq_some] at hi
  simp only at hi
  have : a = b := by have := hi.1.symm.trans hi.2; simpa using this
  simp only [Prod.map, id, Prod.mk.injEq] at e
  obtain ⟨rfl, rfl⟩ := e
  rw [← this, locate_inside first widths hw l h1 h2 a ha hb]
  rfl

/-- **C148 (partial), rear.** In the profile stored for light from the rear the value number `i` is the absorption at the depth, measured from the rear, given by the coordinate number `n - 1 - i` – not by its own one:
values and coordinates are in opposite order.  Missing: that a value stands at its own depth, see `C148_tmm_fails` and `C148_rcwa_fails`. -/
theorem C148_rear_partial (first : Bool) (A : ℕ → ℝ → ℝ) (widths dist : List ℝ) (i : ℕ) (z v : ℝ) (h : (rearLabelled first A widths dist)[i]? = some (z, v)) :
    ∃ z', ((rearLabelled first A widths dist)[dist.length - 1 - i]?).map Prod.fst = some z' ∧
      ∃ l δ, v = A l δ ∧ 1 ≤ l ∧ Spec.top widths.reverse l + δ = z' := by
  unfold rearLabelled at h
  rw [List.getElem?_zip_eq_some] at h
  obtain ⟨h1, h2⟩ := h
  have hl : (rearDist widths dist).length = dist.length := by simp [rearDist]
  have hi : i < dist.length := by rw [← hl]; exact (List.getElem?_eq_some_iff.mp h1).1
  have hj : dist.length - 1 - i < (rearDist widths dist).length := by omega
  have hlen : (rearProfile first A widths dist).length = dist.length := by simp [rearProfile, rearDist]
  refine ⟨(rearDist widths dist)[dist.length - 1 - i], ?_, ?_⟩
  · unfold rearLabelled
    rw [List.getElem?_eq_getElem (by rw [List.length_zip, hl, hlen]; omega), Option.map_some, List.getElem_zip]
  · unfold rearProfile at h2
    rw [List.getElem?_reverse (by simp [rearDist]; omega), List.getElem?_map, List.length_map, hl, List.getElem?_eq_getElem hj, Option.map_some, Option.some.injEq] at h2
    exact ⟨_, _, h2.symm, (locate_depth first widths.reverse _).2, (locate_depth first widths.reverse _).1⟩

theorem C148_last_sample (W d : ℝ) (hd : 0 < d) (h : d < W) : ∃ n : ℕ, ⌈W / d⌉₊ = n + 2 ∧ ((n + 1 : ℕ) : ℝ) * d < W := by
  have h1 : 1 < ⌈W / d⌉₊ := by rw [Nat.lt_ceil, Nat.cast_one, lt_div_iff₀ hd]; linarith
  obtain ⟨n, hn⟩ : ∃ n, ⌈W / d⌉₊ = n + 2 := ⟨⌈W / d⌉₊ - 2, by omega⟩
  refine ⟨n, hn, ?_⟩
  have : n + 1 < ⌈W / d⌉₊ := by omega
  rwa [Nat.lt_ceil, lt_div_iff₀ hd] at this

/-- **C148 fails** for light from the rear, for every stack sampled at two or more depths: take as absorption density the depth below the rear surface.  The first value is neither the one at the depth given by its
coordinate if this is measured from the rear, nor the one at this depth measured from the front. -/
theorem C148_tmm_fails (first : Bool) (widths : List ℝ) (hw : ∀ w ∈ widths, 0 ≤ w) (d : ℝ) (hd : 0 < d) (h : d < widths.sum) :
    ∃ dist z v, calcDist widths d none = some dist ∧ (rearLabelled first (fun l δ => Spec.top widths.reverse l + δ) widths dist)[0]? = some (z, v) ∧ v ≠ z ∧ v ≠ widths.sum - z := by
  obtain ⟨n, hn, hlt⟩ := C148_last_sample _ _ hd h
  refine ⟨_, widths.sum - ((n + 1 : ℕ) : ℝ) * d, widths.sum, C109_default widths hw d hd, ?_, ?_, ?_⟩
  · rw [hn]
    unfold rearLabelled rearProfile rearDist
    rw [List.getElem?_zip_eq_some, List.map_reverse, List.reverse_reverse]
    refine ⟨?_, ?_⟩
    · rw [List.getElem?_reverse (by simp)]
      simp
    · simp only [List.getElem?_map]
      rw [List.getElem?_range (by omega)]
      simp only [Option.map_some, Option.some.injEq, (locate_depth first widths.reverse _).1]
      simp
  · have : 0 < ((n + 1 : ℕ) : ℝ) * d := by positivity
    intro e; linarith
  · intro e; linarith

theorem all_rear_layers (n : ℕ) : rcwaRearLayers n ((List.range n).map (· + 1)) = (List.range n).map (· + 1) := by
  rw [rearLayers_eq n _ ?_ ?_]
  · apply List.ext_getElem (by simp)
    intro i h1 h2
    simp only [List.length_map, List.length_range] at h2
    simp only [List.getElem_reverse, List.getElem_map, List.getElem_range, List.length_map, List.length_range]
    omega
  · rw [List.pairwise_map]
    exact List.pairwise_lt_range.imp fun h => by omega
  · intro p hp
    obtain ⟨k, hk, rfl⟩ := List.mem_map.mp hp
    have := List.mem_range.mp hk
    omega

/-- **C148 (partial), `RCWA`.** For light from the front the value with coordinate `z` is the absorption at depth `z` (`A z`); for light from the rear values and coordinates are in opposite order (`A' z`: absorption at the depth `z` below the rear surface). -/
theorem C148_rcwa_partial (A A' : ℝ → ℝ) (widths : List ℝ) (d : ℝ) (prof : List ℕ) :
    (∀ q, rcwaFrontLabelled A widths d prof = some q → ∀ z v, (z, v) ∈ q → v = A z) ∧
    (∀ q, rcwaRearLabelled A' widths d prof = some q → q.map Prod.snd = (q.map fun p => A' p.1).reverse) := by
  constructor
  · intro q hq z v hz
    unfold rcwaFrontLabelled rcwaFrontProfile at hq
    obtain ⟨dist, h1, h2⟩ := Option.bind_eq_some_iff.mp hq
    rw [h1, Option.map_some, Option.map_some, Option.some.injEq] at h2
    subst h2
    obtain ⟨i, hi⟩ := List.getElem?_of_mem hz
    rw [List.getElem?_zip_eq_some] at hi
    simp only [List.getElem?_map] at hi
    rw [hi.1] at hi
    simpa using hi.2.symm
  · intro q hq
    unfold rcwaRearLabelled rcwaRearProfile at hq
    obtain ⟨dist, h1, h2⟩ := Option.bind_eq_some_iff.mp hq
    rw [h1, Option.map_some, Option.map_some, Option.some.injEq] at h2
    subst h2
    have e : ∀ l : List (ℝ × ℝ), (l.map fun p => A' p.1) = (l.map Prod.fst).map A' := fun l => by simp
    rw [List.map_snd_zip (by simp), e, List.map_fst_zip (by simp)]

/-- **C148 fails** for `RCWA` and light from the rear, too, for every stack sampled at two or more depths. -/
theorem C148_rcwa_fails (widths : List ℝ) (hw : ∀ w ∈ widths, 0 ≤ w) (d : ℝ) (hd : 0 < d) (h : d < widths.sum) :
    ∃ q z v, rcwaRearLabelled id widths d ((List.range widths.length).map (· + 1)) = some q ∧ q[0]? = some (z, v) ∧ v ≠ z ∧ v ≠ widths.sum - z := by
  obtain ⟨n, hn, hlt⟩ := C148_last_sample _ _ hd h
  have hall : rcwaRearDist widths d ((List.range widths.length).map (· + 1)) = some ((List.range (n + 2)).map fun i : ℕ => (i : ℝ) * d) := by
    unfold rcwaRearDist
    have := C109_default widths.reverse (fun w hx => hw w (List.mem_reverse.mp hx)) d hd
    rw [List.sum_reverse, hn] at this
    rw [all_rear_layers, ← this]
    unfold calcDist profileLayers
    rw [Option.getD_none, List.length_reverse]
  refine ⟨((List.range (n + 2)).map fun i : ℕ => (i : ℝ) * d).zip (((List.range (n + 2)).map fun i : ℕ => (i : ℝ) * d).map id).reverse, 0, ((n + 1 : ℕ) : ℝ) * d, ?_, ?_, ?_, ?_⟩
  · unfold rcwaRearLabelled rcwaRearProfile
    rw [hall]
    rfl
  · rw [List.getElem?_zip_eq_some]
    refine ⟨by simp, ?_⟩
    rw [List.getElem?_reverse (by simp)]
    simp
  · have : 0 < ((n + 1 : ℕ) : ℝ) * d := by positivity
    exact this.ne'
  · intro e; linarith

/-- Two layers of 2 nm, sampled every nanometre: stored from the rear are the coordinates 1, 2, 3, 4 with the absorption at depths 4, 3, 2, 1 from the rear. -/
example : rearLabelled true (fun l δ => Spec.top [2, 2] l + δ) [2, 2] [0, 1, 2, 3] = [(1, 4), (2, 3), (3, 2), (4, 1)] := by
  norm_num [rearLabelled, rearProfile, rearDist, locate, Spec.top]

/-- And from the front the right ones. -/
example : ∃ v, ((1 : ℝ), v) ∈ frontLabelled true (fun l δ => Spec.top [2, 2] l + δ) [2, 2] [0, 1, 2, 3] ∧ v = Spec.top [2, 2] 1 + (1 - Spec.top [2, 2] 1) := by
  have hm : ((1 : ℝ), (1 : ℝ)) ∈ frontLabelled true (fun l δ => Spec.top [2, 2] l + δ) [2, 2] [0, 1, 2, 3] := by
    norm_num [frontLabelled, frontProfile, locate, Spec.top]
  exact ⟨1, hm, C148_front_partial true _ [2, 2] (by simp) _ 1 1 hm 1 (by simp) (by simp) (by norm_num [Spec.top]) (by norm_num [Spec.bottom])⟩

end Rayflare
