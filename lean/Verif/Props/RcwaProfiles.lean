import Verif.Model.RcwaProfiles
import Verif.Props.TmmDepths
import Mathlib.Data.List.Sort
import Mathlib.Analysis.Calculus.Deriv.MeanValue
import Mathlib.Analysis.SpecialFunctions.ExpDeriv

/-!
# Properties C115, C116: RCWA profiles
-/

namespace Rayflare

open Rayflare.Np Rayflare.Model Rayflare.Lemmas

/-! ## Layers whose widths are multiples of the spacing -/

theorem take_mul_sum (ms : List ℕ) (d : ℝ) (k : ℕ) : ((ms.map fun m : ℕ => (m : ℝ) * d).take k).sum = ((ms.take k).sum : ℕ) * d := by
  rw [← List.map_take, List.sum_map_mul_right]
  push_cast
  rfl

theorem range_filter (a k N : ℕ) (h : a + k ≤ N) : (List.range N).filter (fun i => decide (a ≤ i ∧ i < a + k)) = (List.range k).map (a + ·) := by
  obtain ⟨r, rfl⟩ := Nat.exists_eq_add_of_le h
  rw [List.range_add, List.range_add, List.filter_append, List.filter_append]
  have e1 : (List.range a).filter (fun i => decide (a ≤ i ∧ i < a + k)) = [] := by
    rw [List.filter_eq_nil_iff]; intro i hi; rw [List.mem_range] at hi; simp; omega
  have e2 : ((List.range k).map (a + ·)).filter (fun i => decide (a ≤ i ∧ i < a + k)) = (List.range k).map (a + ·) := by
    rw [List.filter_eq_self]; intro i hi; rw [List.mem_map] at hi; obtain ⟨j, hj, rfl⟩ := hi; rw [List.mem_range] at hj; simp; omega
  have e3 : ((List.range r).map (a + k + ·)).filter (fun i => decide (a ≤ i ∧ i < a + k)) = [] := by
    rw [List.filter_eq_nil_iff]; intro i hi; rw [List.mem_map] at hi; obtain ⟨j, hj, rfl⟩ := hi; simp
  rw [e1, e2, e3]
  simp

theorem take_succ_sum (ms : List ℕ) (l : ℕ) (h1 : 1 ≤ l) (h2 : l ≤ ms.length) : (ms.take l).sum = (ms.take (l - 1)).sum + ms.getD (l - 1) 0 := by
  obtain ⟨k, rfl⟩ : ∃ k, l = k + 1 := ⟨l - 1, by omega⟩
  rw [List.take_add_one, List.sum_append, Nat.add_sub_cancel, List.getD_eq_getElem?_getD, List.getElem?_eq_getElem (by omega)]
  simp

theorem take_sum_le (ms : List ℕ) (l : ℕ) : (ms.take l).sum ≤ ms.sum := by
  conv_rhs => rw [← List.take_append_drop l ms, List.sum_append]
  omega

/-- If all widths are multiples of the spacing, layer `l` of `m` spacings has `m` samples, starting at its top. -/
theorem samples_mul (ms : List ℕ) (d : ℝ) (hd : 0 < d) (l : ℕ) (h1 : 1 ≤ l) (h2 : l ≤ ms.length) :
    Spec.samples (ms.map fun m : ℕ => (m : ℝ) * d) d l = (List.range (ms.getD (l - 1) 0)).map fun j : ℕ => (((ms.take (l - 1)).sum + j : ℕ) : ℝ) * d := by
  have hs : (ms.map fun m : ℕ => (m : ℝ) * d).sum = (ms.sum : ℕ) * d := by
    have := take_mul_sum ms d ms.length
    rwa [List.take_of_length_le (by simp), List.take_of_length_le (le_refl _)] at this
  unfold Spec.samples Spec.top Spec.bottom
  rw [take_mul_sum, take_mul_sum, hs, mul_div_assoc, div_self hd.ne', mul_one, Nat.ceil_natCast, List.filter_map, take_succ_sum ms l h1 h2]
  have : ((fun z : ℝ => decide (((ms.take (l - 1)).sum : ℕ) * d ≤ z ∧ z < ((ms.take (l - 1)).sum + ms.getD (l - 1) 0 : ℕ) * d)) ∘ fun i : ℕ => (i : ℝ) * d) =
      fun i => decide ((ms.take (l - 1)).sum ≤ i ∧ i < (ms.take (l - 1)).sum + ms.getD (l - 1) 0) := by
    funext i
    simp only [Function.comp, mul_le_mul_iff_of_pos_right hd, mul_lt_mul_iff_of_pos_right hd, Nat.cast_le, Nat.cast_lt]
  rw [this, range_filter _ _ _ (by rw [← take_succ_sum ms l h1 h2]; exact take_sum_le ms l), List.map_map]
  rfl

theorem rearLayers_eq (n : ℕ) (prof : List ℕ) (hp : prof.Pairwise (· < ·)) (h : ∀ p ∈ prof, 1 ≤ p ∧ p ≤ n) :
    rcwaRearLayers n prof = (prof.map fun p => n + 1 - p).reverse := by
  unfold rcwaRearLayers
  have e : (prof.map fun p => n - p + 1) = prof.map fun p => n + 1 - p := List.map_congr_left fun p hp => by have := h p hp; omega
  rw [e]
  refine List.Perm.eq_of_pairwise (le := (· ≤ ·)) (fun a b _ _ => le_antisymm) ?_ ?_ ((List.mergeSort_perm _ _).trans (List.reverse_perm _).symm)
  · simpa using List.pairwise_mergeSort (le := fun a b : ℕ => decide (a ≤ b)) (by simp; omega) (by simp; omega) (prof.map fun p => n + 1 - p)
  · rw [List.pairwise_reverse, List.pairwise_map]
    exact hp.imp_of_mem fun {a b} ha hb hab => by omega

/-- **C115 (partial).** Let all layer widths be multiples of the depth spacing `d` and the layers be requested in increasing order. The values stored for light from the front are the absorption densities at the depths
`C109` describes. Those stored for light from the rear, as many and in the same order, are the absorption densities not at these depths `z` but at `z + d` (the solver counts depths from the rear: `W - (z + d)`, `W` the total width).
Missing: the depths themselves (`C115_shift_fails`), other widths (`C115_layer_fails`), other orders (`C115_order_fails`). -/
theorem C115_shifted_partial (A A' : ℝ → ℝ) (ms : List ℕ) (d : ℝ) (hd : 0 < d) (prof : List ℕ) (hp : prof.Pairwise (· < ·)) (h : ∀ p ∈ prof, 1 ≤ p ∧ p ≤ ms.length) :
    let widths := ms.map fun m : ℕ => (m : ℝ) * d
    let depths := prof.flatMap (Spec.samples widths d)
    rcwaFrontProfile A widths d prof = some (depths.map A) ∧
    rcwaRearProfile A' widths d prof = some (depths.map fun z => A' (widths.sum - (z + d))) := by
  intro widths depths
  have hl : widths.length = ms.length := by simp [widths]
  have hp' : ∀ p ∈ prof, 1 ≤ p ∧ p ≤ widths.length := by rw [hl]; exact h
  constructor
  · have := C109_positions widths d prof hp'
    unfold calcDist profileLayers at this
    unfold rcwaFrontProfile rcwaFrontDist
    rw [Option.getD_some] at this
    rw [this]
    rfl
  · unfold rcwaRearProfile rcwaRearDist
    rw [rearLayers_eq _ prof hp hp', hl]
    have := C109_positions widths.reverse d (prof.map fun p => ms.length + 1 - p).reverse (by
      intro l hl'
      rw [List.mem_reverse, List.mem_map] at hl'
      obtain ⟨p, hpm, rfl⟩ := hl'
      have := h p hpm
      rw [List.length_reverse, hl]
      omega)
    unfold calcDist profileLayers at this
    rw [Option.getD_some] at this
    rw [this, Option.map_some]
    congr 1
    rw [← List.map_reverse, List.reverse_flatMap, List.reverse_reverse, List.flatMap_map, List.map_flatMap, List.map_flatMap]
    apply List.flatMap_congr
    intro p hpm
    obtain ⟨hp1, hp2⟩ := h p hpm
    have hrev : widths.reverse = ms.reverse.map fun m : ℕ => (m : ℝ) * d := by simp [widths]
    have hs : widths.sum = (ms.sum : ℕ) * d := by
      have := take_mul_sum ms d ms.length
      rwa [List.take_of_length_le (by simp), List.take_of_length_le (le_refl _)] at this
    have hg : ms.reverse.getD (ms.length + 1 - p - 1) 0 = ms.getD (p - 1) 0 := by
      rw [List.getD_eq_getElem?_getD, List.getD_eq_getElem?_getD, List.getElem?_reverse (by omega)]
      congr 2
      omega
    have ht : (ms.reverse.take (ms.length + 1 - p - 1)).sum + (ms.take p).sum = ms.sum := by
      rw [List.take_reverse, List.sum_reverse, show ms.length - (ms.length + 1 - p - 1) = p by omega, add_comm, ← List.sum_append, List.take_append_drop]
    simp only [Function.comp]
    rw [hrev, samples_mul _ d hd _ (by omega) (by simp; omega), samples_mul ms d hd p hp1 hp2, hg, hs]
    rw [take_succ_sum ms p hp1 hp2] at ht
    apply List.ext_getElem
    · simp
    · intro i h1 h2
      simp only [List.getElem_reverse, List.getElem_map, List.getElem_range, List.length_map, List.length_range]
      have hi : i < ms.getD (p - 1) 0 := by simpa using h2
      congr 1
      set m := ms.getD (p - 1) 0
      set a := (ms.reverse.take (ms.length + 1 - p - 1)).sum
      set b := (ms.take (p - 1)).sum
      have e : a + (m - 1 - i) + (b + i + 1) = ms.sum := by omega
      have : ((a + (m - 1 - i) : ℕ) : ℝ) + ((b + i : ℕ) : ℝ) + 1 = (ms.sum : ℕ) := by rw [← e]; push_cast; ring
      rw [← this]
      ring

/-- Two layers of 2 and 3 nm, both requested, spacing 1 nm. -/
example (A' : ℝ → ℝ) : rcwaRearProfile A' [2 * 1, 3 * 1] 1 [1, 2] = some [A' 4, A' 3, A' 2, A' 1, A' 0] := by
  have := (C115_shifted_partial A' A' [2, 3] 1 one_pos [1, 2] (by simp) (by simp)).2
  have s1 := samples_mul [2, 3] 1 one_pos 1 (by simp) (by simp)
  have s2 := samples_mul [2, 3] 1 one_pos 2 (by simp) (by simp)
  simp only [List.map_cons, List.map_nil, Nat.cast_ofNat] at this s1 s2
  rw [this]
  simp only [List.flatMap_cons, List.flatMap_nil, s1, s2]
  simp [List.range_succ]
  norm_num

/-- **C115 fails** for every such interface of which anything is requested: there is an absorption density (here: the distance from the rear) for which the values stored for light from the rear are not those at the depths
the values for light from the front belong to. -/
theorem C115_shift_fails (ms : List ℕ) (d : ℝ) (hd : 0 < d) (prof : List ℕ) (hp : prof.Pairwise (· < ·)) (h : ∀ p ∈ prof, 1 ≤ p ∧ p ≤ ms.length)
    (hne : prof.flatMap (Spec.samples (ms.map fun m : ℕ => (m : ℝ) * d) d) ≠ []) :
    rcwaRearProfile id (ms.map fun m : ℕ => (m : ℝ) * d) d prof ≠
      some ((prof.flatMap (Spec.samples (ms.map fun m : ℕ => (m : ℝ) * d) d)).map fun z => (ms.map fun m : ℕ => (m : ℝ) * d).sum - z) := by
  rw [(C115_shifted_partial id id ms d hd prof hp h).2]
  intro he
  obtain ⟨z, zs, hz⟩ := List.exists_cons_of_ne_nil hne
  rw [hz] at he
  simp at he
  linarith [he.1]

example : [1].flatMap (Spec.samples ([2].map fun m : ℕ => (m : ℝ) * 3) 3) ≠ [] := by
  have := samples_mul [2] 3 (by norm_num) 1 (by simp) (by simp)
  simp only [List.flatMap_cons, this, List.flatMap_nil]
  simp [List.range_succ]

theorem ceil_three : ⌈(3 : ℝ)⌉₊ = 3 := by norm_num

theorem two_one_sorted : rcwaRearLayers 2 [1, 2] = [1, 2] := by
  rw [rearLayers_eq 2 [1, 2] (by simp) (by simp)]; rfl

theorem two_one_sorted' : rcwaRearLayers 2 [2, 1] = [1, 2] := by
  unfold rcwaRearLayers
  exact List.mergeSort_of_pairwise (by simp)

/-- **C115 fails** if a layer width is not a multiple of the spacing: two layers of 1.5 nm, spacing 1 nm. The second value belongs to depth 1 nm, in the first layer; the one stored for light from the rear is that at 1 nm from the
rear, in the second layer. -/
theorem C115_layer_fails (A' : ℝ → ℝ) :
    rcwaFrontDist [3 / 2, 3 / 2] 1 [1, 2] = some [0, 1, 2] ∧ rcwaRearProfile A' [3 / 2, 3 / 2] 1 [1, 2] = some [A' 2, A' 1, A' 0] := by
  have hc : ⌈(3 / 2 + 3 / 2 : ℝ) / 1⌉₊ = 3 := by rw [show (3 / 2 + 3 / 2 : ℝ) / 1 = 3 by norm_num]; exact ceil_three
  have key : storedDepths [3 / 2, 3 / 2] 1 [1, 2] = some [0, 1, 2] := by
    have := C109_positions [3 / 2, 3 / 2] 1 [1, 2] (by simp)
    unfold calcDist profileLayers at this
    rw [Option.getD_some] at this
    rw [this]
    simp only [List.flatMap_cons, List.flatMap_nil, List.append_nil, Spec.samples, Spec.top, Spec.bottom]
    simp only [List.sum_cons, List.sum_nil, add_zero, hc]
    simp only [List.range_succ, List.range_zero, List.nil_append, List.cons_append, List.map_cons, List.map_nil, List.filter_cons, List.filter_nil]
    norm_num
  refine ⟨key, ?_⟩
  unfold rcwaRearProfile rcwaRearDist
  rw [show ([3 / 2, 3 / 2] : List ℝ).length = 2 from rfl, two_one_sorted, show ([3 / 2, 3 / 2] : List ℝ).reverse = [3 / 2, 3 / 2] from rfl, key]
  rfl

/-- **C115 fails** if the layers are not requested in increasing order: two layers of 1 nm requested as `[2, 1]`, spacing 1 nm. The first value belongs to the second layer; the one stored for light from the rear is that at 1 nm
from the rear, in the first layer. -/
theorem C115_order_fails (A' : ℝ → ℝ) :
    rcwaFrontDist [1, 1] 1 [2, 1] = some [1, 0] ∧ rcwaRearProfile A' [1, 1] 1 [2, 1] = some [A' 1, A' 0] := by
  have hc : ⌈(1 + 1 : ℝ) / 1⌉₊ = 2 := by norm_num
  have key : ∀ l : List ℕ, (∀ p ∈ l, 1 ≤ p ∧ p ≤ 2) → storedDepths [1, 1] 1 l = some (l.flatMap (Spec.samples [1, 1] 1)) := by
    intro l hl
    have := C109_positions [1, 1] 1 l (by simpa using hl)
    unfold calcDist profileLayers at this
    rwa [Option.getD_some] at this
  have s : Spec.samples [1, 1] 1 1 = [0] ∧ Spec.samples [1, 1] 1 2 = [1] := by
    constructor <;>
    · simp only [Spec.samples, Spec.top, Spec.bottom]
      simp only [List.sum_cons, List.sum_nil, add_zero, hc]
      simp only [List.range_succ, List.range_zero, List.nil_append, List.cons_append, List.map_cons, List.map_nil, List.filter_cons, List.filter_nil]
      norm_num
  constructor
  · unfold rcwaFrontDist
    rw [key _ (by simp)]
    simp [s.1, s.2]
  · unfold rcwaRearProfile rcwaRearDist
    rw [show ([1, 1] : List ℝ).length = 2 from rfl, two_one_sorted', show ([1, 1] : List ℝ).reverse = [1, 1] from rfl, key _ (by simp)]
    simp [s.1, s.2]

/-! ## C116 -/

/-- **C116.** If the power flux in a layer falls at the rate `a z` at depth `z` (absorbed power per depth), the profile value at depth `z` is `a ξ / incident power` for some `ξ` within 10⁻⁹ nm of `z`; in particular it is not negative if the
layer nowhere amplifies, and it is 0 in a layer that does not absorb. -/
theorem C116_density (flux a : ℝ → ℝ) (hflux : ∀ z, HasDerivAt flux (-a z) z) (z incpf : ℝ) (hi : 0 < incpf) :
    (∃ ξ, |ξ - z| < 1e-9 ∧ positionResolved flux z incpf = a ξ / incpf) ∧
    ((∀ z, 0 ≤ a z) → 0 ≤ positionResolved flux z incpf) ∧ ((∀ z, a z = 0) → positionResolved flux z incpf = 0) := by
  have key : ∃ ξ, |ξ - z| < 1e-9 ∧ positionResolved flux z incpf = a ξ / incpf := by
    obtain ⟨ξ, hξ, e⟩ := exists_hasDerivAt_eq_slope flux (fun z => -a z) (show z - 1e-9 < z + 1e-9 by norm_num; linarith)
      (fun x _ => (hflux x).continuousAt.continuousWithinAt) (fun x _ => hflux x)
    refine ⟨ξ, by rw [abs_lt]; constructor <;> linarith [hξ.1, hξ.2], ?_⟩
    have : a ξ = (flux (z - 1e-9) - flux (z + 1e-9)) / (2 * 1e-9) := by
      have e' : a ξ = -((flux (z + 1e-9) - flux (z - 1e-9)) / (z + 1e-9 - (z - 1e-9))) := by rw [← e]; ring
      rw [e', show z + 1e-9 - (z - 1e-9) = (2 * 1e-9 : ℝ) by ring]
      ring
    rw [this, positionResolved, div_div]
  refine ⟨key, fun h => ?_, fun h => ?_⟩
  · obtain ⟨ξ, _, e⟩ := key
    rw [e]; exact div_nonneg (h ξ) hi.le
  · obtain ⟨ξ, _, e⟩ := key
    rw [e, h ξ, zero_div]

example : ∀ z, HasDerivAt (fun z : ℝ => Real.exp (-z)) (-(Real.exp (-z))) z := fun z => by
  simpa using (hasDerivAt_neg z).exp

end Rayflare
