import Verif.Model.TMM
import Mathlib.Tactic.Linarith
import Mathlib.Tactic.NormNum
import Mathlib.Tactic.Ring
import Mathlib.Tactic.FieldSimp

/-!
# Properties C52–C54 and C81–C84: reversed stacks and the bookkeeping of `tmm_structure`
-/

namespace Rayflare

open Rayflare.Np Rayflare.Model

/-- Whatever the view looked like before, the loop stores the solver's lists, reversed if the stack was. -/
theorem polLoop_eq {α Pol : Type*} (flips : Bool) (run : Pol → List α) (v : View α) (ps : List Pol) :
    polLoop flips run v ps = ps.map fun p => (p, if flips then (run p).reverse else run p) := by
  induction ps generalizing v with
  | nil => rfl
  | cons p ps ih =>
    unfold polLoop
    simp only [ih, List.map_cons, List.cons.injEq, and_true, Prod.mk.injEq, true_and]
    cases flips <;> cases hf : v.flipped <;> simp [View.read, View.write, View.flip, hf]

/-! ## C52 -/

section
variable {L α Pol : Type*} (solveA : LayerStack L → Pol → List α) (solveP : LayerStack L → Pol → ℤ → α)
  (layers : List L) (coh : List Bool) (prof : List ℤ) (pols : List Pol) (junk : List α)

/-- **C52.** The lookup table has one entry for each side.  For side -1 the solver works on the reversed stack, in which the physical layer `j` (counted from 1 at the front) is layer `n + 1 - j`;
for every polarisation what is stored under label `j` is the solver's absorption in that very layer, and what is stored under the `k`-th of `prof_layers` are the solver's coefficients of that very
layer.  For side 1 the stack is not reversed. -/
theorem C52_labels (hlen : ∀ stk p, (solveA stk p).length = stk.layers.length) :
    ∃ fA fP rA rP, lookupTable solveA solveP layers coh prof pols [1, -1] junk = [(1, fA, fP), (-1, rA, rP)] ∧
      (∀ p ∈ pols, ∃ l, (p, l) ∈ fA ∧ l = solveA ⟨layers, coh⟩ p) ∧
      (∀ p ∈ pols, ∃ l, (p, l) ∈ fP ∧ l = prof.map (solveP ⟨layers, coh⟩ p)) ∧
      (∀ p l, (p, l) ∈ rA → ∀ j, 1 ≤ j → j ≤ layers.length →
        l[j - 1]? = (solveA ⟨layers.reverse, coh.reverse⟩ p)[(layers.length + 1 - j) - 1]? ∧
        layers.reverse[(layers.length + 1 - j) - 1]? = layers[j - 1]?) ∧
      (∀ p ∈ pols, ∃ l, (p, l) ∈ rA ∧ l.length = layers.length) ∧
      (∀ p l, (p, l) ∈ rP → l = prof.map fun j => solveP ⟨layers.reverse, coh.reverse⟩ p (layers.length + 1 - j)) ∧
      (∀ p ∈ pols, ∃ l, (p, l) ∈ rP) := by
  refine ⟨_, _, _, _, rfl, ?_, ?_, ?_, ?_, ?_, ?_⟩
  · intro p hp
    refine ⟨_, ?_, rfl⟩
    rw [polLoop_eq]
    exact List.mem_map.mpr ⟨p, hp, by simp [lookupStack]⟩
  · intro p hp
    refine ⟨_, ?_, rfl⟩
    rw [polLoop_eq]
    exact List.mem_map.mpr ⟨p, hp, by simp [lookupStack, lookupProf]⟩
  · intro p l hl j h1 h2
    rw [polLoop_eq] at hl
    obtain ⟨p', hp', he⟩ := List.mem_map.mp hl
    simp only [lookupStack] at he
    obtain ⟨rfl, rfl⟩ := Prod.mk.inj he
    have hl' := hlen ⟨layers.reverse, coh.reverse⟩ p'
    simp only [List.length_reverse] at hl'
    constructor
    · simp only [beq_self_eq_true, if_true]
      rw [List.getElem?_reverse (by omega)]
      congr 1
      omega
    · rw [List.getElem?_reverse (by omega)]
      congr 1
      omega
  · intro p hp
    refine ⟨_, by rw [polLoop_eq]; exact List.mem_map.mpr ⟨p, hp, rfl⟩, ?_⟩
    simp [lookupStack, hlen]
  · intro p l hl
    rw [polLoop_eq] at hl
    obtain ⟨p', hp', he⟩ := List.mem_map.mp hl
    simp only [lookupStack, lookupProf] at he
    obtain ⟨rfl, rfl⟩ := Prod.mk.inj he
    simp only [beq_self_eq_true, if_true, List.map_map, ← List.map_reverse, List.reverse_reverse]
    apply List.map_congr_left
    intro j _
    simp only [Function.comp]
    congr 1
    ring
  · intro p hp
    exact ⟨_, by rw [polLoop_eq]; exact List.mem_map.mpr ⟨p, hp, rfl⟩⟩

/-- A solver as in C52, on a stack of three layers. -/
example : ∀ (stk : LayerStack ℕ) (_ : Bool), (stk.layers.map fun l => (l : ℤ)).length = stk.layers.length := by simp

/-- **C52 for `TMM`.** The absorption stored for rear incidence is listed in front order, for every polarisation, whatever the array contained before. -/
theorem C52_tmm (run : Pol → List α) (v : View α) (p : Pol) (l : List α) (h : (p, l) ∈ polLoop true run v pols) (j : ℕ) (h1 : 1 ≤ j)
    (h2 : j ≤ (run p).length) : l[j - 1]? = (run p)[((run p).length + 1 - j) - 1]? := by
  rw [polLoop_eq] at h
  obtain ⟨p', -, he⟩ := List.mem_map.mp h
  obtain ⟨rfl, rfl⟩ := Prod.mk.inj he
  simp only [if_true]
  rw [List.getElem?_reverse (by omega)]
  congr 1
  omega

end

/-! ## C81 -/

/-- **C81 is violated.** If the sides are listed in the other order, `sides = [-1, 1]`, the table stores under side -1 the result for light from the front, with the layers in
the wrong order, and under side 1 the result for light from the rear. -/
theorem C81_sides_fails :
    ∃ (layers : List ℕ) (solveA : LayerStack ℕ → Unit → List ℕ),
      (∀ stk p, solveA stk p = stk.layers) ∧
      lookupTable solveA (fun _ _ _ => 0) layers [true, true] [] [()] [1, -1] [] = [(1, [((), [10, 20])], [((), [])]), (-1, [((), [10, 20])], [((), [])])] ∧
      lookupTable solveA (fun _ _ _ => 0) layers [true, true] [] [()] [-1, 1] [] = [(-1, [((), [20, 10])], [((), [])]), (1, [((), [20, 10])], [((), [])])] := by
  refine ⟨[10, 20], fun stk _ => stk.layers, fun _ _ => rfl, ?_, ?_⟩
  · simp [lookupTable, polLoop, lookupStack, lookupProf, View.read, View.write, View.flip]
  · simp [lookupTable, polLoop, lookupStack, lookupProf, View.read, View.write, View.flip]

/-- **C81, what does hold.** With the sides in the default order, each side gets the result for its own direction of incidence: side 1 the stack as given, side -1 the reversed stack, listed in
front order; the profile coefficients under label `l` are those of layer `n + 1 - l` of the reversed stack, which is the physical layer `l`. -/
theorem C81_default_partial {L α Pol : Type*} (solveA : LayerStack L → Pol → List α) (solveP : LayerStack L → Pol → ℤ → α)
    (layers : List L) (coh : List Bool) (prof : List ℤ) (pols : List Pol) (junk : List α) (side : ℤ) (a b : List (Pol × List α))
    (h : (side, a, b) ∈ lookupTable solveA solveP layers coh prof pols [1, -1] junk) :
    (side = 1 ∧ a = (pols.map fun p => (p, solveA ⟨layers, coh⟩ p)) ∧ b = pols.map fun p => (p, prof.map (solveP ⟨layers, coh⟩ p))) ∨
    (side = -1 ∧ a = (pols.map fun p => (p, (solveA ⟨layers.reverse, coh.reverse⟩ p).reverse)) ∧
      b = pols.map fun p => (p, prof.map fun l => solveP ⟨layers.reverse, coh.reverse⟩ p (layers.length - l + 1))) := by
  simp only [lookupTable, polLoop_eq, List.zipIdx_cons, List.zipIdx_nil, List.map_cons, List.map_nil, List.mem_cons, Prod.mk.injEq, List.not_mem_nil, or_false] at h
  rcases h with ⟨rfl, rfl, rfl⟩ | ⟨rfl, rfl, rfl⟩
  · left; simp [lookupStack, lookupProf]
  · right; simp [lookupStack, lookupProf, Function.comp_def]

/-! ## C53 -/

/-- **C53, lookup tables.** Each layer keeps its coherency label when the stack is reversed. -/
theorem C53_lookup {L : Type*} (layers : List L) (coh : List Bool) (hlen : coh.length = layers.length) :
    (lookupStack layers coh true).layers.zip (lookupStack layers coh true).coh = (layers.zip coh).reverse := by
  simp only [lookupStack, if_true]
  show List.zipWith Prod.mk _ _ = (List.zipWith Prod.mk _ _).reverse
  rw [List.reverse_zipWith hlen.symm]

/-- **C53, `TMM` violates it.** For rear incidence the labels are right only if the coherency list is a palindrome. -/
theorem C53_tmm_fails {L : Type*} (layers : List L) (coh : List Bool) (hlen : coh.length = layers.length) (h : coh.reverse ≠ coh) :
    (tmmStack layers coh false).layers.zip (tmmStack layers coh false).coh ≠ (layers.zip coh).reverse := by
  intro he
  apply h
  have h1 := congrArg (List.map Prod.snd) he
  simp only [tmmStack, Bool.false_eq_true, if_false] at h1
  rw [List.map_snd_zip (by simp [hlen]), List.map_reverse, List.map_snd_zip (by simp [hlen])] at h1
  exact h1.symm

/-- A stack violating C53: a coherent layer on an incoherent one. -/
example : [true, false].length = ["SiN", "Si"].length ∧ [true, false].reverse ≠ [true, false] := by decide

/-- **C53, what does hold for `TMM`.** Front incidence, and rear incidence if the coherency list is a palindrome (in particular for coherent stacks). -/
theorem C53_tmm_partial {L : Type*} (layers : List L) (coh : List Bool) (hlen : coh.length = layers.length) :
    (tmmStack layers coh true).layers.zip (tmmStack layers coh true).coh = layers.zip coh ∧
    (coh.reverse = coh → (tmmStack layers coh false).layers.zip (tmmStack layers coh false).coh = (layers.zip coh).reverse) := by
  refine ⟨rfl, fun h => ?_⟩
  simp only [tmmStack, Bool.false_eq_true, if_false]
  conv_lhs => rw [← h]
  show List.zipWith Prod.mk _ _ = (List.zipWith Prod.mk _ _).reverse
  rw [List.reverse_zipWith hlen.symm]

/-- **C53, the labels handed to the solver.** If the list has as many entries as there are layers, layer `l` (medium 0 is the incidence medium) gets entry `l - 1` and the outer media are incoherent;
otherwise the calculation is refused. -/
theorem C53_coherency_list (n : ℕ) (nbr : Bool) (coh : List Bool) :
    (coh.length = n → ∃ l, buildCohList n nbr coh = some l ∧ l[0]? = some false ∧ (∀ i < n, l[i + 1]? = coh[i]?) ∧
      (∀ i, n < i → i < l.length → l[i]? = some false) ∧ l.length = n + (if nbr then 3 else 2)) ∧
    (coh.length ≠ n → buildCohList n nbr coh = none) := by
  constructor
  · intro h
    refine ⟨_, by rw [buildCohList, if_pos h], by simp, ?_, ?_, ?_⟩
    · intro i hi
      simp [List.getElem?_append, h, hi]
    · intro i h1 h2
      obtain ⟨i', rfl⟩ : ∃ i', i = i' + 1 := ⟨i - 1, by omega⟩
      simp only [List.cons_append, List.nil_append, List.getElem?_cons_succ]
      rw [List.getElem?_append_right (by omega), h]
      have h3 : i' - n < (if nbr then [false, false] else [false] : List Bool).length := by
        simp only [List.cons_append, List.nil_append, List.length_cons, List.length_append] at h2; omega
      cases nbr
      · have : i' - n = 0 := by simp at h3; omega
        simp [this]
      · simp only [if_true] at h3 ⊢
        have h3' : i' - n < 2 := h3
        rcases Nat.lt_or_ge (i' - n) 1 with h4 | h4
        · rw [show i' - n = 0 by omega]; rfl
        · rw [show i' - n = 1 by omega]; rfl
    · cases nbr <;> simp [h]
  · intro h; rw [buildCohList, if_neg h]

/-! ## C54 -/

theorem sum_map_mul_div (l : List ℝ) (t S : ℝ) : (l.map fun a => a * t / S).sum = l.sum * t / S := by
  induction l with
  | nil => simp
  | cons a l ih => simp only [List.map_cons, List.sum_cons, ih]; ring

/-- **C54, one polarisation, incoherent.** Per-layer absorptions are non-negative; they add up to `A`, which is `1 - R - T` (zero if that is negative), unless all of the solver's per-layer absorptions are
zero or negative, in which case they are all zero. -/
theorem C54_incoherent_pol (o : Solved) :
    let r := calcIncPol o
    r.R = o.R ∧ r.T = o.T ∧ r.A = max 0 (1 - o.R - o.T) ∧ (∀ a ∈ r.perLayer, 0 ≤ a) ∧
    ((∃ a ∈ inner o.A, 0 < a) → r.perLayer.sum = r.A) ∧ ((∀ a ∈ inner o.A, a ≤ 0) → ∀ a ∈ r.perLayer, a = 0) := by
  intro r
  set A := inner (o.A.map fun a => if a < 0 then 0 else a) with hA
  have hin : A = (inner o.A).map fun a => if a < 0 then 0 else a := by
    rw [hA]; unfold inner; rw [← List.map_tail, ← List.map_dropLast]
  have hnn : ∀ a ∈ A, 0 ≤ a := by
    intro a ha
    rw [hin] at ha
    obtain ⟨b, -, rfl⟩ := List.mem_map.mp ha
    split_ifs <;> linarith
  have htot : r.A = max 0 (1 - o.R - o.T) := by
    show (if 1 - o.R - o.T < 0 then 0 else 1 - o.R - o.T) = _
    split_ifs with h
    · rw [max_eq_left h.le]
    · rw [max_eq_right (not_lt.mp h)]
  have htot0 : 0 ≤ r.A := by rw [htot]; exact le_max_left _ _
  have hper : r.perLayer = A.map fun a => if A.sum ≠ 0 then a * r.A / A.sum else a := rfl
  have hsum0 : 0 ≤ A.sum := List.sum_nonneg hnn
  refine ⟨rfl, rfl, htot, ?_, ?_, ?_⟩
  · intro a ha
    rw [hper] at ha
    obtain ⟨b, hb, rfl⟩ := List.mem_map.mp ha
    have := hnn b hb
    split_ifs
    · positivity
    · exact this
  · rintro ⟨a, ha, hpos⟩
    have hmem : a ∈ A := by
      rw [hin]; exact List.mem_map.mpr ⟨a, ha, by rw [if_neg (not_lt.mpr hpos.le)]⟩
    have hS : 0 < A.sum := lt_of_lt_of_le hpos (List.single_le_sum hnn a hmem)
    rw [hper]
    simp only [ne_eq, hS.ne', not_false_eq_true, if_true]
    rw [sum_map_mul_div]
    field_simp
  · intro h a ha
    have hz : ∀ b ∈ A, b = 0 := by
      intro b hb
      rw [hin] at hb
      obtain ⟨b', hb', rfl⟩ := List.mem_map.mp hb
      have := h b' hb'
      split_ifs with h1
      · rfl
      · linarith
    rw [hper] at ha
    obtain ⟨b, hb, rfl⟩ := List.mem_map.mp ha
    rw [hz b hb]
    split_ifs <;> simp

/-- A solver result to which C54 applies: two layers, 60 % absorbed. -/
example : ∃ a ∈ inner (Solved.mk 0.3 0.1 [0.3, 0.4, 0.2, 0.1]).A, 0 < a := ⟨0.4, by simp [inner], by norm_num⟩

theorem sum_mapIdx_const (l : List ℝ) (t S : ℝ) (junk : ℕ → ℝ) (hS : S ≠ 0) :
    (l.mapIdx fun i a => divideWhere (decide (S ≠ 0)) (junk i) (a * t) S).sum = l.sum * t / S := by
  have : (l.mapIdx fun i a => divideWhere (decide (S ≠ 0)) (junk i) (a * t) S) = l.map fun a => a * t / S := by
    rw [List.mapIdx_eq_zipIdx_map]
    conv_rhs => rw [← List.zipIdx_map_fst 0 l, List.map_map]
    apply List.map_congr_left
    intro p _
    simp [divideWhere, hS]
  rw [this, sum_map_mul_div]

/-- **C54, unpolarised, incoherent.** `R` and `T` are the means of those for p and s; `A` is `1 - R - T` and the mean of the two polarisations' `A` if these are not negative; the per-layer absorptions add up
to `A` unless the solver's mean per-layer absorptions add up to zero. -/
theorem C54_incoherent_u (p s : Solved) (junk : ℕ → ℝ) (h : (List.zipWith (fun a b => (0.5 : ℝ) * (a + b)) (inner p.A) (inner s.A)).sum ≠ 0) :
    let r := calcIncU p s junk
    r.R = ((calcIncPol p).R + (calcIncPol s).R) / 2 ∧ r.T = ((calcIncPol p).T + (calcIncPol s).T) / 2 ∧ r.A = 1 - r.R - r.T ∧
    (0 ≤ 1 - p.R - p.T → 0 ≤ 1 - s.R - s.T → r.A = ((calcIncPol p).A + (calcIncPol s).A) / 2) ∧ r.perLayer.sum = r.A := by
  intro r
  refine ⟨?_, ?_, rfl, ?_, ?_⟩
  · show 0.5 * (p.R + s.R) = (p.R + s.R) / 2; norm_num; ring
  · show 0.5 * (p.T + s.T) = (p.T + s.T) / 2; norm_num; ring
  · intro h1 h2
    show 1 - 0.5 * (p.R + s.R) - 0.5 * (p.T + s.T) = ((if 1 - p.R - p.T < 0 then 0 else 1 - p.R - p.T) + (if 1 - s.R - s.T < 0 then 0 else 1 - s.R - s.T)) / 2
    rw [if_neg (not_lt.mpr h1), if_neg (not_lt.mpr h2)]
    norm_num; ring
  · show (List.mapIdx _ _).sum = _
    rw [sum_mapIdx_const _ _ _ _ h]
    field_simp
    rfl

theorem sum_zipWith_half (a b : List ℝ) (h : a.length = b.length) : (List.zipWith (fun x y => (0.5 : ℝ) * (x + y)) a b).sum = (a.sum + b.sum) / 2 := by
  induction a generalizing b with
  | nil => cases b with
    | nil => simp
    | cons _ _ => simp at h
  | cons x a ih => cases b with
    | nil => simp at h
    | cons y b =>
      simp only [List.zipWith_cons_cons, List.sum_cons, ih b (by simpa using h)]
      norm_num; ring

/-- **C54, coherent.** If the solver's result adds up for both polarisations, so does the unpolarised one, and it is the mean. -/
theorem C54_coherent (p s : Solved) (hlen : p.A.length = s.A.length) (hp : p.R + p.T + (inner p.A).sum = 1) (hs : s.R + s.T + (inner s.A).sum = 1) :
    (∀ o ∈ [p, s], (calcCohPol o).perLayer.sum = (calcCohPol o).A ∧ (calcCohPol o).A = 1 - o.R - o.T) ∧
    (calcCohU p s).R = (p.R + s.R) / 2 ∧ (calcCohU p s).T = (p.T + s.T) / 2 ∧ (calcCohU p s).A = ((calcCohPol p).A + (calcCohPol s).A) / 2 ∧
    (calcCohU p s).perLayer.sum = (calcCohU p s).A := by
  have hl : (inner p.A).length = (inner s.A).length := by simp [inner, hlen]
  refine ⟨?_, ?_, ?_, ?_, ?_⟩
  · intro o ho
    simp only [List.mem_cons, List.not_mem_nil, or_false] at ho
    rcases ho with rfl | rfl
    · exact ⟨by show (inner o.A).sum = 1 - o.R - o.T; linarith, rfl⟩
    · exact ⟨by show (inner o.A).sum = 1 - o.R - o.T; linarith, rfl⟩
  · show 0.5 * (p.R + s.R) = _; norm_num; ring
  · show 0.5 * (p.T + s.T) = _; norm_num; ring
  · show 1 - 0.5 * (p.R + s.R) - 0.5 * (p.T + s.T) = ((1 - p.R - p.T) + (1 - s.R - s.T)) / 2; norm_num; ring
  · show (List.zipWith _ _ _).sum = 1 - 0.5 * (p.R + s.R) - 0.5 * (p.T + s.T)
    rw [sum_zipWith_half _ _ hl]
    norm_num; linarith

/-! ## C82 -/

/-- **C82 is violated.** For unpolarised light and a stack that absorbs nothing, the per-layer absorption returned is whatever the memory contained. -/
theorem C82_transparent_fails (p s : Solved) (hp : ∀ a ∈ inner p.A, a = 0) (hs : ∀ a ∈ inner s.A, a = 0) (hlen : p.A.length = s.A.length) (junk : ℕ → ℝ) :
    (calcIncU p s junk).perLayer = (List.range (inner p.A).length).map junk := by
  have hl : (inner p.A).length = (inner s.A).length := by simp [inner, hlen]
  have hz : List.zipWith (fun a b => (0.5 : ℝ) * (a + b)) (inner p.A) (inner s.A) = List.replicate (inner p.A).length 0 := by
    apply List.ext_getElem
    · simp [hl]
    · intro i h1 h2
      simp only [List.getElem_zipWith, List.getElem_replicate]
      rw [hp _ (List.getElem_mem _), hs _ (List.getElem_mem _)]
      norm_num
  show List.mapIdx _ (List.zipWith _ _ _) = _
  rw [hz]
  apply List.ext_getElem
  · simp
  · intro i h1 h2
    simp [divideWhere]

/-- A transparent stack of two layers that reflects 20 % and transmits 80 %: any pair of numbers may be returned as its absorption. -/
example (x y : ℝ) : (calcIncU ⟨0.2, 0.8, [0.2, 0, 0, 0.8]⟩ ⟨0.2, 0.8, [0.2, 0, 0, 0.8]⟩ (fun i => if i = 0 then x else y)).perLayer = [x, y] := by
  rw [C82_transparent_fails _ _ (by simp [inner]) (by simp [inner]) rfl]
  simp [inner, List.range_succ]

/-- **C82, what does hold.** One polarisation: zero (C54). Unpolarised with a non-zero total: memory has no influence. -/
theorem C82_independent_partial (p s : Solved) (junk junk' : ℕ → ℝ) :
    (∀ o : Solved, (∀ a ∈ inner o.A, a = 0) → ∀ a ∈ (calcIncPol o).perLayer, a = 0) ∧
    ((List.zipWith (fun a b => (0.5 : ℝ) * (a + b)) (inner p.A) (inner s.A)).sum ≠ 0 → (calcIncU p s junk).perLayer = (calcIncU p s junk').perLayer) := by
  constructor
  · intro o h
    exact (C54_incoherent_pol o).2.2.2.2.2 fun a ha => (h a ha).le
  · intro h
    show List.mapIdx _ _ = List.mapIdx _ _
    congr 1
    funext i a
    simp only [divideWhere, decide_eq_true h, if_true]

/-! ## C83 -/

/-- Fraction of the incident light that reaches layer `l` (numbered from 1) on the way down: what is neither reflected nor absorbed in the layers before. `A` lists the first medium (which absorbs
the reflected light), the layers and the last medium. -/
def reaching (A : List ℝ) (l : ℕ) : ℝ := 1 - (A.take l).sum

/-- **C83 is violated for one polarisation.** The coefficient of incoherent layer 1 uses what is left *after* that layer and ignores the reflected light. -/
theorem C83_reaching_fails : ∃ o : Solved, o.R + o.T + (inner o.A).sum = 1 ∧ o.A = [o.R] ++ inner o.A ++ [o.T] ∧
    fracReachingPol o 1 = some (3 / 4) ∧ reaching o.A 1 = 1 / 2 := by
  refine ⟨⟨1 / 2, 1 / 4, [1 / 2, 1 / 4, 1 / 4]⟩, ?_, ?_, ?_, ?_⟩
  · norm_num [inner]
  · simp [inner]
  · norm_num [fracReachingPol, cumsumL, calcIncPol, inner]
  · norm_num [reaching]

/-- **C83 is violated for unpolarised light, too:** the result does not depend on p at all. -/
theorem C83_reaching_u_fails : ∃ p s : Solved, p.A.length = s.A.length ∧ fracReachingU p s 1 ≠ some ((reaching p.A 1 + reaching s.A 1) / 2) := by
  refine ⟨⟨0, 3 / 4, [0, 1 / 4, 3 / 4]⟩, ⟨1 / 2, 1 / 4, [1 / 2, 1 / 4, 1 / 4]⟩, rfl, ?_⟩
  norm_num [fracReachingU, cumsumL, reaching]

/-- **C83, what does hold.** For unpolarised light the value used is the fraction of the s-polarised light that reaches the layer; right if the polarisations agree. -/
theorem C83_reaching_partial (p s : Solved) (l : ℕ) (h1 : 1 ≤ l) (h2 : l ≤ s.A.length) :
    fracReachingU p s l = some (reaching s.A l) ∧ (p.A = s.A → fracReachingU p s l = some ((reaching p.A l + reaching s.A l) / 2)) := by
  have h : fracReachingU p s l = some (reaching s.A l) := by
    unfold fracReachingU cumsumL reaching
    rw [List.getElem?_map, List.getElem?_range (by omega), Option.map_some, Option.map_some, show l - 1 + 1 = l by omega]
    congr 1
    norm_num; ring
  refine ⟨h, fun e => ?_⟩
  rw [h, e]; congr 1; ring

/-- **C83, one polarisation: what is stored instead.** If the fractions reported by the solver are not negative and add up to one, the factor of layer `l` is the fraction that reaches it plus the reflected light minus what the layer
absorbs, so it is right exactly for a layer that absorbs as much as is reflected. -/
theorem C83_reaching_pol_partial (R T : ℝ) (L : List ℝ) (hL : ∀ a ∈ L, 0 ≤ a) (hsum : R + L.sum + T = 1) (l : ℕ) (h1 : 1 ≤ l) (h2 : l ≤ L.length) :
    fracReachingPol ⟨R, T, [R] ++ L ++ [T]⟩ l = some (reaching ([R] ++ L ++ [T]) l + R - L[l - 1]) ∧
    (fracReachingPol ⟨R, T, [R] ++ L ++ [T]⟩ l = some (reaching ([R] ++ L ++ [T]) l) ↔ L[l - 1] = R) := by
  have hmap : (L.map fun a => if a < 0 then 0 else a) = L := by
    conv_rhs => rw [← List.map_id L]
    exact List.map_congr_left fun a ha => if_neg (not_lt.mpr (hL a ha))
  have hs : 0 ≤ L.sum := List.sum_nonneg hL
  have hper : (calcIncPol ⟨R, T, [R] ++ L ++ [T]⟩).perLayer = L := by
    have hin : inner (([R] ++ L ++ [T]).map fun a => if a < 0 then 0 else a) = L := by
      rw [List.map_append, List.map_append, hmap]
      simp [inner]
    show (inner _).map _ = L
    simp only [hin]
    have ht : (if 1 - R - T < 0 then 0 else 1 - R - T) = L.sum := by rw [if_neg (by linarith)]; linarith
    rw [ht]
    conv_rhs => rw [← List.map_id L]
    refine List.map_congr_left fun a _ => ?_
    by_cases h : L.sum = 0
    · simp [h]
    · rw [if_pos h, mul_div_cancel_right₀ _ h]; rfl
  have key : fracReachingPol ⟨R, T, [R] ++ L ++ [T]⟩ l = some (reaching ([R] ++ L ++ [T]) l + R - L[l - 1]) := by
    unfold fracReachingPol cumsumL reaching
    rw [hper, List.getElem?_map, List.getElem?_range (by omega), Option.map_some, Option.map_some]
    congr 1
    obtain ⟨i, rfl⟩ : ∃ i, l = i + 1 := ⟨l - 1, by omega⟩
    simp only [Nat.add_sub_cancel, List.nil_append, List.cons_append, List.take_succ_cons, List.sum_cons]
    rw [List.take_append_of_le_length (by omega), List.sum_take_succ _ _ (by omega)]
    ring
  refine ⟨key, ?_⟩
  rw [key, Option.some.injEq]
  constructor <;> intro h <;> linarith

/-- A stack of two layers that reflects 1/2 and absorbs 1/4 in the first and 1/8 in the second layer. -/
example : fracReachingPol ⟨1 / 2, 1 / 8, [1 / 2, 1 / 4, 1 / 8, 1 / 8]⟩ 2 = some (5 / 8) := by
  have h := (C83_reaching_pol_partial (1 / 2) (1 / 8) [1 / 4, 1 / 8] (by simp) (by norm_num) 2 (by norm_num) (by simp)).1
  norm_num [reaching] at h ⊢
  exact h

/-! ## C84 -/

/-- **C84 is violated.** In a partly incoherent stack the coefficients stored for unpolarised light are those for s polarisation, not the mean of s and p. -/
theorem C84_mean_fails {O : Type*} (coeff : O → ℝ) (outP outS : O) (h : coeff outP ≠ coeff outS) :
    incCoeffU coeff outP outS = coeff outS ∧ incCoeffU coeff outP outS ≠ (coeff outP + coeff outS) / 2 := by
  have h1 : incCoeffU coeff outP outS = coeff outS := by unfold incCoeffU; norm_num; ring
  refine ⟨h1, fun he => h ?_⟩
  rw [h1] at he; linarith

/-- Different coefficients for the two polarisations. -/
example : (fun x : ℝ => x) 1 ≠ (fun x : ℝ => x) 2 := by norm_num

/-- **C84, what does hold.** The mean is stored if the two polarisations have the same coefficients, as at normal incidence. -/
theorem C84_equal_partial {O : Type*} (coeff : O → ℝ) (outP outS : O) (h : coeff outP = coeff outS) :
    incCoeffU coeff outP outS = (coeff outP + coeff outS) / 2 := by
  unfold incCoeffU; rw [h]; norm_num; ring

end Rayflare
