import Verif.Spec.RcwaShapes
import Verif.Props.RCWAFlux
import Mathlib.Analysis.Convex.Combination
import Mathlib.Tactic.NormNum
import Mathlib.Tactic.FinCases

/-!
# Properties C140 to C143: absorption per diffraction order, options of the solver, shapes and their materials in RCWA calculations
-/

namespace Rayflare

open Rayflare.Np Rayflare.Model Rayflare.Spec

/-! ## C140 -/

variable {K V Ord : Type*}

/-- What S4 guarantees: one flux per order of the basis set, and the fluxes of the orders add up to the flux in the layer. -/
structure OrdersAddUp (S : RcwaSim Ord) : Prop where
  length : ∀ l, (S.byOrder l).length = S.basis.length
  fwd : ∀ l, ((S.byOrder l).map fun f => f.1).sum = (S.flux l).1
  bwd : ∀ l, ((S.byOrder l).map fun f => f.2).sum = (S.flux l).2

theorem zipWith_diff_sum (P : ℝ) : ∀ a b : List ℝ, a.length = b.length → (List.zipWith (fun t u => (t - u) / P) a b).sum = (a.sum - b.sum) / P
  | [], [], _ => by simp
  | x :: a, y :: b, h => by
    have := zipWith_diff_sum P a b (by simpa using h)
    simp only [List.zipWith_cons_cons, List.sum_cons, this]
    ring

theorem pair_sum (l : List (ℝ × ℝ)) : (l.map fun f => f.1 + f.2).sum = (l.map fun f => f.1).sum + (l.map fun f => f.2).sum := by
  induction l with
  | nil => simp
  | cons a l ih => simp only [List.map_cons, List.sum_cons, ih]; ring

theorem orders_length (S : RcwaSim Ord) (n : ℕ) (P : ℝ) : (rcwaAbsorptionOrder S.byOrder n P).length = n - 2 := by simp [rcwaAbsorptionOrder]

theorem orders_row (S : RcwaSim Ord) (hS : OrdersAddUp S) (n : ℕ) (P : ℝ) (i : ℕ) (row : List ℝ) (h : (rcwaAbsorptionOrder S.byOrder n P)[i]? = some row) :
    row.length = S.basis.length ∧ row.sum = (netFlux S.flux (i + 2) - netFlux S.flux (i + 3)) / P := by
  have hi : i < n - 2 := by
    obtain ⟨h1, -⟩ := List.getElem?_eq_some_iff.mp h
    rwa [orders_length] at h1
  simp only [rcwaAbsorptionOrder, List.map_map, List.getElem?_map, List.getElem?_range hi, Option.map_some, Function.comp_apply, Option.some.injEq] at h
  subst h
  constructor
  · simp [hS.length]
  · rw [zipWith_diff_sum P _ _ (by simp [hS.length]), pair_sum, pair_sum, hS.fwd, hS.bwd, hS.fwd, hS.bwd]
    rfl

theorem absorption_get (flux : ℕ → ℝ × ℝ) (n : ℕ) (P : ℝ) (i : ℕ) (hi : i < n - 2) :
    (rcwaAbsorption flux n P)[i]? = some ((if netFlux flux (i + 2) - netFlux flux (i + 3) > 0 then netFlux flux (i + 2) - netFlux flux (i + 3) else 0) / P) := by
  simp [rcwaAbsorption, List.getElem?_map, List.getElem?_range hi, netFlux]

/-- The structure was made with the options `oc` and `calculate` is called with the options `o`. -/
noncomputable def rcwaRun (newS4 : (K → V) → RcwaSim Ord) (newInk : RcwaSim Ord) (n : ℕ) (defaults : K → V) (oc o : RcwaOpt K V) : Option (RcwaResult Ord) :=
  rcwaCalculate newS4 newInk n (userOptions defaults oc) o

theorem readOptions_merged (defaults : K → V) (g : Option (OptDict K V)) : readOptions (mergedOptions defaults g) = some fun k => (g.bind fun d => d k).getD (defaults k) := by
  unfold readOptions
  rw [dif_pos (by intro k; simp [mergedOptions])]
  simp [mergedOptions]

theorem readOptions_some (d : OptDict K V) (f : K → V) : readOptions d = some f ↔ ∀ k, d k = some (f k) := by
  unfold readOptions
  constructor
  · intro h k
    split_ifs at h with hd
    rw [Option.some.injEq] at h
    rw [← h]
    exact (Option.some_get (hd k)).symm
  · intro h
    have hd : ∀ k, (d k).isSome := fun k => by simp [h k]
    rw [dif_pos hd]
    congr 1
    funext k
    simp [h k]

/-- **C140, what holds.** Light per order adds up in the solver, no layer emits light: in what `calculate` returns with `A_per_order`, the absorption in each layer is the sum of the absorptions per order of that layer, and there is one value per
order the calculation was made with. -/
theorem C140_sum_partial (newS4 : (K → V) → RcwaSim Ord) (newInk : RcwaSim Ord) (n : ℕ) (defaults : K → V) (oc o : RcwaOpt K V)
    (hS : ∀ f, OrdersAddUp (newS4 f)) (hpos : ∀ f, 0 < ((newS4 f).flux 1).1) (hdec : ∀ f l, 2 ≤ l → l < n → netFlux (newS4 f).flux (l + 1) ≤ netFlux (newS4 f).flux l)
    (res : RcwaResult Ord) (h : rcwaRun newS4 newInk n defaults oc o = some res) (Ao : List (List ℝ)) (basis : List Ord) (hAo : res.orders = some (Ao, basis)) :
    Ao.length = n - 2 ∧ res.A = Ao.map List.sum ∧ ∃ f, ∀ row ∈ Ao, row.length = (newS4 f).basis.length := by
  unfold rcwaRun rcwaCalculate at h
  cases hm : o.method with
  | inkstone =>
    rw [hm] at h
    simp only at h
    split_ifs at h
    rw [Option.some.injEq] at h
    rw [← h] at hAo
    simp at hAo
  | s4 =>
    rw [hm] at h
    simp only [Option.bind_eq_some_iff] at h
    obtain ⟨f, -, h⟩ := h
    split_ifs at h
    · obtain ⟨S', -, rfl⟩ := Option.map_eq_some_iff.mp h
      simp only [Option.some.injEq, Prod.mk.injEq] at hAo
      obtain ⟨rfl, rfl⟩ := hAo
      set P := (rcwaRT (newS4 f).flux n).2.2
      have hP : 0 < P := hpos f
      refine ⟨orders_length _ _ _, ?_, f, ?_⟩
      · apply List.ext_getElem?
        intro i
        simp only [List.getElem?_map]
        by_cases hi : i < n - 2
        · have hlt : i < (rcwaAbsorptionOrder (newS4 f).byOrder n P).length := by rw [orders_length]; exact hi
          rw [absorption_get _ _ _ _ hi, List.getElem?_eq_getElem hlt, Option.map_some,
            (orders_row _ (hS f) n P i _ (List.getElem?_eq_getElem hlt)).2]
          congr 2
          have := hdec f (i + 2) (by omega) (by omega)
          simp only [show i + 2 + 1 = i + 3 from rfl] at this
          split_ifs with h1
          · rfl
          · linarith
        · rw [List.getElem?_eq_none (by simp [rcwaAbsorption]; omega), List.getElem?_eq_none (by rw [orders_length]; omega)]
          rfl
      · intro row hrow
        obtain ⟨i, hi, rfl⟩ := List.mem_iff_getElem.mp hrow
        exact (orders_row _ (hS f) n P i _ (List.getElem?_eq_getElem hi)).1
    · rw [Option.some.injEq] at h
      rw [← h] at hAo
      simp at hAo

/-- **C140, labels, what holds.** If `calculate` is given the same complete dictionary "S4_options" as the structure was made with, the returned basis set is the one the calculation was made with: entry `i` of each layer belongs to order `i` of the returned
basis set. -/
theorem C140_labels_partial (newS4 : (K → V) → RcwaSim Ord) (newInk : RcwaSim Ord) (n : ℕ) (defaults : K → V) (oc o : RcwaOpt K V) (hoc : oc.method = .s4) (ho : o.method = .s4) (hper : o.perOrder = true)
    (d : OptDict K V) (f : K → V) (hf : ∀ k, d k = some (f k)) (h1 : oc.s4 = some d) (h2 : o.s4 = some d) :
    ∃ res, rcwaRun newS4 newInk n defaults oc o = some res ∧
      res.orders = some (rcwaAbsorptionOrder (newS4 f).byOrder n ((newS4 f).flux 1).1, (newS4 f).basis) := by
  have e : (fun k => ((some d).bind fun d => d k).getD (defaults k)) = f := by funext k; simp [hf k]
  refine ⟨⟨(rcwaRT (newS4 f).flux n).1, (rcwaRT (newS4 f).flux n).2.1, rcwaAbsorption (newS4 f).flux n ((newS4 f).flux 1).1,
    some (rcwaAbsorptionOrder (newS4 f).byOrder n ((newS4 f).flux 1).1, (newS4 f).basis)⟩, ?_, rfl⟩
  unfold rcwaRun rcwaCalculate userOptions makeS
  rw [ho, hoc, h1, h2]
  simp only [Option.bind_some, readOptions_merged, hper, if_true, (readOptions_some d f).mpr hf, Option.map_some]
  simp only [Option.bind_some] at e
  rw [e]
  rfl

/-- **C140, exceptions.** With `A_per_order`, `calculate` always fails for Inkstone; for S4 it fails unless the dictionary "S4_options" given to it is complete, although the calculation itself does not need it. -/
theorem C140_raises (newS4 : (K → V) → RcwaSim Ord) (newInk : RcwaSim Ord) (n : ℕ) (defaults : K → V) (oc o : RcwaOpt K V) (hper : o.perOrder = true) :
    (o.method = .inkstone → rcwaRun newS4 newInk n defaults oc o = none) ∧
    (o.method = .s4 → oc.method = .s4 → (rcwaRun newS4 newInk n defaults oc o = none ↔ ∀ d, o.s4 = some d → ∃ k, d k = none)) := by
  constructor
  · intro hm
    simp [rcwaRun, rcwaCalculate, hm, hper]
  · intro hm hc
    unfold rcwaRun rcwaCalculate userOptions makeS
    rw [hm, hc]
    simp only [Option.bind_some, readOptions_merged, hper, if_true]
    cases hd : o.s4 with
    | none => simp
    | some d =>
      simp only [Option.bind_some, Option.map_eq_none_iff]
      unfold readOptions
      by_cases h : ∀ k, (d k).isSome
      · rw [dif_pos h]
        simp only [reduceCtorEq, Option.some.injEq, forall_eq', false_iff, not_exists]
        intro k hk
        simpa [hk] using h k
      · rw [dif_neg h]
        push Not at h
        obtain ⟨k, hk⟩ := h
        simp only [Option.some.injEq, forall_eq', true_iff]
        exact ⟨k, by simpa using hk⟩

/-- A solver with one option (lattice truncation) and two or three orders depending on it; a single layer absorbing half of the light. -/
noncomputable def exSim (f : Unit → Bool) : RcwaSim ℤ :=
  { basis := if f () then [0, 1, -1] else [0, 1]
    flux := fun l => if l ≤ 2 then (1, 0) else (1 / 2, 0)
    byOrder := fun l => if f () then (if l ≤ 2 then [(1, 0), (0, 0), (0, 0)] else [(0, 0), (1 / 4, 0), (1 / 4, 0)]) else (if l ≤ 2 then [(1, 0), (0, 0)] else [(1 / 4, 0), (1 / 4, 0)]) }

theorem exSim_ok (f : Unit → Bool) : OrdersAddUp (exSim f) := by
  constructor <;> intro l <;> simp only [exSim] <;> cases f () <;> by_cases h : l ≤ 2 <;> simp [h] <;> norm_num

/-- The hypotheses of `C140_sum_partial` are met, and the calculation succeeds. -/
example : (∀ f, OrdersAddUp (exSim f)) ∧ (∀ f, 0 < ((exSim f).flux 1).1) ∧ (∀ f l, 2 ≤ l → l < 3 → netFlux (exSim f).flux (l + 1) ≤ netFlux (exSim f).flux l) ∧
    ∃ res, rcwaRun exSim (exSim fun _ => true) 3 (fun _ => true) ⟨.s4, some fun _ => some true, true⟩ ⟨.s4, some fun _ => some true, true⟩ = some res ∧ res.orders.isSome := by
  refine ⟨exSim_ok, fun f => by simp [exSim], ?_, ?_⟩
  · intro f l h1 h2
    have : l = 2 := by omega
    subst this
    norm_num [exSim, netFlux]
  · obtain ⟨res, h1, h2⟩ := C140_labels_partial exSim (exSim fun _ => true) 3 (fun _ : Unit => true) ⟨.s4, some fun _ => some true, true⟩ ⟨.s4, some fun _ => some true, true⟩ rfl rfl rfl
      (fun _ => some true) (fun _ => true) (fun _ => rfl) rfl rfl
    exact ⟨res, h1, by simp [h2]⟩

/-- **C140 fails** for other options: a structure made with one lattice truncation and calculated with another one returns three absorptions per layer with a basis set of two orders. -/
theorem C140_labels_fails :
    ∃ res Ao basis, rcwaRun exSim (exSim fun _ => true) 3 (fun _ => true) ⟨.s4, some fun _ => some true, true⟩ ⟨.s4, some fun _ => some false, true⟩ = some res ∧ res.orders = some (Ao, basis) ∧
      basis.length = 2 ∧ ∃ row ∈ Ao, row.length = 3 := by
  refine ⟨⟨(rcwaRT (exSim fun _ => true).flux 3).1, (rcwaRT (exSim fun _ => true).flux 3).2.1, rcwaAbsorption (exSim fun _ => true).flux 3 1,
    some (rcwaAbsorptionOrder (exSim fun _ => true).byOrder 3 1, (exSim fun _ => false).basis)⟩, _, _, ?_, rfl, by simp [exSim], ?_⟩
  · have hr : readOptions (K := Unit) (V := Bool) (fun _ => some false) = some fun _ => false := (readOptions_some _ _).mpr fun _ => rfl
    simp only [rcwaRun, rcwaCalculate, userOptions, makeS, Option.bind_some, readOptions_merged, if_true, hr, Option.map_some, Option.getD_some]
    simp [rcwaRT, exSim]
  · exact ⟨_, by simp [rcwaAbsorptionOrder, List.range_succ]; rfl, by simp [exSim]⟩

/-- **C140 fails** if a layer emits a little light, as happens through rounding: the absorption per layer is cut off at zero, the absorption per order is not. -/
theorem C140_sum_fails :
    let S : RcwaSim ℤ := ⟨[0], fun l => if l ≤ 2 then (1, -1 / 2) else (1, 0), fun l => [if l ≤ 2 then (1, -1 / 2) else (1, 0)]⟩
    OrdersAddUp S ∧ rcwaAbsorption S.flux 3 (rcwaRT S.flux 3).2.2 = [0] ∧ (rcwaAbsorptionOrder S.byOrder 3 (rcwaRT S.flux 3).2.2).map List.sum = [-1 / 2] := by
  intro S
  refine ⟨⟨fun l => by simp [S], fun l => by simp [S], fun l => by simp [S]⟩, ?_, ?_⟩
  · simp only [rcwaAbsorption, rcwaRT, S]; norm_num [List.range_succ]
  · simp only [rcwaAbsorptionOrder, rcwaRT, S]; norm_num [List.range_succ]

/-! ## C141 -/

/-- What a calculation of R, T and A with the solver `S` gives. -/
noncomputable def ratOf (S : RcwaSim Ord) (n : ℕ) : ℝ × ℝ × List ℝ := (-(S.flux 1).2 / (S.flux 1).1, (S.flux n).1 / (S.flux 1).1, rcwaAbsorption S.flux n (S.flux 1).1)

/-- **C141, what holds.** If the method and "S4_options" are those the structure was made with, `calculate` uses the given solver options, and the defaults for those not given. -/
theorem C141_used_partial (newS4 : (K → V) → RcwaSim Ord) (newInk : RcwaSim Ord) (n : ℕ) (defaults : K → V) (oc o : RcwaOpt K V) (hper : o.perOrder = false) (hm : o.method = oc.method) (hs : o.s4 = oc.s4) :
    ∃ res, rcwaRun newS4 newInk n defaults oc o = some res ∧
      (res.R, res.T, res.A) = ratOf (match o.method with | .s4 => newS4 fun k => (o.s4.bind fun d => d k).getD (defaults k) | .inkstone => newInk) n := by
  unfold rcwaRun rcwaCalculate userOptions
  rw [← hm, ← hs]
  cases o.method with
  | s4 => simp only [Option.bind_some, readOptions_merged, hper, Bool.false_eq_true, if_false]; exact ⟨_, rfl, rfl⟩
  | inkstone => simp only [hper, Bool.false_eq_true, if_false]; exact ⟨_, rfl, rfl⟩

/-- **C141 fails** in general: `calculate` ignores the "S4_options" it is given and uses those given when the structure was made. -/
theorem C141_used_fails (newS4 : (K → V) → RcwaSim Ord) (newInk : RcwaSim Ord) (n : ℕ) (defaults : K → V) (oc o : RcwaOpt K V) (hper : o.perOrder = false) (hm : o.method = .s4) (hc : oc.method = .s4) :
    ∃ res, rcwaRun newS4 newInk n defaults oc o = some res ∧ (res.R, res.T, res.A) = ratOf (newS4 fun k => (oc.s4.bind fun d => d k).getD (defaults k)) n := by
  unfold rcwaRun rcwaCalculate userOptions
  rw [hm, hc]
  simp only [Option.bind_some, readOptions_merged, hper, Bool.false_eq_true, if_false]
  exact ⟨_, rfl, rfl⟩

/-- **C141 fails**: a structure made with RCWA_method "Inkstone" cannot be calculated with S4. -/
theorem C141_method_fails (newS4 : (K → V) → RcwaSim Ord) (newInk : RcwaSim Ord) (n : ℕ) (defaults : K → V) (oc o : RcwaOpt K V) (hm : o.method = .s4) (hc : oc.method = .inkstone) :
    rcwaRun newS4 newInk n defaults oc o = none := by
  simp [rcwaRun, rcwaCalculate, userOptions, hm, hc]

/-- **C141, fields.** The functions that return fields and permittivities do use the solver options given to them; but with S4 they fail unless all options are given: there are no defaults. -/
theorem C141_fields {S : Type*} (newS4 : (K → V) → S) (newInk : S) (o : RcwaOpt K V) :
    (o.method = .inkstone → makeS newS4 newInk o = some newInk) ∧
    (o.method = .s4 → ∀ f, (∀ d, o.s4 = some d → ∀ k, d k = some (f k)) → o.s4.isSome → makeS newS4 newInk o = some (newS4 f)) ∧
    (o.method = .s4 → (∀ d, o.s4 = some d → ∃ k, d k = none) → makeS newS4 newInk o = none) := by
  refine ⟨fun h => by simp [makeS, h], fun h f hf hs => ?_, fun h hd => ?_⟩
  · obtain ⟨d, hd⟩ := Option.isSome_iff_exists.mp hs
    simp [makeS, h, hd, (readOptions_some d f).mpr (hf d hd)]
  · cases hs : o.s4 with
    | none => simp [makeS, h, hs]
    | some d =>
      obtain ⟨k, hk⟩ := hd d hs
      simp only [makeS, h, hs, Option.bind_some, Option.map_eq_none_iff]
      unfold readOptions
      rw [dif_neg]
      intro hall
      simpa [hk] using hall k

/-- A solver whose reflectance depends on its only option. -/
noncomputable def exRefl (f : Unit → Bool) : RcwaSim ℤ := ⟨[0], fun _ => (1, if f () then 0 else -1 / 2), fun _ => []⟩

/-- With the option `false` from the beginning the reflectance is 1/2; if the structure was made without it, `calculate` with the option `false` returns 0. -/
example : ∃ r r', rcwaRun exRefl (exRefl fun _ => true) 2 (fun _ => true) ⟨.s4, some fun _ => some false, false⟩ ⟨.s4, some fun _ => some false, false⟩ = some r ∧
    rcwaRun exRefl (exRefl fun _ => true) 2 (fun _ => true) ⟨.s4, none, false⟩ ⟨.s4, some fun _ => some false, false⟩ = some r' ∧ r.R = 1 / 2 ∧ r'.R = 0 := by
  obtain ⟨r, h1, h2⟩ := C141_used_partial exRefl (exRefl fun _ => true) 2 (fun _ => true) ⟨.s4, some fun _ => some false, false⟩ ⟨.s4, some fun _ => some false, false⟩ rfl rfl rfl
  obtain ⟨r', h3, h4⟩ := C141_used_fails exRefl (exRefl fun _ => true) 2 (fun _ => true) ⟨.s4, none, false⟩ ⟨.s4, some fun _ => some false, false⟩ rfl rfl rfl
  refine ⟨r, r', h1, h3, ?_, ?_⟩
  · have := congrArg Prod.fst h2; simp [ratOf, exRefl] at this; rw [this]; norm_num
  · have := congrArg Prod.fst h4; simpa [ratOf, exRefl] using this

/-! ## C142 -/

variable (inside : List (ℝ × ℝ) → Set (ℝ × ℝ))

/-- **C142, S4.** S4 draws the region the shape stands for; only polygons without centre or without angle are refused. -/
theorem C142_s4 (s : GeomShape) :
    (∀ r, drawS4 s = some r → s4Region inside r = regionOf inside s) ∧ (drawS4 s = none → ∃ c a v, s = .polygon c a v ∧ (c = none ∨ a = none)) := by
  constructor
  · intro r h
    rcases s with _ | _ | _ | ⟨_ | c, _ | a, v⟩ <;> simp [drawS4] at h <;> subst h <;> rfl
  · intro h
    rcases s with _ | _ | _ | ⟨_ | c, _ | a, v⟩ <;> simp [drawS4] at h ⊢

theorem rot_zero (p : ℝ × ℝ) : rot 0 p = p := by simp [rot]

theorem placed_zero (s : Set (ℝ × ℝ)) : placed 0 0 s = s := by simp [placed, rot_zero]

/-- **C142, Inkstone, what holds.** Inkstone draws the region the shape stands for, except for polygons with an angle. -/
theorem C142_inkstone_partial (hmove : MovesWith inside) (s : GeomShape) (hs : ∀ c a v, s = .polygon c (some a) v → a = 0) :
    inkRegion inside (drawInkstone s) = regionOf inside s := by
  rcases s with ⟨c, r⟩ | ⟨c, a, h⟩ | ⟨c, a, h⟩ | ⟨c, a, v⟩
  · rfl
  · rfl
  · simp [drawInkstone, inkRegion, regionOf]
  · have ha : a.getD 0 = 0 := by
      cases a with
      | none => rfl
      | some x => exact hs c x v rfl
    cases c with
    | none => simp [drawInkstone, inkRegion, regionOf, ha, placed_zero]
    | some c => simpa [drawInkstone, inkRegion, regionOf, ha] using hmove v c

/-- Convex polygons: the inside is the convex hull of the vertices. -/
def hullOf (v : List (ℝ × ℝ)) : Set (ℝ × ℝ) := convexHull ℝ {p | p ∈ v}

theorem hullOf_moves : MovesWith hullOf := by
  intro v c
  have e : {p | p ∈ v.map fun p : ℝ × ℝ => (p.1 + c.1, p.2 + c.2)} = (fun p => p + c) '' {p | p ∈ v} := by
    ext p
    simp only [List.mem_map, Set.mem_setOf_eq, Set.mem_image, Prod.ext_iff, Prod.fst_add, Prod.snd_add]
  have e2 : (fun p : ℝ × ℝ => p + c) = fun p => c +ᵥ p := by funext p; simp [add_comm]
  unfold hullOf placed
  rw [e]
  simp only [rot_zero]
  rw [e2, Set.image_vadd, Set.image_vadd, convexHull_vadd]

/-- A square turned by 45 degrees about (500, 500). -/
example : inkRegion hullOf (drawInkstone (.rectangle (500, 500) 45 (100, 100))) = regionOf hullOf (.rectangle (500, 500) 45 (100, 100)) :=
  C142_inkstone_partial hullOf hullOf_moves _ (by simp)

/-- **C142 fails** for a polygon with an angle: Inkstone draws it unrotated. S4 draws the same shape correctly. -/
theorem C142_inkstone_fails :
    let s := GeomShape.polygon (some (0, 0)) (some 180) [(0, 0), (1, 0), (0, 1)]
    inkRegion hullOf (drawInkstone s) ≠ regionOf hullOf s ∧ ∃ r, drawS4 s = some r ∧ s4Region hullOf r = regionOf hullOf s := by
  intro s
  refine ⟨?_, _, rfl, rfl⟩
  intro h
  have h1 : ((1, 0) : ℝ × ℝ) ∈ inkRegion hullOf (drawInkstone s) := by
    simp only [s, drawInkstone, inkRegion, hullOf]
    apply subset_convexHull
    simp
  rw [h] at h1
  simp only [s, regionOf, Option.getD_some, placed, Set.mem_image] at h1
  obtain ⟨p, hp, hq⟩ := h1
  have hx : 0 ≤ p.1 := by
    have hsub : hullOf [(0, 0), (1, 0), (0, 1)] ⊆ {p : ℝ × ℝ | 0 ≤ p.1} := by
      apply convexHull_min
      · intro q hq
        simp only [List.mem_cons, List.not_mem_nil, or_false, Set.mem_setOf_eq] at hq ⊢
        rcases hq with rfl | rfl | rfl <;> norm_num
      · intro a ha b hb s t hs ht _
        simp only [Set.mem_setOf_eq, Prod.fst_add, Prod.smul_fst, smul_eq_mul] at *
        positivity
    exact hsub hp
  have hr := congrArg Prod.fst hq
  simp only [rot, Prod.fst_add] at hr
  rw [show (180 : ℝ) * Real.pi / 180 = Real.pi by ring, Real.cos_pi, Real.sin_pi] at hr
  linarith

/-! ## C143 -/

variable {M S : Type*} [DecidableEq S]

theorem drawn_of_mem (str : M → S) (mats : List M) (hinj : ∀ a ∈ mats, ∀ b ∈ mats, str a = str b → a = b) (m : M) (hm : m ∈ mats) : mats[(mats.map str).idxOf (str m)]? = some m := by
  have hmem : str m ∈ mats.map str := List.mem_map_of_mem hm
  have hlt := List.idxOf_lt_length_of_mem hmem
  have hget := List.getElem_idxOf hlt
  have hlt' : (mats.map str).idxOf (str m) < mats.length := by simpa using hlt
  rw [List.getElem?_eq_getElem hlt']
  rw [List.getElem_map] at hget
  rw [hinj _ (List.getElem_mem _) _ hm hget]

/-- A sequence of changes of the material of a shape (layer, shape, material). -/
def editAll (str : M → S) : List (List S) → List (ℕ × ℕ × M) → Option (List (List S))
  | names, [] => some names
  | names, (l, k, m) :: rest => (editMaterial names l k (str m)).bind fun names' => editAll str names' rest

/-- The material last given for a shape: the one at construction, unless changed. -/
def lastGiven (geom : List (List M)) : List (ℕ × ℕ × M) → ℕ → ℕ → Option M
  | [], l, k => (geom[l]?).bind fun g => g[k]?
  | (l', k', m) :: rest, l, k => lastGiven (geom.modify l' fun g => g.set k' m) rest l k

theorem edit_names (str : M → S) (geom : List (List M)) (l k : ℕ) (m : M) (names : List (List S)) (h : editMaterial (geomNames str geom) l k (str m) = some names) :
    names = geomNames str (geom.modify l fun g => g.set k m) := by
  unfold editMaterial at h
  obtain ⟨g, hg, h⟩ := Option.bind_eq_some_iff.mp h
  split_ifs at h
  rw [Option.some.injEq] at h
  subst h
  unfold geomNames at *
  rw [List.getElem?_map, Option.map_eq_some_iff] at hg
  obtain ⟨g0, hg0, rfl⟩ := hg
  apply List.ext_getElem?
  intro i
  rw [List.getElem?_set, List.getElem?_map, List.getElem?_map, List.getElem?_modify]
  by_cases hi : l = i
  · subst hi
    have : l < geom.length := (List.getElem?_eq_some_iff.mp hg0).1
    simp only [if_true, List.length_map, this, hg0, Option.map_eq_map, Option.map_some, List.map_set]
  · simp [hi, List.getElem?_map]

/-- **C143, what holds.** After any sequence of changes, every shape is drawn with the material last given for it, if all materials occur among those given at construction (with different names) and none of them is a list. -/
theorem C143_material_partial [DecidableEq M] (str : M → S) (isList : M → Bool) (order : List M → List M) (horder : ∀ l x, x ∈ order l ↔ x ∈ l) (geom : List (List M)) (mats : List M)
    (hmats : necessaryMaterials isList order geom = some mats) (hinj : ∀ a ∈ geom.flatten, ∀ b ∈ geom.flatten, str a = str b → a = b)
    (edits : List (ℕ × ℕ × M)) (hed : ∀ e ∈ edits, e.2.2 ∈ geom.flatten) (names : List (List S)) (h : editAll str (geomNames str geom) edits = some names) (l k : ℕ) (m : M) (hm : lastGiven geom edits l k = some m) :
    drawnMaterial str mats names l k = some m := by
  have hset : ∀ x, x ∈ mats ↔ x ∈ geom.flatten := by
    intro x
    unfold necessaryMaterials at hmats
    split_ifs at hmats
    rw [Option.some.injEq] at hmats
    rw [← hmats, horder, List.mem_dedup]
  have hinj' : ∀ a ∈ mats, ∀ b ∈ mats, str a = str b → a = b := fun a ha b hb => hinj a ((hset a).mp ha) b ((hset b).mp hb)
  have key : ∀ (edits : List (ℕ × ℕ × M)) (geom' : List (List M)), (∀ g ∈ geom', ∀ x ∈ g, x ∈ mats) → (∀ e ∈ edits, e.2.2 ∈ mats) → editAll str (geomNames str geom') edits = some names →
      lastGiven geom' edits l k = some m → drawnMaterial str mats names l k = some m := by
    intro edits
    induction edits with
    | nil =>
      intro geom' hg _ h hm
      simp only [editAll, Option.some.injEq] at h
      subst h
      simp only [lastGiven] at hm
      obtain ⟨g, h1, h2⟩ := Option.bind_eq_some_iff.mp hm
      have hmem := hg g (List.mem_of_getElem? h1) m (List.mem_of_getElem? h2)
      simp only [drawnMaterial, geomNames, List.getElem?_map, h1, Option.map_some, Option.bind_some, h2]
      exact drawn_of_mem str mats hinj' m hmem
    | cons e rest ih =>
      obtain ⟨l', k', m'⟩ := e
      intro geom' hg he h hm
      simp only [editAll] at h
      obtain ⟨names', h1, h2⟩ := Option.bind_eq_some_iff.mp h
      rw [edit_names str geom' l' k' m' names' h1] at h2
      refine ih _ ?_ (fun e he' => he e (List.mem_cons_of_mem _ he')) h2 hm
      intro g hgm x hx
      obtain ⟨i, hi⟩ := List.mem_iff_getElem?.mp hgm
      rw [List.getElem?_modify] at hi
      have hm' : m' ∈ mats := he _ List.mem_cons_self
      cases hgi : geom'[i]? with
      | none => simp [hgi] at hi
      | some g0 =>
        rw [hgi] at hi
        have hg0 := hg g0 (List.mem_of_getElem? hgi)
        by_cases hl : l' = i
        · simp only [hl, if_true, Option.map_eq_map, Option.map_some, Option.some.injEq] at hi
          subst hi
          rcases List.mem_or_eq_of_mem_set hx with h3 | h3
          · exact hg0 x h3
          · exact h3 ▸ hm'
        · simp only [hl, if_false, Option.map_eq_map, Option.map_some, Option.some.injEq, id] at hi
          subst hi
          exact hg0 x hx
  refine key edits geom ?_ (fun e he => (hset _).mpr (hed e he)) h hm
  intro g hg x hx
  exact (hset x).mpr (List.mem_flatten.mpr ⟨g, hg, hx⟩)

/-- A grating of two materials; one shape is changed from material 1 to material 2. -/
example : drawnMaterial (M := ℕ) (S := ℕ) id [2, 1] [[2, 2], [1]] 0 0 = some 2 :=
  C143_material_partial id (fun _ => false) id (fun _ _ => Iff.rfl) [[1, 2], [1]] [2, 1] (by decide) (fun a _ b _ h => h) [(0, 0, 2)] (by decide) [[2, 2], [1]] (by decide) 0 0 2 (by decide)

/-- **C143 fails** for a material that no shape had before: the next calculation raises an exception. -/
theorem C143_new_fails (str : M → S) (mats : List M) (names : List (List S)) (l k : ℕ) (m : M) (hnew : ∀ a ∈ mats, str a ≠ str m) (names' : List (List S)) (h : editMaterial names l k (str m) = some names') :
    drawnMaterial str mats names' l k = none := by
  unfold editMaterial at h
  obtain ⟨g, hg, h⟩ := Option.bind_eq_some_iff.mp h
  split_ifs at h with hk
  rw [Option.some.injEq] at h
  subst h
  have hl : l < names.length := (List.getElem?_eq_some_iff.mp hg).1
  simp only [drawnMaterial, List.getElem?_set_self hl, Option.bind_some, List.getElem?_set_self hk]
  rw [List.getElem?_eq_none_iff]
  have : (mats.map str).idxOf (str m) = (mats.map str).length := by
    rw [List.idxOf_eq_length_iff]
    intro hmem
    obtain ⟨a, ha, he⟩ := List.mem_map.mp hmem
    exact hnew a ha he
  rw [this, List.length_map]

/-- **C143 fails** for shapes whose material is given as a list, although lists of indices are provided for: the structure cannot even be made. -/
theorem C143_list_fails [DecidableEq M] (isList : M → Bool) (order : List M → List M) (geom : List (List M)) (g : List M) (hg : g ∈ geom) (m : M) (hm : m ∈ g) (hl : isList m = true) :
    necessaryMaterials isList order geom = none := by
  unfold necessaryMaterials
  rw [if_pos]
  rw [List.any_eq_true]
  exact ⟨m, List.mem_flatten.mpr ⟨g, hg, hm⟩, hl⟩

end Rayflare
