import Verif.Model.IntProfile
import Verif.Props.Profile

/-!
# Property C121: interface profiles returned by `calculate_RAT`
-/

namespace Rayflare

open Rayflare.Model Rayflare.Spec Rayflare.Lemmas Matrix

variable {ω ι κ₀ κ₁ ζ₀ ζ₁ : Type*} [Fintype ι] [DecidableEq ι] [Fintype κ₀] [Fintype κ₁] [Fintype ζ₀] [Fintype ζ₁]

/-- What is stored is not negative, and integrated over depth (`weight`) the stored profile of each bin is the share of the requested layers `req` in the stored absorption.
(`TMM` and `RCWA` store as `I` the total absorption of the bin; ray tracing stores the mean absorption of an absorbed ray, and profiles for one absorbed ray.) -/
structure ProfStored {κ ζ : Type*} [Fintype κ] [Fintype ζ] (A : ω → Matrix κ ι ℝ) (q : StoredProf ω ι ζ) (weight : ζ → ℝ) (req : Finset κ) : Prop where
  I_nonneg : ∀ w j, 0 ≤ q.I w j
  P_nonneg : ∀ w z j, 0 ≤ q.P w z j
  zero : ∀ w j, q.I w j = 0 → ∀ l, A w l j = 0
  integral : ∀ w j, (∑ z, weight z * q.P w z j) * ∑ l, A w l j = q.I w j * ∑ l ∈ req, A w l j

theorem profOf_one {κ ζ : Type*} [Fintype κ] [Fintype ζ] (A : ω → Matrix κ ι ℝ) (hA : ∀ w l j, 0 ≤ A w l j) (q : StoredProf ω ι ζ) (weight : ζ → ℝ) (req : Finset κ) (h : ProfStored A q weight req)
    (v : ω → ι → ℝ) (hv : ∀ w j, 0 ≤ v w j) :
    ∃ p, profOf A (some q) v = [p] ∧ (∀ w z, 0 ≤ p w z) ∧ ∀ w, ∑ z, weight z * p w z = ∑ l ∈ req, dotWl A v w l := by
  refine ⟨_, rfl, fun w z => ?_, fun w => ?_⟩
  · unfold interfaceProf
    refine Finset.sum_nonneg fun j _ => mul_nonneg ?_ (h.P_nonneg w z j)
    have hn : 0 ≤ (∑ l, A w l j) * v w j := mul_nonneg (Finset.sum_nonneg fun l _ => hA w l j) (hv w j)
    simp only
    by_cases h0 : q.I w j = 0
    · have : (∑ l, A w l j) * v w j = 0 := by rw [Finset.sum_eq_zero fun l _ => h.zero w j h0 l, zero_mul]
      rw [if_pos h0, if_pos this]
    · rw [if_neg h0]
      exact div_nonneg hn (h.I_nonneg w j)
  · unfold interfaceProf dotWl
    simp only [Finset.mul_sum, mulVec, dotProduct]
    rw [Finset.sum_comm, Finset.sum_comm (s := req)]
    refine Finset.sum_congr rfl fun j _ => ?_
    by_cases h0 : q.I w j = 0
    · have hz : (∑ l, A w l j) * v w j = 0 := by rw [Finset.sum_eq_zero fun l _ => h.zero w j h0 l, zero_mul]
      simp only [h0, if_true, hz, zero_mul, mul_zero, Finset.sum_const_zero]
      rw [Finset.sum_eq_zero fun l _ => by rw [h.zero w j h0 l, zero_mul]]
    · simp only [h0, if_false]
      have e : ∀ z, weight z * ((∑ l, A w l j) * v w j / q.I w j * q.P w z j) = v w j / q.I w j * ((weight z * q.P w z j) * ∑ l, A w l j) := by
        intro z; ring
      rw [Finset.sum_congr rfl fun z _ => e z, ← Finset.mul_sum, ← Finset.sum_mul, h.integral w j, ← Finset.sum_mul]
      field_simp

theorem sumPasses_append {ζ : Type*} (a b : List (ω → ζ → ℝ)) (w : ω) (z : ζ) : sumPasses (a ++ b) w z = sumPasses a w z + sumPasses b w z := by
  simp [sumPasses]

theorem sumPasses_one {ζ : Type*} (p : ω → ζ → ℝ) (w : ω) (z : ζ) (h : 0 ≤ p w z) : sumPasses [p] w z = p w z := by
  simp [sumPasses, not_lt.mpr h]

theorem sumPasses_nonneg {ζ : Type*} (items : List (ω → ζ → ℝ)) (w : ω) (z : ζ) : 0 ≤ sumPasses items w z := by
  unfold sumPasses
  apply List.sum_nonneg
  intro x hx
  obtain ⟨p, -, rfl⟩ := List.mem_map.mp hx
  split_ifs with h
  · exact le_rfl
  · exact not_lt.mp h

theorem stepInt_fst (S : Sys ω ι κ₀ κ₁) (o : ProfOpts ω ι) (q : IntProfs ω ι ζ₀ ζ₁) (k : ℕ) : ((S.stepInt o q)^[k] (S.initInt q)).1 = (S.stepProf o)^[k] S.init := by
  induction k with
  | zero => rfl
  | succ k ih => rw [Function.iterate_succ_apply', Function.iterate_succ_apply', ← ih]; rfl

/-- `C121`: after any number of passes the profile that `calculate_RAT` returns for a surface is nowhere negative, and its integral over depth is the light absorbed in the requested layers of this surface in all interactions
(for all layers requested: `A_interface`). -/
theorem C121_front_partial (S : Sys ω ι κ₀ κ₁) (hp : NonnegData S) (hu : Relabels S.up2down) (o : ProfOpts ω ι) (q : IntProfs ω ι ζ₀ ζ₁) (f r : StoredProf ω ι ζ₀) (hf : q.front0 = some f) (hr : q.rear0 = some r)
    (weight : ζ₀ → ℝ) (req : Finset κ₀) (h0 : ProfStored (fun w => (S.front0 w).A) f weight req) (h1 : ProfStored (fun w => (S.rear0 w).A) r weight req) (k : ℕ) (w : ω) :
    let t := (S.stepInt o q)^[k] (S.initInt q)
    (∀ z, 0 ≤ sumPasses t.2.p0 w z) ∧ ∑ z, weight z * sumPasses t.2.p0 w z = (t.1.a0.map fun v => ∑ l ∈ req, v w l).sum ∧
      (req = Finset.univ → ∑ z, weight z * sumPasses t.2.p0 w z = t.1.Aint0 w) ∧ 0 < t.2.p0.length := by
  intro t
  refine ⟨fun z => sumPasses_nonneg _ _ _, ?_⟩
  suffices hs : (∑ z, weight z * sumPasses t.2.p0 w z = (t.1.a0.map fun v => ∑ l ∈ req, v w l).sum) ∧ 0 < t.2.p0.length by
    refine ⟨hs.1, fun hq => ?_, hs.2⟩
    subst hq
    exact hs.1
  induction k with
  | zero =>
    obtain ⟨p, hp1, hp2, hp3⟩ := profOf_one (fun w => (S.front0 w).A) (fun w l j => (hp.f0 w).2.2 l j) f weight req h0 S.v0 hp.v0
    have e : t.2.p0 = [p] := by show profOf _ q.front0 _ = _; rw [hf, hp1]
    rw [e]
    refine ⟨?_, by simp⟩
    simp only [sumPasses_one p w _ (hp2 w _), hp3 w]
    simp [t, Sys.initInt, Sys.init]
  | succ k ih =>
    set s := (S.stepInt o q)^[k] (S.initInt q) with hs
    have ht : t = S.stepInt o q s := Function.iterate_succ_apply' _ _ _
    have hv : ∀ w j, 0 ≤ s.1.vf1 w j := by
      have h1 := (nonneg_iter S hp hu k).1
      have h2 := congrArg LoopState.vf1 (iterProf_forget S hu o S.init [] k)
      rw [← stepInt_fst S o q k, ← hs] at h2
      intro w j
      rw [show s.1.vf1 = (S.step^[k] S.init).vf1 from h2]
      exact h1 w j
    have b1 : ∀ w j, 0 ≤ S.arriveRear s.1.vf1 w j := fun w => D_nonneg S (mulVec_nonneg hp.d2u (hv w))
    have b2 : ∀ w j, 0 ≤ S.arriveFront s.1.vf1 w j := fun w => mulVec_nonneg hp.u2d (D_nonneg S (mulVec_nonneg (hp.f1 w).1 (b1 w)))
    obtain ⟨p, hp1, hp2, hp3⟩ := profOf_one (fun w => (S.rear0 w).A) (fun w l j => (hp.r0 w).2.2 l j) r weight req h1 (S.arriveFront s.1.vf1) b2
    have e : t.2.p0 = s.2.p0 ++ [p] := by rw [ht]; show _ ++ profOf _ q.rear0 _ = _; rw [hr, hp1]
    have ea : t.1.a0 = s.1.a0 ++ [dotWl (fun w => (S.rear0 w).A) (S.arriveFront s.1.vf1)] := by rw [ht]; rfl
    rw [e, ea]
    refine ⟨?_, by simp⟩
    simp only [sumPasses_append, sumPasses_one p w _ (hp2 w _), mul_add, Finset.sum_add_distrib, List.map_append, List.sum_append, List.map_cons, List.map_nil, List.sum_cons, List.sum_nil, add_zero]
    rw [ih.1, hp3 w]

/-- `C121` for the rear surface; there is a profile as soon as one pass was made. -/
theorem C121_rear_partial (S : Sys ω ι κ₀ κ₁) (hp : NonnegData S) (hu : Relabels S.up2down) (o : ProfOpts ω ι) (q : IntProfs ω ι ζ₀ ζ₁) (f : StoredProf ω ι ζ₁) (hf : q.front1 = some f)
    (weight : ζ₁ → ℝ) (req : Finset κ₁) (h0 : ProfStored (fun w => (S.front1 w).A) f weight req) (k : ℕ) (w : ω) :
    let t := (S.stepInt o q)^[k] (S.initInt q)
    (∀ z, 0 ≤ sumPasses t.2.p1 w z) ∧ ∑ z, weight z * sumPasses t.2.p1 w z = (t.1.a1.map fun v => ∑ l ∈ req, v w l).sum ∧
      (req = Finset.univ → ∑ z, weight z * sumPasses t.2.p1 w z = t.1.Aint1 w) ∧ t.2.p1.length = k := by
  intro t
  refine ⟨fun z => sumPasses_nonneg _ _ _, ?_⟩
  suffices hs : (∑ z, weight z * sumPasses t.2.p1 w z = (t.1.a1.map fun v => ∑ l ∈ req, v w l).sum) ∧ t.2.p1.length = k by
    refine ⟨hs.1, fun hq => ?_, hs.2⟩
    subst hq
    exact hs.1
  induction k with
  | zero => simp [t, Sys.initInt, Sys.init, sumPasses]
  | succ k ih =>
    set s := (S.stepInt o q)^[k] (S.initInt q) with hs
    have ht : t = S.stepInt o q s := Function.iterate_succ_apply' _ _ _
    have hv : ∀ w j, 0 ≤ s.1.vf1 w j := by
      have h1 := (nonneg_iter S hp hu k).1
      have h2 := congrArg LoopState.vf1 (iterProf_forget S hu o S.init [] k)
      rw [← stepInt_fst S o q k, ← hs] at h2
      intro w j
      rw [show s.1.vf1 = (S.step^[k] S.init).vf1 from h2]
      exact h1 w j
    have b1 : ∀ w j, 0 ≤ S.arriveRear s.1.vf1 w j := fun w => D_nonneg S (mulVec_nonneg hp.d2u (hv w))
    obtain ⟨p, hp1, hp2, hp3⟩ := profOf_one (fun w => (S.front1 w).A) (fun w l j => (hp.f1 w).2.2 l j) f weight req h0 (S.arriveRear s.1.vf1) b1
    have e : t.2.p1 = s.2.p1 ++ [p] := by rw [ht]; show _ ++ profOf _ q.front1 _ = _; rw [hf, hp1]
    have ea : t.1.a1 = s.1.a1 ++ [dotWl (fun w => (S.front1 w).A) (S.arriveRear s.1.vf1)] := by rw [ht]; rfl
    rw [e, ea]
    refine ⟨?_, by simp [ih.2]⟩
    simp only [sumPasses_append, sumPasses_one p w _ (hp2 w _), mul_add, Finset.sum_add_distrib, List.map_append, List.sum_append, List.map_cons, List.map_nil, List.sum_cons, List.sum_nil, add_zero]
    rw [ih.1, hp3 w]

/-- With profiles requested in both surfaces and at least one pass, the returned list has one entry per surface, in order, and `make_absorption_function` reads the right ones. -/
theorem C121_both_partial {ζ : Type*} (S : Sys ω ι κ₀ κ₁) (o : ProfOpts ω ι) (q : IntProfs ω ι ζ ζ) (f r : StoredProf ω ι ζ) (hf : q.front0 = some f) (hr : q.front1 = some r) (k : ℕ) (hk : 0 < k) :
    let t := (S.stepInt o q)^[k] (S.initInt q)
    t.2.returned = [(0, sumPasses t.2.p0), (1, sumPasses t.2.p1)] ∧ readProfiles t.2.returned = some ((0, sumPasses t.2.p0), (1, sumPasses t.2.p1)) := by
  intro t
  have h : 0 < t.2.p0.length ∧ t.2.p1.length = k := by
    clear hk
    induction k with
    | zero =>
      refine ⟨?_, rfl⟩
      show 0 < (profOf _ q.front0 _).length
      rw [hf]; exact Nat.one_pos
    | succ k ih =>
      have ht : t = S.stepInt o q ((S.stepInt o q)^[k] (S.initInt q)) := Function.iterate_succ_apply' _ _ _
      rw [ht]
      simp only [Sys.stepInt, List.length_append]
      refine ⟨by have := ih.1; omega, ?_⟩
      rw [ih.2, hr]; rfl
  have : t.2.returned = [(0, sumPasses t.2.p0), (1, sumPasses t.2.p1)] := by
    unfold AProf.returned
    rw [if_pos h.1, if_pos (by omega)]
    rfl
  rw [this]
  exact ⟨rfl, rfl⟩

/-- `C121` is violated if profiles are requested in the rear surface only: the list has a single entry, so the first entry belongs to the second surface, and `make_absorption_function` raises IndexError. -/
theorem C121_rear_only_fails {ζ : Type*} (S : Sys ω ι κ₀ κ₁) (o : ProfOpts ω ι) (q : IntProfs ω ι ζ ζ) (r : StoredProf ω ι ζ) (hf : q.front0 = none) (hb : q.rear0 = none) (hr : q.front1 = some r) (k : ℕ) (hk : 0 < k) :
    let t := (S.stepInt o q)^[k] (S.initInt q)
    t.2.returned = [(1, sumPasses t.2.p1)] ∧ readProfiles t.2.returned = none := by
  intro t
  have h : t.2.p0 = [] ∧ t.2.p1.length = k := by
    clear hk
    induction k with
    | zero =>
      refine ⟨?_, rfl⟩
      show profOf _ q.front0 _ = _
      rw [hf]; rfl
    | succ k ih =>
      have ht : t = S.stepInt o q ((S.stepInt o q)^[k] (S.initInt q)) := Function.iterate_succ_apply' _ _ _
      rw [ht]
      simp only [Sys.stepInt, List.length_append]
      rw [ih.2, ih.1, hr, hb]
      exact ⟨rfl, rfl⟩
  have : t.2.returned = [(1, sumPasses t.2.p1)] := by
    unfold AProf.returned
    rw [h.1, if_neg (by simp), if_pos (by omega)]
    rfl
  rw [this]
  exact ⟨rfl, rfl⟩

/-- The hypotheses hold for the example system of C15 and stored profiles which are constant over two samples, in all three uses. -/
example : NonnegData exSys ∧ Relabels exSys.up2down ∧ ProfStored (fun w => (exSys.front0 w).A) ⟨fun _ _ => 1 / 4, fun _ (_ : Fin 2) _ => 1 / 8, fun _ _ => 0⟩ (fun _ => 1) Finset.univ ∧
    (fun w => (exSys.rear0 w).A) = (fun w => (exSys.front0 w).A) ∧ (fun w => (exSys.front1 w).A) = (fun w => (exSys.front0 w).A) := by
  refine ⟨exSys_nonneg, exSys_conserving.u2d, ⟨fun _ _ => by norm_num, fun _ _ _ => by norm_num, fun _ _ h => by norm_num at h, fun w j => ?_⟩, rfl, rfl⟩
  simp [exSys, exMats]
  norm_num

end Rayflare
