import Verif.Spec.RcwaWavelengths
import Verif.Model.RcwaStructure
import Mathlib.Data.List.Induction
import Mathlib.Tactic.NormNum

/-!
# Property C180: an `rcwa_structure` can be calculated at any wavelengths
-/

namespace Rayflare

open Rayflare.Model Rayflare.Spec

/-! ## Helper lemmas -/

theorem wl_history_append (strict : Bool) (s : WlObj) (a b : List WlOp) : wlHistory strict s (a ++ b) = wlHistory strict (wlHistory strict s a) b := by
  simp [wlHistory]

theorem zip_self_own (l : List ℝ) : l.zip l = ownConstants l := by
  induction l with
  | nil => rfl
  | cons a l ih => simp only [ownConstants, List.zip_cons_cons, List.map_cons] at ih ⊢; rw [ih]

theorem wlRun_self (l : List ℝ) (h : l ≠ []) : wlRun l l = some (ownConstants l) := by
  simp [wlRun, h, zip_self_own]

theorem npAllEq_same_length (strict : Bool) (a b : List ℝ) (h : a.length = b.length) : npAllEq strict a b = some (decide (a = b)) := by
  classical
  unfold npAllEq
  rw [if_pos h]

/-- As long as no array is changed in place, the array the object refers to holds the wavelengths of its optical constants, and was passed to it. -/
theorem wl_invariant (strict : Bool) (mem : ℕ → List ℝ) (r0 : ℕ) (ops : List WlOp) (h : NeverInPlace r0 ops) :
    (wlHistory strict (wlInit mem r0) ops).oc = (wlHistory strict (wlInit mem r0) ops).mem (wlHistory strict (wlInit mem r0) ops).cur ∧
    ((wlHistory strict (wlInit mem r0) ops).cur = r0 ∨ WlOp.calculate (wlHistory strict (wlInit mem r0) ops).cur ∈ ops) := by
  induction ops using List.reverseRecOn with
  | nil => exact ⟨rfl, Or.inl rfl⟩
  | append_singleton ops op ih =>
    obtain ⟨i1, i2⟩ := ih fun pre r v post e => h pre r v (post ++ [op]) (by rw [e]; simp)
    rw [wl_history_append]
    generalize wlHistory strict (wlInit mem r0) ops = s at i1 i2 ⊢
    show (wlStep strict s op).oc = (wlStep strict s op).mem (wlStep strict s op).cur ∧ _
    cases op with
    | write r v =>
      obtain ⟨k1, k2⟩ := h ops r v [] rfl
      have hne : s.cur ≠ r := by
        rintro rfl
        rcases i2 with i2 | i2
        · exact k1 i2
        · exact k2 i2
      refine ⟨?_, ?_⟩
      · simp only [wlStep]; rw [Function.update_of_ne hne]; exact i1
      · show s.cur = r0 ∨ WlOp.calculate s.cur ∈ _
        rcases i2 with i2 | i2
        · exact Or.inl i2
        · exact Or.inr (by simp [i2])
    | calculate r =>
      show (wlCalc strict s r).1.oc = _ ∧ ((wlCalc strict s r).1.cur = r0 ∨ WlOp.calculate (wlCalc strict s r).1.cur ∈ _)
      simp only [wlStep]
      have hi : s.cur = r0 ∨ WlOp.calculate s.cur ∈ ops ++ [WlOp.calculate r] := by
        rcases i2 with i2 | i2
        · exact Or.inl i2
        · exact Or.inr (by simp [i2])
      unfold wlCalc
      rcases npAllEq strict (s.mem r) (s.mem s.cur) with _ | (_ | _)
      · exact ⟨i1, hi⟩
      · exact ⟨rfl, Or.inr (by simp [wlUpdate])⟩
      · exact ⟨i1, hi⟩

/-! ## C180 -/

/-- **C180, what holds (1).** If arrays of wavelengths are not changed in place once they were passed to the structure, then after any sequence of calls `calculate` either raises an exception or calculates every wavelength asked for with the
optical constants at this wavelength, whatever the version of NumPy. Missing: in-place changes, and that there is no exception; for both the claim is false (below). -/
theorem C180_own_partial (strict : Bool) (mem : ℕ → List ℝ) (r0 : ℕ) (ops : List WlOp) (h : NeverInPlace r0 ops) (r : ℕ) :
    (wlCalc strict (wlHistory strict (wlInit mem r0) ops) r).2 = none ∨
    (wlCalc strict (wlHistory strict (wlInit mem r0) ops) r).2 = some (ownConstants ((wlHistory strict (wlInit mem r0) ops).mem r)) := by
  classical
  obtain ⟨i1, -⟩ := wl_invariant strict mem r0 ops h
  generalize wlHistory strict (wlInit mem r0) ops = s at i1 ⊢
  by_cases hnil : s.mem r = []
  · left
    unfold wlCalc
    rcases npAllEq strict (s.mem r) (s.mem s.cur) with _ | (_ | _) <;> simp [wlRun, hnil]
  unfold wlCalc
  rcases hc : npAllEq strict (s.mem r) (s.mem s.cur) with _ | (_ | _)
  · exact Or.inl rfl
  · right; exact wlRun_self _ hnil
  · simp only
    rw [i1]
    unfold npAllEq at hc
    split_ifs at hc with h1 h2 <;> simp only [Option.some.injEq, decide_eq_true_eq, reduceCtorEq] at hc
    · rw [← hc]; right; exact wlRun_self _ hnil
    · by_cases hle : (s.mem r).length ≤ (s.mem s.cur).length
      · right
        rw [wlRun, if_neg hnil, if_pos hle]
        have h3 : (s.mem r).length = 1 := by
          rcases h2 with h2 | h2
          · exact h2
          · have : (s.mem r).length ≠ 0 := by simpa using hnil
            omega
        obtain ⟨x, hx⟩ := List.length_eq_one_iff.mp h3
        rcases hb : s.mem s.cur with _ | ⟨y, t⟩
        · rw [hb, h3] at hle; simp at hle
        · have : x = y := hc x (by rw [hx]; simp) y (by rw [hb]; simp)
          rw [hx, this]; simp [ownConstants]
      · left
        rw [wlRun, if_neg hnil, if_neg hle]

/-- **C180, what holds (2).** If, moreover, the number of wavelengths is always the same, `calculate` never raises an exception, whatever the version of NumPy, and the object behaves as in `rsSync` of the model for C88-C90: constants are computed anew
exactly when the wavelengths differ. -/
theorem C180_same_number_partial (strict : Bool) (mem : ℕ → List ℝ) (r0 n : ℕ) (hn : n ≠ 0) (hmem : ∀ r, (mem r).length = n) (ops : List WlOp) (h : NeverInPlace r0 ops) (hnum : AlwaysNumber n ops) (r : ℕ) :
    (wlCalc strict (wlHistory strict (wlInit mem r0) ops) r).2 = some (ownConstants ((wlHistory strict (wlInit mem r0) ops).mem r)) ∧
    (wlCalc strict (wlHistory strict (wlInit mem r0) ops) r).1.oc = (wlHistory strict (wlInit mem r0) ops).mem r ∧
    npAllEq strict ((wlHistory strict (wlInit mem r0) ops).mem r) ((wlHistory strict (wlInit mem r0) ops).mem (wlHistory strict (wlInit mem r0) ops).cur) =
      some (decide ((wlHistory strict (wlInit mem r0) ops).mem r = (wlHistory strict (wlInit mem r0) ops).oc)) := by
  classical
  have hlen : ∀ q, ((wlHistory strict (wlInit mem r0) ops).mem q).length = n := by
    clear h
    induction ops using List.reverseRecOn with
    | nil => exact hmem
    | append_singleton ops op ih =>
      have ih' := ih fun r v hv => hnum r v (by simp [hv])
      intro q
      rw [wl_history_append]
      generalize wlHistory strict (wlInit mem r0) ops = s at ih' ⊢
      show ((wlStep strict s op).mem q).length = n
      cases op with
      | write r v =>
        simp only [wlStep, Function.update_apply]
        split_ifs
        · exact hnum r v (by simp)
        · exact ih' q
      | calculate r =>
        have : (wlCalc strict s r).1.mem = s.mem := by
          unfold wlCalc
          rcases npAllEq strict (s.mem r) (s.mem s.cur) with _ | (_ | _) <;> rfl
        simp only [wlStep, this]
        exact ih' q
  obtain ⟨i1, -⟩ := wl_invariant strict mem r0 ops h
  generalize wlHistory strict (wlInit mem r0) ops = s at i1 hlen ⊢
  have hc := npAllEq_same_length strict (s.mem r) (s.mem s.cur) (by rw [hlen, hlen])
  have hne : s.mem r ≠ [] := by
    intro e
    have := hlen r
    rw [e] at this
    exact hn (by simpa using this.symm)
  refine ⟨?_, ?_, by rw [hc, i1]⟩
  · unfold wlCalc
    rw [hc]
    by_cases he : s.mem r = s.mem s.cur
    · rw [decide_eq_true he]
      simp only
      rw [i1, ← he]
      exact wlRun_self _ hne
    · rw [decide_eq_false he]
      exact wlRun_self _ hne
  · unfold wlCalc
    rw [hc]
    by_cases he : s.mem r = s.mem s.cur
    · rw [decide_eq_true he]
      simp only
      rw [i1, he]
    · rw [decide_eq_false he]
      rfl

/-- **C180, exactly when there is an exception**, for a structure built for at least one wavelength and asked for at least one: with recent NumPy whenever the numbers of wavelengths now and before differ and neither is 1; with any version when the
structure holds the constants for one wavelength and is asked for several equal ones. -/
theorem C180_raises_iff_partial (strict : Bool) (mem : ℕ → List ℝ) (r0 r : ℕ) (h0 : mem r0 ≠ []) (hr : mem r ≠ []) :
    (wlCalc strict (wlInit mem r0) r).2 = none ↔
      (strict = true ∧ (mem r).length ≠ (mem r0).length ∧ (mem r).length ≠ 1 ∧ (mem r0).length ≠ 1) ∨
      (∃ x, mem r0 = [x] ∧ 1 < (mem r).length ∧ ∀ y ∈ mem r, y = x) := by
  classical
  show (wlCalc strict ⟨mem, r0, mem r0⟩ r).2 = none ↔ _
  have l0 : (mem r0).length ≠ 0 := by simpa using h0
  have lr : (mem r).length ≠ 0 := by simpa using hr
  unfold wlCalc
  simp only
  by_cases h1 : (mem r).length = (mem r0).length
  · rw [npAllEq_same_length strict _ _ h1]
    have hno : ¬ ((strict = true ∧ (mem r).length ≠ (mem r0).length ∧ (mem r).length ≠ 1 ∧ (mem r0).length ≠ 1) ∨ (∃ x, mem r0 = [x] ∧ 1 < (mem r).length ∧ ∀ y ∈ mem r, y = x)) := by
      rintro (⟨-, h, -⟩ | ⟨x, hx, h, -⟩)
      · exact h h1
      · rw [hx] at h1; simp at h1; omega
    simp only [hno, iff_false]
    by_cases he : mem r = mem r0
    · rw [decide_eq_true he]; simp [wlRun, he, h0]
    · rw [decide_eq_false he]; simp [wlRun, hr, wlUpdate]
  · unfold npAllEq
    rw [if_neg h1]
    by_cases h2 : (mem r).length = 1 ∨ (mem r0).length = 1
    · rw [if_pos h2]
      by_cases hall : ∀ x ∈ mem r, ∀ y ∈ mem r0, x = y
      · rw [decide_eq_true hall]
        simp only [wlRun, hr, if_false]
        constructor
        · intro h
          have hlt : ¬ (mem r).length ≤ (mem r0).length := by
            intro hle; rw [if_pos hle] at h; simp at h
          right
          have h3 : (mem r0).length = 1 := by
            rcases h2 with h2 | h2
            · omega
            · exact h2
          obtain ⟨x, hx⟩ := List.length_eq_one_iff.mp h3
          exact ⟨x, hx, by omega, fun y hy => hall y hy x (by rw [hx]; simp)⟩
        · rintro (⟨-, -, h3, h4⟩ | ⟨x, hx, h3, -⟩)
          · omega
          · rw [if_neg (by rw [hx]; simp; omega)]
      · rw [decide_eq_false hall]
        simp only [wlRun, wlUpdate, hr, if_false, le_refl, if_true, reduceCtorEq, false_iff]
        rintro (⟨-, -, h3, h4⟩ | ⟨x, hx, -, h4⟩)
        · omega
        · apply hall
          intro a ha b hb
          rw [hx] at hb
          rw [h4 a ha, List.mem_singleton.mp hb]
    · rw [if_neg h2]
      push Not at h2
      cases strict with
      | true => simp [h1, h2]
      | false =>
        simp only [Bool.false_eq_true, if_false, wlRun, wlUpdate, hr, le_refl, if_true, reduceCtorEq, false_iff, false_and, false_or]
        rintro ⟨x, hx, -⟩
        rw [hx] at h2; simp at h2

/-- **C180, exactly when there is an exception, after any sequence of calls** without in-place changes: the numbers that count are those of the wavelengths asked for and of the wavelengths the optical constants of the structure are for at
this point, that is of the last call that computed them anew. -/
theorem C180_history_raises_iff_partial (strict : Bool) (mem : ℕ → List ℝ) (r0 : ℕ) (ops : List WlOp) (h : NeverInPlace r0 ops) (r : ℕ)
    (h0 : (wlHistory strict (wlInit mem r0) ops).oc ≠ []) (hr : (wlHistory strict (wlInit mem r0) ops).mem r ≠ []) :
    (wlCalc strict (wlHistory strict (wlInit mem r0) ops) r).2 = none ↔
      (strict = true ∧ ((wlHistory strict (wlInit mem r0) ops).mem r).length ≠ (wlHistory strict (wlInit mem r0) ops).oc.length ∧
        ((wlHistory strict (wlInit mem r0) ops).mem r).length ≠ 1 ∧ (wlHistory strict (wlInit mem r0) ops).oc.length ≠ 1) ∨
      (∃ x, (wlHistory strict (wlInit mem r0) ops).oc = [x] ∧ 1 < ((wlHistory strict (wlInit mem r0) ops).mem r).length ∧ ∀ y ∈ (wlHistory strict (wlInit mem r0) ops).mem r, y = x) := by
  obtain ⟨i1, -⟩ := wl_invariant strict mem r0 ops h
  generalize wlHistory strict (wlInit mem r0) ops = s at i1 h0 hr ⊢
  obtain ⟨m, c, o⟩ := s
  simp only at i1 h0 hr ⊢
  subst i1
  exact C180_raises_iff_partial strict m c r h0 hr

/-- The hypotheses of the three theorems are met by a history with three arrays of two wavelengths. -/
example : NeverInPlace 0 [.write 1 [500, 600], .calculate 1, .write 2 [700, 800], .calculate 2, .calculate 0] ∧
    AlwaysNumber 2 [.write 1 [500, 600], .calculate 1, .write 2 [700, 800], .calculate 2, .calculate 0] := by
  constructor
  · intro pre r v post e
    rcases pre with _ | ⟨a, _ | ⟨b, _ | ⟨c, _ | ⟨d, _ | ⟨f, pre⟩⟩⟩⟩⟩ <;> simp at e
    · obtain ⟨⟨rfl, -⟩, -⟩ := e; simp
    · obtain ⟨rfl, rfl, ⟨rfl, -⟩, -⟩ := e; simp
  · intro r v h
    simp only [List.mem_cons, WlOp.write.injEq, reduceCtorEq, List.not_mem_nil, or_false, false_or] at h
    rcases h with ⟨-, rfl⟩ | ⟨-, rfl⟩ <;> rfl

/-- **C180 fails (1)**: with recent NumPy a structure built for two wavelengths cannot be calculated at three, whatever the wavelengths. -/
theorem C180_number_fails (a b c d e : ℝ) : (wlCalc true (wlInit (fun r => if r = 0 then [a, b] else [c, d, e]) 0) 1).2 = none := by
  rw [C180_raises_iff_partial true _ 0 1 (by simp) (by simp)]
  left; simp

/-- **C180 fails (2)**: if the array of wavelengths is changed in place, the optical constants at the old wavelengths are used, without a warning, whatever the wavelengths and the version of NumPy. -/
theorem C180_in_place_fails (strict : Bool) (mem : ℕ → List ℝ) (v : List ℝ) (hv : v ≠ []) (hl : v.length = (mem 0).length) :
    (wlCalc strict (wlHistory strict (wlInit mem 0) [.calculate 0, .write 0 v]) 0).2 = some (v.zip (mem 0)) ∧ (v ≠ mem 0 → v.zip (mem 0) ≠ ownConstants v) := by
  classical
  have h0 : npAllEq strict (mem 0) (mem 0) = some true := by rw [npAllEq_same_length _ _ _ rfl]; simp
  have h1 : wlCalc strict (wlInit mem 0) 0 = (wlInit mem 0, wlRun (mem 0) (mem 0)) := by
    unfold wlCalc
    simp only [wlInit, h0]
  have h2 : wlHistory strict (wlInit mem 0) [.calculate 0, .write 0 v] = ⟨Function.update mem 0 v, 0, mem 0⟩ := by
    simp only [wlHistory, List.foldl_cons, List.foldl_nil, wlStep, h1]
    rfl
  constructor
  · rw [h2]
    unfold wlCalc
    simp only [Function.update_self]
    rw [npAllEq_same_length _ _ _ rfl]
    simp [wlRun, hv, hl]
  · intro hne he
    apply hne
    rw [← zip_self_own] at he
    have := congrArg (List.map Prod.snd) he
    rw [List.map_snd_zip (by omega), List.map_snd_zip le_rfl] at this
    exact this.symm

/-- Two wavelengths, changed in place. -/
example : (wlCalc true (wlHistory true (wlInit (fun _ => [500, 600]) 0) [.calculate 0, .write 0 [700, 800]]) 0).2 = some [(700, 500), (800, 600)] :=
  (C180_in_place_fails true (fun _ => [500, 600]) [700, 800] (by simp) (by simp)).1

end Rayflare
