import Verif.Model.RayStack
import Verif.Spec.Ray
import Verif.Lemmas.Trapz
import Mathlib.Tactic.Linarith
import Mathlib.Tactic.Positivity
import Mathlib.Algebra.BigOperators.Ring.Finset
import Mathlib.Algebra.Order.BigOperators.Group.Finset
import Mathlib.Algebra.Order.BigOperators.Group.List

/-! # Helper lemmas about rays in a stack -/

namespace Rayflare.Lemmas

open Rayflare.Model Rayflare.Spec Rayflare.Np

theorem pyIndex_of_lt {n : ℕ} {i : ℤ} (h0 : 0 ≤ i) (h1 : i < n) : pyIndex n i = some i.toNat := by
  unfold pyIndex; rw [if_pos ⟨h0, h1⟩]

/-- The ray's bookkeeping indices make sense. -/
structure OnTrack (S : Stack) (s : Ray) : Prop where
  dir : s.dir = 1 ∨ s.dir = -1
  mat0 : 0 ≤ s.mat
  mat1 : s.mat < S.widths.length
  surf : s.stop = false → (s.dir = 1 → s.surf = s.mat) ∧ (s.dir = -1 → s.surf = s.mat - 1) ∧ 0 ≤ s.surf ∧ s.surf < S.nSurf

theorem start_onTrack {S : Stack} {matI dirI : ℤ} (h : ValidStart S matI dirI) : OnTrack S (Stack.start matI dirI) := by
  have hn : S.nSurf = S.widths.length - 1 := rfl
  rcases h with ⟨rfl, h1, h2⟩ | ⟨rfl, h1, h2⟩
  · refine ⟨Or.inl rfl, h1, ?_, fun _ => ⟨fun _ => by simp [Stack.start], fun h => by simp [Stack.start] at h, ?_, ?_⟩⟩
    · simp only [Stack.start]; omega
    · simpa [Stack.start] using h1
    · simpa [Stack.start] using h2
  · refine ⟨Or.inr rfl, ?_, ?_, fun _ => ⟨fun h => by simp [Stack.start] at h, fun _ => by simp [Stack.start], ?_, ?_⟩⟩
    · simp only [Stack.start]; omega
    · simp only [Stack.start]; omega
    · simp [Stack.start]; omega
    · simp [Stack.start]; omega

/-- The three things a step of an unfinished ray can be. -/
theorem step_spec {S : Stack} {s : Ray} (h : OnTrack S s) (hs : s.stop = false) (o : Outcome) :
    (∃ A, o = .absorb A ∧ S.step s o = some (s.interact o)) ∨
    (∃ θ, (o = .reflect θ ∨ o = .transmit θ) ∧ S.step s o = some { s.interact o with stop := true } ∧
      ((s.interact o).dir = 1 ∧ (s.interact o).mat = (S.widths.length : ℤ) - 1 ∨ (s.interact o).dir = -1 ∧ (s.interact o).mat = 0)) ∨
    (∃ θ m, (o = .reflect θ ∨ o = .transmit θ) ∧ 1 ≤ m ∧ m + 1 < S.widths.length ∧ (s.interact o).mat = (m : ℤ) ∧
      S.step s o = some (S.pass (s.interact o) m)) := by
  obtain ⟨h1, h2, h3, h4⟩ := h.surf hs
  have hn : S.nSurf = S.widths.length - 1 := rfl
  have hm0 := h.mat0
  have hm1 := h.mat1
  have e1 : pyIndex S.nSurf s.surf = some s.surf.toNat := pyIndex_of_lt h3 h4
  have e2 : pyIndex S.widths.length s.mat = some s.mat.toNat := pyIndex_of_lt hm0 hm1
  have e3 : pyIndex S.widths.length (if s.dir = 1 then s.mat + 1 else s.mat - 1)
      = some (if s.dir = 1 then s.mat + 1 else s.mat - 1).toNat := by
    rcases h.dir with hd | hd
    · have := h1 hd
      rw [if_pos hd]
      exact pyIndex_of_lt (by omega) (by omega)
    · have := h2 hd
      rw [if_neg (by omega)]
      exact pyIndex_of_lt (by omega) (by omega)
  have hstep : S.step s o = if (S.checkEnd (s.interact o)).stop then some (S.checkEnd (s.interact o))
      else (pyIndex S.widths.length (S.checkEnd (s.interact o)).mat).map (S.pass (S.checkEnd (s.interact o))) := by
    unfold Stack.step
    rw [if_neg (by simp [hs]), e1, e2, e3]
    rfl
  rw [hstep]
  cases o with
  | absorb A =>
    left
    refine ⟨A, rfl, ?_⟩
    unfold Stack.checkEnd
    split_ifs <;> simp_all [Ray.interact]
  | reflect θ =>
    right
    by_cases c1 : (s.interact (.reflect θ)).dir = 1 ∧ (s.interact (.reflect θ)).mat = (S.widths.length : ℤ) - 1
    · left
      exact ⟨θ, Or.inl rfl, by simp [Stack.checkEnd, c1], Or.inl c1⟩
    · by_cases c2 : (s.interact (.reflect θ)).dir = -1 ∧ (s.interact (.reflect θ)).mat = 0
      · left
        exact ⟨θ, Or.inl rfl, by unfold Stack.checkEnd; rw [if_neg c1, if_pos c2]; simp, Or.inr c2⟩
      · right
        have hce : S.checkEnd (s.interact (.reflect θ)) = s.interact (.reflect θ) := by
          unfold Stack.checkEnd; rw [if_neg c1, if_neg c2]
        simp only [Ray.interact] at c1 c2
        have hmat : (s.interact (.reflect θ)).mat = s.mat := rfl
        refine ⟨θ, s.mat.toNat, Or.inl rfl, ?_, ?_, by rw [hmat]; omega, ?_⟩
        · rcases h.dir with hd | hd
          · have := h1 hd; omega
          · have := h2 hd; omega
        · rcases h.dir with hd | hd
          · have := h1 hd; omega
          · have := h2 hd; omega
        · rw [hce]
          have : (s.interact (.reflect θ)).stop = false := hs
          rw [this, if_neg (by simp), hmat, e2]
          rfl
  | transmit θ =>
    right
    by_cases c1 : (s.interact (.transmit θ)).dir = 1 ∧ (s.interact (.transmit θ)).mat = (S.widths.length : ℤ) - 1
    · left
      exact ⟨θ, Or.inr rfl, by simp [Stack.checkEnd, c1], Or.inl c1⟩
    · by_cases c2 : (s.interact (.transmit θ)).dir = -1 ∧ (s.interact (.transmit θ)).mat = 0
      · left
        exact ⟨θ, Or.inr rfl, by unfold Stack.checkEnd; rw [if_neg c1, if_pos c2]; simp, Or.inr c2⟩
      · right
        have hce : S.checkEnd (s.interact (.transmit θ)) = s.interact (.transmit θ) := by
          unfold Stack.checkEnd; rw [if_neg c1, if_neg c2]
        simp only [Ray.interact] at c1 c2
        have hmat : (s.interact (.transmit θ)).mat = s.mat + s.dir := rfl
        have hlo : 1 ≤ s.mat + s.dir := by
          rcases h.dir with hd | hd
          · omega
          · have := h2 hd; omega
        have hhi : s.mat + s.dir + 1 < S.widths.length := by
          rcases h.dir with hd | hd
          · have := h1 hd; omega
          · have := h2 hd; omega
        refine ⟨θ, (s.mat + s.dir).toNat, Or.inr rfl, by omega, by omega, by rw [hmat]; omega, ?_⟩
        rw [hce]
        have : (s.interact (.transmit θ)).stop = false := hs
        rw [this, if_neg (by simp), hmat, pyIndex_of_lt (by omega) (by omega)]
        rfl

theorem pass_mat (S : Stack) (s : Ray) (m : ℕ) : (S.pass s m).mat = s.mat := rfl
theorem pass_dir (S : Stack) (s : Ray) (m : ℕ) : (S.pass s m).dir = s.dir := rfl
theorem pass_surf (S : Stack) (s : Ray) (m : ℕ) : (S.pass s m).surf = s.surf := rfl

theorem step_stopped {S : Stack} {s : Ray} (hs : s.stop = true) (o : Outcome) : S.step s o = some s := by
  simp [Stack.step, hs]

theorem step_onTrack {S : Stack} {s : Ray} (h : OnTrack S s) (o : Outcome) :
    ∃ s', S.step s o = some s' ∧ OnTrack S s' := by
  cases hs : s.stop with
  | true => exact ⟨s, step_stopped hs o, h⟩
  | false =>
    obtain ⟨h1, h2, h3, h4⟩ := h.surf hs
    have hn : S.nSurf = S.widths.length - 1 := rfl
    have hm0 := h.mat0
    have hm1 := h.mat1
    rcases step_spec h hs o with ⟨A, rfl, he⟩ | ⟨θ, ho, he, hend⟩ | ⟨θ, m, ho, hm, hm', hmat, he⟩
    · exact ⟨_, he, h.dir, h.mat0, h.mat1, fun hf => by simp [Ray.interact] at hf⟩
    · refine ⟨_, he, ?_, ?_, ?_, fun hf => by simp at hf⟩
      · rcases hend with ⟨hd, _⟩ | ⟨hd, _⟩
        · exact Or.inl hd
        · exact Or.inr hd
      · rcases hend with ⟨_, hd⟩ | ⟨_, hd⟩ <;> simp only [hd] <;> omega
      · rcases hend with ⟨_, hd⟩ | ⟨_, hd⟩ <;> simp only [hd] <;> omega
    · have hdir : (s.interact o).dir = 1 ∨ (s.interact o).dir = -1 := by
        rcases ho with rfl | rfl
        · rcases h.dir with hd | hd
          · right; simp [Ray.interact, hd]
          · left; simp [Ray.interact, hd]
        · exact h.dir
      refine ⟨_, he, hdir, ?_, ?_, fun _ => ?_⟩
      · rw [pass_mat, hmat]; omega
      · rw [pass_mat, hmat]; omega
      · rw [pass_mat, pass_dir, pass_surf, hmat]
        rcases ho with rfl | rfl
        · simp only [Ray.interact] at hmat ⊢
          rcases h.dir with hd | hd
          · have := h1 hd
            rw [hd]
            refine ⟨fun h => by omega, fun _ => by omega, by omega, by omega⟩
          · have := h2 hd
            rw [hd]
            refine ⟨fun _ => by omega, fun h => by omega, by omega, by omega⟩
        · simp only [Ray.interact] at hmat ⊢
          rcases h.dir with hd | hd
          · have := h1 hd
            rw [hd] at hmat ⊢
            refine ⟨fun _ => by omega, fun h => by omega, by omega, by omega⟩
          · have := h2 hd
            rw [hd] at hmat ⊢
            refine ⟨fun h => by omega, fun _ => by omega, by omega, by omega⟩

/-- Induction principle along a trace. -/
theorem trace_induct {S : Stack} (P : Ray → Prop) (hP : ∀ s, OnTrack S s → P s → ∀ o, Possible o → ∀ s', S.step s o = some s' → P s') :
    ∀ (os : List Outcome) (s : Ray), OnTrack S s → P s → (∀ o ∈ os, Possible o) → ∃ s', S.trace s os = some s' ∧ OnTrack S s' ∧ P s' := by
  intro os
  induction os with
  | nil => intro s h hp _; exact ⟨s, rfl, h, hp⟩
  | cons o os ih =>
    intro s h hp ho
    obtain ⟨s1, h1, h2⟩ := step_onTrack h o
    obtain ⟨s', h3, h4, h5⟩ := ih s1 h2 (hP s h hp o (ho o (by simp)) s1 h1) (fun o' ho' => ho o' (by simp [ho']))
    exact ⟨s', by simp [Stack.trace, h1, h3], h4, h5⟩

/-! ## Energy -/

theorem sum_div_total (I : ℝ) {A : List ℝ} (h : A.sum ≠ 0) : (A.map (fun a => I * a / A.sum)).sum = I := by
  have : ∀ (l : List ℝ) (t : ℝ), (l.map (fun a => I * a / t)).sum = I * l.sum / t := by
    intro l t
    induction l with
    | nil => simp
    | cons a l ih => simp only [List.map_cons, List.sum_cons, ih]; ring
  rw [this, mul_div_assoc, div_self h, mul_one]

theorem getD_nonneg {l : List ℝ} (h : ∀ w ∈ l, 0 ≤ w) (m : ℕ) : 0 ≤ l.getD m 0 := by
  rw [List.getD_eq_getElem?_getD]
  rcases hm : l[m]? with _ | x
  · simp
  · simpa using h x (List.mem_of_getElem? hm)

/-- Intensity after a pass. -/
theorem pass_I (S : Stack) (s : Ray) (m : ℕ) :
    (S.pass s m).I = s.I * Real.exp (-(S.alphas.getD m 0 / |Real.cos (s.θ.getD 0)|) * S.widths.getD m 0) := rfl

theorem pass_I_le {S : Stack} (hS : Passive S) {s : Ray} (hI : 0 ≤ s.I) (m : ℕ) :
    0 ≤ (S.pass s m).I ∧ (S.pass s m).I ≤ s.I := by
  rw [pass_I]
  have h1 := getD_nonneg hS.widths m
  have h2 := getD_nonneg hS.alphas m
  have h3 : 0 ≤ S.alphas.getD m 0 / |Real.cos (s.θ.getD 0)| := div_nonneg h2 (abs_nonneg _)
  have h4 : Real.exp (-(S.alphas.getD m 0 / |Real.cos (s.θ.getD 0)|) * S.widths.getD m 0) ≤ 1 := by
    rw [Real.exp_le_one_iff]
    have := mul_nonneg h3 h1
    linarith
  exact ⟨mul_nonneg hI (Real.exp_pos _).le, mul_le_of_le_one_right hI h4⟩

/-- Energy bookkeeping of one ray. -/
structure Energy (S : Stack) (s : Ray) : Prop where
  I0 : 0 ≤ s.I
  I1 : s.I ≤ 1
  A0 : ∀ m, 0 ≤ s.A m
  first : s.A 0 = 0
  last : ∀ m, S.widths.length ≤ m + 1 → s.A m = 0
  int0 : ∀ a ∈ s.aInt, 0 ≤ a
  noInt : s.aIdx = 0 ∧ s.aInt = [] ∨ s.stop = true ∧ s.θ = none ∧ s.I = 0 ∧ ∃ j : ℕ, j < S.nSurf ∧ s.aIdx = (j : ℤ) + 1
  total : s.I + ∑ m ∈ Finset.range S.widths.length, s.A m + s.aInt.sum = 1

theorem start_energy (S : Stack) (matI dirI : ℤ) : Energy S (Stack.start matI dirI) := by
  constructor <;> simp [Stack.start]

theorem step_energy_of {S : Stack} (hS : Passive S) {s : Ray} (ht : OnTrack S s) (h : Energy S s) (o : Outcome) (ho : ∀ A, o = .absorb A → (∀ a ∈ A, 0 ≤ a) ∧ 0 < A.sum)
    (s' : Ray) (hs' : S.step s o = some s') : Energy S s' ∧ s'.I ≤ s.I ∧ ∀ m, s.A m ≤ s'.A m := by
  cases hs : s.stop with
  | true =>
    rw [step_stopped hs] at hs'
    simp only [Option.some.injEq] at hs'
    subst hs'
    exact ⟨h, le_refl _, fun _ => le_refl _⟩
  | false =>
    have hno : s.aIdx = 0 ∧ s.aInt = [] := by
      rcases h.noInt with h | ⟨h, _⟩
      · exact h
      · simp [hs] at h
    obtain ⟨_, _, hs3, hs4⟩ := ht.surf hs
    rcases step_spec ht hs o with ⟨A, rfl, he⟩ | ⟨θ, ho', he, hend⟩ | ⟨θ, m, ho', hm, hm', hmat, he⟩
    · rw [he] at hs'
      simp only [Option.some.injEq] at hs'
      subst hs'
      refine ⟨⟨le_refl _, zero_le_one, h.A0, h.first, h.last, ?_, ?_, ?_⟩, h.I0, fun _ => le_refl _⟩
      · intro a ha
        simp only [Ray.interact, List.mem_map] at ha
        obtain ⟨b, hb, rfl⟩ := ha
        exact div_nonneg (mul_nonneg h.I0 ((ho A rfl).1 b hb)) (ho A rfl).2.le
      · refine Or.inr ⟨rfl, rfl, rfl, s.surf.toNat, by omega, ?_⟩
        simp only [Ray.interact]
        omega
      · have h1 := h.total
        rw [hno.2] at h1
        have h2 : (List.map (fun a => s.I * a / A.sum) A).sum = s.I := sum_div_total s.I (ho A rfl).2.ne'
        simp only [Ray.interact, h2]
        simp only [List.sum_nil] at h1
        linarith
    · rw [he] at hs'
      simp only [Option.some.injEq] at hs'
      subst hs'
      have hI : (s.interact o).I = s.I := by rcases ho' with rfl | rfl <;> rfl
      have hA : (s.interact o).A = s.A := by rcases ho' with rfl | rfl <;> rfl
      have hi1 : (s.interact o).aInt = s.aInt := by rcases ho' with rfl | rfl <;> rfl
      have hi2 : (s.interact o).aIdx = s.aIdx := by rcases ho' with rfl | rfl <;> rfl
      refine ⟨⟨?_, ?_, ?_, ?_, ?_, ?_, Or.inl ?_, ?_⟩, ?_, ?_⟩ <;> simp only [hI, hA, hi1, hi2]
      · exact h.I0
      · exact h.I1
      · exact h.A0
      · exact h.first
      · exact h.last
      · exact h.int0
      · exact hno
      · exact h.total
      · exact le_refl _
      · exact fun _ => le_refl _
    · rw [he] at hs'
      simp only [Option.some.injEq] at hs'
      subst hs'
      have hI : (s.interact o).I = s.I := by rcases ho' with rfl | rfl <;> rfl
      have hA : (s.interact o).A = s.A := by rcases ho' with rfl | rfl <;> rfl
      have hi1 : (s.interact o).aInt = s.aInt := by rcases ho' with rfl | rfl <;> rfl
      have hi2 : (s.interact o).aIdx = s.aIdx := by rcases ho' with rfl | rfl <;> rfl
      obtain ⟨p0, p1⟩ := pass_I_le hS (s := s.interact o) (by rw [hI]; exact h.I0) m
      rw [hI] at p1
      set I' := (S.pass (s.interact o) m).I with hI'
      have hA' : (S.pass (s.interact o) m).A = fun k => if k = m then s.A k + s.I - I' else s.A k := by
        rw [hI']
        simp only [Stack.pass, hA, hI]
      refine ⟨⟨p0, p1.trans h.I1, ?_, ?_, ?_, ?_, Or.inl ?_, ?_⟩, p1, ?_⟩
      · intro k
        rw [hA']
        simp only
        split_ifs
        · have := h.A0 k; linarith
        · exact h.A0 k
      · rw [hA']
        simp only
        rw [if_neg (by omega)]
        exact h.first
      · intro k hk
        rw [hA']
        simp only
        rw [if_neg (by omega)]
        exact h.last k hk
      · have : (S.pass (s.interact o) m).aInt = (s.interact o).aInt := rfl
        rw [this, hi1]
        exact h.int0
      · have e1 : (S.pass (s.interact o) m).aInt = (s.interact o).aInt := rfl
        have e2 : (S.pass (s.interact o) m).aIdx = (s.interact o).aIdx := rfl
        rw [e1, e2, hi1, hi2]
        exact hno
      · have e1 : (S.pass (s.interact o) m).aInt = (s.interact o).aInt := rfl
        rw [e1, hi1, hA']
        have hmem : m ∈ Finset.range S.widths.length := Finset.mem_range.mpr (by omega)
        have hsum : ∑ k ∈ Finset.range S.widths.length, (if k = m then s.A k + s.I - I' else s.A k)
            = ∑ k ∈ Finset.range S.widths.length, s.A k + (s.I - I') := by
          have : ∀ k ∈ Finset.range S.widths.length, (if k = m then s.A k + s.I - I' else s.A k)
              = s.A k + (if k = m then s.I - I' else 0) := by
            intro k _; split_ifs <;> ring
          rw [Finset.sum_congr rfl this, Finset.sum_add_distrib, Finset.sum_ite_eq' _ m, if_pos hmem]
        rw [hsum]
        have := h.total
        linarith
      · intro k
        rw [hA']
        simp only
        split_ifs
        · linarith
        · exact le_refl _

theorem step_energy {S : Stack} (hS : Passive S) {s : Ray} (ht : OnTrack S s) (h : Energy S s) (o : Outcome) (ho : Possible o)
    (s' : Ray) (hs' : S.step s o = some s') : Energy S s' ∧ s'.I ≤ s.I ∧ ∀ m, s.A m ≤ s'.A m :=
  step_energy_of hS ht h o (fun A e => by subst e; exact ho) s' hs'

theorem trace_energy {S : Stack} (hS : Passive S) {s : Ray} (ht : OnTrack S s) (h : Energy S s) (os : List Outcome)
    (ho : ∀ o ∈ os, Possible o) : ∃ s', S.trace s os = some s' ∧ OnTrack S s' ∧ Energy S s' :=
  trace_induct (Energy S) (fun s ht h o ho s' hs' => (step_energy hS ht h o ho s' hs').1) os s ht h ho

theorem trace_append {S : Stack} (s : Ray) (as bs : List Outcome) :
    S.trace s (as ++ bs) = (S.trace s as).bind fun t => S.trace t bs := by
  induction as generalizing s with
  | nil => rfl
  | cons a as ih =>
    simp only [List.cons_append, Stack.trace]
    rcases S.step s a with _ | t
    · rfl
    · simp [ih]

/-! ## How a finished ray ended -/

theorem traverse_stop (width θ α I : ℝ) (ps : List ℝ) (thresh : ℝ) (up : Bool) :
    (traverse width θ α I ps thresh up).2.1 = decide ((traverse width θ α I ps thresh up).2.2.1 < thresh) ∧
    (traverse width θ α I ps thresh up).2.2.2 = (if (traverse width θ α I ps thresh up).2.1 then none else some θ) :=
  ⟨rfl, rfl⟩

/-- Finished rays without an angle have at most the threshold left; unfinished ones have at least the threshold left once they
have passed a layer. -/
structure Ending (S : Stack) (s : Ray) : Prop where
  lost : s.stop = true → s.θ = none → s.I = 0 ∨ s.I < S.thresh
  left : s.stop = true → ∀ t, s.θ = some t → s.dir = 1 ∧ s.mat = (S.widths.length : ℤ) - 1 ∨ s.dir = -1 ∧ s.mat = 0
  going : s.stop = false → s.nPasses = 0 ∨ S.thresh ≤ s.I
  angle : s.stop = false → ∀ t, s.θ = some t → Real.cos t ≠ 0

theorem start_ending (S : Stack) (matI dirI : ℤ) : Ending S (Stack.start matI dirI) := by
  constructor <;> simp [Stack.start]

theorem step_ending {S : Stack} {s : Ray} (ht : OnTrack S s) (h : Ending S s) (o : Outcome) (ho : Possible o)
    (s' : Ray) (hs' : S.step s o = some s') : Ending S s' := by
  cases hs : s.stop with
  | true =>
    rw [step_stopped hs] at hs'
    simp only [Option.some.injEq] at hs'
    subst hs'
    exact h
  | false =>
    rcases step_spec ht hs o with ⟨A, rfl, he⟩ | ⟨θ, ho', he, hend⟩ | ⟨θ, m, ho', hm, hm', hmat, he⟩
    · rw [he] at hs'
      simp only [Option.some.injEq] at hs'
      subst hs'
      refine ⟨fun _ _ => Or.inl rfl, fun _ t ht => ?_, fun hf => ?_, fun hf => ?_⟩
      · simp [Ray.interact] at ht
      · simp [Ray.interact] at hf
      · simp [Ray.interact] at hf
    · rw [he] at hs'
      simp only [Option.some.injEq] at hs'
      subst hs'
      have hθ : (s.interact o).θ = some θ := by rcases ho' with rfl | rfl <;> rfl
      refine ⟨fun _ hn => ?_, fun _ t _ => hend, fun hf => ?_, fun hf => ?_⟩
      · simp [hθ] at hn
      · simp at hf
      · simp at hf
    · rw [he] at hs'
      simp only [Option.some.injEq] at hs'
      subst hs'
      have hθ : (s.interact o).θ = some θ := by rcases ho' with rfl | rfl <;> rfl
      have hcos : Real.cos θ ≠ 0 := by rcases ho' with rfl | rfl <;> exact ho
      have hstop : (S.pass (s.interact o) m).stop = decide ((S.pass (s.interact o) m).I < S.thresh) := rfl
      have hth : (S.pass (s.interact o) m).θ = if (S.pass (s.interact o) m).stop then none else some ((s.interact o).θ.getD 0) := rfl
      refine ⟨fun hf _ => ?_, fun hf t ht' => ?_, fun hf => ?_, fun hf t ht' => ?_⟩
      · rw [hstop] at hf
        exact Or.inr (of_decide_eq_true hf)
      · rw [hth, hf] at ht'; simp at ht'
      · rw [hstop] at hf
        exact Or.inr (not_lt.mp (of_decide_eq_false hf))
      · rw [hth, hf, hθ] at ht'
        simp only [Bool.false_eq_true, if_false, Option.getD_some, Option.some.injEq] at ht'
        rw [← ht']; exact hcos

end Rayflare.Lemmas
