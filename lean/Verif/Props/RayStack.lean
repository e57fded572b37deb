import Verif.Lemmas.RayStack2
import Mathlib.Analysis.SpecialFunctions.Log.Basic
import Mathlib.Tactic.NormNum
import Mathlib.Tactic.IntervalCases

/-!
# Properties C35–C40 and C44: rays in a stack

`rt_structure.calculate` follows each ray with `single_ray_stack`.  What happens at a surface is an arbitrary sequence of outcomes, so the theorems
hold for every geometry and every stream of random numbers.
-/

namespace Rayflare

open Rayflare.Model Rayflare.Spec Rayflare.Np Rayflare.Lemmas

/-! ## Examples used to show that the hypotheses can be met -/

/-- Air, an absorbing layer of thickness 2, air, with three depth samples. -/
noncomputable def exStack : Stack := { widths := [0, 2, 0], alphas := [0, 1, 0], zpos := [0, 1/2, 1], thresh := 1/100 }

theorem exStack_passive : Passive exStack := by
  constructor
  · intro w hw; simp [exStack] at hw; rcases hw with rfl | rfl | rfl <;> norm_num
  · intro a ha; simp [exStack] at ha; rcases ha with rfl | rfl | rfl <;> norm_num
  · norm_num [exStack]

theorem exStack_start : ValidStart exStack 0 1 := Or.inl ⟨rfl, le_refl _, by simp [Stack.nSurf, exStack]⟩

/-- A ray that is refracted, reflected at the bottom and absorbed in the front surface. -/
noncomputable def exOutcomes : List Outcome := [.transmit Real.pi, .reflect 0, .absorb [1, 3]]

theorem exOutcomes_possible : ∀ o ∈ exOutcomes, Possible o := by
  intro o ho
  simp only [exOutcomes, List.mem_cons, List.not_mem_nil, or_false] at ho
  rcases ho with rfl | rfl | rfl
  · simp [Possible]
  · simp [Possible]
  · constructor
    · intro a ha; simp at ha; rcases ha with rfl | rfl <;> norm_num
    · norm_num

/-- The example ray is finished. -/
theorem exRay : ∃ s, FinishedFrom exStack 0 1 s := by
  have h0 := start_onTrack exStack_start
  obtain ⟨s, hs, ht, -⟩ := trace_induct (S := exStack) (fun _ => True) (fun _ _ _ _ _ _ _ => trivial)
    exOutcomes _ h0 trivial exOutcomes_possible
  refine ⟨s, exOutcomes, exOutcomes_possible, hs, ?_⟩
  -- an absorbed ray is finished; an already finished ray stays finished
  have hsplit : exOutcomes = [.transmit Real.pi, .reflect 0] ++ [.absorb [1, 3]] := rfl
  rw [hsplit, trace_append] at hs
  obtain ⟨t, h1, h2⟩ := Option.bind_eq_some_iff.mp hs
  obtain ⟨t', ht', htt, -⟩ := trace_induct (S := exStack) (fun _ => True) (fun _ _ _ _ _ _ _ => trivial)
    [.transmit Real.pi, .reflect 0] _ h0 trivial (fun o ho => exOutcomes_possible o (by rw [hsplit]; simp at ho ⊢; tauto))
  rw [h1] at ht'
  simp only [Option.some.injEq] at ht'
  subst ht'
  simp only [Stack.trace, Option.bind_eq_some_iff, Option.some.injEq] at h2
  obtain ⟨u, hu, rfl⟩ := h2
  cases hstop : t.stop with
  | true =>
    rw [step_stopped hstop] at hu
    simp only [Option.some.injEq] at hu
    rw [← hu]; exact hstop
  | false =>
    rcases step_spec htt hstop (.absorb [1, 3]) with ⟨A, _, he⟩ | ⟨θ, ho, _⟩ | ⟨θ, m, ho, _⟩
    · rw [he] at hu
      simp only [Option.some.injEq] at hu
      rw [← hu]; rfl
    · rcases ho with ho | ho <;> simp at ho
    · rcases ho with ho | ho <;> simp at ho

/-! ## C35 -/

/-- **C35.** From a valid start and for every sequence of outcomes the ray never addresses a medium or surface that does not exist (no
IndexError), its medium index is in range, and as long as it is under way it is sent to the surface bounding its medium in its direction of
travel: surface `mat` (below the medium) when going down, `mat - 1` (above it) when going up. -/
theorem C35_indices (S : Stack) (matI dirI : ℤ) (h : ValidStart S matI dirI) (os : List Outcome) :
    ∃ s, S.trace (Stack.start matI dirI) os = some s ∧ 0 ≤ s.mat ∧ s.mat < S.widths.length ∧
      (s.stop = false → (s.dir = 1 ∧ s.surf = s.mat ∨ s.dir = -1 ∧ s.surf = s.mat - 1) ∧ 0 ≤ s.surf ∧ s.surf < S.nSurf) := by
  have key : ∀ (os : List Outcome) (s : Ray), OnTrack S s → ∃ s', S.trace s os = some s' ∧ OnTrack S s' := by
    intro os
    induction os with
    | nil => intro s hs; exact ⟨s, rfl, hs⟩
    | cons o os ih =>
      intro s hs
      obtain ⟨s1, h1, h2⟩ := step_onTrack hs o
      obtain ⟨s2, h3, h4⟩ := ih s1 h2
      exact ⟨s2, by simp [Stack.trace, h1, h3], h4⟩
  obtain ⟨s, h1, h2⟩ := key os _ (start_onTrack h)
  refine ⟨s, h1, h2.mat0, h2.mat1, fun hs => ?_⟩
  obtain ⟨a, b, c, d⟩ := h2.surf hs
  refine ⟨?_, c, d⟩
  rcases h2.dir with hd | hd
  · exact Or.inl ⟨hd, a hd⟩
  · exact Or.inr ⟨hd, b hd⟩

example : ∃ s, exStack.trace (Stack.start 0 1) exOutcomes = some s ∧ 0 ≤ s.mat ∧ s.mat < 3 := by
  obtain ⟨s, h1, h2, h3, -⟩ := C35_indices exStack 0 1 exStack_start exOutcomes
  exact ⟨s, h1, h2, by simpa [exStack] using h3⟩

/-- **C35, how the indices move.** One interaction of a ray under way: reflection reverses the direction and keeps the medium,
transmission keeps the direction and moves one medium on in that direction. -/
theorem C35_moves (S : Stack) (matI dirI : ℤ) (h : ValidStart S matI dirI) (os : List Outcome) (o : Outcome) (s s' : Ray)
    (hs : S.trace (Stack.start matI dirI) os = some s) (hgo : s.stop = false) (hs' : S.step s o = some s') :
    (∀ θ, o = .reflect θ → s'.mat = s.mat ∧ s'.dir = -s.dir) ∧ (∀ θ, o = .transmit θ → s'.mat = s.mat + s.dir ∧ s'.dir = s.dir) ∧
    (∀ A, o = .absorb A → s'.mat = s.mat ∧ s'.stop = true) := by
  have key : ∀ (os : List Outcome) (s s' : Ray), OnTrack S s → S.trace s os = some s' → OnTrack S s' := by
    intro os
    induction os with
    | nil => intro s s' hs h; simp only [Stack.trace, Option.some.injEq] at h; exact h ▸ hs
    | cons o os ih =>
      intro s s' hs h
      obtain ⟨s1, h1, h2⟩ := step_onTrack hs o
      simp only [Stack.trace, h1, Option.bind_some] at h
      exact ih s1 s' h2 h
  have ht := key os _ _ (start_onTrack h) hs
  rcases step_spec ht hgo o with ⟨A, rfl, he⟩ | ⟨θ, ho, he, -⟩ | ⟨θ, m, ho, -, -, -, he⟩
  all_goals
    rw [he] at hs'
    simp only [Option.some.injEq] at hs'
    subst hs'
  · exact ⟨fun _ h => by simp at h, fun _ h => by simp at h, fun _ _ => ⟨rfl, rfl⟩⟩
  · rcases ho with rfl | rfl
    · exact ⟨fun _ _ => ⟨rfl, rfl⟩, fun _ h => by simp at h, fun _ h => by simp at h⟩
    · exact ⟨fun _ h => by simp at h, fun _ _ => ⟨rfl, rfl⟩, fun _ h => by simp at h⟩
  · rcases ho with rfl | rfl
    · exact ⟨fun _ _ => ⟨rfl, rfl⟩, fun _ h => by simp at h, fun _ h => by simp at h⟩
    · exact ⟨fun _ h => by simp at h, fun _ _ => ⟨rfl, rfl⟩, fun _ h => by simp at h⟩

/-! ## C36 -/

/-- **C36.** After any sequence of possible outcomes: intensity left + absorbed in the media + absorbed in the interface = 1, with nothing negative, and
going on only lowers the intensity and never takes back what was absorbed. -/
theorem C36_energy (S : Stack) (hS : Passive S) (matI dirI : ℤ) (h : ValidStart S matI dirI) (os more : List Outcome)
    (ho : ∀ o ∈ os, Possible o) (hm : ∀ o ∈ more, Possible o) :
    ∃ s s', S.trace (Stack.start matI dirI) os = some s ∧ S.trace (Stack.start matI dirI) (os ++ more) = some s' ∧
      (s.I + ∑ m ∈ Finset.range S.widths.length, s.A m + s.aInt.sum = 1 ∧ 0 ≤ s.I ∧ (∀ m, 0 ≤ s.A m) ∧ ∀ a ∈ s.aInt, 0 ≤ a) ∧
      s'.I ≤ s.I ∧ ∀ m, s.A m ≤ s'.A m := by
  obtain ⟨s, h1, h2, h3⟩ := trace_energy hS (start_onTrack h) (start_energy S matI dirI) os ho
  obtain ⟨s', h4, -, h5, h6, h7⟩ := trace_induct (S := S) (fun t => Energy S t ∧ t.I ≤ s.I ∧ ∀ m, s.A m ≤ t.A m)
    (fun t ht hE o ho t' ht' => by
      obtain ⟨a, b, c⟩ := step_energy hS ht hE.1 o ho t' ht'
      exact ⟨a, b.trans hE.2.1, fun m => (hE.2.2 m).trans (c m)⟩) more s h2 ⟨h3, le_refl _, fun _ => le_refl _⟩ hm
  exact ⟨s, s', h1, by rw [trace_append, h1]; exact h4, ⟨h3.total, h3.I0, h3.A0, h3.int0⟩, h6, h7⟩

example : ∃ s, exStack.trace (Stack.start 0 1) exOutcomes = some s ∧
    s.I + ∑ m ∈ Finset.range 3, s.A m + s.aInt.sum = 1 := by
  obtain ⟨s, _, h1, _, h2, _⟩ := C36_energy exStack exStack_passive 0 1 exStack_start exOutcomes [] exOutcomes_possible (by simp)
  exact ⟨s, h1, by simpa [exStack] using h2.1⟩

/-- **C36, Beer–Lambert.** A pass through a medium at angle `θ` multiplies the intensity by `exp(-α w / |cos θ|)`, and exactly the loss is
credited to that medium: stated for a ray transmitted into the inner medium `mat + dir`. -/
theorem C36_beer_lambert (S : Stack) (matI dirI : ℤ) (h : ValidStart S matI dirI) (os : List Outcome) (s s' : Ray) (θ : ℝ)
    (hs : S.trace (Stack.start matI dirI) os = some s) (hgo : s.stop = false) (m : ℕ) (hm : s.mat + s.dir = m) (h1 : 1 ≤ m)
    (h2 : m + 1 < S.widths.length) (hs' : S.step s (.transmit θ) = some s') :
    s'.I = s.I * Real.exp (-(S.alphas.getD m 0 * S.widths.getD m 0 / |Real.cos θ|)) ∧ s'.A m = s.A m + (s.I - s'.I) ∧
      (∀ k ≠ m, s'.A k = s.A k) ∧ s'.nPasses = s.nPasses + 1 := by
  have key : ∀ (os : List Outcome) (s s' : Ray), OnTrack S s → S.trace s os = some s' → OnTrack S s' := by
    intro os
    induction os with
    | nil => intro s s' hs h; simp only [Stack.trace, Option.some.injEq] at h; exact h ▸ hs
    | cons o os ih =>
      intro s s' hs h
      obtain ⟨s1, h1, h2⟩ := step_onTrack hs o
      simp only [Stack.trace, h1, Option.bind_some] at h
      exact ih s1 s' h2 h
  have ht := key os _ _ (start_onTrack h) hs
  rcases step_spec ht hgo (.transmit θ) with ⟨A, ho, he⟩ | ⟨θ', ho, he, hend⟩ | ⟨θ', m', ho, hm1, hm2, hmm, he⟩
  · simp at ho
  · simp only [Ray.interact] at hend
    rcases hend with ⟨a, b⟩ | ⟨a, b⟩ <;> omega
  · have : m' = m := by
      have : s.mat + s.dir = (m' : ℤ) := hmm
      omega
    subst this
    rw [he] at hs'
    simp only [Option.some.injEq] at hs'
    subst hs'
    refine ⟨?_, ?_, ?_, rfl⟩
    · rw [pass_I]
      simp only [Ray.interact, Option.getD_some]
      congr 2; ring
    · simp only [Stack.pass, Ray.interact, if_true]; ring
    · intro k hk
      simp [Stack.pass, Ray.interact, hk]

/-! ## C44 -/

/-- **C44.** A ray absorbed in an interface is finished, the interface recorded is the one it was sent to, and its whole intensity is distributed over the
interface layers in proportion to the tabulated absorption per layer. -/
theorem C44_interface_absorption (S : Stack) (matI dirI : ℤ) (h : ValidStart S matI dirI) (os : List Outcome) (s : Ray)
    (hs : S.trace (Stack.start matI dirI) os = some s) (hgo : s.stop = false) (A : List ℝ) (hA : 0 < A.sum) :
    ∃ s', S.step s (.absorb A) = some s' ∧ s'.stop = true ∧ s'.I = 0 ∧ s'.aIdx = s.surf + 1 ∧ s'.aInt.sum = s.I ∧
      s'.aInt.length = A.length ∧ (∀ l, s'.aInt.getD l 0 * A.sum = s.I * A.getD l 0) ∧ s'.A = s.A := by
  have key : ∀ (os : List Outcome) (s s' : Ray), OnTrack S s → S.trace s os = some s' → OnTrack S s' := by
    intro os
    induction os with
    | nil => intro s s' hs h; simp only [Stack.trace, Option.some.injEq] at h; exact h ▸ hs
    | cons o os ih =>
      intro s s' hs h
      obtain ⟨s1, h1, h2⟩ := step_onTrack hs o
      simp only [Stack.trace, h1, Option.bind_some] at h
      exact ih s1 s' h2 h
  have ht := key os _ _ (start_onTrack h) hs
  rcases step_spec ht hgo (.absorb A) with ⟨A', ho, he⟩ | ⟨θ', ho, _⟩ | ⟨θ', m', ho, _⟩
  · refine ⟨_, he, rfl, rfl, rfl, sum_div_total s.I hA.ne', by simp [Ray.interact], fun l => ?_, rfl⟩
    simp only [Ray.interact]
    by_cases hl : l < A.length
    · rw [List.getD_eq_getElem _ _ (by simpa using hl), List.getD_eq_getElem _ _ hl, List.getElem_map, div_mul_cancel₀ _ hA.ne']
    · rw [List.getD_eq_default _ _ (by simpa using hl), List.getD_eq_default _ _ (by simpa using hl)]; ring
  · rcases ho with ho | ho <;> simp at ho
  · rcases ho with ho | ho <;> simp at ho

example : ∃ s', exStack.step (Stack.start 0 1) (.absorb [1, 3]) = some s' ∧ s'.aInt.getD 1 0 * 4 = 3 := by
  obtain ⟨s', h1, -, -, -, -, -, h2, -⟩ := C44_interface_absorption exStack 0 1 exStack_start [] _ rfl rfl [1, 3] (by norm_num)
  refine ⟨s', h1, ?_⟩
  have := h2 1
  norm_num [Stack.start] at this ⊢
  linarith

/-! ## C37 -/

/-- **C37.** Let `rays` be finished rays.  With `nl j` the number of layers of interface `j`, reflection + transmission + absorption in the bulk layers (the inner
media) + absorption in the interface layers is one minus the mean intensity left in the rays given up in the bulk, hence
between `1 - I_thresh` and 1. -/
theorem C37_totals (S : Stack) (hS : Passive S) (matI dirI : ℤ) (h : ValidStart S matI dirI) (rays : List Ray) (hne : rays ≠ [])
    (hfin : ∀ s ∈ rays, FinishedFrom S matI dirI s) (nl : ℕ → ℕ)
    (hnl : ∀ s ∈ rays, ∀ j : ℕ, s.aIdx = (j : ℤ) + 1 → s.aInt.length = nl j) :
    let total := resR rays + resT rays + ∑ m ∈ Finset.Ico 1 (S.widths.length - 1), resA rays m
      + ∑ j ∈ Finset.range S.nSurf, ∑ l ∈ Finset.range (nl j), resAint rays j l
    total = 1 - rayMean rays (fun s => if s.θ = none then s.I else 0) ∧ 1 - S.thresh ≤ total ∧ total ≤ 1 := by
  have hstate : ∀ s ∈ rays, Energy S s ∧ Ending S s ∧ s.stop = true := by
    intro s hs
    obtain ⟨os, ho, htr, hstop⟩ := hfin s hs
    obtain ⟨s1, h1, -, h3⟩ := trace_energy hS (start_onTrack h) (start_energy S matI dirI) os ho
    obtain ⟨s2, h4, -, h6⟩ := trace_induct (S := S) (Ending S) (fun t ht hE o ho t' ht' => step_ending ht hE o ho t' ht') os _
      (start_onTrack h) (start_ending S matI dirI) ho
    rw [htr] at h1 h4
    simp only [Option.some.injEq] at h1 h4
    subst h1; subst h4
    exact ⟨h3, h6, hstop⟩
  have hlen : 2 ≤ S.widths.length := by
    have hn : S.nSurf = S.widths.length - 1 := rfl
    rcases h with ⟨_, a, b⟩ | ⟨_, a, b⟩ <;> omega
  -- per ray
  have hray : ∀ s ∈ rays, (if s.isRefl then s.I else 0) + (if s.isTrns then s.I else 0) + ∑ m ∈ Finset.Ico 1 (S.widths.length - 1), s.A m
      + ∑ j ∈ Finset.range S.nSurf, ∑ l ∈ Finset.range (nl j), (if s.aIdx = (j : ℤ) + 1 then s.aInt.getD l 0 else 0)
      = 1 + -(if s.θ = none then s.I else 0) := by
    intro s hs
    obtain ⟨hE, hEnd, hstop⟩ := hstate s hs
    have hRT : (if s.isRefl then s.I else 0) + (if s.isTrns then s.I else 0) = s.I - (if s.θ = none then s.I else 0) := by
      unfold Ray.isRefl Ray.isTrns
      cases hθ : s.θ with
      | none => simp
      | some t =>
        by_cases ht : t ≤ Real.pi / 2
        · simp [ht]
        · simp [ht, not_le.mp ht]
    have hA : ∑ m ∈ Finset.Ico 1 (S.widths.length - 1), s.A m = ∑ m ∈ Finset.range S.widths.length, s.A m := by
      symm
      obtain ⟨n, hn⟩ : ∃ n, S.widths.length = n + 2 := ⟨S.widths.length - 2, by omega⟩
      rw [hn, Finset.sum_range_succ, hE.last (n + 1) (by omega), add_zero, show n + 2 - 1 = n + 1 by omega,
        Finset.range_eq_Ico, Finset.sum_eq_sum_Ico_succ_bot (by omega), hE.first, zero_add]
    have hInt : ∑ j ∈ Finset.range S.nSurf, ∑ l ∈ Finset.range (nl j), (if s.aIdx = (j : ℤ) + 1 then s.aInt.getD l 0 else 0)
        = s.aInt.sum := by
      rcases hE.noInt with ⟨h0, h0'⟩ | ⟨_, _, _, j, hj, hidx⟩
      · rw [h0', List.sum_nil]
        apply Finset.sum_eq_zero
        intro j _
        apply Finset.sum_eq_zero
        intro l _
        rw [if_neg (by omega)]
      · rw [Finset.sum_eq_single j]
        · simp only [hidx, if_true]
          exact list_sum_eq_sum_range _ (hnl s hs j hidx)
        · intro j' _ hne'
          apply Finset.sum_eq_zero
          intro l _
          rw [if_neg (by omega)]
        · intro hj'
          exact absurd (Finset.mem_range.mpr hj) hj'
    rw [hRT, hA, hInt]
    have := hE.total
    linarith
  have htot : resR rays + resT rays + ∑ m ∈ Finset.Ico 1 (S.widths.length - 1), resA rays m
      + ∑ j ∈ Finset.range S.nSurf, ∑ l ∈ Finset.range (nl j), resAint rays j l
      = 1 - rayMean rays (fun s => if s.θ = none then s.I else 0) := by
    unfold resR resT resA resAint
    simp only [rayMean_sum, rayMean_add]
    rw [rayMean_congr hray, ← rayMean_add, rayMean_const hne]
    have : rayMean rays (fun s => -(if s.θ = none then s.I else 0)) = -rayMean rays (fun s => if s.θ = none then s.I else 0) := by
      rw [rayMean_eq, rayMean_eq, ← neg_div]
      congr 1
      clear hstate hray hfin hnl hne
      induction rays with
      | nil => simp
      | cons a l ih => simp only [List.map_cons, List.sum_cons, ih]; ring
    rw [this]; ring
  have hlo : 0 ≤ rayMean rays (fun s => if s.θ = none then s.I else 0) := by
    apply rayMean_nonneg
    intro s hs
    have := (hstate s hs).1.I0
    split_ifs
    · exact this
    · exact le_refl _
  have hhi : rayMean rays (fun s => if s.θ = none then s.I else 0) ≤ S.thresh := by
    calc _ ≤ rayMean rays (fun _ => S.thresh) := by
            apply rayMean_mono
            intro s hs
            obtain ⟨hE, hEnd, hstop⟩ := hstate s hs
            have := hS.thresh
            split_ifs with hθ
            · rcases hEnd.lost hstop hθ with h | h
              · rw [h]; exact this
              · exact h.le
            · exact this
      _ = S.thresh := rayMean_const hne _
  exact ⟨htot, by linarith, by linarith⟩

/-- **C37, signs.** All reported fractions are non-negative, `R0 ≤ R`, and nothing is ever booked to the incidence or transmission medium. -/
theorem C37_signs (S : Stack) (hS : Passive S) (matI dirI : ℤ) (h : ValidStart S matI dirI) (rays : List Ray)
    (hfin : ∀ s ∈ rays, FinishedFrom S matI dirI s) :
    0 ≤ resR0 rays ∧ resR0 rays ≤ resR rays ∧ 0 ≤ resT rays ∧ (∀ m, 0 ≤ resA rays m) ∧ (∀ j l, 0 ≤ resAint rays j l) ∧
      (∀ k, 0 ≤ resProfile rays k) ∧ resA rays 0 = 0 ∧ resA rays (S.widths.length - 1) = 0 := by
  have hE : ∀ s ∈ rays, Energy S s := by
    intro s hs
    obtain ⟨os, ho, htr, hstop⟩ := hfin s hs
    obtain ⟨s1, h1, -, h3⟩ := trace_energy hS (start_onTrack h) (start_energy S matI dirI) os ho
    rw [htr] at h1
    simp only [Option.some.injEq] at h1
    exact h1 ▸ h3
  have hz : ∀ f : Ray → ℝ, (∀ s ∈ rays, f s = 0) → rayMean rays f = 0 := by
    intro f hf
    rw [rayMean_congr (g := fun _ => 0) hf]
    simp [rayMean]
  refine ⟨?_, ?_, ?_, ?_, ?_, ?_, ?_, ?_⟩
  · apply rayMean_nonneg; intro s hs
    have := (hE s hs).I0
    split_ifs <;> first | exact this | exact le_refl _
  · apply rayMean_mono; intro s hs
    have := (hE s hs).I0
    by_cases h1 : s.isRefl <;> by_cases h2 : s.nPasses = 0 <;> simp [h1, h2, this]
  · apply rayMean_nonneg; intro s hs
    have := (hE s hs).I0
    split_ifs <;> first | exact this | exact le_refl _
  · intro m; apply rayMean_nonneg; intro s hs; exact (hE s hs).A0 m
  · intro j l; apply rayMean_nonneg; intro s hs
    split_ifs
    · exact getD_nonneg (hE s hs).int0 l
    · exact le_refl _
  · intro k; unfold resProfile; simp only; split_ifs with hk
    · exact le_refl _
    · exact not_lt.mp hk
  · exact hz _ fun s hs => (hE s hs).first
  · exact hz _ fun s hs => (hE s hs).last _ (by omega)

/-- **C37, what counts as reflected.** If the polar angle returned by each interaction tells which way the ray is then travelling (at most 90° iff
up), a finished ray counts towards `R` exactly if it left the stack upwards through the first surface, and towards `T` exactly if it left
downwards through the last one. -/
theorem C37_classification (S : Stack) (matI dirI : ℤ) (h : ValidStart S matI dirI) (os : List Outcome) (ho : ∀ o ∈ os, Possible o)
    (ha : AnglesTell S (Stack.start matI dirI) os) (s : Ray) (hs : S.trace (Stack.start matI dirI) os = some s) (hstop : s.stop = true) :
    (s.isRefl = true ↔ s.θ ≠ none ∧ s.dir = -1 ∧ s.mat = 0) ∧
    (s.isTrns = true ↔ s.θ ≠ none ∧ s.dir = 1 ∧ s.mat = (S.widths.length : ℤ) - 1) := by
  have key : ∀ (os : List Outcome) (s s' : Ray), OnTrack S s → Ending S s → (∀ t, s.θ = some t → (t ≤ Real.pi / 2 ↔ s.dir = -1)) →
      (∀ o ∈ os, Possible o) → AnglesTell S s os → S.trace s os = some s' →
      Ending S s' ∧ ∀ t, s'.θ = some t → (t ≤ Real.pi / 2 ↔ s'.dir = -1) := by
    intro os
    induction os with
    | nil => intro s s' _ he hq _ _ h; simp only [Stack.trace, Option.some.injEq] at h; exact h ▸ ⟨he, hq⟩
    | cons o os ih =>
      intro s s' hs he hq hp hat h
      obtain ⟨s1, h1, h2⟩ := step_onTrack hs o
      simp only [Stack.trace, h1, Option.bind_some] at h
      refine ih s1 s' h2 (step_ending hs he o (hp o (by simp)) s1 h1) ?_ (fun o ho => hp o (by simp [ho])) (hat.2 s1 h1) h
      intro t ht
      cases hgo : s.stop with
      | true =>
        rw [step_stopped hgo] at h1
        simp only [Option.some.injEq] at h1
        subst h1
        exact hq t ht
      | false =>
        rcases step_spec hs hgo o with ⟨A, rfl, he'⟩ | ⟨θ, ho, he', -⟩ | ⟨θ, m, ho, -, -, -, he'⟩
        all_goals
          rw [he'] at h1
          simp only [Option.some.injEq] at h1
          subst h1
        · simp [Ray.interact] at ht
        · rcases ho with rfl | rfl
          · simp only [Ray.interact, Option.some.injEq] at ht ⊢
            subst ht; exact hat.1
          · simp only [Ray.interact, Option.some.injEq] at ht ⊢
            subst ht; exact hat.1
        · have hth : (S.pass (s.interact o) m).θ = if (S.pass (s.interact o) m).stop then none else some ((s.interact o).θ.getD 0) := rfl
          rw [hth] at ht
          split_ifs at ht
          rw [pass_dir]
          rcases ho with rfl | rfl
          · simp only [Ray.interact, Option.getD_some, Option.some.injEq] at ht ⊢
            subst ht; exact hat.1
          · simp only [Ray.interact, Option.getD_some, Option.some.injEq] at ht ⊢
            subst ht; exact hat.1
  obtain ⟨he, hq⟩ := key os _ s (start_onTrack h) (start_ending S matI dirI) (by simp [Stack.start]) ho ha hs
  unfold Ray.isRefl Ray.isTrns
  cases hθ : s.θ with
  | none => simp
  | some t =>
    have hl := he.left hstop t hθ
    have hqt := hq t hθ
    simp only [decide_eq_true_eq, ne_eq, reduceCtorEq, not_false_eq_true, true_and, gt_iff_lt]
    constructor
    · rw [hqt]
      constructor
      · intro hd
        rcases hl with ⟨h', _⟩ | h'
        · omega
        · exact h'
      · exact fun h' => h'.1
    · rw [← not_le, hqt]
      constructor
      · intro hd
        rcases hl with h' | ⟨h', _⟩
        · exact h'
        · exact absurd h' hd
      · intro h' hd; omega

example : ∃ s, FinishedFrom exStack 0 1 s ∧
    let nl : ℕ → ℕ := fun _ => s.aInt.length
    1 - exStack.thresh ≤ resR [s] + resT [s] + ∑ m ∈ Finset.Ico 1 (exStack.widths.length - 1), resA [s] m
      + ∑ j ∈ Finset.range exStack.nSurf, ∑ l ∈ Finset.range (nl j), resAint [s] j l := by
  obtain ⟨s, hs⟩ := exRay
  refine ⟨s, hs, ?_⟩
  exact (C37_totals exStack exStack_passive 0 1 exStack_start [s] (by simp) (by simpa using hs) (fun _ => s.aInt.length) (by simp)).2.1

/-- The angle hypothesis of `C37_classification` can be met: refracted downwards (π), then absorbed. -/
example : AnglesTell exStack (Stack.start 0 1) [.transmit Real.pi, .absorb [1]] := by
  refine ⟨?_, fun s' _ => ⟨trivial, fun _ _ => trivial⟩⟩
  have := Real.pi_pos
  simp only [AngleTells, Stack.start]
  constructor
  · intro h; linarith
  · intro h; norm_num at h

/-! ## C38 -/

/-- **C38.** If every inner medium has `α·w ≥ δ > 0`, a ray that has met more than `ln(1/I_thresh)/δ` surfaces is finished, whatever happened at
them, and it has made at most `ln(1/I_thresh)/δ + 1` passes. -/
theorem C38_terminates (S : Stack) (hS : Passive S) (matI dirI : ℤ) (h : ValidStart S matI dirI) (δ : ℝ) (hδ : 0 < δ) (hI : 0 < S.thresh)
    (habs : ∀ m, 1 ≤ m → m + 1 < S.widths.length → δ ≤ S.alphas.getD m 0 * S.widths.getD m 0)
    (os : List Outcome) (ho : ∀ o ∈ os, Possible o) :
    ∃ s, S.trace (Stack.start matI dirI) os = some s ∧ (Real.log (1 / S.thresh) < δ * os.length → 0 < os.length → s.stop = true) ∧
      ((s.nPasses : ℝ) ≤ max 1 (Real.log (1 / S.thresh) / δ + 1)) := by
  -- invariant: I ≤ exp(-δ · passes); while under way passes = interactions
  have key : ∀ (os : List Outcome) (s : Ray) (k : ℕ), OnTrack S s → Energy S s → Ending S s → s.I ≤ Real.exp (-(δ * s.nPasses)) →
      (s.stop = false → s.nPasses = k) → ((s.nPasses : ℝ) ≤ max 1 (Real.log (1 / S.thresh) / δ + 1)) → (∀ o ∈ os, Possible o) →
      ∃ s', S.trace s os = some s' ∧ Ending S s' ∧ s'.I ≤ Real.exp (-(δ * s'.nPasses)) ∧ (s'.stop = false → s'.nPasses = k + os.length) ∧
        ((s'.nPasses : ℝ) ≤ max 1 (Real.log (1 / S.thresh) / δ + 1)) := by
    intro os
    induction os with
    | nil => intro s k _ _ he hI' hk hb _; exact ⟨s, rfl, he, hI', hk, hb⟩
    | cons o os ih =>
      intro s k hs hE he hI' hk hb hp
      obtain ⟨s1, h1, h2⟩ := step_onTrack hs o
      have hE1 := (step_energy hS hs hE o (hp o (by simp)) s1 h1).1
      have he1 := step_ending hs he o (hp o (by simp)) s1 h1
      have hstep : s1.I ≤ Real.exp (-(δ * s1.nPasses)) ∧ (s1.stop = false → s1.nPasses = k + 1) ∧
          ((s1.nPasses : ℝ) ≤ max 1 (Real.log (1 / S.thresh) / δ + 1)) := by
        cases hgo : s.stop with
        | true =>
          rw [step_stopped hgo] at h1
          simp only [Option.some.injEq] at h1
          subst h1
          exact ⟨hI', fun hf => by simp [hgo] at hf, hb⟩
        | false =>
          rcases step_spec hs hgo o with ⟨A, rfl, he'⟩ | ⟨θ, ho', he', -⟩ | ⟨θ, m, ho', hm1, hm2, -, he'⟩
          all_goals
            rw [he'] at h1
            simp only [Option.some.injEq] at h1
            subst h1
          · exact ⟨(Real.exp_pos _).le, fun hf => by simp [Ray.interact] at hf, hb⟩
          · rcases ho' with rfl | rfl
            · exact ⟨hI', fun hf => by simp at hf, hb⟩
            · exact ⟨hI', fun hf => by simp at hf, hb⟩
          · have hIo : (s.interact o).I = s.I := by rcases ho' with rfl | rfl <;> rfl
            have hno : (s.interact o).nPasses = s.nPasses := by rcases ho' with rfl | rfl <;> rfl
            have hθo : (s.interact o).θ = some θ := by rcases ho' with rfl | rfl <;> rfl
            have hcos : Real.cos θ ≠ 0 := by
              have := hp o (by simp)
              rcases ho' with rfl | rfl <;> exact this
            have hnp : (S.pass (s.interact o) m).nPasses = s.nPasses + 1 := by
              rw [← hno]; rfl
            have hab := habs m hm1 hm2
            have hle : Real.exp (-(S.alphas.getD m 0 / |Real.cos ((s.interact o).θ.getD 0)|) * S.widths.getD m 0) ≤ Real.exp (-δ) := by
              apply Real.exp_le_exp.mpr
              rw [hθo, Option.getD_some]
              have hc0 : 0 < |Real.cos θ| := abs_pos.mpr hcos
              have hc1 : |Real.cos θ| ≤ 1 := Real.abs_cos_le_one θ
              have : S.alphas.getD m 0 * S.widths.getD m 0 ≤ S.alphas.getD m 0 / |Real.cos θ| * S.widths.getD m 0 := by
                rw [div_mul_eq_mul_div, le_div_iff₀ hc0]
                exact mul_le_of_le_one_right (by linarith) hc1
              linarith
            refine ⟨?_, fun _ => ?_, ?_⟩
            · rw [pass_I, hIo, hnp]
              calc s.I * _ ≤ Real.exp (-(δ * s.nPasses)) * Real.exp (-δ) :=
                    mul_le_mul hI' hle (Real.exp_pos _).le (Real.exp_pos _).le
                _ = _ := by rw [← Real.exp_add]; congr 1; push_cast; ring
            · rw [hnp, hk hgo]
            · rw [hnp]
              push_cast
              rcases he.going hgo with h0 | h0
              · rw [h0]; simp
              · apply le_max_of_le_right
                have : Real.log S.thresh ≤ -(δ * s.nPasses) := by
                  have := Real.log_le_log hI (h0.trans hI')
                  rwa [Real.log_exp] at this
                rw [one_div, Real.log_inv]
                have : (s.nPasses : ℝ) ≤ -Real.log S.thresh / δ := by
                  rw [le_div_iff₀ hδ]; linarith
                linarith
      obtain ⟨s2, g1, g2, g3, g4, g5⟩ := ih s1 (k + 1) h2 hE1 he1 hstep.1 hstep.2.1 hstep.2.2 (fun o ho => hp o (by simp [ho]))
      exact ⟨s2, by simp [Stack.trace, h1, g1], g2, g3, fun hf => by rw [g4 hf, List.length_cons]; omega, g5⟩
  obtain ⟨s, h1, h2, h3, h4, h5⟩ := key os _ 0 (start_onTrack h) (start_energy S matI dirI) (start_ending S matI dirI)
    (by simp [Stack.start]) (fun _ => rfl) (by simp [Stack.start]) ho
  refine ⟨s, h1, fun hlen hpos => ?_, h5⟩
  by_contra hns
  have hns' : s.stop = false := by simpa using hns
  have hk := h4 hns'
  rw [zero_add] at hk
  rcases h2.going hns' with h0 | h0
  · omega
  · have : Real.log S.thresh ≤ -(δ * s.nPasses) := by
      have := Real.log_le_log hI (h0.trans h3)
      rwa [Real.log_exp] at this
    rw [one_div, Real.log_inv, ← hk] at hlen
    linarith

example : ∀ m, 1 ≤ m → m + 1 < exStack.widths.length → (2 : ℝ) ≤ exStack.alphas.getD m 0 * exStack.widths.getD m 0 := by
  intro m h1 h2
  have : m = 1 := by simp [exStack] at h2; omega
  subst this
  norm_num [exStack]

/-! ## C39 -/

/-- **C39 fails.** Without absorption a ray can be reflected to and fro for ever: for every stack of three or more media whose second medium does not absorb
and every threshold up to 1 there are, for every `n`, `n + 1` possible outcomes after which the ray is still under way. -/
theorem C39_fails (S : Stack) (hlen : 3 ≤ S.widths.length) (hα : S.alphas.getD 1 0 = 0) (hth : S.thresh ≤ 1) (n : ℕ) :
    ∃ os : List Outcome, os.length = n + 1 ∧ (∀ o ∈ os, Possible o) ∧
      ∃ s, S.trace (Stack.start 0 1) os = some s ∧ s.stop = false ∧ s.I = 1 := by
  have hv : ValidStart S 0 1 := Or.inl ⟨rfl, le_refl _, by
    have hn : S.nSurf = S.widths.length - 1 := rfl
    omega⟩
  have hpassI : ∀ s : Ray, s.I = 1 → (S.pass s 1).I = 1 := by
    intro s hs; rw [pass_I, hs, hα]; simp
  have hpassStop : ∀ s : Ray, s.I = 1 → (S.pass s 1).stop = false := by
    intro s hs
    have : (S.pass s 1).stop = decide ((S.pass s 1).I < S.thresh) := rfl
    rw [this, hpassI s hs]
    exact decide_eq_false (not_lt.mpr hth)
  -- keep reflecting inside medium 1
  have key : ∀ (n : ℕ) (s : Ray), OnTrack S s → s.stop = false → s.I = 1 → s.mat = 1 →
      ∃ s', S.trace s (List.replicate n (.reflect 0)) = some s' ∧ s'.stop = false ∧ s'.I = 1 := by
    intro n
    induction n with
    | zero => intro s _ h1 h2 _; exact ⟨s, rfl, h1, h2⟩
    | succ n ih =>
      intro s hs h1 h2 h3
      rcases step_spec hs h1 (.reflect 0) with ⟨A, ho, _⟩ | ⟨θ, _, _, hend⟩ | ⟨θ, m, _, _, _, hm, he⟩
      · simp at ho
      · simp only [Ray.interact, h3] at hend
        rcases hend with ⟨_, b⟩ | ⟨_, b⟩ <;> omega
      · have hm1 : m = 1 := by
          simp only [Ray.interact, h3] at hm; omega
        subst hm1
        obtain ⟨s1, g1, g2⟩ := step_onTrack hs (.reflect 0)
        rw [he] at g1
        simp only [Option.some.injEq] at g1
        subst g1
        obtain ⟨s', e1, e2, e3⟩ := ih _ g2 (hpassStop _ h2) (hpassI _ h2) h3
        exact ⟨s', by simp only [List.replicate_succ, Stack.trace, he, Option.bind_some]; exact e1, e2, e3⟩
  refine ⟨.transmit Real.pi :: List.replicate n (.reflect 0), by simp, ?_, ?_⟩
  · intro o ho
    rcases List.mem_cons.mp ho with rfl | ho
    · simp [Possible]
    · rw [(List.mem_replicate.mp ho).2]; simp [Possible]
  · have hs := start_onTrack hv
    rcases step_spec hs rfl (.transmit Real.pi) with ⟨A, ho, _⟩ | ⟨θ, _, _, hend⟩ | ⟨θ, m, _, _, _, hm, he⟩
    · simp at ho
    · simp only [Ray.interact, Stack.start] at hend
      rcases hend with ⟨_, b⟩ | ⟨a, _⟩
      · omega
      · omega
    · have hm1 : m = 1 := by
        simp only [Ray.interact, Stack.start] at hm; omega
      subst hm1
      obtain ⟨s1, g1, g2⟩ := step_onTrack hs (.transmit Real.pi)
      rw [he] at g1
      simp only [Option.some.injEq] at g1
      subst g1
      obtain ⟨s', e1, e2, e3⟩ := key n _ g2 (hpassStop _ rfl) (hpassI _ rfl) (by rw [pass_mat]; exact hm)
      exact ⟨s', by simp only [Stack.trace, he, Option.bind_some]; exact e1, e2, e3⟩

/-! ## C40 -/

/-- **C40, one ray.** For every medium with two or more depth samples, the depth profile collected by the ray integrates over that medium to what the
ray left there. -/
theorem C40_ray_profile (S : Stack) (hS : Passive S) (hz : S.zpos.Pairwise (· < ·)) (matI dirI : ℤ) (h : ValidStart S matI dirI)
    (os : List Outcome) (ho : ∀ o ∈ os, Possible o) (m : ℕ) (hm : 2 ≤ (layerSamples S m).length) :
    ∃ s, S.trace (Stack.start matI dirI) os = some s ∧ layerIntegral S m s.profile = s.A m ∧ ∀ k, 0 ≤ s.profile k := by
  obtain ⟨s, h1, -, h3⟩ := trace_induct (S := S) (fun t => Energy S t ∧ ProfileOk S t)
    (fun t ht hE o ho t' ht' => ⟨(step_energy hS ht hE.1 o ho t' ht').1, step_profile hS hz ht hE.1 hE.2 o t' ht'⟩) os _
    (start_onTrack h) ⟨start_energy S matI dirI, start_profile S matI dirI⟩ ho
  exact ⟨s, h1, h3.2.integral m hm, h3.2.nonneg⟩

/-- **C40, reported profile.** The reported profile integrates over every medium with two or more depth samples to the reported
absorption of that medium. -/
theorem C40_profile (S : Stack) (hS : Passive S) (hz : S.zpos.Pairwise (· < ·)) (matI dirI : ℤ) (h : ValidStart S matI dirI)
    (rays : List Ray) (hfin : ∀ s ∈ rays, FinishedFrom S matI dirI s) (m : ℕ) (hm : 2 ≤ (layerSamples S m).length) :
    layerIntegral S m (resProfile rays) = resA rays m := by
  have hP : ∀ s ∈ rays, (∀ k, 0 ≤ s.profile k) ∧ layerIntegral S m s.profile = s.A m := by
    intro s hs
    obtain ⟨os, ho, htr, -⟩ := hfin s hs
    obtain ⟨s', h1, h2, h3⟩ := C40_ray_profile S hS hz matI dirI h os ho m hm
    rw [htr] at h1
    simp only [Option.some.injEq] at h1
    exact h1 ▸ ⟨h3, h2⟩
  have he : resProfile rays = fun k => rayMean rays fun s => s.profile k := by
    funext k
    unfold resProfile
    simp only
    rw [if_neg (not_lt.mpr (rayMean_nonneg fun s hs => (hP s hs).1 k))]
  rw [he, layerIntegral_rayMean]
  exact rayMean_congr fun s hs => (hP s hs).2

/-- **C40, every depth sample belongs to exactly one layer.** The masks used in the code assign each depth between 0 and the total thickness to
exactly one medium, the one whose depth range contains it (the incidence medium has width 0). -/
theorem C40_one_layer (S : Stack) (hw : ∀ w ∈ S.widths, 0 ≤ w) (hw0 : S.widths.getD 0 0 = 0) (k : ℕ) (hk : k < S.zpos.length)
    (h0 : 0 ≤ S.zpos.getD k 0) (h1 : S.zpos.getD k 0 < S.widths.sum) :
    ∃! m, m < S.widths.length ∧ k ∈ S.layerIdx m := by
  have hpos : 0 < S.widths.length := by
    rcases hl : S.widths with _ | ⟨a, l⟩
    · rw [hl, List.sum_nil] at h1; linarith
    · simp
  -- first boundary beyond the sample
  have hex : ∃ m, S.zpos.getD k 0 < (S.widths.take (m + 1)).sum := ⟨S.widths.length, by rwa [List.take_of_length_le (by omega)]⟩
  classical
  obtain ⟨m, hm, hmin⟩ : ∃ m, S.zpos.getD k 0 < (S.widths.take (m + 1)).sum ∧ ∀ j < m, ¬ S.zpos.getD k 0 < (S.widths.take (j + 1)).sum :=
    ⟨Nat.find hex, Nat.find_spec hex, fun j hj => Nat.find_min hex hj⟩
  have hm1 : 1 ≤ m := by
    rcases Nat.eq_zero_or_pos m with rfl | h
    · exfalso
      rcases hl : S.widths with _ | ⟨a, l⟩
      · rw [hl] at hpos; simp at hpos
      · rw [hl] at hm hw0
        simp only [List.getD_cons_zero] at hw0
        simp only [zero_add, List.take_succ_cons, List.take_zero, List.sum_cons, List.sum_nil] at hm
        linarith
    · exact h
  have hml : m < S.widths.length := by
    by_contra hcon
    have := hmin (S.widths.length - 1) (by omega)
    rw [show S.widths.length - 1 + 1 = S.widths.length by omega, List.take_length] at this
    exact this h1
  refine ⟨m, ⟨hml, ?_⟩, ?_⟩
  · rw [layerIdx_eq S hm1 hml, mem_layerSamples]
    refine ⟨hk, ?_, hm⟩
    have := hmin (m - 1) (by omega)
    rw [show m - 1 + 1 = m by omega] at this
    exact not_lt.mp this
  · rintro j ⟨hj, hjk⟩
    rcases Nat.eq_zero_or_pos j with rfl | hjp
    · rw [layerIdx_zero S hw hpos] at hjk; simp at hjk
    · rw [layerIdx_eq S hjp hj] at hjk
      refine layerSamples_disjoint hw hjk ?_
      rw [mem_layerSamples]
      refine ⟨hk, ?_, hm⟩
      have := hmin (m - 1) (by omega)
      rw [show m - 1 + 1 = m by omega] at this
      exact not_lt.mp this

/-- The hypotheses of C40 can be met: three samples in the absorbing layer of the example. -/
example : exStack.zpos.Pairwise (· < ·) ∧ layerSamples exStack 1 = [0, 1, 2] ∧ exStack.widths.getD 0 0 = 0 := by
  refine ⟨?_, ?_, ?_⟩
  · norm_num [exStack]
  · unfold layerSamples
    rw [List.filter_eq_self.mpr]
    · rfl
    · intro k hk
      have : k < 3 := by simpa [exStack] using hk
      interval_cases k <;> norm_num [exStack]
  · simp [exStack]

end Rayflare
