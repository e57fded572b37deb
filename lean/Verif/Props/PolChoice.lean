import Verif.Spec.PolChoice
import Verif.Props.RCWAFlux
import Mathlib.Tactic.Ring

/-!
# Property C184: a polarisation means the same in every method, and unknown ones are refused
-/

namespace Rayflare

open Rayflare.Model Rayflare.Spec

/-! ## Helper lemmas -/

theorem infix_sp (t : List Char) : t <:+: ['s', 'p'] ↔ t = [] ∨ t = ['s'] ∨ t = ['p'] ∨ t = ['s', 'p'] := by
  constructor
  · rintro ⟨a, b, h⟩
    have hl := congrArg List.length h
    simp only [List.length_append, List.length_cons, List.length_nil] at hl
    match t with
    | [] => exact Or.inl rfl
    | [c] =>
      have : c ∈ ['s', 'p'] := by rw [← h]; simp
      simp only [List.mem_cons, List.not_mem_nil, or_false] at this
      rcases this with rfl | rfl
      · exact Or.inr (Or.inl rfl)
      · exact Or.inr (Or.inr (Or.inl rfl))
    | [c, d] =>
      simp only [List.length_cons, List.length_nil] at hl
      have ha : a = [] := List.length_eq_zero_iff.mp (by omega)
      have hb : b = [] := List.length_eq_zero_iff.mp (by omega)
      subst ha hb
      right; right; right
      simpa using h
    | c :: d :: e :: l => simp only [List.length_cons] at hl; omega
  · rintro (rfl | rfl | rfl | rfl)
    · exact List.nil_infix
    · exact ⟨[], ['p'], rfl⟩
    · exact ⟨['s'], [], rfl⟩
    · exact ⟨[], [], rfl⟩

/-- The reflectance in the model of the ray tracer (C41 and others), which knows the three documented polarisations only, is this one. -/
theorem calcR_choice (n1 n2 : ℂ) (θ : ℝ) (θt : ℂ) (q : Pol) :
    calcR n1 n2 θ θt q = calcRChoice (.str (match q with | .s => ['s'] | .p => ['p'] | .u => ['u'])) (fresnelRs n1 n2 θ θt) (fresnelRp n1 n2 θ θt) := by
  cases q
  · rfl
  · rfl
  · unfold calcRChoice
    split
    · rename_i e; simp at e
    · rename_i e; simp at e
    · rfl

/-! ## C184 -/

/-- **C184, the documented values.** For 's', 'p' and 'u' all methods (ray tracing without and with lookup tables, `tmm_structure`, TMM for the matrix method, and RCWA) use the same shares of s and p polarised light: all of one, or half of each. -/
theorem C184_documented_partial (t : List Char) (w : ℝ × ℝ) (h : sharesOf t = some w) (Rs Rp : ℝ) (solve : List Char → Option ℝ) (hs : solve ['s'] = some Rs) (hp : solve ['p'] = some Rp) :
    calcRChoice (.str t) Rs Rp = mixOf Rs Rp w ∧ tableChoice (.str t) Rs Rp = some (mixOf Rs Rp w) ∧ tmmChoice (.str t) solve = some (mixOf Rs Rp w) ∧ tmmMatrixChoice (.str t) solve = some (mixOf Rs Rp w) ∧
    rcwaChoice (.str t) = some w := by
  have i1 : ['s'] <:+: ['s', 'p'] := (infix_sp _).mpr (by simp)
  have i2 : ['p'] <:+: ['s', 'p'] := (infix_sp _).mpr (by simp)
  have i3 : ¬ ['u'] <:+: ['s', 'p'] := by rw [infix_sp]; simp
  obtain ⟨p1, p2, ⟨a, p3, ha, -⟩, -, -⟩ := C58_pol_partial
  unfold sharesOf at h
  split_ifs at h with h1 h2 h3
  · subst h1
    rw [Option.some.injEq] at h
    subst h
    refine ⟨?_, ?_, ?_, ?_, ?_⟩ <;> simp [calcRChoice, tableChoice, tmmChoice, tmmMatrixChoice, rcwaChoice, mixOf, i1, hs, p1]
  · subst h2
    rw [Option.some.injEq] at h
    subst h
    refine ⟨?_, ?_, ?_, ?_, ?_⟩ <;> simp [calcRChoice, tableChoice, tmmChoice, tmmMatrixChoice, rcwaChoice, mixOf, i2, hp, p2]
  · subst h3
    rw [Option.some.injEq] at h
    subst h
    refine ⟨?_, ?_, ?_, ?_, ?_⟩
    · have e : calcRChoice (.str ['u']) Rs Rp = (Rs + Rp) / 2 := by
        unfold calcRChoice
        split
        · rename_i e; simp at e
        · rename_i e; simp at e
        · rfl
      rw [e, mixOf]; ring
    · simp only [tableChoice, mixOf, Option.some.injEq]; ring
    · simp only [tmmChoice, i3, if_false, hp, hs, mixOf, Option.bind_some, Option.map_some, Option.some.injEq]; ring
    · simp only [tmmMatrixChoice, tmmChoice, i1, i2, if_true, hp, hs, mixOf, Option.bind_some, Option.map_some, Option.some.injEq]; ring
    · simp only [rcwaChoice, p3, Option.some.injEq, Prod.mk.injEq]
      constructor <;> linarith

/-- **C184, other strings.** Lookup tables and RCWA (for strings that are not empty) refuse every other string. `tmm_structure` and TMM for the matrix method refuse exactly the empty string and "sp", by an exception of the solver. -/
theorem C184_refused_partial (t : List Char) (h : sharesOf t = none) (Rs Rp : ℝ) (solve : List Char → Option ℝ) (hsolve : SolverFor solve Rs Rp) :
    tableChoice (.str t) Rs Rp = none ∧ (t ≠ [] → rcwaChoice (.str t) = none) ∧ (tmmChoice (.str t) solve = none ↔ t = [] ∨ t = ['s', 'p']) ∧ (tmmMatrixChoice (.str t) solve = none ↔ t = [] ∨ t = ['s', 'p']) := by
  obtain ⟨hs, hp, hno⟩ := hsolve
  have h1 : t ≠ ['s'] := by rintro rfl; simp [sharesOf] at h
  have h2 : t ≠ ['p'] := by rintro rfl; simp [sharesOf] at h
  have h3 : t ≠ ['u'] := by rintro rfl; simp [sharesOf] at h
  have htmm : tmmChoice (.str t) solve = none ↔ t = [] ∨ t = ['s', 'p'] := by
    unfold tmmChoice
    by_cases hin : t <:+: ['s', 'p']
    · simp only [hin, if_true, hno t h1 h2, true_iff]
      rcases (infix_sp t).mp hin with e | e | e | e
      · exact Or.inl e
      · exact absurd e h1
      · exact absurd e h2
      · exact Or.inr e
    · simp only [hin, if_false, hp, hs, Option.bind_some, Option.map_some, reduceCtorEq, false_iff]
      intro hc
      exact hin ((infix_sp t).mpr (by rcases hc with e | e <;> simp [e]))
  refine ⟨?_, ?_, htmm, ?_⟩
  · unfold tableChoice
    split
    · rename_i e; simp only [PolArg.str.injEq] at e; exact absurd e h1
    · rename_i e; simp only [PolArg.str.injEq] at e; exact absurd e h2
    · rename_i e; simp only [PolArg.str.injEq] at e; exact absurd e h3
    · rfl
  · intro h0
    unfold rcwaChoice
    by_cases hl : t.length = 2
    · have : processPol (.str t) = some (.str t) := by simp [processPol, PolArg.len, hl]
      rw [this]
    · rw [(C58_pol_partial.2.2.2.2 t (by simpa using h0) hl).mpr ⟨h1, h2, h3⟩]
  · have : tmmMatrixChoice (.str t) solve = tmmChoice (.str t) solve := by
      unfold tmmMatrixChoice
      split
      · rename_i e; simp only [PolArg.str.injEq] at e; exact absurd e h3
      · rfl
    rw [this]
    exact htmm

/-- **C184 is violated.** Ray tracing at facets without coating takes every other value of the option, and `tmm_structure` and TMM for the matrix method every other string but "" and "sp" (for example "S", "TE" or "unpolarised"), and calculate with unpolarised light without a warning. RCWA takes the empty string and calculates without any light. -/
theorem C184_fails (t : List Char) (h : sharesOf t = none) (Rs Rp : ℝ) (solve : List Char → Option ℝ) (hsolve : SolverFor solve Rs Rp) :
    calcRChoice (.str t) Rs Rp = (Rs + Rp) / 2 ∧ (∀ a b, calcRChoice (.pair a b) Rs Rp = (Rs + Rp) / 2) ∧
    (t ≠ [] → t ≠ ['s', 'p'] → tmmChoice (.str t) solve = some ((Rs + Rp) / 2) ∧ tmmMatrixChoice (.str t) solve = some ((Rs + Rp) / 2)) ∧ rcwaChoice (.str []) = some (0, 0) := by
  obtain ⟨hs, hp, hno⟩ := hsolve
  have h1 : t ≠ ['s'] := by rintro rfl; simp [sharesOf] at h
  have h2 : t ≠ ['p'] := by rintro rfl; simp [sharesOf] at h
  have h3 : t ≠ ['u'] := by rintro rfl; simp [sharesOf] at h
  refine ⟨?_, fun _ _ => rfl, ?_, ?_⟩
  · unfold calcRChoice
    split
    · rename_i e; simp only [PolArg.str.injEq] at e; exact absurd e h1
    · rename_i e; simp only [PolArg.str.injEq] at e; exact absurd e h2
    · rfl
  · intro h0 h4
    have htmm : tmmChoice (.str t) solve = some ((Rs + Rp) / 2) := by
      have : ¬ t <:+: ['s', 'p'] := by rw [infix_sp]; simp [h0, h1, h2, h4]
      simp only [tmmChoice, this, if_false, hp, hs, Option.bind_some, Option.map_some, Option.some.injEq]
      ring
    refine ⟨htmm, ?_⟩
    have : tmmMatrixChoice (.str t) solve = tmmChoice (.str t) solve := by
      unfold tmmMatrixChoice
      split
      · rename_i e; simp only [PolArg.str.injEq] at e; exact absurd e h3
      · rfl
    rw [this]
    exact htmm
  · simp [rcwaChoice, C58_pol_fails.1]

/-- "TE", for which s polarised light would be expected. -/
example : sharesOf ['T', 'E'] = none ∧ SolverFor (fun t => if t = ['s'] then some (1 / 5) else if t = ['p'] then some (1 / 10) else none) (1 / 5) (1 / 10) := by
  refine ⟨by simp [sharesOf], by simp, by simp, ?_⟩
  intro t h1 h2
  simp [h1, h2]

end Rayflare
