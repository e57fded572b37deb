import Verif.Spec.RcwaStructure
import Mathlib.Data.List.Basic
import Mathlib.Data.List.Induction
import Mathlib.Tactic.Linarith
import Mathlib.Tactic.Ring
import Mathlib.Tactic.NormNum

/-!
# Properties C88-C91: an `rcwa_structure` object over its life
-/

namespace Rayflare

open Rayflare.Model Rayflare.Spec

variable {G Z O ρ π : Type*}

/-! ## Helper lemmas -/

/-- What every history does to the fields that do not depend on the results. -/
theorem step_fields (solve : RSConfig G Z O → ρ) (prof : ρ → RSConfig G Z O → π) (s : RSObj G Z ρ π) (op : RSOp G Z O) :
    (rsStep solve prof s op).origW = s.origW ∧ (rsStep solve prof s op).curWl = (opWl op).getD s.curWl ∧
    (rsStep solve prof s op).geom = lastGeom s.geom [op] ∧ (rsStep solve prof s op).size = lastSize s.size [op] ∧
    (rsStep solve prof s op).widths = (match op with | .setWidths w => w | _ => if (opWl op).getD s.curWl = s.curWl then s.widths else s.origW) := by
  cases op with
  | setWidths w => simp [rsStep, opWl, lastGeom, lastSize]
  | setSize z => simp [rsStep, opWl, lastGeom, lastSize]
  | editGeom f => simp [rsStep, opWl, lastGeom, lastSize]
  | calculate wl o =>
    by_cases h : wl = s.curWl
    · simp [rsStep, rsCalc, rsRun, rsSync, h, opWl, lastGeom, lastSize]
    · simp [rsStep, rsCalc, rsRun, rsSync, h, opWl, lastGeom, lastSize, rsUpdate]
  | profile wl o =>
    have key : ∀ t : RSObj G Z ρ π, (rsProf solve prof t wl o).origW = (rsPrepare solve t wl o).origW ∧ (rsProf solve prof t wl o).curWl = (rsPrepare solve t wl o).curWl ∧
        (rsProf solve prof t wl o).geom = (rsPrepare solve t wl o).geom ∧ (rsProf solve prof t wl o).size = (rsPrepare solve t wl o).size ∧
        (rsProf solve prof t wl o).widths = (rsPrepare solve t wl o).widths := by
      intro t
      unfold rsProf
      simp only
      split <;> simp
    obtain ⟨h1, h2, h3, h4, h5⟩ := key s
    simp only [rsStep, h1, h2, h3, h4, h5]
    by_cases h : wl = s.curWl
    · subst h
      cases hr : s.ratA <;> simp [rsPrepare, rsCalc, rsRun, rsSync, opWl, lastGeom, lastSize, hr]
    · simp [rsPrepare, rsCalc, rsRun, rsSync, h, opWl, lastGeom, lastSize, rsUpdate]

theorem history_append (solve : RSConfig G Z O → ρ) (prof : ρ → RSConfig G Z O → π) (s : RSObj G Z ρ π) (a b : List (RSOp G Z O)) :
    rsHistory solve prof s (a ++ b) = rsHistory solve prof (rsHistory solve prof s a) b := by
  simp [rsHistory]

theorem history_fields (solve : RSConfig G Z O → ρ) (prof : ρ → RSConfig G Z O → π) (s : RSObj G Z ρ π) (ops : List (RSOp G Z O)) :
    (rsHistory solve prof s ops).origW = s.origW ∧ (rsHistory solve prof s ops).curWl = lastWl s.curWl ops ∧
    (rsHistory solve prof s ops).geom = lastGeom s.geom ops ∧ (rsHistory solve prof s ops).size = lastSize s.size ops := by
  induction ops generalizing s with
  | nil => simp [rsHistory, lastWl, lastGeom, lastSize]
  | cons op ops ih =>
    obtain ⟨h1, h2, h3, h4⟩ := ih (rsStep solve prof s op)
    obtain ⟨k1, k2, k3, k4, -⟩ := step_fields solve prof s op
    rw [k1] at h1; rw [k2] at h2; rw [k3] at h3; rw [k4] at h4
    exact ⟨h1, h2, h3, h4⟩

/-- Widths are as set by the user as long as the wavelengths are not changed after `set_widths`. -/
theorem history_widths (solve : RSConfig G Z O → ρ) (prof : ρ → RSConfig G Z O → π) (w0 : List ℝ) (g0 : G) (z0 : Z) (wl0 : List ℝ) (ops : List (RSOp G Z O))
    (h : ∀ pre w post, ops = pre ++ RSOp.setWidths w :: post → ∀ op ∈ post, ∀ wl, opWl op = some wl → wl = lastWl wl0 pre) :
    (rsHistory solve prof (rsInit w0 g0 z0 wl0) ops).widths = lastWidths w0 ops := by
  induction ops using List.reverseRecOn with
  | nil => rfl
  | append_singleton ops op ih =>
    have ih' := ih (fun pre w post e o ho wl hw => h pre w (post ++ [op]) (by rw [e]; simp) o (by simp [ho]) wl hw)
    obtain ⟨h1, h2, -, -⟩ := history_fields solve prof (rsInit w0 g0 z0 wl0) ops
    rw [history_append]
    have hs := (step_fields solve prof (rsHistory solve prof (rsInit w0 g0 z0 wl0) ops) op).2.2.2.2
    have he : rsHistory solve prof (rsHistory solve prof (rsInit w0 g0 z0 wl0) ops) [op] = rsStep solve prof (rsHistory solve prof (rsInit w0 g0 z0 wl0) ops) op := rfl
    rw [he, hs]
    have hset : (∀ w, op ≠ .setWidths w) → lastWidths w0 (ops ++ [op]) = lastWidths w0 ops := by
      intro hw
      unfold lastWidths
      rw [List.foldl_append]
      cases op <;> simp_all
    have hcase : (∀ w, op ≠ .setWidths w) → (if (opWl op).getD (rsHistory solve prof (rsInit w0 g0 z0 wl0) ops).curWl = (rsHistory solve prof (rsInit w0 g0 z0 wl0) ops).curWl
        then (rsHistory solve prof (rsInit w0 g0 z0 wl0) ops).widths else (rsHistory solve prof (rsInit w0 g0 z0 wl0) ops).origW) = lastWidths w0 (ops ++ [op]) := by
      intro hno
      rw [hset hno]
      split_ifs with hc
      · exact ih'
      · rw [h1]
        show w0 = _
        rw [h2] at hc
        -- no `set_widths` so far, otherwise the wavelengths could not have changed
        by_cases hex : ∃ w, RSOp.setWidths w ∈ ops
        · exfalso
          obtain ⟨w, hw⟩ := hex
          obtain ⟨pre, post, e⟩ := List.append_of_mem hw
          obtain ⟨wl, hwl⟩ : ∃ wl, opWl op = some wl := by
            cases ho : opWl op with
            | none => rw [ho] at hc; simp at hc
            | some wl => exact ⟨wl, rfl⟩
          have hall := h pre w (post ++ [op]) (by rw [e]; simp)
          have hop := hall op (by simp) wl hwl
          apply hc
          rw [hwl, Option.getD_some, hop, e]
          show lastWl wl0 pre = lastWl wl0 (pre ++ RSOp.setWidths w :: post)
          have hfold : ∀ (l : List (RSOp G Z O)) (x : List ℝ), (∀ o ∈ l, ∀ wl, opWl o = some wl → wl = x) → lastWl x l = x := by
            intro l
            induction l with
            | nil => intro x _; rfl
            | cons o l ihl =>
              intro x hx
              have : (opWl o).getD x = x := by
                cases ho : opWl o with
                | none => rfl
                | some v => exact hx o (by simp) v ho
              show lastWl ((opWl o).getD x) l = x
              rw [this]
              exact ihl x fun o' ho' => hx o' (by simp [ho'])
          have e2 : lastWl wl0 (pre ++ RSOp.setWidths w :: post) = lastWl (lastWl wl0 pre) post := by
            simp [lastWl, opWl]
          rw [e2]
          exact (hfold post _ fun o ho wl' hw' => hall o (by simp [ho]) wl' hw').symm
        · have hfold : ∀ (l : List (RSOp G Z O)) (x : List ℝ), (∀ w, RSOp.setWidths w ∉ l) → lastWidths x l = x := by
            intro l
            induction l with
            | nil => intro x _; rfl
            | cons o l ihl =>
              intro x hx
              have hx' : ∀ w, RSOp.setWidths w ∉ l := fun w hw => hx w (by simp [hw])
              cases o with
              | setWidths w => exact absurd (by simp) (hx w)
              | _ => exact ihl x hx'
          exact (hfold ops w0 fun w hw => hex ⟨w, hw⟩).symm
    cases op with
    | setWidths w => simp [lastWidths]
    | calculate wl o => exact hcase (fun w => by simp)
    | profile wl o => exact hcase (fun w => by simp)
    | setSize z => exact hcase (fun w => by simp)
    | editGeom f => exact hcase (fun w => by simp)

/-- `calculate` returns the new dictionary. -/
theorem calc_returned (solve : RSConfig G Z O → ρ) (s : RSObj G Z ρ π) (wl : List ℝ) (opt : O) :
    rsReturned (rsCalc solve s wl opt) = some ⟨solve ⟨if wl = s.curWl then s.widths else s.origW, s.geom, s.size, wl, wl, opt⟩, none⟩ := by
  by_cases h : wl = s.curWl
  · simp [rsReturned, rsCalc, rsRun, rsSync, rsConfig, h]
  · simp [rsReturned, rsCalc, rsRun, rsSync, rsConfig, h, rsUpdate]

/-! ## C88 -/

/-- **C88, what holds.** After any sequence of method calls in which the wavelengths are not changed once `set_widths` was called, `calculate` returns the result for the present structure: the widths last set, the
unit cell last set, the shapes as edited, and optical constants at the wavelengths asked for. Missing: `set_widths` followed by a change of wavelengths, where the claim is false (next theorem). -/
theorem C88_calculate_partial (solve : RSConfig G Z O → ρ) (prof : ρ → RSConfig G Z O → π) (w0 : List ℝ) (g0 : G) (z0 : Z) (wl0 : List ℝ) (ops : List (RSOp G Z O)) (wl : List ℝ) (opt : O)
    (h : ∀ pre w post, ops ++ [RSOp.calculate wl opt] = pre ++ RSOp.setWidths w :: post → ∀ op ∈ post, ∀ wl', opWl op = some wl' → wl' = lastWl wl0 pre) :
    rsReturned (rsHistory solve prof (rsInit w0 g0 z0 wl0) (ops ++ [.calculate wl opt])) =
      some ⟨solve ⟨lastWidths w0 ops, lastGeom g0 ops, lastSize z0 ops, wl, wl, opt⟩, none⟩ := by
  have hw := history_widths solve prof w0 g0 z0 wl0 (ops ++ [.calculate wl opt]) h
  obtain ⟨h1, h2, h3, h4⟩ := history_fields solve prof (rsInit w0 g0 z0 wl0) ops
  rw [history_append] at hw ⊢
  set s := rsHistory solve prof (rsInit w0 g0 z0 wl0) ops with hs
  have hs5 := (step_fields solve prof s (.calculate wl opt)).2.2.2.2
  have e : rsHistory solve prof s [.calculate wl opt] = rsCalc solve s wl opt := rfl
  have e' : rsStep solve prof s (.calculate wl opt) = rsCalc solve s wl opt := rfl
  rw [e] at hw ⊢
  rw [e'] at hs5
  simp only [opWl, Option.getD_some] at hs5
  have : lastWidths w0 (ops ++ [RSOp.calculate wl opt]) = lastWidths w0 ops := by simp [lastWidths]
  rw [hw, this] at hs5
  rw [calc_returned, h3, h4, hs5]
  by_cases hc : wl = s.curWl
  · simp only [hc, if_true]; rfl
  · simp only [hc, if_false]; rfl

/-- The hypothesis of `C88_calculate_partial` is met by a sequence that changes everything. -/
example : ∀ pre w post, ([.calculate [500] (), .calculate [600] (), .setWidths [3], .setSize 2, .editGeom Nat.succ] : List (RSOp ℕ ℕ Unit)) ++ [RSOp.calculate [600] ()] = pre ++ RSOp.setWidths w :: post →
    ∀ op ∈ post, ∀ wl', opWl op = some wl' → wl' = lastWl [400] pre := by
  intro pre w post e
  rcases pre with _ | ⟨a, _ | ⟨b, _ | ⟨c, pre⟩⟩⟩
  · simp at e
  · simp at e
  · simp only [List.cons_append, List.nil_append, List.cons.injEq] at e
    obtain ⟨rfl, rfl, -, rfl⟩ := e
    intro op hop wl' hwl
    simp only [List.mem_cons, List.not_mem_nil, or_false] at hop
    rcases hop with rfl | rfl | rfl
    · simp [opWl] at hwl
    · simp [opWl] at hwl
    · simp only [opWl, Option.some.injEq] at hwl
      simp [lastWl, opWl, hwl]
  · simp only [List.cons_append, List.nil_append, List.cons.injEq] at e
    obtain ⟨rfl, rfl, rfl, e⟩ := e
    rcases pre with _ | ⟨d, _ | ⟨d', _ | ⟨d'', pre⟩⟩⟩ <;> simp at e

/-- **C88 fails** when the wavelengths change after `set_widths`: whatever widths were set, the widths given at construction are used. -/
theorem C88_calculate_fails (solve : RSConfig G Z O → ρ) (prof : ρ → RSConfig G Z O → π) (w0 w : List ℝ) (g0 : G) (z0 : Z) (wl0 wl : List ℝ) (opt : O) (h : wl ≠ wl0) :
    rsReturned (rsHistory solve prof (rsInit w0 g0 z0 wl0) [.setWidths w, .calculate wl opt]) = some ⟨solve ⟨w0, g0, z0, wl, wl, opt⟩, none⟩ := by
  have : rsHistory solve prof (rsInit w0 g0 z0 wl0) [.setWidths w, .calculate wl opt] = rsCalc solve { rsInit w0 g0 z0 wl0 with widths := w } wl opt := rfl
  rw [this, calc_returned]
  simp [rsInit, h]

/-! ## C89 -/

/-- `self.results` and `rat_output_A` exist together and agree. -/
def Agrees (s : RSObj G Z ρ π) : Prop :=
  (s.ratA = none ∧ s.results = none) ∨ ∃ a id p, s.ratA = some a ∧ s.results = some id ∧ s.heap[id]? = some ⟨a, p⟩

theorem calc_agrees (solve : RSConfig G Z O → ρ) (s : RSObj G Z ρ π) (wl : List ℝ) (opt : O) : Agrees (rsCalc solve s wl opt) := by
  right
  have := calc_returned solve s wl opt
  refine ⟨_, _, none, rfl, rfl, ?_⟩
  simp [rsCalc, rsRun]

theorem calc_ratA (solve : RSConfig G Z O → ρ) (s : RSObj G Z ρ π) (wl : List ℝ) (opt : O) :
    (rsCalc solve s wl opt).ratA = some (solve (rsConfig (rsCalc solve s wl opt) wl opt)) := by
  simp [rsCalc, rsRun, rsConfig]

theorem prepare_agrees (solve : RSConfig G Z O → ρ) (s : RSObj G Z ρ π) (wl : List ℝ) (opt : O) (h : Agrees s) :
    Agrees (rsPrepare solve s wl opt) ∧ ∃ a, (rsPrepare solve s wl opt).ratA = some a := by
  unfold rsPrepare
  by_cases hw : wl = s.curWl
  · simp only [hw, if_true]
    cases hr : s.ratA with
    | none => exact ⟨calc_agrees _ _ _ _, _, calc_ratA _ _ _ _⟩
    | some a => exact ⟨h, a, hr⟩
  · simp only [hw, if_false]
    have hr := calc_ratA solve (rsUpdate s wl) wl opt
    rw [hr]
    exact ⟨calc_agrees _ _ _ _, _, hr⟩

theorem prof_returned (solve : RSConfig G Z O → ρ) (prof : ρ → RSConfig G Z O → π) (s : RSObj G Z ρ π) (wl : List ℝ) (opt : O) (h : Agrees s) :
    ∃ a, (rsPrepare solve s wl opt).ratA = some a ∧
      rsReturned (rsProf solve prof s wl opt) = some ⟨a, some (prof a (rsConfig (rsPrepare solve s wl opt) wl opt))⟩ ∧ Agrees (rsProf solve prof s wl opt) := by
  obtain ⟨ha, a, hra⟩ := prepare_agrees solve s wl opt h
  refine ⟨a, hra, ?_⟩
  rcases ha with ⟨h1, -⟩ | ⟨a', id, p, h1, h2, h3⟩
  · rw [hra] at h1; cases h1
  · rw [hra] at h1; cases h1
    have hlt : id < (rsPrepare solve s wl opt).heap.length := by
      by_contra hge
      rw [List.getElem?_eq_none (by omega)] at h3; cases h3
    constructor
    · simp [rsReturned, rsProf, hra, h2, h3]
    · right
      refine ⟨a, id, some (prof a (rsConfig (rsPrepare solve s wl opt) wl opt)), ?_, ?_, ?_⟩
      · simp [rsProf, hra, h2]
      · simp [rsProf, hra, h2]
      · simp [rsProf, hra, h2, h3]

theorem history_agrees (solve : RSConfig G Z O → ρ) (prof : ρ → RSConfig G Z O → π) (s : RSObj G Z ρ π) (ops : List (RSOp G Z O)) (h : Agrees s) : Agrees (rsHistory solve prof s ops) := by
  induction ops generalizing s with
  | nil => exact h
  | cons op ops ih =>
    apply ih
    cases op with
    | calculate wl o => exact calc_agrees _ _ _ _
    | profile wl o => obtain ⟨_, -, -, h'⟩ := prof_returned solve prof s wl o h; exact h'
    | setWidths w => exact h
    | setSize z => exact h
    | editGeom f => exact h

theorem init_agrees (w0 : List ℝ) (g0 : G) (z0 : Z) (wl0 : List ℝ) : Agrees (rsInit w0 g0 z0 wl0 : RSObj G Z ρ π) := Or.inl ⟨rfl, rfl⟩

/-- **C89, what holds.** Let `calculate_profile` be called after any sequence of method calls that (a) contains no calculation, or (b) last used other wavelengths, or (c) ends with `calculate` for exactly the same
options, followed at most by further profiles for these options. Then the dictionary returned has R, T, A and the profile of one and the same present structure, for the options asked for. -/
theorem C89_profile_partial (solve : RSConfig G Z O → ρ) (prof : ρ → RSConfig G Z O → π) (w0 : List ℝ) (g0 : G) (z0 : Z) (wl0 : List ℝ) (ops : List (RSOp G Z O)) (wl : List ℝ) (opt : O)
    (h : (∀ op ∈ ops, ¬ IsCalculation op) ∨ wl ≠ lastWl wl0 ops ∨ ∃ pre k, ops = pre ++ .calculate wl opt :: List.replicate k (.profile wl opt)) :
    ∃ c : RSConfig G Z O, c.geom = lastGeom g0 ops ∧ c.size = lastSize z0 ops ∧ c.ocWl = wl ∧ c.wl = wl ∧ c.opt = opt ∧
      rsReturned (rsHistory solve prof (rsInit w0 g0 z0 wl0) (ops ++ [.profile wl opt])) = some ⟨solve c, some (prof (solve c) c)⟩ := by
  rw [history_append]
  obtain ⟨-, h2, h3, h4⟩ := history_fields solve prof (rsInit w0 g0 z0 wl0) ops
  have hag := history_agrees solve prof _ ops (init_agrees (ρ := ρ) (π := π) w0 g0 z0 wl0)
  -- it is enough that `rat_output_A` belongs to the prepared object
  have main : ∀ s : RSObj G Z ρ π, Agrees s → s.geom = lastGeom g0 ops → s.size = lastSize z0 ops →
      (rsPrepare solve s wl opt).ratA = some (solve (rsConfig (rsPrepare solve s wl opt) wl opt)) →
      ∃ c : RSConfig G Z O, c.geom = lastGeom g0 ops ∧ c.size = lastSize z0 ops ∧ c.ocWl = wl ∧ c.wl = wl ∧ c.opt = opt ∧
      rsReturned (rsProf solve prof s wl opt) = some ⟨solve c, some (prof (solve c) c)⟩ := by
    intro s hs hg hz hr
    obtain ⟨a, ha, hret, -⟩ := prof_returned solve prof s wl opt hs
    rw [ha] at hr
    have hra := Option.some.inj hr
    have hf : (rsPrepare solve s wl opt).geom = s.geom ∧ (rsPrepare solve s wl opt).size = s.size ∧ (rsPrepare solve s wl opt).curWl = wl := by
      by_cases hw : wl = s.curWl
      · subst hw
        cases hq : s.ratA <;> simp [rsPrepare, rsCalc, rsRun, rsSync, hq]
      · simp [rsPrepare, rsCalc, rsRun, rsSync, hw, rsUpdate]
    refine ⟨rsConfig (rsPrepare solve s wl opt) wl opt, by simp [rsConfig, hf, hg], by simp [rsConfig, hf, hz], by simp [rsConfig, hf], rfl, rfl, ?_⟩
    rw [hret, ← hra]
  apply main _ hag h3 h4
  by_cases hw : wl = (rsHistory solve prof (rsInit w0 g0 z0 wl0) ops).curWl
  · rcases h with h | h | ⟨pre, k, e⟩
    · -- nothing calculated yet
      have hnone : ∀ (l : List (RSOp G Z O)) (s : RSObj G Z ρ π), s.ratA = none → (∀ op ∈ l, ¬ IsCalculation op) → (rsHistory solve prof s l).ratA = none := by
        intro l
        induction l with
        | nil => intro s hs _; exact hs
        | cons o l ih =>
          intro s hs hl
          have ho := hl o (by simp)
          apply ih _ _ (fun op hop => hl op (by simp [hop]))
          cases o with
          | calculate wl' o' => exact absurd ⟨wl', rfl⟩ ho
          | profile wl' o' => exact absurd ⟨wl', rfl⟩ ho
          | _ => exact hs
      have hr := hnone ops (rsInit w0 g0 z0 wl0) rfl h
      have : rsPrepare solve (rsHistory solve prof (rsInit w0 g0 z0 wl0) ops) wl opt = rsCalc solve (rsHistory solve prof (rsInit w0 g0 z0 wl0) ops) wl opt := by
        unfold rsPrepare
        rw [if_pos hw]
        simp only [hr]
      rw [this]
      exact calc_ratA _ _ _ _
    · exact absurd (by rw [hw, h2]; rfl) h
    · have hk : ∀ k, (rsHistory solve prof (rsCalc solve (rsHistory solve prof (rsInit w0 g0 z0 wl0) pre) wl opt) (List.replicate k (.profile wl opt))).ratA =
          some (solve (rsConfig (rsHistory solve prof (rsCalc solve (rsHistory solve prof (rsInit w0 g0 z0 wl0) pre) wl opt) (List.replicate k (.profile wl opt))) wl opt)) ∧
          (rsHistory solve prof (rsCalc solve (rsHistory solve prof (rsInit w0 g0 z0 wl0) pre) wl opt) (List.replicate k (.profile wl opt))).curWl = wl := by
        intro k
        induction k with
        | zero =>
          refine ⟨calc_ratA _ _ _ _, ?_⟩
          exact (step_fields solve prof (rsHistory solve prof (rsInit w0 g0 z0 wl0) pre) (.calculate wl opt)).2.1
        | succ k ih =>
          rw [List.replicate_succ', history_append]
          generalize rsHistory solve prof (rsCalc solve (rsHistory solve prof (rsInit w0 g0 z0 wl0) pre) wl opt) (List.replicate k (.profile wl opt)) = t at ih ⊢
          obtain ⟨i1, i2⟩ := ih
          have hp : rsPrepare solve t wl opt = t := by
            unfold rsPrepare
            rw [if_pos i2.symm]
            simp only [i1]
          show (rsProf solve prof t wl opt).ratA = some (solve (rsConfig (rsProf solve prof t wl opt) wl opt)) ∧ (rsProf solve prof t wl opt).curWl = wl
          unfold rsProf
          simp only [hp]
          cases ht : t.results with
          | none => rw [i1]; exact ⟨i1, i2⟩
          | some id => rw [i1]; exact ⟨rfl, i2⟩
      obtain ⟨k1, k2⟩ := hk k
      have he : rsHistory solve prof (rsInit w0 g0 z0 wl0) ops = rsHistory solve prof (rsCalc solve (rsHistory solve prof (rsInit w0 g0 z0 wl0) pre) wl opt) (List.replicate k (.profile wl opt)) := by
        rw [e, history_append]; rfl
      rw [he]
      generalize rsHistory solve prof (rsCalc solve (rsHistory solve prof (rsInit w0 g0 z0 wl0) pre) wl opt) (List.replicate k (.profile wl opt)) = t at k1 k2 ⊢
      have hp : rsPrepare solve t wl opt = t := by
        unfold rsPrepare
        rw [if_pos k2.symm]
        simp only [k1]
      rw [hp]; exact k1
  · have hr := calc_ratA solve (rsUpdate (rsHistory solve prof (rsInit w0 g0 z0 wl0) ops) wl) wl opt
    have : rsPrepare solve (rsHistory solve prof (rsInit w0 g0 z0 wl0) ops) wl opt = rsCalc solve (rsUpdate (rsHistory solve prof (rsInit w0 g0 z0 wl0) ops) wl) wl opt := by
      unfold rsPrepare
      rw [if_neg hw]
      simp only [hr]
    rw [this]; exact hr

/-- **C89 fails** if the options (e.g. the angle of incidence) change but the wavelengths do not: R, T, A are those of the earlier calculation, the profile that of the new options. -/
theorem C89_profile_fails (solve : RSConfig G Z O → ρ) (prof : ρ → RSConfig G Z O → π) (w0 : List ℝ) (g0 : G) (z0 : Z) (wl0 : List ℝ) (o₁ o₂ : O) :
    rsReturned (rsHistory solve prof (rsInit w0 g0 z0 wl0) [.calculate wl0 o₁, .profile wl0 o₂]) =
      some ⟨solve ⟨w0, g0, z0, wl0, wl0, o₁⟩, some (prof (solve ⟨w0, g0, z0, wl0, wl0, o₁⟩) ⟨w0, g0, z0, wl0, wl0, o₂⟩)⟩ := by
  simp [rsReturned, rsHistory, rsStep, rsCalc, rsSync, rsRun, rsProf, rsPrepare, rsInit, rsConfig]

/-! ## C90 -/

theorem step_heap (solve : RSConfig G Z O → ρ) (prof : ρ → RSConfig G Z O → π) (s : RSObj G Z ρ π) (op : RSOp G Z O) (id : ℕ) (d : RSDict ρ π) (h : s.heap[id]? = some d) :
    (¬ IsProfile op → (rsStep solve prof s op).heap[id]? = some d) ∧ ∃ d', (rsStep solve prof s op).heap[id]? = some d' ∧ d'.rat = d.rat := by
  have hlt : id < s.heap.length := by
    by_contra hge
    rw [List.getElem?_eq_none (by omega)] at h; cases h
  have hcalc : ∀ (t : RSObj G Z ρ π) (wl : List ℝ) (o : O), t.heap[id]? = some d → (rsCalc solve t wl o).heap[id]? = some d := by
    intro t wl o ht
    have hlt' : id < t.heap.length := by
      by_contra hge
      rw [List.getElem?_eq_none (by omega)] at ht; cases ht
    have : (rsSync t wl).heap = t.heap := by
      unfold rsSync; split_ifs <;> rfl
    simp only [rsCalc, rsRun, this]
    rw [List.getElem?_append_left hlt']
    exact ht
  cases op with
  | calculate wl o => exact ⟨fun _ => hcalc s wl o h, d, hcalc s wl o h, rfl⟩
  | setWidths w => exact ⟨fun _ => h, d, h, rfl⟩
  | setSize z => exact ⟨fun _ => h, d, h, rfl⟩
  | editGeom f => exact ⟨fun _ => h, d, h, rfl⟩
  | profile wl o =>
    refine ⟨fun hn => absurd trivial hn, ?_⟩
    have hp : (rsPrepare solve s wl o).heap[id]? = some d := by
      unfold rsPrepare
      by_cases hw : wl = s.curWl
      · simp only [hw, if_true]
        cases hr : s.ratA with
        | none => exact hcalc _ _ _ h
        | some a => exact h
      · simp only [hw, if_false]
        have hr := calc_ratA solve (rsUpdate s wl) wl o
        rw [hr]
        exact hcalc _ _ _ h
    show ∃ d', (rsProf solve prof s wl o).heap[id]? = some d' ∧ d'.rat = d.rat
    unfold rsProf
    simp only
    split
    · rename_i a id' ha hid
      by_cases hid' : id' = id
      · subst hid'
        refine ⟨{ d with profile := some (prof a (rsConfig (rsPrepare solve s wl o) wl o)) }, by simp [hp], rfl⟩
      · refine ⟨d, ?_, rfl⟩
        simp [hid', hp]
    · exact ⟨d, hp, rfl⟩

/-- **C90, what holds.** A dictionary once returned keeps its R, T and A whatever is called later, and is not changed at all as long as no profile is asked for. -/
theorem C90_results_partial (solve : RSConfig G Z O → ρ) (prof : ρ → RSConfig G Z O → π) (s : RSObj G Z ρ π) (ops : List (RSOp G Z O)) (id : ℕ) (d : RSDict ρ π) (h : s.heap[id]? = some d) :
    ((∀ op ∈ ops, ¬ IsProfile op) → (rsHistory solve prof s ops).heap[id]? = some d) ∧ ∃ d', (rsHistory solve prof s ops).heap[id]? = some d' ∧ d'.rat = d.rat := by
  induction ops generalizing s d with
  | nil => exact ⟨fun _ => h, d, h, rfl⟩
  | cons op ops ih =>
    obtain ⟨h1, d', h2, h3⟩ := step_heap solve prof s op id d h
    constructor
    · intro hn
      exact (ih (rsStep solve prof s op) d (h1 (hn op (by simp)))).1 fun o ho => hn o (by simp [ho])
    · obtain ⟨d'', h4, h5⟩ := (ih (rsStep solve prof s op) d' h2).2
      exact ⟨d'', h4, h5.trans h3⟩

/-- There are dictionaries to speak of: after the first `calculate` there is dictionary 0. -/
example (solve : RSConfig ℕ ℕ Unit → ℕ) (prof : ℕ → RSConfig ℕ ℕ Unit → ℕ) :
    ∃ d, (rsHistory solve prof (rsInit [100] 0 0 [500]) [.calculate [500] ()]).heap[0]? = some d := by
  simp [rsHistory, rsStep, rsCalc, rsSync, rsRun, rsInit]

/-- **C90 fails**: `calculate_profile` changes the dictionary that `calculate` returned earlier, and a second `calculate_profile`, for other options, overwrites the profile in the dictionary that the first one
returned. -/
theorem C90_results_fails (solve : RSConfig G Z O → ρ) (prof : ρ → RSConfig G Z O → π) (w0 : List ℝ) (g0 : G) (z0 : Z) (wl0 : List ℝ) (o₁ o₂ : O) :
    let c : O → RSConfig G Z O := fun o => ⟨w0, g0, z0, wl0, wl0, o⟩
    (rsHistory solve prof (rsInit w0 g0 z0 wl0) [.calculate wl0 o₁]).heap[0]? = some ⟨solve (c o₁), none⟩ ∧
    (rsHistory solve prof (rsInit w0 g0 z0 wl0) [.calculate wl0 o₁, .profile wl0 o₁]).heap[0]? = some ⟨solve (c o₁), some (prof (solve (c o₁)) (c o₁))⟩ ∧
    (rsHistory solve prof (rsInit w0 g0 z0 wl0) [.calculate wl0 o₁, .profile wl0 o₁, .profile wl0 o₂]).heap[0]? = some ⟨solve (c o₁), some (prof (solve (c o₁)) (c o₂))⟩ := by
  refine ⟨?_, ?_, ?_⟩ <;> simp [rsHistory, rsStep, rsCalc, rsSync, rsRun, rsProf, rsPrepare, rsInit, rsConfig]

/-! ## C91 -/

theorem polygons_nth (isTuple : Bool) (c : ℝ × ℝ) (vs : List (ℝ × ℝ)) (n k : ℕ) (hk : k < n) :
    (inkstonePolygons isTuple c vs n)[k]? = some (vs.map fun v => (v.1 + (if isTuple then 1 else (k + 1 : ℝ)) * c.1, v.2 + (if isTuple then 1 else (k + 1 : ℝ)) * c.2)) := by
  induction n generalizing vs k with
  | zero => omega
  | succ n ih =>
    cases k with
    | zero => simp [inkstonePolygons]
    | succ k =>
      simp only [inkstonePolygons, List.getElem?_cons_succ]
      rw [ih _ k (by omega)]
      cases isTuple with
      | true => simp
      | false =>
        simp only [Bool.false_eq_true, if_false, List.map_map, Option.some.injEq]
        apply List.map_congr_left
        intro v _
        simp only [Function.comp]
        push_cast
        ext <;> simp <;> ring

/-- **C91, what holds.** At every wavelength a polygon is drawn with its vertices placed relative to its centre, if the vertices are given as a tuple or the centre is the origin. -/
theorem C91_polygon_partial (isTuple : Bool) (c : ℝ × ℝ) (vs : List (ℝ × ℝ)) (n k : ℕ) (hk : k < n) (h : isTuple = true ∨ c = (0, 0)) :
    (inkstonePolygons isTuple c vs n)[k]? = some (vs.map fun v => (v.1 + c.1, v.2 + c.2)) := by
  rw [polygons_nth _ _ _ _ _ hk]
  rcases h with rfl | rfl <;> simp

example : (2 : ℕ) < 5 ∧ (true = true ∨ ((100, 50) : ℝ × ℝ) = (0, 0)) := by norm_num

/-- **C91 fails** for vertices given as a list: the polygon moves by its centre from each wavelength to the next. -/
theorem C91_polygon_fails (c : ℝ × ℝ) (vs : List (ℝ × ℝ)) (n k : ℕ) (hk : k < n) :
    (inkstonePolygons false c vs n)[k]? = some (vs.map fun v => (v.1 + (k + 1) * c.1, v.2 + (k + 1) * c.2)) := by
  rw [polygons_nth _ _ _ _ _ hk]; simp

end Rayflare
