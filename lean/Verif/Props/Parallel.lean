import Verif.Model.Parallel
import Verif.Lemmas.Absorption
import Verif.Props.Surface

/-!
# Property C120: parallel calculations
-/

namespace Rayflare

open Rayflare.Model

/-- Results of a batch are those of fresh objects if no task depends on what earlier ones did. -/
theorem runTasks_results {σ ρ : Type} (inv : σ → Prop) (s₀ : σ) (ts : List (PTask σ ρ)) (h : ∀ t ∈ ts, ∀ s, inv s → (t s).1 = (t s₀).1 ∧ inv (t s).2) (s : σ) (hs : inv s) :
    (runTasks ts s).1 = ts.map fun t => (t s₀).1 := by
  induction ts generalizing s with
  | nil => rfl
  | cons t ts ih =>
    obtain ⟨h1, h2⟩ := h t (by simp) s hs
    simp only [runTasks, List.map_cons, h1]
    rw [ih (fun t' ht' => h t' (by simp [ht'])) _ h2]

/-- The store after all batches are finished. -/
theorem store_eq {α : Type} (f : ℕ → Option α) (order : List ℕ) (st : ℕ → Option α) (i : ℕ) :
    order.foldl (fun st b => fun i => if i = b then f b else st i) st i = if i ∈ order then f i else st i := by
  induction order generalizing st with
  | nil => simp
  | cons b bs ih =>
    rw [List.foldl_cons, ih]
    by_cases h : i ∈ bs
    · simp [h]
    · by_cases hb : i = b
      · subst hb; simp [h]
      · simp [h, hb]

/-- All batches finished, in whatever order (possibly some of them several times): the results are those of the batches, in order. -/
theorem parallelRun_eq {σ ρ : Type} (batches : List (List (PTask σ ρ))) (order : List ℕ) (ho : ∀ b < batches.length, b ∈ order) (s : σ) :
    parallelRun batches order s = some (batches.map fun ts => (runTasks ts s).1).flatten := by
  have hst : (order.foldl (fun st b => fun i => if i = b then (batches[b]?).map (fun ts => (runTasks ts s).1) else st i) (fun _ => none))
      = fun i => if i ∈ order then (batches[i]?).map (fun ts => (runTasks ts s).1) else none :=
    funext fun i => store_eq (fun b => (batches[b]?).map (fun ts => (runTasks ts s).1)) order _ i
  have : (List.range batches.length).mapM (fun i => if i ∈ order then (batches[i]?).map (fun ts => (runTasks ts s).1) else none)
      = some (batches.map fun ts => (runTasks ts s).1) := by
    rw [Lemmas.mapM_eq_some _ (fun i => (runTasks (batches.getD i []) s).1)]
    · congr 1
      apply List.ext_getElem (by simp)
      intro i h1 h2
      simp at h1
      simp [h1]
    · intro i hi
      have hi' := List.mem_range.mp hi
      simp [ho i hi', hi']
  unfold parallelRun
  simp only [hst, this]
  rfl

/-- `C120`: as long as what a task returns does not depend on what earlier tasks did to the objects they were given, every way of cutting the wavelengths into batches and every order in which the batches are finished give
the results of the calculation without parallel workers, in the order of the wavelengths. -/
theorem C120_schedules_partial {σ ρ : Type} (inv : σ → Prop) (s₀ : σ) (h0 : inv s₀) (batches : List (List (PTask σ ρ))) (h : ∀ t ∈ batches.flatten, ∀ s, inv s → (t s).1 = (t s₀).1 ∧ inv (t s).2)
    (order : List ℕ) (ho : order.Perm (List.range batches.length)) :
    parallelRun batches order s₀ = some (serialRun batches.flatten s₀) ∧ serialRun batches.flatten s₀ = batches.flatten.map fun t => (t s₀).1 := by
  have h2 : serialRun batches.flatten s₀ = batches.flatten.map fun t => (t s₀).1 := runTasks_results inv s₀ _ h _ h0
  refine ⟨?_, h2⟩
  rw [parallelRun_eq batches order (fun b hb => ho.mem_iff.mpr (List.mem_range.mpr hb)), h2, List.map_flatten]
  congr 2
  apply List.map_congr_left
  intro ts hts
  exact runTasks_results inv s₀ ts (fun t ht => h t (List.mem_flatten.mpr ⟨ts, hts, ht⟩)) s₀ h0

/-- The hypotheses hold for three tasks in two batches, the second batch finished first, of which the second task changes its object in a part that no task reads. -/
example : parallelRun [[fun s : ℕ × ℕ => (s.1 + 1, s), fun s => (s.1 + 2, (s.1, s.2 + 7))], [fun s => (s.1 * 10, s)]] [1, 0] (5, 0) = some [6, 7, 50] := by
  refine (C120_schedules_partial (fun s => s.1 = 5) (5, 0) rfl [[fun s : ℕ × ℕ => (s.1 + 1, s), fun s => (s.1 + 2, (s.1, s.2 + 7))], [fun s => (s.1 * 10, s)]] ?_ [1, 0] ?_).1.trans rfl
  · rintro t ht ⟨a, b⟩ (rfl : a = 5)
    simp at ht
    rcases ht with rfl | rfl | rfl <;> simp
  · decide

/-- A ray-tracing calculation with a surface without height distribution: the same as without parallel workers, for the same random numbers. `result` stands for whatever the tracing makes of the surface and its random numbers. -/
theorem C120_surfaces {ρ : Type} (s₀ : Surface) (hr : s₀.random = false) (batches : List (List ((Surface → List ℝ → ρ) × List ℝ))) (order : List ℕ) (ho : order.Perm (List.range batches.length)) :
    parallelRun (batches.map (List.map fun q => surfaceTask q.1 q.2)) order s₀ = some (batches.flatten.map fun q => q.1 s₀ q.2) ∧
      serialRun (batches.flatten.map fun q => surfaceTask q.1 q.2) s₀ = batches.flatten.map fun q => q.1 s₀ q.2 := by
  have key : ∀ hs : List ℝ, hs.foldl Surface.refresh s₀ = s₀ := by
    intro hs
    induction hs with
    | nil => rfl
    | cons a l ih =>
      have : s₀.refresh a = s₀ := by simp [Surface.refresh, hr]
      rw [List.foldl_cons, this, ih]
  obtain ⟨h1, h2⟩ := C120_schedules_partial (· = s₀) s₀ rfl (batches.map (List.map fun q => surfaceTask q.1 q.2)) (by
    rintro t ht s rfl
    simp only [List.mem_flatten, List.mem_map] at ht
    obtain ⟨_, ⟨_, _, rfl⟩, ht⟩ := ht
    obtain ⟨q, _, rfl⟩ := List.mem_map.mp ht
    exact ⟨rfl, key _⟩) order (by simpa using ho)
  rw [← List.map_flatten] at h1 h2
  rw [h1]
  simp only [List.map_map] at h2
  exact ⟨congrArg some h2, h2⟩

/-- The hypotheses hold for planar surfaces, three wavelengths in two batches of which the second is finished first. -/
example : ∃ s : Surface, mkSurface false false (planarPoints 2) [(0, 2, 1), (0, 1, 3)] 0 (some 0) = some s ∧ s.random = false ∧ [1, 0].Perm (List.range ([[((fun s hs => s.points.length + hs.length : Surface → List ℝ → ℕ), [1, 2]),
    ((fun s hs => s.points.length * hs.length), [])], [((fun s _ => s.simplices.length), [3])]]).length) :=
  ⟨_, rfl, rfl, by decide⟩

/-- `C120` is violated by surfaces with a height distribution.  Pyramids of height `h₀`; while the first wavelength is traced the last height drawn is `h`.  Without parallel workers the rays of the second wavelength
start above pyramids of height `h`, with each wavelength in its own batch above pyramids of height `h₀`. -/
theorem C120_surfaces_fails (deg L h₀ h : ℝ) (hL : 0 < L) (h0 : 0 < h₀) (hpos : 0 < h) (hne : h ≠ h₀) :
    ∃ f, (pyramidTexture deg L true (some h₀) pyramidSimplices pyramidSimplices none).1 = some f ∧
      serialRun [surfaceTask (fun s _ => s.points) [h], surfaceTask (fun s _ => s.points) []] f = [pyramidPoints h₀ L true, pyramidPoints h L true] ∧
      parallelRun [[surfaceTask (fun s _ => s.points) [h]], [surfaceTask (fun s _ => s.points) []]] [0, 1] f = some [pyramidPoints h₀ L true, pyramidPoints h₀ L true] ∧
      pyramidPoints h L true ≠ pyramidPoints h₀ L true := by
  obtain ⟨f, r, hf, -, hp, -⟩ := C96_rear_fails deg L h₀ h hL h0 hpos
  have hfp : f.points = pyramidPoints h₀ L true := by
    simp only [pyramidTexture, Option.getD_some, mkSurface, Option.map_eq_some_iff] at hf
    obtain ⟨_, -, rfl⟩ := hf
    rfl
  refine ⟨f, hf, ?_, ?_, ?_⟩
  · simp [serialRun, runTasks, surfaceTask, hfp, hp]
  · rw [parallelRun_eq _ _ (by simp; omega)]
    simp [runTasks, surfaceTask, hfp]
  · simp [pyramidPoints, hne]

/-- The polygons drawn with Inkstone when the vertices are given as a tuple: at every wavelength the polygon moved once to its centre, whatever the batches and their order. -/
theorem C120_polygons (center : ℝ × ℝ) (vs : List (ℝ × ℝ)) (sizes : List ℕ) (order : List ℕ) (ho : order.Perm (List.range sizes.length)) :
    parallelRun (sizes.map fun n => List.replicate n (polygonTask true center)) order vs = some (List.replicate sizes.sum (vs.map fun v => (v.1 + center.1, v.2 + center.2))) ∧
      serialRun (List.replicate sizes.sum (polygonTask true center)) vs = List.replicate sizes.sum (vs.map fun v => (v.1 + center.1, v.2 + center.2)) := by
  have hfl : (sizes.map fun n => List.replicate n (polygonTask true center)).flatten = List.replicate sizes.sum (polygonTask true center) := by
    clear ho
    induction sizes with
    | nil => rfl
    | cons a l ih => rw [List.map_cons, List.flatten_cons, ih, List.sum_cons, List.replicate_add]
  obtain ⟨h1, h2⟩ := C120_schedules_partial (· = vs) vs rfl (sizes.map fun n => List.replicate n (polygonTask true center)) (by
    rintro t ht s rfl
    rw [hfl] at ht
    rw [List.eq_of_mem_replicate ht]
    exact ⟨rfl, by simp [polygonTask]⟩) order (by simpa using ho)
  rw [hfl] at h1 h2
  rw [h1, h2, List.map_replicate]
  exact ⟨rfl, rfl⟩

example : [2, 0, 1].Perm (List.range [3, 1, 2].length) := by decide

/-- What a batch of `n` wavelengths draws when the vertices are given as a list: at its `j`-th wavelength (from 0) the polygon moved `j + 1` times. -/
theorem C120_polygons_batch (center : ℝ × ℝ) (vs : List (ℝ × ℝ)) (n : ℕ) :
    serialRun (List.replicate n (polygonTask false center)) vs = (List.range n).map fun j => vs.map fun v => (v.1 + (j + 1 : ℕ) * center.1, v.2 + (j + 1 : ℕ) * center.2) := by
  unfold serialRun
  induction n generalizing vs with
  | zero => rfl
  | succ n ih =>
    rw [List.replicate_succ, List.range_succ_eq_map]
    simp only [runTasks, ih, List.map_cons, List.map_map]
    congr 1
    · simp [polygonTask]
    · apply List.map_congr_left
      intro j _
      simp only [polygonTask, Function.comp, List.map_map, Bool.false_eq_true, if_false]
      apply List.map_congr_left
      intro v _
      simp only [Function.comp, Prod.mk.injEq]
      push_cast
      constructor <;> ring

/-- `C120` is violated by polygons whose vertices are given as a list and whose centre is not the origin: at the second of two wavelengths the polygon drawn depends on whether both wavelengths are in one batch. -/
theorem C120_polygons_fails (center : ℝ × ℝ) (hc : center ≠ (0, 0)) (v : ℝ × ℝ) (vs : List (ℝ × ℝ)) :
    ∃ one two, parallelRun [[polygonTask false center, polygonTask false center]] [0] (v :: vs) = some one ∧ one = serialRun [polygonTask false center, polygonTask false center] (v :: vs) ∧
      parallelRun [[polygonTask false center], [polygonTask false center]] [0, 1] (v :: vs) = some two ∧ one[0]? = two[0]? ∧ one[1]? ≠ two[1]? := by
  refine ⟨_, _, parallelRun_eq _ _ (by simp) _, by simp [serialRun], parallelRun_eq _ _ (by simp; omega) _, ?_, ?_⟩
  · simp [runTasks]
  · simp only [runTasks, polygonTask, List.map_cons, List.map_nil, List.flatten_cons, List.flatten_nil, List.append_nil, List.cons_append, List.nil_append, List.getElem?_cons_succ, List.getElem?_cons_zero, ne_eq,
      Option.some.injEq, Bool.false_eq_true, if_false, List.cons.injEq, Prod.mk.injEq, not_and]
    rintro ⟨h1, h2⟩
    exact absurd (Prod.ext (by simpa using h1) (by simpa using h2)) hc

example : ((1 : ℝ), (2 : ℝ)) ≠ (0, 0) := by simp

end Rayflare
