import Verif.Model.RcwaStructure
import Verif.Model.Surface

/-!
# Model of `joblib.Parallel` as used by rayflare: `rt.py` 211-236 and 931-968, `rcwa.py` 245-270, 1114-1135 and 1206-1228

One task per wavelength.  A task gets objects (surfaces, lists of shapes) that it may change, and returns a result.
-/

namespace Rayflare.Model

/-- One call `delayed(f)(...)`: from the state of the objects it is given, the result and the state in which it leaves them. -/
abbrev PTask (σ ρ : Type) := σ → ρ × σ

/-- Tasks carried out one after the other on the same objects. -/
def runTasks {σ ρ : Type} : List (PTask σ ρ) → σ → List ρ × σ
  | [], s => ([], s)
  | t :: ts, s => ((t s).1 :: (runTasks ts (t s).2).1, (runTasks ts (t s).2).2)

/-- `Parallel(n_jobs=1)`, used for `options.parallel = False` (rt.py 93-94, 834-835, rcwa.py 240-243, 1109-1112, 1200-1204): in the calling process, on the caller's objects. -/
def serialRun {σ ρ : Type} (tasks : List (PTask σ ρ)) (s : σ) : List ρ := (runTasks tasks s).1

/-- `Parallel(n_jobs=n)` with several workers.  joblib cuts the tasks into batches of consecutive tasks; a batch is pickled as a whole, so its tasks share one copy of the objects; batches are finished in some `order`,
and their results are kept by batch number.  `none`: some batch is not finished. -/
def parallelRun {σ ρ : Type} (batches : List (List (PTask σ ρ))) (order : List ℕ) (s : σ) : Option (List ρ) :=
  let store : ℕ → Option (List ρ) := order.foldl (fun st b => fun i => if i = b then (batches[b]?).map (fun ts => (runTasks ts s).1) else st i) (fun _ => none)
  ((List.range batches.length).mapM store).map List.flatten

/-- The part of a task of `rcwa_structure.calculate` with Inkstone that concerns one polygon (rcwa.py 780-793): the vertices drawn, and the vertices left in `geom_list`. -/
def polygonTask (isTuple : Bool) (center : ℝ × ℝ) : PTask (List (ℝ × ℝ)) (List (ℝ × ℝ)) := fun vs =>
  let drawn := vs.map fun v => (v.1 + center.1, v.2 + center.2)
  (drawn, if isTuple then vs else drawn)

/-- A ray-tracing task (`RT_wl`, `parallel_inner`) as far as one surface object is concerned: the result depends on the surface as it is at the beginning and on the heights drawn, and `refresh` is called for each height drawn
(rt.py 1972 and 2025). -/
noncomputable def surfaceTask {ρ : Type} (result : Surface → List ℝ → ρ) (heights : List ℝ) : PTask Surface ρ := fun s =>
  (result s heights, heights.foldl Surface.refresh s)

end Rayflare.Model
