import Verif.Model.Absorption

/-!
# Model of `make_absorption_function` for `rt_structure` objects, and of the function it returns
(rayflare/utilities.py 54-62 and 151-265; ray_tracing/rt.py 768-796, 845-846)

One wavelength. Widths of interface layers in nm (`interface_layer_widths`, rt.py 533), of bulk layers in m.
-/

namespace Rayflare.Model

open Rayflare.Np

/-- What `make_absorption_function` uses of a surface with a lookup table: the widths of its layers (nm) and the attribute `prof_layers` (`none`: no such attribute). -/
structure Coating where
  widths : List ℝ
  prof : Option (List ℕ)

/-- What it uses of an `rt_structure`: for each surface its coating (`none` for a Fresnel surface, `tmm_or_fresnel[i] == 0`), and `widths` of the bulk layers (m). -/
structure CoatedStack where
  surfs : List (Option Coating)
  bulk : List ℝ

/-- The part for one surface, utilities.py 174-225: positions (m), absorption (per m) and the new `cumulative_width`. `stored` is `result["interface_profiles"][i1]`. `none`: ValueError or IndexError. -/
noncomputable def coatingSegment (dInt : ℝ) (stored : Option (List ℝ)) (top : ℝ) : Option Coating → Option (List ℝ × List ℝ × ℝ)
  | none => some ([], [], top)
  | some c =>
    let pos := arange c.widths.sum (dInt * 10 ^ 9)
    (match c.prof with
      | none => some (pos.map fun _ => (0 : ℝ))
      | some ls => stored.bind fun data => fillProfile pos c.widths (some ls) data).map fun v =>
    (pos.map (fun z => z / 10 ^ 9 + top), v, top + c.widths.sum / 10 ^ 9)

/-- The loop over the surfaces, utilities.py 172-256, from surface `i` on; `top` is `cumulative_width`, `off` is `index_offset_bulk`; the result is what is appended to `all_positions` and `all_data`. -/
noncomputable def stackSegments (bulk : List ℝ) (dInt dBulk : ℝ) (storedInt : List (List ℝ)) (storedBulk : List ℝ) : ℕ → ℝ → ℕ → List (Option Coating) → Option (List ℝ × List ℝ)
  | _, _, _, [] => some ([], [])
  | i, top, off, s :: rest =>
    (coatingSegment dInt storedInt[i]? top s).bind fun c =>
    if rest = [] then some (c.1, c.2.1) else
    (bulkSegment bulk dBulk storedBulk off i c.2.2).bind fun b =>
    bulk[i]?.bind fun w =>
    (stackSegments bulk dInt dBulk storedInt storedBulk (i + 1) (c.2.2 + w) b.2.2 rest).map fun r =>
    (c.1 ++ (b.1 ++ r.1), c.2.1 ++ (b.2.1 ++ r.2))

/-- `interp1d(positions, values)` succeeds if there are as many values as positions (otherwise ValueError); the sample points. -/
def samplePoints (pv : List ℝ × List ℝ) : Option (List (ℝ × ℝ)) := if pv.1.length = pv.2.length then some (pv.1.zip pv.2) else none

/-- `sum(structure.tmm_or_fresnel) > 0`, utilities.py 57. -/
def CoatedStack.anyCoating (s : CoatedStack) : Bool := s.surfs.any Option.isSome

/-- The branch for `rt_structure`: the sample points of the returned function, utilities.py 57-62, 153-265. `storedInt` is `result["interface_profiles"]`, `storedBulk` is `result["profile"]`. -/
noncomputable def CoatedStack.absorptionFn (s : CoatedStack) (dInt dBulk : ℝ) (storedInt : List (List ℝ)) (storedBulk : List ℝ) : Option (List (ℝ × ℝ)) :=
  if s.anyCoating then (stackSegments s.bulk dInt dBulk storedInt storedBulk 0 0 0 s.surfs).bind samplePoints
  else samplePoints ((arange (s.bulk.sum * 10 ^ 6) (dBulk * 10 ^ 6)).map (fun z => z / 10 ^ 6), storedBulk.map fun v => 10 ^ 9 * v)

/-- Depths (m) of the samples of `result["profile"]`, rt.py 839-846: `np.arange(0, sum(widths), z_space)` in μm. -/
noncomputable def CoatedStack.bulkDepths (s : CoatedStack) (dBulk : ℝ) : List ℝ := (arange (s.bulk.sum * 10 ^ 6) (dBulk * 10 ^ 6)).map fun z => z / 10 ^ 6

open Classical in
/-- Evaluation of `scipy.interpolate.interp1d(x, y)` with the default options (linear, `bounds_error=True`) for increasing `x`; `none`: ValueError outside the range of the samples (for a single sample the result is NaN, also `none`). -/
noncomputable def interp1d : List (ℝ × ℝ) → ℝ → Option ℝ
  | a :: b :: r, x => if x < a.1 then none else if x ≤ b.1 then some (a.2 + (b.2 - a.2) / (b.1 - a.1) * (x - a.1)) else interp1d (b :: r) x
  | _, _ => none

end Rayflare.Model
