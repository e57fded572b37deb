import Verif.Props.Absorption
import Verif.Model.RTFunction

/-!
# Specification for C177 and C178: the absorption at each depth of a ray-traced stack
-/

namespace Rayflare.Spec

open Rayflare.Np Rayflare.Model

/-- Thickness (m) of the layers on a surface. -/
noncomputable def coatThickness : Option Coating → ℝ
  | none => 0
  | some c => c.widths.sum / 10 ^ 9

/-- Depth (m) of the first layer on surface `i`, counting from the top of the structure: all layers on the surfaces above it and all bulk layers above it. -/
noncomputable def surfaceDepth (s : CoatedStack) (i : ℕ) : ℝ := ((s.surfs.take i).map coatThickness).sum + (s.bulk.take i).sum

/-- Total thickness (m) of the structure. -/
noncomputable def totalThickness (s : CoatedStack) : ℝ := (s.surfs.map coatThickness).sum + s.bulk.sum

/-- Depth and absorption (per m) at the samples in the layers on surface `i`, if the absorption at `z` nm below the top of these layers is `AI i z` per nm: 0 in layers that were not requested. -/
noncomputable def coatingTruth (s : CoatedStack) (dInt : ℝ) (AI : ℕ → ℝ → ℝ) (i : ℕ) : List (ℝ × ℝ) :=
  match s.surfs.getD i none with
  | none => []
  | some c => (arange c.widths.sum (dInt * 10 ^ 9)).map fun z => (surfaceDepth s i + z / 10 ^ 9, expected c.widths (c.prof.getD []) (AI i) z)

/-- Depth and absorption (per m) at the samples in bulk layer `i`, if the absorption after `t` metres of bulk material is `AB t` per nm. -/
noncomputable def bulkTruth (s : CoatedStack) (dBulk : ℝ) (AB : ℝ → ℝ) (i : ℕ) : List (ℝ × ℝ) :=
  (arange (s.bulk.getD i 0) dBulk).map fun t => (surfaceDepth s i + coatThickness (s.surfs.getD i none) + t, 10 ^ 9 * AB ((s.bulk.take i).sum + t))

/-- The samples from top to bottom: layers on surface 0, bulk layer 0, layers on surface 1, … . -/
noncomputable def stackTruth (s : CoatedStack) (dInt dBulk : ℝ) (AI : ℕ → ℝ → ℝ) (AB : ℝ → ℝ) : List (ℝ × ℝ) :=
  (List.range s.surfs.length).flatMap fun i => coatingTruth s dInt AI i ++ bulkTruth s dBulk AB i

/-- The profiles in the form in which `rt_structure.calculate` returns them: for each surface the profile of its requested layers (nothing if none are requested). -/
noncomputable def storedByRays (s : CoatedStack) (dInt : ℝ) (AI : ℕ → ℝ → ℝ) : List (List ℝ) :=
  (List.range s.surfs.length).map fun i =>
    match s.surfs.getD i none with
    | none => []
    | some c => (storedDepthsRT c.widths (dInt * 10 ^ 9) (c.prof.getD [])).map (AI i)

/-- All widths are positive and there is one bulk layer between two neighbouring surfaces. -/
def ProperStack (s : CoatedStack) : Prop :=
  s.surfs.length = s.bulk.length + 1 ∧ (∀ w ∈ s.bulk, 0 < w) ∧ ∀ c, some c ∈ s.surfs → c.widths ≠ [] ∧ ∀ w ∈ c.widths, 0 < w

/-- Every layer is a multiple of the spacing of its samples, and layers for profiles are requested in increasing order. -/
def OnGrid (s : CoatedStack) (dInt dBulk : ℝ) : Prop :=
  (∃ ms : List ℕ, (∀ m ∈ ms, 0 < m) ∧ s.bulk = ms.map fun m : ℕ => (m : ℝ) * dBulk) ∧
  ∀ c, some c ∈ s.surfs → (∃ ms : List ℕ, (∀ m ∈ ms, 0 < m) ∧ c.widths = ms.map fun m : ℕ => (m : ℝ) * (dInt * 10 ^ 9)) ∧
    (∀ l ∈ c.prof.getD [], 1 ≤ l ∧ l ≤ c.widths.length) ∧ (c.prof.getD []).Pairwise (· < ·)

end Rayflare.Spec
