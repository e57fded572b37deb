import Verif.Model.MultiBulkProf

/-! # Specification vocabulary: one bulk layer of a stack taken alone -/

namespace Rayflare

open Rayflare.Model Finset

variable {ω ι κ : Type*} [Fintype ι]

/-- The structure with the single bulk layer `i` between its two interfaces, illuminated with the same light. -/
def Spec.onlyBulk (S : MSys ω ι κ) (i : ℕ) : Sys ω ι κ κ :=
  { v0 := S.v0, up2down := S.up2down, down2up := S.down2up, α := S.α i, thick := S.thick i, θ := S.θ,
    front0 := S.front i, front1 := S.front (i + 1), rear0 := S.rear i, thresh := S.thresh }

/-- The stored profiles of the two interfaces of bulk layer `i`. -/
def Spec.profsOf {ζ : Type*} (q : MProfs ω ι ζ) (i : ℕ) : IntProfs ω ι ζ ζ := ⟨q.front i, q.rear i, q.front (i + 1)⟩

/-- Absorption the single-bulk structures that contain interface `j` report for it: structure `j - 1` has it as its rear surface, structure `j` as its front surface. -/
def Spec.sharedInterface [Fintype κ] (n : ℕ) (t : ℕ → LoopState ω ι κ κ) (j : ℕ) (w : ω) : ℝ :=
  (if 1 ≤ j ∧ j ≤ n then (t (j - 1)).Aint1 w else 0) + if j < n then (t j).Aint0 w else 0

/-- The records of interface `j` in a stack of `n` bulk layers: first those (`below`) of the bulk layer above it, of which it is the rear surface, then those (`above`) of the bulk layer below it, of which it is the front surface. -/
def Spec.sharedRecords {β : Type*} (n : ℕ) (below above : ℕ → List β) (j : ℕ) : List β :=
  (if 1 ≤ j ∧ j ≤ n then below (j - 1) else []) ++ if j < n then above j else []

end Rayflare
