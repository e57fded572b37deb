import Verif.Model.MatMul

/-!
# Model of `matrix_multiplication` for structures with several bulk layers
(rayflare/matrix_formalism/multiply_matrices.py 292-647, branch without profiles 529-560)

Bulk layers are numbered 0, 1, …, `n - 1`, interfaces 0, …, `n`. Simplification: all interfaces have the same type `κ` of layers (absorption matrices may be padded with rows of zeros).
-/

namespace Rayflare.Model

/-- What `matrix_multiplication` has in hand before the loops. -/
structure MSys (ω ι κ : Type*) where
  v0 : ω → ι → ℝ
  up2down : Matrix ι ι ℝ
  down2up : Matrix ι ι ℝ
  θ : ι → ℝ
  thresh : ℝ
  /-- `alpha` and thickness of each bulk -/
  α : ℕ → ω → ℝ
  thick : ℕ → ℝ
  /-- `Rf[i], Tf[i], Af[i]` and `Rb[i], Tb[i], Ab[i]` -/
  front : ℕ → ω → Mats ι κ
  rear : ℕ → ω → Mats ι κ

/-- The lists of lists `vr`, `vt`, `a`, `A` and `vf_1`, lines 378-386. -/
structure MState (ω ι κ : Type*) where
  vf1 : ℕ → ω → ι → ℝ
  vr : ℕ → List (ω → ι → ℝ)
  vt : ℕ → List (ω → ι → ℝ)
  a : ℕ → List (ω → κ → ℝ)
  A : ℕ → List (ω → ℝ)

/-- `l[i].append(x)`. -/
def appendAt {β : Type*} (l : ℕ → List β) (i : ℕ) (x : β) : ℕ → List β := Function.update l i (l i ++ [x])

section
variable {ω ι κ : Type*} [Fintype ι] [DecidableEq ι]

/-- `D[i1]`, lines 357-361. -/
noncomputable def MSys.D (S : MSys ω ι κ) (i : ℕ) : ω → Matrix ι ι ℝ := fun w => makeD (S.α i w) (S.thick i) S.θ

/-- Empty lists, lines 378-386. -/
def MState.empty : MState ω ι κ := { vf1 := fun _ _ _ => 0, vr := fun _ => [], vt := fun _ => [], a := fun _ => [], A := fun _ => [] }

/-- Start of the loop for bulk `i`, lines 531-536. -/
def MSys.enter (S : MSys ω ι κ) (i : ℕ) (s : MState ω ι κ) : MState ω ι κ :=
  { s with
    vf1 := Function.update s.vf1 i (dotWl (fun w => (S.front i w).T) S.v0)
    vr := appendAt s.vr i (dotWl (fun w => (S.front i w).R) S.v0)
    a := appendAt s.a i (dotWl (fun w => (S.front i w).A) S.v0) }

/-- One pass in bulk `i`, lines 544-560 with `append_per_pass_info` 277-291. -/
noncomputable def MSys.pass (S : MSys ω ι κ) (i : ℕ) (s : MState ω ι κ) : MState ω ι κ :=
  let vf1 := dotWlU2d S.down2up (s.vf1 i)
  let vb1 := dotWl (S.D i) vf1
  let A1 : ω → ℝ := fun w => power vf1 w - power vb1 w
  let vb2 := dotWl (fun w => (S.front (i + 1) w).R) vb1
  let vf2 := dotWl (S.D i) vb2
  let vf2 := dotWlU2d S.up2down vf2
  let vf1 := dotWl (fun w => (S.rear i w).R) vf2
  let A2 : ω → ℝ := fun w => power vb2 w - power vf2 w
  { vf1 := Function.update s.vf1 i vf1
    A := appendAt (appendAt s.A i A1) i A2
    vr := appendAt s.vr i (dotWl (fun w => (S.rear i w).T) vf2)
    vt := appendAt s.vt i (dotWl (fun w => (S.front (i + 1) w).T) vb1)
    a := appendAt (appendAt s.a (i + 1) (dotWl (fun w => (S.front (i + 1) w).A) vb1)) i (dotWl (fun w => (S.rear i w).A) vf2) }

/-- `not np.any(power > I_thresh)` in bulk `i`. -/
def MSys.Done (S : MSys ω ι κ) (i : ℕ) (s : MState ω ι κ) : Prop := ∀ w, power (s.vf1 i) w ≤ S.thresh

/-- `for i1 in range(n)`: the loop of bulk `i` makes `k i` passes and is left; `t` is the final state. -/
inductive MSys.Runs (S : MSys ω ι κ) (k : ℕ → ℕ) : ℕ → MState ω ι κ → Prop
  | zero : MSys.Runs S k 0 MState.empty
  | succ (n : ℕ) (s : MState ω ι κ) (h : MSys.Runs S k n s)
      (hd : S.Done n ((S.pass n)^[k n] (S.enter n s))) (hk : ∀ j < k n, ¬ S.Done n ((S.pass n)^[j] (S.enter n s))) :
      MSys.Runs S k (n + 1) ((S.pass n)^[k n] (S.enter n s))

/-- Returned arrays: `R`, `T`, `A_bulk` by bulk index, `A_interface` by surface index, lines 567-616. -/
def MState.R (s : MState ω ι κ) (i : ℕ) (w : ω) : ℝ := ((s.vr i).map fun v => ∑ j, v w j).sum
def MState.T (s : MState ω ι κ) (i : ℕ) (w : ω) : ℝ := ((s.vt i).map fun v => ∑ j, v w j).sum
def MState.Abulk (s : MState ω ι κ) (i : ℕ) (w : ω) : ℝ := ((s.A i).map fun v => v w).sum
def MState.Aint [Fintype κ] (s : MState ω ι κ) (i : ℕ) (w : ω) : ℝ := ((s.a i).map fun v => ∑ l, v w l).sum

end

end Rayflare.Model
