import Verif.Model.MultiBulk
import Verif.Model.IntProfile

/-!
# Model of `matrix_multiplication` for structures with several bulk layers: the branch with profiles (rayflare/matrix_formalism/multiply_matrices.py 393-525) and what is returned (lines 562-647)

Simplification: the profiles of all interfaces have the same type `ζ` of depth samples.
-/

namespace Rayflare.Model

/-- The lists of the loop with profiles: those of the branch without profiles, `A_prof` (line 394, one entry per crossing of the bulk layer) and `a_prof` (line 393, one per interaction with the interface). -/
structure MPState (ω ι κ ζ : Type*) where
  st : MState ω ι κ
  Aprof : ℕ → List (ω → List ℝ)
  aprof : ℕ → List (ω → ζ → ℝ)

/-- What was loaded for the interfaces: `If`, `Pf` and `Ib`, `Pb`, lines 370-376; `none` where `prof_layers` is `None`. -/
structure MProfs (ω ι ζ : Type*) where
  front : ℕ → Option (StoredProf ω ι ζ)
  rear : ℕ → Option (StoredProf ω ι ζ)

section
variable {ω ι κ ζ : Type*} [Fintype ι] [DecidableEq ι] [Fintype κ]

/-- Empty lists, lines 380-394. -/
def MPState.empty : MPState ω ι κ ζ := { st := MState.empty, Aprof := fun _ => [], aprof := fun _ => [] }

/-- Start of the loop for bulk `i`, lines 399-423. -/
noncomputable def MSys.enterProf (S : MSys ω ι κ) (q : MProfs ω ι ζ) (i : ℕ) (s : MPState ω ι κ ζ) : MPState ω ι κ ζ :=
  { s with
    st := S.enter i s.st
    aprof := Function.update s.aprof i (s.aprof i ++ profOf (fun w => (S.front i w).A) (q.front i) S.v0) }

/-- One pass in bulk `i`, lines 429-525. `o i` has `options.bulk_profile` and `depths_bulk[i]`. -/
noncomputable def MSys.passProf (S : MSys ω ι κ) (o : ℕ → ProfOpts ω ι) (q : MProfs ω ι ζ) (i : ℕ) (s : MPState ω ι κ ζ) : MPState ω ι κ ζ :=
  let vf1 := dotWlU2d S.down2up (s.st.vf1 i)
  let vb1 := dotWl (S.D i) vf1
  let aprof := Function.update s.aprof (i + 1) (s.aprof (i + 1) ++ profOf (fun w => (S.front (i + 1) w).A) (q.front (i + 1)) vb1)
  let A1 : ω → ℝ := fun w => power vf1 w - power vb1 w
  let k := (s.Aprof i).length
  let p1 : List (ω → List ℝ) := if (o i).bulkProfile then
      [fun w => bulkProfileCalc (vf1 w) (vb1 w) (S.α i w) S.θ (S.thick i) (o i).depths (A1 w) ((o i).junk k w) ((o i).junk' k w)]
    else []
  let vb2 := dotWl (fun w => (S.front (i + 1) w).R) vb1
  let vf2 := dotWl (S.D i) vb2
  let A2 : ω → ℝ := fun w => power vb2 w - power vf2 w
  let p2 : List (ω → List ℝ) := if (o i).bulkProfile then
      [fun w => (bulkProfileCalc (vb2 w) (vf2 w) (S.α i w) S.θ (S.thick i) (o i).depths (A2 w) ((o i).junk (k + 1) w) ((o i).junk' (k + 1) w)).reverse]
    else []
  let vf2 := dotWlU2d S.up2down vf2
  let aprof := Function.update aprof i (aprof i ++ profOf (fun w => (S.rear i w).A) (q.rear i) vf2)
  let vf1 := dotWl (fun w => (S.rear i w).R) vf2
  { st :=
      { vf1 := Function.update s.st.vf1 i vf1
        A := appendAt (appendAt s.st.A i A1) i A2
        vr := appendAt s.st.vr i (dotWl (fun w => (S.rear i w).T) vf2)
        vt := appendAt s.st.vt i (dotWl (fun w => (S.front (i + 1) w).T) vb1)
        a := appendAt (appendAt s.st.a (i + 1) (dotWl (fun w => (S.front (i + 1) w).A) vb1)) i (dotWl (fun w => (S.rear i w).A) vf2) }
    Aprof := Function.update s.Aprof i (s.Aprof i ++ p1 ++ p2)
    aprof := aprof }

/-- `for i1 in range(n)`, lines 397-525: the loop of bulk `i` makes `k i` passes and is left. -/
inductive MSys.RunsProf (S : MSys ω ι κ) (o : ℕ → ProfOpts ω ι) (q : MProfs ω ι ζ) (k : ℕ → ℕ) : ℕ → MPState ω ι κ ζ → Prop
  | zero : MSys.RunsProf S o q k 0 MPState.empty
  | succ (n : ℕ) (s : MPState ω ι κ ζ) (h : MSys.RunsProf S o q k n s)
      (hd : S.Done n ((S.passProf o q n)^[k n] (S.enterProf q n s)).st) (hk : ∀ j < k n, ¬ S.Done n ((S.passProf o q n)^[j] (S.enterProf q n s)).st) :
      MSys.RunsProf S o q k (n + 1) ((S.passProf o q n)^[k n] (S.enterProf q n s))

/-- `bulk_profile[i]`, line 630, at one wavelength. -/
def MPState.bulkProf (s : MPState ω ι κ ζ) (i len : ℕ) (w : ω) : List ℝ := (s.Aprof i).foldl (fun acc p => List.zipWith (· + ·) acc (p w)) (List.replicate len 0)

end

/-- The variables of the returned dataset, lines 567-647, for `n` bulk layers of which bulk `i` made `k i` passes, in the final state `s`; `none` is an exception.
`i2` is the counter of the last bulk layer: `i2 > 1` iff that one made a pass. `np.sum(item, (0, 2))` of an empty list raises AxisError; `np.sum(item, 0)` of an empty list is a number and not an array of wavelengths, and
the array made of the results does not have the two dimensions `sum_dims`, which raises ValueError. -/
def returnedVariables {ω ι κ : Type*} (profBranch : Bool) (n : ℕ) (k : ℕ → ℕ) (s : MState ω ι κ) : Option (List String) :=
  if (List.range n).any fun i => (s.vr i).isEmpty then none
  else if 0 < k (n - 1) then
    if (List.range n).any fun i => (s.A i).isEmpty || (s.vt i).isEmpty then none
    else if profBranch then
      if (List.range (n + 1)).any fun j => (s.a j).isEmpty then none else some ["R", "A_bulk", "A_interface", "T"]
    else some ["R", "A_bulk", "T"]
  else some ["R"]

end Rayflare.Model
