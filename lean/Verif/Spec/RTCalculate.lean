import Verif.Model.RTCalculate
import Verif.Spec.TraceStack

/-!
# Specification for the results of `rt_structure.calculate` (C145)
-/

namespace Rayflare.Spec

open Rayflare.Model

/-- All the rays of a wavelength in the order in which they are launched: repetition by repetition, in each from the first to the last `x`, and for each `x` from the first to the last `y`. -/
def raysInOrder (nReps nx ny : ℕ) (out : ℕ → ℕ → ℕ → RayOut) : List RayOut :=
  (List.range nReps).flatMap fun j => (List.range nx).flatMap fun i => (List.range ny).map fun k => out j i k

/-- The average of a quantity over the rays. -/
noncomputable def average (outs : List RayOut) (f : RayOut → ℝ) : ℝ := (outs.map f).sum / outs.length

/-- The ray left the structure upwards, at a polar angle of at most 90° (there is no angle if it was absorbed). -/
def LeftUp (o : RayOut) : Prop := ∃ t, o.ray.θ = some t ∧ t ≤ Real.pi / 2

/-- The ray left the structure downwards. -/
def LeftDown (o : RayOut) : Prop := ∃ t, o.ray.θ = some t ∧ Real.pi / 2 < t

open Classical in
/-- The dictionary `res` reports, at wavelength number `w`, the results of the rays `outs` traced through a structure of `nBulk` layers, sampled at `nZ` depths, with `nls j` layers in interface `j` if
there are lookup tables. -/
structure Reports (nBulk nZ : ℕ) (tmm : Option (List ℕ)) (res : RTResult) (w : ℕ) (outs : List RayOut) : Prop where
  /-- `R`: the intensity that leaves upwards, per ray -/
  R : res.R[w]? = some (average outs fun o => if LeftUp o then o.ray.I else 0)
  /-- `T`: the intensity that leaves downwards, per ray -/
  T : res.T[w]? = some (average outs fun o => if LeftDown o then o.ray.I else 0)
  /-- `R0`: the intensity that leaves upwards without having passed through any layer -/
  R0 : res.R0[w]? = some (average outs fun o => if LeftUp o ∧ o.ray.nPasses = 0 then o.ray.I else 0)
  /-- `A_per_layer`: what was absorbed in each layer; medium number 0 is the incidence medium -/
  A : ∃ row, res.A_per_layer[w]? = some row ∧ row.length = nBulk ∧ ∀ m < nBulk, row[m]? = some (average outs fun o => o.ray.A (m + 1))
  /-- `profile`: what was absorbed at each depth, per nanometre instead of per micrometre, not below 0 -/
  profile : ∃ row, res.profile[w]? = some row ∧ row.length = nZ ∧ ∀ z < nZ, row[z]? = some (max 0 (average outs fun o => o.ray.profile z) / 1000)
  /-- the entries per ray are in the order of the rays -/
  thetas : res.thetas[w]? = some (outs.map fun o => o.ray.θ)
  phis : res.phis[w]? = some (outs.map fun o => o.phi)
  n_passes : res.n_passes[w]? = some (outs.map fun o => o.ray.nPasses)
  n_interactions : res.n_interactions[w]? = some (outs.map fun o => o.nInt)
  /-- `A_per_interface[j][w][l]`: what was absorbed in layer `l` of interface `j` -/
  interfaces : match tmm with
    | none => res.A_per_interface = none
    | some nls => ∃ tab, res.A_per_interface = some tab ∧ tab.length = nls.length ∧ ∀ (j : ℕ) (n : ℕ), nls[j]? = some n →
        ∃ rows row, tab[j]? = some rows ∧ rows[w]? = some row ∧ row.length = n ∧
          ∀ l < n, row[l]? = some (average outs fun o => if o.ray.aIdx = (j : ℤ) + 1 then o.ray.aInt.getD l 0 else 0)

/-- A ray that was absorbed in an interface says in which one, and how much in each of its layers; any other ray says that it was not. -/
def SaysWhere (nSurf : ℕ) (tmm : Option (List ℕ)) (o : RayOut) : Prop :=
  o.ray.aIdx = 0 ∨ ∃ j < nSurf, o.ray.aIdx = (j : ℤ) + 1 ∧ ∀ nls, tmm = some nls → nls[j]? = some o.ray.aInt.length

/-- Every ray of wavelength `w`, launched in repetition `j` at point `(x_i, y_k)`, is traced to its end and gives `out w j i k`. -/
def AllTraced (a : CalcArgs) (ux uy : ℕ → ℝ) (nWl : ℕ) (tracer : ℕ → ℕ → ℕ → ℝ → ℝ → Option RayOut) (out : ℕ → ℕ → ℕ → ℕ → RayOut) : Prop :=
  ∀ w < nWl, ∀ j < a.nReps, ∀ i x, (a.xs ux)[i]? = some x → ∀ k y, (a.ys uy)[k]? = some y → tracer w j (i * a.ny + k) x y = some (out w j i k)

/-- The ray launched towards `(x, y)` at angles `θ`, `φ` (incidence medium `matI`, direction `dirI`, highest point `h` of the first surface) is traced to its end and gives `s`. -/
def TracedFrom (c : RTStack) (matI dirI : ℤ) (h θ φ x y : ℝ) (s : StackRay) : Prop :=
  ∃ ms, DrawsBelowOne ms ∧ NeverLevel c (c.start x y matI dirI (rA0 h θ φ)) ms ∧ c.run ms (c.start x y matI dirI (rA0 h θ φ)) = .next s ∧ s.ray.stop = true

/-- Everything absorbed in interface layers at wavelength number `w`. -/
noncomputable def interfaceTotal (res : RTResult) (w : ℕ) : ℝ :=
  match res.A_per_interface with
  | none => 0
  | some tab => (tab.map fun rows => (rows.getD w []).sum).sum

/-- The depth samples `0, d, 2d, …` (in metres) that lie in layer `m` of a stack with the given widths (in metres). -/
noncomputable def samplesIn (widths : List ℝ) (d : ℝ) (nZ m : ℕ) : List ℕ :=
  (List.range nZ).filter fun k => decide ((widths.take m).sum ≤ k * d ∧ k * d < (widths.take (m + 1)).sum)

/-- The number of layers in interface `j`: none without lookup tables. -/
def layersIn (tmm : Option (List ℕ)) (j : ℕ) : ℕ := (tmm.getD []).getD j 0

/-- The rays of `calculate` are traced by `single_ray_stack` through a physically sensible structure, handed over in the units of `calculate`. -/
structure Physical (a : CalcArgs) (ux uy : ℕ → ℝ) (nWl : ℕ) (tracer : ℕ → ℕ → ℕ → ℝ → ℝ → Option RayOut) (out : ℕ → ℕ → ℕ → ℕ → RayOut)
    (c : ℕ → RTStack) (ks : ℕ → List ℝ) (wl : ℕ → ℝ) (thresh : ℝ) (matI dirI : ℤ) (h θ φ : ℝ) : Prop where
  traced : AllTraced a ux uy nWl tracer out
  layers : ∀ nls, a.tmm = some nls → nls.length = a.widths.length + 1
  stack : ∀ w < nWl, (c w).S = calcStack a.widths (ks w) (wl w) a.spacing thresh
  physical : ∀ w < nWl, PhysicalStack (c w) (layersIn a.tmm)
  start : ∀ w < nWl, ValidStart (c w).S matI dirI
  angle : 0 ≤ θ ∧ θ < Real.pi / 2
  height : h + 1e-8 ≠ 0
  rays : ∀ w < nWl, ∀ j < a.nReps, ∀ i x, (a.xs ux)[i]? = some x → ∀ k y, (a.ys uy)[k]? = some y →
    ∃ s, TracedFrom (c w) matI dirI h θ φ x y s ∧ (out w j i k).ray = s.ray

end Rayflare.Spec
