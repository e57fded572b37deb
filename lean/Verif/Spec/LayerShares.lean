import Verif.Model.RTMatrix

/-! # Specification vocabulary: in which layers a ray is absorbed -/

namespace Rayflare.Spec

open Rayflare.Model

/-- Absorption of all `nL` layers together, at the angle and from the side at which the ray met them: the probability that such a ray is absorbed there. -/
noncomputable def totalOf (nL : ℕ) (r : RTRay) : ℝ :=
  match r.out with
  | .leaves _ _ => 0
  | .absorbed A _ => ((List.range nL).map A).sum

/-- Part of the energy of the ray that is absorbed in layer `l`: nothing if it leaves; if it is absorbed, the absorption of layer `l` relative to that of all layers. -/
noncomputable def shareOf (nL l : ℕ) (r : RTRay) : ℝ :=
  match r.out with
  | .leaves _ _ => 0
  | .absorbed A _ => A l / ((List.range nL).map A).sum

end Rayflare.Spec
