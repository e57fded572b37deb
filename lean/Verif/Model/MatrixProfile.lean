import Verif.Model.RTMatrix
import Verif.Model.RTProfiles
import Verif.Model.Launch

/-!
# Model of `rayflare/ray_tracing/rt.py`: the profiles filed by `RT_wl` (lines 438-469 together with `make_profiles_wl`, 1259-1353)
-/

namespace Rayflare.Model

open Rayflare.Np

/-- `unique_thetas`, rt.py 446-448: the polar angles of the first half of `angle_vector`, in increasing order. -/
noncomputable def localThetas (g : Grid) : List ℝ := unique ((g.angleVector.take (g.angleVector.length / 2)).map Row.theta)

/-- The profile filed for incidence bin `j` in sample `i` of layer `l`, rt.py 438-461 and 1299-1351. `look s θ` are the coefficients of the lookup table interpolated at `θ`, for light that meets the layers from the side
from which the structure is illuminated in this calculation (`s = true`: `side=1`, after the exchange of the labels in rt.py 110-113 for rear incidence) or from the other one (`s = false`). The code selects `side=1` (rt.py 1309). -/
noncomputable def matrixProfile (a : RTArgs) (M : RTMat) (look : Bool → ℝ → ℕ → Option Coeff) (n : ℕ → ℕ) (dx : ℝ) (j l i : ℕ) : ℝ :=
  profileWl a.nLayers n dx a.front ((localThetas a.g).zipIdx.map fun t => (M.loc t.2 j, look true t.1)) l i

end Rayflare.Model
