import Verif.Model.Surface

/-!
# Model of `rt_structure.__init__` (rt.py 738-795): copying and placing the surfaces

Surfaces are objects with identity: a heap is the list of all `RTSurface` objects, an address is a position in it. The same object may
occur several times in the list of textures.
-/

namespace Rayflare.Model

open Rayflare.Np

/-- `deepcopy(surface)`, rt.py 1438-1448: a new object with the same attributes (`interface_layers`, which is left out, is not part of
`Surface`). -/
def deepcopySurf (H : List Surface) (a : ℕ) : Option (List Surface × ℕ) := H[a]?.map fun s => (H ++ [s], H.length)

/-- `surfs_no_offset = [deepcopy(x[0]) for x in textures]`, rt.py 761. -/
def copyAll (H : List Surface) : List ℕ → Option (List Surface × List ℕ)
  | [] => some (H, [])
  | a :: as => (deepcopySurf H a).bind fun r => (copyAll r.1 as).map fun q => (q.1, r.2 :: q.2)

/-- `text.shift(...)` on the object at address `a`. -/
noncomputable def shiftAt (H : List Surface) (a : ℕ) (dz : ℝ) : Option (List Surface) := H[a]?.map fun s => H.set a (s.shift dz)

/-- `cum_width = np.cumsum([0] + widths) * 1e6`, rt.py 764, `widths` a Python list. -/
noncomputable def cumWidth (widths : List ℝ) : List ℝ := (cumsum (0 :: widths)).map fun w => w * 1e6

/-- The loop of rt.py 768-770 from index `i`; `none` is an IndexError. -/
noncomputable def placeAll (H : List Surface) (cum : List ℝ) (i : ℕ) : List ℕ → Option (List Surface)
  | [] => some H
  | a :: as => cum[i]?.bind fun dz => (shiftAt H a dz).bind fun H' => placeAll H' cum (i + 1) as

/-- `rt_structure.__init__`, rt.py 750-775: the heap afterwards and `self.surfaces`. `textures` are the addresses of the front
surfaces `x[0]`. -/
noncomputable def buildRT (H : List Surface) (textures : List ℕ) (widths : List ℝ) : Option (List Surface × List ℕ) :=
  (copyAll H textures).bind fun r => (placeAll r.1 (cumWidth widths) 0 r.2).map fun H' => (H', r.2)

end Rayflare.Model
