import Mathlib.Algebra.Order.Field.Basic
import Mathlib.Algebra.Order.Floor.Ring
import Mathlib.Algebra.BigOperators.Group.List.Basic
import Mathlib.Data.List.Basic
import Mathlib.Data.List.Dedup

/-!
# NumPy / Python primitives used by RayFlare

These are models of *library* functions (they are part of the trusted base, like the Lean
definitions of `sin` or `exp`).  Everything is exact: elements of a linearly ordered field instead
of floating-point numbers.
-/

namespace Rayflare.Np

variable {α : Type*}

section order
variable {K : Type*} [LinearOrder K]

/-- `np.digitize(x, bins)` (`right=False`) for increasing `bins`: the `i` with
`bins[i-1] <= x < bins[i]`, i.e. the number of edges `<= x`.
(NumPy documents this for monotonically increasing bins, the only kind RayFlare passes.) -/
def digitize (x : K) (bins : List K) : ℕ := bins.countP (fun b => decide (b ≤ x))

/-- `np.digitize(x, bins, right=True)` for increasing `bins`: the `i` with
`bins[i-1] < x <= bins[i]`, i.e. the number of edges `< x`. -/
def digitizeRight (x : K) (bins : List K) : ℕ := bins.countP (fun b => decide (b < x))

/-- `np.argmin(l)`: the first index holding the minimum. -/
def argmin (l : List K) : ℕ := l.findIdx (fun x => l.all (fun y => decide (x ≤ y)))

/-- `np.unique(l)`: sorted values without repetitions. -/
def unique (l : List K) : List K := l.dedup.mergeSort (fun a b => decide (a ≤ b))

end order

section field
variable {K : Type*} [Field K]

/-- `np.linspace(a, b, num)`. -/
def linspace (a b : K) (num : ℕ) : List K :=
  (List.range num).map (fun i : ℕ => a + (i : K) * ((b - a) / ((num - 1 : ℕ) : K)))

/-- `np.trapz(y, x)`: trapezoidal rule `∑ (x[i+1]-x[i]) * (y[i+1]+y[i]) / 2`. -/
def trapz : List K → List K → K
  | y0 :: y1 :: ys, x0 :: x1 :: xs => (x1 - x0) * (y1 + y0) / 2 + trapz (y1 :: ys) (x1 :: xs)
  | _, _ => 0

/-- `np.arange(0, stop, step)` for positive `step`: `ceil(stop/step)` samples. -/
def arange [LinearOrder K] [FloorRing K] (stop step : K) : List K :=
  (List.range ⌈stop / step⌉₊).map (fun i : ℕ => (i : K) * step)

/-- One element of `np.divide(a, b, where=cond)` called without `out=`: where the condition fails
the entry keeps whatever was in the freshly allocated (uninitialised) memory, here `junk`. -/
def divideWhere (cond : Bool) (junk a b : K) : K := if cond then a / b else junk

end field

/-- Midpoints `(l[:-1] + l[1:]) / 2`. -/
def midpoints {K : Type*} [Field K] (l : List K) : List K :=
  List.zipWith (fun a b => (a + b) / 2) l.dropLast l.tail

/-- `np.diff(l)`. -/
def diff {K : Type*} [Field K] (l : List K) : List K :=
  List.zipWith (fun a b => b - a) l.dropLast l.tail

/-- `np.cumsum(l)`. -/
def cumsum {K : Type*} [AddMonoid K] (l : List K) : List K :=
  (List.range l.length).map (fun i => (l.take (i + 1)).sum)

/-- Python indexing `l[i]` with negative indices counting from the end; `none` is `IndexError`. -/
def pyGet (l : List α) (i : ℤ) : Option α :=
  if 0 ≤ i then l[i.toNat]?
  else if -(l.length : ℤ) ≤ i then l[((l.length : ℤ) + i).toNat]? else none

/-- The position meant by Python index `i` in an axis of length `len`; `none` is `IndexError`. -/
def pyIndex (len : ℕ) (i : ℤ) : Option ℕ :=
  if 0 ≤ i ∧ i < len then some i.toNat
  else if -(len : ℤ) ≤ i ∧ i < 0 then some ((len : ℤ) + i).toNat else none

end Rayflare.Np
