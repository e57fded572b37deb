import Verif.Model.RcwaFields

/-!
# Model of the maps of fields and permittivity in rcwa.py: `get_fourier_epsilon` (1243-1322), `get_fields` (1325-1417), `get_fields_z_integral` (1454-1534), without the plots

The solver is a parameter.  Arrays are functions of the indices.
-/

namespace Rayflare.Model

open Rayflare.Np

/-- `np.meshgrid(xs, ys, indexing="ij")`, both arrays flattened and paired: x is the slow coordinate (rcwa.py 1275, 1370, 1375, 1494, 1499). -/
def meshIJ {A B : Type*} (xs : List A) (ys : List B) : List (A × B) := xs.flatMap fun a => ys.map fun b => (a, b)

/-- `np.max(abs(np.array(self.size)[:, 0]))` and the same for `[:, 1]`, rcwa.py 1264-1265, 1360-1361, 1484-1485; the unit cell has two basis vectors. -/
noncomputable def defaultHalf (size : (ℝ × ℝ) × (ℝ × ℝ)) : ℝ × ℝ := (max |size.1.1| |size.2.1|, max |size.1.2| |size.2.2|)

/-- `xs`, `ys`, rcwa.py 1263-1272, 1359-1368, 1483-1492. -/
noncomputable def mapPoints (size : (ℝ × ℝ) × (ℝ × ℝ)) (extent : Option ((ℝ × ℝ) × (ℝ × ℝ))) (n : ℕ) : List ℝ × List ℝ :=
  match extent with
  | none =>
    let d := defaultHalf size
    (linspace (-(3 / 2) * d.1) (3 / 2 * d.1) n, linspace (-(3 / 2) * d.2) (3 / 2 * d.2) n)
  | some e => (linspace e.1.1 e.1.2 n, linspace e.2.1 e.2.2 n)

/-- `wl_ind`, rcwa.py 1261, 1345, 1435, 1475: `ws` are the wavelengths (in m) of the last calculation, `wl` is in nm. -/
noncomputable def wlIndex (ws : List ℝ) (wl : ℝ) : ℕ := argmin (ws.map fun w => |w * 10 ^ 9 - wl|)

/-- `E[i, j] = v`. -/
def setAt {V : Type*} (E : ℕ → ℕ → V) (i j : ℕ) (v : V) : ℕ → ℕ → V := fun i' j' => if i' = i ∧ j' = j then v else E i' j'

/-- The loop over the points in `get_fields`, rcwa.py 1370-1389, and in `get_fields_z_integral`, 1494-1514; `get x y` is what the solver returns. -/
def fieldLoop {V : Type*} (zero : V) (get : ℝ → ℝ → V) (xs ys : List ℝ) : ℕ → ℕ → V :=
  let xys := meshIJ xs ys
  let inds := meshIJ (List.range xs.length) (List.range ys.length)
  (List.range xys.length).foldl (fun E k => match xys[k]?, inds[k]? with
    | some p, some ij => setAt E ij.1 ij.2 (get p.1 p.2)
    | _, _ => E) fun _ _ => zero

/-- The loop over the points in `get_fourier_epsilon`, rcwa.py 1275-1294: a flat array, then `reshape((len(xs), len(ys)))`. -/
def epsilonLoop {V : Type*} (zero : V) (get : ℝ → ℝ → V) (xs ys : List ℝ) : ℕ → ℕ → V :=
  let flat := (meshIJ xs ys).map fun p => get p.1 p.2
  fun i j => flat.getD (i * ys.length + j) zero

/-- `np.real(np.sqrt(np.sum(np.abs(E) ** 2, 2)))`, rcwa.py 1399-1400, 1516-1517, at one point. -/
noncomputable def fieldMag (E : Fin 3 → ℂ) : ℝ := Real.sqrt (∑ c, ‖E c‖ ^ 2)

/-- `get_fields` with S4, rcwa.py 1325-1417.  `solver k wl z x y`: the fields at the point for optical constants of wavelength number `k` and the frequency of the wavelength `wl`.  `none`: exception. -/
noncomputable def getFields {V : Type*} (zero : V) (solver : ℕ → ℝ → ℝ → ℝ → ℝ → V) (size : (ℝ × ℝ) × (ℝ × ℝ)) (w ws : List ℝ) (layer : ℕ) (wl : ℝ) (extent : Option ((ℝ × ℝ) × (ℝ × ℝ))) (depth : ℝ) (n : ℕ) :
    Option (List ℝ × List ℝ × (ℕ → ℕ → V)) :=
  (fieldsZ w layer depth).map fun z =>
    let p := mapPoints size extent n
    (p.1, p.2, fieldLoop zero (solver (wlIndex ws wl) wl z) p.1 p.2)

/-- `get_fourier_epsilon` with S4, rcwa.py 1243-1297 and 1322.  The permittivity depends on the wavelength only through the optical constants. -/
noncomputable def getEpsilon {V : Type*} (zero : V) (solver : ℕ → ℝ → ℝ → ℝ → V) (size : (ℝ × ℝ) × (ℝ × ℝ)) (w ws : List ℝ) (layer : ℕ) (wl : ℝ) (extent : Option ((ℝ × ℝ) × (ℝ × ℝ))) (n : ℕ) :
    Option (List ℝ × List ℝ × (ℕ → ℕ → V)) :=
  (epsilonZ w layer).map fun z =>
    let p := mapPoints size extent n
    (p.1, p.2, epsilonLoop zero (solver (wlIndex ws wl) z) p.1 p.2)

end Rayflare.Model
