import Verif.Model.RCWA
import Verif.Model.Fresnel

/-!
# Model of what the methods do with the option `pol` (rt.py 1511-1518, 1903-1909, tmm.py 202-206, 264-317, 598-684, lookup_table.py 86, 203-204, rcwa.py 42-58)
-/

namespace Rayflare.Model

/-- `calc_R`, rt.py 1511-1518: `pol == "s"`, `pol == "p"`, everything else. `Rs`, `Rp` are the reflectances computed before. -/
noncomputable def calcRChoice (a : PolArg) (Rs Rp : ℝ) : ℝ :=
  match a with
  | .str ['s'] => Rs
  | .str ['p'] => Rp
  | _ => (Rs + Rp) / 2

/-- `lookuptable.loc[dict(side=side, pol=pol)]`, rt.py 1903: the labels of the table are 's' and 'p' (lookup_table.py 86) and 'u', the mean (lookup_table.py 203-204); `none`: KeyError. -/
noncomputable def tableChoice (a : PolArg) (Rs Rp : ℝ) : Option ℝ :=
  match a with
  | .str ['s'] => some Rs
  | .str ['p'] => some Rp
  | .str ['u'] => some ((Rs + Rp) / 2)
  | _ => none

/-- `tmm_structure.calculate`, tmm.py 617-684: `pol in "sp"` is the substring test (TypeError if `pol` is not a string); then the solver is called with this string, otherwise with "p" and with "s", and the mean is taken. `solve` is the solver; `none`: an exception. -/
noncomputable def tmmChoice (a : PolArg) (solve : List Char → Option ℝ) : Option ℝ :=
  match a with
  | .str t => if t <:+: ['s', 'p'] then solve t else (solve ['p']).bind fun rp => (solve ['s']).map fun rs => 1 / 2 * (rp + rs)
  | .pair _ _ => none

/-- `TMM`, tmm.py 202-206, 264-299 and 312-315: "s" and "p" one after the other and the mean of both for "u", otherwise one calculation with the string given. -/
noncomputable def tmmMatrixChoice (a : PolArg) (solve : List Char → Option ℝ) : Option ℝ :=
  match a with
  | .str ['u'] => (tmmChoice (.str ['s']) solve).bind fun rs => (tmmChoice (.str ['p']) solve).map fun rp => (rs + rp) / 2
  | a => tmmChoice a solve

/-- The shares of s and p polarised light in the power of the plane wave that the RCWA solver is given by `process_pol` (rcwa.py 42-58, 190, 1103): the squares of the amplitudes. `none`: an exception, by `process_pol`, or by the solver if the amplitudes are characters. -/
noncomputable def rcwaChoice (a : PolArg) : Option (ℝ × ℝ) :=
  match processPol a with
  | some (.amps s p) => some (s ^ 2, p ^ 2)
  | _ => none

end Rayflare.Model
