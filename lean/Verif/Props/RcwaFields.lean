import Verif.Model.RcwaFields
import Mathlib.Tactic.Linarith
import Mathlib.Tactic.FieldSimp
import Mathlib.Tactic.Ring
import Mathlib.Tactic.NormNum
import Mathlib.Algebra.BigOperators.Group.List.Basic

/-!
# Properties C92-C94: unpolarised light, materials of shapes and depth of field requests in the RCWA code
-/

namespace Rayflare

open Rayflare.Np Rayflare.Model Real

/-! ## C92 -/

theorem processPol_s : processPol (.str ['s']) = some (.amps 1 0) := by
  have h : (['s'] : List Char) <:+: ['s', 'p'] := ⟨[], ['p'], rfl⟩
  simp [processPol, PolArg.len, h]

theorem processPol_p : processPol (.str ['p']) = some (.amps 0 1) := by
  have h : (['p'] : List Char) <:+: ['s', 'p'] := ⟨['s'], [], rfl⟩
  simp [processPol, PolArg.len, h]

theorem processPol_u : processPol (.str ['u']) = some (.amps (√2 / 2) (√2 / 2)) := by
  have h : ¬ (['u'] : List Char) <:+: ['s', 'p'] := by
    rintro ⟨a, b, hab⟩
    have hmem : 'u' ∈ ['s', 'p'] := by rw [← hab]; simp
    simp at hmem
  simp [processPol, PolArg.len, h]

theorem half_sq : (√2 / 2) ^ 2 = 1 / 2 := by
  rw [div_pow, Real.sq_sqrt (by norm_num)]; norm_num

theorem eval_u (f : PowerForm) : f.eval (√2 / 2) (√2 / 2) = (f.ss + f.pp + f.sp) / 2 := by
  unfold PowerForm.eval
  have h : √2 / 2 * (√2 / 2) = 1 / 2 := by rw [← sq]; exact half_sq
  have : f.sp * (√2 / 2) * (√2 / 2) = f.sp * (1 / 2) := by rw [mul_assoc, h]
  rw [this, half_sq]; ring

/-- **C92, what holds.** If s and p polarised incident waves carry the same power and no power flux has a term mixing s and p amplitudes (as for planar stacks, and for gratings with a mirror plane containing the
incident direction), R and T for `pol='u'` are the means of those for 's' and 'p'. -/
theorem C92_unpolarised_partial (fwd bwd : ℕ → PowerForm) (n : ℕ) (hinc : (fwd 1).ss = (fwd 1).pp)
    (h1 : (fwd 1).sp = 0) (h2 : (bwd 1).sp = 0) (h3 : (fwd n).sp = 0) :
    ∃ Rs Ts Rp Tp, rcwaPolRT fwd bwd n (.str ['s']) = some (Rs, Ts) ∧ rcwaPolRT fwd bwd n (.str ['p']) = some (Rp, Tp) ∧
      rcwaPolRT fwd bwd n (.str ['u']) = some ((Rs + Rp) / 2, (Ts + Tp) / 2) := by
  refine ⟨-(bwd 1).ss / (fwd 1).ss, (fwd n).ss / (fwd 1).ss, -(bwd 1).pp / (fwd 1).pp, (fwd n).pp / (fwd 1).pp, ?_, ?_, ?_⟩
  · simp [rcwaPolRT, processPol_s, rcwaRT, PowerForm.eval]
  · simp [rcwaPolRT, processPol_p, rcwaRT, PowerForm.eval]
  · simp only [rcwaPolRT, processPol_u, rcwaRT, eval_u, h1, h2, h3, hinc, add_zero, Option.some.injEq, Prod.mk.injEq]
    by_cases h0 : (fwd 1).pp = 0
    · simp [h0]
    · constructor <;> (field_simp; ring)

example : ((⟨1, 1, 0⟩ : PowerForm).ss = (⟨1, 1, 0⟩ : PowerForm).pp) ∧ (⟨-0.1, -0.3, 0⟩ : PowerForm).sp = 0 := by norm_num

/-- **C92 fails** in general: 'u' is light polarised at 45 degrees. A wire-grid polariser at 45 degrees, which reflects the component along (1, 1) and transmits the one along (1, -1), reflects half of s and half of p
polarised light but, according to the code, all of unpolarised light. -/
theorem C92_unpolarised_fails :
    let fwd : ℕ → PowerForm := fun l => if l = 1 then ⟨1, 1, 0⟩ else ⟨1 / 2, 1 / 2, -1⟩
    let bwd : ℕ → PowerForm := fun l => if l = 1 then ⟨-1 / 2, -1 / 2, -1⟩ else ⟨0, 0, 0⟩
    (∀ s p, (fwd 1).eval s p + (bwd 1).eval s p = (fwd 2).eval s p) ∧
    rcwaPolRT fwd bwd 2 (.str ['s']) = some (1 / 2, 1 / 2) ∧ rcwaPolRT fwd bwd 2 (.str ['p']) = some (1 / 2, 1 / 2) ∧
    rcwaPolRT fwd bwd 2 (.str ['u']) = some (1, 0) := by
  intro fwd bwd
  refine ⟨?_, ?_, ?_, ?_⟩
  · intro s p
    simp only [fwd, bwd, PowerForm.eval]
    norm_num
    ring
  · simp only [rcwaPolRT, processPol_s, rcwaRT, PowerForm.eval, fwd, bwd]; norm_num
  · simp only [rcwaPolRT, processPol_p, rcwaRT, PowerForm.eval, fwd, bwd]; norm_num
  · simp only [rcwaPolRT, processPol_u, rcwaRT, eval_u, fwd, bwd]; norm_num

/-! ## C93 -/

/-- A shape is always drawn with a material of the same name. -/
theorem shape_named {M S : Type*} [DecidableEq S] (str : M → S) (mats : List M) (m : M) (h : m ∈ mats) : ∃ m' ∈ mats, shapeMaterial str mats m = some m' ∧ str m' = str m := by
  have hmem : str m ∈ mats.map str := List.mem_map_of_mem h
  have hlt := List.idxOf_lt_length_of_mem hmem
  have hget := List.getElem_idxOf hlt
  have hlt' : (mats.map str).idxOf (str m) < mats.length := by simpa using hlt
  refine ⟨mats[(mats.map str).idxOf (str m)], List.getElem_mem _, ?_, ?_⟩
  · simp only [shapeMaterial]
    exact List.getElem?_eq_getElem hlt'
  · rw [List.getElem_map] at hget; exact hget

/-- **C93, what holds.** Whatever the order of the set of materials, every shape is drawn with its own material, provided different materials have different text representations. -/
theorem C93_material_partial {M S : Type*} [DecidableEq S] (str : M → S) (mats : List M) (m : M) (h : m ∈ mats) (hinj : ∀ a ∈ mats, ∀ b ∈ mats, str a = str b → a = b) :
    shapeMaterial str mats m = some m := by
  obtain ⟨m', hm', h1, h2⟩ := shape_named str mats m h
  rw [h1, hinj m' hm' m h h2]

example : (3 : ℕ) ∈ [5, 3, 8] ∧ ∀ a ∈ [5, 3, 8], ∀ b ∈ [5, 3, 8], (fun n : ℕ => n % 4) a = (fun n : ℕ => n % 4) b → a = b := by decide

/-- **C93 fails** for two different materials with the same text representation: in either order of the set one of two shapes is drawn with the other one's material. -/
theorem C93_material_fails {M S : Type*} [DecidableEq S] (str : M → S) (a b : M) (h : str a = str b) :
    shapeMaterial str [a, b] b = some a ∧ shapeMaterial str [b, a] a = some b := by
  simp [shapeMaterial, h]

/-! ## C94 -/

/-- Depth `z` below the front surface lies in layer `k`: 0 is the incidence medium, 1 to `w.length` are the layers, `w.length + 1` is the transmission medium. -/
def InLayer (w : List ℝ) (k : ℕ) (z : ℝ) : Prop :=
  if k = 0 then z < 0 else k ≤ w.length + 1 ∧ (w.take (k - 1)).sum ≤ z ∧ (k ≤ w.length → z ≤ (w.take k).sum)

theorem layerZ_eq (w : List ℝ) (k : ℕ) (d : ℝ) (h1 : 1 ≤ k) (h2 : k ≤ w.length + 1) : layerZ w k d = some ((w.take (k - 1)).sum + d) := by
  unfold layerZ pyGet
  have e : ((k : ℤ) - 1).toNat = k - 1 := by omega
  rw [if_pos (by omega), e]
  have hlt : k - 1 < (cumsum ([0] ++ w ++ [0])).length := by simp [cumsum]; omega
  rw [List.getElem?_eq_getElem hlt]
  simp only [Option.map_some, Option.some.injEq, add_left_inj]
  simp only [cumsum, List.getElem_map, List.getElem_range]
  have : k - 1 ≤ w.length := by omega
  rw [List.append_assoc, List.singleton_append, List.take_succ_cons, List.sum_cons, zero_add, List.take_append_of_le_length this]

/-- **C94, what holds.** With S4, a request for the fields in layer `k ≥ 1` at depth `d` (not larger than the layer) is evaluated at depth `d` below the top of that layer, in that layer. -/
theorem C94_depth_partial (w : List ℝ) (k : ℕ) (d : ℝ) (h1 : 1 ≤ k) (h2 : k ≤ w.length + 1) (hd : 0 ≤ d) (hk : ∀ x, w[k - 1]? = some x → d ≤ x) :
    let z := (w.take (k - 1)).sum + d
    fieldsZ w k d = some z ∧ unitCellZ w k d = some z ∧ InLayer w k z := by
  intro z
  have hpos : k > 0 := h1
  refine ⟨by rw [fieldsZ, if_pos hpos, layerZ_eq w k d h1 h2], by rw [unitCellZ, if_pos hpos, layerZ_eq w k d h1 h2], ?_⟩
  unfold InLayer
  rw [if_neg (by omega)]
  refine ⟨h2, by simp only [z]; linarith, fun hle => ?_⟩
  have hlt : k - 1 < w.length := by omega
  have hx := hk _ (List.getElem?_eq_getElem hlt)
  have : (w.take k).sum = (w.take (k - 1)).sum + w[k - 1] := by
    have e : k = (k - 1) + 1 := by omega
    conv_lhs => rw [e]
    rw [List.take_succ_eq_append_getElem hlt, List.sum_append]; simp
  rw [this]
  simp only [z]; linarith

example : (1 : ℕ) ≤ 2 ∧ 2 ≤ ([100, 50] : List ℝ).length + 1 ∧ (0 : ℝ) ≤ 20 ∧ ∀ x, ([100, 50] : List ℝ)[2 - 1]? = some x → 20 ≤ x := by
  refine ⟨by norm_num, by norm_num, by norm_num, ?_⟩
  intro x hx
  simp at hx
  rw [← hx]; norm_num

/-- **C94, permittivity.** The Fourier-decomposed permittivity of any layer, including the two media, is evaluated in that layer (if it is thicker than 1e-10 nm); and Inkstone is always asked for the right layer. -/
theorem C94_epsilon (w : List ℝ) (k : ℕ) (h2 : k ≤ w.length + 1) (hk : ∀ x ∈ w, 1 / 10 ^ 10 ≤ x) :
    (∃ z, epsilonZ w k = some z ∧ InLayer w k z) ∧ inkstoneLayer k = some k := by
  constructor
  · by_cases h0 : k = 0
    · subst h0
      exact ⟨-1, by simp [epsilonZ], by simp [InLayer]⟩
    · have h1 : 1 ≤ k := by omega
      obtain ⟨-, -, h⟩ := C94_depth_partial w k (1 / 10 ^ 10) h1 h2 (by positivity) (fun x hx => hk x (List.mem_of_getElem? hx))
      exact ⟨_, by rw [epsilonZ, if_pos (by omega), layerZ_eq w k _ h1 h2], h⟩
  · simp [inkstoneLayer, layerOfName]

example : (0 : ℕ) ≤ ([100, 50] : List ℝ).length + 1 ∧ ∀ x ∈ ([100, 50] : List ℝ), (1 : ℝ) / 10 ^ 10 ≤ x := by
  refine ⟨by norm_num, ?_⟩
  intro x hx
  simp only [List.mem_cons, List.not_mem_nil, or_false] at hx
  rcases hx with rfl | rfl <;> norm_num

/-- **C94 fails** for the incidence medium and for integrated fields: with S4 `get_fields` for layer 0 raises an exception; `get_fields_unit_cell` for layer 0 at the default depth evaluates the fields in layer 1 (or,
without layers, in the transmission medium) and not in the incidence medium; `get_fields_z_integral` integrates the fields of the layer above the one asked for, and fails for layer 0. -/
theorem C94_depth_fails (w : List ℝ) (hw : ∀ x ∈ w, 1 / 10 ^ 10 ≤ x) :
    (∀ d, fieldsZ w 0 d = none) ∧
    (∃ z, unitCellZ w 0 (1 / 10 ^ 10) = some z ∧ ¬ InLayer w 0 z ∧ InLayer w 1 z) ∧
    (∀ k, zIntegralLayer (k + 1) = some k) ∧ zIntegralLayer 0 = none := by
  refine ⟨by simp [fieldsZ], ⟨1 / 10 ^ 10, by simp [unitCellZ], ?_, ?_⟩, by simp [zIntegralLayer, layerOfName], by simp [zIntegralLayer, layerOfName]⟩
  · simp only [InLayer, if_true, not_lt]; positivity
  · simp only [InLayer]
    rw [if_neg (by norm_num)]
    refine ⟨by omega, by simp, fun h => ?_⟩
    rcases w with _ | ⟨x, w⟩
    · simp at h
    · have := hw x (by simp)
      simpa using this

end Rayflare
