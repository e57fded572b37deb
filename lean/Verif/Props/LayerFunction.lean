import Verif.Model.LayerFunction
import Verif.Props.RcwaProfiles

/-!
# Property C117: absorption function of a `tmm_structure` or `rcwa_structure`
-/

namespace Rayflare

open Rayflare.Np Rayflare.Model

/-- What the function should be: at every multiple of the spacing `d` (m) inside the stack (total width `W` in nm) the absorption per m at that depth. -/
noncomputable def Spec.layerFunction (A : ℝ → ℝ) (W d : ℝ) : List (ℝ × ℝ) :=
  (List.range ⌈W / (d * 10 ^ 9)⌉₊).map fun i : ℕ => ((i : ℝ) * d, 10 ^ 9 * A (i * (d * 10 ^ 9)))

theorem positions_eq (s : PlanarStack) (d : ℝ) : s.positions d = (List.range ⌈s.width * 10 ^ 9 / (d * 10 ^ 9)⌉₊).map fun i : ℕ => (i : ℝ) * d := by
  unfold PlanarStack.positions arange
  rw [List.map_map, mul_div_mul_right _ _ (by norm_num : (10 ^ 6 : ℝ) ≠ 0), mul_div_mul_right _ _ (by norm_num : (10 ^ 9 : ℝ) ≠ 0)]
  apply List.map_congr_left
  intro i _
  simp only [Function.comp]
  rw [← mul_assoc, mul_div_assoc, div_self (by norm_num), mul_one]

theorem profile_default (s : PlanarStack) (hw : ∀ w ∈ s.widths, 0 ≤ w) (A : ℝ → ℝ) (d : ℝ) (hd : 0 < d) :
    s.profile A d none = some ((List.range ⌈s.widths.sum / (d * 10 ^ 9)⌉₊).map fun i : ℕ => A (i * (d * 10 ^ 9))) := by
  unfold PlanarStack.profile
  rw [C109_default _ hw _ (by positivity), Option.map_some, List.map_map]
  rfl

theorem zip_range {α β : Type*} (n : ℕ) (f : ℕ → α) (g : ℕ → β) : ((List.range n).map f).zip ((List.range n).map g) = (List.range n).map fun i => (f i, g i) := by
  rw [List.zip_map, List.zip_eq_zipWith, List.zipWith_self]
  simp

/-- **C117 (partial).** With all layers (the default) and no `set_widths`, the function has the right value at every multiple of the spacing in the stack. Missing: chosen layers (`C117_order_fails`, `C117_subset_fails`) and changed
widths (`C117_set_widths_fails`). -/
theorem C117_all_layers_partial (widths : List ℝ) (hw : ∀ w ∈ widths, 0 ≤ w) (A : ℝ → ℝ) (d : ℝ) (hd : 0 < d) :
    ((PlanarStack.new widths).profile A d none).bind ((PlanarStack.new widths).absorptionFn d) = some (Spec.layerFunction A widths.sum d) := by
  have hW : (PlanarStack.new widths).width * 10 ^ 9 = widths.sum := by
    simp only [PlanarStack.new]; rw [div_mul_cancel₀]; norm_num
  rw [profile_default (PlanarStack.new widths) hw A d hd, Option.bind_some]
  unfold PlanarStack.absorptionFn
  rw [positions_eq, hW, if_pos (by simp [PlanarStack.new]), List.map_map]
  unfold Spec.layerFunction
  rw [← zip_range]
  rfl

example : ∀ w ∈ ([100, 300] : List ℝ), 0 ≤ w := by simp

/-- **C117 fails** after `set_widths`: the result for the new widths is placed on the positions of the old ones. Unless both have the same number of samples, an exception is raised. -/
theorem C117_set_widths_fails (w0 w1 : List ℝ) (hw : ∀ w ∈ w1, 0 ≤ w) (A : ℝ → ℝ) (d : ℝ) (hd : 0 < d) :
    let s := (PlanarStack.new w0).setWidths w1
    (⌈w0.sum / (d * 10 ^ 9)⌉₊ ≠ ⌈w1.sum / (d * 10 ^ 9)⌉₊ ↔ (s.profile A d none).bind (s.absorptionFn d) = none) := by
  intro s
  have hW : s.width * 10 ^ 9 = w0.sum := by
    simp only [s, PlanarStack.setWidths, PlanarStack.new]; rw [div_mul_cancel₀]; norm_num
  rw [profile_default s hw A d hd, Option.bind_some]
  unfold PlanarStack.absorptionFn
  rw [positions_eq, hW]
  simp only [List.length_map, List.length_range, s, PlanarStack.setWidths]
  by_cases h : ⌈w0.sum / (d * 10 ^ 9)⌉₊ = ⌈w1.sum / (d * 10 ^ 9)⌉₊
  · simp [h]
  · simp [h]

/-- Doubling the width of a layer of 2 nm sampled every nm. -/
example : (((PlanarStack.new [2]).setWidths [4]).profile id (1 / 10 ^ 9) none).bind (((PlanarStack.new [2]).setWidths [4]).absorptionFn (1 / 10 ^ 9)) = none := by
  refine (C117_set_widths_fails [2] [4] (by simp) id (1 / 10 ^ 9) (by positivity)).mp ?_
  norm_num

theorem samples_two : Spec.samples [1, 1] 1 1 = [0] ∧ Spec.samples [1, 1] 1 2 = [1] := by
  have hc : ⌈(1 + 1 : ℝ) / 1⌉₊ = 2 := by norm_num
  constructor <;>
  · simp only [Spec.samples, Spec.top, Spec.bottom]
    simp only [List.sum_cons, List.sum_nil, add_zero, hc]
    simp only [List.range_succ, List.range_zero, List.nil_append, List.cons_append, List.map_cons, List.map_nil, List.filter_cons, List.filter_nil]
    norm_num

/-- **C117 fails** if the layers are requested in another order: two layers of 1 nm, spacing 1 nm, `layers=[2, 1]`. No exception is raised and the absorption of the two layers is exchanged. -/
theorem C117_order_fails (A : ℝ → ℝ) :
    ((PlanarStack.new [1, 1]).profile A (1 / 10 ^ 9) (some [2, 1])).bind ((PlanarStack.new [1, 1]).absorptionFn (1 / 10 ^ 9)) =
      some [(0, 10 ^ 9 * A 1), (1 / 10 ^ 9, 10 ^ 9 * A 0)] := by
  have hp : (PlanarStack.new [1, 1]).profile A (1 / 10 ^ 9) (some [2, 1]) = some [A 1, A 0] := by
    unfold PlanarStack.profile
    rw [show (1 / 10 ^ 9 : ℝ) * 10 ^ 9 = 1 by norm_num, show (PlanarStack.new [1, 1]).widths = [1, 1] from rfl, C109_positions [1, 1] 1 [2, 1] (by simp)]
    simp [samples_two.1, samples_two.2]
  have hq : (PlanarStack.new [1, 1]).positions (1 / 10 ^ 9) = [0, 1 / 10 ^ 9] := by
    rw [positions_eq]
    have : ⌈(PlanarStack.new [1, 1]).width * 10 ^ 9 / (1 / 10 ^ 9 * 10 ^ 9)⌉₊ = 2 := by norm_num [PlanarStack.new]
    rw [this]
    simp [List.range_succ]
  rw [hp, Option.bind_some]
  unfold PlanarStack.absorptionFn
  rw [hq]
  rfl

/-- **C117 fails** if only some layers are requested: two layers of 1 nm, `layers=[1]`: an exception is raised, although the function is documented to cover all layers. -/
theorem C117_subset_fails (A : ℝ → ℝ) :
    ((PlanarStack.new [1, 1]).profile A (1 / 10 ^ 9) (some [1])).bind ((PlanarStack.new [1, 1]).absorptionFn (1 / 10 ^ 9)) = none := by
  have hp : (PlanarStack.new [1, 1]).profile A (1 / 10 ^ 9) (some [1]) = some [A 0] := by
    unfold PlanarStack.profile
    rw [show (1 / 10 ^ 9 : ℝ) * 10 ^ 9 = 1 by norm_num, show (PlanarStack.new [1, 1]).widths = [1, 1] from rfl, C109_positions [1, 1] 1 [1] (by simp)]
    simp [samples_two.1]
  have hq : (PlanarStack.new [1, 1]).positions (1 / 10 ^ 9) = [0, 1 / 10 ^ 9] := by
    rw [positions_eq]
    have : ⌈(PlanarStack.new [1, 1]).width * 10 ^ 9 / (1 / 10 ^ 9 * 10 ^ 9)⌉₊ = 2 := by norm_num [PlanarStack.new]
    rw [this]
    simp [List.range_succ]
  rw [hp, Option.bind_some]
  unfold PlanarStack.absorptionFn
  rw [hq]
  rfl

end Rayflare
