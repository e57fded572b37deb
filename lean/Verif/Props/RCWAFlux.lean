import Verif.Model.RCWA
import Mathlib.Algebra.Order.BigOperators.Group.List
import Mathlib.Tactic.Linarith
import Mathlib.Tactic.FieldSimp
import Mathlib.Tactic.Ring

/-!
# Properties C57, C58, C87: power fluxes, polarisation and rear stacks in the RCWA code
-/

namespace Rayflare

open Rayflare.Np Rayflare.Model Real

/-! ## C57 -/

/-- Net downward power at the top of layer `l`. -/
noncomputable def netFlux (flux : ℕ → ℝ × ℝ) (l : ℕ) : ℝ := (flux l).1 + (flux l).2

theorem absorption_sum (flux : ℕ → ℝ × ℝ) (P : ℝ) (k : ℕ) (h : ∀ l, 2 ≤ l → l < k + 2 → netFlux flux (l + 1) ≤ netFlux flux l) :
    (rcwaAbsorption flux (k + 2) P).sum = (netFlux flux 2 - netFlux flux (k + 2)) / P := by
  unfold rcwaAbsorption
  simp only [Nat.add_sub_cancel]
  induction k with
  | zero => simp
  | succ k ih =>
    rw [List.range_succ]
    simp only [List.map_append, List.map_cons, List.map_nil, List.sum_append, List.sum_cons, List.sum_nil, add_zero]
    rw [ih (fun l h1 h2 => h l h1 (by omega))]
    have h2 := h (k + 2) (by omega) (by omega)
    simp only [netFlux] at h2 ⊢
    have : (if (flux (k + 2)).1 + (flux (k + 2)).2 - ((flux (k + 2 + 1)).1 + (flux (k + 2 + 1)).2) > 0 then
        (flux (k + 2)).1 + (flux (k + 2)).2 - ((flux (k + 2 + 1)).1 + (flux (k + 2 + 1)).2) else 0) =
        (flux (k + 2)).1 + (flux (k + 2)).2 - ((flux (k + 2 + 1)).1 + (flux (k + 2 + 1)).2) := by
      split_ifs with h3
      · rfl
      · linarith
    rw [this, show k + 1 + 2 = k + 2 + 1 by omega]
    ring

/-- **C57.** `k` finite layers (numbered 2 to `k + 1`; 1 is the incidence, `k + 2` the transmission medium).  If the net downward power is the same on both sides of the front surface, does not increase
with depth, and nothing comes back from the transmission medium, then the absorption of every layer is the (non-negative) drop of net power across it and R + T + A = 1. -/
theorem C57_energy (flux : ℕ → ℝ × ℝ) (k : ℕ) (hin : 0 < (flux 1).1) (hcont : netFlux flux 1 = netFlux flux 2)
    (hdec : ∀ l, 2 ≤ l → l < k + 2 → netFlux flux (l + 1) ≤ netFlux flux l) (hout : (flux (k + 2)).2 = 0) :
    let rt := rcwaRT flux (k + 2)
    let A := rcwaAbsorption flux (k + 2) rt.2.2
    A.length = k ∧ (∀ i < k, A[i]? = some ((netFlux flux (i + 2) - netFlux flux (i + 3)) / (flux 1).1)) ∧ (∀ a ∈ A, 0 ≤ a) ∧ rt.1 + rt.2.1 + A.sum = 1 := by
  intro rt A
  have hget : ∀ i < k, A[i]? = some ((netFlux flux (i + 2) - netFlux flux (i + 3)) / (flux 1).1) := by
    intro i hi
    have h2 := hdec (i + 2) (by omega) (by omega)
    show (rcwaAbsorption flux (k + 2) (flux 1).1)[i]? = _
    unfold rcwaAbsorption
    simp only [netFlux, show i + 2 + 1 = i + 3 from rfl] at h2 ⊢
    simp only [Nat.add_sub_cancel, List.getElem?_map, List.getElem?_range hi, Option.map_some, show i + 2 + 1 = i + 3 from rfl]
    congr 2
    split_ifs with h3
    · rfl
    · linarith
  have hlen : A.length = k := by
    show (rcwaAbsorption flux (k + 2) (flux 1).1).length = k
    unfold rcwaAbsorption; simp
  refine ⟨hlen, hget, ?_, ?_⟩
  · intro a ha
    obtain ⟨i, hi, rfl⟩ := List.mem_iff_getElem.mp ha
    have h1 := hget i (by omega)
    rw [List.getElem?_eq_getElem hi] at h1
    rw [Option.some.inj h1]
    have := hdec (i + 2) (by omega) (by omega)
    exact div_nonneg (by linarith) hin.le
  · show -(flux 1).2 / (flux 1).1 + (flux (k + 2)).1 / (flux 1).1 + (rcwaAbsorption flux (k + 2) (flux 1).1).sum = 1
    rw [absorption_sum flux _ k hdec, ← hcont]
    simp only [netFlux, hout]
    field_simp
    ring

/-- Two layers, one of them absorbing, 10 % reflected. -/
example : let flux : ℕ → ℝ × ℝ := fun l => if l = 1 then (2, -0.2) else if l = 2 then (2.5, -0.7) else if l = 3 then (1.5, -0.5) else (1, 0)
    0 < (flux 1).1 ∧ netFlux flux 1 = netFlux flux 2 ∧ (∀ l, 2 ≤ l → l < 2 + 2 → netFlux flux (l + 1) ≤ netFlux flux l) ∧ (flux (2 + 2)).2 = 0 := by
  refine ⟨by norm_num, by norm_num [netFlux], ?_, by norm_num⟩
  intro l h1 h2
  obtain rfl | rfl : l = 2 ∨ l = 3 := by omega
  · norm_num [netFlux]
  · norm_num [netFlux]

/-! ## C58 -/

/-- **C58.** The documented arguments: 's', 'p', 'u' become amplitude pairs of unit total power, pairs are passed through; a string of any other length than 0 and 2 is rejected. Missing: the empty string and
two-character strings, which are accepted (next theorem). -/
theorem C58_pol_partial :
    processPol (.str ['s']) = some (.amps 1 0) ∧ processPol (.str ['p']) = some (.amps 0 1) ∧
    (∃ a, processPol (.str ['u']) = some (.amps a a) ∧ a ^ 2 + a ^ 2 = 1 ∧ 0 < a) ∧
    (∀ s p, processPol (.pair s p) = some (.amps s p)) ∧
    (∀ t : List Char, t.length ≠ 0 → t.length ≠ 2 → (processPol (.str t) = none ↔ t ≠ ['s'] ∧ t ≠ ['p'] ∧ t ≠ ['u'])) := by
  have hinf : ∀ t : List Char, t.length ≠ 0 → t.length ≠ 2 → (t <:+: ['s', 'p'] ↔ t = ['s'] ∨ t = ['p']) := by
    intro t h0 h2
    constructor
    · intro h
      have hle := h.length_le
      simp only [List.length_cons, List.length_nil] at hle
      match t, h0, h2, hle with
      | [c], _, _, _ =>
        obtain ⟨a, b, hab⟩ := h
        have hmem : c ∈ ['s', 'p'] := by rw [← hab]; simp
        simp only [List.mem_cons, List.not_mem_nil, or_false] at hmem
        rcases hmem with rfl | rfl
        · left; rfl
        · right; rfl
      | [c, d], _, h, _ => exact absurd rfl h
      | (c :: d :: e :: l), _, _, hle => simp at hle
    · rintro (rfl | rfl)
      · exact ⟨[], ['p'], rfl⟩
      · exact ⟨['s'], [], rfl⟩
  refine ⟨?_, ?_, ⟨√2 / 2, ?_, ?_, by positivity⟩, ?_, ?_⟩
  · have h := (hinf ['s'] (by simp) (by simp)).mpr (Or.inl rfl)
    simp [processPol, PolArg.len, h]
  · have h := (hinf ['p'] (by simp) (by simp)).mpr (Or.inr rfl)
    simp [processPol, PolArg.len, h]
  · have h : ¬ ['u'] <:+: ['s', 'p'] := by rw [hinf ['u'] (by simp) (by simp)]; simp
    simp [processPol, PolArg.len, h]
  · have : √2 ^ 2 = 2 := Real.sq_sqrt (by norm_num)
    nlinarith
  · intro s p; simp [processPol, PolArg.len]
  · intro t h0 h2
    unfold processPol PolArg.len
    simp only [h2, if_false, hinf t h0 h2]
    by_cases hs : t = ['s']
    · simp [hs]
    · by_cases hp : t = ['p']
      · simp [hp]
      · by_cases hu : t = ['u'] <;> simp [hs, hp, hu]

/-- **C58 fails** for the empty string, which is accepted with zero amplitudes, and for every two-character string, which is returned unchanged. -/
theorem C58_pol_fails : processPol (.str []) = some (.amps 0 0) ∧ ∀ c d : Char, processPol (.str [c, d]) = some (.str [c, d]) := by
  constructor
  · have : ([] : List Char) <:+: ['s', 'p'] := List.nil_infix
    simp [processPol, PolArg.len, this]
  · intro c d; simp [processPol, PolArg.len]

/-! ## C87 -/

/-- **C87, what holds.** For front incidence every layer is drawn with its own shapes; for rear incidence if the stack reads the same in both directions. -/
theorem C87_geometry_partial {L : Type*} (st : List L) (front : Bool) (h : front = true ∨ st.reverse = st) : ∀ p ∈ rcwaLayers st front, p.1 = p.2 := by
  intro p hp
  have : (if front then st else st.reverse) = st := by
    rcases h with h | h
    · simp [h]
    · simp [h]
  unfold rcwaLayers at hp
  simp only [this] at hp
  obtain ⟨i, hi, rfl⟩ := List.mem_iff_getElem.mp hp
  simp

/-- **C87 fails.** For rear incidence on any stack that does not read the same in both directions, some layer is drawn with the shapes of another one. -/
theorem C87_geometry_fails {L : Type*} (st : List L) (h : st.reverse ≠ st) : ∃ p ∈ rcwaLayers st false, p.1 ≠ p.2 := by
  by_contra hcon
  apply h
  simp only [not_exists, not_and, not_not] at hcon
  apply List.ext_getElem (by simp)
  intro i h1 h2
  have := hcon (st.reverse[i], st[i]) (by
    unfold rcwaLayers
    simp only [Bool.false_eq_true, if_false]
    rw [List.mem_iff_getElem]
    exact ⟨i, by simpa using h2, by simp⟩)
  exact this

/-- **C87, absorption.** If the solver reports the absorption of the layers in the order in which it was given them (`A l` for layer `l`), RCWA stores it in the order of the layers of the structure, for front and for rear incidence. -/
theorem C87_absorption_order {L : Type*} (st : List L) (front : Bool) (A : L → ℝ) (sol : RcwaSol) (h : sol.A = (rcwaLayers st front).map fun p => A p.1) : rcwaAbs front sol = st.map A := by
  have e : ∀ l : List L, l.length = st.length → (List.zip l st).map (fun p => A p.1) = l.map A := by
    intro l hl
    rw [show (fun p : L × L => A p.1) = A ∘ Prod.fst from rfl, ← List.map_map, List.map_fst_zip (by omega)]
  unfold rcwaAbs
  rw [h]
  unfold rcwaLayers
  cases front
  · simp only [Bool.false_eq_true, if_false]
    rw [e _ (by simp), List.map_reverse, List.reverse_reverse]
  · simp only [if_true]
    rw [e _ rfl]

/-- Two layers absorbing 0.1 and 0.2 of light from the rear. -/
example : ∃ sol : RcwaSol, sol.A = (rcwaLayers [0, 1] false).map fun p => ([0.1, 0.2] : List ℝ).getD p.1 0 := ⟨⟨0, [0.2, 0.1], []⟩, by simp [rcwaLayers]⟩

/-- A grating layer on a planar layer. -/
example : ["grating", "planar"].reverse ≠ ["grating", "planar"] := by decide

end Rayflare
