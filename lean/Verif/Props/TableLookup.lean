import Verif.Model.TableLookup
import Verif.Spec.WavelengthOrder
import Verif.Lemmas.Intersect
import Mathlib.Analysis.Real.Pi.Bounds
import Mathlib.Data.List.GetD
import Mathlib.Tactic.Linarith
import Mathlib.Tactic.FieldSimp

/-!
# Property C112: the table entry used for a ray
-/

namespace Rayflare

open Rayflare.Np Rayflare.Model Rayflare.Spec Rayflare.Lemmas

theorem nearest_first (coords : List ℝ) (x : ℝ) (h : coords ≠ []) :
    ∃ c, coords[argmin (coords.map fun c => |c - x|)]? = some c ∧ ∀ c' ∈ coords, |c - x| ≤ |c' - x| := by
  have hne : (coords.map fun c => |c - x|) ≠ [] := by simpa using h
  obtain ⟨hlt, hmin⟩ := argmin_spec hne
  set i := argmin (coords.map fun c => |c - x|) with hi
  have hlt' : i < coords.length := by simpa using hlt
  refine ⟨coords[i], List.getElem?_eq_getElem hlt', ?_⟩
  intro c' hc'
  have := hmin (|c' - x|) (List.mem_map.mpr ⟨c', hc', rfl⟩)
  simpa using this

theorem nearestIdx_spec (coords : List ℝ) (x : ℝ) (h : coords ≠ []) (hm : StrictlyOrdered coords) :
    ∃ i c, nearestIdx coords x = some i ∧ coords[i]? = some c ∧ ∀ c' ∈ coords, |c - x| ≤ |c' - x| := by
  unfold nearestIdx
  rw [if_neg h]
  by_cases hp : coords.Pairwise (· < ·)
  · rw [if_pos hp]
    obtain ⟨c, hc, hmin⟩ := nearest_first coords.reverse x (by simpa using h)
    refine ⟨_, c, rfl, ?_, fun c' hc' => hmin c' (by simpa using hc')⟩
    have hl := (List.getElem?_eq_some_iff.mp hc).1
    rw [List.getElem?_reverse (by simpa using hl)] at hc
    exact hc
  · rw [if_neg hp, if_pos (hm.resolve_left hp)]
    obtain ⟨c, hc, hmin⟩ := nearest_first coords x h
    exact ⟨_, c, rfl, hc, hmin⟩

theorem tableAngles_sorted (n : ℕ) : StrictlyOrdered (tableAngles n) := by
  left
  unfold tableAngles linspace
  rw [List.pairwise_map]
  have hpi := Real.pi_gt_three
  refine List.Pairwise.imp_of_mem ?_ (List.pairwise_lt_range (n := n))
  intro a b ha hb hab
  have hb' := List.mem_range.mp hb
  have hn1 : (0 : ℝ) < ((n - 1 : ℕ) : ℝ) := by exact_mod_cast (by omega : 0 < n - 1)
  have : (0 : ℝ) < (Real.pi / 2 - 1 / 1000 - 0) / ((n - 1 : ℕ) : ℝ) := by apply div_pos _ hn1; linarith
  have hab' : (a : ℝ) < b := by exact_mod_cast hab
  have := mul_lt_mul_of_pos_right hab' this
  linarith

theorem tableAngles_mem (n : ℕ) (hn : 2 ≤ n) (k : ℕ) (hk : k ≤ n - 1) : (k : ℝ) * ((Real.pi / 2 - 1 / 1000) / ((n - 1 : ℕ) : ℝ)) ∈ tableAngles n := by
  unfold tableAngles linspace
  refine List.mem_map.mpr ⟨k, List.mem_range.mpr (by omega), ?_⟩
  simp

/-- **C112.** For every local angle of incidence the entry used belongs to a tabulated angle that differs from it by at most half the spacing of the table, or, closer than that to grazing incidence, by at most 1e-3; side and polarisation are those of
the ray.  (The wavelengths of the table are given in increasing or decreasing order; for any other order see `C171_tables_fails`.) -/
theorem C112_angle {E : Type*} (tab : LookTab E) (n : ℕ) (hn : 2 ≤ n) (ha : tab.angles = tableAngles n) (hw : tab.wls ≠ []) (hs' : StrictlyOrdered tab.wls) (side : ℤ) (pol : Bool) (wl θ : ℝ) (hθ : |θ| ≤ Real.pi / 2) :
    ∃ i k a, readTable tab side pol wl θ = some (tab.entry side pol i k) ∧ tab.angles[k]? = some a ∧
      |a - abs θ| ≤ max ((Real.pi / 2 - 1 / 1000) / ((n - 1 : ℕ) : ℝ) / 2) (1 / 1000) := by
  have hn1 : (0 : ℝ) < ((n - 1 : ℕ) : ℝ) := by exact_mod_cast (by omega : 0 < n - 1)
  have hpi := Real.pi_gt_three
  set s := (Real.pi / 2 - 1 / 1000) / ((n - 1 : ℕ) : ℝ) with hs
  have hspos : 0 < s := by rw [hs]; apply div_pos _ hn1; linarith
  have hne : tab.angles ≠ [] := by
    rw [ha]
    exact List.ne_nil_of_mem (tableAngles_mem n hn 0 (by omega))
  obtain ⟨i, -, hi, -, -⟩ := nearestIdx_spec tab.wls (wl * 10 ^ 9) hw hs'
  obtain ⟨k, a, hk, hka, hmin⟩ := nearestIdx_spec tab.angles |θ| hne (ha ▸ tableAngles_sorted n)
  refine ⟨i, k, a, ?_, hka, ?_⟩
  · unfold readTable
    rw [hi, hk]
    rfl
  · have hend : s * ((n - 1 : ℕ) : ℝ) = Real.pi / 2 - 1 / 1000 := by rw [hs]; field_simp
    by_cases hbig : Real.pi / 2 - 1 / 1000 ≤ |θ|
    · have hm := tableAngles_mem n hn (n - 1) (le_refl _)
      have h1 := hmin _ (by rw [ha]; exact hm)
      refine le_trans h1 (le_trans ?_ (le_max_right _ _))
      rw [← hs, mul_comm, hend, abs_le]
      constructor <;> linarith
    · push Not at hbig
      -- the nearest multiple of the spacing
      set m := ⌊|θ| / s⌋₊ with hm
      have h0 : 0 ≤ |θ| / s := by positivity
      have hfl : (m : ℝ) ≤ |θ| / s := Nat.floor_le h0
      have hfl2 : |θ| / s < m + 1 := Nat.lt_floor_add_one _
      have hle : (m : ℝ) * s ≤ |θ| := by rwa [le_div_iff₀ hspos] at hfl
      have hlt : |θ| < (m + 1) * s := by rwa [div_lt_iff₀ hspos] at hfl2
      have hmn : m + 1 ≤ n - 1 := by
        have : (m : ℝ) * s < s * ((n - 1 : ℕ) : ℝ) := by rw [hend]; linarith
        have : (m : ℝ) < ((n - 1 : ℕ) : ℝ) := by
          rw [mul_comm s] at this
          exact lt_of_mul_lt_mul_right this hspos.le
        exact_mod_cast this
      have hm1 := hmin _ (by rw [ha]; exact tableAngles_mem n hn m (by omega))
      have hm2 := hmin _ (by rw [ha]; exact tableAngles_mem n hn (m + 1) hmn)
      rw [← hs] at hm1 hm2
      rw [abs_of_nonpos (by linarith : (m : ℝ) * s - |θ| ≤ 0)] at hm1
      push_cast at hm2
      rw [abs_of_nonneg (by linarith : 0 ≤ ((m : ℝ) + 1) * s - |θ|)] at hm2
      refine le_trans ?_ (le_max_left _ _)
      linarith

/-- **C112 (partial).** If the wavelength of the ray is one of those the table was made for, and these were given in increasing or decreasing order, the entry of this wavelength is used. Missing: other wavelengths, `C112_wavelength_fails`; other orders,
`C171_tables_fails`. -/
theorem C112_wavelength_partial {E : Type*} (tab : LookTab E) (side : ℤ) (pol : Bool) (wl θ : ℝ) (hwl : wl * 10 ^ 9 ∈ tab.wls) (hne : tab.angles ≠ []) (hs : StrictlyOrdered tab.wls) (hsa : StrictlyOrdered tab.angles) :
    ∃ i k, readTable tab side pol wl θ = some (tab.entry side pol i k) ∧ tab.wls[i]? = some (wl * 10 ^ 9) := by
  obtain ⟨i, c, hi, hc, hmin⟩ := nearestIdx_spec tab.wls (wl * 10 ^ 9) (List.ne_nil_of_mem hwl) hs
  obtain ⟨k, -, hk, -, -⟩ := nearestIdx_spec tab.angles |θ| hne hsa
  refine ⟨i, k, ?_, ?_⟩
  · unfold readTable
    rw [hi, hk]
    rfl
  · have := hmin _ hwl
    rw [sub_self, abs_zero] at this
    rw [hc, sub_eq_zero.mp (abs_nonpos_iff.mp this)]

/-- A table for 400 nm and 900 nm with 10 angles. -/
example : ∃ i k a, readTable (⟨[400, 900], tableAngles 10, fun _ _ i k => (i, k)⟩ : LookTab (ℕ × ℕ)) 1 true (900 / 10 ^ 9) (-1) = some (i, k) ∧ (tableAngles 10)[k]? = some a ∧
    |a - 1| ≤ max ((Real.pi / 2 - 1 / 1000) / ((10 - 1 : ℕ) : ℝ) / 2) (1 / 1000) := by
  have := C112_angle (⟨[400, 900], tableAngles 10, fun _ _ i k => (i, k)⟩ : LookTab (ℕ × ℕ)) 10 (by norm_num) rfl (by simp) (Or.inl (by norm_num)) 1 true (900 / 10 ^ 9) (-1)
    (by have := Real.pi_gt_three; norm_num; linarith)
  simpa using this

/-- **C112 fails** for wavelengths that are not in the table: no exception is raised, and the entry of whatever tabulated wavelength is nearest is used; with a table made at 400 nm this is the entry for 400 nm at every wavelength. -/
theorem C112_wavelength_fails (wl θ : ℝ) (n : ℕ) (hn : 0 < n) (side : ℤ) (pol : Bool) :
    readTable (⟨[400], tableAngles n, fun _ _ i _ => ([400] : List ℝ)[i]?⟩ : LookTab (Option ℝ)) side pol wl θ = some (some 400) := by
  have hne : tableAngles n ≠ [] := by
    unfold tableAngles linspace
    intro h
    have := congrArg List.length h
    simp at this
    omega
  obtain ⟨i, c, hi, hc, -⟩ := nearestIdx_spec [400] (wl * 10 ^ 9) (by simp) (Or.inl (by simp))
  obtain ⟨k, -, hk, -, -⟩ := nearestIdx_spec (tableAngles n) |θ| hne (tableAngles_sorted n)
  have hi0 : i = 0 := by
    have := (List.getElem?_eq_some_iff.mp hc).1
    simpa using this
  unfold readTable
  simp only [hi, hk, hi0]
  rfl

end Rayflare
