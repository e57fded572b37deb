import Verif.Model.RTBuild
import Verif.Props.Surface
import Verif.Props.RTStart
import Verif.Lemmas.Np

/-!
# Property C103 (and the coverage height used by C102): placing the surfaces of a ray-tracing structure
-/

namespace Rayflare

open Rayflare.Np Rayflare.Model Real

/-! ## Helper lemmas -/

theorem copyAll_eq (H : List Surface) (ts : List ℕ) (h : ∀ a ∈ ts, a < H.length) :
    ∃ cs : List Surface, copyAll H ts = some (H ++ cs, List.range' H.length ts.length) ∧ cs.length = ts.length ∧
      ∀ i (_ : i < ts.length), cs[i]? = H[ts.getD i 0]? := by
  induction ts generalizing H with
  | nil => exact ⟨[], by simp [copyAll], rfl, by simp⟩
  | cons a ts ih =>
    have ha : a < H.length := h a (by simp)
    obtain ⟨cs, e, hl, hc⟩ := ih (H ++ [H[a]]) (fun b hb => by
      have := h b (by simp [hb])
      simp; omega)
    refine ⟨H[a] :: cs, ?_, by simp [hl], ?_⟩
    · simp only [copyAll, deepcopySurf, List.getElem?_eq_getElem ha, Option.map_some, Option.bind_some]
      rw [e]
      simp [List.range'_succ]
    · intro i hi
      cases i with
      | zero => simp [List.getElem?_eq_getElem ha]
      | succ i =>
        have hi' : i < ts.length := by simpa using hi
        have hm : ts.getD i 0 < H.length := by
          apply h
          rw [List.getD_eq_getElem _ _ hi']
          simp
        simp only [List.getElem?_cons_succ, List.getD_cons_succ]
        rw [hc i hi', List.getElem?_append_left hm]

theorem placeAll_eq (H : List Surface) (cum : List ℝ) (i k n : ℕ) (hk : k + n ≤ H.length) (hi : i + n ≤ cum.length) :
    ∃ H', placeAll H cum i (List.range' k n) = some H' ∧ H'.length = H.length ∧
      (∀ a, (a < k ∨ k + n ≤ a) → H'[a]? = H[a]?) ∧
      ∀ j, j < n → H'[k + j]? = H[k + j]?.map fun s => s.shift (cum.getD (i + j) 0) := by
  induction n generalizing H i k with
  | zero => exact ⟨H, by simp [placeAll], rfl, by simp, by simp⟩
  | succ n ih =>
    have hk' : k < H.length := by omega
    have hi' : i < cum.length := by omega
    obtain ⟨H', e, hl, ho, hs⟩ := ih (H.set k (H[k].shift cum[i])) (i + 1) (k + 1) (by simp; omega) (by omega)
    refine ⟨H', ?_, by simpa using hl, ?_, ?_⟩
    · rw [List.range'_succ]
      simp only [placeAll, List.getElem?_eq_getElem hi', Option.bind_some, shiftAt, List.getElem?_eq_getElem hk', Option.map_some]
      exact e
    · intro a ha
      rw [ho a (by omega), List.getElem?_set_ne (by omega)]
    · intro j hj
      cases j with
      | zero =>
        rw [Nat.add_zero, ho k (by omega)]
        simp [List.getElem?_eq_getElem hk', List.getElem?_set_self hk', List.getElem?_eq_getElem hi']
      | succ j =>
        have := hs j (by omega)
        rw [show k + (j + 1) = k + 1 + j by omega, this, List.getElem?_set_ne (by omega), show i + 1 + j = i + (j + 1) by omega]

theorem cumWidth_getD (widths : List ℝ) (i : ℕ) (hi : i ≤ widths.length) : (cumWidth widths).getD i 0 = (widths.take i).sum * 1e6 := by
  unfold cumWidth cumsum
  have : i < ((List.range (0 :: widths).length).map fun j => ((0 :: widths).take (j + 1)).sum * (1e6 : ℝ)).length := by simp; omega
  rw [List.map_map]
  simp [List.getD_eq_getElem?_getD, show i < widths.length + 1 by omega]

/-! ## C103 -/

/-- **C103.** Building a ray-tracing structure leaves every surface object the user passed in (and every other one) as it was, makes one new, separate object per
interface – also if the same texture is used several times – and places the copy for interface `i` at the total thickness (in µm) of the `i` layers above it. -/
theorem C103_build (H : List Surface) (textures : List ℕ) (widths : List ℝ) (hv : ∀ a ∈ textures, a < H.length)
    (hn : textures.length ≤ widths.length + 1) :
    ∃ H' surfaces, buildRT H textures widths = some (H', surfaces) ∧ surfaces.length = textures.length ∧
      (∀ a < H.length, H'[a]? = H[a]?) ∧ (∀ a ∈ surfaces, H.length ≤ a) ∧ surfaces.Nodup ∧
      ∀ i < textures.length, H'[surfaces.getD i 0]? = H[textures.getD i 0]?.map fun s => s.shift ((widths.take i).sum * 1e6) := by
  obtain ⟨cs, e, hl, hc⟩ := copyAll_eq H textures hv
  obtain ⟨H', e', -, ho, hs⟩ := placeAll_eq (H ++ cs) (cumWidth widths) 0 H.length textures.length (by simp [hl]) (by simp [cumWidth, cumsum]; omega)
  refine ⟨H', List.range' H.length textures.length, ?_, by simp, ?_, ?_, List.nodup_range', ?_⟩
  · simp only [buildRT, e, Option.bind_some, e', Option.map_some]
  · intro a ha
    rw [ho a (Or.inl ha), List.getElem?_append_left ha]
  · intro a ha
    simp only [List.mem_range'] at ha
    omega
  · intro i hi
    have h1 : (List.range' H.length textures.length).getD i 0 = H.length + i := by
      simp [List.getD_eq_getElem?_getD, hi]
    rw [h1, hs i hi, List.getElem?_append_right (by omega), Nat.add_sub_cancel_left, hc i hi, Nat.zero_add,
      cumWidth_getD _ _ (by omega)]

/-- **C103 (partial).** For surfaces with real (floating point) coordinates the copy for interface `i` is the texture lowered by the thickness above it: every point,
its lowest and highest point and its coverage height; facet normals stay the same. So in a stack of flat surfaces layer `m` lies exactly between
surfaces `m-1` and `m`.  Missing: textures with integer coordinates, which are not moved by fractions of a micrometre (`C61_shift_fails`). -/
theorem C103_position_partial (H : List Surface) (textures : List ℕ) (widths : List ℝ) (hv : ∀ a ∈ textures, a < H.length)
    (hn : textures.length ≤ widths.length + 1) (i : ℕ) (hi : i < textures.length) (s : Surface)
    (hs : H[textures.getD i 0]? = some s) (hc : Consistent s) (hf : s.isInt = false) :
    ∃ H' surfaces s', buildRT H textures widths = some (H', surfaces) ∧ H'[surfaces.getD i 0]? = some s' ∧
      s'.points = s.points.map (lower ((widths.take i).sum * 1e6)) ∧ s'.zmin = s.zmin - (widths.take i).sum * 1e6 ∧
      s'.zmax = s.zmax - (widths.take i).sum * 1e6 ∧ s'.zcov = s.zcov - (widths.take i).sum * 1e6 ∧ s'.N = s.N ∧ Consistent s' := by
  obtain ⟨H', surfaces, e, -, -, -, -, h⟩ := C103_build H textures widths hv hn
  obtain ⟨h1, -, h3, h4, h5, h6, -, -, -, h10⟩ := C61_shift_partial s ((widths.take i).sum * 1e6) hc hf
  exact ⟨H', surfaces, _, e, by rw [h i hi, hs]; rfl, h1, h4, h5, h6, h3, h10⟩

/-- **C103.** Too many textures for the layers (more than one per boundary) are refused. -/
theorem C103_too_many (H : List Surface) (textures : List ℕ) (widths : List ℝ) (hn : widths.length + 1 < textures.length) :
    buildRT H textures widths = none := by
  have key : ∀ (as : List ℕ) (H : List Surface) (cum : List ℝ) (i : ℕ), cum.length < i + as.length → 0 < as.length → placeAll H cum i as = none := by
    intro as
    induction as with
    | nil => intro H cum i _ h; simp at h
    | cons a as ih =>
      intro H cum i h _
      simp only [placeAll]
      rcases hc : cum[i]? with _ | dz
      · rfl
      · simp only [Option.bind_some]
        rcases shiftAt H a dz with _ | H'
        · rfl
        · simp only [Option.bind_some]
          have hlt : i < cum.length := by
            by_contra hge
            rw [List.getElem?_eq_none (by omega)] at hc
            simp at hc
          simp only [List.length_cons] at h
          exact ih H' cum (i + 1) (by omega) (by omega)
  unfold buildRT
  rcases hc : copyAll H textures with _ | r
  · rfl
  · have hl : ∀ (ts : List ℕ) (H : List Surface) (r : List Surface × List ℕ), copyAll H ts = some r → r.2.length = ts.length := by
      intro ts
      induction ts with
      | nil => intro H r h; simp only [copyAll, Option.some.injEq] at h; subst h; rfl
      | cons a ts ih =>
        intro H r h
        simp only [copyAll, Option.bind_eq_some_iff, Option.map_eq_some_iff] at h
        obtain ⟨q, -, q', hq', rfl⟩ := h
        simp [ih _ _ hq']
    have := hl _ _ _ hc
    simp only [Option.bind_some]
    rw [key r.2 r.1 (cumWidth widths) 0 (by simp [cumWidth, cumsum, this]; omega) (by omega)]
    rfl

example : ∃ (H : List Surface) (textures : List ℕ) (widths : List ℝ), (∀ a ∈ textures, a < H.length) ∧
    textures.length = widths.length + 1 ∧ 1 < widths.length ∧ textures = [0, 0, 0] ∧ ∃ s, H[textures.getD 1 0]? = some s ∧ Consistent s ∧ s.isInt = false := by
  obtain ⟨s, -, h1, h2, -⟩ := planar_surface_exists false
  exact ⟨[s], [0, 0, 0], [1e-6, 100e-6], by simp, by simp, by simp, rfl, s, by simp, h1, h2⟩

/-- **C103 fails** for textures with integer coordinates: the second of two surfaces made from `planar_surface(size=1)` around a layer 0.5 um thick stays at the height of the first. -/
theorem C103_integer_coordinates_fails : ∃ s, mkSurface true false (planarPoints 1) [(0, 1, 2), (0, 1, 3)] 0 none = some s ∧
    ∃ H' surfaces s', buildRT [s] [0, 0] [0.5e-6] = some (H', surfaces) ∧ H'[surfaces.getD 1 0]? = some s' ∧ s'.points = s.points ∧ s'.zcov = s.zcov - 1 / 2 := by
  obtain ⟨s, hs, hp, hz⟩ := C61_shift_fails
  obtain ⟨H', surfaces, e, -, -, -, -, h⟩ := C103_build [s] [0, 0] [0.5e-6] (by simp) (by simp)
  refine ⟨s, hs, H', surfaces, s.shift (1 / 2), e, ?_, hp, hz⟩
  rw [h 1 (by simp)]
  norm_num

/-! ## Coverage height -/

/-- **C102.** The hypothesis on the coverage height holds for every surface made without giving it: it is the height of one of its points. -/
theorem C102_coverage_height (isInt random : Bool) (pts : List V3) (ss : List (ℕ × ℕ × ℕ)) (hi : ℕ) (s : Surface) (h : mkSurface isInt random pts ss hi none = some s) :
    s.zmin ≤ s.zcov ∧ s.zcov ≤ s.zmax := by
  unfold mkSurface at h
  simp only [Option.map_eq_some_iff] at h
  obtain ⟨zc, hz, rfl⟩ := h
  unfold zcovGuess at hz
  simp only [Option.map_eq_some_iff] at hz
  obtain ⟨p, hp, rfl⟩ := hz
  have hm := List.mem_of_find?_eq_some hp
  have hne : pts ≠ [] := List.ne_nil_of_mem hm
  exact ⟨(zmin_spec pts hne).2 p hm, (zmax_spec pts hne).2 p hm⟩

example : ∃ s, mkSurface false false (planarPoints 1) [(0, 1, 2), (0, 1, 3)] 0 none = some s := by
  obtain ⟨s, h, -⟩ := planar_surface_exists false
  exact ⟨s, h⟩

end Rayflare
