import Verif.Spec.Scale
import Verif.Lemmas.Intersect
import Verif.Props.RTStart

/-!
# Property C174: the unit of length of a texture is arbitrary
-/

namespace Rayflare

open Rayflare.Np Rayflare.Model Rayflare.Spec Rayflare.Lemmas

/-! ## Helper lemmas -/

section
variable {k : ℝ} (hk : 0 < k)
include hk

omit hk in
theorem smul_sub_v3 (a b : V3) : k • a - k • b = k • (a - b) := by
  ext <;> simp only [V3.sub_x, V3.sub_y, V3.sub_z, V3.smul_x, V3.smul_y, V3.smul_z] <;> ring

omit hk in
theorem smul_add_v3 (a b : V3) : k • a + k • b = k • (a + b) := by
  ext <;> simp only [V3.add_x, V3.add_y, V3.add_z, V3.smul_x, V3.smul_y, V3.smul_z] <;> ring

omit hk in
theorem smul_smul_v3 (a : ℝ) (v : V3) : k • (a • v) = (k * a) • v := by
  ext <;> simp only [V3.smul_x, V3.smul_y, V3.smul_z] <;> ring

omit hk in
theorem scaled_crossP (τ : Tri) : (scaleTri k τ).crossP = (k ^ 2) • τ.crossP := by
  unfold Tri.crossP scaleTri
  simp only [smul_sub_v3]
  ext <;> simp only [V3.cross, V3.smul_x, V3.smul_y, V3.smul_z] <;> ring

theorem scaled_N (τ : Tri) : (scaleTri k τ).N = τ.N := by
  unfold Tri.N
  rw [scaled_crossP]
  have hn : V3.norm ((k ^ 2) • τ.crossP) = k ^ 2 * V3.norm τ.crossP := by
    unfold V3.norm
    rw [show V3.dot ((k ^ 2) • τ.crossP) ((k ^ 2) • τ.crossP) = (k ^ 2) ^ 2 * V3.dot τ.crossP τ.crossP by
      simp only [V3.dot, V3.smul_x, V3.smul_y, V3.smul_z]; ring, Real.sqrt_mul (by positivity), Real.sqrt_sq (by positivity)]
  rw [hn]
  have h2 : k ^ 2 ≠ 0 := by positivity
  by_cases h0 : V3.norm τ.crossP = 0
  · rw [h0]; ext <;> simp
  · ext <;> simp only [V3.smul_x, V3.smul_y, V3.smul_z] <;> field_simp

omit hk in
theorem scaled_det (τ : Tri) (d : V3) : (scaleTri k τ).det d = k ^ 2 * τ.det d := by
  unfold Tri.det
  rw [scaled_crossP]
  simp only [V3.dot, V3.smul_x, V3.smul_y, V3.smul_z]; ring

theorem scaled_tuv (τ : Tri) (r d : V3) : (scaleTri k τ).t (k • r) d = k * τ.t r d ∧ (scaleTri k τ).u (k • r) d = τ.u r d ∧ (scaleTri k τ).v (k • r) d = τ.v r d := by
  unfold Tri.t Tri.u Tri.v
  rw [scaled_det, scaled_crossP]
  have h2 : k ≠ 0 := hk.ne'
  by_cases h0 : τ.det d = 0
  · rw [h0]; simp
  · simp only [scaleTri, smul_sub_v3]
    refine ⟨?_, ?_, ?_⟩
    · simp only [V3.dot, V3.smul_x, V3.smul_y, V3.smul_z]; field_simp
    · simp only [V3.dot, V3.cross, V3.smul_x, V3.smul_y, V3.smul_z]; field_simp
    · simp only [V3.dot, V3.cross, V3.smul_x, V3.smul_y, V3.smul_z]; field_simp

theorem scaled_hit (τ : Tri) (r d : V3) : (scaleTri k τ).hit (k • r) d = τ.hit r d := by
  unfold Tri.hit
  obtain ⟨a, b, c⟩ := scaled_tuv hk τ r d
  rw [a, b, c, scaled_det]
  have h1 : (k ^ 2 * τ.det d ≠ 0) ↔ τ.det d ≠ 0 := by
    constructor
    · intro h h0; exact h (by rw [h0, mul_zero])
    · intro h; exact mul_ne_zero (by positivity) h
  have h2 : (0 < k * τ.t r d) ↔ 0 < τ.t r d := by
    constructor
    · intro h; exact (pos_iff_pos_of_mul_pos h).mp hk
    · intro h; positivity
  simp only [decide_eq_decide, h1, h2]

theorem scaled_argmin (l : List ℝ) : argmin (l.map (k * ·)) = argmin l := by
  unfold argmin
  rw [List.findIdx_map]
  congr 1
  funext x
  simp only [Function.comp, List.all_map]
  congr 1
  funext y
  simp only [Function.comp, decide_eq_decide]
  exact mul_le_mul_iff_right₀ hk

theorem scaled_intersect (tris : List Tri) (r d : V3) :
    checkIntersect (k • r) d (tris.map (scaleTri k)) = (checkIntersect r d tris).map fun q => (k • q.1, q.2.1, q.2.2) := by
  unfold checkIntersect
  simp only
  have hf : (tris.map (scaleTri k)).filter (fun τ => τ.hit (k • r) d) = (tris.filter fun τ => τ.hit r d).map (scaleTri k) := by
    rw [List.filter_map]
    congr 1
    apply List.filter_congr
    intro τ _
    exact scaled_hit hk τ r d
  have ht : ((tris.filter fun τ => τ.hit r d).map (scaleTri k)).map (fun τ => τ.t (k • r) d) = ((tris.filter fun τ => τ.hit r d).map fun τ => τ.t r d).map (k * ·) := by
    rw [List.map_map, List.map_map]
    apply List.map_congr_left
    intro τ _
    exact (scaled_tuv hk τ r d).1
  rw [hf, ht, scaled_argmin hk, List.getElem?_map]
  generalize (tris.filter fun τ => τ.hit r d)[argmin ((tris.filter fun τ => τ.hit r d).map fun τ => τ.t r d)]? = o
  rcases o with _ | τ
  · rfl
  · simp only [Option.map_some]
    rw [scaled_N hk, (scaled_tuv hk τ r d).1, ← smul_smul_v3, smul_add_v3]

theorem scaled_planeT (num den : ℝ) : planeT (k * num) den = (planeT num den).map (k * ·) := by
  unfold planeT
  simp only
  set D := if den = 0 then (1 : ℝ) / 10 ^ 12 else den
  have e : k * num / D = k * (num / D) := by ring
  rw [e]
  by_cases h : num / D > 0
  · rw [if_pos h, if_pos (show k * (num / D) > 0 by positivity)]; rfl
  · rw [if_neg h, if_neg]
    · rfl
    · intro h'; exact h ((pos_iff_pos_of_mul_pos h').mp hk)

theorem scaled_exitTs (r d : V3) (Lx Ly : ℝ) : exitTs (k • r) d (k * Lx) (k * Ly) = (exitTs r d Lx Ly).map (Option.map (k * ·)) := by
  unfold exitTs
  simp only [V3.smul_x, V3.smul_y, List.map_cons, List.map_nil]
  rw [show -(k * Ly - k * r.y) = k * -(Ly - r.y) by ring, show -(k * Lx - k * r.x) = k * -(Lx - r.x) by ring, show 0 - k * r.y = k * (0 - r.y) by ring, show 0 - k * r.x = k * (0 - r.x) by ring,
    scaled_planeT hk, scaled_planeT hk, scaled_planeT hk, scaled_planeT hk]

theorem scaled_leInf (a b : Option ℝ) : leInf (a.map (k * ·)) (b.map (k * ·)) = leInf a b := by
  rcases a with _ | a <;> rcases b with _ | b <;> simp [leInf]
  exact mul_le_mul_iff_right₀ hk

theorem scaled_exit (r d : V3) (Lx Ly : ℝ) : exitSide (k • r) d (k * Lx) (k * Ly) = ((exitSide r d Lx Ly).1, (exitSide r d Lx Ly).2.map (k * ·)) := by
  unfold exitSide
  simp only
  rw [scaled_exitTs hk]
  have hi : ((exitTs r d Lx Ly).map (Option.map (k * ·))).findIdx (fun x => ((exitTs r d Lx Ly).map (Option.map (k * ·))).all fun y => leInf x y) =
      (exitTs r d Lx Ly).findIdx (fun x => (exitTs r d Lx Ly).all fun y => leInf x y) := by
    rw [List.findIdx_map]
    congr 1
    funext x
    simp only [Function.comp, List.all_map]
    congr 1
    funext y
    exact scaled_leInf hk x y
  rw [hi]
  congr 1
  rw [List.getD_eq_getElem?_getD, List.getD_eq_getElem?_getD, List.getElem?_map]
  rcases (exitTs r d Lx Ly)[_]? with _ | x <;> rfl

omit hk in
theorem scaled_translation (Lx Ly : ℝ) (i : ℕ) : translation (k * Lx) (k * Ly) i = k • translation Lx Ly i := by
  match i with
  | 0 => ext <;> simp [translation]
  | 1 => ext <;> simp [translation]
  | 2 => ext <;> simp [translation]
  | (n + 3) => ext <;> simp [translation]

theorem scaled_floor (x L : ℝ) : ⌊k * x / (k * L)⌋ = ⌊x / L⌋ := by rw [mul_div_mul_left _ _ hk.ne']

theorem scaled_backInto (x L : ℝ) : backInto (k * x) (k * L) = k * backInto x L := by
  unfold backInto
  have h : (k * x > k * L ∨ k * x < 0) ↔ (x > L ∨ x < 0) := by
    constructor
    · rintro (h | h)
      · exact Or.inl (lt_of_mul_lt_mul_left h hk.le)
      · right; by_contra hc; push Not at hc; linarith [mul_nonneg hk.le hc]
    · rintro (h | h)
      · exact Or.inl (mul_lt_mul_of_pos_left h hk)
      · exact Or.inr (mul_neg_of_pos_of_neg hk h)
  by_cases e : x > L ∨ x < 0
  · rw [if_pos e, if_pos (h.mpr e), scaled_floor hk]; ring
  · rw [if_neg e, if_neg (fun h' => e (h.mp h'))]

/-- The state of the loop with the position multiplied by `k`. -/
noncomputable def scaleSic (k : ℝ) (s : Sic) : Sic := { s with r := k • s.r }

theorem scaled_step (off lift Lx Ly : ℝ) (d0 : V3) (w : Draw) (s : Sic) :
    sicStepWith (k * off) (k * lift) (k * Lx) (k * Ly) d0 (scaleDraw k w) (scaleSic k s) = (sicStepWith off lift Lx Ly d0 w s).map (scaleSic k) (scaleRes k) := by
  have hci := scaled_intersect hk w.tris s.r s.d
  obtain ⟨tris, zmin, zmax, rx, ry, dec⟩ := w
  simp only at hci
  unfold sicStepWith
  simp only [scaleSic, scaleDraw]
  rcases hc : checkIntersect s.r s.d tris with _ | ⟨p, θ, N⟩
  · rw [hc, Option.map_none] at hci
    rw [hci]
    simp only
    by_cases hch : s.checked = false
    · simp only [hch, Bool.not_false, if_true]
      by_cases h1 : s.i1 + 1 > 1
      · simp only [if_pos h1, Sum.map_inl]
        rw [scaled_exit hk, scaled_translation, scaleSic, smul_add_v3]
      · simp only [if_neg h1]
        by_cases h2 : s.misses < 100
        · simp only [if_pos h2, Sum.map_inl, scaleSic]
          congr 2
          unfold relaunchFrom
          by_cases h3 : s.d.z < 0
          · simp only [if_pos h3]
            ext <;> simp only [V3.smul_x, V3.smul_y, V3.smul_z] <;> ring
          · simp only [if_neg h3]
            ext <;> simp only [V3.smul_x, V3.smul_y, V3.smul_z] <;> ring
        · simp only [if_neg h2, Sum.map_inr, scaleRes]
    · have hch' : s.checked = true := by simpa using hch
      simp only [hch', Bool.not_true, Bool.false_eq_true, if_false]
      have hcond : ((s.side = 1 ∧ s.d.z < 0 ∧ (k • s.r).z > k * zmin) ∨ (s.side = -1 ∧ s.d.z > 0 ∧ (k • s.r).z < k * zmax)) ↔
          ((s.side = 1 ∧ s.d.z < 0 ∧ s.r.z > zmin) ∨ (s.side = -1 ∧ s.d.z > 0 ∧ s.r.z < zmax)) := by
        simp only [V3.smul_z, gt_iff_lt, mul_lt_mul_iff_right₀ hk]
      have hr : (⟨backInto (k • s.r).x (k * Lx), backInto (k • s.r).y (k * Ly), (k • s.r).z⟩ : V3) = k • ⟨backInto s.r.x Lx, backInto s.r.y Ly, s.r.z⟩ := by
        ext
        · exact scaled_backInto hk _ _
        · exact scaled_backInto hk _ _
        · rfl
      by_cases hgo : (s.side = 1 ∧ s.d.z < 0 ∧ s.r.z > zmin) ∨ (s.side = -1 ∧ s.d.z > 0 ∧ s.r.z < zmax)
      · refine (if_pos (hcond.mpr hgo)).trans ?_
        rw [if_pos hgo, hr, scaled_exit hk]
        rcases exitSide ⟨backInto s.r.x Lx, backInto s.r.y Ly, s.r.z⟩ s.d Lx Ly with ⟨i, _ | t⟩
        · rfl
        · simp only [Option.map_some, Sum.map_inl]
          rw [scaled_translation, ← smul_smul_v3, smul_add_v3, smul_add_v3]
          rfl
      · refine (if_neg (fun h => hgo (hcond.mp h))).trans ?_
        rw [if_neg hgo, hr]
        rfl
  · rw [hc, Option.map_some] at hci
    rw [hci]
    simp only
    obtain ⟨⟨d, side, A⟩, hdec⟩ : ∃ q, dec θ s.d ((s.side : ℝ) • N) s.side = q := ⟨_, rfl⟩
    rw [hdec]
    rcases A with _ | A
    · simp only [Sum.map_inl, scaleSic]
      rw [← smul_smul_v3, smul_add_v3]
    · simp only [Sum.map_inr, scaleRes]
      rw [← smul_smul_v3, smul_add_v3]

theorem scaled_run (off lift Lx Ly : ℝ) (d0 : V3) (ws : List Draw) (s : Sic) :
    sicRunWith (k * off) (k * lift) (k * Lx) (k * Ly) d0 (ws.map (scaleDraw k)) (scaleSic k s) = (sicRunWith off lift Lx Ly d0 ws s).map (scaleSic k) (scaleRes k) := by
  induction ws generalizing s with
  | nil => rfl
  | cons w ws ih =>
    simp only [List.map_cons]
    unfold sicRunWith
    rw [scaled_step hk]
    rcases sicStepWith off lift Lx Ly d0 w s with s' | res
    · simp only [Sum.map_inl]; exact ih s'
    · rfl

theorem scaled_launch (up h θ φ : ℝ) : launchFrom (k * up) (k * h) θ φ = k • launchFrom up h θ φ := by
  unfold launchFrom
  simp only
  have e : |(k * h + k * up) / Real.cos θ| = k * |(h + up) / Real.cos θ| := by
    rw [← mul_add, mul_div_assoc, abs_mul, abs_of_pos hk]
  rw [e]
  ext <;> simp only [V3.smul_x, V3.smul_y, V3.smul_z] <;> ring

theorem scaled_launchD (x y x' y' : ℝ) (a : V3) : launchD x' y' (k • a) = launchD x y a := by
  have h : ∀ x y (a : V3), (⟨x, y, 0⟩ : V3) - launchA x y a = -a := by
    intro x y a
    ext <;> simp [launchA]
  unfold launchD
  simp only [h]
  have hn : V3.norm (-(k • a)) = k * V3.norm (-a) := by
    unfold V3.norm
    rw [show V3.dot (-(k • a)) (-(k • a)) = k ^ 2 * V3.dot (-a) (-a) by
      simp only [V3.dot, V3.neg_x, V3.neg_y, V3.neg_z, V3.smul_x, V3.smul_y, V3.smul_z]; ring, Real.sqrt_mul (by positivity), Real.sqrt_sq hk.le]
  rw [hn]
  ext <;> simp only [V3.neg_x, V3.neg_y, V3.neg_z, V3.smul_x, V3.smul_y, V3.smul_z] <;> rw [← mul_neg, mul_div_mul_left _ _ hk.ne']

theorem scaled_wrap (r d : V3) (Lx Ly zcov : ℝ) : wrapRay (k • r) d (k * Lx) (k * Ly) (k * zcov) = k • wrapRay r d Lx Ly zcov := by
  unfold wrapRay
  simp only [V3.smul_x, V3.smul_y, V3.smul_z]
  rw [show k * r.x + d.x * (k * zcov - k * r.z) / d.z = k * (r.x + d.x * (zcov - r.z) / d.z) by ring, show k * r.y + d.y * (k * zcov - k * r.z) / d.z = k * (r.y + d.y * (zcov - r.z) / d.z) by ring,
    scaled_floor hk, scaled_floor hk]
  ext <;> simp only [V3.smul_x, V3.smul_y, V3.smul_z] <;> ring

end

/-! ## The property -/

/-- **C174.** With the lengths 1e-9, 0.01 and 1e-8 this is the tracing of the package. -/
theorem C174_code (c : Texture) (θ φ x y : ℝ) (ws : List Draw) : traceWith3 (1 / 10 ^ 9) (1 / 100) 1e-8 c θ φ x y ws = traceInterface c θ φ x y ws := by
  have hrun : ∀ d0 ws s, sicRunWith (1 / 10 ^ 9) (1 / 100) c.Lx c.Ly d0 ws s = sicRun c.Lx c.Ly d0 ws s := by
    intro d0 ws
    induction ws with
    | nil => intro s; rfl
    | cons w ws ih =>
      intro s
      unfold sicRunWith sicRun
      have hs : sicStepWith (1 / 10 ^ 9) (1 / 100) c.Lx c.Ly d0 w s = sicStep c.Lx c.Ly d0 w s := rfl
      rw [hs]
      rcases sicStep c.Lx c.Ly d0 w s with s' | res
      · exact ih s'
      · rfl
  unfold traceWith3 traceInterface
  simp only [hrun]
  rfl

/-- **C174, proved part.** A surface, the launch positions and the three fixed lengths of the package are multiplied by the same factor.  Then for the same random numbers every ray on every surface does the same thing: the same result, angles, directions and number of interactions, at positions
multiplied by the factor.  So the size of a texture matters only in comparison with the fixed lengths 1e-9, 0.01 and 1e-8. -/
theorem C174_scale_partial {k : ℝ} (hk : 0 < k) (off lift up : ℝ) (c : Texture) (θ φ x y : ℝ) (ws : List Draw) :
    traceWith3 (k * off) (k * lift) (k * up) (scaleCell k c) θ φ (k * x) (k * y) (ws.map (scaleDraw k)) = (traceWith3 off lift up c θ φ x y ws).map (scaleRes k) := by
  unfold traceWith3
  simp only [scaleCell]
  rw [scaled_launch hk, scaled_launchD hk x y]
  set a := launchFrom up c.h θ φ
  set d := launchD x y a
  have ha : launchA (k * x) (k * y) (k • a) = k • launchA x y a := by
    ext <;> simp only [launchA, V3.add_x, V3.add_y, V3.add_z, V3.smul_x, V3.smul_y, V3.smul_z] <;> ring
  rw [ha, scaled_wrap hk]
  have hs : sicStart (k • wrapRay (launchA x y a) d c.Lx c.Ly c.zcov) d 1 0 = scaleSic k (sicStart (wrapRay (launchA x y a) d c.Lx c.Ly c.zcov) d 1 0) := rfl
  rw [hs, scaled_run hk]
  rcases sicRunWith off lift c.Lx c.Ly d ws (sicStart (wrapRay (launchA x y a) d c.Lx c.Ly c.zcov) d 1 0) with s | res <;> rfl

/-- The absorbing lookup table: every ray that meets the surface is absorbed. -/
def blackTable (_ : ℤ) (_ : ℝ) : ℝ × ℝ × List ℝ := (0, 0, [1])

/-- The random numbers `rx`, `ry` and `rnd` at the black ridge of size `L`. -/
noncomputable def ridgeDraw (L rx ry rnd : ℝ) : Draw := { tris := ridge L, zmin := 0, zmax := L / 2, rx := rx, ry := ry, dec := tmmDec 1 1 blackTable rnd }

/-- The black ridge of another size is the same ridge with all lengths multiplied. -/
theorem ridge_scaled (k L rx ry rnd : ℝ) : scaleDraw k (ridgeDraw L rx ry rnd) = ridgeDraw (k * L) rx ry rnd := by
  have e : k * (L / 2) = k * L / 2 := by ring
  have ht : ∀ a b c : ℝ, k • (⟨a, b, c⟩ : V3) = ⟨k * a, k * b, k * c⟩ := fun _ _ _ => rfl
  simp only [scaleDraw, ridgeDraw, ridge, scaleTri, List.map_cons, List.map_nil, ht, mul_zero, e]

theorem ridge_hit {L s : ℝ} (hL : 0 < L) {r : V3} {τ : Tri} (hτ : τ ∈ ridge L) (hh : τ.hit r ⟨-s, 0, -s⟩ = true) :
    ∃ p : V3, p.y = r.y ∧ p.x - p.z = r.x - r.z ∧ -(L / 100) ≤ p.x ∧ p.x ≤ L + L / 100 ∧ p.z ≤ L / 2 + L / 100 ∧ (p.z = p.y ∨ p.z = L - p.y) := by
  simp only [Tri.hit, decide_eq_true_eq] at hh
  obtain ⟨hdet, huv, ⟨hu, hv⟩, -⟩ := hh
  have he := tri_solve τ r ⟨-s, 0, -s⟩ hdet
  have hx := congrArg V3.x he
  have hy := congrArg V3.y he
  have hz := congrArg V3.z he
  refine ⟨r + τ.t r ⟨-s, 0, -s⟩ • ⟨-s, 0, -s⟩, by simp, by simp, ?_⟩
  rw [he]
  generalize τ.u r ⟨-s, 0, -s⟩ = u at *
  generalize τ.v r ⟨-s, 0, -s⟩ = v at *
  have hu' : -(1 / 10 ^ 10) * L ≤ u * L := mul_le_mul_of_nonneg_right hu hL.le
  have hv' : -(1 / 10 ^ 10) * L ≤ v * L := mul_le_mul_of_nonneg_right hv hL.le
  have huv' : (u + v) * L ≤ 1 * L := mul_le_mul_of_nonneg_right huv hL.le
  simp only [ridge, List.mem_cons, List.not_mem_nil, or_false] at hτ
  rcases hτ with rfl | rfl | rfl | rfl <;> simp only [V3.add_x, V3.add_y, V3.add_z, V3.sub_x, V3.sub_y, V3.sub_z, V3.smul_x, V3.smul_y, V3.smul_z]
  · exact ⟨by linarith, by linarith, by linarith, Or.inl trivial⟩
  · exact ⟨by linarith, by linarith, by linarith, Or.inl trivial⟩
  · exact ⟨by linarith, by linarith, by linarith, Or.inr (by linarith)⟩
  · exact ⟨by linarith, by linarith, by linarith, Or.inr (by linarith)⟩

theorem ridge_missed {L s : ℝ} (hL : 0 < L) {r : V3} (h : r.x - r.z < -(6 / 10) * L ∨ (7 / 10 * L < r.x - r.z ∧ 35 / 100 * L < r.y ∧ r.y < 65 / 100 * L)) : checkIntersect r ⟨-s, 0, -s⟩ (ridge L) = none := by
  rcases hc : checkIntersect r ⟨-s, 0, -s⟩ (ridge L) with _ | ⟨p, θ, N⟩
  · rfl
  · exfalso
    obtain ⟨τ, hτ, hh, -⟩ := checkIntersect_some hc
    obtain ⟨q, e1, e2, e3, e4, e5, e6⟩ := ridge_hit hL hτ hh
    rcases h with h | ⟨h1, h2, h3⟩
    · linarith
    · rcases e6 with e6 | e6 <;> linarith

/-- Where a ray launched at 45° at `(x, y)` in the cell starts, and in which direction. -/
theorem ridge_launch {L h x y : ℝ} (hL : 0 < L) (hh : 0 ≤ h) (hx0 : 0 ≤ x) (hx1 : x < L) (hy0 : 0 ≤ y) (hy1 : y < L) :
    launchD x y (rA0 h (Real.pi / 4) 0) = ⟨-(√2 / 2), 0, -(√2 / 2)⟩ ∧
      wrapRay (launchA x y (rA0 h (Real.pi / 4) 0)) ⟨-(√2 / 2), 0, -(√2 / 2)⟩ L L 0 = ⟨x + (h + 1e-8), y, h + 1e-8⟩ := by
  have hpos : (0 : ℝ) < h + 1e-8 := by norm_num; linarith
  have hcos : 0 < Real.cos (Real.pi / 4) := by rw [Real.cos_pi_div_four]; positivity
  have h2 : (√2 / 2 : ℝ) ≠ 0 := by positivity
  refine ⟨?_, ?_⟩
  · rw [launchD_eq x y hcos hpos.ne']
    ext <;> simp [incoming]
  · rw [rA0_vec hcos, abs_of_pos hpos, Real.cos_pi_div_four, Real.sin_pi_div_four, Real.cos_zero, Real.sin_zero, div_mul_cancel₀ _ h2]
    have hfx : ⌊x / L⌋ = 0 := by rw [Int.floor_eq_zero_iff]; exact ⟨div_nonneg hx0 hL.le, (div_lt_one hL).mpr hx1⟩
    have hfy : ⌊y / L⌋ = 0 := by rw [Int.floor_eq_zero_iff]; exact ⟨div_nonneg hy0 hL.le, (div_lt_one hL).mpr hy1⟩
    generalize h + 1e-8 = a at *
    have e1 : a + x + -(√2 / 2) * (0 - a) / -(√2 / 2) = x := by rw [mul_div_cancel_left₀ _ (neg_ne_zero.mpr h2)]; ring
    simp only [wrapRay, launchA, V3.add_x, V3.add_y, V3.add_z, mul_one, mul_zero, zero_mul, zero_div, add_zero, zero_add]
    rw [e1, hfx, hfy]
    simp [add_comm]

theorem ridge_small_run (ws : List Draw) (d0 : V3) {s0 : ℝ} (hs0 : 0 < s0) (hw : ∀ w ∈ ws, ∃ rx ry rnd, w = ridgeDraw (1 / 200) rx ry rnd ∧ rx < 1) (s : Sic) (hd : s.d = ⟨-s0, 0, -s0⟩) (hc : s.checked = false) (hi : s.i1 = 0)
    (hr : s.r.x - s.r.z < -(6 / 10) * (1 / 200) ∨ (7 / 10 * (1 / 200) < s.r.x - s.r.z ∧ 35 / 100 * (1 / 200) < s.r.y ∧ s.r.y < 65 / 100 * (1 / 200))) (hm : s.misses ≤ 100) (hl : 101 ≤ s.misses + ws.length) :
    ∃ r, sicRun (1 / 200) (1 / 200) d0 ws s = .inr (.gaveUp (polar ⟨-s0, 0, s0⟩) r ⟨-s0, 0, s0⟩ s.nInt s.side) := by
  induction ws generalizing s with
  | nil => simp only [List.length_nil] at hl; omega
  | cons w ws ih =>
    obtain ⟨rx, ry, rnd, rfl, hrx⟩ := hw w (by simp)
    have hmiss : checkIntersect s.r s.d (ridgeDraw (1 / 200) rx ry rnd).tris = none := by rw [hd]; exact ridge_missed (by norm_num) hr
    unfold sicRun
    by_cases h100 : s.misses < 100
    · have hstep : sicStep (1 / 200) (1 / 200) d0 (ridgeDraw (1 / 200) rx ry rnd) s = .inl { s with r := relaunch (1 / 200) (1 / 200) (ridgeDraw (1 / 200) rx ry rnd) s.d, misses := s.misses + 1, i1 := 0 } := by
        simp only [sicStep, hmiss, hc, hi, h100]
        simp
      rw [hstep]
      refine ih (fun w' hw' => hw w' (by simp [hw'])) _ hd hc rfl (Or.inl ?_) (by simp only; omega) (by simp only [List.length_cons] at hl ⊢; omega)
      have hz : s.d.z < 0 := by rw [hd]; simpa using hs0
      simp only [relaunch, if_pos hz, ridgeDraw]
      linarith
    · have hstep : sicStep (1 / 200) (1 / 200) d0 (ridgeDraw (1 / 200) rx ry rnd) s = .inr (.gaveUp (polar ⟨s.d.x, s.d.y, -s.d.z⟩) s.r ⟨s.d.x, s.d.y, -s.d.z⟩ s.nInt s.side) := by
        simp only [sicStep, hmiss, hc, hi, h100]
        simp
      rw [hstep]
      refine ⟨s.r, ?_⟩
      simp [hd]

/-- **C174 is violated.** A ridge with sides of 45°, on which every ray that meets it is absorbed, and light from 45° along the ridge.  At size 1 the ray aimed at 0.9, 0.4 is absorbed (with the random numbers 0.5, 0.4).  At size 1/200 the same ray is sent back
as reflected, whatever the random numbers are: a ray that missed is started anew 0.01 above the surface, from where it passes beside this small cell every time. -/
theorem C174_fails (h rnd : ℝ) (hh : 0 ≤ h) (hrnd : 0 < rnd) :
    (∃ r d θ n side, traceInterface ⟨1, 1, 0, h⟩ (Real.pi / 4) 0 (9 / 10) (4 / 10) [ridgeDraw 1 (1 / 2) (4 / 10) rnd, ridgeDraw 1 (1 / 2) (4 / 10) rnd] = some (.absorbed [1] r d θ n side)) ∧
      ∀ ws : List Draw, 101 ≤ ws.length → (∀ w ∈ ws, ∃ rx ry rnd, w = scaleDraw (1 / 200) (ridgeDraw 1 rx ry rnd) ∧ rx < 1) →
        ∃ ot r d, 0 < d.z ∧ traceInterface (scaleCell (1 / 200) ⟨1, 1, 0, h⟩) (Real.pi / 4) 0 (1 / 200 * (9 / 10)) (1 / 200 * (4 / 10)) ws = some (.gaveUp ot r d 0 1) := by
  have h2 : (0 : ℝ) < √2 / 2 := by positivity
  refine ⟨?_, ?_⟩
  · obtain ⟨e1, e2⟩ := ridge_launch (L := 1) (h := h) (x := 9 / 10) (y := 4 / 10) (by norm_num) hh (by norm_num) (by norm_num) (by norm_num) (by norm_num)
    unfold traceInterface
    simp only
    rw [e1, e2]
    have hmiss : checkIntersect ⟨9 / 10 + (h + 1e-8), 4 / 10, h + 1e-8⟩ ⟨-(√2 / 2), 0, -(√2 / 2)⟩ (ridge 1) = none :=
      ridge_missed (by norm_num) (Or.inr ⟨by norm_num, by norm_num, by norm_num⟩)
    have hstep : sicStep 1 1 ⟨-(√2 / 2), 0, -(√2 / 2)⟩ (ridgeDraw 1 (1 / 2) (4 / 10) rnd) (sicStart ⟨9 / 10 + (h + 1e-8), 4 / 10, h + 1e-8⟩ ⟨-(√2 / 2), 0, -(√2 / 2)⟩ 1 0) =
        .inl { sicStart ⟨9 / 10 + (h + 1e-8), 4 / 10, h + 1e-8⟩ ⟨-(√2 / 2), 0, -(√2 / 2)⟩ 1 0 with r := ⟨1 / 2, 4 / 10, 51 / 100⟩, misses := 1, i1 := 0 } := by
      simp only [sicStep, sicStart, ridgeDraw, hmiss]
      have hz : -(√2 / 2) < 0 := by linarith
      simp only [relaunch, if_pos hz]
      norm_num
    have hhit : ∃ p θ N, checkIntersect ⟨1 / 2, 4 / 10, 51 / 100⟩ ⟨-(√2 / 2), 0, -(√2 / 2)⟩ (ridge 1) = some (p, θ, N) := by
      rcases hc : checkIntersect ⟨1 / 2, 4 / 10, 51 / 100⟩ ⟨-(√2 / 2), 0, -(√2 / 2)⟩ (ridge 1) with _ | ⟨p, θ, N⟩
      · exfalso
        have hm := checkIntersect_none hc ⟨⟨1, 0, 0⟩, ⟨1, 1 / 2, 1 / 2⟩, ⟨0, 1 / 2, 1 / 2⟩⟩ (by simp [ridge])
        have hdet : Tri.det ⟨⟨1, 0, 0⟩, ⟨1, 1 / 2, 1 / 2⟩, ⟨0, 1 / 2, 1 / 2⟩⟩ ⟨-(√2 / 2), 0, -(√2 / 2)⟩ ≠ 0 := by
          simp [Tri.det, Tri.crossP, V3.dot, V3.cross]
        have hs := tri_unique ⟨⟨1, 0, 0⟩, ⟨1, 1 / 2, 1 / 2⟩, ⟨0, 1 / 2, 1 / 2⟩⟩ ⟨1 / 2, 4 / 10, 51 / 100⟩ ⟨-(√2 / 2), 0, -(√2 / 2)⟩ hdet (t := 11 / 100 / (√2 / 2)) (u := 19 / 100) (v := 61 / 100) (by
          ext <;> simp <;> field_simp <;> norm_num)
        have : Tri.hit ⟨⟨1, 0, 0⟩, ⟨1, 1 / 2, 1 / 2⟩, ⟨0, 1 / 2, 1 / 2⟩⟩ ⟨1 / 2, 4 / 10, 51 / 100⟩ ⟨-(√2 / 2), 0, -(√2 / 2)⟩ = true := by
          simp only [Tri.hit, decide_eq_true_eq]
          rw [hs.1, hs.2.1, hs.2.2]
          exact ⟨hdet, by norm_num, ⟨by norm_num, by norm_num⟩, by positivity⟩
        rw [this] at hm
        exact Bool.noConfusion hm
      · exact ⟨p, θ, N, rfl⟩
    obtain ⟨p, θ, N, hhit⟩ := hhit
    refine ⟨p + (1 / 10 ^ 9 : ℝ) • ⟨-(√2 / 2), 0, -(√2 / 2)⟩, ⟨-(√2 / 2), 0, -(√2 / 2)⟩, θ, 1, 1, ?_⟩
    unfold sicRun
    rw [hstep]
    simp only
    unfold sicRun
    simp only [sicStep, sicStart, ridgeDraw, hhit, tmmDec, blackTable, decideTMM, if_neg (not_le.mpr hrnd), add_zero]
    rw [if_neg (by rintro ⟨-, h⟩; linarith)]
  · intro ws hl hw
    obtain ⟨e1, e2⟩ := ridge_launch (L := 1 / 200) (h := 1 / 200 * h) (x := 1 / 200 * (9 / 10)) (y := 1 / 200 * (4 / 10)) (by norm_num) (by linarith) (by norm_num) (by norm_num) (by norm_num) (by norm_num)
    unfold traceInterface
    simp only [scaleCell, mul_one, mul_zero]
    rw [e1, e2]
    obtain ⟨r, hr⟩ := ridge_small_run ws ⟨-(√2 / 2), 0, -(√2 / 2)⟩ h2 (fun w h' => by
      obtain ⟨rx, ry, rnd', rfl, hrx⟩ := hw w h'
      exact ⟨rx, ry, rnd', by rw [ridge_scaled, mul_one], hrx⟩) (sicStart ⟨1 / 200 * (9 / 10) + (1 / 200 * h + 1e-8), 1 / 200 * (4 / 10), 1 / 200 * h + 1e-8⟩ ⟨-(√2 / 2), 0, -(√2 / 2)⟩ 1 0) rfl rfl rfl
      (Or.inr ⟨by simp only [sicStart]; norm_num, by simp only [sicStart]; norm_num, by simp only [sicStart]; norm_num⟩) (by simp [sicStart]) (by simp only [sicStart]; omega)
    rw [hr]
    exact ⟨_, r, ⟨-(√2 / 2), 0, √2 / 2⟩, h2, rfl⟩

/-- The hypotheses are met: a hundred and one draws with the same random numbers. -/
example : 101 ≤ (List.replicate 101 (scaleDraw (1 / 200) (ridgeDraw 1 (1 / 2) (4 / 10) 1))).length ∧
    ∀ w ∈ List.replicate 101 (scaleDraw (1 / 200) (ridgeDraw 1 (1 / 2) (4 / 10) 1)), ∃ rx ry rnd, w = scaleDraw (1 / 200) (ridgeDraw 1 rx ry rnd) ∧ rx < 1 := by
  refine ⟨by simp, fun w hw => ?_⟩
  obtain ⟨-, rfl⟩ := List.mem_replicate.mp hw
  exact ⟨_, _, _, rfl, by norm_num⟩

end Rayflare
