import Verif.Spec.Mirror
import Verif.Props.Turn

/-!
# Property C173: the mirror image of a surface, lit from the mirrored direction, gives the mirror image of the result
-/

namespace Rayflare

open Rayflare.Np Rayflare.Model Rayflare.Spec Rayflare.Lemmas

/-! ## Helper lemmas: vectors -/

theorem mirror_dot (a b : V3) : V3.dot (swapXY a) (swapXY b) = V3.dot a b := by simp only [V3.dot, swapXY]; ring

theorem mirror_norm (a : V3) : V3.norm (swapXY a) = V3.norm a := by unfold V3.norm; rw [mirror_dot]

theorem mirror_cross (a b : V3) : V3.cross (swapXY a) (swapXY b) = -swapXY (V3.cross a b) := by
  ext <;> simp only [V3.cross, swapXY, V3.neg_x, V3.neg_y, V3.neg_z] <;> ring

theorem mirror_add (a b : V3) : swapXY (a + b) = swapXY a + swapXY b := by ext <;> simp only [swapXY, V3.add_x, V3.add_y, V3.add_z]

theorem mirror_sub (a b : V3) : swapXY (a - b) = swapXY a - swapXY b := by ext <;> simp only [swapXY, V3.sub_x, V3.sub_y, V3.sub_z]

theorem mirror_neg (a : V3) : swapXY (-a) = -swapXY a := by ext <;> simp only [swapXY, V3.neg_x, V3.neg_y, V3.neg_z]

theorem mirror_smul (k : ℝ) (a : V3) : swapXY (k • a) = k • swapXY a := by ext <;> simp only [swapXY, V3.smul_x, V3.smul_y, V3.smul_z]

theorem neg_norm_v3 (a : V3) : V3.norm (-a) = V3.norm a := by
  unfold V3.norm V3.dot
  congr 1
  simp only [V3.neg_x, V3.neg_y, V3.neg_z]
  ring

theorem mirror_localTheta (N d : V3) : localTheta (swapXY N) (swapXY d) = localTheta N d := by
  unfold localTheta
  rw [← mirror_neg, mirror_dot, mirror_cross, neg_norm_v3, mirror_norm]

theorem mirror_normalise (d : V3) : normalise (swapXY d) = swapXY (normalise d) := by
  unfold normalise; rw [mirror_norm, mirror_smul]

theorem mirror_reflect (d N : V3) : reflectDir (swapXY d) (swapXY N) = swapXY (reflectDir d N) := by
  unfold reflectDir; rw [mirror_dot, mirror_sub, mirror_smul]

theorem mirror_trPar (k : ℝ) (d N : V3) : trPar k (swapXY d) (swapXY N) = swapXY (trPar k d N) := by
  unfold trPar; rw [mirror_dot, mirror_smul, mirror_sub, mirror_smul]

theorem mirror_refract (k : ℝ) (d N : V3) : refractDir k (swapXY d) (swapXY N) = swapXY (refractDir k d N) := by
  unfold refractDir; rw [mirror_trPar, mirror_norm, mirror_add, mirror_smul]

theorem mirror_refractC (k : ℂ) (d N : V3) : refractDirC k (swapXY d) (swapXY N) = swapXY (refractDirC k d N) := by
  unfold refractDirC
  simp only
  rw [mirror_dot, ← mirror_smul, ← mirror_sub, mirror_norm, mirror_add, mirror_smul, mirror_smul]

/-- Decisions do not distinguish left from right. -/
theorem mirror_dec {dec : ℝ → V3 → V3 → ℤ → V3 × ℤ × Option (List ℝ)} (h : Optical dec) (θ : ℝ) (d N : V3) (side : ℤ) :
    dec θ (swapXY d) (swapXY N) side = (swapXY (dec θ d N side).1, (dec θ d N side).2.1, (dec θ d N side).2.2) := by
  rcases h with ⟨a, b, arc, pol, rnd, rfl⟩ | ⟨a, b, tab, rnd, rfl⟩
  · simp only [fresnelDec, decideFresnel]
    by_cases e : rnd ≤ decideR (if side = 1 then a else b) (if side = 1 then b else a) θ (arc side θ) pol
    · simp only [if_pos e]; rw [mirror_reflect, mirror_normalise]
    · simp only [if_neg e]; rw [mirror_refract, mirror_normalise]
  · simp only [tmmDec, decideTMM]
    by_cases e : rnd ≤ (tab side |θ|).1
    · simp only [if_pos e]; rw [mirror_reflect, mirror_normalise]
    · simp only [if_neg e]
      by_cases e' : rnd > (tab side |θ|).1 ∧ rnd ≤ (tab side |θ|).1 + (tab side |θ|).2.1
      · simp only [if_pos e']; rw [mirror_refractC, mirror_normalise]
      · simp only [if_neg e']

/-! ## Helper lemmas: facets -/

theorem mirrored_crossP {τ τ' : Tri} (h : MirroredTri τ τ') : τ'.crossP = swapXY τ.crossP := by
  unfold Tri.crossP
  rcases h with ⟨h0, h1, h2⟩ | ⟨h0, h1, h2⟩ | ⟨h0, h1, h2⟩ <;> rw [h0, h1, h2, ← mirror_sub, ← mirror_sub, mirror_cross, ← mirror_neg] <;> congr 1 <;>
    (ext <;> simp only [V3.cross, V3.sub_x, V3.sub_y, V3.sub_z, V3.neg_x, V3.neg_y, V3.neg_z] <;> ring)

theorem mirrored_N {τ τ' : Tri} (h : MirroredTri τ τ') : τ'.N = swapXY τ.N := by
  unfold Tri.N; rw [mirrored_crossP h, mirror_norm, mirror_smul]

theorem mirrored_det {τ τ' : Tri} (h : MirroredTri τ τ') (d : V3) : τ'.det (swapXY d) = τ.det d := by
  unfold Tri.det; rw [mirrored_crossP h, ← mirror_neg, mirror_dot]

theorem mirrored_solve {τ τ' : Tri} (h : MirroredTri τ τ') (r d : V3) (hd : τ.det d ≠ 0) :
    τ'.t (swapXY r) (swapXY d) = τ.t r d ∧
    ((τ'.u (swapXY r) (swapXY d) = τ.v r d ∧ τ'.v (swapXY r) (swapXY d) = τ.u r d) ∨
     (τ'.u (swapXY r) (swapXY d) = τ.u r d ∧ τ'.v (swapXY r) (swapXY d) = 1 - τ.u r d - τ.v r d) ∨
     (τ'.u (swapXY r) (swapXY d) = 1 - τ.u r d - τ.v r d ∧ τ'.v (swapXY r) (swapXY d) = τ.v r d)) := by
  have e := tri_solve τ r d hd
  have e' : swapXY r + τ.t r d • swapXY d = swapXY (τ.P0 + τ.u r d • (τ.P1 - τ.P0) + τ.v r d • (τ.P2 - τ.P0)) := by
    rw [← e, mirror_add, mirror_smul]
  have hd' : τ'.det (swapXY d) ≠ 0 := by rw [mirrored_det h]; exact hd
  rcases h with ⟨h0, h1, h2⟩ | ⟨h0, h1, h2⟩ | ⟨h0, h1, h2⟩
  · obtain ⟨a, b, c⟩ := tri_unique τ' (swapXY r) (swapXY d) hd' (t := τ.t r d) (u := τ.v r d) (v := τ.u r d) (by
      rw [e', h0, h1, h2]
      ext <;> simp only [swapXY, V3.add_x, V3.add_y, V3.add_z, V3.smul_x, V3.smul_y, V3.smul_z, V3.sub_x, V3.sub_y, V3.sub_z] <;> ring)
    exact ⟨a, Or.inl ⟨b, c⟩⟩
  · obtain ⟨a, b, c⟩ := tri_unique τ' (swapXY r) (swapXY d) hd' (t := τ.t r d) (u := τ.u r d) (v := 1 - τ.u r d - τ.v r d) (by
      rw [e', h0, h1, h2]
      ext <;> simp only [swapXY, V3.add_x, V3.add_y, V3.add_z, V3.smul_x, V3.smul_y, V3.smul_z, V3.sub_x, V3.sub_y, V3.sub_z] <;> ring)
    exact ⟨a, Or.inr (Or.inl ⟨b, c⟩)⟩
  · obtain ⟨a, b, c⟩ := tri_unique τ' (swapXY r) (swapXY d) hd' (t := τ.t r d) (u := 1 - τ.u r d - τ.v r d) (v := τ.v r d) (by
      rw [e', h0, h1, h2]
      ext <;> simp only [swapXY, V3.add_x, V3.add_y, V3.add_z, V3.smul_x, V3.smul_y, V3.smul_z, V3.sub_x, V3.sub_y, V3.sub_z] <;> ring)
    exact ⟨a, Or.inr (Or.inr ⟨b, c⟩)⟩

theorem clear_mirrored {τ τ' : Tri} (h : MirroredTri τ τ') {r d : V3} (hc : Clear τ r d) : Clear τ' (swapXY r) (swapXY d) := by
  intro hd x hx
  rw [mirrored_det h] at hd
  obtain ⟨-, hs⟩ := mirrored_solve h r d hd
  refine hc hd x ?_
  rcases hs with ⟨a, b⟩ | ⟨a, b⟩ | ⟨a, b⟩ <;> rw [a, b] at hx <;> rcases hx with hx | hx | hx
  · exact Or.inr (Or.inl hx)
  · exact Or.inl hx
  · right; right; rw [hx]; ring
  · exact Or.inl hx
  · exact Or.inr (Or.inr hx)
  · right; left; rw [hx]; ring
  · exact Or.inr (Or.inr hx)
  · exact Or.inr (Or.inl hx)
  · left; rw [hx]; ring

theorem mirrored_hit {τ τ' : Tri} (h : MirroredTri τ τ') {r d : V3} (hc : Clear τ r d) : (τ'.hit (swapXY r) (swapXY d) = true ↔ τ.hit r d = true) := by
  rw [hit_strict hc, hit_strict (clear_mirrored h hc), mirrored_det h]
  refine and_congr_right fun hd => ?_
  obtain ⟨e, hs⟩ := mirrored_solve h r d hd
  rw [e]
  rcases hs with ⟨a, b⟩ | ⟨a, b⟩ | ⟨a, b⟩ <;> rw [a, b]
  · constructor
    · rintro ⟨p, q, s, t⟩; exact ⟨by linarith, by linarith, by linarith, t⟩
    · rintro ⟨p, q, s, t⟩; exact ⟨by linarith, by linarith, by linarith, t⟩
  · constructor
    · rintro ⟨p, q, s, t⟩; exact ⟨by linarith, by linarith, by linarith, t⟩
    · rintro ⟨p, q, s, t⟩; exact ⟨by linarith, by linarith, by linarith, t⟩
  · constructor
    · rintro ⟨p, q, s, t⟩; exact ⟨by linarith, by linarith, by linarith, t⟩
    · rintro ⟨p, q, s, t⟩; exact ⟨by linarith, by linarith, by linarith, t⟩

theorem mirrored_intersect {tris tris' : List Tri} (h : MirroredSurface tris tris') {r d : V3} (hc : ∀ τ ∈ tris, Clear τ r d)
    (hn : ∀ τ ∈ tris, ∀ τ' ∈ tris, τ.hit r d = true → τ'.hit r d = true → τ.t r d = τ'.t r d → τ.N = τ'.N) :
    checkIntersect (swapXY r) (swapXY d) tris' = (checkIntersect r d tris).map fun q => (swapXY q.1, q.2.1, swapXY q.2.2) := by
  rcases hci : checkIntersect r d tris with _ | ⟨p, θ, N⟩
  · rw [Option.map_none]
    rcases hci' : checkIntersect (swapXY r) (swapXY d) tris' with _ | ⟨p, θ, N⟩
    · rfl
    · obtain ⟨τ', hτ', hh', -⟩ := checkIntersect_some hci'
      obtain ⟨τ, hτ, ht⟩ := h.2 τ' hτ'
      have := (mirrored_hit ht (hc τ hτ)).mp hh'
      rw [checkIntersect_none hci τ hτ] at this; cases this
  · obtain ⟨τ, hτ, hh, rfl, rfl, rfl, hmin⟩ := checkIntersect_some hci
    obtain ⟨τ₁, hτ₁, ht₁⟩ := h.1 τ hτ
    have hh₁ := (mirrored_hit ht₁ (hc τ hτ)).mpr hh
    obtain ⟨p', θ', N', hci'⟩ := checkIntersect_isSome hτ₁ hh₁
    obtain ⟨τ₂, hτ₂, hh₂, rfl, rfl, rfl, hmin₂⟩ := checkIntersect_some hci'
    obtain ⟨τ₃, hτ₃, ht₃⟩ := h.2 τ₂ hτ₂
    have hh₃ := (mirrored_hit ht₃ (hc τ₃ hτ₃)).mp hh₂
    have hd : τ.det d ≠ 0 := ((hit_strict (hc τ hτ)).mp hh).1
    have hd₃ : τ₃.det d ≠ 0 := ((hit_strict (hc τ₃ hτ₃)).mp hh₃).1
    have e₁ := (mirrored_solve ht₁ r d hd).1
    have e₃ := (mirrored_solve ht₃ r d hd₃).1
    have a := hmin τ₃ hτ₃ hh₃
    have b := hmin₂ τ₁ hτ₁ hh₁
    rw [e₁, e₃] at b
    have et : τ.t r d = τ₃.t r d := le_antisymm a b
    have eN := hn τ hτ τ₃ hτ₃ hh hh₃ et
    rw [hci', Option.map_some]
    simp only [Option.some.injEq, Prod.mk.injEq]
    rw [e₃, mirrored_N ht₃, mirror_localTheta, ← eN, ← et, mirror_add, mirror_smul]
    exact ⟨rfl, rfl, rfl⟩

/-! ## Helper lemmas: the unit cell -/

theorem mirrored_exitTs (r d : V3) (Lx Ly : ℝ) : ∃ a b c e, exitTs r d Lx Ly = [a, b, c, e] ∧ exitTs (swapXY r) (swapXY d) Ly Lx = [b, a, e, c] :=
  ⟨_, _, _, _, rfl, rfl⟩

/-- The side through which the mirrored ray leaves is the mirrored side. -/
theorem mirrored_exit {r d : V3} {Lx Ly : ℝ} (h : OneExit r d Lx Ly) : ∃ i t, exitSide r d Lx Ly = (i, some t) ∧
    ∃ i', exitSide (swapXY r) (swapXY d) Ly Lx = (i', some t) ∧ translation Ly Lx i' = swapXY (translation Lx Ly i) := by
  obtain ⟨i, hi, t, ht, hm⟩ := h
  refine ⟨i, t, oneExit_eq Ly hi ht hm, ?_⟩
  obtain ⟨a, b, c, e, hl', hl2⟩ := mirrored_exitTs r d Lx Ly
  rw [hl'] at ht hm
  have go : ∀ i' < 4, [b, a, e, c][i']? = some (some t) → (∀ j ≠ i', ∀ t', [b, a, e, c][j]? = some (some t') → t < t') → exitSide (swapXY r) (swapXY d) Ly Lx = (i', some t) :=
    fun i' hi' h1 h2 => oneExit_eq Lx hi' (by rw [hl2]; exact h1) (by rw [hl2]; exact h2)
  have back : ∀ j t', [b, a, e, c][j]? = some (some t') → j < 4 ∧ [a, b, c, e][if j % 2 = 0 then j + 1 else j - 1]? = some (some t') := by
    intro j t' h
    match j, h with
    | 0, h => exact ⟨by omega, h⟩
    | 1, h => exact ⟨by omega, h⟩
    | 2, h => exact ⟨by omega, h⟩
    | 3, h => exact ⟨by omega, h⟩
    | (n + 4), h => simp at h
  interval_cases i
  · refine ⟨1, go 1 (by omega) ht fun j hj t' h => hm _ ?_ t' (back j t' h).2, ?_⟩
    · have := (back j t' h).1
      split_ifs <;> omega
    · ext <;> simp [translation, swapXY]
  · refine ⟨0, go 0 (by omega) ht fun j hj t' h => hm _ ?_ t' (back j t' h).2, ?_⟩
    · have := (back j t' h).1
      split_ifs <;> omega
    · ext <;> simp [translation, swapXY]
  · refine ⟨3, go 3 (by omega) ht fun j hj t' h => hm _ ?_ t' (back j t' h).2, ?_⟩
    · have := (back j t' h).1
      split_ifs <;> omega
    · ext <;> simp [translation, swapXY]
  · refine ⟨2, go 2 (by omega) ht fun j hj t' h => hm _ ?_ t' (back j t' h).2, ?_⟩
    · have := (back j t' h).1
      split_ifs <;> omega
    · ext <;> simp [translation, swapXY]

/-! ## Helper lemmas: one iteration -/

/-- The state of the loop, mirrored. -/
def mirrorSic (s : Sic) : Sic := { s with r := swapXY s.r, d := swapXY s.d }

theorem mirrored_step {Lx Ly : ℝ} {d0 : V3} {w w' : Draw} (hw : MirroredDraw w w') {s : Sic} (hu : Unambiguous Lx Ly w s) :
    sicStep Ly Lx (swapXY d0) w' (mirrorSic s) = (sicStep Lx Ly d0 w s).map mirrorSic mirrorRes := by
  have hci := mirrored_intersect hw.tris hu.edges hu.nearest
  unfold sicStep
  simp only [mirrorSic]
  rcases hc : checkIntersect s.r s.d w.tris with _ | ⟨p, θ, N⟩
  · rw [hc, Option.map_none] at hci
    rw [hci]
    simp only
    by_cases hch : s.checked = false
    · simp only [hch, Bool.not_false, if_true]
      by_cases h1 : s.i1 + 1 > 1
      · simp only [if_pos h1, Sum.map_inl]
        obtain ⟨i, t, e, i', e', et⟩ := mirrored_exit (hu.leave hc hch (by omega))
        rw [e, e', et, mirrorSic, mirror_add]
      · simp only [if_neg h1]
        by_cases h2 : s.misses < 100
        · simp only [if_pos h2, Sum.map_inl]
          congr 2
          unfold relaunch
          simp only [swapXY]
          by_cases h3 : s.d.z < 0
          · simp only [if_pos h3, swapXY, hw.rx, hw.ry, hw.zmax]
          · simp only [if_neg h3, swapXY, hw.rx, hw.ry, hw.zmin]
        · simp only [if_neg h2, Sum.map_inr, mirrorRes]
          have : (⟨(swapXY s.d).x, (swapXY s.d).y, -(swapXY s.d).z⟩ : V3) = swapXY ⟨s.d.x, s.d.y, -s.d.z⟩ := rfl
          rw [this]
          congr 2
          unfold Model.polar; rw [mirror_norm]; rfl
    · have hch' : s.checked = true := by simpa using hch
      simp only [hch', Bool.not_true, Bool.false_eq_true, if_false]
      have hcond : ((s.side = 1 ∧ (swapXY s.d).z < 0 ∧ (swapXY s.r).z > w'.zmin) ∨ (s.side = -1 ∧ (swapXY s.d).z > 0 ∧ (swapXY s.r).z < w'.zmax)) ↔
          ((s.side = 1 ∧ s.d.z < 0 ∧ s.r.z > w.zmin) ∨ (s.side = -1 ∧ s.d.z > 0 ∧ s.r.z < w.zmax)) := by rw [hw.zmin, hw.zmax]; rfl
      have hr : (⟨backInto (swapXY s.r).x Ly, backInto (swapXY s.r).y Lx, (swapXY s.r).z⟩ : V3) = swapXY ⟨backInto s.r.x Lx, backInto s.r.y Ly, s.r.z⟩ := rfl
      have hfin : finalRes (swapXY d0) (swapXY s.d) = finalRes d0 s.d := rfl
      have hpol : Model.polar (swapXY s.d) = Model.polar s.d := by unfold Model.polar; rw [mirror_norm]; rfl
      by_cases hgo : (s.side = 1 ∧ s.d.z < 0 ∧ s.r.z > w.zmin) ∨ (s.side = -1 ∧ s.d.z > 0 ∧ s.r.z < w.zmax)
      · refine (if_pos (hcond.mpr hgo)).trans ?_
        rw [if_pos hgo, hr]
        obtain ⟨i, t, e, i', e', et⟩ := mirrored_exit (hu.pass hc hch' hgo)
        rw [e, e']
        simp only [Sum.map_inl]
        rw [et, mirrorSic, mirror_add, mirror_add, mirror_smul]
      · refine (if_neg (fun h => hgo (hcond.mp h))).trans ?_
        rw [if_neg hgo, hr, hfin, hpol]
        rfl
  · rw [hc, Option.map_some] at hci
    rw [hci]
    obtain ⟨hdec, hopt⟩ := hw.dec
    have hd : w'.dec θ (swapXY s.d) ((s.side : ℝ) • swapXY N) s.side =
        (swapXY (w.dec θ s.d ((s.side : ℝ) • N) s.side).1, (w.dec θ s.d ((s.side : ℝ) • N) s.side).2.1, (w.dec θ s.d ((s.side : ℝ) • N) s.side).2.2) := by
      rw [hdec, ← mirror_smul, mirror_dec hopt]
    obtain ⟨tr, zm, zM, rx, ry, dec⟩ := w
    obtain ⟨tr', zm', zM', rx', ry', dec'⟩ := w'
    simp only at hd ⊢
    rw [hd]
    rcases dec θ s.d ((s.side : ℝ) • N) s.side with ⟨d, side, A⟩
    rcases A with _ | A
    · simp only [Sum.map_inl, mirrorSic]
      rw [mirror_add, mirror_smul]
    · simp only [Sum.map_inr, mirrorRes]
      rw [mirror_add, mirror_smul]

theorem mirrored_run {Lx Ly : ℝ} {d0 : V3} {ws ws' : List Draw} (hw : List.Forall₂ MirroredDraw ws ws') {s : Sic} (hu : UnambiguousRun Lx Ly d0 ws s) :
    sicRun Ly Lx (swapXY d0) ws' (mirrorSic s) = (sicRun Lx Ly d0 ws s).map mirrorSic mirrorRes := by
  induction hw generalizing s with
  | nil => rfl
  | cons h _ ih =>
    obtain ⟨h1, h2⟩ := hu
    unfold sicRun
    rw [mirrored_step h h1]
    rcases hs : sicStep Lx Ly d0 _ s with s' | res
    · rw [hs] at h2
      simp only [Sum.map_inl]
      exact ih h2
    · simp only [Sum.map_inr]

theorem mirrored_rA0 (h θ φ : ℝ) : rA0 h θ (Real.pi / 2 - φ) = swapXY (rA0 h θ φ) := by
  unfold rA0 swapXY
  simp only [Real.cos_pi_div_two_sub, Real.sin_pi_div_two_sub]

theorem mirrored_launchD (x y x' y' : ℝ) (a : V3) : launchD x' y' (swapXY a) = swapXY (launchD x y a) := by
  have h : ∀ x y (a : V3), (⟨x, y, 0⟩ : V3) - launchA x y a = -a := by
    intro x y a
    ext <;> simp [launchA]
  unfold launchD
  simp only [h]
  rw [← mirror_neg, mirror_norm]
  ext <;> simp only [swapXY]

theorem mirrored_launchA (x y : ℝ) (a : V3) : launchA y x (swapXY a) = swapXY (launchA x y a) := by
  ext <;> simp only [launchA, swapXY, V3.add_x, V3.add_y, V3.add_z]

/-! ## The property -/

/-- **C173, one ray.** The mirror image of the surface is lit from the mirrored direction; the same random numbers decide at the facets.  Then the mirror image of everything happens to the ray: it is reflected, transmitted or absorbed alike, after as many interactions, at the same
local angles, and leaves in the mirrored direction at the mirrored position.  (For rays that do not pass exactly through edges of facets or of the unit cell.) -/
theorem C173_mirror (c : Texture) (θ φ x y : ℝ) {ws ws' : List Draw} (hw : List.Forall₂ MirroredDraw ws ws') (hu : UnambiguousRay c θ φ x y ws) :
    traceInterface (turnCell c) θ (Real.pi / 2 - φ) y x ws' = (traceInterface c θ φ x y ws).map mirrorRes := by
  obtain ⟨-, hrun⟩ := hu
  unfold launchState at hrun
  unfold traceInterface
  simp only
  have hd : launchD y x (rA0 c.h θ (Real.pi / 2 - φ)) = swapXY (launchD x y (rA0 c.h θ φ)) := by rw [mirrored_rA0]; exact mirrored_launchD _ _ _ _ _
  have ha : launchA y x (rA0 c.h θ (Real.pi / 2 - φ)) = swapXY (launchA x y (rA0 c.h θ φ)) := by rw [mirrored_rA0]; exact mirrored_launchA _ _ _
  simp only [turnCell]
  rw [hd, ha]
  set a := launchA x y (rA0 c.h θ φ)
  set d := launchD x y (rA0 c.h θ φ)
  have hs : sicStart (wrapRay (swapXY a) (swapXY d) c.Ly c.Lx c.zcov) (swapXY d) 1 0 = mirrorSic (sicStart (wrapRay a d c.Lx c.Ly c.zcov) d 1 0) := rfl
  rw [hs, mirrored_run hw hrun]
  rcases sicRun c.Lx c.Ly d ws (sicStart (wrapRay a d c.Lx c.Ly c.zcov) d 1 0) with s | res <;> rfl

/-- **C173.** `regular_pyramids`, upright or inverted, of any size and height are their own mirror images. -/
theorem C173_pyramids (h L : ℝ) (upright : Bool) : MirroredSurface (pyramidFacets h L upright) (pyramidFacets h L upright) := by
  have key : ∀ τ ∈ pyramidFacets h L upright, ∃ τ' ∈ pyramidFacets h L upright, MirroredTri τ τ' ∧ MirroredTri τ' τ := by
    intro τ hτ
    simp only [pyramidFacets, pyramidPoints, List.getD_cons_zero, List.getD_cons_succ, List.mem_cons, List.not_mem_nil, or_false] at hτ ⊢
    rcases hτ with rfl | rfl | rfl | rfl
    · exact ⟨_, Or.inr (Or.inr (Or.inr rfl)), Or.inr (Or.inr ⟨rfl, rfl, rfl⟩), Or.inr (Or.inr ⟨rfl, rfl, rfl⟩)⟩
    · exact ⟨_, Or.inr (Or.inr (Or.inl rfl)), Or.inr (Or.inr ⟨rfl, rfl, rfl⟩), Or.inr (Or.inr ⟨rfl, rfl, rfl⟩)⟩
    · exact ⟨_, Or.inr (Or.inl rfl), Or.inr (Or.inr ⟨rfl, rfl, rfl⟩), Or.inr (Or.inr ⟨rfl, rfl, rfl⟩)⟩
    · exact ⟨_, Or.inl rfl, Or.inr (Or.inr ⟨rfl, rfl, rfl⟩), Or.inr (Or.inr ⟨rfl, rfl, rfl⟩)⟩
  exact ⟨fun τ hτ => let ⟨τ', h', a, _⟩ := key τ hτ; ⟨τ', h', a⟩, fun τ hτ => let ⟨τ', h', _, b⟩ := key τ hτ; ⟨τ', h', b⟩⟩

/-! ## Helper lemmas: stacks, for any motion -/

/-- What the stack needs to know of a motion about the vertical or a mirror image. -/
structure Motion (c : RTStack) (pt dir : V3 → V3) (mres : SicRes → SicRes) (M : Meeting → Meeting → Prop) : Prop where
  z : ∀ d, (dir d).z = d.z
  outcome : ∀ res, (mres res).outcome = res.outcome
  pos : ∀ res, (mres res).pos = res.pos.map pt
  way : ∀ res, (mres res).dir = dir res.dir
  meet : ∀ cell ∈ c.cells, ∀ tab ni nj m m' s, M m m' → UnambiguousMeeting c cell tab ni nj m s →
    (swapCells c).meet { cell with Lx := cell.Ly, Ly := cell.Lx } tab ni nj m' (moveRay pt dir s) = (c.meet cell tab ni nj m s).map mres

theorem getRight_map {α β γ δ : Type} (f : α → γ) (g : β → δ) (s : α ⊕ β) : (Sum.map f g s).getRight? = s.getRight?.map g := by cases s <;> rfl

theorem pyGet_isMem {α : Type} {l : List α} {i : ℤ} {a : α} (h : pyGet l i = some a) : a ∈ l := by
  unfold pyGet at h
  split_ifs at h with h1
  · exact List.mem_of_getElem? h
  all_goals exact List.mem_of_getElem? h

theorem pyGet_mapped {α β : Type} (f : α → β) (l : List α) (i : ℤ) : pyGet (l.map f) i = (pyGet l i).map f := by
  unfold pyGet
  simp only [List.length_map, List.getElem?_map]
  split_ifs <;> rfl

theorem moved_step {c : RTStack} {pt dir : V3 → V3} {mres : SicRes → SicRes} {M : Meeting → Meeting → Prop} (hM : Motion c pt dir mres M) {m m' : Meeting} (hm : M m m') {s : StackRay}
    (hu : s.ray.stop = false → ∀ cell tab ni nj, pyGet c.cells s.ray.surf = some cell → pyGet c.tabs s.ray.surf = some tab →
      pyGet c.nks (if s.ray.dir = 1 then s.ray.mat else s.ray.mat - 1) = some ni → pyGet c.nks (if s.ray.dir = 1 then s.ray.mat + 1 else s.ray.mat) = some nj →
      UnambiguousMeeting c cell tab ni nj m s) :
    (swapCells c).step m' (moveRay pt dir s) = moveStackRes pt dir (c.step m s) := by
  unfold RTStack.step
  by_cases hs : s.ray.stop = true
  · have hs' : (moveRay pt dir s).ray.stop = true := hs
    rw [if_pos hs, if_pos hs']; rfl
  · have hs' : ¬(moveRay pt dir s).ray.stop = true := hs
    rw [if_neg hs, if_neg hs']
    have hu := hu (by simpa using hs)
    have e1 : pyGet (swapCells c).cells (moveRay pt dir s).ray.surf = (pyGet c.cells s.ray.surf).map fun cell => { cell with Lx := cell.Ly, Ly := cell.Lx } :=
      pyGet_mapped _ _ _
    have e2 : pyGet (swapCells c).tabs (moveRay pt dir s).ray.surf = pyGet c.tabs s.ray.surf := rfl
    have e3 : pyGet (swapCells c).nks (if (moveRay pt dir s).ray.dir = 1 then (moveRay pt dir s).ray.mat else (moveRay pt dir s).ray.mat - 1) =
        pyGet c.nks (if s.ray.dir = 1 then s.ray.mat else s.ray.mat - 1) := rfl
    have e4 : pyGet (swapCells c).nks (if (moveRay pt dir s).ray.dir = 1 then (moveRay pt dir s).ray.mat + 1 else (moveRay pt dir s).ray.mat) =
        pyGet c.nks (if s.ray.dir = 1 then s.ray.mat + 1 else s.ray.mat) := rfl
    rw [e1, e2, e3, e4]
    rcases h1 : pyGet c.cells s.ray.surf with _ | cell
    · rfl
    rcases h2 : pyGet c.tabs s.ray.surf with _ | tab
    · rfl
    rcases h3 : pyGet c.nks (if s.ray.dir = 1 then s.ray.mat else s.ray.mat - 1) with _ | ni
    · rfl
    rcases h4 : pyGet c.nks (if s.ray.dir = 1 then s.ray.mat + 1 else s.ray.mat) with _ | nj
    · rfl
    simp only [Option.map_some]
    rw [hM.meet cell (pyGet_isMem h1) tab ni nj m m' s hm (hu cell tab ni nj h1 h2 h3 h4)]
    rcases c.meet cell tab ni nj m s with _ | res
    · rfl
    · simp only [Option.map_some, RTStack.advance]
      rw [hM.outcome]
      have e5 : (swapCells c).S.step (moveRay pt dir s).ray res.outcome = c.S.step s.ray res.outcome := rfl
      rw [e5]
      rcases c.S.step s.ray res.outcome with _ | ray
      · rfl
      · simp only [moveStackRes, moveRay]
        rw [hM.pos, hM.way]

theorem moved_run {c : RTStack} {pt dir : V3 → V3} {mres : SicRes → SicRes} {M : Meeting → Meeting → Prop} (hM : Motion c pt dir mres M) {ms ms' : List Meeting}
    (hm : List.Forall₂ M ms ms') {s : StackRay} (hu : UnambiguousStack c ms s) :
    (swapCells c).run ms' (moveRay pt dir s) = moveStackRes pt dir (c.run ms s) := by
  induction hm generalizing s with
  | nil => rfl
  | @cons m m' ms ms' h _ ih =>
    obtain ⟨h1, h2⟩ := hu
    unfold RTStack.run
    rw [moved_step hM h h1]
    rcases hs : c.step m s with s' | _ | _
    · rw [hs] at h2
      exact ih h2
    · rfl
    · rfl

theorem randomised_mirror (c : RTStack) (cell : Cell) {m m' : Meeting} (h : MirroredMeeting m m') (s : StackRay) :
    (swapCells c).randomised { cell with Lx := cell.Ly, Ly := cell.Lx } m' (moveRay swapXY swapXY s) =
      ((c.randomised cell m s).1.map swapXY, swapXY (c.randomised cell m s).2) := by
  have hdir : randDir (swapXY s.d) s.ray.dir = swapXY (randDir s.d s.ray.dir) := by
    unfold randDir
    by_cases hz : s.d.z = 0
    · rw [if_pos hz, if_pos (show (swapXY s.d).z = 0 from hz)]; rfl
    · rw [if_neg hz, if_neg (show ¬(swapXY s.d).z = 0 from hz)]
  unfold RTStack.randomised
  by_cases hr : c.randomize ∧ 0 < s.ray.nPasses
  · have hr' : (swapCells c).randomize ∧ 0 < (moveRay swapXY swapXY s).ray.nPasses := hr
    rw [if_pos hr, if_pos hr']
    simp only [Option.map_some, moveRay]
    rw [hdir]
    congr 2
    unfold randStart
    simp only
    rw [hdir, h.u, h.v, mirror_sub, mirror_smul]
    rfl
  · have hr' : ¬((swapCells c).randomize ∧ 0 < (moveRay swapXY swapXY s).ray.nPasses) := hr
    rw [if_neg hr, if_neg hr']
    rfl

theorem mirroredDraw {asin : ℂ → ℂ} {pol : Pol} {tab : Option Table} {ni nj : ℂ} {w w' : IterDraw} (h : MirroredIter w w') :
    MirroredDraw (w.draw asin pol tab ni nj) (w'.draw asin pol tab ni nj) where
  tris := h.tris
  zmin := h.zmin
  zmax := h.zmax
  rx := h.rx
  ry := h.ry
  dec := by
    simp only [IterDraw.draw]
    rw [h.rnd]
    refine ⟨rfl, ?_⟩
    rcases tab with _ | tab
    · exact Or.inl ⟨_, _, _, _, _, rfl⟩
    · exact Or.inr ⟨_, _, _, _, rfl⟩

theorem mirror_motion (c : RTStack) (hper : c.periodic = true) : Motion c swapXY swapXY mirrorRes MirroredMeeting where
  z := fun _ => rfl
  outcome := fun res => by cases res <;> rfl
  pos := fun res => by cases res <;> rfl
  way := fun res => by cases res <;> rfl
  meet := by
    rintro cell - tab ni nj m m' s hm ⟨hz, r, hr, -, hrun⟩
    have hws : List.Forall₂ MirroredDraw (m.ws.map fun w => w.draw c.asin c.pol tab ni nj) (m'.ws.map fun w => w.draw c.asin c.pol tab ni nj) := by
      rw [List.forall₂_map_left_iff, List.forall₂_map_right_iff]
      exact hm.ws.imp fun _ _ h => mirroredDraw h
    unfold RTStack.meet
    simp only
    rw [randomised_mirror c cell hm s]
    have hper' : (swapCells c).periodic = true := hper
    simp only [hper, hper', if_true]
    rw [hr]
    unfold wrapOpt
    set d := (c.randomised cell m s).2
    rw [if_neg hz, if_neg (show ¬(swapXY d).z = 0 from hz)]
    simp only [Option.map_some]
    have hs : sicStart (wrapRay (swapXY r) (swapXY d) cell.Ly cell.Lx cell.zcov) (swapXY d) (moveRay swapXY swapXY s).ray.dir 0 =
        mirrorSic (sicStart (wrapRay r d cell.Lx cell.Ly cell.zcov) d s.ray.dir 0) := rfl
    rw [hs]
    have := mirrored_run hws hrun
    rw [show (List.map (fun w => w.draw (swapCells c).asin (swapCells c).pol tab ni nj) m'.ws) = (m'.ws.map fun w => w.draw c.asin c.pol tab ni nj) from rfl, this]
    exact getRight_map _ _ _

theorem turned_wrap {L : ℝ} (hL : 0 < L) {a d : V3} {Lx zcov : ℝ} (h : ∀ n : ℤ, a.y + d.y * (zcov - a.z) / d.z ≠ n * L) :
    wrapRay (turnPt L a) (turn d) L Lx zcov = turnPt L (wrapRay a d Lx L zcov) := by
  unfold wrapRay
  ext
  · simp only [turnPt, turn]
    have e : L - a.y + -d.y * (zcov - a.z) / d.z = L - (a.y + d.y * (zcov - a.z) / d.z) := by ring
    rw [e, floor_turn hL h]
    push_cast; ring
  · rfl
  · rfl

theorem randomised_turn (c : RTStack) (cell : Cell) {m m' : Meeting} (h : TurnedMeeting cell.Ly m m') (s : StackRay) :
    (swapCells c).randomised { cell with Lx := cell.Ly, Ly := cell.Lx } m' (moveRay (turnPt cell.Ly) turn s) =
      ((c.randomised cell m s).1.map (turnPt cell.Ly), turn (c.randomised cell m s).2) := by
  have hdir : randDir (turn s.d) s.ray.dir = turn (randDir s.d s.ray.dir) := by
    unfold randDir
    by_cases hz : s.d.z = 0
    · rw [if_pos hz, if_pos (show (turn s.d).z = 0 from hz)]; rfl
    · rw [if_neg hz, if_neg (show ¬(turn s.d).z = 0 from hz)]
  unfold RTStack.randomised
  by_cases hr : c.randomize ∧ 0 < s.ray.nPasses
  · have hr' : (swapCells c).randomize ∧ 0 < (moveRay (turnPt cell.Ly) turn s).ray.nPasses := hr
    rw [if_pos hr, if_pos hr']
    simp only [Option.map_some, moveRay]
    rw [hdir]
    congr 2
    unfold randStart
    simp only
    rw [hdir, h.u, h.v]
    ext
    · simp only [turnPt, turn, V3.sub_x, V3.sub_y, V3.smul_x, V3.smul_y]; ring
    · rfl
    · rfl
  · have hr' : ¬((swapCells c).randomize ∧ 0 < (moveRay (turnPt cell.Ly) turn s).ray.nPasses) := hr
    rw [if_neg hr, if_neg hr']
    rfl

theorem turnedDraw {L : ℝ} {asin : ℂ → ℂ} {pol : Pol} {tab : Option Table} {ni nj : ℂ} {w w' : IterDraw} (h : TurnedIter L w w') :
    TurnedDraw L (w.draw asin pol tab ni nj) (w'.draw asin pol tab ni nj) where
  tris := h.tris
  zmin := h.zmin
  zmax := h.zmax
  rx := h.rx
  ry := h.ry
  dec := by
    simp only [IterDraw.draw]
    rw [h.rnd]
    refine ⟨rfl, ?_⟩
    rcases tab with _ | tab
    · exact Or.inl ⟨_, _, _, _, _, rfl⟩
    · exact Or.inr ⟨_, _, _, _, rfl⟩

theorem turn_motion (c : RTStack) (hper : c.periodic = true) {L : ℝ} (hL : 0 < L) (hcells : ∀ cell ∈ c.cells, cell.Ly = L) : Motion c (turnPt L) turn (turnRes L) (TurnedMeeting L) where
  z := fun _ => rfl
  outcome := fun res => by cases res <;> rfl
  pos := fun res => by cases res <;> rfl
  way := fun res => by cases res <;> rfl
  meet := by
    intro cell hcell tab ni nj m m' s hm ⟨hz, r, hr, hedge, hrun⟩
    have hws : List.Forall₂ (TurnedDraw L) (m.ws.map fun w => w.draw c.asin c.pol tab ni nj) (m'.ws.map fun w => w.draw c.asin c.pol tab ni nj) := by
      rw [List.forall₂_map_left_iff, List.forall₂_map_right_iff]
      exact hm.ws.imp fun _ _ h => turnedDraw h
    have e := hcells cell hcell
    subst e
    unfold RTStack.meet
    simp only
    rw [randomised_turn c cell hm s]
    have hper' : (swapCells c).periodic = true := hper
    simp only [hper, hper', if_true]
    rw [hr]
    unfold wrapOpt
    set d := (c.randomised cell m s).2
    rw [if_neg hz, if_neg (show ¬(turn d).z = 0 from hz)]
    simp only [Option.map_some]
    rw [turned_wrap hL hedge]
    have hs : sicStart (turnPt cell.Ly (wrapRay r d cell.Lx cell.Ly cell.zcov)) (turn d) (moveRay (turnPt cell.Ly) turn s).ray.dir 0 =
        turnSic cell.Ly (sicStart (wrapRay r d cell.Lx cell.Ly cell.zcov) d s.ray.dir 0) := rfl
    rw [hs]
    have := turned_run cell.Ly hL hws hrun
    rw [show (List.map (fun w => w.draw (swapCells c).asin (swapCells c).pol tab ni nj) m'.ws) = (m'.ws.map fun w => w.draw c.asin c.pol tab ni nj) from rfl, this]
    exact getRight_map _ _ _

theorem mirrored_start (c : RTStack) (x y h θ φ : ℝ) (matI dirI : ℤ) :
    (swapCells c).start y x matI dirI (rA0 h θ (Real.pi / 2 - φ)) = moveRay swapXY swapXY (c.start x y matI dirI (rA0 h θ φ)) := by
  rw [mirrored_rA0]
  set a := rA0 h θ φ
  unfold RTStack.start moveRay
  have h1 : (swapCells c).S.startPos y x matI dirI (swapXY a) = swapXY (c.S.startPos x y matI dirI a) := by
    unfold Stack.startPos
    simp only
    rw [mirrored_launchA x y, mirrored_launchD x y]
    rfl
  have h2 : startDir y x dirI (swapXY a) = swapXY (startDir x y dirI a) := by
    unfold startDir
    simp only
    rw [mirrored_launchD x y]
    by_cases hd : dirI ≠ 1
    · rw [if_pos hd, if_pos hd]; rfl
    · rw [if_neg hd, if_neg hd]
  rw [h1, h2]
  rfl

theorem turned_start (c : RTStack) (L x y h θ φ : ℝ) (matI dirI : ℤ) :
    (swapCells c).start (L - y) x matI dirI (rA0 h θ (φ + Real.pi / 2)) = moveRay (turnPt L) turn (c.start x y matI dirI (rA0 h θ φ)) := by
  rw [turned_rA0]
  set a := rA0 h θ φ
  have ha : launchA (L - y) x (turn a) = turnPt L (launchA x y a) := by
    ext <;> simp only [launchA, turn, turnPt, V3.add_x, V3.add_y, V3.add_z]
    ring
  unfold RTStack.start moveRay
  have h1 : (swapCells c).S.startPos (L - y) x matI dirI (turn a) = turnPt L (c.S.startPos x y matI dirI a) := by
    unfold Stack.startPos
    simp only
    rw [ha, turned_launchD x y]
    ext
    · simp only [turnPt, turn, V3.add_x, V3.add_y, V3.smul_x, V3.smul_y]; ring
    · rfl
    · rfl
  have h2 : startDir (L - y) x dirI (turn a) = turn (startDir x y dirI a) := by
    unfold startDir
    simp only
    rw [turned_launchD x y]
    by_cases hd : dirI ≠ 1
    · rw [if_pos hd, if_pos hd]; rfl
    · rw [if_neg hd, if_neg hd]
  rw [h1, h2]
  rfl

/-! ## Whole structures -/

/-- **C173, structures.** All surfaces of a structure of any number of layers are replaced by their mirror images, lit from the mirrored direction.  Then every ray ends in the same way, with the same intensity, absorption in the layers, number of passes and polar angle, at
the mirrored place: `R`, `A` and `T` are the same. -/
theorem C173_stack (c : RTStack) (hper : c.periodic = true) (x y h θ φ : ℝ) (matI dirI : ℤ) {ms ms' : List Meeting} (hm : List.Forall₂ MirroredMeeting ms ms')
    (hu : UnambiguousStack c ms (c.start x y matI dirI (rA0 h θ φ))) :
    (swapCells c).run ms' ((swapCells c).start y x matI dirI (rA0 h θ (Real.pi / 2 - φ))) = moveStackRes swapXY swapXY (c.run ms (c.start x y matI dirI (rA0 h θ φ))) := by
  rw [mirrored_start]
  exact moved_run (mirror_motion c hper) hm hu

/-- **C153, structures.** The same when a structure (with unit cells of the same size at all surfaces) and the light are turned by 90°. -/
theorem C153_stack (c : RTStack) (hper : c.periodic = true) {L : ℝ} (hL : 0 < L) (hcells : ∀ cell ∈ c.cells, cell.Ly = L) (x y h θ φ : ℝ) (matI dirI : ℤ) {ms ms' : List Meeting}
    (hm : List.Forall₂ (TurnedMeeting L) ms ms') (hu : UnambiguousStack c ms (c.start x y matI dirI (rA0 h θ φ))) :
    (swapCells c).run ms' ((swapCells c).start (L - y) x matI dirI (rA0 h θ (φ + Real.pi / 2))) = moveStackRes (turnPt L) turn (c.run ms (c.start x y matI dirI (rA0 h θ φ))) := by
  rw [turned_start]
  exact moved_run (turn_motion c hper hL hcells) hm hu

/-! ### Non-vacuity: pyramids that absorb everything -/

/-- One surface with pyramids between two media. -/
noncomputable def mirrorExStack : RTStack where
  S := { widths := [0, 0], alphas := [0, 0], zpos := [], thresh := 0 }
  cells := [{ Lx := 10, Ly := 10, zmin := 0, zmax := 5, zcov := 0 }]
  nks := [1, 1]
  tabs := [some fun _ _ => (0, 0, [1])]
  asin := id
  pol := .s
  randomize := false
  periodic := true

noncomputable def mirrorExIter : IterDraw := { tris := pyramidFacets 5 10 true, zmin := 0, zmax := 5, rx := 1 / 2, ry := 1 / 2, rnd := 1 / 2 }

noncomputable def mirrorExMeeting : Meeting := { u := 1 / 2, v := 1 / 2, ws := [mirrorExIter] }

theorem mirrorEx_mirrored : MirroredMeeting mirrorExMeeting mirrorExMeeting :=
  ⟨rfl, rfl, .cons ⟨C173_pyramids 5 10 true, rfl, rfl, rfl, rfl, rfl⟩ .nil⟩

theorem mirrorEx_turned : TurnedMeeting 10 mirrorExMeeting mirrorExMeeting :=
  ⟨by norm_num [mirrorExMeeting], rfl, .cons ⟨C153_pyramids 5 10 true, rfl, rfl, by norm_num [mirrorExIter], rfl, rfl⟩ .nil⟩

theorem mirrorEx_start : mirrorExStack.start 4 2 0 1 (rA0 (10 - 1e-8) 0 0) = { ray := Stack.start 0 1, r := some ⟨4, 2, 10⟩, d := ⟨0, 0, -1⟩ } := by
  obtain ⟨a, b⟩ := turnEx_launch
  have hz : (rA0 (10 - 1e-8) 0 0).z = 10 := by unfold rA0; simp
  unfold RTStack.start Stack.startPos startDir Stack.zOffset
  simp only [a, b, hz]
  norm_num

theorem mirrorEx_draw : mirrorExIter.draw id .s (some fun _ _ => (0, 0, [1])) 1 1 = turnExDraw := rfl

theorem mirrorEx_wrap : wrapRay ⟨4, 2, 10⟩ ⟨0, 0, -1⟩ 10 10 0 = ⟨4, 2, 10⟩ := by
  unfold wrapRay
  have h1 : ⌊((4 : ℝ) + 0 * (0 - 10) / -1) / 10⌋ = 0 := by rw [Int.floor_eq_iff]; norm_num
  have h2 : ⌊((2 : ℝ) + 0 * (0 - 10) / -1) / 10⌋ = 0 := by rw [Int.floor_eq_iff]; norm_num
  simp only [h1, h2]
  ext <;> simp

theorem mirrorEx_unambiguous : UnambiguousStack mirrorExStack [mirrorExMeeting] (mirrorExStack.start 4 2 0 1 (rA0 (10 - 1e-8) 0 0)) := by
  rw [mirrorEx_start]
  refine ⟨?_, ?_⟩
  · intro _ cell tab ni nj h1 h2 h3 h4
    have e1 : cell = { Lx := 10, Ly := 10, zmin := 0, zmax := 5, zcov := 0 } := (Option.some.inj h1).symm
    have e2 : tab = some fun _ _ => (0, 0, [1]) := (Option.some.inj h2).symm
    have e3 : ni = 1 := (Option.some.inj h3).symm
    have e4 : nj = 1 := (Option.some.inj h4).symm
    subst e1 e2 e3 e4
    have hrd : mirrorExStack.randomised { Lx := 10, Ly := 10, zmin := 0, zmax := 5, zcov := 0 } mirrorExMeeting { ray := Stack.start 0 1, r := some ⟨4, 2, 10⟩, d := ⟨0, 0, -1⟩ } =
        (some ⟨4, 2, 10⟩, ⟨0, 0, -1⟩) := by
      unfold RTStack.randomised
      rw [if_neg (by simp [mirrorExStack])]
    unfold UnambiguousMeeting
    rw [hrd]
    refine ⟨by norm_num, ⟨4, 2, 10⟩, rfl, ?_, ?_⟩
    · have h := turnEx_unambiguous.1
      simpa only [turnExCell, turnEx_launch.1, turnEx_launch.2] using h
    · have h := turnEx_unambiguous.2
      rw [turnEx_start] at h
      rw [mirrorEx_wrap]
      have e : launchD 4 2 (rA0 turnExCell.h 0 0) = ⟨0, 0, -1⟩ := turnEx_launch.2
      rw [e] at h
      exact h
  · split <;> trivial

/-- The ray is absorbed at the surface; so is the mirrored one, and the turned one. -/
example : ∃ s, mirrorExStack.run [mirrorExMeeting] (mirrorExStack.start 4 2 0 1 (rA0 (10 - 1e-8) 0 0)) = .next s ∧ s.ray.aInt = [1] ∧ s.ray.stop = true ∧
    (swapCells mirrorExStack).run [mirrorExMeeting] ((swapCells mirrorExStack).start 2 4 0 1 (rA0 (10 - 1e-8) 0 (Real.pi / 2 - 0))) = .next (moveRay swapXY swapXY s) ∧
    (swapCells mirrorExStack).run [mirrorExMeeting] ((swapCells mirrorExStack).start (10 - 2) 4 0 1 (rA0 (10 - 1e-8) 0 (0 + Real.pi / 2))) = .next (moveRay (turnPt 10) turn s) := by
  have hm := C173_stack mirrorExStack rfl 4 2 (10 - 1e-8) 0 0 0 1 (.cons mirrorEx_mirrored .nil) mirrorEx_unambiguous
  have ht := C153_stack mirrorExStack rfl (L := 10) (by norm_num) (by intro cell hc; simp [mirrorExStack] at hc; rw [hc]) 4 2 (10 - 1e-8) 0 0 0 1 (.cons mirrorEx_turned .nil) mirrorEx_unambiguous
  have hrun : ∃ s, mirrorExStack.run [mirrorExMeeting] (mirrorExStack.start 4 2 0 1 (rA0 (10 - 1e-8) 0 0)) = .next s ∧ s.ray.aInt = [1] ∧ s.ray.stop = true := by
    rw [mirrorEx_start]
    obtain ⟨r, d, θ, e⟩ := turnEx_step ⟨0, 0, -1⟩
    have hmeet : mirrorExStack.meet { Lx := 10, Ly := 10, zmin := 0, zmax := 5, zcov := 0 } (some fun _ _ => (0, 0, [1])) 1 1 mirrorExMeeting
        { ray := Stack.start 0 1, r := some ⟨4, 2, 10⟩, d := ⟨0, 0, -1⟩ } = some (.absorbed [1] r d θ 1 1) := by
      unfold RTStack.meet RTStack.randomised
      simp only
      rw [if_neg (show ¬(mirrorExStack.randomize = true ∧ 0 < (Stack.start 0 1).nPasses) by simp [mirrorExStack])]
      simp only [show mirrorExStack.periodic = true from rfl, if_true]
      unfold wrapOpt
      rw [if_neg (by norm_num)]
      simp only [Option.map_some, mirrorEx_wrap, mirrorExMeeting, List.map_cons, List.map_nil]
      rw [show IterDraw.draw mirrorExStack.asin mirrorExStack.pol (some fun _ _ => (0, 0, [1])) 1 1 mirrorExIter = turnExDraw from rfl]
      unfold sicRun
      rw [show (Stack.start 0 1).dir = 1 from rfl, e]
      rfl
    have hstep : mirrorExStack.S.step (Stack.start 0 1) (.absorb [1]) = some ((Stack.start 0 1).interact (.absorb [1])) := by
      unfold Stack.step
      rw [if_neg (show ¬(Stack.start 0 1).stop = true by simp [Stack.start])]
      have h1 : pyIndex mirrorExStack.S.nSurf (Stack.start 0 1).surf = some 0 := by simp [mirrorExStack, Stack.nSurf, Stack.start, pyIndex]
      have h2 : pyIndex mirrorExStack.S.widths.length (Stack.start 0 1).mat = some 0 := by simp [mirrorExStack, Stack.start, pyIndex]
      have h3 : pyIndex mirrorExStack.S.widths.length (if (Stack.start 0 1).dir = 1 then (Stack.start 0 1).mat + 1 else (Stack.start 0 1).mat - 1) = some 1 := by
        simp [mirrorExStack, Stack.start, pyIndex]
      rw [h1, h2, h3]
      simp only [Option.bind_some]
      have h4 : mirrorExStack.S.checkEnd ((Stack.start 0 1).interact (.absorb [1])) = (Stack.start 0 1).interact (.absorb [1]) := by
        simp [Stack.checkEnd, Ray.interact, Stack.start, mirrorExStack]
      rw [h4]
      simp [Ray.interact]
    refine ⟨{ ray := (Stack.start 0 1).interact (.absorb [1]), r := some r, d := d }, ?_, by simp [Ray.interact, Stack.start], rfl⟩
    have h : mirrorExStack.step mirrorExMeeting { ray := Stack.start 0 1, r := some ⟨4, 2, 10⟩, d := ⟨0, 0, -1⟩ } = .next { ray := (Stack.start 0 1).interact (.absorb [1]), r := some r, d := d } := by
      unfold RTStack.step
      rw [if_neg (show ¬(Stack.start 0 1).stop = true by simp [Stack.start])]
      have h1 : pyGet mirrorExStack.cells (Stack.start 0 1).surf = some { Lx := 10, Ly := 10, zmin := 0, zmax := 5, zcov := 0 } := rfl
      have h2 : pyGet mirrorExStack.tabs (Stack.start 0 1).surf = some (some fun _ _ => (0, 0, [1])) := rfl
      have h3 : pyGet mirrorExStack.nks (if (Stack.start 0 1).dir = 1 then (Stack.start 0 1).mat else (Stack.start 0 1).mat - 1) = some 1 := rfl
      have h4 : pyGet mirrorExStack.nks (if (Stack.start 0 1).dir = 1 then (Stack.start 0 1).mat + 1 else (Stack.start 0 1).mat) = some 1 := rfl
      rw [h1, h2, h3, h4]
      simp only
      rw [hmeet]
      unfold RTStack.advance
      simp only [SicRes.outcome]
      rw [hstep]
      rfl
    unfold RTStack.run
    rw [h]
    rfl
  obtain ⟨s, e, e1, e2⟩ := hrun
  rw [e] at hm ht
  exact ⟨s, e, e1, e2, hm, ht⟩

end Rayflare
