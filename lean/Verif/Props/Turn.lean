import Verif.Spec.Turn
import Verif.Lemmas.Intersect
import Verif.Props.Azimuth
import Verif.Model.Surface
import Mathlib.Tactic.IntervalCases

/-!
# Property C153: turning the surface and the light by 90° turns the result
-/

namespace Rayflare

open Rayflare.Np Rayflare.Model Rayflare.Spec Rayflare.Lemmas

/-! ## Helper lemmas: vectors -/

section
variable (Ly : ℝ)

theorem turn_dot (a b : V3) : V3.dot (turn a) (turn b) = V3.dot a b := by simp only [V3.dot, turn]; ring

theorem turn_norm (a : V3) : V3.norm (turn a) = V3.norm a := by unfold V3.norm; rw [turn_dot]

theorem turn_cross (a b : V3) : V3.cross (turn a) (turn b) = turn (V3.cross a b) := by
  ext <;> simp only [V3.cross, turn] <;> ring

theorem turn_add (a b : V3) : turn (a + b) = turn a + turn b := by ext <;> simp only [turn, V3.add_x, V3.add_y, V3.add_z]; ring

theorem turn_sub (a b : V3) : turn (a - b) = turn a - turn b := by ext <;> simp only [turn, V3.sub_x, V3.sub_y, V3.sub_z]; ring

theorem turn_neg (a : V3) : turn (-a) = -turn a := by ext <;> simp only [turn, V3.neg_x, V3.neg_y, V3.neg_z]

theorem turn_smul (k : ℝ) (a : V3) : turn (k • a) = k • turn a := by ext <;> simp only [turn, V3.smul_x, V3.smul_y, V3.smul_z]; ring

theorem turnPt_sub (p q : V3) : turnPt Ly p - turnPt Ly q = turn (p - q) := by
  ext <;> simp only [turn, turnPt, V3.sub_x, V3.sub_y, V3.sub_z]; ring

theorem turnPt_add (p v : V3) : turnPt Ly (p + v) = turnPt Ly p + turn v := by
  ext <;> simp only [turn, turnPt, V3.add_x, V3.add_y, V3.add_z]; ring

theorem turn_localTheta (N d : V3) : localTheta (turn N) (turn d) = localTheta N d := by
  unfold localTheta
  rw [← turn_neg, turn_dot, turn_cross, turn_norm]

theorem turn_normalise (d : V3) : normalise (turn d) = turn (normalise d) := by
  unfold normalise; rw [turn_norm, turn_smul]

theorem turn_reflect (d N : V3) : reflectDir (turn d) (turn N) = turn (reflectDir d N) := by
  unfold reflectDir; rw [turn_dot, turn_sub, turn_smul]

theorem turn_trPar (k : ℝ) (d N : V3) : trPar k (turn d) (turn N) = turn (trPar k d N) := by
  unfold trPar; rw [turn_dot, turn_smul, turn_sub, turn_smul]

theorem turn_refract (k : ℝ) (d N : V3) : refractDir k (turn d) (turn N) = turn (refractDir k d N) := by
  unfold refractDir; rw [turn_trPar, turn_norm, turn_add, turn_smul]

theorem turn_refractC (k : ℂ) (d N : V3) : refractDirC k (turn d) (turn N) = turn (refractDirC k d N) := by
  unfold refractDirC
  simp only
  rw [turn_dot, ← turn_smul, ← turn_sub, turn_norm, turn_add, turn_smul, turn_smul]

/-- Decisions do not depend on the orientation. -/
theorem turn_dec {dec : ℝ → V3 → V3 → ℤ → V3 × ℤ × Option (List ℝ)} (h : Optical dec) (θ : ℝ) (d N : V3) (side : ℤ) :
    dec θ (turn d) (turn N) side = (turn (dec θ d N side).1, (dec θ d N side).2.1, (dec θ d N side).2.2) := by
  rcases h with ⟨a, b, arc, pol, rnd, rfl⟩ | ⟨a, b, tab, rnd, rfl⟩
  · simp only [fresnelDec, decideFresnel]
    by_cases e : rnd ≤ decideR (if side = 1 then a else b) (if side = 1 then b else a) θ (arc side θ) pol
    · simp only [if_pos e]; rw [turn_reflect, turn_normalise]
    · simp only [if_neg e]; rw [turn_refract, turn_normalise]
  · simp only [tmmDec, decideTMM]
    by_cases e : rnd ≤ (tab side |θ|).1
    · simp only [if_pos e]; rw [turn_reflect, turn_normalise]
    · simp only [if_neg e]
      by_cases e' : rnd > (tab side |θ|).1 ∧ rnd ≤ (tab side |θ|).1 + (tab side |θ|).2.1
      · simp only [if_pos e']; rw [turn_refractC, turn_normalise]
      · simp only [if_neg e']

/-! ## Helper lemmas: facets -/

theorem turned_crossP {τ τ' : Tri} (h : TurnedTri Ly τ τ') : τ'.crossP = turn τ.crossP := by
  unfold Tri.crossP
  rcases h with ⟨h0, h1, h2⟩ | ⟨h0, h1, h2⟩ | ⟨h0, h1, h2⟩ <;> rw [h0, h1, h2, turnPt_sub, turnPt_sub, turn_cross] <;> congr 1 <;>
    (ext <;> simp only [V3.cross, V3.sub_x, V3.sub_y, V3.sub_z] <;> ring)

theorem turned_N {τ τ' : Tri} (h : TurnedTri Ly τ τ') : τ'.N = turn τ.N := by
  unfold Tri.N; rw [turned_crossP Ly h, turn_norm, turn_smul]

theorem turned_det {τ τ' : Tri} (h : TurnedTri Ly τ τ') (d : V3) : τ'.det (turn d) = τ.det d := by
  unfold Tri.det; rw [turned_crossP Ly h, ← turn_neg, turn_dot]

theorem turned_solve {τ τ' : Tri} (h : TurnedTri Ly τ τ') (r d : V3) (hd : τ.det d ≠ 0) :
    τ'.t (turnPt Ly r) (turn d) = τ.t r d ∧
    ((τ'.u (turnPt Ly r) (turn d) = τ.u r d ∧ τ'.v (turnPt Ly r) (turn d) = τ.v r d) ∨
     (τ'.u (turnPt Ly r) (turn d) = τ.v r d ∧ τ'.v (turnPt Ly r) (turn d) = 1 - τ.u r d - τ.v r d) ∨
     (τ'.u (turnPt Ly r) (turn d) = 1 - τ.u r d - τ.v r d ∧ τ'.v (turnPt Ly r) (turn d) = τ.u r d)) := by
  have e := tri_solve τ r d hd
  have e' : turnPt Ly r + τ.t r d • turn d = turnPt Ly (τ.P0 + τ.u r d • (τ.P1 - τ.P0) + τ.v r d • (τ.P2 - τ.P0)) := by
    rw [← e, turnPt_add, turn_smul]
  have hd' : τ'.det (turn d) ≠ 0 := by rw [turned_det Ly h]; exact hd
  rcases h with ⟨h0, h1, h2⟩ | ⟨h0, h1, h2⟩ | ⟨h0, h1, h2⟩
  · obtain ⟨a, b, c⟩ := tri_unique τ' (turnPt Ly r) (turn d) hd' (t := τ.t r d) (u := τ.u r d) (v := τ.v r d) (by
      rw [e', h0, h1, h2, turnPt_sub, turnPt_sub, turnPt_add, turnPt_add, turn_smul, turn_smul])
    exact ⟨a, Or.inl ⟨b, c⟩⟩
  · obtain ⟨a, b, c⟩ := tri_unique τ' (turnPt Ly r) (turn d) hd' (t := τ.t r d) (u := τ.v r d) (v := 1 - τ.u r d - τ.v r d) (by
      rw [e', h0, h1, h2, turnPt_sub, turnPt_sub]
      ext <;> simp only [turn, turnPt, V3.add_x, V3.add_y, V3.add_z, V3.smul_x, V3.smul_y, V3.smul_z, V3.sub_x, V3.sub_y, V3.sub_z] <;> ring)
    exact ⟨a, Or.inr (Or.inl ⟨b, c⟩)⟩
  · obtain ⟨a, b, c⟩ := tri_unique τ' (turnPt Ly r) (turn d) hd' (t := τ.t r d) (u := 1 - τ.u r d - τ.v r d) (v := τ.u r d) (by
      rw [e', h0, h1, h2, turnPt_sub, turnPt_sub]
      ext <;> simp only [turn, turnPt, V3.add_x, V3.add_y, V3.add_z, V3.smul_x, V3.smul_y, V3.smul_z, V3.sub_x, V3.sub_y, V3.sub_z] <;> ring)
    exact ⟨a, Or.inr (Or.inr ⟨b, c⟩)⟩

theorem hit_strict {τ : Tri} {r d : V3} (hc : Clear τ r d) :
    τ.hit r d = true ↔ τ.det d ≠ 0 ∧ 0 < τ.u r d ∧ 0 < τ.v r d ∧ 0 < 1 - τ.u r d - τ.v r d ∧ 0 < τ.t r d := by
  unfold Tri.hit
  rw [decide_eq_true_eq]
  have hp : (0 : ℝ) < 1 / 10 ^ 10 := by positivity
  constructor
  · rintro ⟨a, b, ⟨c1, c2⟩, e⟩
    have h := hc a
    refine ⟨a, (h _ (Or.inl rfl)).resolve_right (by linarith), (h _ (Or.inr (Or.inl rfl))).resolve_right (by linarith), (h _ (Or.inr (Or.inr rfl))).resolve_right (by linarith), e⟩
  · rintro ⟨a, b, c, e, f⟩
    exact ⟨a, by linarith, ⟨by linarith, by linarith⟩, f⟩

theorem clear_turned {τ τ' : Tri} (h : TurnedTri Ly τ τ') {r d : V3} (hc : Clear τ r d) : Clear τ' (turnPt Ly r) (turn d) := by
  intro hd x hx
  rw [turned_det Ly h] at hd
  obtain ⟨-, hs⟩ := turned_solve Ly h r d hd
  refine hc hd x ?_
  rcases hs with ⟨a, b⟩ | ⟨a, b⟩ | ⟨a, b⟩ <;> rw [a, b] at hx <;> rcases hx with hx | hx | hx
  · exact Or.inl hx
  · exact Or.inr (Or.inl hx)
  · exact Or.inr (Or.inr hx)
  · exact Or.inr (Or.inl hx)
  · exact Or.inr (Or.inr hx)
  · left; rw [hx]; ring
  · exact Or.inr (Or.inr hx)
  · exact Or.inl hx
  · right; left; rw [hx]; ring

theorem turned_hit {τ τ' : Tri} (h : TurnedTri Ly τ τ') {r d : V3} (hc : Clear τ r d) : (τ'.hit (turnPt Ly r) (turn d) = true ↔ τ.hit r d = true) := by
  rw [hit_strict hc, hit_strict (clear_turned Ly h hc), turned_det Ly h]
  refine and_congr_right fun hd => ?_
  obtain ⟨e, hs⟩ := turned_solve Ly h r d hd
  rw [e]
  rcases hs with ⟨a, b⟩ | ⟨a, b⟩ | ⟨a, b⟩ <;> rw [a, b]
  · constructor
    · rintro ⟨p, q, s, t⟩; exact ⟨by linarith, by linarith, by linarith, t⟩
    · rintro ⟨p, q, s, t⟩; exact ⟨by linarith, by linarith, by linarith, t⟩
  · constructor
    · rintro ⟨p, q, s, t⟩; exact ⟨by linarith, by linarith, by linarith, t⟩
    · rintro ⟨p, q, s, t⟩; exact ⟨by linarith, by linarith, by linarith, t⟩

theorem checkIntersect_isSome {r d : V3} {tris : List Tri} {τ : Tri} (hτ : τ ∈ tris) (hh : τ.hit r d = true) : ∃ p θ N, checkIntersect r d tris = some (p, θ, N) := by
  rcases h : checkIntersect r d tris with _ | ⟨p, θ, N⟩
  · have := checkIntersect_none h τ hτ
    rw [hh] at this; cases this
  · exact ⟨p, θ, N, rfl⟩

theorem turned_intersect {tris tris' : List Tri} (h : TurnedSurface Ly tris tris') {r d : V3} (hc : ∀ τ ∈ tris, Clear τ r d)
    (hn : ∀ τ ∈ tris, ∀ τ' ∈ tris, τ.hit r d = true → τ'.hit r d = true → τ.t r d = τ'.t r d → τ.N = τ'.N) :
    checkIntersect (turnPt Ly r) (turn d) tris' = (checkIntersect r d tris).map fun q => (turnPt Ly q.1, q.2.1, turn q.2.2) := by
  rcases hci : checkIntersect r d tris with _ | ⟨p, θ, N⟩
  · rw [Option.map_none]
    rcases hci' : checkIntersect (turnPt Ly r) (turn d) tris' with _ | ⟨p, θ, N⟩
    · rfl
    · obtain ⟨τ', hτ', hh', -⟩ := checkIntersect_some hci'
      obtain ⟨τ, hτ, ht⟩ := h.2 τ' hτ'
      have := (turned_hit Ly ht (hc τ hτ)).mp hh'
      rw [checkIntersect_none hci τ hτ] at this; cases this
  · obtain ⟨τ, hτ, hh, rfl, rfl, rfl, hmin⟩ := checkIntersect_some hci
    obtain ⟨τ₁, hτ₁, ht₁⟩ := h.1 τ hτ
    have hh₁ := (turned_hit Ly ht₁ (hc τ hτ)).mpr hh
    obtain ⟨p', θ', N', hci'⟩ := checkIntersect_isSome hτ₁ hh₁
    obtain ⟨τ₂, hτ₂, hh₂, rfl, rfl, rfl, hmin₂⟩ := checkIntersect_some hci'
    obtain ⟨τ₃, hτ₃, ht₃⟩ := h.2 τ₂ hτ₂
    have hh₃ := (turned_hit Ly ht₃ (hc τ₃ hτ₃)).mp hh₂
    have hd : τ.det d ≠ 0 := ((hit_strict (hc τ hτ)).mp hh).1
    have hd₃ : τ₃.det d ≠ 0 := ((hit_strict (hc τ₃ hτ₃)).mp hh₃).1
    have e₁ := (turned_solve Ly ht₁ r d hd).1
    have e₃ := (turned_solve Ly ht₃ r d hd₃).1
    have a := hmin τ₃ hτ₃ hh₃
    have b := hmin₂ τ₁ hτ₁ hh₁
    rw [e₁, e₃] at b
    have et : τ.t r d = τ₃.t r d := le_antisymm a b
    have eN := hn τ hτ τ₃ hτ₃ hh hh₃ et
    rw [hci', Option.map_some]
    simp only [Option.some.injEq, Prod.mk.injEq]
    rw [e₃, turned_N Ly ht₃, turn_localTheta, ← eN, ← et, turnPt_add, turn_smul]
    exact ⟨rfl, rfl, rfl⟩

/-! ## Helper lemmas: the unit cell -/

theorem turned_exitTs (r d : V3) (Lx : ℝ) : ∃ a b c e, exitTs r d Lx Ly = [a, b, c, e] ∧ exitTs (turnPt Ly r) (turn d) Ly Lx = [b, c, e, a] := by
  refine ⟨_, _, _, _, rfl, ?_⟩
  simp only [exitTs, turnPt, turn]
  rw [show -(Ly - (Ly - r.y)) = 0 - r.y by ring, show 0 - (Ly - r.y) = -(Ly - r.y) by ring, neg_neg]

theorem oneExit_eq {r d : V3} {Lx : ℝ} {i : ℕ} (hi : i < 4) {t : ℝ} (ht : (exitTs r d Lx Ly)[i]? = some (some t)) (hm : ∀ j ≠ i, ∀ t', (exitTs r d Lx Ly)[j]? = some (some t') → t < t') :
    exitSide r d Lx Ly = (i, some t) := by
  obtain ⟨a, b, c, e, hl⟩ : ∃ a b c e, exitTs r d Lx Ly = [a, b, c, e] := ⟨_, _, _, _, rfl⟩
  have hle : ∀ j ≠ i, ∀ x, (exitTs r d Lx Ly)[j]? = some x → leInf (some t) x = true ∧ leInf x (some t) = false := by
    intro j hj x hx
    rcases x with _ | x
    · simp [leInf]
    · have := hm j hj x hx
      simp [leInf, this, this.le]
  unfold exitSide
  simp only
  rw [hl] at ht hle ⊢
  have hself : leInf (some t) (some t) = true := by simp [leInf]
  have key : List.findIdx (fun x => [a, b, c, e].all fun y => leInf x y) [a, b, c, e] = i := by
    interval_cases i
    · have h1 := hle 1 (by omega) b rfl
      have h2 := hle 2 (by omega) c rfl
      have h3 := hle 3 (by omega) e rfl
      simp only [List.getElem?_cons_zero, Option.some.injEq] at ht
      subst ht
      simp [List.findIdx_cons, hself, h1, h2, h3]
    · have h1 := hle 0 (by omega) a rfl
      have h2 := hle 2 (by omega) c rfl
      have h3 := hle 3 (by omega) e rfl
      simp only [List.getElem?_cons_succ, List.getElem?_cons_zero, Option.some.injEq] at ht
      subst ht
      simp [List.findIdx_cons, hself, h1, h2, h3]
    · have h1 := hle 0 (by omega) a rfl
      have h2 := hle 1 (by omega) b rfl
      have h3 := hle 3 (by omega) e rfl
      simp only [List.getElem?_cons_succ, List.getElem?_cons_zero, Option.some.injEq] at ht
      subst ht
      simp [List.findIdx_cons, hself, h1, h2, h3]
    · have h1 := hle 0 (by omega) a rfl
      have h2 := hle 1 (by omega) b rfl
      have h3 := hle 2 (by omega) c rfl
      simp only [List.getElem?_cons_succ, List.getElem?_cons_zero, Option.some.injEq] at ht
      subst ht
      simp [List.findIdx_cons, hself, h1, h2, h3]
  rw [key, List.getD_eq_getElem?_getD, ht]
  rfl

/-- The side through which the turned ray leaves is the turned side. -/
theorem turned_exit {r d : V3} {Lx : ℝ} (h : OneExit r d Lx Ly) : ∃ i t, exitSide r d Lx Ly = (i, some t) ∧
    ∃ i', exitSide (turnPt Ly r) (turn d) Ly Lx = (i', some t) ∧ translation Ly Lx i' = turn (translation Lx Ly i) := by
  obtain ⟨i, hi, t, ht, hm⟩ := h
  refine ⟨i, t, oneExit_eq Ly hi ht hm, ?_⟩
  obtain ⟨a, b, c, e, hl', hl2⟩ := turned_exitTs Ly r d Lx
  rw [hl'] at ht hm
  have go : ∀ i' < 4, [b, c, e, a][i']? = some (some t) → (∀ j ≠ i', ∀ t', [b, c, e, a][j]? = some (some t') → t < t') → exitSide (turnPt Ly r) (turn d) Ly Lx = (i', some t) :=
    fun i' hi' h1 h2 => oneExit_eq Lx hi' (by rw [hl2]; exact h1) (by rw [hl2]; exact h2)
  have back : ∀ j t', [b, c, e, a][j]? = some (some t') → [a, b, c, e][(j + 1) % 4]? = some (some t') := by
    intro j t' h
    match j, h with
    | 0, h => exact h
    | 1, h => exact h
    | 2, h => exact h
    | 3, h => exact h
    | (n + 4), h => simp at h
  interval_cases i
  · refine ⟨3, go 3 (by omega) ht fun j hj t' h => hm _ ?_ t' (back j t' h), ?_⟩
    · have : j < 4 := by by_contra hcon; rw [List.getElem?_eq_none (by simp; omega)] at h; cases h
      omega
    · ext <;> simp [translation, turn]
  · refine ⟨0, go 0 (by omega) ht fun j hj t' h => hm _ ?_ t' (back j t' h), ?_⟩
    · have : j < 4 := by by_contra hcon; rw [List.getElem?_eq_none (by simp; omega)] at h; cases h
      omega
    · ext <;> simp [translation, turn]
  · refine ⟨1, go 1 (by omega) ht fun j hj t' h => hm _ ?_ t' (back j t' h), ?_⟩
    · have : j < 4 := by by_contra hcon; rw [List.getElem?_eq_none (by simp; omega)] at h; cases h
      omega
    · ext <;> simp [translation, turn]
  · refine ⟨2, go 2 (by omega) ht fun j hj t' h => hm _ ?_ t' (back j t' h), ?_⟩
    · have : j < 4 := by by_contra hcon; rw [List.getElem?_eq_none (by simp; omega)] at h; cases h
      omega
    · ext <;> simp [translation, turn]

theorem floor_turn {L y : ℝ} (hL : 0 < L) (h : ∀ n : ℤ, y ≠ n * L) : ⌊(L - y) / L⌋ = -⌊y / L⌋ := by
  rw [Int.floor_eq_iff]
  have h1 := Int.floor_le (y / L)
  have h2 := Int.lt_floor_add_one (y / L)
  have h3 : (⌊y / L⌋ : ℝ) ≠ y / L := by
    intro e
    apply h ⌊y / L⌋
    rw [e]; field_simp
  have h4 : (⌊y / L⌋ : ℝ) < y / L := lt_of_le_of_ne h1 h3
  rw [sub_div, div_self hL.ne']
  push_cast
  constructor <;> linarith

theorem turned_backInto {L y : ℝ} (hL : 0 < L) (h : ∀ n : ℤ, y ≠ n * L) : backInto (L - y) L = L - backInto y L := by
  unfold backInto
  by_cases e : y > L ∨ y < 0
  · rw [if_pos e, if_pos (by rcases e with e | e; · right; linarith
                             · left; linarith), floor_turn hL h]
    push_cast; ring
  · rw [if_neg e, if_neg]
    rintro (h1 | h1)
    · exact e (Or.inr (by linarith))
    · exact e (Or.inl (by linarith))

/-! ## Helper lemmas: one iteration -/

/-- The state of the loop, turned. -/
def turnSic (s : Sic) : Sic := { s with r := turnPt Ly s.r, d := turn s.d }

theorem turned_step {Lx : ℝ} (hLy : 0 < Ly) {d0 : V3} {w w' : Draw} (hw : TurnedDraw Ly w w') {s : Sic} (hu : Unambiguous Lx Ly w s) :
    sicStep Ly Lx (turn d0) w' (turnSic Ly s) = (sicStep Lx Ly d0 w s).map (turnSic Ly) (turnRes Ly) := by
  have hci := turned_intersect Ly hw.tris hu.edges hu.nearest
  unfold sicStep
  simp only [turnSic]
  rcases hc : checkIntersect s.r s.d w.tris with _ | ⟨p, θ, N⟩
  · rw [hc, Option.map_none] at hci
    rw [hci]
    simp only
    by_cases hch : s.checked = false
    · simp only [hch, Bool.not_false, if_true]
      by_cases h1 : s.i1 + 1 > 1
      · simp only [if_pos h1, Sum.map_inl]
        obtain ⟨i, t, e, i', e', et⟩ := turned_exit Ly (hu.leave hc hch (by omega))
        rw [e, e', et, turnSic, turnPt_add]
      · simp only [if_neg h1]
        by_cases h2 : s.misses < 100
        · simp only [if_pos h2, Sum.map_inl]
          congr 2
          unfold relaunch
          simp only [turn]
          by_cases h3 : s.d.z < 0
          · simp only [if_pos h3, turnPt, hw.rx, hw.ry, hw.zmax]
            congr 1; ring
          · simp only [if_neg h3, turnPt, hw.rx, hw.ry, hw.zmin]
            congr 1; ring
        · simp only [if_neg h2, Sum.map_inr, turnRes]
          have : (⟨(turn s.d).x, (turn s.d).y, -(turn s.d).z⟩ : V3) = turn ⟨s.d.x, s.d.y, -s.d.z⟩ := rfl
          rw [this]
          congr 2
          unfold Model.polar; rw [turn_norm]; rfl
    · have hch' : s.checked = true := by simpa using hch
      simp only [hch', Bool.not_true, Bool.false_eq_true, if_false]
      have hcond : ((s.side = 1 ∧ (turn s.d).z < 0 ∧ (turnPt Ly s.r).z > w'.zmin) ∨ (s.side = -1 ∧ (turn s.d).z > 0 ∧ (turnPt Ly s.r).z < w'.zmax)) ↔
          ((s.side = 1 ∧ s.d.z < 0 ∧ s.r.z > w.zmin) ∨ (s.side = -1 ∧ s.d.z > 0 ∧ s.r.z < w.zmax)) := by rw [hw.zmin, hw.zmax]; rfl
      have hr : (⟨backInto (turnPt Ly s.r).x Ly, backInto (turnPt Ly s.r).y Lx, (turnPt Ly s.r).z⟩ : V3) = turnPt Ly ⟨backInto s.r.x Lx, backInto s.r.y Ly, s.r.z⟩ := by
        ext
        · exact turned_backInto hLy (hu.inside hc hch')
        · rfl
        · rfl
      have hfin : finalRes (turn d0) (turn s.d) = finalRes d0 s.d := rfl
      have hpol : Model.polar (turn s.d) = Model.polar s.d := by unfold Model.polar; rw [turn_norm]; rfl
      by_cases hgo : (s.side = 1 ∧ s.d.z < 0 ∧ s.r.z > w.zmin) ∨ (s.side = -1 ∧ s.d.z > 0 ∧ s.r.z < w.zmax)
      · refine (if_pos (hcond.mpr hgo)).trans ?_
        rw [if_pos hgo, hr]
        obtain ⟨i, t, e, i', e', et⟩ := turned_exit Ly (hu.pass hc hch' hgo)
        rw [e, e']
        simp only [Sum.map_inl]
        rw [et, turnSic, turnPt_add, turnPt_add, turn_smul]
      · refine (if_neg (fun h => hgo (hcond.mp h))).trans ?_
        rw [if_neg hgo, hr, hfin, hpol]
        rfl
  · rw [hc, Option.map_some] at hci
    rw [hci]
    obtain ⟨hdec, hopt⟩ := hw.dec
    have hd : w'.dec θ (turn s.d) ((s.side : ℝ) • turn N) s.side =
        (turn (w.dec θ s.d ((s.side : ℝ) • N) s.side).1, (w.dec θ s.d ((s.side : ℝ) • N) s.side).2.1, (w.dec θ s.d ((s.side : ℝ) • N) s.side).2.2) := by
      rw [hdec, ← turn_smul, turn_dec hopt]
    obtain ⟨tr, zm, zM, rx, ry, dec⟩ := w
    obtain ⟨tr', zm', zM', rx', ry', dec'⟩ := w'
    simp only at hd ⊢
    rw [hd]
    rcases dec θ s.d ((s.side : ℝ) • N) s.side with ⟨d, side, A⟩
    rcases A with _ | A
    · simp only [Sum.map_inl, turnSic]
      rw [turnPt_add, turn_smul]
    · simp only [Sum.map_inr, turnRes]
      rw [turnPt_add, turn_smul]

theorem turned_run {Lx : ℝ} (hLy : 0 < Ly) {d0 : V3} {ws ws' : List Draw} (hw : List.Forall₂ (TurnedDraw Ly) ws ws') {s : Sic} (hu : UnambiguousRun Lx Ly d0 ws s) :
    sicRun Ly Lx (turn d0) ws' (turnSic Ly s) = (sicRun Lx Ly d0 ws s).map (turnSic Ly) (turnRes Ly) := by
  induction hw generalizing s with
  | nil => rfl
  | cons h _ ih =>
    obtain ⟨h1, h2⟩ := hu
    unfold sicRun
    rw [turned_step Ly hLy h h1]
    rcases hs : sicStep Lx Ly d0 _ s with s' | res
    · rw [hs] at h2
      simp only [Sum.map_inl]
      exact ih h2
    · simp only [Sum.map_inr]

theorem turned_rA0 (h θ φ : ℝ) : rA0 h θ (φ + Real.pi / 2) = turn (rA0 h θ φ) := by
  unfold rA0 turn
  simp only [Real.cos_add_pi_div_two, Real.sin_add_pi_div_two]
  ext <;> simp

theorem turned_launchD (x y x' y' : ℝ) (a : V3) : launchD x' y' (turn a) = turn (launchD x y a) := by
  have h : ∀ x y (a : V3), (⟨x, y, 0⟩ : V3) - launchA x y a = -a := by
    intro x y a
    ext <;> simp [launchA]
  unfold launchD
  simp only [h]
  rw [← turn_neg, turn_norm]
  ext <;> simp only [turn]
  ring

end

/-! ## The property -/

/-- **C153, one ray.** The surface, the light and the random relaunch positions are turned by 90° about the vertical; the same random numbers decide at the facets.  Then everything that happens to the ray is turned by 90°: it is reflected, transmitted or absorbed alike, after as many
interactions, at the same local angles, and leaves in the turned direction at the turned position.  (For rays that do not pass exactly through edges of facets or of the unit cell, where the order in which facets are listed decides.) -/
theorem C153_turn (c : Texture) (hLy : 0 < c.Ly) (θ φ x y : ℝ) {ws ws' : List Draw} (hw : List.Forall₂ (TurnedDraw c.Ly) ws ws') (hu : UnambiguousRay c θ φ x y ws) :
    traceInterface (turnCell c) θ (φ + Real.pi / 2) (c.Ly - y) x ws' = (traceInterface c θ φ x y ws).map (turnRes c.Ly) := by
  obtain ⟨hwrap, hrun⟩ := hu
  unfold launchState at hrun
  unfold traceInterface
  simp only
  have hd : launchD (c.Ly - y) x (rA0 c.h θ (φ + Real.pi / 2)) = turn (launchD x y (rA0 c.h θ φ)) := by rw [turned_rA0]; exact turned_launchD _ _ _ _ _
  have ha : launchA (c.Ly - y) x (rA0 c.h θ (φ + Real.pi / 2)) = turnPt c.Ly (launchA x y (rA0 c.h θ φ)) := by
    rw [turned_rA0]
    ext <;> simp only [launchA, turn, turnPt, V3.add_x, V3.add_y, V3.add_z]
    ring
  simp only [turnCell]
  rw [hd, ha]
  set a := launchA x y (rA0 c.h θ φ)
  set d := launchD x y (rA0 c.h θ φ)
  have hwr : wrapRay (turnPt c.Ly a) (turn d) c.Ly c.Lx c.zcov = turnPt c.Ly (wrapRay a d c.Lx c.Ly c.zcov) := by
    unfold wrapRay
    ext
    · simp only [turnPt, turn]
      have e : c.Ly - a.y + -d.y * (c.zcov - a.z) / d.z = c.Ly - (a.y + d.y * (c.zcov - a.z) / d.z) := by ring
      rw [e, floor_turn hLy hwrap]
      push_cast; ring
    · rfl
    · rfl
  have hs : sicStart (wrapRay (turnPt c.Ly a) (turn d) c.Ly c.Lx c.zcov) (turn d) 1 0 = turnSic c.Ly (sicStart (wrapRay a d c.Lx c.Ly c.zcov) d 1 0) := by
    rw [hwr]; rfl
  rw [hs, turned_run c.Ly hLy hw hrun]
  rcases sicRun c.Lx c.Ly d ws (sicStart (wrapRay a d c.Lx c.Ly c.zcov) d 1 0) with s | res <;> rfl

/-! ### Helper lemmas: counting -/

theorem turned_azimuth (d : V3) : ∃ k : ℤ, azimuth (turn d) = azimuth d + k * (2 * Real.pi / (4 : ℕ)) := by
  unfold azimuth
  by_cases h : (⟨d.x, d.y⟩ : ℂ) = 0
  · refine ⟨0, ?_⟩
    have hx : d.x = 0 := congrArg Complex.re h
    have hy : d.y = 0 := congrArg Complex.im h
    simp [turn, hx, hy]
  · have e : (⟨(turn d).x, (turn d).y⟩ : ℂ) = Complex.I * ⟨d.x, d.y⟩ := by
      apply Complex.ext <;> simp [turn]
    have hc := Complex.arg_mul_coe_angle Complex.I_ne_zero h
    rw [← e, Complex.arg_I, ← Real.Angle.coe_add, Real.Angle.angle_eq_iff_two_pi_dvd_sub] at hc
    obtain ⟨k, hk⟩ := hc
    refine ⟨1 + 4 * k, ?_⟩
    push_cast
    linarith

theorem turned_record (a : RTArgs) (hsym : a.phiSym = 2 * Real.pi / (4 : ℕ)) (Ly θ φ : ℝ) (res : SicRes) :
    a.record { θin := θ, φin := φ + Real.pi / 2, out := (turnRes Ly res).rayOut } = a.record { θin := θ, φin := φ, out := res.rayOut } := by
  have hin : foldPhi (φ + Real.pi / 2) a.phiSym = foldPhi φ a.phiSym := by
    rw [hsym]; exact fold_congr 4 (by norm_num) _ _ ⟨1, by push_cast; ring⟩
  have hleave : ∀ (ot : ℝ) (d : V3), a.record { θin := θ, φin := φ + Real.pi / 2, out := .leaves ot (azimuth (turn d)) } = a.record { θin := θ, φin := φ, out := .leaves ot (azimuth d) } := by
    intro ot d
    have hout : a.phiOut (.leaves ot (azimuth (turn d))) = a.phiOut (.leaves ot (azimuth d)) := by
      unfold RTArgs.phiOut
      rw [hsym]
      obtain ⟨k, hk⟩ := turned_azimuth d
      refine fold_congr 4 (by norm_num) _ _ ⟨k, ?_⟩
      simp only [hk]
      by_cases h : ot < 0
      · simp only [if_pos h]; ring
      · simp only [if_neg h]
    unfold RTArgs.record
    simp only
    rw [hin, hout]
    rfl
  cases res with
  | out res ot r d θ n side => exact hleave ot d
  | absorbed A r d θl n side =>
    simp only [turnRes, SicRes.rayOut]
    unfold RTArgs.record
    simp only
    rw [hin]
  | gaveUp ot r d n side => exact hleave ot d
  | lost res ot d side => exact hleave ot d

/-! ### The matrices -/

/-- **C153, matrices.** With `phi_symmetry = π/2`, the redistribution and absorption matrices of the turned surface, for the turned light, are those of the surface. -/
theorem C153_matrix (c : Texture) (hLy : 0 < c.Ly) (a : RTArgs) (hsym : a.phiSym = 2 * Real.pi / (4 : ℕ)) (junk : RTJunk) {shots shots' : List Shot}
    (h : List.Forall₂ (TurnedShot c.Ly) shots shots') (hun : ∀ s ∈ shots, UnambiguousRay c s.θ s.φ s.x s.y s.ws)
    (ht : ∀ s ∈ shots, s.traced c) (ht' : ∀ s ∈ shots', s.traced (turnCell c)) :
    rtMatrix a junk (shots'.map Shot.ray) = rtMatrix a junk (shots.map Shot.ray) := by
  have key : (shots'.map Shot.ray).mapM a.record = (shots.map Shot.ray).mapM a.record := by
    induction h with
    | nil => rfl
    | @cons s s' _ _ h _ ih =>
      have e := C153_turn c hLy s.θ s.φ s.x s.y h.ws (hun s List.mem_cons_self)
      have t := ht s List.mem_cons_self
      have t' := ht' s' List.mem_cons_self
      unfold Shot.traced at t t'
      rw [h.θ, h.φ, h.x, h.y, e, t, Option.map_some, Option.some.injEq] at t'
      have hr : a.record s'.ray = a.record s.ray := by
        unfold Shot.ray
        rw [h.θ, h.φ, ← t']
        exact turned_record a hsym c.Ly s.θ s.φ s.res
      simp only [List.map_cons, List.mapM_cons]
      rw [hr, ih (fun s hs => hun s (List.mem_cons_of_mem _ hs)) (fun s hs => ht s (List.mem_cons_of_mem _ hs)) (fun s hs => ht' s (List.mem_cons_of_mem _ hs))]
  unfold rtMatrix
  rw [key]

/-- **C153, symmetric surfaces.** On a surface that is unchanged by a turn of 90° (square cell), with `phi_symmetry = π/2`, light from an azimuth larger by 90° gives the same matrices: the other three quadrants need not be traced. -/
theorem C153_symmetric (c : Texture) (hL : c.Lx = c.Ly) (hLy : 0 < c.Ly) (a : RTArgs) (hsym : a.phiSym = 2 * Real.pi / (4 : ℕ)) (junk : RTJunk) {shots shots' : List Shot}
    (h : List.Forall₂ (TurnedShot c.Ly) shots shots') (hun : ∀ s ∈ shots, UnambiguousRay c s.θ s.φ s.x s.y s.ws)
    (ht : ∀ s ∈ shots, s.traced c) (ht' : ∀ s ∈ shots', s.traced c) :
    rtMatrix a junk (shots'.map Shot.ray) = rtMatrix a junk (shots.map Shot.ray) := by
  have : turnCell c = c := by
    obtain ⟨Lx, Ly, z, hh⟩ := c
    simp only at hL
    subst hL; rfl
  exact C153_matrix c hLy a hsym junk h hun ht (by rw [this]; exact ht')

/-- **C153, half turn.** The same for a turn of 180°, which maps a rectangular unit cell to itself: light from the opposite azimuth, aimed at `(Lx - x, Ly - y)`. -/
theorem C153_half_turn (c : Texture) (hLx : 0 < c.Lx) (hLy : 0 < c.Ly) (θ φ x y : ℝ) {ws ws' ws'' : List Draw} (hw : List.Forall₂ (TurnedDraw c.Ly) ws ws') (hw' : List.Forall₂ (TurnedDraw c.Lx) ws' ws'')
    (hu : UnambiguousRay c θ φ x y ws) (hu' : UnambiguousRay (turnCell c) θ (φ + Real.pi / 2) (c.Ly - y) x ws') :
    traceInterface c θ (φ + Real.pi) (c.Lx - x) (c.Ly - y) ws'' = (traceInterface c θ φ x y ws).map fun r => turnRes c.Lx (turnRes c.Ly r) := by
  have h1 := C153_turn c hLy θ φ x y hw hu
  have h2 := C153_turn (turnCell c) hLx θ (φ + Real.pi / 2) (c.Ly - y) x hw' hu'
  rw [h1, Option.map_map, show φ + Real.pi / 2 + Real.pi / 2 = φ + Real.pi by ring] at h2
  exact h2

theorem half_turned_azimuth (d : V3) : ∃ k : ℤ, azimuth (turn (turn d)) = azimuth d + k * (2 * Real.pi / (2 : ℕ)) := by
  unfold azimuth
  by_cases h : (⟨d.x, d.y⟩ : ℂ) = 0
  · refine ⟨0, ?_⟩
    have hx : d.x = 0 := congrArg Complex.re h
    have hy : d.y = 0 := congrArg Complex.im h
    simp [turn, hx, hy]
  · have e : (⟨(turn (turn d)).x, (turn (turn d)).y⟩ : ℂ) = -⟨d.x, d.y⟩ := by
      apply Complex.ext <;> simp [turn]
    have hc := Complex.arg_neg_coe_angle h
    rw [← e, ← Real.Angle.coe_add, Real.Angle.angle_eq_iff_two_pi_dvd_sub] at hc
    obtain ⟨k, hk⟩ := hc
    refine ⟨1 + 2 * k, ?_⟩
    push_cast
    linarith

/-- **C153, half turn, counting.** With `phi_symmetry = π`, a ray and the ray turned by 180° are counted in the same entries of the matrices. -/
theorem C153_half_turn_counted (a : RTArgs) (hsym : a.phiSym = 2 * Real.pi / (2 : ℕ)) (Lx Ly θ φ : ℝ) (res : SicRes) :
    a.record { θin := θ, φin := φ + Real.pi, out := (turnRes Lx (turnRes Ly res)).rayOut } = a.record { θin := θ, φin := φ, out := res.rayOut } := by
  have hin : foldPhi (φ + Real.pi) a.phiSym = foldPhi φ a.phiSym := by
    rw [hsym]; exact fold_congr 2 (by norm_num) _ _ ⟨1, by push_cast; ring⟩
  have hleave : ∀ (ot : ℝ) (d : V3), a.record { θin := θ, φin := φ + Real.pi, out := .leaves ot (azimuth (turn (turn d))) } = a.record { θin := θ, φin := φ, out := .leaves ot (azimuth d) } := by
    intro ot d
    have hout : a.phiOut (.leaves ot (azimuth (turn (turn d)))) = a.phiOut (.leaves ot (azimuth d)) := by
      unfold RTArgs.phiOut
      rw [hsym]
      obtain ⟨k, hk⟩ := half_turned_azimuth d
      refine fold_congr 2 (by norm_num) _ _ ⟨k, ?_⟩
      simp only [hk]
      by_cases h : ot < 0
      · simp only [if_pos h]; ring
      · simp only [if_neg h]
    unfold RTArgs.record
    simp only
    rw [hin, hout]
    rfl
  cases res with
  | out res ot r d θ n side => exact hleave ot d
  | absorbed A r d θl n side =>
    simp only [turnRes, SicRes.rayOut]
    unfold RTArgs.record
    simp only
    rw [hin]
  | gaveUp ot r d n side => exact hleave ot d
  | lost res ot d side => exact hleave ot d

/-- The four facets of a regular pyramid on the corners of the cell. -/
noncomputable def pyramidFacets (h L : ℝ) (upright : Bool) : List Tri :=
  let p := fun i => (pyramidPoints h L upright).getD i ⟨0, 0, 0⟩
  [⟨p 0, p 2, p 1⟩, ⟨p 2, p 4, p 1⟩, ⟨p 4, p 3, p 1⟩, ⟨p 3, p 0, p 1⟩]

/-- **C153.** `regular_pyramids`, upright or inverted, of any size and height are unchanged by a turn of 90°. -/
theorem C153_pyramids (h L : ℝ) (upright : Bool) : TurnedSurface L (pyramidFacets h L upright) (pyramidFacets h L upright) := by
  have e01 : turnPt L ⟨0, 0, 0⟩ = ⟨L, 0, 0⟩ := by simp [turnPt]
  have e12 : turnPt L ⟨L, 0, 0⟩ = ⟨L, L, 0⟩ := by simp [turnPt]
  have e23 : turnPt L ⟨L, L, 0⟩ = ⟨0, L, 0⟩ := by simp [turnPt]
  have e30 : turnPt L ⟨0, L, 0⟩ = ⟨0, 0, 0⟩ := by simp [turnPt]
  have ea : ∀ z, turnPt L ⟨L / 2, L / 2, z⟩ = ⟨L / 2, L / 2, z⟩ := by intro z; simp [turnPt]; ring
  constructor
  · intro τ hτ
    simp only [pyramidFacets, pyramidPoints, List.getD_cons_zero, List.getD_cons_succ, List.mem_cons, List.not_mem_nil, or_false] at hτ ⊢
    rcases hτ with rfl | rfl | rfl | rfl
    · exact ⟨_, Or.inr (Or.inl rfl), Or.inl ⟨e01.symm, e12.symm, (ea _).symm⟩⟩
    · exact ⟨_, Or.inr (Or.inr (Or.inl rfl)), Or.inl ⟨e12.symm, e23.symm, (ea _).symm⟩⟩
    · exact ⟨_, Or.inr (Or.inr (Or.inr rfl)), Or.inl ⟨e23.symm, e30.symm, (ea _).symm⟩⟩
    · exact ⟨_, Or.inl rfl, Or.inl ⟨e30.symm, e01.symm, (ea _).symm⟩⟩
  · intro τ hτ
    simp only [pyramidFacets, pyramidPoints, List.getD_cons_zero, List.getD_cons_succ, List.mem_cons, List.not_mem_nil, or_false] at hτ ⊢
    rcases hτ with rfl | rfl | rfl | rfl
    · exact ⟨_, Or.inr (Or.inr (Or.inr rfl)), Or.inl ⟨e30.symm, e01.symm, (ea _).symm⟩⟩
    · exact ⟨_, Or.inl rfl, Or.inl ⟨e01.symm, e12.symm, (ea _).symm⟩⟩
    · exact ⟨_, Or.inr (Or.inl rfl), Or.inl ⟨e12.symm, e23.symm, (ea _).symm⟩⟩
    · exact ⟨_, Or.inr (Or.inr (Or.inl rfl)), Or.inl ⟨e23.symm, e30.symm, (ea _).symm⟩⟩

/-! ### Non-vacuity: a vertical ray absorbed on a facet of a pyramid -/

/-- A cell of 10 by 10. -/
noncomputable def turnExCell : Texture := { Lx := 10, Ly := 10, zcov := 0, h := 10 - 1e-8 }

/-- A surface that absorbs everything. -/
noncomputable def turnExDraw : Draw := { tris := pyramidFacets 5 10 true, zmin := 0, zmax := 5, rx := 1 / 2, ry := 1 / 2, dec := tmmDec 1 1 (fun _ _ => (0, 0, [1])) (1 / 2) }

theorem turnEx_turned : TurnedDraw 10 turnExDraw turnExDraw where
  tris := C153_pyramids 5 10 true
  zmin := rfl
  zmax := rfl
  rx := by norm_num [turnExDraw]
  ry := rfl
  dec := ⟨rfl, Or.inr ⟨1, 1, fun _ _ => (0, 0, [1]), 1 / 2, rfl⟩⟩

theorem turnEx_sol {τ : Tri} {r d : V3} {t u v : ℝ} (hd : τ.det d ≠ 0) (h : r + t • d = τ.P0 + u • (τ.P1 - τ.P0) + v • (τ.P2 - τ.P0)) (h1 : 0 < u ∨ u < -(1 / 10 ^ 10)) (h2 : 0 < v ∨ v < -(1 / 10 ^ 10))
    (h3 : 0 < 1 - u - v ∨ 1 - u - v < -(1 / 10 ^ 10)) : Clear τ r d ∧ (τ.hit r d = true ↔ 0 < u ∧ 0 < v ∧ 0 < 1 - u - v ∧ 0 < t) := by
  obtain ⟨a, b, c⟩ := tri_unique τ r d hd h
  have hc : Clear τ r d := by
    intro _ x hx
    rw [b, c] at hx
    rcases hx with rfl | rfl | rfl <;> assumption
  refine ⟨hc, ?_⟩
  rw [hit_strict hc, a, b, c]
  tauto

theorem turnEx_launch : launchA 4 2 (rA0 (10 - 1e-8) 0 0) = ⟨4, 2, 10⟩ ∧ launchD 4 2 (rA0 (10 - 1e-8) 0 0) = ⟨0, 0, -1⟩ := by
  have h : rA0 (10 - 1e-8) 0 0 = ⟨0, 0, 10⟩ := by
    unfold rA0
    ext <;> simp
  have ha : launchA 4 2 ⟨0, 0, 10⟩ = ⟨4, 2, 10⟩ := by unfold launchA; ext <;> simp
  rw [h]
  refine ⟨ha, ?_⟩
  unfold launchD
  rw [ha]
  have hw : (⟨4, 2, 0⟩ : V3) - ⟨4, 2, 10⟩ = ⟨0, 0, -10⟩ := by ext <;> simp
  have hn : V3.norm ⟨0, 0, -10⟩ = 10 := by
    unfold V3.norm V3.dot
    rw [show (0 : ℝ) * 0 + 0 * 0 + -10 * -10 = 10 ^ 2 by norm_num]
    exact Real.sqrt_sq (by norm_num)
  simp only [hw, hn]
  ext <;> norm_num

theorem turnEx_facets (τ : Tri) (hτ : τ ∈ pyramidFacets 5 10 true) : Clear τ ⟨4, 2, 10⟩ ⟨0, 0, -1⟩ ∧ (τ.hit ⟨4, 2, 10⟩ ⟨0, 0, -1⟩ = true ↔ τ = ⟨⟨0, 0, 0⟩, ⟨10, 0, 0⟩, ⟨5, 5, 5⟩⟩) := by
  simp only [pyramidFacets, pyramidPoints, List.getD_cons_zero, List.getD_cons_succ, List.mem_cons, List.not_mem_nil, or_false, if_true] at hτ
  rw [show (10 : ℝ) / 2 = 5 by norm_num] at hτ
  have hne : ∀ {A B : Tri}, A.P0 ≠ B.P0 → A ≠ B := fun h e => h (by rw [e])
  rcases hτ with rfl | rfl | rfl | rfl
  · obtain ⟨a, b⟩ := turnEx_sol (τ := ⟨⟨0, 0, 0⟩, ⟨10, 0, 0⟩, ⟨5, 5, 5⟩⟩) (r := ⟨4, 2, 10⟩) (d := ⟨0, 0, -1⟩) (t := 8) (u := 1 / 5) (v := 2 / 5) (by norm_num [Tri.det, Tri.crossP, V3.cross, V3.dot])
      (by ext <;> simp <;> norm_num) (by norm_num) (by norm_num) (by norm_num)
    exact ⟨a, b.trans ⟨fun _ => rfl, fun _ => by norm_num⟩⟩
  · obtain ⟨a, b⟩ := turnEx_sol (τ := ⟨⟨10, 0, 0⟩, ⟨10, 10, 0⟩, ⟨5, 5, 5⟩⟩) (r := ⟨4, 2, 10⟩) (d := ⟨0, 0, -1⟩) (t := 4) (u := -(2 / 5)) (v := 6 / 5) (by norm_num [Tri.det, Tri.crossP, V3.cross, V3.dot])
      (by ext <;> simp <;> norm_num) (by norm_num) (by norm_num) (by norm_num)
    exact ⟨a, b.trans ⟨fun h => by norm_num at h, fun h => absurd h (hne (by simp))⟩⟩
  · obtain ⟨a, b⟩ := turnEx_sol (τ := ⟨⟨10, 10, 0⟩, ⟨0, 10, 0⟩, ⟨5, 5, 5⟩⟩) (r := ⟨4, 2, 10⟩) (d := ⟨0, 0, -1⟩) (t := 2) (u := -(1 / 5)) (v := 8 / 5) (by norm_num [Tri.det, Tri.crossP, V3.cross, V3.dot])
      (by ext <;> simp <;> norm_num) (by norm_num) (by norm_num) (by norm_num)
    exact ⟨a, b.trans ⟨fun h => by norm_num at h, fun h => absurd h (hne (by simp))⟩⟩
  · obtain ⟨a, b⟩ := turnEx_sol (τ := ⟨⟨0, 10, 0⟩, ⟨0, 0, 0⟩, ⟨5, 5, 5⟩⟩) (r := ⟨4, 2, 10⟩) (d := ⟨0, 0, -1⟩) (t := 6) (u := 2 / 5) (v := 4 / 5) (by norm_num [Tri.det, Tri.crossP, V3.cross, V3.dot])
      (by ext <;> simp <;> norm_num) (by norm_num) (by norm_num) (by norm_num)
    exact ⟨a, b.trans ⟨fun h => by norm_num at h, fun h => absurd h (hne (by simp))⟩⟩

theorem turnEx_start : launchState turnExCell 0 0 4 2 = sicStart ⟨4, 2, 10⟩ ⟨0, 0, -1⟩ 1 0 := by
  obtain ⟨a, b⟩ := turnEx_launch
  unfold launchState turnExCell
  simp only
  rw [a, b]
  have : wrapRay ⟨4, 2, 10⟩ ⟨0, 0, -1⟩ 10 10 0 = ⟨4, 2, 10⟩ := by
    unfold wrapRay
    have h1 : ⌊((4 : ℝ) + 0 * (0 - 10) / -1) / 10⌋ = 0 := by rw [Int.floor_eq_iff]; norm_num
    have h2 : ⌊((2 : ℝ) + 0 * (0 - 10) / -1) / 10⌋ = 0 := by rw [Int.floor_eq_iff]; norm_num
    simp only [h1, h2]
    ext <;> simp
  rw [this]

/-- The ray hits a facet and is absorbed there: the last iteration. -/
theorem turnEx_step (d0 : V3) : ∃ r d θ, sicStep 10 10 d0 turnExDraw (sicStart ⟨4, 2, 10⟩ ⟨0, 0, -1⟩ 1 0) = .inr (.absorbed [1] r d θ 1 1) := by
  have hm : (⟨⟨0, 0, 0⟩, ⟨10, 0, 0⟩, ⟨5, 5, 5⟩⟩ : Tri) ∈ pyramidFacets 5 10 true := by
    simp only [pyramidFacets, pyramidPoints, List.getD_cons_zero, List.getD_cons_succ, if_true]
    rw [show (10 : ℝ) / 2 = 5 by norm_num]
    exact List.mem_cons_self
  obtain ⟨p, θ, N, hci⟩ := checkIntersect_isSome hm ((turnEx_facets _ hm).2.mpr rfl)
  unfold sicStep
  simp only [sicStart, turnExDraw]
  rw [hci]
  simp only [tmmDec, decideTMM]
  rw [if_neg (show ¬(1 / 2 : ℝ) ≤ 0 by norm_num), if_neg (show ¬((1 / 2 : ℝ) > 0 ∧ (1 / 2 : ℝ) ≤ 0 + 0) by norm_num)]
  exact ⟨_, _, _, rfl⟩

theorem turnEx_unambiguous : UnambiguousRay turnExCell 0 0 4 2 [turnExDraw] := by
  constructor
  · intro n hn
    have hn' : (2 : ℝ) = n * 10 := by
      have := turnEx_launch
      simp only [turnExCell, this.1, this.2] at hn
      linarith
    have h1 : (0 : ℤ) < n := by
      have : (0 : ℝ) < n := by linarith
      exact_mod_cast this
    have h2 : n < (1 : ℤ) := by
      have : (n : ℝ) < 1 := by linarith
      exact_mod_cast this
    omega
  · rw [turnEx_start]
    have hm : (⟨⟨0, 0, 0⟩, ⟨10, 0, 0⟩, ⟨5, 5, 5⟩⟩ : Tri) ∈ pyramidFacets 5 10 true := by
      simp only [pyramidFacets, pyramidPoints, List.getD_cons_zero, List.getD_cons_succ, if_true]
      rw [show (10 : ℝ) / 2 = 5 by norm_num]
      exact List.mem_cons_self
    obtain ⟨p, θ, N, hci⟩ := checkIntersect_isSome hm ((turnEx_facets _ hm).2.mpr rfl)
    have hno : ∀ {P : Prop}, checkIntersect (sicStart ⟨4, 2, 10⟩ ⟨0, 0, -1⟩ 1 0).r (sicStart ⟨4, 2, 10⟩ ⟨0, 0, -1⟩ 1 0).d turnExDraw.tris = none → P := by
      intro P h
      have h' : checkIntersect ⟨4, 2, 10⟩ ⟨0, 0, -1⟩ (pyramidFacets 5 10 true) = none := h
      rw [hci] at h'; cases h'
    refine ⟨⟨fun τ hτ => (turnEx_facets τ hτ).1, fun τ hτ τ' hτ' h h' _ => ?_, fun h => hno h, fun h => hno h, fun h => hno h⟩, ?_⟩
    · rw [(turnEx_facets τ hτ).2.mp h, (turnEx_facets τ' hτ').2.mp h']
    · obtain ⟨r, d, θ, e⟩ := turnEx_step (launchD 4 2 (rA0 turnExCell.h 0 0))
      have e' : sicStep turnExCell.Lx turnExCell.Ly (launchD 4 2 (rA0 turnExCell.h 0 0)) turnExDraw (sicStart ⟨4, 2, 10⟩ ⟨0, 0, -1⟩ 1 0) = .inr (.absorbed [1] r d θ 1 1) := e
      rw [e']
      trivial

/-- Light from azimuth 90° aimed at (8, 4) is absorbed as light from azimuth 0 aimed at (4, 2) is. -/
example : ∃ r d θ, traceInterface turnExCell 0 0 4 2 [turnExDraw] = some (.absorbed [1] r d θ 1 1) ∧
    traceInterface turnExCell 0 (Real.pi / 2) 8 4 [turnExDraw] = some (.absorbed [1] (turnPt 10 r) (turn d) θ 1 1) := by
  have h := C153_turn turnExCell (by norm_num [turnExCell]) 0 0 4 2 (ws := [turnExDraw]) (ws' := [turnExDraw]) (.cons turnEx_turned .nil) turnEx_unambiguous
  obtain ⟨r, d, θ, e⟩ := turnEx_step (launchD 4 2 (rA0 turnExCell.h 0 0))
  have ht : traceInterface turnExCell 0 0 4 2 [turnExDraw] = some (.absorbed [1] r d θ 1 1) := by
    have hs := turnEx_start
    unfold launchState at hs
    unfold traceInterface sicRun
    simp only
    rw [hs]
    have e' : sicStep turnExCell.Lx turnExCell.Ly (launchD 4 2 (rA0 turnExCell.h 0 0)) turnExDraw (sicStart ⟨4, 2, 10⟩ ⟨0, 0, -1⟩ 1 0) = .inr (.absorbed [1] r d θ 1 1) := e
    rw [e']
  refine ⟨r, d, θ, ht, ?_⟩
  rw [ht, Option.map_some, zero_add, show turnExCell.Ly - 2 = 8 by norm_num [turnExCell]] at h
  exact h

end Rayflare
