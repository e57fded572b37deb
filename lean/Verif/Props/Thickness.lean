import Verif.Spec.Thickness
import Verif.Props.UnbiasedStack
import Verif.Props.RTBuild

/-!
# C176: with random positions, the thickness of a layer matters only through its absorption
-/

namespace Rayflare

open Rayflare.Np Rayflare.Model Rayflare.Spec Rayflare.Lemmas

/-! ## Helper lemmas: a surface moved up -/

section
variable (δ : ℝ)

theorem raised_sub (a b : V3) : raiseV δ a - raiseV δ b = a - b := by
  ext <;> simp [raiseV]

theorem raised_add (a b : V3) : raiseV δ a + b = raiseV δ (a + b) := by
  ext <;> simp [raiseV]; ring

theorem raised_crossP (τ : Tri) : (raiseTri δ τ).crossP = τ.crossP := by
  simp only [Tri.crossP, raiseTri, raised_sub]

theorem raised_N (τ : Tri) : (raiseTri δ τ).N = τ.N := by
  simp only [Tri.N, raised_crossP]

theorem raised_det (τ : Tri) (d : V3) : (raiseTri δ τ).det d = τ.det d := by
  simp only [Tri.det, raised_crossP]

theorem raised_t (τ : Tri) (r d : V3) : (raiseTri δ τ).t (raiseV δ r) d = τ.t r d := by
  simp only [Tri.t, raised_crossP, raised_det]
  simp only [raiseTri, raised_sub]

theorem raised_u (τ : Tri) (r d : V3) : (raiseTri δ τ).u (raiseV δ r) d = τ.u r d := by
  simp only [Tri.u, raised_det]
  simp only [raiseTri, raised_sub]

theorem raised_v (τ : Tri) (r d : V3) : (raiseTri δ τ).v (raiseV δ r) d = τ.v r d := by
  simp only [Tri.v, raised_det]
  simp only [raiseTri, raised_sub]

theorem raised_hit (τ : Tri) (r d : V3) : (raiseTri δ τ).hit (raiseV δ r) d = τ.hit r d := by
  unfold Tri.hit
  rw [raised_t, raised_u, raised_v, raised_det]

theorem raised_intersect (tris : List Tri) (r d : V3) :
    checkIntersect (raiseV δ r) d (tris.map (raiseTri δ)) = (checkIntersect r d tris).map fun q => (raiseV δ q.1, q.2.1, q.2.2) := by
  unfold checkIntersect
  simp only
  have hf : (tris.map (raiseTri δ)).filter (fun τ => τ.hit (raiseV δ r) d) = (tris.filter fun τ => τ.hit r d).map (raiseTri δ) := by
    rw [List.filter_map]
    congr 1
    apply List.filter_congr
    intro τ _
    exact raised_hit δ τ r d
  have ht : ((tris.filter fun τ => τ.hit r d).map (raiseTri δ)).map (fun τ => τ.t (raiseV δ r) d) = (tris.filter fun τ => τ.hit r d).map fun τ => τ.t r d := by
    rw [List.map_map]
    apply List.map_congr_left
    intro τ _
    exact raised_t δ τ r d
  rw [hf, ht, List.getElem?_map]
  generalize (tris.filter fun τ => τ.hit r d)[argmin ((tris.filter fun τ => τ.hit r d).map fun τ => τ.t r d)]? = o
  rcases o with _ | τ
  · rfl
  · simp only [Option.map_some]
    rw [raised_N, raised_t, raised_add]

/-- What an iteration draws, with the surface moved up. -/
noncomputable def raiseDraw (δ : ℝ) (w : Draw) : Draw := { w with tris := w.tris.map (raiseTri δ), zmin := w.zmin + δ, zmax := w.zmax + δ }

/-- The state of the loop with the position moved up. -/
noncomputable def raiseSic (δ : ℝ) (s : Sic) : Sic := { s with r := raiseV δ s.r }

/-- The state of the other loop with the position moved up. -/
noncomputable def raiseScc (δ : ℝ) (s : Scc) : Scc := { s with r := raiseV δ s.r }

/-- The result of the interaction with the position moved up. -/
noncomputable def raiseRes (δ : ℝ) : SicRes → SicRes
  | .out res ot r d θ n side => .out res ot (raiseV δ r) d θ n side
  | .absorbed A r d θ n side => .absorbed A (raiseV δ r) d θ n side
  | .gaveUp ot r d n side => .gaveUp ot (raiseV δ r) d n side
  | .lost res ot d side => .lost res ot d side

theorem raised_exit (r d : V3) (Lx Ly : ℝ) : exitSide (raiseV δ r) d Lx Ly = exitSide r d Lx Ly := rfl

theorem raised_relaunch (Lx Ly : ℝ) (w : Draw) (d : V3) : relaunch Lx Ly (raiseDraw δ w) d = raiseV δ (relaunch Lx Ly w d) := by
  unfold relaunch
  by_cases h3 : d.z < 0
  · simp only [if_pos h3]
    ext <;> simp only [raiseDraw, raiseV]; ring
  · simp only [if_neg h3]
    ext <;> simp only [raiseDraw, raiseV]; ring

theorem raised_step (Lx Ly : ℝ) (d0 : V3) (w : Draw) (s : Sic) :
    sicStep Lx Ly d0 (raiseDraw δ w) (raiseSic δ s) = (sicStep Lx Ly d0 w s).map (raiseSic δ) (raiseRes δ) := by
  have hci := raised_intersect δ w.tris s.r s.d
  have hrl := raised_relaunch δ Lx Ly w s.d
  obtain ⟨tris, zmin, zmax, rx, ry, dec⟩ := w
  simp only at hci
  unfold sicStep
  simp only [raiseSic, raiseDraw] at hrl ⊢
  rcases hc : checkIntersect s.r s.d tris with _ | ⟨p, θ, N⟩
  · rw [hc, Option.map_none] at hci
    rw [hci]
    simp only
    by_cases hch : s.checked = false
    · simp only [hch, Bool.not_false, if_true]
      by_cases h1 : s.i1 + 1 > 1
      · simp only [if_pos h1, Sum.map_inl]
        rw [raised_exit, raiseSic, raised_add]
      · simp only [if_neg h1]
        by_cases h2 : s.misses < 100
        · simp only [if_pos h2, Sum.map_inl, raiseSic]
          rw [hrl]
        · simp only [if_neg h2, Sum.map_inr, raiseRes]
    · have hch' : s.checked = true := by simpa using hch
      simp only [hch', Bool.not_true, Bool.false_eq_true, if_false]
      have hcond : ((s.side = 1 ∧ s.d.z < 0 ∧ (raiseV δ s.r).z > zmin + δ) ∨ (s.side = -1 ∧ s.d.z > 0 ∧ (raiseV δ s.r).z < zmax + δ)) ↔
          ((s.side = 1 ∧ s.d.z < 0 ∧ s.r.z > zmin) ∨ (s.side = -1 ∧ s.d.z > 0 ∧ s.r.z < zmax)) := by
        simp only [raiseV, gt_iff_lt, add_lt_add_iff_right]
      have hr : (⟨backInto (raiseV δ s.r).x Lx, backInto (raiseV δ s.r).y Ly, (raiseV δ s.r).z⟩ : V3) = raiseV δ ⟨backInto s.r.x Lx, backInto s.r.y Ly, s.r.z⟩ := rfl
      by_cases hgo : (s.side = 1 ∧ s.d.z < 0 ∧ s.r.z > zmin) ∨ (s.side = -1 ∧ s.d.z > 0 ∧ s.r.z < zmax)
      · refine (if_pos (hcond.mpr hgo)).trans ?_
        rw [if_pos hgo, hr, raised_exit]
        rcases exitSide ⟨backInto s.r.x Lx, backInto s.r.y Ly, s.r.z⟩ s.d Lx Ly with ⟨i, _ | t⟩
        · rfl
        · simp only [Sum.map_inl]
          rw [raised_add, raised_add]
          rfl
      · refine (if_neg (fun h => hgo (hcond.mp h))).trans ?_
        rw [if_neg hgo, hr]
        rfl
  · rw [hc, Option.map_some] at hci
    rw [hci]
    simp only
    obtain ⟨⟨d, side, A⟩, hdec⟩ : ∃ q, dec θ s.d ((s.side : ℝ) • N) s.side = q := ⟨_, rfl⟩
    rw [hdec]
    rcases A with _ | A
    · simp only [Sum.map_inl, raiseSic]
      rw [raised_add]
    · simp only [Sum.map_inr, raiseRes]
      rw [raised_add]

theorem raised_run (Lx Ly : ℝ) (d0 : V3) (ws : List Draw) (s : Sic) :
    sicRun Lx Ly d0 (ws.map (raiseDraw δ)) (raiseSic δ s) = (sicRun Lx Ly d0 ws s).map (raiseSic δ) (raiseRes δ) := by
  induction ws generalizing s with
  | nil => rfl
  | cons w ws ih =>
    simp only [List.map_cons]
    unfold sicRun
    rw [raised_step]
    rcases sicStep Lx Ly d0 w s with s' | res
    · simp only [Sum.map_inl]; exact ih s'
    · rfl

theorem raised_cell_step (d0 : V3) (w : Draw) (s : Scc) : sccStep d0 (raiseDraw δ w) (raiseScc δ s) = (sccStep d0 w s).map (raiseScc δ) (raiseRes δ) := by
  have hci := raised_intersect δ w.tris s.r s.d
  obtain ⟨tris, zmin, zmax, rx, ry, dec⟩ := w
  simp only at hci
  unfold sccStep
  simp only [raiseScc, raiseDraw]
  rcases hc : checkIntersect s.r s.d tris with _ | ⟨p, θ, N⟩
  · rw [hc, Option.map_none] at hci
    rw [hci]
    rfl
  · rw [hc, Option.map_some] at hci
    rw [hci]
    simp only
    obtain ⟨⟨d, side, A⟩, hdec⟩ : ∃ q, dec θ s.d ((s.side : ℝ) • N) s.side = q := ⟨_, rfl⟩
    rw [hdec]
    rcases A with _ | A
    · simp only [Sum.map_inl, raiseScc]
      rw [raised_add]
    · simp only [Sum.map_inr, raiseRes]
      rw [raised_add]

theorem raised_cell_run (d0 : V3) (ws : List Draw) (s : Scc) :
    sccRun d0 (ws.map (raiseDraw δ)) (raiseScc δ s) = (sccRun d0 ws s).map (raiseScc δ) (raiseRes δ) := by
  induction ws generalizing s with
  | nil => rfl
  | cons w ws ih =>
    simp only [List.map_cons]
    unfold sccRun
    rw [raised_cell_step]
    rcases sccStep d0 w s with s' | res
    · simp only [Sum.map_inl]; exact ih s'
    · rfl

theorem raised_wrap (r d : V3) (Lx Ly zcov : ℝ) : wrapRay (raiseV δ r) d Lx Ly (zcov + δ) = raiseV δ (wrapRay r d Lx Ly zcov) := by
  unfold wrapRay
  simp only [raiseV]
  rw [show zcov + δ - (r.z + δ) = zcov - r.z by ring]

theorem raised_wrapOpt (r : Option V3) (d : V3) (cell : Cell) : wrapOpt (r.map (raiseV δ)) d (raiseCell δ cell) = (wrapOpt r d cell).map (raiseV δ) := by
  unfold wrapOpt
  by_cases h : d.z = 0
  · rw [if_pos h, if_pos h]; rfl
  · rw [if_neg h, if_neg h]
    rcases r with _ | r
    · rfl
    · simp only [Option.map_some, raiseCell, raised_wrap]

theorem raised_start (cell : Cell) (d : V3) (dir : ℤ) (u v : ℝ) : randStart (raiseCell δ cell) d dir u v = raiseV δ (randStart cell d dir u v) := by
  unfold randStart
  simp only [raiseCell]
  rw [show cell.zmax + δ - (cell.zmin + δ) = cell.zmax - cell.zmin by ring]
  ext <;> simp only [raiseV, V3.sub_x, V3.sub_y, V3.sub_z, V3.smul_x, V3.smul_y, V3.smul_z]; ring

/-- The meeting with the surface moved up. -/
noncomputable def raiseMeeting (δ : ℝ) (m : Meeting) : Meeting := { m with ws := m.ws.map (raiseIter δ) }

theorem raised_draws (asin : ℂ → ℂ) (pol : Pol) (tab : Option Table) (ni nj : ℂ) (ws : List IterDraw) :
    (ws.map (raiseIter δ)).map (fun w => w.draw asin pol tab ni nj) = (ws.map fun w => w.draw asin pol tab ni nj).map (raiseDraw δ) := by
  rw [List.map_map, List.map_map]
  apply List.map_congr_left
  intro w _
  rfl

theorem raised_getRight {α : Type} (x : α ⊕ SicRes) (f : α → α) : (x.map f (raiseRes δ)).getRight? = x.getRight?.map (raiseRes δ) := by
  rcases x with a | b <;> rfl

/-- A surface moved up, and the ray meeting it moved up as well. -/
theorem raised_meet {c c' : RTStack} (hpol : c'.pol = c.pol) (hasin : c'.asin = c.asin) (hper : c'.periodic = c.periodic) (cell : Cell) (tab : Option Table) (ni nj : ℂ) (m : Meeting) (s s' : StackRay)
    (hdir : s'.ray.dir = s.ray.dir) (h1 : (c'.randomised (raiseCell δ cell) (raiseMeeting δ m) s').1 = (c.randomised cell m s).1.map (raiseV δ))
    (h2 : (c'.randomised (raiseCell δ cell) (raiseMeeting δ m) s').2 = (c.randomised cell m s).2) :
    c'.meet (raiseCell δ cell) tab ni nj (raiseMeeting δ m) s' = (c.meet cell tab ni nj m s).map (raiseRes δ) := by
  unfold RTStack.meet
  simp only
  rw [h1, h2, hpol, hasin, hper, hdir]
  generalize c.randomised cell m s = rd
  obtain ⟨r, d⟩ := rd
  simp only
  rw [show (raiseMeeting δ m).ws = m.ws.map (raiseIter δ) from rfl, raised_draws]
  generalize m.ws.map (fun w => w.draw c.asin c.pol tab ni nj) = ws
  rw [show (raiseCell δ cell).Lx = cell.Lx from rfl, show (raiseCell δ cell).Ly = cell.Ly from rfl, raised_wrapOpt]
  by_cases hp : c.periodic = true
  · rw [if_pos hp, if_pos hp]
    rcases wrapOpt r d cell with _ | r
    · rcases ws with _ | ⟨w, ws⟩
      · rfl
      · simp only [Option.map_none, List.map_cons]
        have hs : sicStartNaN cell.Lx cell.Ly (raiseDraw δ w) d s.ray.dir = raiseSic δ (sicStartNaN cell.Lx cell.Ly w d s.ray.dir) := by
          unfold sicStartNaN
          rw [raised_relaunch]
          rfl
        rw [hs, raised_run, raised_getRight]
    · simp only [Option.map_some]
      have hs : sicStart (raiseV δ r) d s.ray.dir 0 = raiseSic δ (sicStart r d s.ray.dir 0) := rfl
      rw [hs, raised_run, raised_getRight]
  · rw [if_neg hp, if_neg hp]
    rcases r with _ | r
    · rcases ws with _ | ⟨w, ws⟩ <;> rfl
    · simp only [Option.map_some]
      have hs : ({ r := raiseV δ r, d := d, side := s.ray.dir, nInt := 0, θ := 0 } : Scc) = raiseScc δ { r := r, d := d, side := s.ray.dir, nInt := 0, θ := 0 } := rfl
      rw [hs, raised_cell_run, raised_getRight]

theorem raised_outcome (res : SicRes) : (raiseRes δ res).outcome = res.outcome := by
  rcases res with _ | _ | _ | _ <;> rfl

theorem raised_dir (res : SicRes) : (raiseRes δ res).dir = res.dir := by
  rcases res with _ | _ | _ | _ <;> rfl

end

/-! ## Helper lemmas: the bookkeeping -/

theorem alike_fields {s s' : Ray} (h : AlikeRays s s') : s.I = s'.I ∧ s.A = s'.A ∧ s.mat = s'.mat ∧ s.surf = s'.surf ∧ s.dir = s'.dir ∧ s.θ = s'.θ ∧ s.stop = s'.stop ∧ s.aInt = s'.aInt ∧ s.aIdx = s'.aIdx ∧ s.nPasses = s'.nPasses := by
  unfold AlikeRays at h
  simpa [Ray.mk.injEq] using h

theorem alike_traverse (w w' θ α α' I : ℝ) (z z' : List ℝ) (thresh : ℝ) (up : Bool) (h : α' * w' = α * w) :
    (Model.traverse w' θ α' I z' thresh up).2 = (Model.traverse w θ α I z thresh up).2 := by
  unfold Model.traverse
  simp only
  have e : -(α' / |Real.cos θ|) * w' = -(α / |Real.cos θ|) * w := by
    rw [neg_mul, neg_mul, div_mul_eq_mul_div, div_mul_eq_mul_div, h]
  rw [e]

theorem alike_interact {s s' : Ray} (h : AlikeRays s s') (o : Outcome) : AlikeRays (s.interact o) (s'.interact o) := by
  obtain ⟨I, p, A, m, sf, dr, t, st, ai, ax, np⟩ := s
  obtain ⟨I', p', A', m', sf', dr', t', st', ai', ax', np'⟩ := s'
  obtain ⟨rfl, rfl, rfl, rfl, rfl, rfl, rfl, rfl, rfl, rfl⟩ := alike_fields h
  rcases o with _ | _ | _ <;> rfl

theorem alike_end {S S' : Stack} (hl : S'.widths.length = S.widths.length) {s s' : Ray} (h : AlikeRays s s') : AlikeRays (S.checkEnd s) (S'.checkEnd s') := by
  obtain ⟨I, p, A, m, sf, dr, t, st, ai, ax, np⟩ := s
  obtain ⟨I', p', A', m', sf', dr', t', st', ai', ax', np'⟩ := s'
  obtain ⟨rfl, rfl, rfl, rfl, rfl, rfl, rfl, rfl, rfl, rfl⟩ := alike_fields h
  unfold Stack.checkEnd
  simp only
  rw [hl]
  by_cases h1 : dr = 1 ∧ m = (S.widths.length : ℤ) - 1
  · rw [if_pos h1, if_pos h1]; rfl
  · rw [if_neg h1, if_neg h1]
    by_cases h2 : dr = -1 ∧ m = 0
    · rw [if_pos h2, if_pos h2]; rfl
    · rw [if_neg h2, if_neg h2]; rfl

theorem alike_pass {S S' : Stack} (ht : S'.thresh = S.thresh) (m : ℕ) (hm : S'.alphas.getD m 0 * S'.widths.getD m 0 = S.alphas.getD m 0 * S.widths.getD m 0) {s s' : Ray} (h : AlikeRays s s') :
    AlikeRays (S.pass s m) (S'.pass s' m) := by
  obtain ⟨I, p, A, mt, sf, dr, t, st, ai, ax, np⟩ := s
  obtain ⟨I', p', A', m', sf', dr', t', st', ai', ax', np'⟩ := s'
  obtain ⟨rfl, rfl, rfl, rfl, rfl, rfl, rfl, rfl, rfl, rfl⟩ := alike_fields h
  unfold AlikeRays Stack.pass
  simp only
  rw [alike_traverse (S.widths.getD m 0) (S'.widths.getD m 0) (t.getD 0) (S.alphas.getD m 0) (S'.alphas.getD m 0) I (S.depths m) (S'.depths m) S'.thresh (decide (dr = -1)) hm, ht]

theorem alike_step {S S' : Stack} (ht : S'.thresh = S.thresh) (hl : S'.widths.length = S.widths.length) (hm : ∀ m, S'.alphas.getD m 0 * S'.widths.getD m 0 = S.alphas.getD m 0 * S.widths.getD m 0)
    {s s' : Ray} (h : AlikeRays s s') (o : Outcome) : Option.Rel AlikeRays (S.step s o) (S'.step s' o) := by
  obtain ⟨_, _, e1, e2, e3, _, e4, _⟩ := alike_fields h
  unfold Stack.step Stack.nSurf
  rw [← e1, ← e2, ← e3, ← e4, hl]
  by_cases hs : s.stop = true
  · rw [if_pos hs, if_pos hs]; exact Option.Rel.some h
  · rw [if_neg hs, if_neg hs]
    rcases pyIndex (S.widths.length - 1) s.surf with _ | _
    · exact Option.Rel.none
    rcases pyIndex S.widths.length s.mat with _ | _
    · exact Option.Rel.none
    rcases pyIndex S.widths.length (if s.dir = 1 then s.mat + 1 else s.mat - 1) with _ | _
    · exact Option.Rel.none
    simp only [Option.bind_some]
    have hh := alike_end hl (alike_interact h o)
    obtain ⟨_, _, f1, _, _, _, f4, _⟩ := alike_fields hh
    rw [← f1, ← f4]
    by_cases hs2 : (S.checkEnd (s.interact o)).stop = true
    · rw [if_pos hs2, if_pos hs2]; exact Option.Rel.some hh
    · rw [if_neg hs2, if_neg hs2]
      rcases pyIndex S.widths.length (S.checkEnd (s.interact o)).mat with _ | m
      · exact Option.Rel.none
      · exact Option.Rel.some (alike_pass ht m (hm m) hh)

/-- After an iteration the ray has ended or has been through a layer. -/
theorem step_passes {S : Stack} {s t : Ray} {o : Outcome} (h : S.step s o = some t) (hs : s.stop = false) : t.stop = true ∨ 0 < t.nPasses := by
  unfold Stack.step at h
  rw [if_neg (by simp [hs])] at h
  rcases h1 : pyIndex S.nSurf s.surf with _ | _
  · rw [h1] at h; cases h
  rcases h2 : pyIndex S.widths.length s.mat with _ | _
  · rw [h1, h2] at h; cases h
  rcases h3 : pyIndex S.widths.length (if s.dir = 1 then s.mat + 1 else s.mat - 1) with _ | _
  · rw [h1, h2, h3] at h; cases h
  rw [h1, h2, h3] at h
  simp only [Option.bind_some] at h
  by_cases hs2 : (S.checkEnd (s.interact o)).stop = true
  · rw [if_pos hs2] at h; cases h; exact Or.inl hs2
  · rw [if_neg hs2] at h
    rcases h4 : pyIndex S.widths.length (S.checkEnd (s.interact o)).mat with _ | m
    · rw [h4] at h; cases h
    · rw [h4] at h
      cases h
      right
      exact Nat.succ_pos _

/-- The states of two rays: alike, in the same direction, and, as long as they are not yet through a layer, at the same place at the first surface. -/
def AlikeStates (s s' : StackRay) : Prop :=
  AlikeRays s.ray s'.ray ∧ s.d = s'.d ∧ (s.ray.stop = true ∨ 0 < s.ray.nPasses ∨ (s.ray.surf = 0 ∧ s.r = s'.r))

theorem raised_zero (v : V3) : raiseV 0 v = v := by ext <;> simp [raiseV]

theorem alike_meeting {δ : ℤ → ℝ} (V : Visit) {n : ℕ} (k : ℤ) (u : Fin n → ℝ) : (raiseVisit δ V).meeting k u = raiseMeeting (δ k) (V.meeting k u) := by
  unfold Visit.meeting raiseMeeting raiseVisit
  simp only [List.map_ofFn]
  rfl

theorem alike_stack_step {δ : ℤ → ℝ} {c c' : RTStack} (H : SameButThickness δ c c') (hr : c.randomize = true) (V : Visit) {n : ℕ} (u : Fin n → ℝ) {s s' : StackRay} (h : AlikeStates s s') :
    match c.step (V.meeting s.ray.surf u) s, c'.step ((raiseVisit δ V).meeting s'.ray.surf u) s' with
    | .next t, .next t' => AlikeStates t t'
    | .indexError, .indexError => True
    | .running, .running => True
    | _, _ => False := by
  obtain ⟨ha, hd, hp⟩ := h
  obtain ⟨_, _, e1, e2, e3, _, e4, _, _, e5⟩ := alike_fields ha
  rw [alike_meeting, ← e2]
  unfold RTStack.step
  rw [← e1, ← e2, ← e3, ← e4, H.tabs, H.nks, H.cells]
  by_cases hs : s.ray.stop = true
  · rw [if_pos hs, if_pos hs]; exact ⟨ha, hd, hp⟩
  rw [if_neg hs, if_neg hs]
  rcases pyGet c.cells s.ray.surf with _ | cell
  · trivial
  rcases pyGet c.tabs s.ray.surf with _ | tab
  · trivial
  rcases pyGet c.nks (if s.ray.dir = 1 then s.ray.mat else s.ray.mat - 1) with _ | ni
  · trivial
  rcases pyGet c.nks (if s.ray.dir = 1 then s.ray.mat + 1 else s.ray.mat) with _ | nj
  · trivial
  simp only [Option.map_some]
  set m := V.meeting s.ray.surf u
  have hmeet : c'.meet (raiseCell (δ s.ray.surf) cell) tab ni nj (raiseMeeting (δ s.ray.surf) m) s' = (c.meet cell tab ni nj m s).map (raiseRes (δ s.ray.surf)) := by
    by_cases hn : 0 < s.ray.nPasses
    · have hc : c.randomize = true ∧ 0 < s.ray.nPasses := ⟨hr, hn⟩
      have hc' : c'.randomize = true ∧ 0 < s'.ray.nPasses := ⟨H.randomize.trans hr, e5 ▸ hn⟩
      apply raised_meet _ H.pol H.asin H.periodic _ _ _ _ _ _ _ e3.symm
      · unfold RTStack.randomised
        rw [if_pos hc, if_pos hc', ← hd, ← e3]
        simp only [Option.map_some, raised_start]
        rfl
      · unfold RTStack.randomised
        rw [if_pos hc, if_pos hc', ← hd, ← e3]
    · obtain ⟨h0, hrr⟩ : s.ray.surf = 0 ∧ s.r = s'.r := by
        rcases hp with h | h | h
        · exact absurd h hs
        · exact absurd h hn
        · exact h
      have hc : ¬ (c.randomize = true ∧ 0 < s.ray.nPasses) := fun h => hn h.2
      have hc' : ¬ (c'.randomize = true ∧ 0 < s'.ray.nPasses) := fun h => hn (e5 ▸ h.2)
      apply raised_meet _ H.pol H.asin H.periodic _ _ _ _ _ _ _ e3.symm
      · unfold RTStack.randomised
        rw [if_neg hc, if_neg hc', ← hrr, h0, H.first]
        rcases s.r with _ | r
        · rfl
        · simp only [Option.map_some, raised_zero]
      · unfold RTStack.randomised
        rw [if_neg hc, if_neg hc', hd]
  rw [hmeet]
  rcases c.meet cell tab ni nj m s with _ | res
  · trivial
  · simp only [Option.map_some]
    unfold RTStack.advance
    simp only
    rw [raised_outcome]
    have hrel := alike_step H.thresh H.layers H.product ha res.outcome
    have hpass : ∀ t, c.S.step s.ray res.outcome = some t → t.stop = true ∨ 0 < t.nPasses := fun t ht => step_passes ht (by simpa using hs)
    generalize c.S.step s.ray res.outcome = o1 at hrel hpass ⊢
    generalize c'.S.step s'.ray res.outcome = o2 at hrel ⊢
    rcases o1 with _ | t <;> rcases o2 with _ | t'
    · trivial
    · cases hrel
    · cases hrel
    · cases hrel with
      | some ht =>
        refine ⟨ht, (raised_dir _ _).symm, ?_⟩
        rcases hpass t rfl with h | h
        · exact Or.inl h
        · exact Or.inr (Or.inl h)

theorem alike_trace {δ : ℤ → ℝ} {c c' : RTStack} (H : SameButThickness δ c c') (hr : c.randomize = true) {n : ℕ} : ∀ (K : ℕ) (V : ℕ → Visit) (u : Fin K → Fin n → ℝ) (s s' : StackRay), AlikeStates s s' →
    AlikeEnds (traceWith c K V u s) (traceWith c' K (fun i => raiseVisit δ (V i)) u s')
  | 0, _, _, _, _, h => ⟨h.1, h.2.1⟩
  | K + 1, V, u, s, s', h => by
    have hstep := alike_stack_step H hr (V 0) (u 0) h
    unfold traceWith
    rcases hc : c.step ((V 0).meeting s.ray.surf (u 0)) s with t | _ | _ <;> rcases hc' : c'.step ((raiseVisit δ (V 0)).meeting s'.ray.surf (u 0)) s' with t' | _ | _ <;> rw [hc, hc'] at hstep
    all_goals first | exact hstep.elim | skip
    · exact alike_trace H hr K (fun i => V (i + 1)) (Fin.tail u) t t' hstep
    · trivial
    · trivial

/-! ## The property -/

/-- **C176.** Two structures have the same surfaces, materials, lookup tables and options, but layers of different thickness, with the surfaces moved accordingly; for each layer the product of thickness and absorption coefficient is the same.  Positions are random
(`randomize_surface`).  Then a ray launched from outside ends in the same way in both, for the same random numbers: whether it leaves or is absorbed, its intensity and angle, what has been absorbed in each layer and interface, and the number of passes. -/
theorem C176_ray {δ : ℤ → ℝ} {c c' : RTStack} (H : SameButThickness δ c c') (hr : c.randomize = true) {K n : ℕ} (V : ℕ → Visit) (u : Fin K → Fin n → ℝ) (x y : ℝ) (ra0 : V3) :
    AlikeEnds (traceWith c K V u (c.start x y 0 1 ra0)) (traceWith c' K (fun i => raiseVisit δ (V i)) u (c'.start x y 0 1 ra0)) := by
  apply alike_trace H hr
  refine ⟨rfl, rfl, Or.inr (Or.inr ⟨rfl, ?_⟩)⟩
  unfold RTStack.start Stack.startPos Stack.zOffset
  rfl

/-- The records of rays that came to the same end. -/
theorem alike_recorded {a b : StackRes} (h : AlikeEnds a b) : AlikeRays (recorded 0 1 a) (recorded 0 1 b) := by
  rcases a with s | _ | _ <;> rcases b with s' | _ | _
  all_goals first | exact h.elim | rfl | skip
  obtain ⟨_, _, _, _, _, _, e, _⟩ := alike_fields h.1
  unfold recorded
  simp only
  rw [← e]
  by_cases hs : s.ray.stop = true
  · rw [if_pos hs, if_pos hs]; exact h.1
  · rw [if_neg hs, if_neg hs]; rfl

theorem alike_mean {ι : Type} (l : List ι) (f g : ι → Ray) (F : Ray → ℝ) (h : ∀ i, F (f i) = F (g i)) : rayMean (l.map f) F = rayMean (l.map g) F := by
  unfold rayMean
  rw [List.map_map, List.map_map, List.length_map, List.length_map]
  congr 1
  apply List.map_congr_left
  intro i _
  simp only [Function.comp, h]

theorem alike_kind {s s' : Ray} (h : AlikeRays s s') : s.isRefl = s'.isRefl ∧ s.isTrns = s'.isTrns := by
  obtain ⟨_, _, _, _, _, e, _⟩ := alike_fields h
  unfold Ray.isRefl Ray.isTrns
  rw [e]
  exact ⟨rfl, rfl⟩

/-- **C176.** So for any number of rays, launched anywhere with any random numbers, reflection, transmission, first-surface reflection and the absorption in each layer and in each layer of each interface come out the same. -/
theorem C176_results {δ : ℤ → ℝ} {c c' : RTStack} (H : SameButThickness δ c c') (hr : c.randomize = true) {K n : ℕ} (ra0 : V3) (launches : List (StackLaunch × (Fin K → Fin n → ℝ))) :
    let rays := launches.map fun l => recorded 0 1 (traceWith c K l.1.V l.2 (c.start l.1.x l.1.y 0 1 ra0))
    let rays' := launches.map fun l => recorded 0 1 (traceWith c' K (fun i => raiseVisit δ (l.1.V i)) l.2 (c'.start l.1.x l.1.y 0 1 ra0))
    resR rays = resR rays' ∧ resT rays = resT rays' ∧ resR0 rays = resR0 rays' ∧ (∀ m, resA rays m = resA rays' m) ∧ ∀ j l, resAint rays j l = resAint rays' j l := by
  intro rays rays'
  have h : ∀ l : StackLaunch × (Fin K → Fin n → ℝ), AlikeRays (recorded 0 1 (traceWith c K l.1.V l.2 (c.start l.1.x l.1.y 0 1 ra0)))
      (recorded 0 1 (traceWith c' K (fun i => raiseVisit δ (l.1.V i)) l.2 (c'.start l.1.x l.1.y 0 1 ra0))) := fun l => alike_recorded (C176_ray H hr l.1.V l.2 l.1.x l.1.y ra0)
  refine ⟨?_, ?_, ?_, fun m => ?_, fun j k => ?_⟩
  · apply alike_mean; intro l
    rw [(alike_kind (h l)).1, (alike_fields (h l)).1]
  · apply alike_mean; intro l
    rw [(alike_kind (h l)).2, (alike_fields (h l)).1]
  · apply alike_mean; intro l
    obtain ⟨e1, _, _, _, _, _, _, _, _, e3⟩ := alike_fields (h l)
    rw [(alike_kind (h l)).1, e1, e3]
  · apply alike_mean; intro l
    obtain ⟨_, e1, _⟩ := alike_fields (h l)
    simp only [e1]
  · apply alike_mean; intro l
    obtain ⟨_, _, _, _, _, _, _, e1, e2, _⟩ := alike_fields (h l)
    simp only [e1, e2]

/-- **C176.** The surfaces of two structures made from the same textures and layers of different thickness are indeed the same up to their height: those of interface `i` differ by the difference of the thicknesses above. -/
theorem C176_built (H : List Surface) (textures : List ℕ) (widths widths' : List ℝ) (hv : ∀ a ∈ textures, a < H.length) (hn : textures.length ≤ widths.length + 1) (hn' : textures.length ≤ widths'.length + 1)
    (hs : ∀ s ∈ H, Consistent s ∧ s.isInt = false) :
    ∃ G surfaces G' surfaces', buildRT H textures widths = some (G, surfaces) ∧ buildRT H textures widths' = some (G', surfaces') ∧ ∀ i < textures.length, ∃ s s', G[surfaces.getD i 0]? = some s ∧ G'[surfaces'.getD i 0]? = some s' ∧
      s'.tris = s.tris.map (raiseTri ((widths.take i).sum * 1e6 - (widths'.take i).sum * 1e6)) ∧
      (⟨s'.Lx, s'.Ly, s'.zmin, s'.zmax, s'.zcov⟩ : Cell) = raiseCell ((widths.take i).sum * 1e6 - (widths'.take i).sum * 1e6) ⟨s.Lx, s.Ly, s.zmin, s.zmax, s.zcov⟩ := by
  obtain ⟨G, su, h1, _, _, _, _, h2⟩ := C103_build H textures widths hv hn
  obtain ⟨G', su', h1', _, _, _, _, h2'⟩ := C103_build H textures widths' hv hn'
  refine ⟨G, su, G', su', h1, h1', fun i hi => ?_⟩
  have ht : textures.getD i 0 < H.length := by
    rw [List.getD_eq_getElem _ _ hi]
    exact hv _ (List.getElem_mem hi)
  obtain ⟨s, hsm⟩ : ∃ s, H[textures.getD i 0]? = some s := ⟨_, List.getElem?_eq_getElem ht⟩
  obtain ⟨hc, hf⟩ := hs s (List.mem_of_getElem? hsm)
  obtain ⟨_, a1, _, a2, a3, a4, a5, a6, _⟩ := C61_shift_partial s ((widths.take i).sum * 1e6) hc hf
  obtain ⟨_, b1, _, b2, b3, b4, b5, b6, _⟩ := C61_shift_partial s ((widths'.take i).sum * 1e6) hc hf
  refine ⟨_, _, (h2 i hi).trans (by rw [hsm]; rfl), (h2' i hi).trans (by rw [hsm]; rfl), ?_, ?_⟩
  · rw [a1, b1, List.map_map]
    apply List.map_congr_left
    intro τ _
    simp only [Function.comp, raiseTri, raiseV, lower, Tri.mk.injEq, V3.mk.injEq]
    refine ⟨⟨trivial, trivial, ?_⟩, ⟨trivial, trivial, ?_⟩, trivial, trivial, ?_⟩ <;> ring
  · rw [a2, a3, a4, a5, a6, b2, b3, b4, b5, b6]
    simp only [raiseCell, Cell.mk.injEq]
    refine ⟨trivial, trivial, ?_, ?_, ?_⟩ <;> ring

/-- A layer of index 3.5 in air, `w` µm thick with absorption coefficient `α`, between two surfaces with pyramids 1 µm high. -/
noncomputable def texturedLayer (w α : ℝ) : RTStack :=
  { S := { widths := [0, w, 0], alphas := [0, α, 0], zpos := [], thresh := 1 / 100 }, cells := [⟨2, 2, 0, 1, 0⟩, ⟨2, 2, -w, 1 - w, -w⟩], nks := [1, 7 / 2, 1], tabs := [none, none], asin := fun _ => 0
    pol := .u, randomize := true, periodic := true }

/-- The second surface is the last one. -/
noncomputable def lastMoved (z : ℝ) (k : ℤ) : ℝ := if k = 1 ∨ k = -1 then z else 0

/-- **C176, example.** A layer of 10 µm and one of 20 µm with half the absorption coefficient. -/
theorem texturedLayer_same : SameButThickness (lastMoved (-10)) (texturedLayer 10 2) (texturedLayer 20 1) where
  nks := rfl
  tabs := rfl
  asin := rfl
  pol := rfl
  periodic := rfl
  randomize := rfl
  thresh := rfl
  layers := rfl
  cells := by
    intro k
    rcases k with k | k
    · match k with
      | 0 => simp [texturedLayer, pyGet, raiseCell, lastMoved]
      | 1 => simp [texturedLayer, pyGet, raiseCell, lastMoved]; norm_num
      | k + 2 =>
        have e : ∀ l : List Cell, l.length = 2 → pyGet l (Int.ofNat (k + 2)) = none := by
          intro l hl
          unfold pyGet
          have h0 : (0 : ℤ) ≤ Int.ofNat (k + 2) := Int.natCast_nonneg (k + 2)
          rw [if_pos h0]
          exact List.getElem?_eq_none (by rw [hl]; exact Nat.le_add_left 2 k)
        rw [e _ rfl, e _ rfl]
        rfl
    · match k with
      | 0 => simp [texturedLayer, pyGet, raiseCell, lastMoved]; norm_num
      | 1 => simp [texturedLayer, pyGet, raiseCell, lastMoved]
      | k + 2 =>
        have e : ∀ l : List Cell, l.length = 2 → pyGet l (Int.negSucc (k + 2)) = none := by
          intro l hl
          unfold pyGet
          rw [if_neg (by omega), if_neg (by rw [hl]; omega)]
        rw [e _ rfl, e _ rfl]
        rfl
  first := by simp [lastMoved]
  product := by
    intro i
    match i with
    | 0 => simp [texturedLayer]
    | 1 => norm_num [texturedLayer]
    | 2 => simp [texturedLayer]
    | i + 3 => simp [texturedLayer]

example {K n : ℕ} (V : ℕ → Visit) (u : Fin K → Fin n → ℝ) (x y : ℝ) (ra0 : V3) :
    AlikeEnds (traceWith (texturedLayer 10 2) K V u ((texturedLayer 10 2).start x y 0 1 ra0))
      (traceWith (texturedLayer 20 1) K (fun i => raiseVisit (lastMoved (-10)) (V i)) u ((texturedLayer 20 1).start x y 0 1 ra0)) :=
  C176_ray texturedLayer_same rfl V u x y ra0

end Rayflare
