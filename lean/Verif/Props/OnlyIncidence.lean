import Verif.Model.OnlyIncidence
import Verif.Props.EndToEndMethods
import Verif.Props.Launch

/-!
# Property C125: results with `only_incidence_angle=True`
-/

namespace Rayflare

open Rayflare.Np Rayflare.Model Rayflare.Spec Rayflare.Lemmas Matrix Real

/-- The requested direction lies strictly inside bin `k` of ring `i` of the upper hemisphere (azimuth modulo the symmetry angle `2π/m`), or it is normal incidence, `theta_in = phi_in = 0`,
with a first bin that reaches beyond 1e-4 in both angles. -/
def InsideBin (n : ℕ) (c : ℝ) (m : ℕ) (sp : Spacing) (thIn phi : ℝ) : Prop :=
  (0 < phi ∧ ∃ i k, i < n ∧ k < ringSize n c i ∧ polarEdge n sp i < thIn ∧ thIn < polarEdge n sp (i + 1) ∧
    ∃ q : ℤ, azimuthEdge n c (2 * π / m) i k < phi + q * (2 * π / m) ∧ phi + q * (2 * π / m) < azimuthEdge n c (2 * π / m) i (k + 1)) ∨
  (thIn = 0 ∧ phi = 0 ∧ 0.0001 ≤ polarEdge n sp 1 ∧ 0.0001 ≤ azimuthEdge n c (2 * π / m) 0 1)

/-- At one wavelength: `M` is what `process_structure` stores for the front side of the first surface, calculated with ray tracing and `only_incidence_angle=True`, whatever happens to the
rays and whatever the uninitialised memory contains. -/
def FrontTraced (n : ℕ) (c : ℝ) (m : ℕ) (sp : Spacing) (nL : ℕ) (thIn : ℝ) (phiIn : PhiIn)
    (M : Matrix (Fin ((makeAngleVector n (2 * π / m) c sp).half + (makeAngleVector n (2 * π / m) c sp).half)) (Fin (makeAngleVector n (2 * π / m) c sp).half) ℝ ×
      Matrix (Fin nL) (Fin (makeAngleVector n (2 * π / m) c sp).half) ℝ) (u : RTJunk) : Prop :=
  ∃ (tmm : Bool) (nRays nx ny : ℕ) (res : ℕ → ℕ → RTOut) (N : RTMat), 0 < nRays ∧ 0 < nx ∧ 0 < ny ∧
    (∀ l1 l2, match res l1 l2 with
      | .leaves θ _ => |θ| ≤ π
      | .absorbed A θl => tmm = true ∧ |θl| ≤ π / 2 ∧ (∀ l, 0 ≤ A l) ∧ 0 < ((List.range nL).map A).sum) ∧
    rtStored (makeAngleVector n (2 * π / m) c sp) (2 * π / m) tmm true nL 0 true nRays nx ny thIn phiIn res u = some N ∧
    M = N.stored _ nL

section
variable (n : ℕ) (hn : 0 < n) (c : ℝ) (hc : 0 < c) (m : ℕ) (hm : 0 < m) (sp : Spacing)

theorem fold_offset (n : ℕ) (c : ℝ) (hc : 0 < c) (hn : 0 < n) (m : ℕ) (hm : 0 < m) (h2 : 0.0001 ≤ azimuthEdge n c (2 * π / m) 0 1) :
    foldPhi 0.0001 (2 * π / m) = 0.0001 ∧ (0.0001 : ℝ) < 2 * π / m := by
  have hpi := Real.pi_pos
  have hs : 0 < 2 * π / m := by positivity
  have hN := ringSize_pos n c hc (show 0 < 2 * n by omega)
  have hpos : (0 : ℝ) < 0.0001 := by norm_num
  have hle : (0.0001 : ℝ) ≤ 2 * π / m := by
    refine h2.trans ?_
    refine le_of_le_of_eq ?_ (azimuthEdge_last n c (2 * π / m) 0 hN)
    rcases Nat.lt_or_ge 1 (ringSize n c 0) with h | h
    · exact (azimuthEdge_strictMono n c (2 * π / m) hs 0 1 _ h le_rfl).le
    · rw [show ringSize n c 0 = 1 by omega]
  have hne : ¬ (0.0001 : ℝ) = 2 * π / m := by
    intro h
    apply irrational_pi
    refine ⟨0.0001 * m / 2, ?_⟩
    have hm' : (m : ℝ) ≠ 0 := by positivity
    rw [eq_div_iff hm'] at h
    push_cast
    linarith
  have hlt := lt_of_le_of_ne hle hne
  exact ⟨((C05_fold m hm 0.0001).2.2 _ hpos.le hlt ⟨0, by simp⟩).symm, hlt⟩

theorem row_of_launch {n : ℕ} {c s : ℝ} {sp : Spacing} {thIn phi : ℝ} {v : List ℝ}
    (h : launch thIn (.val phi) 1 n c s sp = some (List.replicate 1 v)) :
    makeV0Row (makeAngleVector n s c sp) thIn (launchPhi (.val phi) s) = some v := by
  unfold launch makeV0 at h
  obtain ⟨v', h1, h2⟩ := Option.map_eq_some_iff.mp h
  simp at h2
  rw [h1, h2]

include hn hc hm in
/-- For a direction inside a bin, the launched power and the traced rays are in the same column. -/
theorem lit_bin (thIn phi : ℝ) (hin : InsideBin n c m sp thIn phi) :
    (0 ≤ thIn ∧ thIn < π / 2 ∧ 0 ≤ phi ∧ phi ≠ 2 * π / m) ∧ ∃ b < ringStart n c n,
      makeV0Row (makeAngleVector n (2 * π / m) c sp) thIn (launchPhi (.val phi) (2 * π / m)) =
        some ((List.range (ringStart n c n)).map fun r => if r = b then 1 else 0) ∧
      ∃ th ph : ℝ, (∀ nAng, launchedOnly (makeAngleVector n (2 * π / m) c sp) nAng thIn (.val phi) =
          some (List.replicate ⌈(nAng : ℝ) / (ringStart n c n : ℝ)⌉₊ (th, ph))) ∧
        0 < th ∧ th < π / 2 ∧ OffEdge (2 * π / m) ph ∧ ∀ o, IncidentIn n c (2 * π / m) sp true b { θin := th, φin := ph, out := o } := by
  have hpi := Real.pi_pos
  have hs : 0 < 2 * π / m := by positivity
  have hmono := polarEdge_strictMono n hn sp
  have hhalf := half_eq n hn c sp (2 * π / m)
  have hoff : ∀ ph x : ℝ, 0 < x → x < 2 * π / m → (∃ k : ℤ, x = ph + k * (2 * π / m)) → OffEdge (2 * π / m) ph := by
    rintro ph x h0 h1 ⟨k, hk⟩ q rfl
    have : x = ((q + k : ℤ) : ℝ) * (2 * π / m) := by rw [hk]; push_cast; ring
    have h2 : (0 : ℝ) < ((q + k : ℤ) : ℝ) := by
      by_contra hcon
      push Not at hcon
      nlinarith
    have h3 : ((q + k : ℤ) : ℝ) < 1 := by
      by_contra hcon
      push Not at hcon
      nlinarith
    have h4 : 0 < q + k := by exact_mod_cast h2
    have h5 : q + k < 1 := by exact_mod_cast h3
    omega
  rcases hin with ⟨hphi, i, k, hi, hk, h1, h2, q, h3, h4⟩ | ⟨rfl, rfl, h1, h2⟩
  · have hN := ringSize_pos n c hc (show i < 2 * n by omega)
    have hx0 : 0 < phi + q * (2 * π / m) := by
      have : 0 ≤ azimuthEdge n c (2 * π / m) i k := by unfold azimuthEdge; positivity
      linarith
    have hx1 : phi + q * (2 * π / m) < 2 * π / m := by
      have : azimuthEdge n c (2 * π / m) i (k + 1) ≤ 2 * π / m := by
        refine le_of_le_of_eq ?_ (azimuthEdge_last n c (2 * π / m) i hN)
        rcases Nat.lt_or_ge (k + 1) (ringSize n c i) with h | h
        · exact (azimuthEdge_strictMono n c (2 * π / m) hs i (k + 1) _ h le_rfl).le
        · rw [show k + 1 = ringSize n c i by omega]
      linarith
    have hfold : phi + q * (2 * π / m) = foldPhi phi (2 * π / m) := (C05_fold m hm phi).2.2 _ hx0.le hx1 ⟨q, rfl⟩
    have hth0 : 0 < thIn := by
      have : 0 ≤ polarEdge n sp i := by
        rcases Nat.eq_zero_or_pos i with h | h
        · subst h; rw [polarEdge_zero]
        · have := hmono 0 i h (by omega); rw [polarEdge_zero] at this
          exact this.le
      linarith
    have hth1 : thIn < π / 2 := by
      have hle : polarEdge n sp (i + 1) ≤ polarEdge n sp n := by
        rcases Nat.lt_or_ge (i + 1) n with h | h
        · exact (hmono (i + 1) n h (by omega)).le
        · rw [show i + 1 = n by omega]
      rw [polarEdge_half n hn sp] at hle
      linarith
    have hl : launchPhi (.val phi) (2 * π / m) = .val (foldPhi phi (2 * π / m)) := by
      unfold launchPhi
      simp only
      split
      · rfl
      · rename_i h
        have hle := not_lt.mp h
        congr 1
        rcases lt_or_eq_of_le hle with hlt | heq
        · exact (C05_fold m hm phi).2.2 phi hphi.le hlt ⟨0, by simp⟩
        · exfalso
          have := (C05_fold m hm phi).2.2 0 le_rfl hs ⟨-1, by rw [heq]; push_cast; ring⟩
          linarith
    rw [hfold] at h3 h4
    refine ⟨⟨hth0.le, hth1, hphi.le, fun h => hoff phi _ hx0 hx1 ⟨q, rfl⟩ 1 (by rw [h]; simp)⟩, ringStart n c i + k, bin_lt_half n c hi hk, row_of_launch (launch_at n hn _ c hs hc sp 1 thIn phi _ hi hk ⟨h1.le, h2, h3.le, h4⟩ hl),
      thIn, phi, fun nAng => ?_, hth0, hth1, hoff phi _ hx0 hx1 ⟨q, rfl⟩, fun o => ⟨bin_lt_half n c hi hk, i, k, q, by omega, hk, by simp, ?_⟩⟩
    · unfold launchedOnly
      simp only [hhalf, if_neg hth0.ne', if_neg hphi.ne']
    · simp only [seen, if_true]
      rw [hfold]
      exact ⟨h1, h2.le, h3, h4.le⟩
  · obtain ⟨hf, hlt⟩ := fold_offset n c hc hn m hm h2
    have hN := ringSize_pos n c hc (show 0 < 2 * n by omega)
    have hl : launchPhi (.val 0) (2 * π / m) = .val 0 := by
      unfold launchPhi
      simp only [gt_iff_lt, not_lt.mpr hs.le, if_false]
    have hp1 : polarEdge n sp 1 ≤ π / 2 := by
      rw [← polarEdge_half n hn sp]
      rcases Nat.lt_or_ge 1 n with h | h
      · exact (hmono 1 n h (by omega)).le
      · rw [show n = 1 by omega]
    refine ⟨⟨le_rfl, by positivity, le_rfl, hs.ne⟩, ringStart n c 0 + 0, bin_lt_half n c hn hN, row_of_launch (launch_at n hn _ c hs hc sp 1 0 0 0 hn hN
      ⟨by rw [polarEdge_zero], by linarith, by rw [azimuthEdge_zero], by linarith⟩ hl), 0.0001, 0.0001, fun nAng => ?_, by norm_num, ?_,
      hoff _ 0.0001 (by norm_num) hlt ⟨0, by simp⟩, fun o => ⟨bin_lt_half n c hn hN, 0, 0, 0, by omega, hN, by simp, ?_⟩⟩
    · unfold launchedOnly
      simp only [hhalf, if_true]
    · have := Real.pi_gt_three
      norm_num
      linarith
    · simp only [seen, if_true, Int.cast_zero, zero_mul, add_zero]
      refine ⟨?_, h1, ?_, h2⟩
      · rw [polarEdge_zero]; norm_num
      · rw [azimuthEdge_zero]; norm_num

include hn hc hm in
/-- The traced rays: at least one, all in the lit bin, all of the kind `RT` may trace. -/
theorem only_rays (thIn phi : ℝ) (hin : InsideBin n c m sp thIn phi) :
    ∃ b < ringStart n c n,
      makeV0Row (makeAngleVector n (2 * π / m) c sp) thIn (launchPhi (.val phi) (2 * π / m)) =
        some ((List.range (ringStart n c n)).map fun r => if r = b then 1 else 0) ∧
      ∀ (tmm : Bool) (nL nRays nx ny : ℕ) (res : ℕ → ℕ → RTOut), 0 < nRays → 0 < nx → 0 < ny →
        (∀ l1 l2, match res l1 l2 with
          | .leaves θ _ => |θ| ≤ π
          | .absorbed A θl => tmm = true ∧ |θl| ≤ π / 2 ∧ (∀ l, 0 ≤ A l) ∧ 0 < ((List.range nL).map A).sum) →
        ∃ rays, (∀ u, rtStored (makeAngleVector n (2 * π / m) c sp) (2 * π / m) tmm true nL 0 true nRays nx ny thIn (.val phi) res u =
            rtMatrix (rtArgs n (2 * π / m) c sp tmm true nL) u rays) ∧
          (∀ r ∈ rays, RayOk (2 * π / m) tmm nL r) ∧ ∃ r ∈ rays, IncidentIn n c (2 * π / m) sp true b r := by
  obtain ⟨-, b, hb, hv, th, ph, hL, ht0, ht1, hoff, hinc⟩ := lit_bin n hn c hc m hm sp thIn phi hin
  refine ⟨b, hb, hv, ?_⟩
  intro tmm nL nRays nx ny res hr hx hy hres
  have hhp := half_pos n hn c hc
  have hx' : (0 : ℝ) < nx := by exact_mod_cast hx
  have hy' : (0 : ℝ) < ny := by exact_mod_cast hy
  have hr' : (0 : ℝ) < nRays := by exact_mod_cast hr
  have hh' : (0 : ℝ) < ringStart n c n := by exact_mod_cast hhp
  have hA : 0 < nAngles nRays nx ny := by
    unfold nAngles
    exact Nat.ceil_pos.mpr (by positivity)
  have hA' : (0 : ℝ) < nAngles nRays nx ny := by exact_mod_cast hA
  have hreps : 0 < ⌈(nAngles nRays nx ny : ℝ) / (ringStart n c n : ℝ)⌉₊ := Nat.ceil_pos.mpr (by positivity)
  set reps := ⌈(nAngles nRays nx ny : ℝ) / (ringStart n c n : ℝ)⌉₊ with hrepsdef
  refine ⟨traced (List.replicate reps (th, ph)) (nx * ny) res, ?_, ?_, ?_⟩
  · intro u
    unfold rtStored
    simp only [determineOnlyIncidence, and_self, if_true, hL, Option.bind_some]
    rfl
  · intro r hr
    unfold traced at hr
    obtain ⟨p, hp, hr'⟩ := List.mem_flatMap.mp hr
    obtain ⟨l2, -, rfl⟩ := List.mem_map.mp hr'
    have hd := List.eq_of_mem_replicate (List.fst_mem_of_mem_zipIdx hp)
    rw [hd]
    exact ⟨ht0, ht1, hoff, hres p.2 l2⟩
  · refine ⟨{ θin := th, φin := ph, out := res 0 0 }, ?_, hinc _⟩
    unfold traced
    refine List.mem_flatMap.mpr ⟨((th, ph), 0), ?_, List.mem_map.mpr ⟨0, List.mem_range.mpr (Nat.mul_pos hx hy), rfl⟩⟩
    rw [List.mem_zipIdx_iff_getElem?]
    simp [hreps]
end

section
variable {ω κ₀ κ₁ : Type*} [Fintype κ₀] [Fintype κ₁]

theorem mulVec_lit {ρ : Type*} {h : ℕ} (b : Fin h) (M M' : Matrix ρ (Fin h) ℝ) (he : ∀ r, M' r b = M r b) :
    (M' *ᵥ fun j => if j = b then (1 : ℝ) else 0) = M *ᵥ fun j => if j = b then (1 : ℝ) else 0 := by
  funext r
  simp [Matrix.mulVec, dotProduct, he r]

/-- Only the lit column of the matrix of the front surface lit from the front is used. -/
theorem same_loop (n : ℕ) (s c : ℝ) (sp : Spacing) (thIn : ℝ) (phiIn : PhiIn) (inp : RatInput ω κ₀ κ₁ (makeAngleVector n s c sp).half)
    (b : Fin (makeAngleVector n s c sp).half)
    (hv : makeV0Row (makeAngleVector n s c sp) thIn (launchPhi phiIn s) =
      some ((List.range (makeAngleVector n s c sp).half).map fun r => if r = (b : ℕ) then 1 else 0))
    (front' : ω → _) (h1 : ∀ w r, (front' w).1 r b = (inp.front0 w).1 r b) (h2 : ∀ w l, (front' w).2 l b = (inp.front0 w).2 l b)
    (S : Sys ω (Fin (makeAngleVector n s c sp).half) κ₀ κ₁) (hS : assemble n s c sp thIn phiIn inp = some S) :
    ∃ S', assemble n s c sp thIn phiIn { inp with front0 := front' } = some S' ∧ (∀ k t, S'.Exits k t ↔ S.Exits k t) ∧
      ∀ o k t, S'.ExitsProf o k t ↔ S.ExitsProf o k t := by
  unfold assemble at hS
  simp only [hv, Option.map_some, Option.some.injEq] at hS
  have hone : ∀ (j : Fin (makeAngleVector n s c sp).half),
      ((List.range (makeAngleVector n s c sp).half).map fun r => if r = (b : ℕ) then (1 : ℝ) else 0).getD j 0 = if j = b then 1 else 0 := by
    intro j
    simp [List.getD_eq_getElem?_getD, Fin.ext_iff]
  have hv0 : S.v0 = fun _ j => if j = b then 1 else 0 := by
    rw [← hS]
    funext w j
    exact hone j
  have hf0 : S.front0 = fun w => loadMats .front (inp.front0 w).1 (inp.front0 w).2 := by rw [← hS]
  refine ⟨{ S with front0 := fun w => loadMats .front (front' w).1 (front' w).2 }, ?_, ?_⟩
  · unfold assemble
    simp only [hv, Option.map_some, Option.some.injEq]
    rw [← hS]
  have hinit : ({ S with front0 := fun w => loadMats .front (front' w).1 (front' w).2 } : Sys ω (Fin (makeAngleVector n s c sp).half) κ₀ κ₁).init = S.init := by
    simp only [Sys.init, LoopState.mk.injEq, List.cons.injEq, and_true, hv0, hf0]
    refine ⟨?_, ?_, trivial, ?_⟩
    · funext w
      exact mulVec_lit b _ _ fun r => h1 w _
    · funext w
      exact mulVec_lit b _ _ fun r => h1 w _
    · funext w
      exact mulVec_lit b _ _ fun r => h2 w _
  constructor
  · intro k t
    unfold Sys.Exits
    rw [hinit]
    exact Iff.rfl
  · intro o k t
    unfold Sys.ExitsProf
    rw [hinit]
    exact Iff.rfl

/-- Matrices with the same column `b` and perfect reflection elsewhere. -/
noncomputable def patch {h : ℕ} {κ : Type*} (b : Fin h) (M : Matrix (Fin (h + h)) (Fin h) ℝ × Matrix κ (Fin h) ℝ) :
    Matrix (Fin (h + h)) (Fin h) ℝ × Matrix κ (Fin h) ℝ :=
  (fun r j => if j = b then M.1 r j else if r = Fin.castAdd h j then 1 else 0, fun l j => if j = b then M.2 l j else 0)

theorem patch_ok {h : ℕ} {κ : Type*} [Fintype κ] (b : Fin h) (M : Matrix (Fin (h + h)) (Fin h) ℝ × Matrix κ (Fin h) ℝ)
    (h1 : ∑ r, M.1 r b + ∑ l, M.2 l b = 1) (h2 : ∀ r, 0 ≤ M.1 r b) (h3 : ∀ l, 0 ≤ M.2 l b) : StoredOk (patch b M) := by
  refine ⟨fun j => ?_, fun r j => ?_, fun l j => ?_⟩
  · by_cases hj : j = b
    · subst hj; simpa [patch] using h1
    · simp [patch, hj]
  · by_cases hj : j = b
    · subst hj; simpa [patch] using h2 r
    · simp only [patch, hj, if_false]
      split_ifs <;> norm_num
  · by_cases hj : j = b
    · subst hj; simpa [patch] using h3 l
    · simp [patch, hj]
end

section
variable {ω : Type*} (n : ℕ) (hn : 0 < n) (c : ℝ) (hc : 0 < c) (m : ℕ) (hm : 0 < m) (sp : Spacing)

include hn hc hm in
/-- The lit column of the stored matrix: fractions that add up to one, the same for any contents of the uninitialised memory. -/
theorem lit_column (thIn phi : ℝ) (hin : InsideBin n c m sp thIn phi) (nL : ℕ) :
    ∃ b : Fin (makeAngleVector n (2 * π / m) c sp).half,
      makeV0Row (makeAngleVector n (2 * π / m) c sp) thIn (launchPhi (.val phi) (2 * π / m)) =
        some ((List.range (makeAngleVector n (2 * π / m) c sp).half).map fun r => if r = (b : ℕ) then 1 else 0) ∧
      ∀ M u, FrontTraced n c m sp nL thIn (.val phi) M u → ∑ r, M.1 r b + ∑ l, M.2 l b = 1 ∧ (∀ r, 0 ≤ M.1 r b) ∧ ∀ l, 0 ≤ M.2 l b := by
  obtain ⟨b, hb, hv, hrays⟩ := only_rays n hn c hc m hm sp thIn phi hin
  have hhalf : (makeAngleVector n (2 * π / m) c sp).half = ringStart n c n := half_eq n hn c sp (2 * π / m)
  have htot : ringStart n c (2 * n) = 2 * (makeAngleVector n (2 * π / m) c sp).half := by rw [hhalf]; exact ringStart_half n c
  refine ⟨⟨b, by rw [hhalf]; exact hb⟩, by rw [← hhalf] at hv; exact hv, ?_⟩
  rintro M u ⟨tmm, nRays, nx, ny, res, N, hr, hx, hy, hres, hN, rfl⟩
  obtain ⟨rays, he, hok, hex⟩ := hrays tmm nL nRays nx ny res hr hx hy hres
  rw [he u] at hN
  obtain ⟨N', hN', hcol⟩ := C48_columns n hn c hc m hm sp tmm true nL rays hok u
  have : N' = N := by rw [hN'] at hN; exact Option.some.inj hN
  subst this
  obtain ⟨a1, a2, a3⟩ := hcol b hex
  refine ⟨?_, fun r => a1 r, fun l => a2 l⟩
  rw [htot] at a3
  show ∑ r : Fin (_ + _), N'.out r b + ∑ l : Fin nL, N'.A l b = 1
  rw [sum_fin_add _ (fun r => N'.out r b), ← Finset.sum_range (fun l => N'.A l b)]
  exact a3

theorem sym_cases (m : ℕ) (hm : 0 < m) (hsym : Even m ∨ m = 1) :
    (∃ q : ℕ, 0 < q ∧ 2 * π / (m : ℝ) = 2 * π / ((2 * q : ℕ) : ℝ)) ∨ 2 * π / (m : ℝ) = 2 * π := by
  rcases hsym with ⟨q, hq⟩ | rfl
  · refine Or.inl ⟨q, by omega, ?_⟩
    rw [hq, show q + q = 2 * q by omega]
  · right; simp

include hn hc hm in
/-- **C125, energy (partial).** Front of the first surface ray-traced for the requested direction only (the default), the other surfaces calculated by any method: for `phi_symmetry = 2π/m`
with `m` even or 1 and every direction strictly inside a bin (or normal incidence), whenever the loop of `calculate_RAT` ends, `1 - I_thresh ≤ R + T + A_bulk + A_interface ≤ 1` and
all parts are non-negative, although most of the stored matrix is uninitialised memory.  Missing: directions on bin edges and `phi_in = 'all'`, see the theorems below. -/
theorem C125_energy_partial (hsym : Even m ∨ m = 1) (hs : (1e-10 : ℝ) ≤ 2 * π / m)
    (thIn phi : ℝ) (hin : InsideBin n c m sp thIn phi) (nL₀ nL₁ : ℕ)
    (inp : RatInput ω (Fin nL₀) (Fin nL₁) (makeAngleVector n (2 * π / m) c sp).half) (hα : ∀ w, 0 ≤ inp.α w) (hd : 0 ≤ inp.thick)
    (u : ω → RTJunk) (hfront : ∀ w, FrontTraced n c m sp nL₀ thIn (.val phi) (inp.front0 w) (u w)) (hback : ∀ w, Calculated n c m sp false nL₀ (inp.rear0 w))
    (hrear : ∀ w, Calculated n c m sp true nL₁ (inp.front1 w))
    (S : Sys ω (Fin (makeAngleVector n (2 * π / m) c sp).half) (Fin nL₀) (Fin nL₁)) (hS : assemble n (2 * π / m) c sp thIn (.val phi) inp = some S)
    (o : ProfOpts ω (Fin (makeAngleVector n (2 * π / m) c sp).half)) (k : ℕ) (t : LoopState ω (Fin (makeAngleVector n (2 * π / m) c sp).half) (Fin nL₀) (Fin nL₁))
    (ht : S.Exits k t ∨ S.ExitsProf o k t) (w : ω) :
    1 - inp.thresh ≤ t.R w + t.T w + t.Abulk w + t.Aint0 w + t.Aint1 w ∧ t.R w + t.T w + t.Abulk w + t.Aint0 w + t.Aint1 w ≤ 1 ∧
    0 ≤ t.R w ∧ 0 ≤ t.T w ∧ 0 ≤ t.Abulk w ∧ 0 ≤ t.Aint0 w ∧ 0 ≤ t.Aint1 w := by
  obtain ⟨⟨ht0, ht1, -, -⟩, -⟩ := lit_bin n hn c hc m hm sp thIn phi hin
  obtain ⟨b, hv, hcol⟩ := lit_column n hn c hc m hm sp thIn phi hin nL₀
  obtain ⟨S', hS', he, heP⟩ := same_loop n (2 * π / m) c sp thIn (.val phi) inp b hv (fun w => patch b (inp.front0 w))
    (fun w r => by simp [patch]) (fun w l => by simp [patch]) S hS
  refine C16_end_to_end n hn (2 * π / m) (sym_cases m hm hsym) c hc sp thIn ht0 ht1 (.val phi) { inp with front0 := fun w => patch b (inp.front0 w) } hα hd
    (fun w => patch_ok b _ (hcol _ _ (hfront w)).1 (hcol _ _ (hfront w)).2.1 (hcol _ _ (hfront w)).2.2)
    (fun w => C123_stored n hn c hc m hm sp true hs _ _ (hrear w))
    (fun w => C123_stored n hn c hc m hm sp false hs _ _ (hback w)) S' hS' o k t ?_ w
  exact ht.imp (he k t).mpr (heP o k t).mpr

include hn hc hm in
/-- **C125, termination (partial).** With an absorbing bulk the calculation ends, after at most `⌈ln(1/I_thresh)/(2 a d)⌉` passes. -/
theorem C125_ends_partial (hsym : Even m ∨ m = 1) (hs : (1e-10 : ℝ) ≤ 2 * π / m)
    (thIn phi : ℝ) (hin : InsideBin n c m sp thIn phi) (nL₀ nL₁ : ℕ)
    (inp : RatInput ω (Fin nL₀) (Fin nL₁) (makeAngleVector n (2 * π / m) c sp).half) (a : ℝ) (ha : 0 < a) (hα : ∀ w, a ≤ inp.α w) (hd : 0 < inp.thick) (hthr : 0 < inp.thresh)
    (u : ω → RTJunk) (hfront : ∀ w, FrontTraced n c m sp nL₀ thIn (.val phi) (inp.front0 w) (u w)) (hback : ∀ w, Calculated n c m sp false nL₀ (inp.rear0 w))
    (hrear : ∀ w, Calculated n c m sp true nL₁ (inp.front1 w)) :
    ∃ S, assemble n (2 * π / m) c sp thIn (.val phi) inp = some S ∧ ∀ o,
      ∃ k ≤ ⌈Real.log (1 / inp.thresh) / (2 * (a * inp.thick))⌉₊, (∃ t, S.Exits k t) ∧ ∃ t, S.ExitsProf o k t := by
  obtain ⟨⟨ht0, ht1, hp0, hp1⟩, -⟩ := lit_bin n hn c hc m hm sp thIn phi hin
  obtain ⟨b, hv, hcol⟩ := lit_column n hn c hc m hm sp thIn phi hin nL₀
  have hsome : ∃ S, assemble n (2 * π / m) c sp thIn (.val phi) inp = some S := by
    unfold assemble; simp only [hv, Option.map_some]; exact ⟨_, rfl⟩
  obtain ⟨S, hS⟩ := hsome
  obtain ⟨S', hS', he, heP⟩ := same_loop n (2 * π / m) c sp thIn (.val phi) inp b hv (fun w => patch b (inp.front0 w))
    (fun w r => by simp [patch]) (fun w l => by simp [patch]) S hS
  obtain ⟨S'', hS'', hk⟩ := C17_end_to_end n hn (2 * π / m) (sym_cases m hm hsym) c hc sp thIn ht0 ht1 phi hp0 hp1 { inp with front0 := fun w => patch b (inp.front0 w) } a ha hα hd hthr
    (fun w => patch_ok b _ (hcol _ _ (hfront w)).1 (hcol _ _ (hfront w)).2.1 (hcol _ _ (hfront w)).2.2)
    (fun w => C123_stored n hn c hc m hm sp true hs _ _ (hrear w))
    (fun w => C123_stored n hn c hc m hm sp false hs _ _ (hback w))
  have hSS : S'' = S' := by rw [hS''] at hS'; exact Option.some.inj hS'
  subst hSS
  refine ⟨S, hS, fun o => ?_⟩
  obtain ⟨k, hkle, ⟨t, ht⟩, t', ht'⟩ := hk o
  exact ⟨k, hkle, ⟨t, (he k t).mp ht⟩, t', (heP o k t').mp ht'⟩

include hn hc hm in
/-- **C125, uninitialised memory (partial).** The results do not depend on what the uninitialised memory contained: with the same rays and any two contents, the calculation goes through
the same states and ends with the same results. -/
theorem C125_memory_partial (thIn phi : ℝ) (hin : InsideBin n c m sp thIn phi) (nL₀ nL₁ : ℕ)
    (tmm : Bool) (nRays nx ny : ℕ) (hr : 0 < nRays) (hx : 0 < nx) (hy : 0 < ny) (res : ω → ℕ → ℕ → RTOut)
    (hres : ∀ w l1 l2, match res w l1 l2 with
      | .leaves θ _ => |θ| ≤ π
      | .absorbed A θl => tmm = true ∧ |θl| ≤ π / 2 ∧ (∀ l, 0 ≤ A l) ∧ 0 < ((List.range nL₀).map A).sum)
    (u u' : ω → RTJunk) (N N' : ω → RTMat)
    (hN : ∀ w, rtStored (makeAngleVector n (2 * π / m) c sp) (2 * π / m) tmm true nL₀ 0 true nRays nx ny thIn (.val phi) (res w) (u w) = some (N w))
    (hN' : ∀ w, rtStored (makeAngleVector n (2 * π / m) c sp) (2 * π / m) tmm true nL₀ 0 true nRays nx ny thIn (.val phi) (res w) (u' w) = some (N' w))
    (inp inp' : RatInput ω (Fin nL₀) (Fin nL₁) (makeAngleVector n (2 * π / m) c sp).half)
    (hinp : inp.front0 = fun w => (N w).stored _ nL₀)
    (hinp' : inp' = { inp with front0 := fun w => (N' w).stored _ nL₀ }) :
    ∃ S S', assemble n (2 * π / m) c sp thIn (.val phi) inp = some S ∧ assemble n (2 * π / m) c sp thIn (.val phi) inp' = some S' ∧
      (∀ k t, S'.Exits k t ↔ S.Exits k t) ∧ ∀ o k t, S'.ExitsProf o k t ↔ S.ExitsProf o k t := by
  obtain ⟨b, hb, hv, hrays⟩ := only_rays n hn c hc m hm sp thIn phi hin
  have hhalf : (makeAngleVector n (2 * π / m) c sp).half = ringStart n c n := half_eq n hn c sp (2 * π / m)
  rw [← hhalf] at hb hv
  have hsome : ∃ S, assemble n (2 * π / m) c sp thIn (.val phi) inp = some S := by
    unfold assemble; simp only [hv, Option.map_some]; exact ⟨_, rfl⟩
  obtain ⟨S, hS⟩ := hsome
  have key : ∀ w, (∀ i, (N' w).out i b = (N w).out i b) ∧ (∀ l, (N' w).A l b = (N w).A l b) := by
    intro w
    obtain ⟨rays, he, hok, hex⟩ := hrays tmm nL₀ nRays nx ny (res w) hr hx hy (hres w)
    have h1 := hN w
    have h2 := hN' w
    rw [he] at h1 h2
    obtain ⟨a1, a2, -⟩ := C49_used_bin_partial n hn c hc m hm sp tmm true nL₀ rays hok b hex _ _ _ _ h2 h1
    exact ⟨a1, a2⟩
  obtain ⟨S', hS', he, heP⟩ := same_loop n (2 * π / m) c sp thIn (.val phi) inp ⟨b, hb⟩ hv
    (fun w => (N' w).stored _ nL₀)
    (fun w r => by rw [hinp]; exact (key w).1 r) (fun w l => by rw [hinp]; exact (key w).2 l) S hS
  exact ⟨S, S', hS, by rw [hinp']; exact hS', he, heP⟩

include hn hc hm in
/-- **C125 is violated on bin edges.** For an incidence angle on an edge between two rings the rays fill the column of one ring and the light is launched in another: whatever the rays do and
whatever the rest of the structure is, the reported reflectance can be any number whatsoever, depending on what the memory contained. -/
theorem C125_edge_fails (i : ℕ) (hi0 : 0 < i) (hi : i < n) (phi : ℝ) (hp0 : 0 < phi) (hp1 : phi < 2 * π / m) (nL₀ nL₁ : ℕ)
    (tmm : Bool) (nRays nx ny : ℕ) (res : ω → ℕ → ℕ → RTOut)
    (hres : ∀ w l1 l2, match res w l1 l2 with
      | .leaves θ _ => |θ| ≤ π
      | .absorbed A θl => tmm = true ∧ |θl| ≤ π / 2 ∧ (∀ l, 0 ≤ A l) ∧ 0 < ((List.range nL₀).map A).sum)
    (x : ω → ℝ) :
    ∃ (u : ω → RTJunk) (N : ω → RTMat), (∀ w, rtStored (makeAngleVector n (2 * π / m) c sp) (2 * π / m) tmm true nL₀ 0 true nRays nx ny (polarEdge n sp i) (.val phi) (res w) (u w) = some (N w)) ∧
      ∀ inp : RatInput ω (Fin nL₀) (Fin nL₁) (makeAngleVector n (2 * π / m) c sp).half, 0 ≤ inp.thresh →
        inp.front0 = (fun w => (N w).stored _ nL₀) →
        ∃ S, assemble n (2 * π / m) c sp (polarEdge n sp i) (.val phi) inp = some S ∧ ∃ t, S.Exits 0 t ∧ ∀ w, t.R w = x w := by
  have hpi := Real.pi_pos
  have hs : 0 < 2 * π / m := by positivity
  have hmono := polarEdge_strictMono n hn sp
  have e0 := hmono 0 i hi0 (by omega)
  rw [polarEdge_zero] at e0
  have e1 : polarEdge n sp i < π / 2 := by
    rw [← polarEdge_half n hn sp]
    exact hmono i n hi (by omega)
  have hhalf : (makeAngleVector n (2 * π / m) c sp).half = ringStart n c n := half_eq n hn c sp (2 * π / m)
  have hN := ringSize_pos n c hc (show i < 2 * n by omega)
  obtain ⟨k, hk, h3, h4⟩ := exists_intervalL (f := azimuthEdge n c (2 * π / m) i)
    (m := ringSize n c i) (x := phi) (by rw [azimuthEdge_zero]; exact hp0.le)
    (by rw [azimuthEdge_last n c _ i hN]; exact hp1)
  have hv := row_of_launch (launch_at n hn _ c hs hc sp 1 (polarEdge n sp i) phi phi hi hk
    ⟨le_rfl, hmono i (i + 1) (by omega) (by omega), h3, h4⟩
    (by unfold launchPhi; simp [not_lt.mpr hp1.le]))
  have hoff : OffEdge (2 * π / m) phi := by
    rintro q rfl
    have h2 : (0 : ℝ) < (q : ℝ) := by
      by_contra hcon
      push Not at hcon
      nlinarith
    have h3 : (q : ℝ) < 1 := by
      by_contra hcon
      push Not at hcon
      nlinarith
    have h4 : 0 < q := by exact_mod_cast h2
    have h5 : q < 1 := by exact_mod_cast h3
    omega
  set b := ringStart n c i + k with hbdef
  have hb : b < ringStart n c n := bin_lt_half n c hi hk
  set reps := ⌈(nAngles nRays nx ny : ℝ) / (ringStart n c n : ℝ)⌉₊
  have hL : launchedOnly (makeAngleVector n (2 * π / m) c sp) (nAngles nRays nx ny) (polarEdge n sp i) (.val phi) =
      some (List.replicate reps (polarEdge n sp i, phi)) := by
    unfold launchedOnly
    simp only [half_eq n hn c sp (2 * π / m), if_neg e0.ne', if_neg hp0.ne']
    rfl
  have hmem : ∀ w, ∀ r ∈ traced (List.replicate reps (polarEdge n sp i, phi)) (nx * ny) (res w),
      RayOk (2 * π / m) tmm nL₀ r ∧ ¬ IncidentIn n c (2 * π / m) sp true b r := by
    intro w r hr
    unfold traced at hr
    obtain ⟨p, hp, hr'⟩ := List.mem_flatMap.mp hr
    obtain ⟨l2, -, rfl⟩ := List.mem_map.mp hr'
    have hd := List.eq_of_mem_replicate (List.fst_mem_of_mem_zipIdx hp)
    rw [hd]
    refine ⟨⟨e0, e1, hoff, hres w p.2 l2⟩, ?_⟩
    rintro ⟨-, i', k', q, hi', hk', hbk, hbin⟩
    simp only [seen, if_true, zero_add] at hbk hbin
    have hii : i = i' := by
      have h1 := ringStart_succ n c i
      have h2 := ringStart_succ n c i'
      rcases lt_trichotomy i i' with h | h | h
      · have := ringStart_mono n c (show i + 1 ≤ i' from h)
        omega
      · exact h
      · have := ringStart_mono n c (show i' + 1 ≤ i from h)
        omega
    subst hii
    exact absurd hbin.1 (lt_irrefl _)
  have hrt : ∀ w, ∃ N, rtMatrix (rtArgs n (2 * π / m) c sp tmm true nL₀) ⟨fun r _ => if r = 0 then x w else 0, fun _ => 0, fun _ => 0⟩
      (traced (List.replicate reps (polarEdge n sp i, phi)) (nx * ny) (res w)) = some N :=
    fun w => (C48_columns n hn c hc m hm sp tmm true nL₀ _ (fun r hr => (hmem w r hr).1) _).imp fun _ h => h.1
  choose N hN using hrt
  refine ⟨fun w => ⟨fun r _ => if r = 0 then x w else 0, fun _ => 0, fun _ => 0⟩, N, ?_, ?_⟩
  · intro w
    unfold rtStored
    simp only [determineOnlyIncidence, and_self, if_true, hL, Option.bind_some]
    exact hN w
  · intro inp hthr hinp
    have hcol : ∀ w, (∀ r, (N w).out r b = if r = 0 then x w else 0) := fun w =>
      (rt_unused n hn c hc m hm sp tmm true nL₀ _ (fun r hr => (hmem w r hr).1) _ _ (hN w) b (fun r hr => (hmem w r hr).2)).1
    rw [← hhalf] at hv hb
    have hpos : 0 < (makeAngleVector n (2 * π / m) c sp).half := by omega
    have hsome : ∃ S, assemble n (2 * π / m) c sp (polarEdge n sp i) (.val phi) inp = some S := by
      unfold assemble; simp only [hv, Option.map_some]; exact ⟨_, rfl⟩
    obtain ⟨S, hS⟩ := hsome
    have hS' := hS
    unfold assemble at hS'
    simp only [hv, Option.map_some, Option.some.injEq] at hS'
    have hv0 : S.v0 = fun _ j => if j = ⟨b, hb⟩ then 1 else 0 := by
      rw [← hS']
      funext w j
      simp [List.getD_eq_getElem?_getD, Fin.ext_iff]
    have hf0 : S.front0 = fun w => loadMats .front ((N w).stored _ nL₀).1 ((N w).stored _ nL₀).2 := by rw [← hS', hinp]
    have hthr' : S.thresh = inp.thresh := by rw [← hS']
    refine ⟨S, hS, S.init, ⟨rfl, ?_, by simp⟩, ?_⟩
    · intro w
      rw [hthr']
      refine le_trans (le_of_eq ?_) hthr
      simp only [power, Sys.init, dotWl, hv0, hf0, loadMats, RTMat.stored]
      refine Finset.sum_eq_zero fun r _ => ?_
      simp only [Matrix.mulVec, dotProduct, mul_ite, mul_one, mul_zero, Finset.sum_ite_eq', Finset.mem_univ, if_true]
      rw [hcol w]
      simp
      omega
    · intro w
      simp only [LoopState.R, Sys.init, dotWl, hv0, hf0, loadMats, RTMat.stored, List.map_cons, List.map_nil, List.sum_cons, List.sum_nil, add_zero]
      simp only [Matrix.mulVec, dotProduct, mul_ite, mul_one, mul_zero, Finset.sum_ite_eq', Finset.mem_univ, if_true]
      simp only [hcol w, Fin.val_castAdd]
      rw [Finset.sum_eq_single ⟨0, hpos⟩]
      · simp
      · intro j _ hj
        rw [if_neg]
        intro h
        exact hj (Fin.ext h)
      · simp

include hn hc in
/-- **C125 is violated for `phi_in = 'all'`.** Ray tracing raises, although the matrix multiplication accepts the option. -/
theorem C125_all_fails (thIn : ℝ) (ht0 : 0 ≤ thIn) (ht1 : thIn < π / 2) (nL₀ nL₁ : ℕ) (s : ℝ) (tmm : Bool) (nRays nx ny : ℕ) (res : ℕ → ℕ → RTOut) (u : RTJunk)
    (inp : RatInput ω (Fin nL₀) (Fin nL₁) (makeAngleVector n s c sp).half) :
    rtStored (makeAngleVector n s c sp) s tmm true nL₀ 0 true nRays nx ny thIn .all res u = none ∧
    ∃ S, assemble n s c sp thIn .all inp = some S := by
  refine ⟨by simp [rtStored, determineOnlyIncidence, launchedOnly], ?_⟩
  obtain ⟨i, v, -, -, -, hv, -⟩ := C09_launch_all n hn s c hc sp 1 thIn ht0 ht1
  unfold makeV0 at hv
  obtain ⟨v', h1, -⟩ := Option.map_eq_some_iff.mp hv
  unfold assemble
  simp only [show launchPhi .all s = .all from rfl, h1, Option.map_some]
  exact ⟨_, rfl⟩
include hn hc hm in
/-- **C125, the other surfaces.** The option concerns the front of the first surface only: everything else is traced from all incidence bins and is one of the cases of C123. -/
theorem C125_others (tmm front : Bool) (nL i : ℕ) (oia : Bool) (hother : front = false ∨ 0 < i ∨ oia = false) (nRays nx ny : ℕ) (hx : 0 < nx) (hy : 0 < ny)
    (henough : (makeAngleVector n (2 * π / m) c sp).half * (nx * ny) ≤ nRays) (thIn : ℝ) (phiIn : PhiIn) (res : ℕ → ℕ → RTOut)
    (hres : ∀ l1 l2, match res l1 l2 with
      | .leaves θ _ => |θ| ≤ π
      | .absorbed A θl => tmm = true ∧ |θl| ≤ π / 2 ∧ (∀ l, 0 ≤ A l) ∧ 0 < ((List.range nL).map A).sum) (u : RTJunk) :
    ∃ N, rtStored (makeAngleVector n (2 * π / m) c sp) (2 * π / m) tmm front nL i oia nRays nx ny thIn phiIn res u = some N ∧
      Calculated n c m sp front nL (N.stored _ nL) := by
  have hd : determineOnlyIncidence front i oia = false := by
    unfold determineOnlyIncidence
    rw [if_neg]
    rintro ⟨h1, h2, h3⟩
    rcases hother with h | h | h
    · simp [h] at h1
    · omega
    · simp [h] at h3
  obtain ⟨N, hN, -⟩ := C48_columns n hn c hc m hm sp tmm front nL _ (rays_ok n hn c hc m hm sp tmm nL (nAngles nRays nx ny) (nx * ny) res hres) u
  refine ⟨N, ?_, .rt tmm nL nRays nx ny hx hy henough res hres u N hN⟩
  unfold rtStored
  rw [hd]
  exact hN
end

/-- Two rings, four-fold symmetry: a direction inside a bin, and normal incidence. -/
example : InsideBin 2 1 4 .linear 1 1 ∧ InsideBin 2 1 4 .linear 0 0 := by
  have h3 := Real.pi_gt_three
  have h4 := Real.pi_lt_d2
  have h0 : ringSize 2 1 0 = 1 := by simp [ringSize]
  have h1 : ringSize 2 1 1 = 2 := by
    unfold ringSize
    norm_num
  constructor
  · refine Or.inl ⟨one_pos, 1, 1, by norm_num, by rw [h1]; norm_num, ?_, ?_, 0, ?_, ?_⟩
    · simp only [polarEdge]; push_cast; linarith
    · simp only [polarEdge]; push_cast; linarith
    · simp only [azimuthEdge, h1]; push_cast; linarith
    · simp only [azimuthEdge, h1]; push_cast; linarith
  · refine Or.inr ⟨rfl, rfl, ?_, ?_⟩
    · simp only [polarEdge]; push_cast; norm_num; linarith
    · simp only [azimuthEdge, h0]; push_cast; norm_num; linarith

/-- Matrices as in `C125_energy_partial`: ten rays, every other one absorbed. -/
example (n : ℕ) (hn : 0 < n) (c : ℝ) (hc : 0 < c) (m : ℕ) (hm : 0 < m) (sp : Spacing) (thIn phi : ℝ) (hin : InsideBin n c m sp thIn phi) (u : RTJunk) :
    ∃ M, FrontTraced n c m sp 1 thIn (.val phi) M u := by
  set res : ℕ → ℕ → RTOut := fun _ l => if l % 2 = 0 then .leaves π 1 else .absorbed (fun _ => 1) (π / 4) with hres0
  have hres : ∀ l1 l2, match res l1 l2 with
        | .leaves θ _ => |θ| ≤ π
        | .absorbed A θl => true = true ∧ |θl| ≤ π / 2 ∧ (∀ l, 0 ≤ A l) ∧ 0 < ((List.range 1).map A).sum := by
    intro l1 l2
    have hpi := Real.pi_pos
    rw [hres0]
    rcases Nat.mod_two_eq_zero_or_one l2 with h | h
    · simp [h, abs_of_pos hpi]
    · simp only [h, one_ne_zero, if_false]
      refine ⟨trivial, ?_, fun _ => zero_le_one, by simp⟩
      rw [abs_of_pos (by positivity)]; linarith
  obtain ⟨b, -, -, hrays⟩ := only_rays n hn c hc m hm sp thIn phi hin
  obtain ⟨rays, he, hok, -⟩ := hrays true 1 10 5 2 res (by norm_num) (by norm_num) (by norm_num) hres
  obtain ⟨N, hN, -⟩ := C48_columns n hn c hc m hm sp true true 1 rays hok u
  exact ⟨_, true, 10, 5, 2, res, N, by norm_num, by norm_num, by norm_num, hres, by rw [he, hN], rfl⟩

end Rayflare
