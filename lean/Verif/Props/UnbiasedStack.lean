import Verif.Spec.StackBranching
import Verif.Props.TraceStack
import Verif.Props.UnbiasedMatrix

/-!
# Property C131: ray tracing of a stack with random numbers is unbiased
-/

namespace Rayflare

open Rayflare.Np Rayflare.Model Rayflare.Spec Rayflare.Lemmas MeasureTheory

/-- What happens at the surface `k` where the decisions are made with the random numbers `u`. -/
def Spec.Visit.meeting (V : Visit) {n : ℕ} (k : ℤ) (u : Fin n → ℝ) : Meeting :=
  ⟨V.u, V.v, List.ofFn fun i : Fin n => { V.geo k i with rnd := u i }⟩

/-- A ray traced through the stack: at most `K` surfaces, and at most `n` iterations at each of them; the random numbers for the decisions at the `i`-th surface met are `u i`. -/
noncomputable def traceWith (c : RTStack) {n : ℕ} : (K : ℕ) → (ℕ → Visit) → (Fin K → Fin n → ℝ) → StackRay → StackRes
  | 0, _, _, s => .next s
  | K + 1, V, u, s => match c.step ((V 0).meeting s.ray.surf (u 0)) s with
    | .next s' => traceWith c K (fun i => V (i + 1)) (Fin.tail u) s'
    | e => e

/-- Independent uniform random numbers for `K` surfaces. -/
noncomputable def uniform2 (K n : ℕ) : Measure (Fin K → Fin n → ℝ) := Measure.pi fun _ => uniform n

instance (K n : ℕ) : IsProbabilityMeasure (uniform2 K n) := by unfold uniform2; infer_instance

/-! ## Helper lemmas -/

/-- `traceWith` is a run of the model. -/
theorem traceWith_run (c : RTStack) {n : ℕ} : ∀ (K : ℕ) (V : ℕ → Visit) (u : Fin K → Fin n → ℝ) (s : StackRay),
    ∃ ms : List Meeting, ms.length = K ∧ traceWith c K V u s = c.run ms s ∧ ∀ m ∈ ms, ∀ w ∈ m.ws, ∃ i j, w.rnd = u i j := by
  intro K
  induction K with
  | zero => intro V u s; exact ⟨[], rfl, rfl, by simp⟩
  | succ K ih =>
    intro V u s
    have hrnd : ∀ w ∈ ((V 0).meeting s.ray.surf (u 0)).ws, ∃ i j, w.rnd = u i j := by
      intro w hw
      obtain ⟨i, rfl⟩ := (List.mem_ofFn' _ _).mp hw
      exact ⟨0, i, rfl⟩
    cases hs : c.step ((V 0).meeting s.ray.surf (u 0)) s with
    | next s' =>
      obtain ⟨ms, h1, h2, h3⟩ := ih (fun i => V (i + 1)) (Fin.tail u) s'
      refine ⟨(V 0).meeting s.ray.surf (u 0) :: ms, by simp [h1], by rw [run_cons hs, ← h2]; simp only [traceWith, hs], ?_⟩
      intro m hm
      rcases List.mem_cons.mp hm with rfl | hm
      · exact hrnd
      · intro w hw
        obtain ⟨i, j, e⟩ := h3 m hm w hw
        exact ⟨i.succ, j, e⟩
    | indexError =>
      refine ⟨(V 0).meeting s.ray.surf (u 0) :: List.replicate K ⟨0, 0, []⟩, by simp, by simp only [traceWith, RTStack.run, hs], ?_⟩
      intro m hm
      rcases List.mem_cons.mp hm with rfl | hm
      · exact hrnd
      · rw [List.eq_of_mem_replicate hm]; simp
    | running =>
      refine ⟨(V 0).meeting s.ray.surf (u 0) :: List.replicate K ⟨0, 0, []⟩, by simp, by simp only [traceWith, RTStack.run, hs], ?_⟩
      intro m hm
      rcases List.mem_cons.mp hm with rfl | hm
      · exact hrnd
      · rw [List.eq_of_mem_replicate hm]; simp

/-- The decision at a facet as a function of the random number. -/
noncomputable def facetDec (asin : ℂ → ℂ) (pol : Pol) (tab : Option Table) (ni nj : ℂ) (x : ℝ) : ℝ → V3 → V3 → ℤ → V3 × ℤ × Option (List ℝ) := match tab with
  | none => fresnelDec ni nj (refrAngle asin ni nj) pol x
  | some tab => tmmDec ni nj tab x

theorem facetDec_byThresholds {asin : ℂ → ℂ} {pol : Pol} {tab : Option Table} {ni nj : ℂ}
    (htab : ∀ t, tab = some t → ∀ side θ, 0 ≤ (t side θ).1 ∧ 0 ≤ (t side θ).2.1 ∧ (t side θ).1 + (t side θ).2.1 ≤ 1) :
    ByThresholds (facetDec asin pol tab ni nj) (facetLaw asin pol tab ni nj) := by
  cases tab with
  | none =>
    intro d N side
    set R := decideR (if side = 1 then ni else nj) (if side = 1 then nj else ni) (localTheta N d) (refrAngle asin ni nj side (localTheta N d)) pol with hR
    refine ⟨R, max R 1,
      (normalise (reflectDir d ((side : ℝ) • N)), side, none),
      (normalise (refractDir ((if side = 1 then ni else nj).re / (if side = 1 then nj else ni).re) d ((side : ℝ) • N)), -side, none),
      (normalise (refractDir ((if side = 1 then ni else nj).re / (if side = 1 then nj else ni).re) d ((side : ℝ) • N)), -side, none),
      decideR_nonneg _ _ _ _ _, le_max_left _ _, ?_, ?_⟩
    · intro u
      simp only [facetDec, fresnelDec, decideFresnel, ite_self, ← hR]
      split_ifs <;> rfl
    · intro f
      have : min (max R 1) 1 = 1 := min_eq_right (le_max_right _ _)
      rw [this, min_comm]
      simp only [facetLaw, List.map_cons, List.map_nil, List.sum_cons, List.sum_nil]
      rw [hR]
      simp only [refrAngle]
      ring
  | some t => exact tmm_byThresholds (nAbove := ni) (nBelow := nj) (htab t rfl)

/-- Draws at a surface that is not repeated: mean over the random numbers. -/
noncomputable def afterFacetCell (p : V3) (θ : ℝ) (s : Scc) : V3 × ℤ × Option (List ℝ) → Scc ⊕ SicRes
  | (d, side, some A) => .inr (.absorbed A (p + (1 / 10 ^ 9 : ℝ) • d) d θ (s.nInt + 1) side)
  | (d, side, none) => .inl { r := p + (1 / 10 ^ 9 : ℝ) • d, d := d, side := side, nInt := s.nInt + 1, θ := θ }

theorem sccStep_facet {d0 : V3} {w : Draw} {s : Scc} {p : V3} {θ : ℝ} {N : V3} (h : checkIntersect s.r s.d w.tris = some (p, θ, N)) :
    sccStep d0 w s = afterFacetCell p θ s (w.dec θ s.d ((s.side : ℝ) • N) s.side) := by
  obtain ⟨tris, zmin, zmax, rx, ry, dec⟩ := w
  simp only at h
  unfold sccStep
  simp only [h]
  rcases dec θ s.d ((s.side : ℝ) • N) s.side with ⟨d, side, _ | A⟩ <;> rfl

theorem sccStep_none {d0 : V3} {w : Draw} {s : Scc} (h : checkIntersect s.r s.d w.tris = none) :
    sccStep d0 w s = .inr (.out (finalRes d0 s.d) (polar s.d) s.r s.d (some s.θ) s.nInt s.side) := by
  unfold sccStep
  simp only [h]

theorem unbiased_cell (d0 : V3) (dec : ℝ → ℝ → V3 → V3 → ℤ → V3 × ℤ × Option (List ℝ)) (law : FacetLaw) (hlaw : ByThresholds dec law)
    (g : Option SicRes → ℝ) : ∀ (n : ℕ) (D : ℕ → Draw) (s : Scc),
    let F := fun u : Fin n → ℝ => g (sccRun d0 (drawsOf D dec u) s).getRight?
    Measurable F ∧ (∃ C, ∀ u, |F u| ≤ C) ∧ ∫ u, F u ∂uniform n = branchesCell d0 law g (List.ofFn fun i : Fin n => D i) s := by
  intro n
  induction n with
  | zero =>
    intro D s
    simp only [drawsOf, List.ofFn_zero, sccRun, branchesCell]
    refine ⟨measurable_const, ⟨|g none|, fun _ => le_refl _⟩, ?_⟩
    simp
  | succ n ih =>
    intro D s
    intro F
    have hcons : ∀ (x : ℝ) (v : Fin n → ℝ), drawsOf D dec (Fin.cons x v : Fin (n + 1) → ℝ) = { D 0 with dec := dec x } :: drawsOf (fun i => D (i + 1)) dec v := by
      intro x v
      unfold drawsOf
      rw [List.ofFn_succ]
      simp
    have hsplit : ∀ u : Fin (n + 1) → ℝ, u = Fin.cons (u 0) (Fin.tail u) := fun u => (Fin.cons_self_tail u).symm
    let G : Scc ⊕ SicRes → (Fin n → ℝ) → ℝ := fun o v => match o with
      | .inl s' => g (sccRun d0 (drawsOf (fun i => D (i + 1)) dec v) s').getRight?
      | .inr res => g (some res)
    let B : Scc ⊕ SicRes → ℝ := fun o => match o with
      | .inl s' => branchesCell d0 law g (List.ofFn fun i : Fin n => D (i + 1)) s'
      | .inr res => g (some res)
    have hG : ∀ o, Measurable (G o) ∧ (∃ C, ∀ v, |G o v| ≤ C) ∧ ∫ v, G o v ∂uniform n = B o := by
      intro o
      rcases o with s' | res
      · exact ih (fun i => D (i + 1)) s'
      · refine ⟨measurable_const, ⟨|g (some res)|, fun _ => le_refl _⟩, ?_⟩
        simp [G, B]
    have hF : ∀ x v, F (Fin.cons x v) = G (sccStep d0 { D 0 with dec := dec x } s) v := by
      intro x v
      simp only [F, hcons, sccRun]
      rcases sccStep d0 { D 0 with dec := dec x } s with s' | res <;> rfl
    have hlist : (List.ofFn fun i : Fin (n + 1) => D i) = D 0 :: List.ofFn fun i : Fin n => D (i + 1) := by
      rw [List.ofFn_succ]; simp
    rcases hc : checkIntersect s.r s.d (D 0).tris with _ | ⟨p, θ, N⟩
    · have hFu : F = fun _ => g (some (.out (finalRes d0 s.d) (polar s.d) s.r s.d (some s.θ) s.nInt s.side)) := by
        funext u
        conv_lhs => rw [hsplit u]
        rw [hF, sccStep_none (w := { D 0 with dec := dec (u 0) }) hc]
      rw [hFu]
      refine ⟨measurable_const, ⟨_, fun _ => le_refl _⟩, ?_⟩
      rw [hlist]
      simp [branchesCell, hc]
    · have hθ := (hit_unit hc).2
      obtain ⟨R, Q, a, b, c, h0, h1, hdec, hsum⟩ := hlaw s.d N s.side
      rw [← hθ] at hdec hsum
      have hF' : ∀ x v, F (Fin.cons x v) = if x ≤ R then G (afterFacetCell p θ s a) v else if x ≤ Q then G (afterFacetCell p θ s b) v else G (afterFacetCell p θ s c) v := by
        intro x v
        rw [hF, sccStep_facet (w := { D 0 with dec := dec x }) hc]
        simp only [hdec]
        split_ifs <;> rfl
      obtain ⟨ma, ⟨Ca, hCa⟩, hIa⟩ := hG (afterFacetCell p θ s a)
      obtain ⟨mb, ⟨Cb, hCb⟩, hIb⟩ := hG (afterFacetCell p θ s b)
      obtain ⟨mc, ⟨Cc, hCc⟩, hIc⟩ := hG (afterFacetCell p θ s c)
      have hFu : F = fun u => if u 0 ≤ R then G (afterFacetCell p θ s a) (Fin.tail u) else if u 0 ≤ Q then G (afterFacetCell p θ s b) (Fin.tail u)
          else G (afterFacetCell p θ s c) (Fin.tail u) := by
        funext u
        conv_lhs => rw [hsplit u]
        exact hF' _ _
      have htail : Measurable fun u : Fin (n + 1) → ℝ => (Fin.tail u : Fin n → ℝ) := measurable_pi_lambda _ fun i => measurable_pi_apply _
      have hm : Measurable F := by
        rw [hFu]
        refine Measurable.ite (measurableSet_le (measurable_pi_apply 0) measurable_const) (ma.comp htail) ?_
        exact Measurable.ite (measurableSet_le (measurable_pi_apply 0) measurable_const) (mb.comp htail) (mc.comp htail)
      have hb : ∀ u, |F u| ≤ max Ca (max Cb Cc) := by
        intro u
        rw [hFu]
        simp only
        split_ifs
        · exact (hCa _).trans (le_max_left _ _)
        · exact (hCb _).trans ((le_max_left _ _).trans (le_max_right _ _))
        · exact (hCc _).trans ((le_max_right _ _).trans (le_max_right _ _))
      refine ⟨hm, ⟨_, hb⟩, ?_⟩
      rw [uniform_succ F hm hb]
      have hinner : ∀ x, ∫ v, F (Fin.cons x v) ∂uniform n = if x ≤ R then B (afterFacetCell p θ s a) else if x ≤ Q then B (afterFacetCell p θ s b) else B (afterFacetCell p θ s c) := by
        intro x
        simp only [hF']
        split_ifs <;> assumption
      simp only [hinner]
      rw [step_integral_min h0 h1, hlist]
      simp only [branchesCell, hc]
      rw [← hsum (fun o => B (afterFacetCell p θ s o))]
      congr 1
      apply List.map_congr_left
      rintro ⟨q, d, side, _ | A⟩ _ <;> rfl

theorem returned_getRight (o : Sic ⊕ SicRes) : returned o = o.getRight? := by cases o <;> rfl

/-- Mean over the random numbers at one surface. -/
theorem unbiased_meet (c : RTStack) (cell : Cell) (tab : Option Table) (ni nj : ℂ)
    (htab : ∀ t, tab = some t → ∀ side θ, 0 ≤ (t side θ).1 ∧ 0 ≤ (t side θ).2.1 ∧ (t side θ).1 + (t side θ).2.1 ≤ 1)
    (g : Option SicRes → ℝ) (n : ℕ) (V : Visit) (k : ℤ) (s : StackRay) :
    let F := fun u : Fin n → ℝ => g (c.meet cell tab ni nj (V.meeting k u) s)
    Measurable F ∧ (∃ C, ∀ u, |F u| ≤ C) ∧ ∫ u, F u ∂uniform n = branchesMeet c cell tab ni nj g ⟨V.u, V.v, V.surfaces n k⟩ s := by
  intro F
  have hlaw := facetDec_byThresholds (asin := c.asin) (pol := c.pol) (ni := ni) (nj := nj) htab
  have hrand : ∀ u : Fin n → ℝ, c.randomised cell (V.meeting k u) s = c.randomised cell ⟨V.u, V.v, V.surfaces n k⟩ s := fun u => rfl
  have hws : ∀ u : Fin n → ℝ, ((V.meeting k u).ws.map fun w => w.draw c.asin c.pol tab ni nj)
      = drawsOf (fun i => (V.geo k i).draw c.asin c.pol tab ni nj) (facetDec c.asin c.pol tab ni nj) u := by
    intro u
    simp only [Visit.meeting, List.map_ofFn, drawsOf]
    congr 1
  have hgeo : ((V.surfaces n k).map fun w => w.draw c.asin c.pol tab ni nj) = List.ofFn fun i : Fin n => (V.geo k i).draw c.asin c.pol tab ni nj := by
    simp only [Visit.surfaces, List.map_ofFn]
    rfl
  have hconst : ∀ q : ℝ, (∀ u, F u = q) → branchesMeet c cell tab ni nj g ⟨V.u, V.v, V.surfaces n k⟩ s = q →
      Measurable F ∧ (∃ C, ∀ u, |F u| ≤ C) ∧ ∫ u, F u ∂uniform n = branchesMeet c cell tab ni nj g ⟨V.u, V.v, V.surfaces n k⟩ s := by
    intro q h1 h2
    have : F = fun _ => q := funext h1
    rw [this, h2]
    exact ⟨measurable_const, ⟨_, fun _ => le_refl _⟩, by simp⟩
  set rd := c.randomised cell ⟨V.u, V.v, V.surfaces n k⟩ s with hrd
  by_cases hp : c.periodic = true
  · cases hwrap : wrapOpt rd.1 rd.2 cell with
    | some r =>
      have := unbiased_aux cell.Lx cell.Ly rd.2 _ _ hlaw g n (fun i => (V.geo k i).draw c.asin c.pol tab ni nj) (sicStart r rd.2 s.ray.dir 0)
      have e : F = fun u => g (returned (sicRun cell.Lx cell.Ly rd.2 (drawsOf (fun i => (V.geo k i).draw c.asin c.pol tab ni nj) (facetDec c.asin c.pol tab ni nj) u)
          (sicStart r rd.2 s.ray.dir 0))) := by
        funext u
        simp only [F, RTStack.meet, hrand, if_pos hp, hwrap, hws, returned_getRight]
      have e2 : branchesMeet c cell tab ni nj g ⟨V.u, V.v, V.surfaces n k⟩ s
          = branches cell.Lx cell.Ly rd.2 (facetLaw c.asin c.pol tab ni nj) g (List.ofFn fun i : Fin n => (V.geo k i).draw c.asin c.pol tab ni nj) (sicStart r rd.2 s.ray.dir 0) := by
        simp only [branchesMeet, ← hrd, if_pos hp, hwrap, hgeo]
      rw [e, e2]
      exact this
    | none =>
      cases n with
      | zero =>
        apply hconst (g none)
        · intro u
          simp only [F, RTStack.meet, hrand, if_pos hp, hwrap, hws, drawsOf, List.ofFn_zero]
        · simp only [branchesMeet, ← hrd, if_pos hp, hwrap, hgeo, List.ofFn_zero]
      | succ n =>
        set w0 := (V.geo k 0).draw c.asin c.pol tab ni nj with hw0
        obtain ⟨hm, ⟨C, hC⟩, hI⟩ := unbiased_aux cell.Lx cell.Ly rd.2 _ _ hlaw g n (fun i => (V.geo k (i + 1 : ℕ)).draw c.asin c.pol tab ni nj)
          (sicStartNaN cell.Lx cell.Ly w0 rd.2 s.ray.dir)
        have hcons : ∀ u : Fin (n + 1) → ℝ, drawsOf (fun i => (V.geo k i).draw c.asin c.pol tab ni nj) (facetDec c.asin c.pol tab ni nj) u
            = { w0 with dec := facetDec c.asin c.pol tab ni nj (u 0) } :: drawsOf (fun i => (V.geo k (i + 1 : ℕ)).draw c.asin c.pol tab ni nj) (facetDec c.asin c.pol tab ni nj) (Fin.tail u) := by
          intro u
          unfold drawsOf
          rw [List.ofFn_succ]
          simp only [hw0, Fin.val_zero, Fin.val_succ]
          rfl
        have e : F = fun u => g (returned (sicRun cell.Lx cell.Ly rd.2 (drawsOf (fun i => (V.geo k (i + 1 : ℕ)).draw c.asin c.pol tab ni nj) (facetDec c.asin c.pol tab ni nj) (Fin.tail u))
            (sicStartNaN cell.Lx cell.Ly w0 rd.2 s.ray.dir))) := by
          funext u
          simp only [F, RTStack.meet, hrand, if_pos hp, hwrap, hws, hcons, returned_getRight]
          rfl
        have e2 : branchesMeet c cell tab ni nj g ⟨V.u, V.v, V.surfaces (n + 1) k⟩ s
            = branches cell.Lx cell.Ly rd.2 (facetLaw c.asin c.pol tab ni nj) g (List.ofFn fun i : Fin n => (V.geo k (i + 1 : ℕ)).draw c.asin c.pol tab ni nj)
              (sicStartNaN cell.Lx cell.Ly w0 rd.2 s.ray.dir) := by
          simp only [branchesMeet, ← hrd, if_pos hp, hwrap, hgeo, List.ofFn_succ, Fin.val_zero, Fin.val_succ, ← hw0]
        have htail : Measurable fun u : Fin (n + 1) → ℝ => (Fin.tail u : Fin n → ℝ) := measurable_pi_lambda _ fun i => measurable_pi_apply _
        rw [e2]
        have hmF : Measurable F := by rw [e]; exact hm.comp htail
        have hbF : ∀ u, |F u| ≤ C := by intro u; rw [e]; exact hC _
        refine ⟨hmF, ⟨C, hbF⟩, ?_⟩
        rw [uniform_succ F hmF hbF, e]
        simp only [Fin.tail_cons]
        rw [← hI]
        simp
  · have hp' : ¬ c.periodic = true := hp
    cases hr : rd.1 with
    | some r =>
      have := unbiased_cell rd.2 _ _ hlaw g n (fun i => (V.geo k i).draw c.asin c.pol tab ni nj) { r := r, d := rd.2, side := s.ray.dir, nInt := 0, θ := 0 }
      have e : F = fun u => g (sccRun rd.2 (drawsOf (fun i => (V.geo k i).draw c.asin c.pol tab ni nj) (facetDec c.asin c.pol tab ni nj) u)
          { r := r, d := rd.2, side := s.ray.dir, nInt := 0, θ := 0 }).getRight? := by
        funext u
        simp only [F, RTStack.meet, hrand, if_neg hp', hr, hws]
      have e2 : branchesMeet c cell tab ni nj g ⟨V.u, V.v, V.surfaces n k⟩ s
          = branchesCell rd.2 (facetLaw c.asin c.pol tab ni nj) g (List.ofFn fun i : Fin n => (V.geo k i).draw c.asin c.pol tab ni nj) { r := r, d := rd.2, side := s.ray.dir, nInt := 0, θ := 0 } := by
        simp only [branchesMeet, ← hrd, if_neg hp', hr, hgeo]
      rw [e, e2]
      exact this
    | none =>
      cases n with
      | zero =>
        apply hconst (g none)
        · intro u
          simp only [F, RTStack.meet, hrand, if_neg hp', hr, hws, drawsOf, List.ofFn_zero]
        · simp only [branchesMeet, ← hrd, if_neg hp', hr, hgeo, List.ofFn_zero]
      | succ n =>
        apply hconst (g (some (.lost (finalRes rd.2 rd.2) (polar rd.2) rd.2 s.ray.dir)))
        · intro u
          simp only [F, RTStack.meet, hrand, if_neg hp', hr, hws, drawsOf, List.ofFn_succ]
        · simp only [branchesMeet, ← hrd, if_neg hp', hr, hgeo, List.ofFn_succ]

/-- The mean over the numbers of one more surface. -/
theorem uniform2_succ {K n : ℕ} (f : (Fin (K + 1) → Fin n → ℝ) → ℝ) (hf : Measurable f) {C : ℝ} (hC : ∀ u, |f u| ≤ C) :
    ∫ u, f u ∂uniform2 (K + 1) n = ∫ x, ∫ v, f (Fin.cons x v) ∂uniform2 K n ∂uniform n := by
  have hmp := measurePreserving_piFinSuccAbove (fun _ : Fin (K + 1) => uniform n) 0
  have h1 := hmp.symm.integral_comp' f
  have e : ∀ y : (Fin n → ℝ) × (Fin K → Fin n → ℝ), (MeasurableEquiv.piFinSuccAbove (fun _ : Fin (K + 1) => Fin n → ℝ) 0).symm y = Fin.cons y.1 y.2 := by
    intro y
    simp [MeasurableEquiv.piFinSuccAbove, Fin.insertNthEquiv]
  have h2 : ∫ u, f u ∂uniform2 (K + 1) n = ∫ y, f (Fin.cons y.1 y.2) ∂((uniform n).prod (uniform2 K n)) := by
    unfold uniform2
    rw [← h1]
    refine integral_congr_ae (Filter.Eventually.of_forall fun y => ?_)
    simp only
    rw [e]
  rw [h2, integral_prod]
  refine Integrable.of_bound (C := C) ?_ (Filter.Eventually.of_forall fun y => by simpa using hC _)
  refine Measurable.aestronglyMeasurable (hf.comp ?_)
  have := (MeasurableEquiv.piFinSuccAbove (fun _ : Fin (K + 1) => Fin n → ℝ) 0).symm.measurable
  rwa [show ⇑(MeasurableEquiv.piFinSuccAbove (fun _ : Fin (K + 1) => Fin n → ℝ) 0).symm = fun y : (Fin n → ℝ) × (Fin K → Fin n → ℝ) => (Fin.cons y.1 y.2 : Fin (K + 1) → Fin n → ℝ) from funext e] at this

/-- A function whose compositions with all real functions are bounded has finitely many values. -/
theorem finite_of_bounded {α β : Type*} (o : α → β) (h : ∀ g : β → ℝ, ∃ C, ∀ a, |g (o a)| ≤ C) : (Set.range o).Finite := by
  classical
  by_contra hinf
  have hinf : (Set.range o).Infinite := hinf
  let e := hinf.natEmbedding
  let f : ℕ → β := fun n => (e n : β)
  have hf : Function.Injective f := fun a b hab => e.injective (Subtype.ext hab)
  obtain ⟨C, hC⟩ := h fun b => ((Function.invFun f b : ℕ) : ℝ)
  obtain ⟨n, hn⟩ := exists_nat_gt C
  obtain ⟨a, ha⟩ := (e n).2
  have h1 := hC a
  rw [show o a = f n from ha, Function.leftInverse_invFun hf n] at h1
  rw [abs_of_nonneg (by positivity)] at h1
  linarith

theorem pyGet_mem {α : Type*} {l : List α} {i : ℤ} {x : α} (h : pyGet l i = some x) : x ∈ l := by
  unfold pyGet at h
  split_ifs at h
  · exact List.mem_of_getElem? h
  · exact List.mem_of_getElem? h

theorem traceWith_stop (c : RTStack) {n : ℕ} {s : StackRay} (hs : s.ray.stop = true) : ∀ (K : ℕ) (V : ℕ → Visit) (u : Fin K → Fin n → ℝ),
    traceWith c K V u s = .next s := by
  intro K
  induction K with
  | zero => intro V u; rfl
  | succ K ih => intro V u; simp only [traceWith, RTStack.step, if_pos hs]; exact ih _ _

/-- Mean over the random numbers of all surfaces. -/
theorem unbiased_stack (c : RTStack) {n : ℕ}
    (htab : ∀ t, some t ∈ c.tabs → ∀ side θ, 0 ≤ (t side θ).1 ∧ 0 ≤ (t side θ).2.1 ∧ (t side θ).1 + (t side θ).2.1 ≤ 1) (g : StackRes → ℝ) :
    ∀ (K : ℕ) (V : ℕ → Visit) (s : StackRay),
    let F := fun u : Fin K → Fin n → ℝ => g (traceWith c K V u s)
    Measurable F ∧ (∃ C, ∀ u, |F u| ≤ C) ∧ ∫ u, F u ∂uniform2 K n = branchesStack c n g K V s := by
  classical
  intro K
  induction K with
  | zero =>
    intro V s F
    have : F = fun _ => g (.next s) := rfl
    rw [this]
    exact ⟨measurable_const, ⟨_, fun _ => le_refl _⟩, by simp [branchesStack]⟩
  | succ K ih =>
    intro V s F
    have hconst : ∀ q, (∀ u : Fin (K + 1) → Fin n → ℝ, traceWith c (K + 1) V u s = q) → branchesStack c n g (K + 1) V s = g q →
        Measurable F ∧ (∃ C, ∀ u, |F u| ≤ C) ∧ ∫ u, F u ∂uniform2 (K + 1) n = branchesStack c n g (K + 1) V s := by
      intro q h1 h2
      have : F = fun _ => g q := funext fun u => by simp only [F, h1]
      rw [this, h2]
      exact ⟨measurable_const, ⟨_, fun _ => le_refl _⟩, by simp⟩
    by_cases hstop : s.ray.stop = true
    · exact hconst _ (traceWith_stop c hstop _ V) (by simp only [branchesStack, if_pos hstop])
    cases hcell : pyGet c.cells s.ray.surf with
    | none => exact hconst .indexError (fun u => by simp only [traceWith, RTStack.step, if_neg hstop, hcell]) (by simp only [branchesStack, if_neg hstop, hcell])
    | some cell =>
    cases htb : pyGet c.tabs s.ray.surf with
    | none => exact hconst .indexError (fun u => by simp only [traceWith, RTStack.step, if_neg hstop, hcell, htb]) (by simp only [branchesStack, if_neg hstop, hcell, htb])
    | some tab =>
    cases hni : pyGet c.nks (if s.ray.dir = 1 then s.ray.mat else s.ray.mat - 1) with
    | none =>
      exact hconst .indexError (fun u => by simp only [traceWith, RTStack.step, if_neg hstop, hcell, htb, hni]) (by simp only [branchesStack, if_neg hstop, hcell, htb, hni])
    | some ni =>
    cases hnj : pyGet c.nks (if s.ray.dir = 1 then s.ray.mat + 1 else s.ray.mat) with
    | none =>
      exact hconst .indexError (fun u => by simp only [traceWith, RTStack.step, if_neg hstop, hcell, htb, hni, hnj])
        (by simp only [branchesStack, if_neg hstop, hcell, htb, hni, hnj])
    | some nj =>
    have htab' : ∀ t, tab = some t → ∀ side θ, 0 ≤ (t side θ).1 ∧ 0 ≤ (t side θ).2.1 ∧ (t side θ).1 + (t side θ).2.1 ≤ 1 := by
      rintro t rfl
      exact htab t (pyGet_mem htb)
    let o : (Fin n → ℝ) → Option SicRes := fun x => c.meet cell tab ni nj ((V 0).meeting s.ray.surf x) s
    let H : Option SicRes → (Fin K → Fin n → ℝ) → ℝ := fun b v => match c.advance s b with
      | .next s' => g (traceWith c K (fun i => V (i + 1)) v s')
      | e => g e
    let h : Option SicRes → ℝ := fun b => match c.advance s b with
      | .next s' => branchesStack c n g K (fun i => V (i + 1)) s'
      | e => g e
    have hH : ∀ b, Measurable (H b) ∧ (∃ C, ∀ v, |H b v| ≤ C) ∧ ∫ v, H b v ∂uniform2 K n = h b := by
      intro b
      simp only [H, h]
      cases c.advance s b with
      | next s' => exact ih (fun i => V (i + 1)) s'
      | indexError => exact ⟨measurable_const, ⟨|g .indexError|, fun _ => le_refl _⟩, by simp⟩
      | running => exact ⟨measurable_const, ⟨|g .running|, fun _ => le_refl _⟩, by simp⟩
    have hmeet := fun q : Option SicRes → ℝ => unbiased_meet c cell tab ni nj htab' q n (V 0) s.ray.surf s
    have hfin : (Set.range o).Finite := finite_of_bounded o fun q => (hmeet q).2.1
    have hF : ∀ u, F u = H (o (u 0)) (Fin.tail u) := by
      intro u
      simp only [F, traceWith, RTStack.step, if_neg hstop, hcell, htb, hni, hnj, H, o]
      cases c.advance s (c.meet cell tab ni nj ((V 0).meeting s.ray.surf (u 0)) s) <;> rfl
    choose C hC using fun b => (hH b).2.1
    have hbound : ∀ u, |F u| ≤ ∑ b ∈ hfin.toFinset, |C b| := by
      intro u
      rw [hF]
      refine ((hC _ _).trans (le_abs_self _)).trans ?_
      exact Finset.single_le_sum (f := fun b => |C b|) (fun b _ => abs_nonneg _) (by simp)
    have htail : Measurable fun u : Fin (K + 1) → Fin n → ℝ => (Fin.tail u : Fin K → Fin n → ℝ) := measurable_pi_lambda _ fun i => measurable_pi_apply _
    have hmeas : Measurable F := by
      have e : F = fun u => ∑ b ∈ hfin.toFinset, (if o (u 0) = b then (1 : ℝ) else 0) * H b (Fin.tail u) := by
        funext u
        rw [hF]
        simp only [ite_mul, one_mul, zero_mul]
        rw [Finset.sum_ite_eq, if_pos (by simp)]
      rw [e]
      refine Finset.measurable_sum _ fun b _ => Measurable.mul ?_ ((hH b).1.comp htail)
      exact (hmeet fun a => if a = b then (1 : ℝ) else 0).1.comp (measurable_pi_apply 0)
    refine ⟨hmeas, ⟨_, hbound⟩, ?_⟩
    rw [uniform2_succ F hmeas hbound]
    have e2 : ∀ x, ∫ v, F (Fin.cons x v) ∂uniform2 K n = h (o x) := by
      intro x
      rw [← (hH (o x)).2.2]
      refine integral_congr_ae (Filter.Eventually.of_forall fun v => ?_)
      simp only [hF, Fin.cons_zero, Fin.tail_cons]
    simp only [e2]
    rw [show (∫ x, h (o x) ∂uniform n) = _ from (hmeet h).2.2]
    simp only [branchesStack, if_neg hstop, hcell, htb, hni, hnj]
    rfl

/-- Where a ray is launched, and what it meets. -/
structure StackLaunch where
  x : ℝ
  y : ℝ
  V : ℕ → Visit

/-- The ray as recorded; the blank record it starts with if it has not come to an end. -/
def recorded (matI dirI : ℤ) : StackRes → Ray
  | .next s => if s.ray.stop then s.ray else Stack.start matI dirI
  | _ => Stack.start matI dirI

/-! ## The property -/

section
variable (c : RTStack) (htab : ∀ t, some t ∈ c.tabs → ∀ side θ, 0 ≤ (t side θ).1 ∧ 0 ≤ (t side θ).2.1 ∧ (t side θ).1 + (t side θ).2.1 ≤ 1)
include htab

/-- **C131.** Rays are traced through a stack of textured surfaces, at most `K` surfaces and `n` iterations at each.  Whatever is computed from the final state of a ray (`g`), its mean over independent
uniform random numbers is the one obtained by following all the branches with the Fresnel probabilities or those of the lookup tables. -/
theorem C131_unbiased (K n : ℕ) (V : ℕ → Visit) (s : StackRay) (g : StackRes → ℝ) :
    ∫ u, g (traceWith c K V u s) ∂uniform2 K n = branchesStack c n g K V s :=
  (unbiased_stack c htab g K V s).2.2

open Classical in
/-- **C131, probabilities.** The probability that a ray ends in a given way is the total weight of the branches that end in this way. -/
theorem C131_probability (K n : ℕ) (V : ℕ → Visit) (s : StackRay) (E : Set StackRes) :
    (uniform2 K n).real {u | traceWith c K V u s ∈ E} = branchesStack c n (fun o => if o ∈ E then 1 else 0) K V s := by
  obtain ⟨hm, _, hI⟩ := unbiased_stack c (n := n) htab (fun o => if o ∈ E then 1 else 0) K V s
  rw [← hI]
  set F := fun u : Fin K → Fin n → ℝ => if traceWith c K V u s ∈ E then (1 : ℝ) else 0 with hFdef
  have hset : MeasurableSet {u : Fin K → Fin n → ℝ | traceWith c K V u s ∈ E} := by
    have : {u : Fin K → Fin n → ℝ | traceWith c K V u s ∈ E} = F ⁻¹' {1} := by
      ext u
      simp [hFdef]
    rw [this]
    exact hm (measurableSet_singleton 1)
  have : F = Set.indicator {u : Fin K → Fin n → ℝ | traceWith c K V u s ∈ E} fun _ => 1 := by
    funext u
    simp [hFdef, Set.indicator]
  change _ = ∫ u, F u ∂uniform2 K n
  rw [this, integral_indicator hset]
  simp [Measure.real]

theorem rayMean_unbiased {N : ℕ} (K n : ℕ) (matI dirI : ℤ) (ra0 : V3) (L : Fin N → StackLaunch) (f : Ray → ℝ) :
    ∫ U : Fin N → Fin K → Fin n → ℝ, rayMean (List.ofFn fun k => recorded matI dirI (traceWith c K (L k).V (U k) (c.start (L k).x (L k).y matI dirI ra0))) f
        ∂(Measure.pi fun _ : Fin N => uniform2 K n)
      = (∑ k, branchesStack c n (fun o => f (recorded matI dirI o)) K (L k).V (c.start (L k).x (L k).y matI dirI ra0)) / N := by
  have h1 : ∀ U : Fin N → Fin K → Fin n → ℝ,
      rayMean (List.ofFn fun k => recorded matI dirI (traceWith c K (L k).V (U k) (c.start (L k).x (L k).y matI dirI ra0))) f
        = ∑ k, f (recorded matI dirI (traceWith c K (L k).V (U k) (c.start (L k).x (L k).y matI dirI ra0))) / N := by
    intro U
    simp only [rayMean, List.length_ofFn, List.map_ofFn, List.sum_ofFn, Function.comp]
  simp only [h1]
  have hone : ∀ k : Fin N, Integrable (fun U : Fin N → Fin K → Fin n → ℝ => f (recorded matI dirI (traceWith c K (L k).V (U k) (c.start (L k).x (L k).y matI dirI ra0))))
      (Measure.pi fun _ : Fin N => uniform2 K n) ∧
      ∫ U, f (recorded matI dirI (traceWith c K (L k).V (U k) (c.start (L k).x (L k).y matI dirI ra0))) ∂(Measure.pi fun _ : Fin N => uniform2 K n)
        = branchesStack c n (fun o => f (recorded matI dirI o)) K (L k).V (c.start (L k).x (L k).y matI dirI ra0) := by
    intro k
    obtain ⟨hm, ⟨C, hC⟩, hI⟩ := unbiased_stack c (n := n) htab (fun o => f (recorded matI dirI o)) K (L k).V (c.start (L k).x (L k).y matI dirI ra0)
    refine ⟨Integrable.of_bound (C := C) (hm.comp (measurable_pi_apply k)).aestronglyMeasurable (Filter.Eventually.of_forall fun U => by simpa using hC _), ?_⟩
    rw [← hI]
    have hmp := measurePreserving_eval (fun _ : Fin N => uniform2 K n) k
    have h2 := integral_map (μ := Measure.pi fun _ : Fin N => uniform2 K n) hmp.measurable.aemeasurable (f := fun u => f (recorded matI dirI (traceWith c K (L k).V u (c.start (L k).x (L k).y matI dirI ra0))))
      hm.aestronglyMeasurable
    rw [hmp.map_eq] at h2
    exact h2.symm
  rw [integral_finsetSum _ fun k _ => (hone k).1.div_const _, Finset.sum_div]
  exact Finset.sum_congr rfl fun k _ => by rw [integral_div, (hone k).2]

/-- **C131, R, T and A.** `N` rays are launched at given points and traced with independent uniform random numbers.  The means of the fractions returned - reflected, transmitted, absorbed in each layer and
in each layer of each interface - are the averages, over the rays, of what is found by following all the branches. -/
theorem C131_RAT {N : ℕ} (K n : ℕ) (matI dirI : ℤ) (ra0 : V3) (L : Fin N → StackLaunch) :
    let rays := fun U : Fin N → Fin K → Fin n → ℝ =>
      List.ofFn fun k => recorded matI dirI (traceWith c K (L k).V (U k) (c.start (L k).x (L k).y matI dirI ra0))
    let P : Measure (Fin N → Fin K → Fin n → ℝ) := Measure.pi fun _ => uniform2 K n
    let all := fun f : Ray → ℝ => (∑ k, branchesStack c n (fun o => f (recorded matI dirI o)) K (L k).V (c.start (L k).x (L k).y matI dirI ra0)) / N
    ∫ U, resR (rays U) ∂P = all (fun s => if s.isRefl then s.I else 0) ∧
    ∫ U, resT (rays U) ∂P = all (fun s => if s.isTrns then s.I else 0) ∧
    (∀ m, ∫ U, resA (rays U) m ∂P = all (fun s => s.A m)) ∧
    ∀ j l, ∫ U, resAint (rays U) j l ∂P = all (fun s => if s.aIdx = (j : ℤ) + 1 then s.aInt.getD l 0 else 0) :=
  ⟨rayMean_unbiased c htab K n matI dirI ra0 L _, rayMean_unbiased c htab K n matI dirI ra0 L _, fun _ => rayMean_unbiased c htab K n matI dirI ra0 L _,
    fun _ _ => rayMean_unbiased c htab K n matI dirI ra0 L _⟩

end

/-! ## Example -/

/-- `exRT` with coated surfaces: half of the light is reflected, a quarter transmitted and a quarter absorbed. -/
noncomputable def exCoated : RTStack := { exRT with tabs := [some fun _ _ => (1 / 2, 1 / 4, [1 / 4]), some fun _ _ => (1 / 2, 1 / 4, [1 / 4])] }

/-- A ray that falls perpendicularly on the first surface of `exCoated` is absorbed there at once with probability 1/4. -/
example : (uniform2 1 1).real {u | traceWith exCoated 1 (fun _ => ⟨0, 0, fun _ _ => exIter⟩) u { ray := Stack.start 0 1, r := some ⟨1, 1, 5⟩, d := ⟨0, 0, -1⟩ } ∈
    {o | ∃ s, o = .next s ∧ s.ray.stop = true ∧ s.ray.θ = none}} = 1 / 4 := by
  rw [C131_probability exCoated (by intro t ht; simp [exCoated] at ht; subst ht; intro side θ; norm_num)]
  have hw : wrapRay ⟨1, 1, 5⟩ ⟨0, 0, -1⟩ 10 10 0 = ⟨1, 1, 5⟩ := by
    unfold wrapRay
    simp
    norm_num
  simp [branchesStack, Stack.start, exCoated, exRT, pyGet, branchesMeet, RTStack.randomised, wrapOpt, hw, Visit.surfaces]
  unfold branches
  simp only [sicStart, IterDraw.draw, exIter]
  rw [checkIntersect_single_hit exTri_hit.1]
  simp [facetLaw, tmmLaw, branches, RTStack.advance, SicRes.outcome, Stack.step, Ray.interact, Stack.checkEnd, exStack, Stack.nSurf, pyIndex]
  norm_num

end Rayflare
