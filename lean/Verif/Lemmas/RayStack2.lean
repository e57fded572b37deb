import Verif.Lemmas.RayStack
import Mathlib.Data.List.GetD

/-! # Helper lemmas: depth profiles of rays in a stack, sums over rays -/

namespace Rayflare.Lemmas

open Rayflare.Model Rayflare.Spec Rayflare.Np

theorem cum_nat (S : Stack) {m : ℕ} (hm : m < S.widths.length) : S.cum m = (S.widths.take (m + 1)).sum := by
  unfold Stack.cum pyGet
  simp [cumsum, hm]

theorem cum_pred (S : Stack) {m : ℕ} (h1 : 1 ≤ m) (hm : m < S.widths.length) : S.cum ((m : ℤ) - 1) = (S.widths.take m).sum := by
  have : ((m : ℤ) - 1) = ((m - 1 : ℕ) : ℤ) := by omega
  rw [this, cum_nat S (by omega)]
  congr 2
  omega

theorem cum_neg_one (S : Stack) (h : 0 < S.widths.length) : S.cum (-1) = S.widths.sum := by
  unfold Stack.cum pyGet
  have e : (((S.widths.length : ℤ)) + -1).toNat = S.widths.length - 1 := by omega
  simp only [cumsum, List.length_map, List.length_range]
  rw [if_neg (by omega), if_pos (by omega), e, List.getElem?_map, List.getElem?_range (by omega)]
  simp only [Option.map_some, Option.getD_some]
  rw [List.take_of_length_le (by omega)]

theorem take_sum_mono {w : List ℝ} (hw : ∀ x ∈ w, 0 ≤ x) {a b : ℕ} (h : a ≤ b) : (w.take a).sum ≤ (w.take b).sum := by
  have : w.take b = w.take a ++ (w.take b).drop a := by
    conv_lhs => rw [← List.take_append_drop a (w.take b)]
    rw [List.take_take, min_eq_left h]
  rw [this, List.sum_append]
  have : 0 ≤ ((w.take b).drop a).sum := List.sum_nonneg fun x hx => hw x (List.mem_of_mem_take (List.mem_of_mem_drop hx))
  linarith

theorem layerIdx_eq (S : Stack) {m : ℕ} (h1 : 1 ≤ m) (hm : m < S.widths.length) : S.layerIdx m = layerSamples S m := by
  unfold Stack.layerIdx layerSamples
  rw [cum_nat S hm, cum_pred S h1 hm]
  apply List.filter_congr
  intro k _
  rw [← Bool.decide_and]
  exact decide_eq_decide.mpr ⟨fun h => ⟨h.2, h.1⟩, fun h => ⟨h.2, h.1⟩⟩

theorem layerIdx_zero (S : Stack) (hw : ∀ x ∈ S.widths, 0 ≤ x) (h : 0 < S.widths.length) : S.layerIdx 0 = [] := by
  unfold Stack.layerIdx
  rw [List.filter_eq_nil_iff]
  intro k _
  have e1 := cum_nat S h
  have e2 := cum_neg_one S h
  have := take_sum_mono hw (a := 1) (b := S.widths.length) (by omega)
  rw [List.take_length] at this
  simp only [Nat.cast_zero, zero_sub] at e1 ⊢
  rw [e1, e2]
  simp only [Bool.and_eq_true, decide_eq_true_eq, not_and, ge_iff_le, not_le]
  intro h'
  simp only [zero_add] at h'
  linarith

theorem mem_layerSamples {S : Stack} {m k : ℕ} : k ∈ layerSamples S m ↔
    k < S.zpos.length ∧ (S.widths.take m).sum ≤ S.zpos.getD k 0 ∧ S.zpos.getD k 0 < (S.widths.take (m + 1)).sum := by
  simp [layerSamples]

theorem layerSamples_disjoint {S : Stack} (hw : ∀ x ∈ S.widths, 0 ≤ x) {a b k : ℕ} (ha : k ∈ layerSamples S a)
    (hb : k ∈ layerSamples S b) : a = b := by
  rw [mem_layerSamples] at ha hb
  rcases lt_trichotomy a b with h | h | h
  · have := take_sum_mono hw (a := a + 1) (b := b) (by omega); linarith [ha.2.2, hb.2.1]
  · exact h
  · have := take_sum_mono hw (a := b + 1) (b := a) (by omega); linarith [hb.2.2, ha.2.1]

theorem layerSamples_nodup (S : Stack) (m : ℕ) : (layerSamples S m).Nodup := List.nodup_range.filter _

theorem layerSamples_pairwise {S : Stack} (hz : S.zpos.Pairwise (· < ·)) (m : ℕ) :
    ((layerSamples S m).map fun k => S.zpos.getD k 0).Pairwise (· < ·) := by
  rw [List.pairwise_map]
  have h1 : (layerSamples S m).Pairwise (· < ·) := List.pairwise_lt_range.filter _
  refine h1.imp_of_mem ?_
  intro a b ha hb hab
  have ha' := (mem_layerSamples.mp ha).1
  have hb' := (mem_layerSamples.mp hb).1
  rw [List.getD_eq_getElem _ _ ha', List.getD_eq_getElem _ _ hb']
  exact List.pairwise_iff_getElem.mp hz a b ha' hb' hab

theorem trapz_map_shift (c : ℝ) : ∀ y x : List ℝ, trapz y (x.map (fun t => t - c)) = trapz y x
  | [], x => by simp
  | [_], x => by simp
  | y0 :: y1 :: ys, [] => by simp
  | y0 :: y1 :: ys, [x0] => by simp [trapz]
  | y0 :: y1 :: ys, x0 :: x1 :: xs => by
    have := trapz_map_shift c (y1 :: ys) (x1 :: xs)
    simp only [List.map_cons] at this ⊢
    rw [trapz_cons_cons, trapz_cons_cons, this]; ring

/-- What `traverse` deposits integrates to the intensity lost, if there are at least two samples. -/
theorem traverse_trapz (width θ α I : ℝ) (ps : List ℝ) (thresh : ℝ) (up : Bool) (hα : 0 ≤ α) (hI : 0 ≤ I)
    (hps : ps.Pairwise (· < ·)) (h2 : 2 ≤ ps.length) :
    trapz (traverse width θ α I ps thresh up).1 ps = I - (traverse width θ α I ps thresh up).2.2.1 := by
  set ratio := α / |Real.cos θ| with hr
  have hr0 : 0 ≤ ratio := div_nonneg hα (abs_nonneg _)
  set Ib := I * Real.exp (-ratio * width) with hIb
  set u0 := ps.map (fun z => I * ratio * Real.exp (-ratio * z)) with hu0
  set u := (if up then u0.reverse else u0) with hu
  have hul : u.length = ps.length := by rw [hu]; split_ifs <;> simp [hu0]
  have hmem : ∀ t, t ∈ u ↔ t ∈ u0 := by intro t; rw [hu]; split_ifs <;> simp
  have hun : ∀ t ∈ u, 0 ≤ t := by
    intro t ht
    rw [hmem, hu0, List.mem_map] at ht
    obtain ⟨z, _, rfl⟩ := ht
    positivity
  have hgoal : trapz (u.map fun x => if trapz u ps > 0 then (I - Ib) * x / trapz u ps else 0) ps = I - Ib := by
    rcases (trapz_nonneg u ps hun hps).lt_or_eq with h | h
    · have : (u.map fun x => if trapz u ps > 0 then (I - Ib) * x / trapz u ps else 0)
          = u.map (fun x => ((I - Ib) / trapz u ps) * x) := by
        apply List.map_congr_left
        intro x _
        rw [if_pos h]; ring
      rw [this, trapz_smul, div_mul_cancel₀ _ h.ne']
    · have hz := trapz_eq_zero u ps hun hps hul (by omega) h.symm
      have hIr : I * ratio = 0 := by
        obtain ⟨z, hz'⟩ := List.exists_mem_of_length_pos (show 0 < ps.length by omega)
        have : I * ratio * Real.exp (-ratio * z) ∈ u := by
          rw [hmem, hu0]; exact List.mem_map.mpr ⟨z, hz', rfl⟩
        rcases mul_eq_zero.mp (hz _ this) with h | h
        · exact h
        · exact absurd h (Real.exp_pos _).ne'
      have hback : Ib = I := by
        rcases mul_eq_zero.mp hIr with h | h
        · rw [hIb, h]; simp
        · rw [hIb, h]; simp
      have : (u.map fun x => if trapz u ps > 0 then (I - Ib) * x / trapz u ps else 0) = List.replicate u.length 0 := by
        rw [← List.map_const']
        apply List.map_congr_left
        intro x _
        rw [if_neg (by rw [← h]; simp)]
      rw [this, trapz_replicate_zero, hback]; ring
  exact hgoal

theorem traverse_nonneg (width θ α I : ℝ) (ps : List ℝ) (thresh : ℝ) (up : Bool) (hα : 0 ≤ α) (hI : 0 ≤ I) (hw : 0 ≤ width) :
    ∀ t ∈ (traverse width θ α I ps thresh up).1, 0 ≤ t := by
  set ratio := α / |Real.cos θ| with hr
  have hr0 : 0 ≤ ratio := div_nonneg hα (abs_nonneg _)
  set Ib := I * Real.exp (-ratio * width) with hIb
  set u0 := ps.map (fun z => I * ratio * Real.exp (-ratio * z)) with hu0
  set u := (if up then u0.reverse else u0) with hu
  have hmem : ∀ t, t ∈ u ↔ t ∈ u0 := by intro t; rw [hu]; split_ifs <;> simp
  have hun : ∀ t ∈ u, 0 ≤ t := by
    intro t ht
    rw [hmem, hu0, List.mem_map] at ht
    obtain ⟨z, _, rfl⟩ := ht
    positivity
  have hIle : Ib ≤ I := by
    rw [hIb]
    refine mul_le_of_le_one_right hI ?_
    rw [Real.exp_le_one_iff]
    have := mul_nonneg hr0 hw
    linarith
  have hgoal : ∀ t ∈ (u.map fun x => if trapz u ps > 0 then (I - Ib) * x / trapz u ps else 0), 0 ≤ t := by
    intro t ht
    rw [List.mem_map] at ht
    obtain ⟨x, hx, rfl⟩ := ht
    split_ifs with h
    · exact div_nonneg (mul_nonneg (by linarith) (hun x hx)) h.le
    · exact le_refl _
  exact hgoal

theorem traverse_length (width θ α I : ℝ) (ps : List ℝ) (thresh : ℝ) (up : Bool) :
    (traverse width θ α I ps thresh up).1.length = ps.length := by
  simp only [Model.traverse, List.length_map]
  split_ifs <;> simp

theorem addAt_map_self {idx : List ℕ} (hn : idx.Nodup) {DA : List ℝ} (hl : DA.length = idx.length) (p : ℕ → ℝ) :
    idx.map (addAt idx DA p) = List.zipWith (· + ·) (idx.map p) DA := by
  apply List.ext_getElem
  · simp [hl]
  · intro i h1 h2
    simp only [List.length_map] at h1
    simp only [List.getElem_map, List.getElem_zipWith, addAt, List.getElem_mem, if_true]
    rw [List.Nodup.idxOf_getElem hn, List.getD_eq_getElem]

theorem addAt_map_other {idx idx' : List ℕ} (h : ∀ k ∈ idx', k ∉ idx) (DA : List ℝ) (p : ℕ → ℝ) :
    idx'.map (addAt idx DA p) = idx'.map p := by
  apply List.map_congr_left
  intro k hk
  simp [addAt, h k hk]

/-- Profile bookkeeping of one ray. -/
structure ProfileOk (S : Stack) (s : Ray) : Prop where
  nonneg : ∀ k, 0 ≤ s.profile k
  integral : ∀ m, 2 ≤ (layerSamples S m).length → layerIntegral S m s.profile = s.A m

theorem start_profile (S : Stack) (matI dirI : ℤ) : ProfileOk S (Stack.start matI dirI) := by
  constructor
  · intro k; simp [Stack.start]
  · intro m _
    simp only [layerIntegral, Stack.start]
    rw [List.map_const', trapz_replicate_zero]

theorem depths_eq (S : Stack) {m : ℕ} (h1 : 1 ≤ m) (hm : m < S.widths.length) :
    S.depths m = ((layerSamples S m).map fun k => S.zpos.getD k 0).map fun t => t - (S.widths.take m).sum := by
  unfold Stack.depths
  rw [layerIdx_eq S h1 hm, cum_pred S h1 hm, List.map_map]
  rfl

theorem step_profile {S : Stack} (hS : Passive S) (hz : S.zpos.Pairwise (· < ·)) {s : Ray} (ht : OnTrack S s) (he : Energy S s)
    (h : ProfileOk S s) (o : Outcome) (s' : Ray) (hs' : S.step s o = some s') : ProfileOk S s' := by
  cases hs : s.stop with
  | true =>
    rw [step_stopped hs] at hs'
    simp only [Option.some.injEq] at hs'
    subst hs'
    exact h
  | false =>
    rcases step_spec ht hs o with ⟨A, rfl, he'⟩ | ⟨θ, ho', he', hend⟩ | ⟨θ, m, ho', hm, hm', hmat, he'⟩
    · rw [he'] at hs'
      simp only [Option.some.injEq] at hs'
      subst hs'
      exact ⟨h.nonneg, h.integral⟩
    · rw [he'] at hs'
      simp only [Option.some.injEq] at hs'
      subst hs'
      rcases ho' with rfl | rfl <;> exact ⟨h.nonneg, h.integral⟩
    · rw [he'] at hs'
      simp only [Option.some.injEq] at hs'
      subst hs'
      have hI : (s.interact o).I = s.I := by rcases ho' with rfl | rfl <;> rfl
      have hA : (s.interact o).A = s.A := by rcases ho' with rfl | rfl <;> rfl
      have hp : (s.interact o).profile = s.profile := by rcases ho' with rfl | rfl <;> rfl
      set up := decide ((s.interact o).dir = -1)
      set r := traverse (S.widths.getD m 0) ((s.interact o).θ.getD 0) (S.alphas.getD m 0) s.I (S.depths m) S.thresh up with hr
      have hprof : (S.pass (s.interact o) m).profile = addAt (layerSamples S m) r.1 s.profile := by
        simp only [Stack.pass, hI, hp]
        rw [layerIdx_eq S hm (by omega)]
      have hAm : (S.pass (s.interact o) m).A = fun k => if k = m then s.A k + s.I - r.2.2.1 else s.A k := by
        simp only [Stack.pass, hI, hA]
        rfl
      have hw0 := getD_nonneg hS.widths m
      have ha0 := getD_nonneg hS.alphas m
      have hdl : (S.depths m).length = (layerSamples S m).length := by rw [depths_eq S hm (by omega)]; simp
      have hlen : r.1.length = (layerSamples S m).length := by rw [hr, traverse_length, hdl]
      have hrn := traverse_nonneg (S.widths.getD m 0) ((s.interact o).θ.getD 0) (S.alphas.getD m 0) s.I (S.depths m) S.thresh up
        ha0 he.I0 hw0
      constructor
      · intro k
        rw [hprof]
        unfold addAt
        split_ifs with hk
        · have h1 := h.nonneg k
          have h2 : 0 ≤ r.1.getD ((layerSamples S m).idxOf k) 0 := getD_nonneg hrn _
          linarith
        · exact h.nonneg k
      · intro m2 hm2
        rw [hprof, hAm]
        unfold layerIntegral
        by_cases hmm : m2 = m
        · subst hmm
          rw [addAt_map_self (layerSamples_nodup S m2) hlen, trapz_add _ _ _ (by rw [List.length_map, hlen])]
          have h1 := h.integral m2 hm2
          unfold layerIntegral at h1
          have h2 := traverse_trapz (S.widths.getD m2 0) ((s.interact o).θ.getD 0) (S.alphas.getD m2 0) s.I (S.depths m2) S.thresh up
            ha0 he.I0 (by
              rw [depths_eq S hm (by omega), List.pairwise_map]
              exact (layerSamples_pairwise hz m2).imp (fun h => by linarith)) (by rw [hdl]; exact hm2)
          rw [← hr, depths_eq S hm (by omega), trapz_map_shift] at h2
          simp only [if_true]
          rw [h1, h2]; ring
        · rw [addAt_map_other (fun k hk hk' => hmm (layerSamples_disjoint hS.widths hk hk'))]
          simp only [if_neg hmm]
          exact h.integral m2 hm2

/-! ## Sums over rays -/

theorem rayMean_eq (rays : List Ray) (f : Ray → ℝ) : rayMean rays f = (rays.map f).sum / rays.length := by
  unfold rayMean
  generalize (rays.length : ℝ) = n
  induction rays with
  | nil => simp
  | cons a l ih => simp only [List.map_cons, List.sum_cons, ih]; ring

theorem rayMean_add (rays : List Ray) (f g : Ray → ℝ) : rayMean rays f + rayMean rays g = rayMean rays fun s => f s + g s := by
  rw [rayMean_eq, rayMean_eq, rayMean_eq, List.sum_map_add, add_div]

theorem rayMean_sum {ι : Type} (F : Finset ι) (rays : List Ray) (f : ι → Ray → ℝ) :
    ∑ i ∈ F, rayMean rays (f i) = rayMean rays fun s => ∑ i ∈ F, f i s := by
  classical
  induction F using Finset.induction_on with
  | empty => simp [rayMean]
  | insert a F ha ih => simp only [Finset.sum_insert ha, ih, rayMean_add]

theorem rayMean_congr {rays : List Ray} {f g : Ray → ℝ} (h : ∀ s ∈ rays, f s = g s) : rayMean rays f = rayMean rays g := by
  unfold rayMean
  congr 1
  exact List.map_congr_left fun s hs => by rw [h s hs]

theorem rayMean_mono {rays : List Ray} {f g : Ray → ℝ} (h : ∀ s ∈ rays, f s ≤ g s) : rayMean rays f ≤ rayMean rays g := by
  unfold rayMean
  apply List.sum_le_sum
  intro s hs
  exact div_le_div_of_nonneg_right (h s hs) (Nat.cast_nonneg _)

theorem rayMean_const {rays : List Ray} (hr : rays ≠ []) (c : ℝ) : rayMean rays (fun _ => c) = c := by
  rw [rayMean_eq, List.map_const', List.sum_replicate, nsmul_eq_mul]
  have : (rays.length : ℝ) ≠ 0 := by
    have := List.length_pos_iff.mpr hr
    positivity
  field_simp

theorem rayMean_nonneg {rays : List Ray} {f : Ray → ℝ} (h : ∀ s ∈ rays, 0 ≤ f s) : 0 ≤ rayMean rays f := by
  have : rayMean rays (fun _ => (0 : ℝ)) ≤ rayMean rays f := rayMean_mono h
  simpa [rayMean] using this

theorem list_sum_eq_sum_range (l : List ℝ) {n : ℕ} (h : l.length = n) : ∑ i ∈ Finset.range n, l.getD i 0 = l.sum := by
  subst h
  induction l with
  | nil => simp
  | cons a l ih => rw [List.length_cons, Finset.sum_range_succ']; simp only [List.getD_cons_succ, List.getD_cons_zero, List.sum_cons, ih]; ring

theorem layerIntegral_rayMean (S : Stack) (m : ℕ) (rays : List Ray) :
    layerIntegral S m (fun k => rayMean rays fun s => s.profile k) = rayMean rays fun s => layerIntegral S m s.profile := by
  have hadd : ∀ f g : ℕ → ℝ, layerIntegral S m (fun k => f k + g k) = layerIntegral S m f + layerIntegral S m g := by
    intro f g
    unfold layerIntegral
    rw [← trapz_add _ _ _ (by simp)]
    congr 1
    rw [List.zipWith_map]
    simp
  have hsmul : ∀ (c : ℝ) (f : ℕ → ℝ), layerIntegral S m (fun k => f k / c) = layerIntegral S m f / c := by
    intro c f
    unfold layerIntegral
    have := trapz_smul (1 / c) ((layerSamples S m).map f) ((layerSamples S m).map fun k => S.zpos.getD k 0)
    rw [List.map_map] at this
    rw [show (fun k => f k / c) = ((fun t => 1 / c * t) ∘ f) from by funext k; simp only [Function.comp]; ring, this]; ring
  have hsum : ∀ l : List Ray, layerIntegral S m (fun k => (l.map fun s => s.profile k).sum)
      = (l.map fun s => layerIntegral S m s.profile).sum := by
    intro l
    induction l with
    | nil =>
      simp only [List.map_nil, List.sum_nil]
      unfold layerIntegral
      rw [List.map_const', trapz_replicate_zero]
    | cons a l ih => simp only [List.map_cons, List.sum_cons, hadd, ih]
  simp only [rayMean_eq]
  rw [hsmul, hsum]

end Rayflare.Lemmas
