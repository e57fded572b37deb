import Verif.Spec.OpticalThickness
import Verif.Lemmas.Trapz
import Verif.Props.MatMul

/-!
# C193: the thickness of the bulk layer matters only through its absorption
-/

namespace Rayflare

open Model Spec Np Lemmas

variable {ω ι κ₀ κ₁ : Type*} [Fintype ι] [DecidableEq ι]

section
variable {S S' : Sys ω ι κ₀ κ₁} (h : SameOpticalThickness S S')

include h

theorem same_D : S'.D = S.D := by
  funext w
  unfold Sys.D makeD
  rw [(h.surfaces w).θ, neg_mul, neg_mul, h.depth w]

theorem same_front0 : S'.front0 = S.front0 := funext fun w => (h.surfaces w).f0
theorem same_front1 : S'.front1 = S.front1 := funext fun w => (h.surfaces w).f1
theorem same_rear0 : S'.rear0 = S.rear0 := funext fun w => (h.surfaces w).r0
theorem same_v0 : S'.v0 = S.v0 := funext fun w => (h.surfaces w).v0

theorem same_init : S'.init = S.init := by
  unfold Sys.init
  rw [same_front0 h, same_v0 h]

/-- One pass in each branch, the profile options being arbitrary. -/
theorem same_step [Nonempty ω] {t t' : LoopState ω ι κ₀ κ₁} (ht : SameRecords t t') (o o' : ProfOpts ω ι) :
    SameRecords (S.step t) (S'.step t') ∧ SameRecords (S.stepProf o t) (S'.stepProf o' t') := by
  obtain ⟨w⟩ := ‹Nonempty ω›
  obtain ⟨e1, e2, e3, e4, e5, e6⟩ := ht
  have hu := (h.surfaces w).u2d
  have hd := (h.surfaces w).d2u
  constructor <;>
  · simp only [SameRecords, Sys.step, Sys.stepProf, Sys.appendPerPassInfo, e1, e2, e3, e4, e5, e6, hu, hd, same_D h, same_front1 h, same_rear0 h, and_self]

theorem same_iter [Nonempty ω] (o o' : ProfOpts ω ι) (k : ℕ) : SameRecords (S.step^[k] S.init) (S'.step^[k] S'.init) ∧ SameRecords ((S.stepProf o)^[k] S.init) ((S'.stepProf o')^[k] S'.init) := by
  induction k with
  | zero => simp [SameRecords, same_init h]
  | succ k ih =>
    simp only [Function.iterate_succ_apply']
    exact ⟨(same_step h ih.1 o o').1, (same_step h ih.2 o o').2⟩

theorem same_done {t t' : LoopState ω ι κ₀ κ₁} (ht : SameRecords t t') : S'.Done t' ↔ S.Done t := by
  unfold Sys.Done
  rw [ht.1, h.thresh]

/-- **C193.** If two bulk layers have at every wavelength the same product of absorption coefficient and thickness, then with the same surfaces, incident light and `I_thresh` the loop ends after the same number of passes, and everything recorded in
every pass is the same: reflection and transmission into every direction, absorption in every layer and in the bulk.  This holds for both branches of the loop, whatever the depths at which profiles are calculated. -/
theorem C193_same_results [Nonempty ω] (o o' : ProfOpts ω ι) (k : ℕ) :
    (∀ t, S.Exits k t → ∃ t', S'.Exits k t' ∧ SameRecords t t') ∧ ∀ t, S.ExitsProf o k t → ∃ t', S'.ExitsProf o' k t' ∧ SameRecords t t' := by
  refine ⟨fun t ht => ?_, fun t ht => ?_⟩
  · obtain ⟨rfl, hd, hn⟩ := ht
    exact ⟨_, ⟨rfl, (same_done h (same_iter h o o' k).1).mpr hd, fun i hi hdi => hn i hi ((same_done h (same_iter h o o' i).1).mp hdi)⟩, (same_iter h o o' k).1⟩
  · obtain ⟨rfl, hd, hn⟩ := ht
    exact ⟨_, ⟨rfl, (same_done h (same_iter h o o' k).2).mpr hd, fun i hi hdi => hn i hi ((same_done h (same_iter h o o' i).2).mp hdi)⟩, (same_iter h o o' k).2⟩

end

/-! ## Profiles -/

theorem trapz_rescale (c : ℝ) : ∀ y x : List ℝ, trapz (y.map fun v => v / c) (x.map fun v => c * v) = if c = 0 then 0 else trapz y x
  | [], x => by simp
  | [a], x => by simp
  | a :: b :: ys, [] => by simp [trapz]
  | a :: b :: ys, [x] => by simp [trapz]
  | a :: b :: ys, x0 :: x1 :: xs => by
    have ih := trapz_rescale c (b :: ys) (x1 :: xs)
    simp only [List.map_cons] at ih ⊢
    rw [trapz_cons_cons, trapz_cons_cons, ih]
    by_cases hc : c = 0
    · simp [hc]
    · rw [if_neg hc, if_neg hc]
      field_simp

theorem profile_scale (v1 v2 : ι → ℝ) (α : ℝ) (θ : ι → ℝ) (d : ℝ) (zs : List ℝ) (A : ℝ) (junk : ι → ℝ) (junk' : ℝ) {c : ℝ} (hc : 0 < c) :
    bulkProfileCalc v1 v2 (α / c) θ (c * d) (zs.map fun z => c * z) A junk junk' = (bulkProfileCalc v1 v2 α θ d zs A junk junk').map fun x => x / c := by
  have e1 : ∀ x : ℝ, -(α / c) * (c * x) = -α * x := fun x => by field_simp
  have hraw : (zs.map fun z => c * z).map (profRaw v1 v2 (α / c) θ (c * d) junk) = (zs.map (profRaw v1 v2 α θ d junk)).map fun x => x / c := by
    rw [List.map_map, List.map_map]
    refine List.map_congr_left fun z _ => ?_
    simp only [Function.comp_apply, profRaw, profNorm, e1, Finset.sum_div]
    refine Finset.sum_congr rfl fun j _ => ?_
    ring
  unfold bulkProfileCalc
  simp only
  rw [hraw, trapz_rescale, if_neg hc.ne']
  simp only [List.map_map]
  refine List.map_congr_left fun x _ => ?_
  simp only [Function.comp_apply]
  ring

/-- **C193, depths.** The depths at which the profile of a layer `c` times as thick is calculated with `c` times the spacing are `c` times the depths. -/
theorem C193_depths {c : ℝ} (hc : 0 < c) (d s : ℝ) : arange (c * d) (c * s) = (arange d s).map fun z => c * z := by
  unfold arange
  rw [List.map_map, mul_div_mul_left _ _ hc.ne']
  refine List.map_congr_left fun i _ => ?_
  simp only [Function.comp_apply]
  ring

section
variable (S : Sys ω ι κ₀ κ₁) (o : ProfOpts ω ι) (c : ℝ)

variable {c}

omit [Fintype ι] [DecidableEq ι] in
theorem inUnits_same (hc : 0 < c) : SameOpticalThickness S (inUnits S c) where
  surfaces := fun _ => ⟨rfl, rfl, rfl, rfl, rfl, rfl, rfl⟩
  thresh := rfl
  depth := fun w => by
    show S.α w / c * (c * S.thick) = _
    field_simp

theorem units_prof [Nonempty ω] (hc : 0 < c) (k : ℕ) :
    (((inUnits S c).stepProf { o with depths := o.depths.map fun z => c * z })^[k] (inUnits S c).init).Aprof =
      ((S.stepProf o)^[k] S.init).Aprof.map fun p w => (p w).map fun x => x / c := by
  have h := inUnits_same S hc
  induction k with
  | zero => simp [Sys.init]
  | succ k ih =>
    obtain ⟨e1, -, -, -, -, -⟩ := (same_iter h o { o with depths := o.depths.map fun z => c * z } k).2
    simp only [Function.iterate_succ_apply']
    generalize ((inUnits S c).stepProf _)^[k] (inUnits S c).init = t' at ih e1 ⊢
    generalize (S.stepProf o)^[k] S.init = t at ih e1 ⊢
    have hD := same_D h
    simp only [Sys.stepProf, Sys.appendPerPassInfo, e1, ih, List.length_map, hD]
    show _ ++ _ ++ _ = _
    rw [List.map_append, List.map_append]
    congr 1
    · congr 1
      cases o.bulkProfile
      · rfl
      · simp only [if_true, List.map_cons, List.map_nil]
        congr 1
        funext w
        exact profile_scale _ _ _ _ _ _ _ _ _ hc
    · cases o.bulkProfile
      · rfl
      · simp only [if_true, List.map_cons, List.map_nil]
        congr 1
        funext w
        rw [List.map_reverse]
        congr 1
        exact profile_scale _ _ _ _ _ _ _ _ _ hc

theorem foldl_zip_scale (ps : List (ω → List ℝ)) (w : ω) : ∀ acc : List ℝ,
    (ps.map fun p w => (p w).map fun x => x / c).foldl (fun acc p => List.zipWith (· + ·) acc (p w)) (acc.map fun x => x / c) =
      (ps.foldl (fun acc p => List.zipWith (· + ·) acc (p w)) acc).map fun x => x / c := by
  induction ps with
  | nil => intro acc; rfl
  | cons p ps ih =>
    intro acc
    simp only [List.map_cons, List.foldl_cons]
    rw [← ih]
    congr 1
    rw [List.zipWith_map, List.map_zipWith]
    congr 1
    funext a b
    ring

/-- **C193, units.** All lengths (thickness, depths of the profile, and the inverse of the absorption coefficient) may be given in another unit, `c` times smaller: the loop ends after the same number of passes, all the records are the same, and the
profile of the bulk layer, an absorption per length, is `c` times smaller at the corresponding depths. -/
theorem C193_units [Nonempty ω] (hc : 0 < c) (k : ℕ) (t : LoopState ω ι κ₀ κ₁) (ht : S.ExitsProf o k t) :
    ∃ t', (inUnits S c).ExitsProf { o with depths := o.depths.map fun z => c * z } k t' ∧ SameRecords t t' ∧
      ∀ n w, t'.bulkProf n w = (t.bulkProf n w).map fun x => x / c := by
  obtain ⟨t', ht', hr⟩ := (C193_same_results (inUnits_same S hc) o { o with depths := o.depths.map fun z => c * z } k).2 t ht
  refine ⟨t', ht', hr, fun n w => ?_⟩
  obtain ⟨rfl, -, -⟩ := ht
  obtain ⟨rfl, -, -⟩ := ht'
  have h0 : (List.replicate n (0 : ℝ)) = (List.replicate n (0 : ℝ)).map fun x => x / c := by simp
  unfold LoopState.bulkProf
  rw [units_prof S o hc k]
  conv_lhs => rw [h0]
  exact foldl_zip_scale _ _ _

end

/-- A structure with two wavelengths and two directions whose profile loop ends, with thickness and depths in a unit a thousand times smaller. -/
example : ∃ (o : ProfOpts (Fin 2) (Fin 2)) (k : ℕ) (t t' : LoopState (Fin 2) (Fin 2) (Fin 1) (Fin 1)), o.bulkProfile = true ∧ o.depths = arange exSys.thick (1 / 2) ∧ exSys.ExitsProf o k t ∧
    (inUnits exSys 1000).ExitsProf { o with depths := arange (1000 * exSys.thick) (1000 * (1 / 2)) } k t' ∧ t'.R 0 = t.R 0 ∧ (inUnits exSys 1000).thick ≠ exSys.thick := by
  obtain ⟨k, -, -, t, ht⟩ := C17_absorbing_bulk exSys exSys_conserving exSys_nonneg exSys_cos 3 (by norm_num) (by intro w; simp only [exSys]; split_ifs <;> norm_num) (by norm_num [exSys])
    (by intro w; simp [exSys]) (by norm_num [exSys]) ⟨true, arange exSys.thick (1 / 2), fun _ _ _ => 0, fun _ _ => 0⟩
  obtain ⟨t', ht', hr, -⟩ := C193_units exSys _ (show (0 : ℝ) < 1000 by norm_num) k t ht
  refine ⟨_, k, t, t', rfl, rfl, ht, ?_, ?_, ?_⟩
  · rw [C193_depths (by norm_num)]
    exact ht'
  · unfold LoopState.R
    rw [hr.2.1]
  · norm_num [inUnits, exSys]

end Rayflare
