import Verif.Props.TableLookup
import Verif.Props.Compare

/-!
# Property C171: the order in which the wavelengths are listed
-/

namespace Rayflare

open Rayflare.Np Rayflare.Model Rayflare.Spec Rayflare.Lemmas

/-! ## Transfer-matrix surfaces -/

theorem mem_locPositions (wls : List ℝ) (x : ℝ) (i : ℕ) : i ∈ locPositions wls x ↔ wls[i]? = some x := by
  unfold locPositions
  rw [List.mem_filter, List.mem_range]
  constructor
  · rintro ⟨-, h⟩; simpa using h
  · intro h; exact ⟨(List.getElem?_eq_some_iff.mp h).1, by simpa using h⟩

theorem locPositions_nodup (wls : List ℝ) (x : ℝ) : (locPositions wls x).Nodup := List.nodup_range.filter _

theorem absColumn_some {E : Type*} (wls : List ℝ) (hn : wls.Nodup) (res : ℕ → E) (i : ℕ) (x : ℝ) (h : wls[i]? = some x) : absColumn wls res x = some (res i) := by
  have hp : locPositions wls x = [i] := by
    have hnd := locPositions_nodup wls x
    have hall : ∀ k ∈ locPositions wls x, k = i := by
      intro k hk
      have hk' := (mem_locPositions wls x k).mp hk
      exact (List.getElem?_inj (List.getElem?_eq_some_iff.mp hk').1 hn).mp (by rw [hk', h])
    have hmem := (mem_locPositions wls x i).mpr h
    match hl : locPositions wls x, hnd, hall, hmem with
    | [], _, _, hm => exact absurd hm (by simp)
    | [a], _, ha, _ => rw [ha a (by simp)]
    | a :: b :: l, hd, ha, _ =>
      have h1 := ha a (by simp)
      have h2 := ha b (by simp)
      rw [h1, h2] at hd
      simp at hd
  unfold absColumn
  rw [hp]

theorem absColumn_repeated {E : Type*} (wls : List ℝ) (res : ℕ → E) (i k : ℕ) (hik : i ≠ k) (x : ℝ) (hi : wls[i]? = some x) (hk : wls[k]? = some x) : absColumn wls res x = none := by
  have h1 := (mem_locPositions wls x i).mpr hi
  have h2 := (mem_locPositions wls x k).mpr hk
  unfold absColumn
  match hl : locPositions wls x, h1, h2 with
  | [], _, _ => rfl
  | [a], h1, h2 =>
    exfalso
    rw [List.mem_singleton] at h1 h2
    exact hik (h1.trans h2.symm)
  | _ :: _ :: _, _, _ => rfl

/-- **C171 (partial), transfer-matrix surfaces.** For different wavelengths in any order, the matrices are stored in this order and those of each wavelength are what was calculated for it.  Missing: a wavelength listed twice, `C171_repeated_fails`. -/
theorem C171_tmm_partial {E : Type*} (wls : List ℝ) (hn : wls.Nodup) (single : ℝ → E) (res : ℕ → E) (hres : ∀ i x, wls[i]? = some x → res i = single x) :
    absColumns wls res = some (wls.map single) := by
  have hcol : ∀ x ∈ wls, absColumn wls res x = some (single x) := by
    intro x hx
    obtain ⟨i, hi⟩ := List.mem_iff_getElem?.mp hx
    rw [absColumn_some wls hn res i x hi, hres i x hi]
  have key : ∀ l : List ℝ, (∀ x ∈ l, absColumn wls res x = some (single x)) → l.mapM (absColumn wls res) = some (l.map single) := by
    intro l hl
    induction l with
    | nil => rfl
    | cons a l ih =>
      rw [List.mapM_cons, hl a (by simp), ih (fun x hx => hl x (by simp [hx]))]
      rfl
  exact key wls hcol

/-- **C171 fails** for a wavelength which is listed twice, wherever it is: no matrices are made and an exception is raised. -/
theorem C171_repeated_fails {E : Type*} (wls : List ℝ) (hn : ¬ wls.Nodup) (res : ℕ → E) : absColumns wls res = none := by
  obtain ⟨i, k, hik, hk, he⟩ : ∃ i k, i < k ∧ ∃ hk : k < wls.length, wls[i]? = wls[k]? := by
    by_contra hcon
    push Not at hcon
    refine hn (List.nodup_iff_getElem?_ne_getElem?.mpr fun i j hij hj => hcon i j hij hj)
  have hk' : wls[k]? = some wls[k] := List.getElem?_eq_getElem hk
  have hcol : absColumn wls res wls[k] = none := absColumn_repeated wls res i k hik.ne _ (he.trans hk') hk'
  have key : ∀ l : List ℝ, wls[k] ∈ l → l.mapM (absColumn wls res) = none := by
    intro l hl
    induction l with
    | nil => simp at hl
    | cons a l ih =>
      rw [List.mapM_cons]
      rcases List.mem_cons.mp hl with h | h
      · rw [← h, hcol]; rfl
      · rw [ih h]
        cases absColumn wls res a <;> rfl
  exact key wls (List.getElem_mem hk)

/-- Three wavelengths that are neither increasing nor decreasing, and the same with one of them twice. -/
example (single : ℝ → ℝ) : absColumns [400, 900, 600] (fun i => single (([400, 900, 600] : List ℝ).getD i 0)) = some [single 400, single 900, single 600] ∧
    absColumns [400, 900, 400] (fun i => single (([400, 900, 400] : List ℝ).getD i 0)) = none := by
  refine ⟨?_, C171_repeated_fails _ (by norm_num) _⟩
  rw [C171_tmm_partial _ (by norm_num) single]
  · rfl
  · intro i x h
    rw [List.getD_eq_getElem?_getD, h]
    rfl

/-! ## Lookup tables of ray tracing with integrated thin films -/

theorem nearestIdx_reverse (l : List ℝ) (x : ℝ) (hl : StrictlyOrdered l) : nearestIdx l.reverse x = (nearestIdx l x).map fun i => l.length - 1 - i := by
  by_cases hnil : l = []
  · subst hnil; rfl
  by_cases h1 : l.length = 1
  · obtain ⟨a, rfl⟩ := List.length_eq_one_iff.mp h1
    simp [nearestIdx, argmin]
  have hlen : 2 ≤ l.length := by
    have := List.length_pos_iff.mpr hnil
    omega
  have hnotboth : ∀ m : List ℝ, 2 ≤ m.length → m.Pairwise (· < ·) → ¬ m.Pairwise (· > ·) := by
    intro m hm hi hd
    match m, hm with
    | a :: b :: m, _ =>
      have h1 := (List.pairwise_cons.mp hi).1 b (by simp)
      have h2 := (List.pairwise_cons.mp hd).1 b (by simp)
      exact absurd h1 (not_lt.mpr (le_of_lt h2))
  have hrn : l.reverse ≠ [] := by simpa using hnil
  unfold nearestIdx
  rw [if_neg hnil, if_neg hrn]
  rcases hl with hi | hd
  · have hrd : l.reverse.Pairwise (· > ·) := List.pairwise_reverse.mpr hi
    have hri : ¬ l.reverse.Pairwise (· < ·) := fun h => hnotboth _ (by simpa using hlen) h hrd
    have hb := (argmin_spec (l := l.reverse.map fun c => |c - x|) (by simpa using hnil)).1
    rw [if_pos hi, if_neg hri, if_pos hrd, Option.map_some]
    simp only [List.length_map, List.length_reverse] at hb
    congr 1
    omega
  · have hli : ¬ l.Pairwise (· < ·) := fun h => hnotboth _ hlen h hd
    have hri : l.reverse.Pairwise (· < ·) := List.pairwise_reverse.mpr hd
    rw [if_neg hli, if_pos hd, if_pos hri, Option.map_some, List.reverse_reverse, List.length_reverse]

/-- **C171 (partial), lookup tables.** A table made for the same wavelengths listed the other way round gives the same answer to every ray, whatever its wavelength and angle.  (The wavelengths are listed in increasing or decreasing order.  Missing:
any other order, `C171_tables_fails`.) -/
theorem C171_tables_partial {E : Type*} (tab tab' : LookTab E) (hs : StrictlyOrdered tab.wls) (hw : tab'.wls = tab.wls.reverse) (ha : tab'.angles = tab.angles)
    (he : ∀ side pol i k, i < tab.wls.length → tab'.entry side pol i k = tab.entry side pol (tab.wls.length - 1 - i) k) (side : ℤ) (pol : Bool) (wl θ : ℝ) :
    readTable tab' side pol wl θ = readTable tab side pol wl θ := by
  by_cases hnil : tab.wls = []
  · unfold readTable
    rw [hw, hnil]
    simp [nearestIdx]
  · obtain ⟨i, c, hi, hc, -⟩ := nearestIdx_spec tab.wls (wl * 10 ^ 9) hnil hs
    have hlt := (List.getElem?_eq_some_iff.mp hc).1
    unfold readTable
    rw [hw, ha, nearestIdx_reverse _ _ hs, hi]
    simp only [Option.map_some, Option.bind_some]
    refine congrArg (fun g => Option.map g (nearestIdx tab.angles |θ|)) ?_
    funext k
    rw [he side pol _ k (by omega)]
    congr 1
    omega

/-- **C171 fails** for tables made for wavelengths in any other order, or with one of them repeated: every ray that meets such a surface ends in an exception, also a ray of one of these wavelengths. -/
theorem C171_tables_fails {E : Type*} (tab : LookTab E) (hs : ¬ StrictlyOrdered tab.wls) (side : ℤ) (pol : Bool) (wl θ : ℝ) : readTable tab side pol wl θ = none := by
  unfold StrictlyOrdered at hs
  push Not at hs
  unfold readTable nearestIdx
  by_cases hnil : tab.wls = []
  · simp [hnil]
  · rw [if_neg hnil, if_neg hs.1, if_neg hs.2]
    rfl

/-- Such a list, and one for which tables work in both directions. -/
example : ¬ StrictlyOrdered [400, 900, 600] ∧ ¬ StrictlyOrdered [400, 400, 600] ∧ StrictlyOrdered [400, 600, 900] ∧ StrictlyOrdered [900, 600, 400] := by
  unfold StrictlyOrdered
  norm_num

/-- Two tabulated wavelengths at the same distance: the larger one is used, in both directions. -/
example : nearestIdx [400, 600] 500 = some 1 ∧ nearestIdx [600, 400] 500 = some 0 := by
  have h : StrictlyOrdered [400, 600] := Or.inl (by norm_num)
  have h1 : nearestIdx [400, 600] 500 = some 1 := by
    unfold nearestIdx
    rw [if_neg (by simp), if_pos (by norm_num)]
    norm_num [argmin, List.findIdx_cons]
  refine ⟨h1, ?_⟩
  have := nearestIdx_reverse [400, 600] 500 h
  rw [h1] at this
  simpa using this

/-! ## The matrix method -/

section matrix
variable {ω ω' ι κ₀ κ₁ : Type*} [Fintype ι] [DecidableEq ι]

/-- Two states of the loop which agree up to the list of wavelengths. -/
structure Agree (t : LoopState ω ι κ₀ κ₁) (t' : LoopState ω' ι κ₀ κ₁) (σ : ω' → ω) : Prop where
  vf1 : ∀ w', t'.vf1 w' = t.vf1 (σ w')
  passes : t'.Aprof.length = t.Aprof.length
  results : SameResults t t' σ

theorem agree_init {S : Sys ω ι κ₀ κ₁} {S' : Sys ω' ι κ₀ κ₁} {σ : ω' → ω} (h : Relisted S S' σ) : Agree S.init S'.init σ := by
  have hs := h.surfaces
  refine ⟨fun w' => ?_, rfl, ⟨fun w' => ?_, fun w' => ?_, fun w' => ?_, fun w' => ?_, fun w' => ?_, fun w' => ?_⟩⟩ <;>
    simp [Sys.init, dotWl, (hs w').f0, (hs w').v0]

theorem relisted_D {S : Sys ω ι κ₀ κ₁} {S' : Sys ω' ι κ₀ κ₁} {σ : ω' → ω} (h : Relisted S S' σ) (w' : ω') : S'.D w' = S.D (σ w') := by
  unfold Sys.D
  rw [h.α, h.thick, (h.surfaces w').θ]

theorem agree_step {S : Sys ω ι κ₀ κ₁} {S' : Sys ω' ι κ₀ κ₁} {σ : ω' → ω} (h : Relisted S S' σ) {t : LoopState ω ι κ₀ κ₁} {t' : LoopState ω' ι κ₀ κ₁} (ha : Agree t t' σ) : Agree (S.step t) (S'.step t') σ := by
  have hs := h.surfaces
  have hD := relisted_D h
  obtain ⟨a1, a2, ⟨b1, b2, b3, b4, b5, b6⟩⟩ := ha
  refine ⟨fun w' => ?_, a2, ⟨fun w' => ?_, fun w' => ?_, fun w' => ?_, fun w' => ?_, fun w' => ?_, fun w' => ?_⟩⟩ <;>
    simp [Sys.step, Sys.appendPerPassInfo, dotWl, dotWlU2d, power, (hs w').f1, (hs w').r0, (hs w').u2d, (hs w').d2u, hD w', a1 w', b1 w', b2 w', b3 w', b4 w', b5 w', b6 w']

theorem agree_stepProf {S : Sys ω ι κ₀ κ₁} {S' : Sys ω' ι κ₀ κ₁} {σ : ω' → ω} (h : Relisted S S' σ) {o : ProfOpts ω ι} {o' : ProfOpts ω' ι} (hb : o'.bulkProfile = o.bulkProfile) (hd : o'.depths = o.depths)
    (hj : ∀ k w', o'.junk k w' = o.junk k (σ w')) (hj' : ∀ k w', o'.junk' k w' = o.junk' k (σ w')) {t : LoopState ω ι κ₀ κ₁} {t' : LoopState ω' ι κ₀ κ₁} (ha : Agree t t' σ) :
    Agree (S.stepProf o t) (S'.stepProf o' t') σ := by
  have hs := h.surfaces
  have hD := relisted_D h
  obtain ⟨a1, a2, ⟨b1, b2, b3, b4, b5, b6⟩⟩ := ha
  refine ⟨fun w' => ?_, ?_, ⟨fun w' => ?_, fun w' => ?_, fun w' => ?_, fun w' => ?_, fun w' => ?_, fun w' => ?_⟩⟩
  case refine_2 => simp only [Sys.stepProf, Sys.appendPerPassInfo, List.length_append, a2, hb]; cases o.bulkProfile <;> rfl
  case refine_8 =>
    simp only [Sys.stepProf, Sys.appendPerPassInfo, dotWl, dotWlU2d, power, hb, a2, List.map_append, b6 w']
    cases o.bulkProfile <;> simp [(hs w').f1, (hs w').d2u, (hs w').θ, h.thick, h.α, hD w', a1 w', hd, hj, hj']
  all_goals
    simp [Sys.stepProf, Sys.appendPerPassInfo, dotWl, dotWlU2d, power, (hs w').f1, (hs w').r0, (hs w').u2d, (hs w').d2u, hD w', a1 w', b1 w', b2 w', b3 w', b4 w', b5 w']

theorem agree_done {S : Sys ω ι κ₀ κ₁} {S' : Sys ω' ι κ₀ κ₁} {σ : ω' → ω} (h : Relisted S S' σ) {t : LoopState ω ι κ₀ κ₁} {t' : LoopState ω' ι κ₀ κ₁} (ha : Agree t t' σ) : S'.Done t' ↔ S.Done t := by
  unfold Sys.Done power
  rw [h.thresh]
  constructor
  · intro hd w
    obtain ⟨w', rfl⟩ := h.covers w
    have := hd w'
    rwa [ha.vf1 w'] at this
  · intro hd w'
    rw [ha.vf1 w']
    exact hd (σ w')

theorem agree_exits {S : Sys ω ι κ₀ κ₁} {S' : Sys ω' ι κ₀ κ₁} {σ : ω' → ω} (h : Relisted S S' σ) {f : LoopState ω ι κ₀ κ₁ → LoopState ω ι κ₀ κ₁} {f' : LoopState ω' ι κ₀ κ₁ → LoopState ω' ι κ₀ κ₁}
    (hstep : ∀ t t', Agree t t' σ → Agree (f t) (f' t') σ) {k : ℕ} {t : LoopState ω ι κ₀ κ₁} (ht : LoopExits S.Done f S.init k t) :
    ∃ t', LoopExits S'.Done f' S'.init k t' ∧ SameResults t t' σ := by
  have key : ∀ n, Agree (f^[n] S.init) (f'^[n] S'.init) σ := by
    intro n
    induction n with
    | zero => exact agree_init h
    | succ n ih => rw [Function.iterate_succ_apply', Function.iterate_succ_apply']; exact hstep _ _ ih
  obtain ⟨rfl, hd, hnd⟩ := ht
  exact ⟨_, ⟨rfl, (agree_done h (key k)).mpr hd, fun i hi hcon => hnd i hi ((agree_done h (key i)).mp hcon)⟩, (key k).results⟩

/-- **C171, matrix method.** The same calculation with its wavelengths in another order, or with some of them listed more than once, ends after the same number of passes, and what it returns for a wavelength – pass by pass, direction by direction and
layer by layer – is exactly what the first calculation returns for it. -/
theorem C171_matrix_method (S : Sys ω ι κ₀ κ₁) (S' : Sys ω' ι κ₀ κ₁) (σ : ω' → ω) (h : Relisted S S' σ) (k : ℕ) (t : LoopState ω ι κ₀ κ₁) (ht : S.Exits k t) : ∃ t', S'.Exits k t' ∧ SameResults t t' σ :=
  agree_exits h (fun _ _ => agree_step h) ht

/-- **C171, matrix method with profiles.** So is the absorption profile of the bulk, if the contents of uninitialised memory are the same. -/
theorem C171_matrix_method_profiles (S : Sys ω ι κ₀ κ₁) (S' : Sys ω' ι κ₀ κ₁) (σ : ω' → ω) (h : Relisted S S' σ) (o : ProfOpts ω ι) (o' : ProfOpts ω' ι) (hb : o'.bulkProfile = o.bulkProfile)
    (hd : o'.depths = o.depths) (hj : ∀ k w', o'.junk k w' = o.junk k (σ w')) (hj' : ∀ k w', o'.junk' k w' = o.junk' k (σ w')) (k : ℕ) (t : LoopState ω ι κ₀ κ₁) (ht : S.ExitsProf o k t) :
    ∃ t', S'.ExitsProf o' k t' ∧ SameResults t t' σ :=
  agree_exits h (fun _ _ => agree_stepProf h hb hd hj hj') ht

/-- The number of passes and the final state are determined, so "the" result of the second calculation is meant. -/
theorem C171_unique (S : Sys ω ι κ₀ κ₁) (k k' : ℕ) (t t' : LoopState ω ι κ₀ κ₁) (ht : S.Exits k t) (ht' : S.Exits k' t') : k = k' ∧ t = t' := by
  obtain ⟨rfl, hd, hn⟩ := ht
  obtain ⟨rfl, hd', hn'⟩ := ht'
  obtain rfl : k = k' := by
    rcases lt_trichotomy k k' with h | h | h
    · exact absurd hd (hn' k h)
    · exact h
    · exact absurd hd' (hn k' h)
  exact ⟨rfl, rfl⟩

end matrix

/-- Two wavelengths exchanged, and the first of them repeated. -/
example (r : Fin 2 → ℝ) (ε : ℝ) : Relisted (cavity (Fin 2) r ε) (cavity (Fin 3) (r ∘ ![1, 0, 1]) ε) ![1, 0, 1] := by
  refine ⟨fun w => ?_, fun w' => ⟨rfl, rfl, rfl, rfl, rfl, rfl, rfl⟩, fun _ => rfl, rfl, rfl⟩
  fin_cases w
  · exact ⟨1, rfl⟩
  · exact ⟨0, rfl⟩

/-- Such calculations end: with `I_thresh` one half, after one pass. -/
example : ∃ t, (cavity (Fin 2) (fun _ => 1 / 2) (1 / 2)).Exits 1 t := by
  refine ⟨_, rfl, ?_, ?_⟩
  · intro w
    simp only [power, cavity_vf1]
    norm_num [cavity]
  · intro i hi hd
    obtain rfl : i = 0 := by omega
    have := hd 0
    simp only [power, cavity_vf1] at this
    norm_num [cavity] at this

end Rayflare
