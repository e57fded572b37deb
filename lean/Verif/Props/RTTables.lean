import Verif.Model.RTTables
import Mathlib.Data.Nat.Digits.Lemmas
import Mathlib.Tactic.IntervalCases

/-!
# Property C111: the lookup tables of a ray-traced structure
-/

namespace Rayflare

open Rayflare.Model

/-! ## File names -/

theorem digitChar_ne (d : ℕ) (h : d < 10) : Nat.digitChar d ≠ '_' := by
  interval_cases d <;> decide

theorem digitChar_inj (a b : ℕ) (ha : a < 10) (hb : b < 10) (h : Nat.digitChar a = Nat.digitChar b) : a = b := by
  interval_cases a <;> interval_cases b <;> first | rfl | (exact absurd h (by decide))

theorem decimal_no_underscore (i : ℕ) : '_' ∉ decimal i := by
  unfold decimal
  split
  · decide
  · intro h
    obtain ⟨d, hd, he⟩ := List.mem_map.mp h
    exact digitChar_ne d (Nat.digits_lt_base (by norm_num) (List.mem_reverse.mp hd)) he

theorem map_digitChar_inj : ∀ (a b : List ℕ), (∀ d ∈ a, d < 10) → (∀ d ∈ b, d < 10) → a.map Nat.digitChar = b.map Nat.digitChar → a = b := by
  intro a
  induction a with
  | nil => intro b _ _ h; cases b <;> simp_all
  | cons x a ih =>
    intro b ha hb h
    cases b with
    | nil => simp at h
    | cons y b =>
      rw [List.map_cons, List.map_cons, List.cons.injEq] at h
      rw [digitChar_inj x y (ha x (by simp)) (hb y (by simp)) h.1, ih b (fun d hd => ha d (by simp [hd])) (fun d hd => hb d (by simp [hd])) h.2]

theorem decimal_inj {i j : ℕ} (h : decimal i = decimal j) : i = j := by
  unfold decimal at h
  have hz : ∀ k : ℕ, k ≠ 0 → (['0'] : List Char) ≠ (Nat.digits 10 k).reverse.map Nat.digitChar := by
    intro k hk h
    have h0 : (['0'] : List Char) = [0].map Nat.digitChar := rfl
    rw [h0] at h
    have := map_digitChar_inj _ _ (by simp) (fun d hd => Nat.digits_lt_base (by norm_num) (List.mem_reverse.mp hd)) h
    have h1 : Nat.digits 10 k = [0] := by rw [← List.reverse_reverse (Nat.digits 10 k), ← this]; rfl
    have := Nat.ofDigits_digits 10 k
    rw [h1] at this
    simp at this
    exact hk this.symm
  by_cases hi : i = 0 <;> by_cases hj : j = 0
  · rw [hi, hj]
  · rw [if_pos hi, if_neg hj] at h; exact absurd h (hz j hj)
  · rw [if_neg hi, if_pos hj] at h; exact absurd h.symm (hz i hi)
  · rw [if_neg hi, if_neg hj] at h
    have := map_digitChar_inj _ _ (fun d hd => Nat.digits_lt_base (by norm_num) (List.mem_reverse.mp hd)) (fun d hd => Nat.digits_lt_base (by norm_num) (List.mem_reverse.mp hd)) h
    exact Nat.digits_inj_iff.mp (List.reverse_injective this)

theorem split_last_underscore : ∀ (a b c d : List Char), '_' ∉ b → '_' ∉ d → a ++ '_' :: b = c ++ '_' :: d → a = c ∧ b = d := by
  intro a
  induction a with
  | nil =>
    intro b c d hb hd h
    cases c with
    | nil => simpa using h
    | cons x c =>
      rw [List.nil_append, List.cons_append, List.cons.injEq] at h
      exact absurd (by rw [h.2]; simp) hb
  | cons x a ih =>
    intro b c d hb hd h
    cases c with
    | nil =>
      rw [List.nil_append, List.cons_append, List.cons.injEq] at h
      exact absurd (by rw [← h.2]; simp) hd
    | cons y c =>
      rw [List.cons_append, List.cons_append, List.cons.injEq] at h
      obtain ⟨h1, h2⟩ := ih b c d hb hd h.2
      exact ⟨by rw [h.1, h1], h2⟩

/-- **C111.** Two interfaces, of the same or of different structures, share a table only if both their names and their positions agree. -/
theorem C111_names (a b : List Char) (i j : ℕ) (h : tableName a i = tableName b j) : a = b ∧ i = j := by
  unfold tableName at h
  have e : ∀ (s : List Char) (k : ℕ), s ++ ['i', 'n', 't', '_'] ++ decimal k = (s ++ ['i', 'n', 't']) ++ '_' :: decimal k := by
    intro s k; simp
  rw [e, e] at h
  obtain ⟨h1, h2⟩ := split_last_underscore _ _ _ _ (decimal_no_underscore i) (decimal_no_underscore j) h
  exact ⟨List.append_cancel_right h1, decimal_inj h2⟩

/-! ## The tables belong to their interfaces -/

section
variable {M L Tab : Type*}

/-- What the table of interface `i` has to be calculated for: the layers of its texture, between the medium above and the medium below; coherent unless the texture has a coherency list. -/
def Spec.tableFor (texs : List (Tex L)) (media : List M) (i : ℕ) : Option (TabJob M L) :=
  texs[i]?.bind fun t => t.layers.bind fun ls => media[i]?.bind fun a => media[i + 1]?.map fun b =>
    { layers := ls, inc := a, trn := b, coherent := t.coh.isNone, coh := t.coh, name := tableName t.name i, prof := t.prof }

theorem jobStep_eq (texs : List (Tex L)) (mats : List M) (inc trn : M) (hlen : texs.length = mats.length + 1) (acc : List (TabJob M L)) (t : Tex L) (i : ℕ) (ht : texs[i]? = some t) :
    jobStep texs.length mats inc trn acc (t, i) = some (acc ++ (Spec.tableFor texs (inc :: mats ++ [trn]) i).toList) := by
  have hi : i < texs.length := (List.getElem?_eq_some_iff.mp ht).1
  unfold jobStep Spec.tableFor
  rw [ht]
  simp only [Option.bind_some]
  cases hl : t.layers with
  | none => simp
  | some ls =>
    simp only [Option.bind_some]
    have e1 : (if i > 0 then mats[i - 1]? else some inc) = (inc :: mats ++ [trn])[i]? := by
      rcases Nat.eq_zero_or_pos i with rfl | hp
      · simp
      · obtain ⟨k, rfl⟩ : ∃ k, i = k + 1 := ⟨i - 1, by omega⟩
        rw [if_pos hp, List.cons_append, List.getElem?_cons_succ, List.getElem?_append_left (by omega), Nat.add_sub_cancel]
    have e2 : (if i < texs.length - 1 then mats[i]? else some trn) = (inc :: mats ++ [trn])[i + 1]? := by
      rw [List.cons_append, List.getElem?_cons_succ]
      by_cases hlt : i < texs.length - 1
      · rw [if_pos hlt, List.getElem?_append_left (by omega)]
      · rw [if_neg hlt, List.getElem?_append_right (by omega), show i - mats.length = 0 by omega]; rfl
    rw [e1, e2]
    obtain ⟨a, ha⟩ : ∃ a, (inc :: mats ++ [trn])[i]? = some a := ⟨_, List.getElem?_eq_getElem (by simp; omega)⟩
    obtain ⟨b, hb⟩ : ∃ b, (inc :: mats ++ [trn])[i + 1]? = some b := ⟨_, List.getElem?_eq_getElem (by simp; omega)⟩
    rw [ha, hb]
    rfl

theorem zipIdx_mem {α : Type*} (l : List α) (p : α × ℕ) (h : p ∈ l.zipIdx) : l[p.2]? = some p.1 := by
  obtain ⟨a, i⟩ := p
  rw [List.mk_mem_zipIdx_iff_getElem?] at h
  exact h

theorem tableJobs_eq (texs : List (Tex L)) (mats : List M) (inc trn : M) (hlen : texs.length = mats.length + 1) :
    tableJobs texs mats inc trn = some (texs.zipIdx.flatMap fun p => (Spec.tableFor texs (inc :: mats ++ [trn]) p.2).toList) := by
  unfold tableJobs
  have : ∀ (l : List (Tex L × ℕ)) (acc : List (TabJob M L)), (∀ p ∈ l, texs[p.2]? = some p.1) →
      l.foldlM (jobStep texs.length mats inc trn) acc = some (acc ++ l.flatMap fun p => (Spec.tableFor texs (inc :: mats ++ [trn]) p.2).toList) := by
    intro l
    induction l with
    | nil => intro acc _; simp
    | cons p l ih =>
      intro acc hp
      rw [List.foldlM_cons, show p = (p.1, p.2) from rfl, jobStep_eq texs mats inc trn hlen acc p.1 p.2 (hp p (by simp))]
      simp only [Option.bind_eq_bind, Option.bind_some]
      rw [ih _ fun q hq => hp q (by simp [hq])]
      simp
  rw [this _ _ fun p hp => zipIdx_mem texs p hp]
  simp

/-- Files after a series of calls: the first call with this name counts if there was no file and calls do not overwrite; names all different, so it is the only one. -/
theorem foldl_makeTable (solve : TabJob M L → Tab) (ow : Bool) : ∀ (js : List (TabJob M L)) (fs : List Char → Option Tab), js.Pairwise (fun a b => a.name ≠ b.name) →
    (∀ nm, (∀ j ∈ js, j.name ≠ nm) → js.foldl (makeTable solve ow) fs nm = fs nm) ∧
    (∀ j ∈ js, (ow = true ∨ fs j.name = none) → js.foldl (makeTable solve ow) fs j.name = some (solve j)) := by
  intro js
  induction js with
  | nil => intro fs _; simp
  | cons j js ih =>
    intro fs hp
    rw [List.pairwise_cons] at hp
    obtain ⟨h1, h2⟩ := ih (makeTable solve ow fs j) hp.2
    have hoff : ∀ nm, j.name ≠ nm → makeTable solve ow fs j nm = fs nm := by
      intro nm hne
      unfold makeTable
      split
      · rfl
      · rw [Function.update_of_ne (Ne.symm hne)]
    have hon : (ow = true ∨ fs j.name = none) → makeTable solve ow fs j j.name = some (solve j) := by
      intro h
      unfold makeTable
      rw [if_neg (by rcases h with h | h <;> simp [h])]
      simp
    constructor
    · intro nm hnm
      rw [List.foldl_cons, h1 nm fun k hk => hnm k (by simp [hk]), hoff nm (hnm j (by simp))]
    · intro k hk hor
      rw [List.foldl_cons]
      rcases List.mem_cons.mp hk with rfl | hk
      · rw [h1 _ fun q hq => (hp.1 q hq).symm, hon hor]
      · apply h2 k hk
        rcases hor with h | h
        · exact Or.inl h
        · exact Or.inr (by rw [hoff _ (hp.1 k hk)]; exact h)

theorem tableFor_name (texs : List (Tex L)) (media : List M) (i : ℕ) (j : TabJob M L) (h : Spec.tableFor texs media i = some j) :
    ∃ t, texs[i]? = some t ∧ j.name = tableName t.name i := by
  unfold Spec.tableFor at h
  cases ht : texs[i]? with
  | none => simp [ht] at h
  | some t =>
    refine ⟨t, rfl, ?_⟩
    rw [ht] at h
    simp only [Option.bind_some, Option.bind_eq_some_iff, Option.map_eq_some_iff] at h
    obtain ⟨ls, _, a, _, b, _, rfl⟩ := h
    rfl

/-- **C111 (partial).** A structure with one texture more than layers can be built, and then the tracer finds for every texture with layers the table calculated for exactly these layers between the media above and below it,
and for textures without layers no table - provided `overwrite=True` or the folder has no table of that name yet. The lists of flags, of numbers of layers and of profile layers are in the order of the interfaces.
Missing: an old table of the same name is used without any check if `overwrite=False` (`C111_stale_fails`). -/
theorem C111_tables_partial (solve : TabJob M L → Tab) (ow : Bool) (fs : List Char → Option Tab) (texs : List (Tex L)) (mats : List M) (inc trn : M)
    (hlen : texs.length = mats.length + 1) :
    ∃ fs', buildTables solve ow fs texs mats inc trn = some fs' ∧
      ∀ i t, texs[i]? = some t →
        (∀ ls, t.layers = some ls → (ow = true ∨ fs (tableName t.name i) = none) →
          ∃ a b, (inc :: mats ++ [trn])[i]? = some a ∧ (inc :: mats ++ [trn])[i + 1]? = some b ∧
            openTable fs' (tmmFlags texs) (texs.map Tex.name) i =
              some (some (solve { layers := ls, inc := a, trn := b, coherent := t.coh.isNone, coh := t.coh, name := tableName t.name i, prof := t.prof })) ∧
            (nLayersList texs)[i]? = some ls.length ∧ (profLayersList texs)[i]? = some t.prof) ∧
        (t.layers = none → openTable fs' (tmmFlags texs) (texs.map Tex.name) i = some none ∧ (nLayersList texs)[i]? = some 0 ∧ (profLayersList texs)[i]? = some none) := by
  unfold buildTables
  rw [tableJobs_eq texs mats inc trn hlen]
  refine ⟨_, rfl, ?_⟩
  intro i t ht
  have hi : i < texs.length := (List.getElem?_eq_some_iff.mp ht).1
  set js := texs.zipIdx.flatMap fun p => (Spec.tableFor texs (inc :: mats ++ [trn]) p.2).toList with hjs
  have hpw : js.Pairwise (fun a b => a.name ≠ b.name) := by
    rw [hjs, List.pairwise_flatMap]
    constructor
    · intro p _
      cases Spec.tableFor texs (inc :: mats ++ [trn]) p.2 <;> simp
    · have : texs.zipIdx.Pairwise fun p q => p.2 ≠ q.2 := by
        have h := List.nodup_range' (s := 0) (n := texs.length)
        rw [← List.zipIdx_map_snd] at h
        exact List.pairwise_map.mp h
      apply this.imp
      intro p q hpq x hx y hy hxy
      rw [Option.mem_toList] at hx hy
      obtain ⟨t1, _, e1⟩ := tableFor_name _ _ _ _ hx
      obtain ⟨t2, _, e2⟩ := tableFor_name _ _ _ _ hy
      rw [e1, e2] at hxy
      exact hpq (C111_names _ _ _ _ hxy).2
  obtain ⟨-, hmake⟩ := foldl_makeTable solve ow js fs hpw
  constructor
  · intro ls hl hor
    obtain ⟨a, ha⟩ : ∃ a, (inc :: mats ++ [trn])[i]? = some a := ⟨_, List.getElem?_eq_getElem (by simp; omega)⟩
    obtain ⟨b, hb⟩ : ∃ b, (inc :: mats ++ [trn])[i + 1]? = some b := ⟨_, List.getElem?_eq_getElem (by simp; omega)⟩
    refine ⟨a, b, ha, hb, ?_, ?_, ?_⟩
    · set j : TabJob M L := { layers := ls, inc := a, trn := b, coherent := t.coh.isNone, coh := t.coh, name := tableName t.name i, prof := t.prof } with hj
      have hmem : j ∈ js := by
        rw [hjs, List.mem_flatMap]
        refine ⟨(t, i), List.mk_mem_zipIdx_iff_getElem?.mpr ht, ?_⟩
        rw [Option.mem_toList]
        unfold Spec.tableFor
        rw [ht]
        simp only [Option.bind_some, hl, ha, hb]
        rfl
      have hm : js.foldl (makeTable solve ow) fs (tableName t.name i) = some (solve j) := hmake j hmem hor
      unfold openTable tmmFlags
      rw [List.getElem?_map, ht]
      simp only [Option.map_some, Option.bind_some, hl, Option.isSome_some, if_true]
      rw [List.getElem?_map, ht]
      simp only [Option.map_some, Option.bind_some]
      rw [hm]
      rfl
    · unfold nLayersList; rw [List.getElem?_map, ht, Option.map_some, hl]
    · unfold profLayersList; rw [List.getElem?_map, ht, Option.map_some, hl]
  · intro hl
    refine ⟨?_, ?_, ?_⟩
    · unfold openTable tmmFlags
      rw [List.getElem?_map, ht]
      simp [hl]
    · unfold nLayersList; rw [List.getElem?_map, ht, Option.map_some, hl]
    · unfold profLayersList; rw [List.getElem?_map, ht, Option.map_some, hl]

end

/-- Three textures, the second without layers, materials and layers are numbers, a table is the pair of media it was calculated for. -/
example : ∃ fs', buildTables (fun j : TabJob ℕ ℕ => (j.inc, j.trn)) false (fun _ => none) [⟨['a'], some [7], none, none⟩, ⟨['b'], none, none, none⟩, ⟨['a'], some [8, 9], some [true, false], none⟩] [1, 2] 0 3 = some fs' ∧
    openTable fs' [true, false, true] [['a'], ['b'], ['a']] 2 = some (some (2, 3)) := by
  obtain ⟨fs', h, hh⟩ := C111_tables_partial (fun j : TabJob ℕ ℕ => (j.inc, j.trn)) false (fun _ => none) [⟨['a'], some [7], none, none⟩, ⟨['b'], none, none, none⟩, ⟨['a'], some [8, 9], some [true, false], none⟩] [1, 2] 0 3 rfl
  refine ⟨fs', h, ?_⟩
  obtain ⟨a, b, ha, hb, ho, -⟩ := (hh 2 _ rfl).1 [8, 9] rfl (Or.inr rfl)
  have ha : a = 2 := by simpa using ha.symm
  have hb : b = 3 := by simpa using hb.symm
  subst ha; subst hb
  exact ho

/-- **C111 fails** for `overwrite=False` (the default) when a structure with the same texture names was built before in the same project: here the first structure has glass (1) below the interface, the second silicon (2), and the
tracer of the second uses the table of the first. -/
theorem C111_stale_fails :
    ∃ fs1 fs2, buildTables (fun j : TabJob ℕ ℕ => (j.inc, j.trn)) false (fun _ => none) [⟨[], some [7], none, none⟩] [] 0 1 = some fs1 ∧
      buildTables (fun j : TabJob ℕ ℕ => (j.inc, j.trn)) false fs1 [⟨[], some [7], none, none⟩] [] 0 2 = some fs2 ∧
      openTable fs2 (tmmFlags [(⟨[], some [7], none, none⟩ : Tex ℕ)]) [[]] 0 = some (some (0, 1)) := by
  refine ⟨_, _, rfl, rfl, ?_⟩
  simp [openTable, tmmFlags, makeTable, tableName, decimal]

end Rayflare
