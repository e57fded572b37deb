import Verif.Model.Interface
import Mathlib.Tactic.Linarith

/-!
# Properties C68 and C100: construction of interfaces and their surroundings
-/

namespace Rayflare

open Rayflare.Model

/-! ## C68 -/

theorem addLayer_foldl {M D : Type} (ls : List (LayerArg M D)) (st : List ℝ × List (M ⊕ List D)) :
    (ls.foldl addLayer st).1 = st.1 ++ ls.map (fun l => match l with | .layer w _ => w | .raw w _ => w * (1 / 10 ^ 9)) ∧
    (ls.foldl addLayer st).2 = st.2 ++ ls.map (fun l => match l with | .layer _ m => .inl m | .raw _ d => .inr (d.take 2)) := by
  induction ls generalizing st with
  | nil => simp
  | cons l ls ih =>
    rw [List.foldl_cons]
    obtain ⟨h1, h2⟩ := ih (addLayer st l)
    rw [h1, h2]
    cases l <;> simp [addLayer]

/-- **C68.** An `Interface` can be made exactly with the six recognised methods; then `widths` and `materials` have one entry per layer, in the order of the layers: the width in metres (raw widths are given in nm), and the
material (or the first two data of a raw layer). -/
theorem C68_interface {M D : Type} (method : String) (layers : Option (List (LayerArg M D))) (prof : Option (List ℕ)) :
    ((mkInterface method layers prof).isSome ↔ method ∈ ["RT_Fresnel", "RT_TMM", "RCWA", "TMM", "Mirror", "Lambertian"]) ∧
    ∀ o, mkInterface method layers prof = some o → o.layers = layers ∧ o.prof = prof ∧
      o.widths.length = (layers.getD []).length ∧ o.materials.length = (layers.getD []).length ∧
      (∀ (k : ℕ) (w : ℝ) (m : M), (layers.getD [])[k]? = some (.layer w m) → o.widths[k]? = some w ∧ o.materials[k]? = some (.inl m)) ∧
      (∀ (k : ℕ) (w : ℝ) (d : List D), (layers.getD [])[k]? = some (.raw w d) → o.widths[k]? = some (w / 10 ^ 9) ∧ o.materials[k]? = some (.inr (d.take 2))) := by
  constructor
  · unfold mkInterface methodOf
    rw [Option.isSome_map]
    simp only [List.mem_cons, List.not_mem_nil, or_false]
    split_ifs <;> simp_all
  · intro o ho
    unfold mkInterface at ho
    rw [Option.map_eq_some_iff] at ho
    obtain ⟨m, -, rfl⟩ := ho
    obtain ⟨h1, h2⟩ := addLayer_foldl (layers.getD []) ([], [])
    simp only [List.nil_append] at h1 h2
    refine ⟨rfl, rfl, by simp [h1], by simp [h2], ?_, ?_⟩
    · intro k w m hk
      simp [h1, h2, List.getElem?_map, hk]
    · intro k w d hk
      simp only [h1, h2, List.getElem?_map, hk, Option.map_some]
      exact ⟨by rw [mul_one_div], by trivial⟩

/-- The method string is stored as the method of that name. -/
theorem C68_method {M D : Type} (layers : Option (List (LayerArg M D))) (prof : Option (List ℕ)) :
    (mkInterface "TMM" layers prof).map IfaceObj.method = some .TMM ∧ (mkInterface "RT_TMM" layers prof).map IfaceObj.method = some .RT_TMM ∧
    (mkInterface "RT_Fresnel" layers prof).map IfaceObj.method = some .RT_Fresnel ∧ (mkInterface "RCWA" layers prof).map IfaceObj.method = some .RCWA ∧
    (mkInterface "Mirror" layers prof).map IfaceObj.method = some .Mirror ∧ (mkInterface "Lambertian" layers prof).map IfaceObj.method = some .Lambertian := by
  unfold mkInterface methodOf
  simp

/-- A stack with one layer of each kind. -/
example : ∃ o, mkInterface (M := String) (D := ℕ) "TMM" (some [.layer 2 "Si", .raw 50 [7, 8, 9]]) (some [1]) = some o ∧ o.widths = [2, 50 * (1 / 10 ^ 9)] ∧ o.materials = [.inl "Si", .inr [7, 8]] := by
  refine ⟨_, rfl, ?_, ?_⟩ <;> simp [addLayer]

/-! ## C100 -/

/-- A structure as the documentation describes it: interfaces with a bulk layer between neighbours. -/
def alternating {I M : Type} (first : I) : List ((ℝ × M) × I) → List (Elem I M)
  | [] => [.iface first]
  | (b, j) :: rest => .iface first :: .bulk b.1 b.2 :: alternating j rest

/-- What should be calculated: each interface between the medium above it and the medium below it, the last one for light from the front only, the others for light from both sides. Only the first interface, lit from the
front, may be restricted to the angle of incidence. -/
def expectedJobs {I M : Type} (above : M) (isFirst : Bool) (i : I) (trans : M) (onlyInc : Bool) : List ((ℝ × M) × I) → List (Job I M)
  | [] => [⟨i, above, trans, [(.front, isFirst && onlyInc)]⟩]
  | (b, j) :: rest => ⟨i, above, b.2, [(.front, isFirst && onlyInc), (.rear, false)]⟩ :: expectedJobs b.2 false j trans onlyInc rest

theorem mapM_append_some {α β : Type} (f : α → Option β) (l : List α) (m : List β) (h : l.mapM f = some m) (l' : List α) (m' : List β) (h' : l'.mapM f = some m') :
    (l ++ l').mapM f = some (m ++ m') := by
  rw [List.mapM_append, h, h']; rfl

theorem alternating_ne_nil {I M : Type} (i : I) (l : List ((ℝ × M) × I)) : ∃ t, alternating i l = .iface i :: t := by
  cases l with
  | nil => exact ⟨_, rfl⟩
  | cons p l => exact ⟨_, rfl⟩

theorem jobs_aux {I M : Type} (inc trans : M) (onlyInc : Bool) (rest : List ((ℝ × M) × I)) : ∀ (pre : List (Elem I M)) (above : M) (i : I),
    incidenceAt inc (pre ++ alternating i rest) pre.length = some above →
    ∃ m, (((alternating i rest).zipIdx pre.length).mapM fun e => jobAt inc trans onlyInc (pre ++ alternating i rest) e.2 e.1) = some m ∧
      m.flatten = expectedJobs above (decide (pre.length = 0)) i trans onlyInc rest := by
  induction rest with
  | nil =>
    intro pre above i hinc
    refine ⟨[[⟨i, above, trans, [(.front, decide (pre.length = 0) && onlyInc)]⟩]], ?_, rfl⟩
    simp only [alternating] at hinc
    simp only [alternating, List.zipIdx_cons, List.zipIdx_nil, List.mapM_cons, List.mapM_nil, jobAt, hinc, substrateAt, whichSides, List.length_append, List.length_cons, List.length_nil, Nat.zero_add, Nat.add_sub_cancel, if_true, Option.bind_some]
    simp
  | cons p rest ih =>
    intro pre above i hinc
    obtain ⟨b, j⟩ := p
    have hsplit : pre ++ alternating i ((b, j) :: rest) = (pre ++ [.iface i, .bulk b.1 b.2]) ++ alternating j rest := by simp [alternating]
    have hlen : (pre ++ [Elem.iface i, .bulk b.1 b.2]).length = pre.length + 2 := by simp
    obtain ⟨m, hm, hflat⟩ := ih (pre ++ [.iface i, .bulk b.1 b.2]) b.2 j (by
      unfold incidenceAt
      rw [hlen, if_neg (by omega), show pre.length + 2 - 1 = pre.length + 1 by omega, List.append_assoc, List.getElem?_append_right (by omega)]
      simp [Elem.material])
    rw [← hsplit, hlen] at hm
    obtain ⟨t, ht⟩ := alternating_ne_nil j rest
    have hnl : ¬ pre.length = (pre ++ alternating i ((b, j) :: rest)).length - 1 := by
      simp [alternating, ht]
    have hsub : substrateAt trans (pre ++ alternating i ((b, j) :: rest)) pre.length = some b.2 := by
      unfold substrateAt
      rw [if_neg hnl, List.getElem?_append_right (by omega)]
      simp [alternating, Elem.material]
    refine ⟨[⟨i, above, b.2, [(.front, decide (pre.length = 0) && onlyInc), (.rear, false)]⟩] :: [] :: m, ?_, ?_⟩
    · have hz : (alternating i ((b, j) :: rest)).zipIdx pre.length = (.iface i, pre.length) :: (.bulk b.1 b.2, pre.length + 1) :: (alternating j rest).zipIdx (pre.length + 2) := by
        simp [alternating, List.zipIdx_cons]
      rw [hz, List.mapM_cons, List.mapM_cons, hm]
      simp only [jobAt, hinc, hsub, whichSides, if_neg hnl, Option.bind_some, Option.map_some, List.map_cons, List.map_nil]
      simp
    · rw [List.flatten_cons, List.flatten_cons, hflat, hlen]
      simp [expectedJobs]

/-- **C100.** For a structure of any number of interfaces separated by bulk layers, `process_structure` calculates every interface exactly once per needed side, between the media that actually touch it. -/
theorem C100_surroundings {I M : Type} (inc trans : M) (onlyInc : Bool) (first : I) (rest : List ((ℝ × M) × I)) :
    jobs inc trans onlyInc (alternating first rest) = some (expectedJobs inc true first trans onlyInc rest) := by
  obtain ⟨m, h, hflat⟩ := jobs_aux inc trans onlyInc rest [] inc first (by simp [incidenceAt])
  unfold jobs
  simp only [List.nil_append, List.length_nil] at h
  rw [h, Option.map_some, hflat]
  simp

/-- For example two interfaces round one bulk layer. -/
example : jobs "Air" "Ag" true (alternating "front" [((0.001, "Si"), "back")]) =
    some [⟨"front", "Air", "Si", [(.front, true), (.rear, false)]⟩, ⟨"back", "Si", "Ag", [(.front, false)]⟩] :=
  C100_surroundings "Air" "Ag" true "front" [((0.001, "Si"), "back")]

end Rayflare
