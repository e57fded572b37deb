import Verif.Model.MatrixProfile
import Verif.Props.RTMatrix
import Verif.Props.RTProfiles
import Verif.Lemmas.Ideal

/-!
# Property C186: profiles filed for ray-traced surfaces in the matrix method, ray by ray
-/

namespace Rayflare

open Rayflare.Np Rayflare.Model Rayflare.Spec Rayflare.Lemmas Real

theorem localThetas_eq (n : ℕ) (hn : 0 < n) (s c : ℝ) (hc : 0 < c) (sp : Spacing) :
    localThetas (makeAngleVector n s c sp) = (List.range n).map (polarMid n sp) := by
  unfold localThetas
  have hhalf : (makeAngleVector n s c sp).angleVector.length / 2 = ringStart n c n := by
    rw [angleVector_length n hn, ringStart_half]; omega
  rw [hhalf]
  apply unique_eq
  · rw [List.pairwise_map]
    refine (List.pairwise_lt_range).imp_of_mem ?_
    intro a b _ hb hab
    exact polarMid_strictMono n hn sp hab (by have := List.mem_range.mp hb; omega)
  · intro x
    rw [List.mem_map, List.mem_map]
    constructor
    · rintro ⟨i, hi, rfl⟩
      have hi := List.mem_range.mp hi
      have hN := ringSize_pos n c hc (show i < 2 * n by omega)
      have hg := angleVector_get n hn s c sp (show i < 2 * n by omega) hN
      refine ⟨{ ring := i, theta := polarMid n sp i, phi := azimuthMid n c s i 0 }, List.mem_iff_getElem?.mpr ⟨ringStart n c i + 0, ?_⟩, rfl⟩
      rw [List.getElem?_take, if_pos, hg]
      have h1 := ringStart_succ n c i
      have h2 := ringStart_mono n c (show i + 1 ≤ n by omega)
      omega
    · rintro ⟨row, hrow, rfl⟩
      obtain ⟨r, hr⟩ := List.mem_iff_getElem?.mp hrow
      rw [List.getElem?_take] at hr
      by_cases hlt : r < ringStart n c n
      · rw [if_pos hlt] at hr
        obtain ⟨i, k, hi, hk, he, hh⟩ := row_decomp n hn s c sp hr
        refine ⟨i, List.mem_range.mpr ?_, by rw [hh]⟩
        by_contra hge
        have := ringStart_mono n c (not_lt.mp hge)
        omega
      · rw [if_neg hlt] at hr; cases hr

/-- Adding up ring by ring is adding up ray by ray. -/
theorem sum_by_ring (n : ℕ) (P : RTRay → Prop) [DecidablePred P] (Q : ℕ → RTRay → Prop) (k : RTRay → ℕ) (g : ℕ → ℝ) (rays : List RTRay)
    (hk : ∀ r ∈ rays, P r → k r < n ∧ ∀ i < n, (Q i r ↔ i = k r)) :
    ∑ i ∈ Finset.range n, nOf rays (fun r => P r ∧ Q i r) * g i = ((rays.filter fun r => decide (P r)).map fun r => g (k r)).sum := by
  classical
  induction rays with
  | nil => simp [nOf]
  | cons r rs ih =>
    have ih' := ih (fun r' h => hk r' (by simp [h]))
    have hcons : ∀ i, nOf (r :: rs) (fun r => P r ∧ Q i r) = nOf rs (fun r => P r ∧ Q i r) + if P r ∧ Q i r then 1 else 0 := by
      intro i
      rw [nOf_eq, nOf_eq, List.countP_cons]
      by_cases h : P r ∧ Q i r
      · rw [if_pos h]; simp [h]
      · rw [if_neg h]; simp only [h, decide_false]; simp
    simp only [hcons, add_mul, Finset.sum_add_distrib, ih']
    by_cases hP : P r
    · obtain ⟨h1, h2⟩ := hk r (by simp) hP
      have hF : (r :: rs).filter (fun r => decide (P r)) = r :: rs.filter fun r => decide (P r) := by simp [hP]
      rw [hF, List.map_cons, List.sum_cons, add_comm]
      congr 1
      rw [Finset.sum_eq_single (k r)]
      · rw [if_pos ⟨hP, (h2 _ h1).mpr rfl⟩, one_mul]
      · intro i hi hne
        rw [if_neg (fun h => hne ((h2 i (Finset.mem_range.mp hi)).mp h.2)), zero_mul]
      · intro h; exact absurd (Finset.mem_range.mpr h1) h
    · have hF : (r :: rs).filter (fun r => decide (P r)) = rs.filter fun r => decide (P r) := by simp [hP]
      rw [hF]
      simp [hP]

section
variable (n : ℕ) (hn : 0 < n) (c : ℝ) (hc : 0 < c) (m : ℕ) (hm : 0 < m) (sp : Spacing) (tmm front : Bool) (nL : ℕ)

include hn hc hm in
open Classical in
/-- What is filed: the mean over the absorbed rays of the column of the profile tabulated for the side of illumination. -/
theorem matrix_profile (rays : List RTRay) (hok : ∀ r ∈ rays, RayOk (2 * π / m) tmm nL r)
    (u : RTJunk) (M : RTMat) (hM : rtMatrix (rtArgs n (2 * π / m) c sp tmm front nL) u rays = some M) (j : ℕ)
    (hj : ∃ r ∈ rays, IncidentIn n c (2 * π / m) sp front j r ∧ IsAbsorbed r)
    (ring : RTRay → ℕ) (hring : ∀ r ∈ rays, IsAbsorbed r → ring r < n ∧ AbsorbedAt n sp (ring r) r)
    (look : Bool → ℝ → ℕ → Option Coeff) (tab : Bool → ℕ → ℕ → Coeff) (htab : ∀ s k l, k < n → l < nL → look s (polarMid n sp k) l = some (tab s k l))
    (hkeep : ∀ k < n, ∑ l ∈ Finset.range nL, (tab true k l).A1 ≠ 0) (ns : ℕ → ℕ) (dx : ℝ) (l : ℕ) (hl : l < nL) (i : ℕ) :
    let col := rays.filter fun r => decide (IncidentIn n c (2 * π / m) sp front j r ∧ IsAbsorbed r)
    matrixProfile (rtArgs n (2 * π / m) c sp tmm front nL) M look ns dx j l i =
      max 0 ((col.map fun r => density (tab true (ring r) l) (((if front then i else ns l - 1 - i : ℕ) : ℝ) * dx)).sum / col.length) := by
  intro col
  obtain ⟨h1, h2, h3, -⟩ := C118_local_partial n hn c hc m hm sp tmm front nL rays hok u M hM j hj
  have hnn : ∀ r ∈ rays, ¬ AbsorbedNormal r := by
    intro r hr h
    unfold AbsorbedNormal at h
    rcases ho : r.out with ⟨θ, φ⟩ | ⟨A, θl⟩
    · rw [ho] at h; exact h
    · have hab : IsAbsorbed r := by simp [IsAbsorbed, ho]
      obtain ⟨hlt, ha⟩ := hring r hr hab
      unfold AbsorbedAt at ha
      rw [ho] at h ha
      have h0 : θl = 0 := h
      have hp : 0 ≤ polarEdge n sp (ring r) := by
        rcases Nat.eq_zero_or_pos (ring r) with h | h
        · rw [h, polarEdge_zero]
        · have := polarEdge_strictMono n hn sp 0 (ring r) h (by omega)
          rw [polarEdge_zero] at this
          exact this.le
      have := ha.1
      rw [h0, abs_zero] at this
      linarith
  have h3' := h3 hnn
  have hthetas : (localThetas (rtArgs n (2 * π / m) c sp tmm front nL).g).zipIdx.map (fun t => (M.loc t.2 j, look true t.1)) =
      (List.range n).map fun k => (M.loc k j, look true (polarMid n sp k)) := by
    rw [show (rtArgs n (2 * π / m) c sp tmm front nL).g = makeAngleVector n (2 * π / m) c sp from rfl, localThetas_eq n hn _ c hc sp]
    apply List.ext_getElem
    · simp
    · intro k a b; simp
  unfold matrixProfile
  rw [hthetas]
  show profileWl nL ns dx front _ l i = _
  set z : ℝ := ((if front then i else ns l - 1 - i : ℕ) : ℝ) * dx with hz
  rw [C108_weighted_partial nL ns dx front _ l i (fun t => (t l).getD ⟨0, 0, 0, 0, 0, 0⟩)
    (by
      intro r hr
      obtain ⟨k, hk, rfl⟩ := List.mem_map.mp hr
      simp only
      rw [htab true k l (List.mem_range.mp hk) hl]
      rfl)
    (by
      intro r hr _
      obtain ⟨k, hk, rfl⟩ := List.mem_map.mp hr
      exact Or.inr ⟨tab true k, fun l' hl' => htab true k l' (List.mem_range.mp hk) hl', hkeep k (List.mem_range.mp hk)⟩)]
  rw [← hz, List.map_map]
  congr 1
  have hmap : ((List.range n).map ((fun r : ℝ × (ℕ → Option Coeff) => r.1 * density ((r.2 l).getD ⟨0, 0, 0, 0, 0, 0⟩) z) ∘ fun k => (M.loc k j, look true (polarMid n sp k)))) =
      (List.range n).map fun k => nOf rays (fun r => IncidentIn n c (2 * π / m) sp front j r ∧ AbsorbedAt n sp k r) * density (tab true k l) z /
        nOf rays (fun r => IncidentIn n c (2 * π / m) sp front j r ∧ IsAbsorbed r) := by
    apply List.map_congr_left
    intro k hk
    have hk := List.mem_range.mp hk
    simp only [Function.comp]
    rw [htab true k l hk hl, h3' k hk]
    simp only [Option.getD_some]
    ring
  rw [hmap, sum_map_range, ← Finset.sum_div]
  have hlen : nOf rays (fun r => IncidentIn n c (2 * π / m) sp front j r ∧ IsAbsorbed r) = col.length := by
    rw [nOf_eq, List.countP_eq_length_filter]
  rw [hlen]
  congr 1
  have hcnt : ∀ k, nOf rays (fun r => IncidentIn n c (2 * π / m) sp front j r ∧ AbsorbedAt n sp k r) =
      nOf rays (fun r => (IncidentIn n c (2 * π / m) sp front j r ∧ IsAbsorbed r) ∧ AbsorbedAt n sp k r) := by
    intro k
    rw [nOf_eq, nOf_eq]
    congr 1
    apply List.countP_congr
    intro r _
    have : AbsorbedAt n sp k r → IsAbsorbed r := by
      unfold AbsorbedAt IsAbsorbed
      rcases r.out with ⟨θ, φ⟩ | ⟨A, θl⟩
      · exact id
      · intro _; trivial
    simp only [decide_eq_true_eq]
    constructor
    · rintro ⟨a, b⟩; exact ⟨⟨a, this b⟩, b⟩
    · rintro ⟨⟨a, -⟩, b⟩; exact ⟨a, b⟩
  simp_rw [hcnt]
  refine sum_by_ring n (fun r => IncidentIn n c (2 * π / m) sp front j r ∧ IsAbsorbed r) (fun k r => AbsorbedAt n sp k r) ring (fun k => density (tab true k l) z) rays ?_
  intro r hr hP
  obtain ⟨hlt, ha⟩ := hring r hr hP.2
  refine ⟨hlt, fun k hk => ⟨fun hq => ?_, fun e => by rw [e]; exact ha⟩⟩
  unfold AbsorbedAt at ha hq
  rcases ho : r.out with ⟨θ, φ⟩ | ⟨A, θl⟩
  · rw [ho] at ha; exact ha.elim
  · rw [ho] at ha hq
    exact interval_unique (polarEdge_strictMono n hn sp) (by omega) (by omega) hq.1 hq.2 ha.1 ha.2

include hn hc hm in
open Classical in
/-- **C186 (partial).** If all rays of an incidence bin that are absorbed met the layers from the side of illumination (`fromSide r = true`), none of them at exactly normal incidence, and the table has coefficients at the ring centres that are not dropped (see C108), the profile filed for that
bin is the mean, over the absorbed rays, of the profile tabulated for the side from which the ray met the layers and the centre of the ring of its local angle; negative means are replaced by zero. Depths are counted from the front for both sides of illumination. -/
theorem C186_same_side_partial (rays : List RTRay) (hok : ∀ r ∈ rays, RayOk (2 * π / m) tmm nL r)
    (u : RTJunk) (M : RTMat) (hM : rtMatrix (rtArgs n (2 * π / m) c sp tmm front nL) u rays = some M) (j : ℕ)
    (hj : ∃ r ∈ rays, IncidentIn n c (2 * π / m) sp front j r ∧ IsAbsorbed r)
    (ring : RTRay → ℕ) (hring : ∀ r ∈ rays, IsAbsorbed r → ring r < n ∧ AbsorbedAt n sp (ring r) r)
    (look : Bool → ℝ → ℕ → Option Coeff) (tab : Bool → ℕ → ℕ → Coeff) (htab : ∀ s k l, k < n → l < nL → look s (polarMid n sp k) l = some (tab s k l))
    (hkeep : ∀ k < n, ∑ l ∈ Finset.range nL, (tab true k l).A1 ≠ 0) (ns : ℕ → ℕ) (dx : ℝ) (l : ℕ) (hl : l < nL) (i : ℕ)
    (fromSide : RTRay → Bool) (hside : ∀ r ∈ rays, IncidentIn n c (2 * π / m) sp front j r → IsAbsorbed r → fromSide r = true) :
    let col := rays.filter fun r => decide (IncidentIn n c (2 * π / m) sp front j r ∧ IsAbsorbed r)
    matrixProfile (rtArgs n (2 * π / m) c sp tmm front nL) M look ns dx j l i =
      max 0 ((col.map fun r => density (tab (fromSide r) (ring r) l) (((if front then i else ns l - 1 - i : ℕ) : ℝ) * dx)).sum / col.length) := by
  intro col
  rw [matrix_profile n hn c hc m hm sp tmm front nL rays hok u M hM j hj ring hring look tab htab hkeep ns dx l hl i]
  refine congrArg (fun x : List ℝ => max 0 (x.sum / (col.length : ℝ))) ?_
  apply List.map_congr_left
  intro r hr
  have h1 := List.mem_of_mem_filter hr
  have h2 : IncidentIn n c (2 * π / m) sp front j r ∧ IsAbsorbed r := by simpa using List.of_mem_filter hr
  rw [hside r h1 h2.1 h2.2]

include hn hc hm in
open Classical in
/-- **C186 fails** if rays met the layers from the other side, for example after refraction into the texture. Light from the front; all rays of an incidence bin that are absorbed met the only layer from behind, where the absorption density increases with depth `z` as `3 exp z + exp (-z)`; from the front it is
`exp z + 3 exp (-z)`. The profile filed at depth 1 is the one for light from the front, which is too small. -/
theorem C186_other_side_fails (rays : List RTRay) (hok : ∀ r ∈ rays, RayOk (2 * π / m) tmm 1 r)
    (u : RTJunk) (M : RTMat) (hM : rtMatrix (rtArgs n (2 * π / m) c sp tmm true 1) u rays = some M) (j : ℕ)
    (hj : ∃ r ∈ rays, IncidentIn n c (2 * π / m) sp true j r ∧ IsAbsorbed r)
    (ring : RTRay → ℕ) (hring : ∀ r ∈ rays, IsAbsorbed r → ring r < n ∧ AbsorbedAt n sp (ring r) r)
    (fromSide : RTRay → Bool) (hside : ∀ r ∈ rays, IncidentIn n c (2 * π / m) sp true j r → IsAbsorbed r → fromSide r = false) :
    let tab : Bool → ℕ → ℕ → Coeff := fun s _ _ => if s then ⟨1, 3, 0, 0, 1, 0⟩ else ⟨3, 1, 0, 0, 1, 0⟩
    let col := rays.filter fun r => decide (IncidentIn n c (2 * π / m) sp true j r ∧ IsAbsorbed r)
    matrixProfile (rtArgs n (2 * π / m) c sp tmm true 1) M (fun s _ l => some (tab s 0 l)) (fun _ => 2) 1 j 0 1 = exp 1 + 3 * exp (-1) ∧
    (col.map fun r => density (tab (fromSide r) (ring r) 0) 1).sum / col.length = 3 * exp 1 + exp (-1) ∧
    exp 1 + 3 * exp (-1) < 3 * exp 1 + exp (-1) := by
  intro tab col
  have hcol : col ≠ [] := by
    obtain ⟨r, hr, h⟩ := hj
    exact List.ne_nil_of_mem (List.mem_filter.mpr ⟨hr, by simpa using h⟩)
  have hlen : (0 : ℝ) < col.length := by exact_mod_cast List.length_pos_iff.mpr hcol
  have hconst : ∀ (f : RTRay → ℝ) (v : ℝ), (∀ r ∈ col, f r = v) → (col.map f).sum / col.length = v := by
    intro f v h
    rw [List.map_congr_left h, List.map_const', List.sum_replicate, nsmul_eq_mul]
    field_simp
  have hd1 : density (tab true 0 0) 1 = exp 1 + 3 * exp (-1) := by simp [density, tab]
  have hd2 : density (tab false 0 0) 1 = 3 * exp 1 + exp (-1) := by simp [density, tab]
  refine ⟨?_, ?_, ?_⟩
  · rw [matrix_profile n hn c hc m hm sp tmm true 1 rays hok u M hM j hj ring hring _ tab (fun s k l _ _ => rfl) (fun k _ => by simp [tab]) _ 1 0 (by norm_num) 1]
    have : ((if (true : Bool) then 1 else 2 - 1 - 1 : ℕ) : ℝ) * 1 = 1 := by simp
    rw [this]
    have e := hconst (fun r => density (tab true (ring r) 0) 1) _ (fun r _ => hd1)
    rw [show (List.map (fun r => density (tab true (ring r) 0) 1) col).sum / (col.length : ℝ) = _ from e]
    exact max_eq_right (by positivity)
  · refine hconst _ _ (fun r hr => ?_)
    have h1 := List.mem_of_mem_filter hr
    have h2 : IncidentIn n c (2 * π / m) sp true j r ∧ IsAbsorbed r := by simpa using List.of_mem_filter hr
    rw [hside r h1 h2.1 h2.2]
    exact hd2
  · have : exp (-1) < exp 1 := Real.exp_lt_exp.mpr (by norm_num)
    linarith

end

/-- A ray launched at 45° and absorbed in one layer at a local angle of 30°. -/
private noncomputable def rProf : RTRay := { θin := π / 4, φin := π / 4, out := .absorbed (fun _ => 1) (π / 6) }

private theorem rProf_ok : RayOk (2 * π / (4 : ℕ)) true 1 rProf where
  pos := by have := Real.pi_pos; show 0 < π / 4; positivity
  lt := by have := Real.pi_pos; show π / 4 < π / 2; linarith
  edge := by
    intro q hq
    have hpi := Real.pi_pos
    have h1 : π * (q * 2 - 1) = 0 := by unfold rProf at hq; push_cast at hq; linarith
    rcases mul_eq_zero.mp h1 with h | h
    · linarith
    · have h2 : (q * 2 - 1 : ℤ) = 0 := by exact_mod_cast h
      omega
  out := by have := Real.pi_pos; exact ⟨rfl, by rw [abs_of_pos (by positivity)]; linarith, fun _ => by norm_num, by norm_num⟩

/-- The hypotheses of `C186_other_side_fails` (and, with `fromSide = true`, those of `C186_same_side_partial`) are met: one ray, one ring per hemisphere. -/
example (c : ℝ) (hc : 0 < c) (sp : Spacing) (u : RTJunk) : ∃ M j,
    rtMatrix (rtArgs 1 (2 * π / (4 : ℕ)) c sp true true 1) u [rProf] = some M ∧ (∃ r ∈ [rProf], IncidentIn 1 c (2 * π / (4 : ℕ)) sp true j r ∧ IsAbsorbed r) ∧
    ∀ r ∈ [rProf], IsAbsorbed r → 0 < 1 ∧ AbsorbedAt 1 sp 0 r := by
  have hpi := Real.pi_pos
  obtain ⟨rec, -, hrec⟩ := record_spec one_pos hc 4 (by norm_num) (sp := sp) (front := true) rProf_ok
  obtain ⟨f, -, hM⟩ := rt_counts 1 one_pos c hc 4 (by norm_num) sp true true 1 [rProf] (by
    intro r hr; rw [List.mem_singleton.mp hr]; exact rProf_ok)
  refine ⟨_, rec.col, hM u, ⟨rProf, by simp, hrec.col, trivial⟩, ?_⟩
  intro r hr _
  rw [List.mem_singleton.mp hr]
  refine ⟨one_pos, ?_⟩
  show polarEdge 1 sp 0 < |π / 6| ∧ |π / 6| ≤ polarEdge 1 sp (0 + 1)
  rw [abs_of_pos (by positivity), polarEdge_zero, zero_add, polarEdge_half 1 one_pos]
  constructor <;> linarith

end Rayflare
