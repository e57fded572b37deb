import Verif.Props.FlatMatrix
import Verif.Props.FlatRT
import Verif.Props.TMM

/-!
# Property C152, continued: ray tracing and the planar method agree on flat surfaces
-/

namespace Rayflare

open Rayflare.Np Rayflare.Model Rayflare.Spec Rayflare.Lemmas MeasureTheory

/-! ## Helper lemmas -/

section
variable {n : ℕ} (hn : 0 < n) {cz : ℝ} (hc : 0 < cz) {m : ℕ} (hm : 0 < m) {sp : Spacing} {front : Bool}

include hn hc hm in
/-- Light that leaves off the edges of the grid is filed exactly once, in the hemisphere where it leaves. -/
theorem filed_once {θ φ : ℝ} (h0 : 0 < θ) (h1 : θ < Real.pi) (hφ : OffEdge (2 * Real.pi / m) φ) : ∃ r, r < ringStart n cz (2 * n) ∧ (r < ringStart n cz n ↔ seen front θ ≤ Real.pi / 2) ∧
    ∀ i, filedIn n cz (2 * Real.pi / m) sp front i θ φ = if i = r then 1 else 0 := by
  have hs : (0 : ℝ) < 2 * Real.pi / m := by have := Real.pi_pos; positivity
  have hs0 : 0 < seen front θ ∧ seen front θ ≤ Real.pi := by
    unfold seen
    cases front
    · simp; exact ⟨h1, h0.le⟩
    · simp; exact ⟨h0, h1.le⟩
  obtain ⟨i, k, -, -, -, hd, -⟩ := dirInBin_fold hn hc m hm (sp := sp) hs0.1 hs0.2 hφ true true 0
  obtain ⟨a, b⟩ := dirInBin_half hn hd
  refine ⟨_, a, b, fun i' => ?_⟩
  unfold filedIn
  by_cases e : i' = ringStart n cz i + k
  · rw [if_pos (by rw [e]; exact hd), if_pos e]
  · rw [if_neg fun h => e (dirInBin_unique hn hs h hd), if_neg e]

end

theorem average_near {K : ℕ} (p : Fin K → Prop) [DecidablePred p] (hp : ∃ k, p k) {f : Fin K → ℝ} {a ε : ℝ} (h : ∀ k, p k → |f k - a| ≤ ε) : |(∑ k with p k, f k) / (Finset.univ.filter p).card - a| ≤ ε := by
  obtain ⟨k0, hk0⟩ := hp
  have hc : (0 : ℝ) < (Finset.univ.filter p).card := by
    have : 0 < (Finset.univ.filter p).card := Finset.card_pos.mpr ⟨k0, by simpa using hk0⟩
    exact_mod_cast this
  have e : (∑ k with p k, f k) / (Finset.univ.filter p).card - a = (∑ k with p k, (f k - a)) / (Finset.univ.filter p).card := by
    rw [Finset.sum_sub_distrib, Finset.sum_const, nsmul_eq_mul]
    field_simp
  rw [e, abs_div, abs_of_pos hc, div_le_iff₀ hc]
  refine (Finset.abs_sum_le_sum_abs _ _).trans ?_
  refine (Finset.sum_le_sum fun k hk => h k (by simpa using hk)).trans ?_
  rw [Finset.sum_const, nsmul_eq_mul, mul_comm]

/-- The bins of one hemisphere. -/
noncomputable def hemisphere (n : ℕ) (cz : ℝ) (up : Bool) : Finset ℕ := (Finset.range (ringStart n cz (2 * n))).filter fun i => (i < ringStart n cz n ↔ up = true)

/-! ## The property -/

section
variable (c : Texture) (nAbove nBelow : ℂ) (ha : 0 < nAbove.re) (hb : 0 < nBelow.re) (ka : 0 ≤ nAbove.im) (kb : 0 ≤ nBelow.im) (hLx : 0 < c.Lx) (hLy : 0 < c.Ly) (hh : c.zcov ≤ c.h) (hh0 : c.h + 1e-8 ≠ 0)
  (nL : ℕ) (n : ℕ) (hn : 0 < n) (cz : ℝ) (hc : 0 < cz) (m : ℕ) (hm : 0 < m) (sp : Spacing) (front : Bool)

include ha hb ka kb hLx hLy hh hh0 hn hc hm in
open Classical in
/-- **C152, ray tracing and the planar method.** The reflectance and transmittance of the lookup table at the launched angles of incidence bin `j` differ by at most `ε` from those with which the planar method (transfer matrices) fills its column `j`.  Then, on average over the random
numbers, the two columns have the same totals in each hemisphere up to `ε`; and if the number of symmetry sectors is even, the same entry for reflection into the incidence bin itself, where all the specularly reflected light is. -/
theorem C152_planar (hs : (1e-10 : ℝ) ≤ 2 * Real.pi / m) (tab : ℤ → ℝ → ℝ × ℝ × List ℝ)
    (htab : ∀ side θ, 0 ≤ (tab side θ).1 ∧ 0 ≤ (tab side θ).2.1 ∧ (tab side θ).2.2.length = nL ∧ (∀ a ∈ (tab side θ).2.2, 0 ≤ a) ∧ (tab side θ).1 + (tab side θ).2.1 + (tab side θ).2.2.sum = 1)
    {K N : ℕ} (hN : 3 ≤ N) (L : Fin K → Launch) (hL : ∀ k, FlatLaunch c m (L k)) (hcrit : ∀ k, (tab 1 (L k).θ).2.1 = 0 ∨ sinRefr true nAbove nBelow (L k).θ < 1)
    (junk : (Fin K → Fin N → ℝ) → RTJunk) (M : (Fin K → Fin N → ℝ) → RTMat)
    (hM : ∀ u, Inside u → rtMatrix (rtArgs n (2 * Real.pi / m) cz sp true front nL) (junk u) (List.ofFn fun k => (L k).ray ((L k).trace c (tmmDraw nAbove nBelow tab) (u k))) = some (M u))
    (j : ℕ) (hj : ∃ k, IncidentIn n cz (2 * Real.pi / m) sp front j ((L k).ray none))
    (ratio : ℝ) (hratio : 0 < ratio) (res : TmmRes) (row : Row) (hrow : (makeAngleVector n (2 * Real.pi / m) cz sp).angleVector[(if front then 0 else ringStart n cz n) + j]? = some row)
    (hcrit' : ratio * Real.sin (seen front row.theta) < 1) {ε : ℝ}
    (hnear : ∀ k, IncidentIn n cz (2 * Real.pi / m) sp front j ((L k).ray none) → |(tab 1 (L k).θ).1 - res.R (seen front row.theta)| ≤ ε ∧ |(tab 1 (L k).θ).2.1 - res.T (seen front row.theta)| ≤ ε) :
    let E := fun i => ∫ u, (M u).out i j ∂(Measure.pi fun _ : Fin K => uniform N)
    ∃ col, tmmColumn (makeAngleVector n (2 * Real.pi / m) cz sp) (2 * Real.pi / m) front ratio res j = some col ∧
      |∑ i ∈ hemisphere n cz front, E i - ∑ i ∈ hemisphere n cz front, col i| ≤ ε ∧
      |∑ i ∈ hemisphere n cz !front, E i - ∑ i ∈ hemisphere n cz !front, col i| ≤ ε ∧
      (Even m → |E ((if front then 0 else ringStart n cz n) + j) - col ((if front then 0 else ringStart n cz n) + j)| ≤ ε ∧
        (∑ i ∈ hemisphere n cz front, E i = E ((if front then 0 else ringStart n cz n) + j)) ∧ (∑ i ∈ hemisphere n cz front, col i = col ((if front then 0 else ringStart n cz n) + j))) := by
  intro E
  have hpi := Real.pi_pos
  have hs0 : (0 : ℝ) < 2 * Real.pi / m := by positivity
  have hjlt : j < ringStart n cz n := by obtain ⟨k, hk⟩ := hj; exact hk.1
  obtain ⟨hE, -⟩ := C152_coated c nAbove nBelow ha hb ka kb hLx hLy hh hh0 nL n hn cz hc m hm sp front tab htab hN L hL hcrit junk M hM j hj
  obtain ⟨col, binR, hcol, hR1, hR2, hR3, -, hR4, hT, -⟩ := C51_entries n hn cz hc m hm sp front hs ratio hratio res j hjlt row hrow hcrit'.ne
  obtain ⟨binT, hT1, hT2, hT3, -, hz⟩ := hT (Or.inl hcrit')
  refine ⟨col, hcol, ?_⟩
  set inc := fun k => IncidentIn n cz (2 * Real.pi / m) sp front j ((L k).ray none) with hinc
  -- the reflected light of each ray
  have hr : ∀ k, ∃ r ∈ hemisphere n cz front, ∀ i, filedIn n cz (2 * Real.pi / m) sp front i (L k).θ ((L k).φ + Real.pi) = if i = r then 1 else 0 := by
    intro k
    obtain ⟨h0, h1⟩ := (hL k).angle
    obtain ⟨r, a, b, e⟩ := filed_once hn hc hm (sp := sp) (front := front) h0 (by linarith) (hL k).azimuth.2
    refine ⟨r, Finset.mem_filter.mpr ⟨Finset.mem_range.mpr a, b.trans ?_⟩, e⟩
    unfold seen
    cases front
    · simp; linarith
    · simp; linarith
  have hrefr : ∀ k, (tab 1 (L k).θ).2.1 ≠ 0 → 0 < refrOf true nAbove nBelow (L k).θ ∧ refrOf true nAbove nBelow (L k).θ < Real.pi / 2 := by
    intro k hk
    obtain ⟨h0, h1⟩ := (hL k).angle
    have hlt := (hcrit k).resolve_left hk
    have hρ := quotient_re_pos ha hb ka kb
    have hsin : 0 < Real.sin (L k).θ := Real.sin_pos_of_pos_of_lt_pi h0 (by linarith)
    refine ⟨?_, Real.arctan_lt_pi_div_two _⟩
    simp only [sinRefr, if_true] at hlt
    simp only [refrOf, if_true]
    have : 0 < Real.sqrt (1 - (‖nAbove / nBelow‖ * Real.sin (L k).θ) ^ 2) := by
      refine Real.sqrt_pos.mpr ?_
      have : 0 ≤ ‖nAbove / nBelow‖ * Real.sin (L k).θ := by positivity
      nlinarith
    have h2 : 0 < |(nAbove / nBelow).re| := abs_pos.mpr hρ.ne'
    exact Real.arctan_pos.mpr (by positivity)
  have ht : ∀ k, (tab 1 (L k).θ).2.1 ≠ 0 → ∃ r ∈ hemisphere n cz !front, ∀ i, filedIn n cz (2 * Real.pi / m) sp front i (Real.pi - refrOf true nAbove nBelow (L k).θ) ((L k).φ + Real.pi) = if i = r then 1 else 0 := by
    intro k hk
    obtain ⟨h0, h1⟩ := hrefr k hk
    obtain ⟨r, a, b, e⟩ := filed_once hn hc hm (sp := sp) (front := front) (show 0 < Real.pi - refrOf true nAbove nBelow (L k).θ by linarith) (by linarith) (hL k).azimuth.2
    refine ⟨r, Finset.mem_filter.mpr ⟨Finset.mem_range.mpr a, b.trans ?_⟩, e⟩
    unfold seen
    cases front
    · simp; linarith
    · simp; linarith
  have hdis : ∀ i, i ∈ hemisphere n cz front → i ∉ hemisphere n cz !front := by
    intro i h1 h2
    simp only [hemisphere, Finset.mem_filter] at h1 h2
    have := h1.2.symm.trans h2.2
    cases front <;> simp at this
  -- totals
  have hswap : ∀ up, ∑ i ∈ hemisphere n cz up, E i = (∑ k with inc k, ∑ i ∈ hemisphere n cz up, ((tab 1 (L k).θ).1 * filedIn n cz (2 * Real.pi / m) sp front i (L k).θ ((L k).φ + Real.pi) +
        (tab 1 (L k).θ).2.1 * filedIn n cz (2 * Real.pi / m) sp front i (Real.pi - refrOf true nAbove nBelow (L k).θ) ((L k).φ + Real.pi))) / (Finset.univ.filter inc).card := by
    intro up
    rw [Finset.sum_comm, Finset.sum_div]
    exact Finset.sum_congr rfl fun i _ => hE i
  have hsumR : ∀ k, ∑ i ∈ hemisphere n cz front, ((tab 1 (L k).θ).1 * filedIn n cz (2 * Real.pi / m) sp front i (L k).θ ((L k).φ + Real.pi) +
        (tab 1 (L k).θ).2.1 * filedIn n cz (2 * Real.pi / m) sp front i (Real.pi - refrOf true nAbove nBelow (L k).θ) ((L k).φ + Real.pi)) = (tab 1 (L k).θ).1 := by
    intro k
    obtain ⟨r, hr1, hr2⟩ := hr k
    rw [Finset.sum_congr rfl (g := fun i => if i = r then (tab 1 (L k).θ).1 else 0), Finset.sum_ite_eq' _ r, if_pos hr1]
    intro i hi
    have : (tab 1 (L k).θ).2.1 * filedIn n cz (2 * Real.pi / m) sp front i (Real.pi - refrOf true nAbove nBelow (L k).θ) ((L k).φ + Real.pi) = 0 := by
      by_cases hk : (tab 1 (L k).θ).2.1 = 0
      · rw [hk, zero_mul]
      · obtain ⟨r', h1, h2⟩ := ht k hk
        rw [h2, if_neg fun h : i = r' => hdis i hi (h ▸ h1), mul_zero]
    rw [this, hr2, add_zero]
    by_cases e : i = r <;> simp [e]
  have hsumT : ∀ k, ∑ i ∈ hemisphere n cz !front, ((tab 1 (L k).θ).1 * filedIn n cz (2 * Real.pi / m) sp front i (L k).θ ((L k).φ + Real.pi) +
        (tab 1 (L k).θ).2.1 * filedIn n cz (2 * Real.pi / m) sp front i (Real.pi - refrOf true nAbove nBelow (L k).θ) ((L k).φ + Real.pi)) = (tab 1 (L k).θ).2.1 := by
    intro k
    obtain ⟨r, hr1, hr2⟩ := hr k
    have h0 : ∀ i ∈ hemisphere n cz !front, (tab 1 (L k).θ).1 * filedIn n cz (2 * Real.pi / m) sp front i (L k).θ ((L k).φ + Real.pi) = 0 := by
      intro i hi
      rw [hr2, if_neg fun h : i = r => hdis i (h ▸ hr1) hi, mul_zero]
    by_cases hk : (tab 1 (L k).θ).2.1 = 0
    · rw [hk]
      exact Finset.sum_eq_zero fun i hi => by rw [h0 i hi, zero_mul, add_zero]
    · obtain ⟨r', h1, h2⟩ := ht k hk
      rw [Finset.sum_congr rfl (g := fun i => if i = r' then (tab 1 (L k).θ).2.1 else 0), Finset.sum_ite_eq' _ r', if_pos h1]
      intro i hi
      rw [h0 i hi, h2, zero_add]
      by_cases e : i = r' <;> simp [e]
  have hbR : binR ∈ hemisphere n cz front := Finset.mem_filter.mpr ⟨Finset.mem_range.mpr hR1, hR2⟩
  have hbT : binT ∈ hemisphere n cz !front := Finset.mem_filter.mpr ⟨Finset.mem_range.mpr hT1, hT2.trans (by cases front <;> simp)⟩
  have hcR : ∑ i ∈ hemisphere n cz front, col i = res.R (seen front row.theta) := by
    rw [Finset.sum_eq_single binR (fun i hi hne => hz i hne fun h => hdis i hi (h ▸ hbT)) (fun h => absurd hbR h), hR3]
  have hcT : ∑ i ∈ hemisphere n cz !front, col i = res.T (seen front row.theta) := by
    rw [Finset.sum_eq_single binT (fun i hi hne => hz i (fun h => hdis i (h ▸ hbR) hi) hne) (fun h => absurd hbT h), hT3]
  have hER : |∑ i ∈ hemisphere n cz front, E i - ∑ i ∈ hemisphere n cz front, col i| ≤ ε := by
    rw [hswap, hcR]
    exact average_near inc hj fun k hk => by rw [hsumR]; exact (hnear k hk).1
  refine ⟨hER, ?_, fun heven => ?_⟩
  · rw [hswap, hcT]
    exact average_near inc hj fun k hk => by rw [hsumT]; exact (hnear k hk).2
  -- an even number of sectors
  obtain ⟨q, hq⟩ := heven
  have hhalf : ∀ φ : ℝ, φ + Real.pi = φ + (q : ℤ) * (2 * Real.pi / m) := by
    intro φ
    have hm' : (m : ℝ) ≠ 0 := by positivity
    have : (m : ℝ) = 2 * q := by rw [hq]; push_cast; ring
    push_cast
    field_simp
    rw [this]; ring
  have hown : (if front then 0 else ringStart n cz n) + j ∈ hemisphere n cz front := by
    obtain ⟨k, hk⟩ := hj
    obtain ⟨a, b⟩ := dirInBin_half hn hk.2
    refine Finset.mem_filter.mpr ⟨Finset.mem_range.mpr a, b.trans ?_⟩
    obtain ⟨h0, h1⟩ := (hL k).angle
    simp only [Launch.ray]
    unfold seen
    cases front
    · simp; linarith
    · simp; linarith
  have hf : ∀ k, inc k → ∀ i, filedIn n cz (2 * Real.pi / m) sp front i (L k).θ ((L k).φ + Real.pi) = if i = (if front then 0 else ringStart n cz n) + j then 1 else 0 := by
    intro k hk i
    have h2 : DirInBin n cz (2 * Real.pi / m) sp ((if front then 0 else ringStart n cz n) + j) (seen front (L k).θ) ((L k).φ + Real.pi) := by
      rw [hhalf, dirInBin_turn]; exact hk.2
    unfold filedIn
    by_cases e : i = (if front then 0 else ringStart n cz n) + j
    · rw [if_pos e, if_pos (by rw [e]; exact h2)]
    · rw [if_neg e, if_neg fun h => e (dirInBin_unique hn hs0 h h2)]
  have hzE : ∀ i ∈ hemisphere n cz front, i ≠ (if front then 0 else ringStart n cz n) + j → E i = 0 := by
    intro i hi hne
    show (∫ u, (M u).out i j ∂(Measure.pi fun _ : Fin K => uniform N)) = 0
    rw [hE i, Finset.sum_eq_zero, zero_div]
    intro k hk
    rw [hf k (by simpa using hk), if_neg hne, mul_zero, zero_add]
    by_cases hk0 : (tab 1 (L k).θ).2.1 = 0
    · rw [hk0, zero_mul]
    · obtain ⟨r', h1, h2⟩ := ht k hk0
      rw [h2, if_neg fun h : i = r' => hdis i hi (h ▸ h1), mul_zero]
  have eE : ∑ i ∈ hemisphere n cz front, E i = E ((if front then 0 else ringStart n cz n) + j) :=
    Finset.sum_eq_single _ hzE fun h => absurd hown h
  have hbin : binR = (if front then 0 else ringStart n cz n) + j := by
    obtain ⟨i, k, row', hi, hk, hjk, hfi, hrow', hget, -⟩ := tmm_incident n hn cz hc sp front (2 * Real.pi / m) hjlt
    have hrr : row = row' := by
      have h1 : tmmRow (makeAngleVector n (2 * Real.pi / m) cz sp) front j = some row := by
        unfold tmmRow
        rw [← hrow]
        have : (makeAngleVector n (2 * Real.pi / m) cz sp).half = ringStart n cz n := half_eq n hn cz sp _
        cases front <;> simp [this]
      rw [h1] at hget; exact Option.some.inj hget
    subst hrr
    have hmid := mid_inBin n hn (2 * Real.pi / m) cz hs0 sp hi hk
    have hlast := azimuthEdge_strictMono n cz (2 * Real.pi / m) hs0 i k (k + 1) (by omega) (by omega)
    have hlt : azimuthMid n cz (2 * Real.pi / m) i k < 2 * Real.pi / m := by
      have h1 : azimuthMid n cz (2 * Real.pi / m) i k < azimuthEdge n cz (2 * Real.pi / m) i (k + 1) := by unfold azimuthMid; linarith
      have h2 : azimuthEdge n cz (2 * Real.pi / m) i (k + 1) ≤ azimuthEdge n cz (2 * Real.pi / m) i (ringSize n cz i) := by
        rcases Nat.lt_or_ge (k + 1) (ringSize n cz i) with h | h
        · exact (azimuthEdge_strictMono n cz _ hs0 i _ _ h le_rfl).le
        · rw [show k + 1 = ringSize n cz i by omega]
      rw [azimuthEdge_last n cz _ i (by omega)] at h2
      linarith
    have hgt := (inBin_azimuth hs0 hk hmid).1
    have hoff : OffEdge (2 * Real.pi / m) row.phi := by
      rw [hrow']
      intro z hz
      simp only at hz
      rw [hz] at hlt hgt
      have h1 : (z : ℝ) < 1 := by by_contra h; rw [not_lt] at h; nlinarith
      have h2 : (0 : ℝ) < z := by by_contra h; rw [not_lt] at h; nlinarith
      have h3 : z < 1 := by exact_mod_cast h1
      have h4 : 0 < z := by exact_mod_cast h2
      omega
    have hd := hR4 (by rw [hhalf, offEdge_turn]; exact hoff)
    rw [hhalf, dirInBin_turn] at hd
    refine dirInBin_unique hn hs0 hd ⟨i, k, 0, hi, hk, hjk, ?_⟩
    rw [hrow']
    simpa using hmid
  have eC : ∑ i ∈ hemisphere n cz front, col i = col ((if front then 0 else ringStart n cz n) + j) := by rw [hcR, ← hbin, hR3]
  exact ⟨by rw [← eE, ← eC]; exact hER, eE, eC⟩

end

/-! ## Example: a planar surface of the package, one ray at 45° -/

noncomputable def flatLaunch : Launch := ⟨Real.pi / 4, Real.pi / 4, 3, 4, fun _ => ⟨planarTris 10 0, 0, 0, 0, 0, fun _ d _ s => (d, s, none)⟩⟩

theorem flatLaunch_ok : FlatLaunch exTexture 4 flatLaunch where
  angle := by simp only [flatLaunch]; constructor <;> linarith [Real.pi_pos]
  azimuth := by
    have hp := Real.pi_pos
    constructor <;> intro q hq <;> simp only [flatLaunch] at hq <;> push_cast at hq
    · have h : Real.pi * (1 - 2 * q) = 0 := by linarith
      rcases mul_eq_zero.mp h with h | h
      · linarith
      · have : (1 - 2 * q : ℤ) = 0 := by exact_mod_cast h
        omega
    · have h : Real.pi * (5 - 2 * q) = 0 := by linarith
      rcases mul_eq_zero.mp h with h | h
      · linarith
      · have : (5 - 2 * q : ℤ) = 0 := by exact_mod_cast h
        omega
  flat := fun _ => planarTris_flat (by norm_num) 0

/-- Half is reflected, a quarter transmitted and a quarter absorbed. -/
noncomputable def quarterTab : ℤ → ℝ → ℝ × ℝ × List ℝ := fun _ _ => (1 / 2, 1 / 4, [1 / 4])

/-- One ring of bins in each hemisphere, four symmetry sectors. The absorbed fraction is a quarter on average. -/
example : ∃ (M : (Fin 1 → Fin 3 → ℝ) → RTMat) (j : ℕ),
    (∀ u, Inside u → rtMatrix (rtArgs 1 (2 * Real.pi / (4 : ℕ)) 1 .sin true true 1) ⟨fun _ _ => 0, fun _ => 0, fun _ => 0⟩ (List.ofFn fun k => flatLaunch.ray (flatLaunch.trace exTexture (tmmDraw 1 2 quarterTab) (u k))) = some (M u)) ∧
    ∫ u, ∑ l ∈ Finset.range 1, (M u).A l j ∂(Measure.pi fun _ : Fin 1 => uniform 3) = 1 / 4 := by
  classical
  have htab : ∀ side θ, 0 ≤ (quarterTab side θ).1 ∧ 0 ≤ (quarterTab side θ).2.1 ∧ (quarterTab side θ).2.2.length = 1 ∧ (∀ a ∈ (quarterTab side θ).2.2, 0 ≤ a) ∧
      (quarterTab side θ).1 + (quarterTab side θ).2.1 + (quarterTab side θ).2.2.sum = 1 := by intro side θ; simp [quarterTab]; norm_num
  have hcrit : ∀ k : Fin 1, (quarterTab 1 ((fun _ => flatLaunch) k : Launch).θ).2.1 = 0 ∨ sinRefr true 1 2 ((fun _ => flatLaunch) k : Launch).θ < 1 := by
    intro k
    right
    have : Real.sin (Real.pi / 4) ≤ 1 := Real.sin_le_one _
    have hn : ‖(1 / 2 : ℂ)‖ = 1 / 2 := by simp
    simp only [sinRefr, flatLaunch, if_true, hn]
    linarith
  have hruns := fun u hu => (C152_runs exTexture 1 2 (by simp) (by simp) (by simp) (by simp) (by norm_num [exTexture]) (by norm_num [exTexture]) (by norm_num [exTexture]) (by norm_num [exTexture]) 1 1 one_pos 1 one_pos 4 (by norm_num) .sin true
    quarterTab htab (K := 1) (N := 3) le_rfl (fun _ => flatLaunch) (fun _ => flatLaunch_ok) hcrit u hu ⟨fun _ _ => 0, fun _ => 0, fun _ => 0⟩).2
  haveI : Nonempty RTMat := by
    obtain ⟨M, -⟩ := hruns (fun _ _ => 1 / 2) (fun _ _ => by norm_num)
    exact ⟨M⟩
  choose! M hM using hruns
  obtain ⟨h0, h1⟩ := flatLaunch_ok.angle
  have hpi := Real.pi_pos
  obtain ⟨i, k, -, -, -, hd, -⟩ := dirInBin_fold (n := 1) one_pos (c := 1) one_pos 4 (by norm_num) (sp := .sin) h0 (by linarith) flatLaunch_ok.azimuth.1 true true 0
  have hlt := (dirInBin_half one_pos hd).2.mpr h1.le
  have hinc : ∃ _ : Fin 1, IncidentIn 1 1 (2 * Real.pi / (4 : ℕ)) .sin true (ringStart 1 1 i + k) (flatLaunch.ray none) := ⟨0, hlt, by simpa [seen, Launch.ray] using hd⟩
  refine ⟨M, ringStart 1 1 i + k, hM, ?_⟩
  have := (C152_coated exTexture 1 2 (by simp) (by simp) (by simp) (by simp) (by norm_num [exTexture]) (by norm_num [exTexture]) (by norm_num [exTexture]) (by norm_num [exTexture]) 1 1 one_pos 1 one_pos 4 (by norm_num) .sin true
    quarterTab htab (K := 1) (N := 3) le_rfl (fun _ => flatLaunch) (fun _ => flatLaunch_ok) hcrit (fun _ => ⟨fun _ _ => 0, fun _ => 0, fun _ => 0⟩) M hM _ hinc).2
  rw [this]
  obtain ⟨-, h⟩ := hinc
  rw [Finset.filter_true_of_mem (fun _ _ => h)]
  simp [quarterTab]
  norm_num

end Rayflare
