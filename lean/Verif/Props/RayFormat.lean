import Verif.Lemmas.RayFormat2

/-!
# Properties C12, C13: switching between "outgoing" and "incoming" ray format
-/

namespace Rayflare

open Real Rayflare.Np Rayflare.Model Rayflare.Spec Rayflare.Lemmas

/-- Row `b` of the grid is the reversed direction of row `a`: polar angle `π - θ`, azimuth
`φ + π` up to multiples of the symmetry angle, with error at most `tol`. -/
def Reversed (g : Grid) (s tol : ℝ) (a b : ℕ) : Prop :=
  ∃ rowa rowb, g.angleVector[a]? = some rowa ∧ g.angleVector[b]? = some rowb ∧
    rowb.theta = π - rowa.theta ∧ ∃ z : ℤ, |rowb.phi - (rowa.phi + π + z * s)| ≤ tol

/-! ## C12 -/

theorem upToDown_column (n : ℕ) (hn : 0 < n) (m : ℕ) (hm : 1 < m) (c : ℝ) (hc : 0 < c) (sp : Spacing)
    {i k : ℕ} (hi : i < n) (hk : k < ringSize n c i) (heven : Even m ∨ Even (ringSize n c i)) :
    let g := makeAngleVector n (2 * π / m) c sp
    ∃ k' < ringSize n c i, (Even m → k' = k) ∧
      ringStart n c n ≤ ringStart n c (2 * n - 1 - i) + k' ∧
      UnitColumn g.half (upToDown g (2 * π / m)) (ringStart n c i + k)
        (ringStart n c (2 * n - 1 - i) + k' - ringStart n c n) ∧
      Reversed g (2 * π / m) 0 (ringStart n c i + k) (ringStart n c (2 * n - 1 - i) + k') := by
  intro g
  obtain ⟨k', hk', hb, he, z, hz⟩ := outBin_centre n hn m hm c hc sp (show i < 2 * n by omega) hk heven
  have hsym := ringSize_symm n c (show i < 2 * n by omega)
  refine ⟨k', hk', he, bin_ge_half n c (by omega), ?_, ?_⟩
  · have := upToDown_unit n hn _ c sp hi hk hb (bin_ge_half n c (by omega))
      (bin_lt_len n c (by omega) (by omega))
    rw [show g.half = ringStart n c n from half_eq n hn (2 * π / m) c sp]
    exact this
  · refine ⟨_, _, angleVector_get n hn _ c sp (show i < 2 * n by omega) hk,
      angleVector_get n hn _ c sp (show 2 * n - 1 - i < 2 * n by omega) (show k' < _ by omega), ?_, z, ?_⟩
    · simp only; exact polarMid_symm n hn sp (by omega)
    · simp only; rw [hz]; simp

theorem downToUp_column (n : ℕ) (hn : 0 < n) (m : ℕ) (hm : 1 < m) (c : ℝ) (hc : 0 < c) (sp : Spacing)
    {i k : ℕ} (hi : n ≤ i) (hi2 : i < 2 * n) (hk : k < ringSize n c i)
    (heven : Even m ∨ Even (ringSize n c i)) :
    let g := makeAngleVector n (2 * π / m) c sp
    ∃ k' < ringSize n c i, (Even m → k' = k) ∧
      UnitColumn g.half (downToUp g (2 * π / m)) (ringStart n c i + k - ringStart n c n)
        (ringStart n c (2 * n - 1 - i) + k') ∧
      Reversed g (2 * π / m) 0 (ringStart n c i + k) (ringStart n c (2 * n - 1 - i) + k') := by
  intro g
  obtain ⟨k', hk', hb, he, z, hz⟩ := outBin_centre n hn m hm c hc sp hi2 hk heven
  have hsym := ringSize_symm n c hi2
  refine ⟨k', hk', he, ?_, ?_⟩
  · have := downToUp_unit n hn _ c sp hi hi2 hk hb (bin_lt_half n c (by omega) (by omega))
    rw [show g.half = ringStart n c n from half_eq n hn (2 * π / m) c sp]
    exact this
  · refine ⟨_, _, angleVector_get n hn _ c sp hi2 hk,
      angleVector_get n hn _ c sp (show 2 * n - 1 - i < 2 * n by omega) (show k' < _ by omega), ?_, z, ?_⟩
    · simp only; exact polarMid_symm n hn sp hi2
    · simp only; rw [hz]; simp

/-- **C12.** For an even number `m = 2q` of symmetry sectors both format changes move the power of each bin to
exactly one bin, the one of the reversed direction; they preserve total power and sign. -/
theorem C12_format_change (n : ℕ) (hn : 0 < n) (q : ℕ) (hq : 0 < q) (c : ℝ) (hc : 0 < c)
    (sp : Spacing) :
    let s := 2 * π / ((2 * q : ℕ) : ℝ)
    let g := makeAngleVector n s c sp
    let h := g.angleVector.length / 2
    (∀ j < h, ∃ r, UnitColumn h (upToDown g s) j r ∧ Reversed g s 0 j (h + r)) ∧
    (∀ j < h, ∃ r, UnitColumn h (downToUp g s) j r ∧ Reversed g s 0 (h + j) r) ∧
    PreservesPower h (upToDown g s) ∧ PreservesPower h (downToUp g s) ∧
    PreservesNonneg h (upToDown g s) ∧ PreservesNonneg h (downToUp g s) := by
  intro s g h
  have hh : h = ringStart n c n := half_eq n hn s c sp
  have hh' : g.half = ringStart n c n := half_eq n hn s c sp
  have hev : ∀ i, Even (2 * q) ∨ Even (ringSize n c i) := fun _ => Or.inl (by simp)
  have A : ∀ j < h, ∃ r, UnitColumn h (upToDown g s) j r ∧ Reversed g s 0 j (h + r) := by
    intro j hj
    rw [hh] at hj
    obtain ⟨i, k, hi, hk, rfl⟩ := upper_decomp n c hj
    obtain ⟨k', _, _, hge, hu, hr⟩ := upToDown_column n hn (2 * q) (by omega) c hc sp hi hk (hev i)
    refine ⟨_, hu, ?_⟩
    rw [hh, show ringStart n c n + (ringStart n c (2 * n - 1 - i) + k' - ringStart n c n)
      = ringStart n c (2 * n - 1 - i) + k' by omega]
    exact hr
  have B : ∀ j < h, ∃ r, UnitColumn h (downToUp g s) j r ∧ Reversed g s 0 (h + j) r := by
    intro j hj
    rw [hh] at hj
    obtain ⟨i, k, hi, hi2, hk, e⟩ := lower_decomp n c hj
    obtain ⟨k', _, _, hu, hr⟩ := downToUp_column n hn (2 * q) (by omega) c hc sp hi hi2 hk (hev i)
    rw [← e, show ringStart n c n + j - ringStart n c n = j by omega] at hu
    rw [← e, ← hh] at hr
    exact ⟨_, hu, hr⟩
  have A' : ∀ j < h, ∃ r, UnitColumn h (upToDown g s) j r := fun j hj => (A j hj).imp fun _ h => h.1
  have B' : ∀ j < h, ∃ r, UnitColumn h (downToUp g s) j r := fun j hj => (B j hj).imp fun _ h => h.1
  exact ⟨A, B, preservesPower_of_unitColumns A', preservesPower_of_unitColumns B',
    preservesNonneg_of_unitColumns A', preservesNonneg_of_unitColumns B'⟩

/-- **C12, round trip.** Down-to-up after up-to-down is the identity (even number of sectors). -/
theorem C12_round_trip (n : ℕ) (hn : 0 < n) (q : ℕ) (hq : 0 < q) (c : ℝ) (hc : 0 < c)
    (sp : Spacing) :
    let s := 2 * π / ((2 * q : ℕ) : ℝ)
    let g := makeAngleVector n s c sp
    let h := g.angleVector.length / 2
    ∀ r < h, ∀ j < h, ∑ t ∈ Finset.range h, downToUp g s r t * upToDown g s t j
      = if r = j then 1 else 0 := by
  intro s g h r hr j hj
  have hh : h = ringStart n c n := half_eq n hn s c sp
  have hev : ∀ i, Even (2 * q) ∨ Even (ringSize n c i) := fun _ => Or.inl (by simp)
  obtain ⟨i, k, hi, hk, rfl⟩ := upper_decomp n c (hh ▸ hj)
  obtain ⟨k', hk', hkk, hge, hu, _⟩ := upToDown_column n hn (2 * q) (by omega) c hc sp hi hk (hev i)
  have hsym := ringSize_symm n c (show i < 2 * n by omega)
  have e := hkk (by simp)
  subst e
  obtain ⟨k'', hk'', hkk', hu', _⟩ := downToUp_column n hn (2 * q) (by omega) c hc sp
    (show n ≤ 2 * n - 1 - i by omega) (show 2 * n - 1 - i < 2 * n by omega)
    (show k' < ringSize n c (2 * n - 1 - i) by omega) (hev _)
  have e := hkk' (by simp)
  subst e
  have : ∀ t ∈ Finset.range h, downToUp g s r t * upToDown g s t (ringStart n c i + k'')
      = if t = ringStart n c (2 * n - 1 - i) + k'' - ringStart n c n then downToUp g s r t else 0 := by
    intro t ht
    rw [hu.2 t (Finset.mem_range.mp ht)]
    split <;> simp
  rw [Finset.sum_congr rfl this, Finset.sum_ite_eq' (Finset.range h), if_pos (show _ ∈ Finset.range h from Finset.mem_range.mpr hu.1),
    hu'.2 r hr, show 2 * n - 1 - (2 * n - 1 - i) = i by omega]

/-- **C12, full azimuth (`phi_sym = 2π`).** Unit columns, mirrored polar angle, azimuth opposite up to half a bin
width plus 3e-4 (the code folds with 2π - 1e-4), total power preserved. -/
theorem C12_format_change_full (n : ℕ) (hn : 0 < n) (c : ℝ) (hc : 0 < c) (sp : Spacing) :
    let g := makeAngleVector n (2 * π) c sp
    let h := g.angleVector.length / 2
    (∀ j < h, ∃ r row, UnitColumn h (upToDown g (2 * π)) j r ∧ g.angleVector[j]? = some row ∧
      Reversed g (2 * π) (π / ringSize n c row.ring + 0.0003) j (h + r)) ∧
    (∀ j < h, ∃ r row, UnitColumn h (downToUp g (2 * π)) j r ∧ g.angleVector[h + j]? = some row ∧
      Reversed g (2 * π) (π / ringSize n c row.ring + 0.0003) (h + j) r) ∧
    PreservesPower h (upToDown g (2 * π)) ∧ PreservesPower h (downToUp g (2 * π)) ∧
    PreservesNonneg h (upToDown g (2 * π)) ∧ PreservesNonneg h (downToUp g (2 * π)) := by
  intro g h
  have hh : h = ringStart n c n := half_eq n hn (2 * π) c sp
  have A : ∀ j < h, ∃ r row, UnitColumn h (upToDown g (2 * π)) j r ∧ g.angleVector[j]? = some row ∧
      Reversed g (2 * π) (π / ringSize n c row.ring + 0.0003) j (h + r) := by
    intro j hj
    rw [hh] at hj
    obtain ⟨i, k, hi, hk, rfl⟩ := upper_decomp n c hj
    obtain ⟨k', hk', hb, z, hz⟩ := outBin_two_pi n hn c hc sp (show i < 2 * n by omega) hk
    have hsym := ringSize_symm n c (show i < 2 * n by omega)
    have hge := bin_ge_half n c (k := k') (show n ≤ 2 * n - 1 - i by omega)
    have hget := angleVector_get n hn (2 * π) c sp (show i < 2 * n by omega) hk
    refine ⟨_, _, hh ▸ upToDown_unit n hn _ c sp hi hk hb hge (bin_lt_len n c (by omega) (by omega)),
      hget, ?_⟩
    rw [hh, show ringStart n c n + (ringStart n c (2 * n - 1 - i) + k' - ringStart n c n)
      = ringStart n c (2 * n - 1 - i) + k' by omega]
    exact ⟨_, _, hget, angleVector_get n hn _ c sp (show 2 * n - 1 - i < 2 * n by omega)
      (show k' < _ by omega), polarMid_symm n hn sp (by omega), z, hz⟩
  have B : ∀ j < h, ∃ r row, UnitColumn h (downToUp g (2 * π)) j r ∧
      g.angleVector[h + j]? = some row ∧
      Reversed g (2 * π) (π / ringSize n c row.ring + 0.0003) (h + j) r := by
    intro j hj
    rw [hh] at hj
    obtain ⟨i, k, hi, hi2, hk, e⟩ := lower_decomp n c hj
    obtain ⟨k', hk', hb, z, hz⟩ := outBin_two_pi n hn c hc sp hi2 hk
    have hsym := ringSize_symm n c hi2
    have hget := angleVector_get n hn (2 * π) c sp hi2 hk
    have hu := downToUp_unit n hn _ c sp hi hi2 hk hb
      (bin_lt_half n c (show 2 * n - 1 - i < n by omega) (by omega))
    rw [← e, show ringStart n c n + j - ringStart n c n = j by omega] at hu
    refine ⟨_, _, hh ▸ hu, by rw [hh, e]; exact hget, ?_⟩
    rw [hh, e]
    exact ⟨_, _, hget, angleVector_get n hn _ c sp (show 2 * n - 1 - i < 2 * n by omega)
      (show k' < _ by omega), polarMid_symm n hn sp hi2, z, hz⟩
  have A' : ∀ j < h, ∃ r, UnitColumn h (upToDown g (2 * π)) j r :=
    fun j hj => by obtain ⟨r, _, h, _⟩ := A j hj; exact ⟨r, h⟩
  have B' : ∀ j < h, ∃ r, UnitColumn h (downToUp g (2 * π)) j r :=
    fun j hj => by obtain ⟨r, _, h, _⟩ := B j hj; exact ⟨r, h⟩
  exact ⟨A, B, preservesPower_of_unitColumns A', preservesPower_of_unitColumns B',
    preservesNonneg_of_unitColumns A', preservesNonneg_of_unitColumns B'⟩

/-- Non-vacuity: the default grid (four sectors, 50 rings) has a non-empty half. -/
example : 0 < (makeAngleVector 50 (2 * π / ((2 * 2 : ℕ) : ℝ)) (1 / 4) .sin).angleVector.length / 2 := by
  rw [show (makeAngleVector 50 (2 * π / ((2 * 2 : ℕ) : ℝ)) (1 / 4) .sin).angleVector.length / 2
    = ringStart 50 (1 / 4) 50 from half_eq 50 (by norm_num) _ _ _]
  have := bin_lt_half 50 (1 / 4) (show 0 < 50 by norm_num) (ringSize_pos 50 (1 / 4) (by norm_num)
    (show 0 < 2 * 50 by norm_num))
  omega

/-! ## C13 -/

/-- **C13 (partial).** For an odd number `m ≥ 3` of sectors, bins of rings with an even number of
azimuth bins are still moved to the bin of the reversed direction.  Missing: rings with an odd
number of bins, where the property is false (`C13_fails`). -/
theorem C13_even_rings_partial (n : ℕ) (hn : 0 < n) (m : ℕ) (hm : 1 < m) (c : ℝ) (hc : 0 < c)
    (sp : Spacing) :
    let s := 2 * π / (m : ℝ)
    let g := makeAngleVector n s c sp
    let h := g.angleVector.length / 2
    (∀ j < h, ∀ row, g.angleVector[j]? = some row → Even (ringSize n c row.ring) →
      ∃ r, UnitColumn h (upToDown g s) j r ∧ Reversed g s 0 j (h + r)) ∧
    (∀ j < h, ∀ row, g.angleVector[h + j]? = some row → Even (ringSize n c row.ring) →
      ∃ r, UnitColumn h (downToUp g s) j r ∧ Reversed g s 0 (h + j) r) := by
  intro s g h
  have hh : h = ringStart n c n := half_eq n hn s c sp
  constructor
  · intro j hj row hrow hev
    rw [hh] at hj
    obtain ⟨i, k, hi, hk, rfl⟩ := upper_decomp n c hj
    rw [angleVector_get n hn s c sp (show i < 2 * n by omega) hk, Option.some.injEq] at hrow
    rw [← hrow] at hev
    obtain ⟨k', _, _, hge, hu, hr⟩ := upToDown_column n hn m hm c hc sp hi hk (Or.inr hev)
    refine ⟨_, hu, ?_⟩
    rw [hh, show ringStart n c n + (ringStart n c (2 * n - 1 - i) + k' - ringStart n c n)
      = ringStart n c (2 * n - 1 - i) + k' by omega]
    exact hr
  · intro j hj row hrow hev
    rw [hh] at hj hrow
    obtain ⟨i, k, hi, hi2, hk, e⟩ := lower_decomp n c hj
    rw [e, angleVector_get n hn s c sp hi2 hk, Option.some.injEq] at hrow
    rw [← hrow] at hev
    obtain ⟨k', _, _, hu, hr⟩ := downToUp_column n hn m hm c hc sp hi hi2 hk (Or.inr hev)
    rw [← e, show ringStart n c n + j - ringStart n c n = j by omega] at hu
    rw [← e, ← hh] at hr
    exact ⟨_, hu, hr⟩

/-- **C13 fails**: for every odd number `m ≥ 3` of sectors and every grid with `c_azimuth ≤ 1`, the
power in the last bin (straight down) is lost when changing from down to up format: its
column is zero, so total power is not preserved. -/
theorem C13_fails (n : ℕ) (hn : 0 < n) (m : ℕ) (hm : 1 < m) (hodd : Odd m) (c : ℝ) (hc : 0 < c)
    (hc1 : c ≤ 1) (sp : Spacing) :
    let s := 2 * π / (m : ℝ)
    let g := makeAngleVector n s c sp
    let h := g.angleVector.length / 2
    0 < h ∧ (∀ r < h, downToUp g s r (h - 1) = 0) ∧ ¬ PreservesPower h (downToUp g s) := by
  intro s g h
  have hs : 0 < s := by positivity
  have hh : h = ringStart n c n := half_eq n hn s c sp
  have hlen : g.angleVector.length = ringStart n c (2 * n) := angleVector_length n hn s c sp
  have h2 := ringStart_half n c
  have hN : ringSize n c (2 * n - 1) = 1 := by
    unfold ringSize
    rw [show min (2 * n - 1 + 1) (2 * n - (2 * n - 1)) = 1 by omega, Nat.ceil_eq_iff (by norm_num)]
    norm_num; exact ⟨hc, hc1⟩
  have hN0 := ringSize_pos n c hc (show 0 < 2 * n by omega)
  have hpos : 0 < h := by
    rw [hh]; have := bin_lt_half n c hn hN0; omega
  have hS := ringStart_succ n c (2 * n - 1)
  rw [show 2 * n - 1 + 1 = 2 * n by omega, hN] at hS
  have hzero : ∀ r < h, downToUp g s r (h - 1) = 0 := by
    intro r hr
    unfold downToUp outToIn
    have hidx : g.half + (h - 1) = ringStart n c (2 * n - 1) + 0 := by
      rw [show g.half = h from rfl]; omega
    rw [hidx, angleVector_get n hn s c sp (show 2 * n - 1 < 2 * n by omega) (by omega),
      Option.bind_some]
    unfold outBin binOf
    simp only
    rw [outToInSym_ne m hm, fold_opposite_zero n m hodd c (show ringSize n c (2 * n - 1) = 2 * 0 + 1 by omega),
      thetaBin_mirror n hn s c sp (show 2 * n - 1 < 2 * n by omega),
      show 2 * n - 1 - (2 * n - 1) = 0 by omega,
      overallBin_zero n hn s c hs hc sp (show 0 < 2 * n by omega), Option.bind_some, ringStart_zero,
      hlen]
    rw [if_neg]
    unfold pyIndex
    have hP : 0 < ringStart n c (2 * n) := by omega
    rw [if_neg (by norm_num), if_pos ⟨by push_cast; omega, by norm_num⟩]
    simp only [Option.some.injEq]
    push_cast
    omega
  refine ⟨hpos, hzero, ?_⟩
  intro hP
  have := hP (fun j => if j = h - 1 then 1 else 0)
  have hr : ∑ j ∈ Finset.range h, (if j = h - 1 then (1 : ℝ) else 0) = 1 := by
    rw [Finset.sum_ite_eq' (Finset.range h), if_pos (Finset.mem_range.mpr (by omega))]
  rw [hr] at this
  have hl : ∑ r ∈ Finset.range h, ∑ j ∈ Finset.range h,
      downToUp g s r j * (if j = h - 1 then (1 : ℝ) else 0) = 0 := by
    apply Finset.sum_eq_zero
    intro r hr
    apply Finset.sum_eq_zero
    intro j _
    split
    · rename_i h'; rw [h', hzero r (Finset.mem_range.mp hr)]; simp
    · simp
  rw [hl] at this
  exact zero_ne_one this

/-- Non-vacuity: five-fold symmetry on an otherwise default grid. -/
example : ¬ PreservesPower
    ((makeAngleVector 50 (2 * π / ((5 : ℕ) : ℝ)) (1 / 4) .sin).angleVector.length / 2)
    (downToUp (makeAngleVector 50 (2 * π / ((5 : ℕ) : ℝ)) (1 / 4) .sin) (2 * π / ((5 : ℕ) : ℝ))) :=
  (C13_fails 50 (by norm_num) 5 (by norm_num) (by decide) (1 / 4) (by norm_num) (by norm_num) .sin).2.2

end Rayflare
