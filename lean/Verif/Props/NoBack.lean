import Verif.Spec.NoBack
import Mathlib.Tactic.Linarith
import Mathlib.Tactic.NormNum
import Mathlib.Tactic.Ring

/-!
# Property C179: `no_back_reflection` of `tmm_structure`
-/

namespace Rayflare

open Rayflare.Np Rayflare.Model Rayflare.Spec

/-! ## Helper lemmas -/

theorem inner_answer {b : List ℝ} {first last : ℝ} {l : List ℝ} : inner (first :: (l ++ b) ++ [last]) = l ++ b := by
  simp only [inner, List.cons_append, List.tail_cons, List.dropLast_concat]

theorem zipWith_half_append {a b c e : List ℝ} (h : a.length = c.length) :
    List.zipWith (fun x y => (0.5 : ℝ) * (x + y)) (a ++ b) (c ++ e) = List.zipWith (fun x y => (0.5 : ℝ) * (x + y)) a c ++ List.zipWith (fun x y => (0.5 : ℝ) * (x + y)) b e :=
  List.zipWith_append h

theorem sum_half_zip : ∀ {a b : List ℝ}, a.length = b.length → (List.zipWith (fun x y => (0.5 : ℝ) * (x + y)) a b).sum = (a.sum + b.sum) / 2
  | [], [], _ => by simp
  | x :: a, y :: b, h => by
    simp only [List.zipWith_cons_cons, List.sum_cons, sum_half_zip (by simpa using h : a.length = b.length)]
    ring
  | [], _ :: _, h => by simp at h
  | _ :: _, [], h => by simp at h

theorem clip_eq {l : List ℝ} (h : ∀ a ∈ l, 0 ≤ a) : l.map (fun a => if a < 0 then 0 else a) = l := by
  conv_rhs => rw [← List.map_id l]
  refine List.map_congr_left fun a ha => ?_
  rw [if_neg (not_lt.2 (h a ha))]
  rfl

theorem rescale_eq {l : List ℝ} {t : ℝ} (ht : l.sum = t) (h : l.sum ≠ 0) : l.map (fun a => a * t / l.sum) = l := by
  conv_rhs => rw [← List.map_id l]
  refine List.map_congr_left fun a _ => ?_
  rw [← ht, mul_div_assoc, div_self h, mul_one]
  rfl

/-- The incoherent calculation for one polarisation when the solver's answer adds up. -/
theorem calcIncPol_sums {o : Solved} {m : List ℝ} {first last : ℝ} (hA : o.A = first :: m ++ [last]) (hn : ∀ a ∈ m, 0 ≤ a) (hsum : m.sum = 1 - o.R - o.T) : calcIncPol o = ⟨o.R, o.T, m.sum, m⟩ := by
  have hin : inner (o.A.map fun a => if a < 0 then 0 else a) = m := by
    rw [hA, List.map_append, List.map_cons, clip_eq hn]
    simpa using inner_answer (b := []) (l := m)
  have h0 : 0 ≤ m.sum := List.sum_nonneg hn
  unfold calcIncPol
  simp only [hin]
  rw [if_neg (by linarith), ← hsum]
  congr 1
  by_cases h : m.sum = 0
  · simp only [h, ne_eq, not_true_eq_false, if_false, List.map_id']
  · simp only [ne_eq, h, not_false_eq_true, if_true]
    exact rescale_eq rfl h

theorem calcIncU_sums {p s : Solved} {m : List ℝ} (hA : List.zipWith (fun a b => (0.5 : ℝ) * (a + b)) (inner p.A) (inner s.A) = m) (hsum : m.sum = 1 - (p.R + s.R) / 2 - (p.T + s.T) / 2) (h0 : m.sum ≠ 0) (junk : ℕ → ℝ) :
    calcIncU p s junk = ⟨(p.R + s.R) / 2, (p.T + s.T) / 2, m.sum, m⟩ := by
  have e1 : (0.5 : ℝ) * (p.R + s.R) = (p.R + s.R) / 2 := by ring
  have e2 : (0.5 : ℝ) * (p.T + s.T) = (p.T + s.T) / 2 := by ring
  unfold calcIncU
  simp only [hA, e1, e2, ← hsum]
  congr 1
  have : (fun (i : ℕ) (a : ℝ) => divideWhere (decide (m.sum ≠ 0)) (junk i) (a * m.sum) m.sum) = fun _ a => a := by
    funext i a
    simp only [divideWhere, h0, ne_eq, not_false_eq_true, decide_true, if_true]
    field_simp
  rw [this]
  apply List.ext_getElem <;> simp

theorem calcCohU_sums {p s : Solved} {m : List ℝ} (hA : List.zipWith (fun a b => (0.5 : ℝ) * (a + b)) (inner p.A) (inner s.A) = m) (hsum : m.sum = 1 - (p.R + s.R) / 2 - (p.T + s.T) / 2) :
    calcCohU p s = ⟨(p.R + s.R) / 2, (p.T + s.T) / 2, m.sum, m⟩ := by
  have e1 : (0.5 : ℝ) * (p.R + s.R) = (p.R + s.R) / 2 := by ring
  have e2 : (0.5 : ℝ) * (p.T + s.T) = (p.T + s.T) / 2 := by ring
  unfold calcCohU
  simp only [hA, e1, e2, ← hsum]

theorem answer_sum {nb : Bool} {R t : ℝ} {l : List ℝ} {o : Solved} (h : Answers nb R l t o) : (l ++ (if nb then [t - o.T] else [])).sum = 1 - o.R - o.T := by
  cases nb with
  | true => simp only [if_true, List.sum_append, List.sum_singleton]; linarith [h.total, h.refl]
  | false => simp only [Bool.false_eq_true, if_false, List.append_nil]; linarith [h.total, h.refl, h.trans rfl]

theorem answer_nonneg {nb : Bool} {R t : ℝ} {l : List ℝ} {o : Solved} (h : Answers nb R l t o) : ∀ a ∈ l ++ (if nb then [t - o.T] else []), 0 ≤ a := by
  intro a ha
  rcases List.mem_append.1 ha with ha | ha
  · exact h.nonneg.1 a ha
  · cases nb with
    | true =>
      simp only [if_true, List.mem_singleton] at ha
      linarith [h.nonneg.2.2]
    | false => simp at ha

/-- Both polarisations: the mean of what the solver lists. -/
theorem answer_mean {nb : Bool} {Rp Rs tp ts : ℝ} {lp ls : List ℝ} {p s : Solved} (hp : Answers nb Rp lp tp p) (hs : Answers nb Rs ls ts s) (hlen : lp.length = ls.length) :
    List.zipWith (fun a b => (0.5 : ℝ) * (a + b)) (inner p.A) (inner s.A) =
      List.zipWith (fun a b => (0.5 : ℝ) * (a + b)) lp ls ++ (if nb then [(tp + ts) / 2 - (p.T + s.T) / 2] else []) := by
  obtain ⟨f1, a1, e1⟩ := hp.listed
  obtain ⟨f2, a2, e2⟩ := hs.listed
  rw [e1, e2, inner_answer, inner_answer, zipWith_half_append hlen]
  congr 1
  cases nb with
  | true =>
    simp only [if_true, List.zipWith_cons_cons, List.zipWith_nil_left]
    congr 1
    ring
  | false => simp

theorem answer_mean_sum {nb : Bool} {Rp Rs tp ts : ℝ} {lp ls : List ℝ} {p s : Solved} (hp : Answers nb Rp lp tp p) (hs : Answers nb Rs ls ts s) (hlen : lp.length = ls.length) :
    (List.zipWith (fun a b => (0.5 : ℝ) * (a + b)) lp ls ++ (if nb then [(tp + ts) / 2 - (p.T + s.T) / 2] else [])).sum = 1 - (p.R + s.R) / 2 - (p.T + s.T) / 2 := by
  rw [List.sum_append, sum_half_zip hlen]
  have h1 := hp.total; have h2 := hs.total; have h3 := hp.refl; have h4 := hs.refl
  cases nb with
  | true => simp only [if_true, List.sum_singleton]; linarith
  | false =>
    have h5 := hp.trans rfl
    have h6 := hs.trans rfl
    simp only [Bool.false_eq_true, if_false, List.sum_nil]
    linarith

/-! ## The property -/

/-- **C179, what is reported.** In each of the four kinds of calculation (coherent or not, one polarisation or unpolarised) the results are those of the structure with the absorbing medium of `no_back_reflection`
as one more layer: with the option its absorption is listed after that of the layers and is part of `A`, and only what gets through it counts as transmitted. -/
theorem C179_reported_partial (nb : Bool) {R t : ℝ} {l : List ℝ} {o : Solved} (h : Answers nb R l t o) :
    calcCohPol o = reportedRight R (l ++ if nb then [t - o.T] else []) o.T ∧ calcIncPol o = reportedRight R (l ++ if nb then [t - o.T] else []) o.T := by
  obtain ⟨f, a, e⟩ := h.listed
  have hs := answer_sum h
  constructor
  · unfold calcCohPol reportedRight
    rw [e, inner_answer, hs, h.refl]
  · rw [calcIncPol_sums e (answer_nonneg h) hs, h.refl]
    rfl

/-- **C179, unpolarised light.** As `C179_reported_partial`, for the means of the two polarisations. -/
theorem C179_unpolarised_partial (nb : Bool) {Rp Rs tp ts : ℝ} {lp ls : List ℝ} {p s : Solved} (hp : Answers nb Rp lp tp p) (hs : Answers nb Rs ls ts s) (hlen : lp.length = ls.length) (junk : ℕ → ℝ) :
    let m := List.zipWith (fun a b => (0.5 : ℝ) * (a + b)) lp ls
    let r := reportedRight ((Rp + Rs) / 2) (m ++ if nb then [(tp + ts) / 2 - (p.T + s.T) / 2] else []) ((p.T + s.T) / 2)
    calcCohU p s = r ∧ ((p.R + s.R) / 2 + (p.T + s.T) / 2 ≠ 1 → calcIncU p s junk = r) := by
  intro m r
  have hm := answer_mean hp hs hlen
  have hsum := answer_mean_sum hp hs hlen
  have hR : (Rp + Rs) / 2 = (p.R + s.R) / 2 := by rw [hp.refl, hs.refl]
  refine ⟨?_, fun hne => ?_⟩
  · rw [calcCohU_sums hm hsum, ← hR]
    rfl
  · rw [calcIncU_sums hm hsum (by rw [hsum]; intro h; exact hne (by linarith)), ← hR]
    rfl

/-- **C179 without the option.** Without `no_back_reflection` there is one entry per layer, and what gets through the layers is reported as transmitted. -/
theorem C179_off_partial {R t : ℝ} {l : List ℝ} {o : Solved} (h : Answers false R l t o) : calcCohPol o = reportedRight R l t ∧ calcIncPol o = reportedRight R l t := by
  have := C179_reported_partial false h
  simpa [h.trans rfl] using this

/-- **C179 is violated.** With `no_back_reflection` there is one more entry than layers; whenever the added medium absorbs anything, `T` is smaller than the light that gets through the layers and `A` larger than what the
layers absorb, by that amount: an added medium that absorbs everything (`T = 0`) makes `A = 1 - R`, whatever the layers absorb. -/
theorem C179_fails {R t : ℝ} {l : List ℝ} {o : Solved} (h : Answers true R l t o) : ∀ r ∈ [calcCohPol o, calcIncPol o],
    r.perLayer.length = l.length + 1 ∧ (o.T < t → r.T < t ∧ l.sum < r.A) ∧ r.A = l.sum + (t - r.T) ∧ (o.T = 0 → r.A = 1 - r.R) := by
  intro r hr
  obtain ⟨h1, h2⟩ := C179_reported_partial true h
  have hr' : r = reportedRight R (l ++ [t - o.T]) o.T := by
    rcases List.mem_cons.1 hr with rfl | hr
    · simpa using h1
    · rw [List.mem_singleton] at hr
      subst hr
      simpa using h2
  subst hr'
  have ht := h.total
  simp only [reportedRight, List.length_append, List.length_singleton, List.sum_append, List.sum_singleton]
  exact ⟨trivial, fun hlt => ⟨hlt, by linarith⟩, trivial, fun h0 => by linarith⟩

/-- A layer that absorbs a quarter of the light and lets half of it through, which the added medium absorbs. -/
theorem C179_example : Answers true (1 / 4) [1 / 4] (1 / 2) ⟨1 / 4, 0, [0, 1 / 4, 1 / 2, 0]⟩ ∧ Answers false (1 / 4) [1 / 4] (1 / 2) ⟨1 / 4, 1 / 2, [0, 1 / 4, 1 / 2]⟩ :=
  ⟨⟨rfl, ⟨0, 0, by norm_num⟩, by simp, by norm_num, by norm_num⟩, ⟨rfl, ⟨0, 1 / 2, by norm_num⟩, fun _ => rfl, by norm_num, by norm_num⟩⟩

/-- Half of the light gets through the layer; the program reports that nothing is transmitted and three quarters are absorbed. -/
example : (calcCohPol ⟨1 / 4, 0, [0, 1 / 4, 1 / 2, 0]⟩).T = 0 ∧ (calcCohPol ⟨1 / 4, 0, [0, 1 / 4, 1 / 2, 0]⟩).A = 3 / 4 := by
  refine ⟨rfl, ?_⟩
  obtain ⟨-, -, -, h⟩ := C179_fails C179_example.1 _ (List.mem_cons_self ..)
  rw [h rfl]
  norm_num [calcCohPol]

/-- Both polarisations alike: the hypotheses of `C179_unpolarised_partial` are met. -/
example : (calcIncU ⟨1 / 4, 0, [0, 1 / 4, 1 / 2, 0]⟩ ⟨1 / 4, 0, [0, 1 / 4, 1 / 2, 0]⟩ (fun _ => 7)).perLayer.length = 2 := by
  obtain ⟨-, h⟩ := C179_unpolarised_partial true C179_example.1 C179_example.1 rfl (fun _ => 7)
  rw [h (by norm_num)]
  simp [reportedRight]

end Rayflare
