import Verif.Model.TraceStack
import Verif.Props.Restart

/-!
# Property C132 for rays whose coordinates are undefined

A horizontal ray in a stack has NaN coordinates when it comes to the next surface (rt.py 1678-1685).
-/

namespace Rayflare

open Rayflare.Np Rayflare.Model Rayflare.Spec Rayflare.Lemmas

/-- A ray with undefined coordinates behaves like one that has missed a surface without facets. -/
theorem sicRun_NaN (Lx Ly : ℝ) (d0 : V3) (w : Draw) (ws : List Draw) (d : V3) (side : ℤ) (r : V3) :
    sicRun Lx Ly d0 ws (sicStartNaN Lx Ly w d side) = sicRun Lx Ly d0 ({ w with tris := [] } :: ws) (sicStart r d side 0) := by
  have hc : checkIntersect r d [] = none := by simp [checkIntersect]
  have hs : sicStep Lx Ly d0 { w with tris := [] } (sicStart r d side 0) = .inl (sicStartNaN Lx Ly w d side) := by
    simp only [sicStep, sicStart, hc, sicStartNaN]
    simp [relaunch]
  simp only [sicRun, hs]

/-- **C132, undefined coordinates.** A ray that comes to a surface with undefined coordinates is sent to it from a random point on its side, and sent back only after it has missed the surface
from a hundred such points. -/
theorem C132_undefined (Lx Ly : ℝ) (hLx : 0 ≤ Lx) (hLy : 0 ≤ Ly) (d : V3) (side : ℤ) (w : Draw) (ws : List Draw) (hws : ∀ w' ∈ w :: ws, 0 ≤ w'.rx ∧ w'.rx ≤ 1 ∧ 0 ≤ w'.ry ∧ w'.ry ≤ 1)
    (ot : ℝ) (r' d' : V3) (nInt' : ℕ) (side' : ℤ) (hs : sicRun Lx Ly d ws (sicStartNaN Lx Ly w d side) = .inr (.gaveUp ot r' d' nInt' side')) :
    d' = ⟨d.x, d.y, -d.z⟩ ∧ side' = side ∧ nInt' = 0 ∧ ∃ p : ℕ → V3, OnItsSide Lx Ly w d (p 0) ∧ ∀ i < 100, ∃ w', ws[i]? = some w' ∧
      checkIntersect (p i) d w'.tris = none ∧ (i < 99 → OnItsSide Lx Ly w' d (p (i + 1))) := by
  rw [sicRun_NaN Lx Ly d w ws d side ⟨0, 0, 0⟩] at hs
  have hws' : ∀ w' ∈ { w with tris := [] } :: ws, 0 ≤ w'.rx ∧ w'.rx ≤ 1 ∧ 0 ≤ w'.ry ∧ w'.ry ≤ 1 := by
    intro w' hw'
    rcases List.mem_cons.1 hw' with rfl | h
    · exact hws w (by simp)
    · exact hws w' (List.mem_cons_of_mem _ h)
  obtain ⟨h1, h2, h3, p, -, hp⟩ := C132_giving_up Lx Ly hLx hLy _ d side 0 _ hws' ot r' d' nInt' side' hs
  refine ⟨h1, h2, h3, fun i => p (i + 1), ?_, fun i hi => ?_⟩
  · obtain ⟨w', e, -, h⟩ := hp 0 (by omega)
    simp only [List.getElem?_cons_zero, Option.some.injEq] at e
    subst e
    exact h (by omega)
  · obtain ⟨w', e, hm, h⟩ := hp (i + 1) (by omega)
    exact ⟨w', by simpa using e, hm, fun hi' => h (by omega)⟩

/-- At a surface without facets a ray with undefined coordinates is sent back after a hundred misses. -/
example : ∃ ot r' d' n' side', sicRun 10 10 ⟨0, 0, -1⟩ (List.replicate 100 { exDraw with tris := [] }) (sicStartNaN 10 10 exDraw ⟨0, 0, -1⟩ 1) = .inr (.gaveUp ot r' d' n' side') := by
  obtain ⟨s, h1, h2, h3, h4, h5⟩ := exEmpty_misses 100 le_rfl
  have hc : checkIntersect s.r s.d [] = none := by simp [checkIntersect]
  refine ⟨polar ⟨s.d.x, s.d.y, -s.d.z⟩, s.r, ⟨s.d.x, s.d.y, -s.d.z⟩, s.nInt, s.side, ?_⟩
  rw [sicRun_NaN 10 10 ⟨0, 0, -1⟩ exDraw _ ⟨0, 0, -1⟩ 1 ⟨1, 1, 5⟩, ← List.replicate_succ, List.replicate_succ', sicRun_append, h1]
  simp only [sicStep, hc, h3, h4, h5]
  simp

end Rayflare
