import Verif.Model.Assemble

/-!
# Specification: the textbook formulas for an absorbing slab between two flat surfaces

Light of one polar direction, incoherent sum over all passes.
-/

namespace Rayflare.Spec

open Rayflare.Model

/-- What a flat surface does with light coming from one side at one angle: fractions reflected, transmitted, and absorbed in each layer. -/
structure Face (κ : Type*) where
  refl : ℝ
  trns : ℝ
  abs : κ → ℝ

/-- A slab: the front surface seen from outside, the rear surface seen from inside, the front surface seen from inside, and the fraction of the light that survives one passage through the slab. -/
structure Slab (κ₀ κ₁ : Type*) where
  front : Face κ₀
  rear : Face κ₁
  back : Face κ₀
  pass : ℝ

namespace Slab
variable {κ₀ κ₁ : Type*} (s : Slab κ₀ κ₁)

/-- What is left of light inside the slab after one round trip. -/
def round : ℝ := s.pass ^ 2 * s.rear.refl * s.back.refl

/-- The round trips of one unit of light inside the slab, all together: `1 + q + q² + … = 1 / (1 - q)`. -/
noncomputable def trips : ℝ := 1 / (1 - s.round)

/-- Reflectance, if light inside the slab makes `N` round trips on average (textbook: `N = s.trips`). -/
def R (N : ℝ) : ℝ := s.front.refl + s.front.trns * s.pass ^ 2 * s.rear.refl * s.back.trns * N

/-- Transmittance. -/
def T (N : ℝ) : ℝ := s.front.trns * s.pass * s.rear.trns * N

/-- Absorptance of the slab: on the way down and on the way up. -/
def bulk (N : ℝ) : ℝ := s.front.trns * ((1 - s.pass) + s.pass * s.rear.refl * (1 - s.pass)) * N

/-- Absorptance of a layer of the front surface: light from outside and light from inside. -/
def abs0 (N : ℝ) (l : κ₀) : ℝ := s.front.abs l + s.front.trns * s.pass ^ 2 * s.rear.refl * s.back.abs l * N

/-- Absorptance of a layer of the rear surface. -/
def abs1 (N : ℝ) (l : κ₁) : ℝ := s.front.trns * s.pass * s.rear.abs l * N

end Slab

/-- Polar angle of row `r` of the grid. -/
noncomputable def polar (g : Grid) (r : ℕ) : ℝ := (g.angleVector[r]?).elim 0 Row.theta

open Classical in
/-- The stored matrices of a surface, for light incident at polar angle `θin`, are those of a flat surface: everything reflected stays at the polar angle `θin`, everything transmitted goes to the polar angle `θout`; the fractions are
those of `f`.  (Columns are the bins of the upper hemisphere for light from the front, of the lower one for light from the rear.) -/
structure Flat {h : ℕ} {κ : Type*} (g : Grid) (front : Bool) (M : Matrix (Fin (h + h)) (Fin h) ℝ × Matrix κ (Fin h) ℝ) (θin θout : ℝ) (f : Face κ) : Prop where
  refl : ∀ j : Fin h, polar g (if front then j else h + j) = θin → (∑ r : Fin (h + h), if polar g r = θin then M.1 r j else 0) = f.refl
  trns : ∀ j : Fin h, polar g (if front then j else h + j) = θin → (∑ r : Fin (h + h), if polar g r = θout then M.1 r j else 0) = f.trns
  rest : ∀ j : Fin h, polar g (if front then j else h + j) = θin → ∀ r : Fin (h + h), polar g r ≠ θin → polar g r ≠ θout → M.1 r j = 0
  abs : ∀ j : Fin h, polar g (if front then j else h + j) = θin → ∀ l, M.2 l j = f.abs l

end Rayflare.Spec
