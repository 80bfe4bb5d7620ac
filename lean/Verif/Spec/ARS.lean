import Mathlib.MeasureTheory.Integral.Bochner.Set
import Mathlib.MeasureTheory.Measure.Lebesgue.Basic
import Mathlib.Analysis.Calculus.Deriv.Basic
import Mathlib.Analysis.Convex.Function
import Mathlib.Analysis.SpecialFunctions.Exp

set_option autoImplicit false

/-!
# Rejection sampling from a log-concave density: specification

Independent of the program: the tangent envelope of a concave function, the area below its
exponential, and what it means that a random number is mapped to a sample of a density.
-/

noncomputable section

namespace Verif.ARSSpec

open MeasureTheory Set

/-- An open interval, bounded or not on either side. -/
def interval (lo hi : Option ℝ) : Set ℝ := {x | (∀ a ∈ lo, a < x) ∧ ∀ b ∈ hi, x < b}

/-- `h` is strictly concave on the interval `S` and `hp` is its derivative. -/
structure LogConcave (S : Set ℝ) (h hp : ℝ → ℝ) : Prop where
  concave : StrictConcaveOn ℝ S h
  deriv : ∀ x ∈ S, HasDerivAt h (hp x) x

/-- The lowest of the tangents to `h` at the points of `X`. -/
def envelope (h hp : ℝ → ℝ) (X : Finset ℝ) (x : ℝ) : ℝ :=
  sInf ((fun a => h a + hp a * (x - a)) '' (X : Set ℝ))

/-- Area below the exponential of `f` on the part of `S` up to `x`. -/
def areaTo (S : Set ℝ) (f : ℝ → ℝ) (x : ℝ) : ℝ := ∫ t in S ∩ Iic x, Real.exp (f t)

/-- Area below the exponential of `f` on `S`. -/
def area (S : Set ℝ) (f : ℝ → ℝ) : ℝ := ∫ t in S, Real.exp (f t)

end Verif.ARSSpec
