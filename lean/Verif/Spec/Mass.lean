import Mathlib.MeasureTheory.Integral.IntervalIntegral.FundThmCalculus
import Mathlib.Analysis.SpecialFunctions.Trigonometric.Basic
import Mathlib.MeasureTheory.Measure.Lebesgue.Basic

set_option autoImplicit false

/-! # Specification of the enclosed mass of a spherical density -/

open Filter Topology

namespace Verif

/-- `m r` is the mass of the spherical density `ρ` within radius `r`, for every `r > 0`:
the shell integral `∫₀ʳ 4 π x² ρ(x) dx` exists and equals `m r`. -/
def EnclosedMass (ρ m : ℝ → ℝ) : Prop :=
  ∀ r, 0 < r → IntervalIntegrable (fun x => 4 * Real.pi * x ^ 2 * ρ x) MeasureTheory.volume 0 r ∧
    ∫ x in (0 : ℝ)..r, 4 * Real.pi * x ^ 2 * ρ x = m r

/-- The semi-major axis of the ellipsoid through `q`, with axis ratios `b` and `c`. -/
noncomputable def ellRadius (b c : ℝ) (q : Fin 3 → ℝ) : ℝ := √(q 0 ^ 2 + (q 1 / b) ^ 2 + (q 2 / c) ^ 2)

/-- `m R` is the mass of the density `ρ` stratified on similar ellipsoids, within the one of semi-major axis `R`: the
volume integral over the ellipsoid exists and equals `m R`. -/
def EllipsoidMass (b c : ℝ) (ρ m : ℝ → ℝ) : Prop :=
  ∀ R, 0 < R → MeasureTheory.IntegrableOn (fun q => ρ (ellRadius b c q)) {q | ellRadius b c q < R} ∧
    ∫ q in {q | ellRadius b c q < R}, ρ (ellRadius b c q) = m R

end Verif
