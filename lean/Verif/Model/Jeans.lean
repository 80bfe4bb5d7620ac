import Verif.Model.PotQuant
import Mathlib.MeasureTheory.Integral.IntervalIntegral.Basic
import Mathlib.Analysis.SpecialFunctions.Trigonometric.Basic

set_option autoImplicit false

/-!
# Velocity dispersions from the spherical Jeans equation

`galpy/df/jeans.py`. Numerical quadrature is replaced by the integral. `numpy.sqrt` of a negative number is NaN; the real
square root here is 0, so theorems about a root assume a nonnegative argument. Unit handling is property C32.
-/

noncomputable section
namespace Verif.Jeans
open Real MeasureTheory Set

/-- An argument that is a number or a function, jeans.py:18 and 80 (`beta`). -/
inductive NumOrFun where
  | num (b : ℝ)
  | func (f : ℝ → ℝ)

/-- `call_beta`, jeans.py:131-134; the value that `beta` stands for. -/
def NumOrFun.call : NumOrFun → ℝ → ℝ
  | .num b, _ => b
  | .func f, x => f x

/-- `_INVSQRTTWO`, jeans.py:13. -/
def invSqrtTwo : ℝ := 1 / √2

/-- The default tracer density of `sigmar`, jeans.py:43-50. -/
def densPot (P : Pot) (r : ℝ) : ℝ := P.dens (r * invSqrtTwo) (r * invSqrtTwo) (π / 4) 0

/-- The radial force in the integrand, jeans.py:62-68. -/
def force (P : Pot) (x : ℝ) : ℝ := PotQuant.rforce P (x * invSqrtTwo) (x * invSqrtTwo) (π / 4) 0

/-- `intFactor`, jeans.py:51-56. -/
def intFactor : NumOrFun → ℝ → ℝ
  | .func f, x => exp (2 * ∫ y in (1 : ℝ)..x, f y / y)
  | .num b, x => x ^ (2 * b)

/-- `sigmar`, jeans.py:16-75; `dens = none` is the default. -/
def sigmar (P : Pot) (r : ℝ) (dens : Option (ℝ → ℝ)) (beta : NumOrFun) : ℝ :=
  let dens := dens.getD (densPot P);
  √((∫ x in Ioi r, -intFactor beta x * dens x * force P x) / dens r / intFactor beta r)

/-- The default tracer density of `sigmalos`, jeans.py:114-117 (azimuth 0, not π/4). -/
def densPotLos (P : Pot) (r : ℝ) : ℝ := P.dens (r * invSqrtTwo) (r * invSqrtTwo) 0 0

/-- `called_surfdens`, jeans.py:120-134. `surf` is `evaluateSurfaceDensities(Pot, R, inf)`, `none` when that is NaN. -/
def calledSurfdens (P : Pot) (surf : ℝ → Option ℝ) (R : ℝ) (dens : Option (ℝ → ℝ)) (surfdens : Option NumOrFun) : ℝ :=
  match surfdens with
  | some s => s.call R
  | none =>
    match dens, surf R with
    | none, some s => s
    | none, none => 2 * ∫ x in Ioi (0 : ℝ), densPotLos P (√(R ^ 2 + x ^ 2))
    | some d, _ => 2 * ∫ x in Ioi (0 : ℝ), d (√(R ^ 2 + x ^ 2))

/-- `sigmalos`, jeans.py:78-163. -/
def sigmalos (P : Pot) (surf : ℝ → Option ℝ) (R : ℝ) (dens : Option (ℝ → ℝ)) (surfdens : Option NumOrFun)
    (beta : NumOrFun) (sigma_r : Option NumOrFun) : ℝ :=
  let d := dens.getD (densPotLos P);
  let called := calledSurfdens P surf R dens surfdens;
  let sr : ℝ → ℝ := match sigma_r with
    | none => fun r => sigmar P r (some d) beta
    | some s => s.call;
  √(2 * (∫ x in Ioi R, (1 - beta.call x * R ^ 2 / x ^ 2) * x * d x * sr x ^ 2 / √(x ^ 2 - R ^ 2)) / called)

end Verif.Jeans
