import Verif.Spec.Planar
import Mathlib.Analysis.SpecialFunctions.Pow.Real
import Mathlib.Analysis.SpecialFunctions.Trigonometric.DerivHyp

set_option autoImplicit false

/-!
# One-dimensional potentials

`galpy/potential/KGPotential.py`, `IsothermalDiskPotential.py` and their C versions.
-/

noncomputable section
namespace Verif
open Real

namespace KG

/-- What the constructor is given for the parameter `F` (KGPotential.py:46-63): a number in natural
units, a quantity with units of density (value in `Msun/pc^3`), one with units of a second
derivative of the potential (value in `km^2/s^2/kpc^2`), or one with other units. -/
inductive FArg where
  | num (x : ℝ)
  | dens (x : ℝ)
  | deriv (x : ℝ)
  | other

/-- The exceptions the constructor can end with. -/
inductive Err where
  | typeError
  | unitConversionError
  deriving DecidableEq

/-- How the constructor turns `F` into `self._F`, KGPotential.py:46-63. `densIn vo ro` is
`conversion.dens_in_msolpc3(vo, ro)`; `ro vo` are the constructor's arguments (`none` if not given),
`ro' vo'` the scales `self._ro`, `self._vo` set by the base class (the configured defaults when the
arguments are not given). Line 59 multiplies by the raw arguments. -/
def setF (densIn : ℝ → ℝ → ℝ) (ro vo : Option ℝ) (ro' vo' : ℝ) : FArg → Except Err ℝ
  | .num x => .ok x
  | .dens x => .ok (x / densIn vo' ro' * 4 * π)
  | .deriv x =>
    match ro, vo with
    | some r, some v => .ok (x * r ^ 2 / v ^ 2)
    | _, _ => .error .typeError
  | .other => .error .unitConversionError

/-- `_evaluate`, KGPotential.py:71-72 (`D2 = D**2`, line 67). -/
def evaluate (K F D x : ℝ) : ℝ := K * (√(x ^ 2 + D ^ 2) - D) + F * x ^ 2
/-- `_force`, KGPotential.py:74-75. -/
def force (K F D x : ℝ) : ℝ := -x * (K / √(x ^ 2 + D ^ 2) + 2 * F)
/-- `_force2deriv`, KGPotential.py:77-79. -/
def force2deriv (K F D x : ℝ) : ℝ := K * D ^ 2 / (x ^ 2 + D ^ 2) ^ (3 / 2 : ℝ) + 2 * F

/-- The class as a record of methods. -/
def pot (K F D : ℝ) : LPot where
  val := fun x _ => evaluate K F D x
  force := fun x _ => force K F D x
  force2deriv := fun x _ => force2deriv K F D x

/-- The arguments packed for C, integrateLinearOrbit.py:111-113. -/
def cArgs (amp K F D : ℝ) : ℝ × ℝ × ℝ × ℝ := (amp, K, D ^ 2, 2 * F)
/-- `KGPotentialLinearForce`, KGPotential.c:6-14. -/
def cForce (a : ℝ × ℝ × ℝ × ℝ) (x : ℝ) : ℝ := -a.1 * x * (a.2.1 / √(x * x + a.2.2.1) + a.2.2.2)
/-- `KGPotentialLinear2deriv`, KGPotential.c:17-22. -/
def c2deriv (a : ℝ × ℝ × ℝ × ℝ) (x : ℝ) : ℝ :=
  a.1 * (a.2.1 * a.2.2.1 / (x * x + a.2.2.1) ^ (3 / 2 : ℝ) + a.2.2.2)

end KG

namespace IsoDisk

/-- The scale height set by the constructor, IsothermalDiskPotential.py:45. -/
def height (amp σ : ℝ) : ℝ := σ / √(8 * π * amp)

/-- `_evaluate`, IsothermalDiskPotential.py:50-51. -/
def evaluate (σ H x : ℝ) : ℝ := 2 * σ ^ 2 * log (cosh (1 / 2 * x / H))
/-- `_force`, IsothermalDiskPotential.py:53-54. -/
def force (σ H x : ℝ) : ℝ := -σ ^ 2 * tanh (1 / 2 * x / H) / H
/-- `_force2deriv`, IsothermalDiskPotential.py:56-62. -/
def force2deriv (σ H x : ℝ) : ℝ := σ ^ 2 / (2 * H ^ 2) * (1 - tanh (1 / 2 * x / H) ^ 2)

/-- The object built by `IsothermalDiskPotential(amp, sigma)`, IsothermalDiskPotential.py:42-48: the
amplitude only enters through the scale height (`self._amp = 1.0`, line 46). -/
def pot (amp σ : ℝ) : LPot where
  val := fun x _ => evaluate σ (height amp σ) x
  force := fun x _ => force σ (height amp σ) x
  force2deriv := fun x _ => force2deriv σ (height amp σ) x

/-- The arguments packed for C, integrateLinearOrbit.py:114-116; `mult` is the amplitude a later
multiplication of the object has set. -/
def cArgs (mult amp σ : ℝ) : ℝ × ℝ := (mult * σ ^ 2 / height amp σ, 2 * height amp σ)
/-- `IsothermalDiskPotentialLinearForce`, IsothermalDiskPotential.c:4-8. -/
def cForce (a : ℝ × ℝ) (x : ℝ) : ℝ := -a.1 * tanh (x / a.2)
/-- `IsothermalDiskPotentialLinear2deriv`, IsothermalDiskPotential.c:11-16. -/
def c2deriv (a : ℝ × ℝ) (x : ℝ) : ℝ :=
  let tx := tanh (x / a.2);
  a.1 / a.2 * (1 - tx * tx)

end IsoDisk
end Verif
