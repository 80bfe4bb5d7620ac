import Verif.Model.Pot.TwoPower
import Mathlib.Analysis.SpecialFunctions.Gamma.Basic
import Mathlib.MeasureTheory.Integral.IntervalIntegral.Basic

set_option autoImplicit false

/-!
# TwoPowerSphericalPotential with arbitrary exponents

`galpy/potential/TwoPowerSphericalPotential.py:22-298` and `potential_c_ext/TwoPowerSphericalPotential.c`.
The hypergeometric function of scipy (Python) and of xsf (C) is taken to be the mathematical one, written as Euler's
integral.  That integral represents it for `0 < a < c` and arguments below one, which covers every call for `α < 3` except
the ones of `_evaluate` for `β < 3` (first parameter `β - 3`); nothing is claimed about those.
-/

noncomputable section
namespace Verif
open Real

/-- `special.hyp2f1(a, b, c, x)` as Euler's integral (`0 < a < c`, `x < 1`). -/
def hyp2f1 (a b c x : ℝ) : ℝ :=
  Gamma c / (Gamma a * Gamma (c - a)) * ∫ t in (0:ℝ)..1, t ^ (a - 1) * (1 - t) ^ (c - a - 1) * (1 - x * t) ^ (-b)

namespace TwoPower

/-- The branch `beta == 3` of `_evaluate`, TwoPowerSphericalPotential.py:98-113. -/
def evaluate3 (a α R z : ℝ) : ℝ :=
  let r := √(R ^ 2 + z ^ 2);
  1 / a * (1 - (r / a) ^ (2 - α) / (3 - α) * hyp2f1 (3 - α) (2 - α) (4 - α) (-r / a)) / (α - 2)
/-- The branch `beta == 3` of `_evaluate` with floating-point division: a zero denominator gives no finite number (`none`),
TwoPowerSphericalPotential.py:98-113. -/
def evaluate3Finite (a α R z : ℝ) : Option ℝ := if α - 2 = 0 then none else some (evaluate3 a α R z)
/-- The other branch as a function of the shifted radius, TwoPowerSphericalPotential.py:118-133. -/
def evaluateAt (a α β r : ℝ) : ℝ :=
  Gamma (β - 3) * ((r / a) ^ (3 - β) / Gamma (β - 1) * hyp2f1 (β - 3) (β - α) (β - 1) (-a / r)
    - Gamma (3 - α) / Gamma (β - α)) / r
/-- `_evaluate` without `_specialSelf`, TwoPowerSphericalPotential.py:97-133. -/
def evaluate (a α β R z : ℝ) : ℝ :=
  if β = 3 then evaluate3 a α R z else evaluateAt a α β (√(R ^ 2 + z ^ 2) + 1e-11)
/-- `_Rforce` without `_specialSelf`, TwoPowerSphericalPotential.py:139-151. -/
def Rforce (a α β R z : ℝ) : ℝ :=
  let r := √(R ^ 2 + z ^ 2);
  -R / r ^ α * a ^ (α - 3) / (3 - α) * hyp2f1 (3 - α) (β - α) (4 - α) (-r / a)
/-- `_zforce` without `_specialSelf`, TwoPowerSphericalPotential.py:157-169. -/
def zforce (a α β R z : ℝ) : ℝ :=
  let r := √(R ^ 2 + z ^ 2);
  -z / r ^ α * a ^ (α - 3) / (3 - α) * hyp2f1 (3 - α) (β - α) (4 - α) (-r / a)
/-- `_dens`, TwoPowerSphericalPotential.py:171-179. -/
def dens (a α β R z : ℝ) : ℝ := rdens a α β (√(R ^ 2 + z ^ 2))
/-- `_R2deriv`, TwoPowerSphericalPotential.py:241-262. -/
def R2deriv (a α β R z : ℝ) : ℝ :=
  let r := √(R ^ 2 + z ^ 2);
  let A := a ^ (α - 3) / (3 - α);
  let hyper := hyp2f1 (3 - α) (β - α) (4 - α) (-r / a);
  let hyper_deriv := (3 - α) * (β - α) / (4 - α) * hyp2f1 (4 - α) (1 + β - α) (5 - α) (-r / a);
  let term1 := A * r ^ (-α) * hyper;
  let term2 := -α * A * R ^ 2 * r ^ (-α - 2) * hyper;
  let term3 := -A * R ^ 2 * r ^ (-α - 1) / a * hyper_deriv;
  term1 + term2 + term3
/-- `_Rzderiv`, TwoPowerSphericalPotential.py:264-284. -/
def Rzderiv (a α β R z : ℝ) : ℝ :=
  let r := √(R ^ 2 + z ^ 2);
  let A := a ^ (α - 3) / (3 - α);
  let hyper := hyp2f1 (3 - α) (β - α) (4 - α) (-r / a);
  let hyper_deriv := (3 - α) * (β - α) / (4 - α) * hyp2f1 (4 - α) (1 + β - α) (5 - α) (-r / a);
  let term1 := -α * A * R * r ^ (-α - 2) * z * hyper;
  let term2 := -A * R * r ^ (-α - 1) * z / a * hyper_deriv;
  term1 + term2
/-- `_z2deriv`, TwoPowerSphericalPotential.py:286-287. -/
def z2deriv (a α β R z : ℝ) : ℝ := R2deriv a α β |z| R
/-- `_mass` with `z=None`, TwoPowerSphericalPotential.py:289-298. -/
def mass (a α β R : ℝ) : ℝ := (R / a) ^ (3 - α) / (3 - α) * hyp2f1 (3 - α) (-α + β) (4 - α) (-R / a)

/-- The choice of `_specialSelf`, TwoPowerSphericalPotential.py:61-76. -/
def special (α β : ℝ) (core hern jaf nfw other : ℝ → ℝ → ℝ) : ℝ → ℝ → ℝ :=
  open Classical in
  if α = 0 ∧ β = 4 then core else if α = 1 ∧ β = 4 then hern else if α = 2 ∧ β = 4 then jaf
  else if α = 1 ∧ β = 3 then nfw else other
/-- The class: `_evaluate`, `_Rforce` and `_zforce` go through `_specialSelf` when there is one, the other methods do not,
TwoPowerSphericalPotential.py:94-298. -/
def pot (a α β : ℝ) : Pot :=
  Pot.axi
    (special α β (DehnenCore.evaluate a) (Hernquist.evaluate a) (Jaffe.evaluate a) (NFW.evaluate a) (evaluate a α β))
    (special α β (DehnenCore.Rforce a) (Hernquist.Rforce a) (Jaffe.Rforce a) (NFW.Rforce a) (Rforce a α β))
    (special α β (DehnenCore.zforce a) (Hernquist.zforce a) (Jaffe.zforce a) (NFW.zforce a) (zforce a α β))
    (R2deriv a α β) (z2deriv a α β) (Rzderiv a α β) (dens a α β)

/-! ### C -/
/-- `TwoPowerSphericalPotentialEval`, TwoPowerSphericalPotential.c:13-35. -/
def cEval (amp a α β R Z : ℝ) : ℝ :=
  let r := √(R * R + Z * Z);
  if β = 3 then
    amp / a * (1 - (r / a) ^ (2 - α) / (3 - α) * hyp2f1 (3 - α) (2 - α) (4 - α) (-r / a)) / (α - 2)
  else
    let r := r + 1e-11;
    amp * Gamma (β - 3) * ((r / a) ^ (3 - β) / Gamma (β - 1) * hyp2f1 (β - 3) (β - α) (β - 1) (-a / r)
      - Gamma (3 - α) / Gamma (β - α)) / r
/-- `TwoPowerSphericalPotentialRforce`, TwoPowerSphericalPotential.c:37-49. -/
def cRforce (amp a α β R Z : ℝ) : ℝ :=
  let r := √(R * R + Z * Z);
  -amp * R * r ^ (-α) * a ^ (α - 3) / (3 - α) * hyp2f1 (3 - α) (β - α) (4 - α) (-r / a)
/-- `TwoPowerSphericalPotentialPlanarRforce`, TwoPowerSphericalPotential.c:51-62. -/
def cPlanarRforce (amp a α β R : ℝ) : ℝ :=
  -amp * R ^ (1 - α) * a ^ (α - 3) / (3 - α) * hyp2f1 (3 - α) (β - α) (4 - α) (-R / a)
/-- `TwoPowerSphericalPotentialzforce`, TwoPowerSphericalPotential.c:64-76. -/
def czforce (amp a α β R Z : ℝ) : ℝ :=
  let r := √(R * R + Z * Z);
  -amp * Z * r ^ (-α) * a ^ (α - 3) / (3 - α) * hyp2f1 (3 - α) (β - α) (4 - α) (-r / a)
/-- `TwoPowerSphericalPotentialPlanarR2deriv`, TwoPowerSphericalPotential.c:78-96. -/
def cPlanarR2deriv (amp a α β R : ℝ) : ℝ :=
  let A := a ^ (α - 3) / (3 - α);
  let hyper := hyp2f1 (3 - α) (β - α) (4 - α) (-R / a);
  let hyper_deriv := (3 - α) * (β - α) / (4 - α) * hyp2f1 (4 - α) (1 + β - α) (5 - α) (-R / a);
  let term1 := A * R ^ (-α) * hyper;
  let term2 := -α * A * R ^ (-α) * hyper;
  let term3 := -A * R ^ (1 - α) * a ^ (-1 : ℝ) * hyper_deriv;
  amp * (term1 + term2 + term3)
/-- `TwoPowerSphericalPotentialR2deriv`, TwoPowerSphericalPotential.c:98-110. -/
def cR2deriv (amp a α β R Z : ℝ) : ℝ := Spherical.cR2 (cPlanarR2deriv amp a α β) (cPlanarRforce amp a α β) R Z
/-- `TwoPowerSphericalPotentialz2deriv`, TwoPowerSphericalPotential.c:111-122. -/
def cz2deriv (amp a α β R Z : ℝ) : ℝ := Spherical.cz2 (cPlanarR2deriv amp a α β) (cPlanarRforce amp a α β) R Z
/-- `TwoPowerSphericalPotentialRzderiv`, TwoPowerSphericalPotential.c:123-134. -/
def cRzderiv (amp a α β R Z : ℝ) : ℝ := Spherical.cRz (cPlanarR2deriv amp a α β) (cPlanarRforce amp a α β) R Z
/-- `TwoPowerSphericalPotentialDens`, TwoPowerSphericalPotential.c:135-147. -/
def cDens (amp a α β R Z : ℝ) : ℝ :=
  let r := √(R * R + Z * Z);
  amp * (a / r) ^ α * (1 + r / a) ^ (α - β) / 4 / π * a ^ (-3 : ℝ)

end TwoPower
end Verif
