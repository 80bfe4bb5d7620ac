import Verif.Model.Pot.TwoPower
import Verif.Model.Pot.Burkert
import Mathlib.Analysis.SpecialFunctions.Artanh
import Mathlib.Analysis.SpecialFunctions.Complex.Arctan
import Mathlib.Analysis.SpecialFunctions.Pow.Complex

set_option autoImplicit false

/-!
# Closed-form surface densities of the Hernquist, Jaffe, NFW and Burkert potentials

`galpy/potential/TwoPowerSphericalPotential.py`, `BurkertPotential.py`. Complex `numpy.sqrt` is the principal square root,
complex `numpy.arctan` is `Complex.arctan` (same principal branch off its cuts; on the cuts the two
arctangents in each formula have their arguments on the same side, so the choice cancels in the
difference).
-/

noncomputable section
namespace Verif
open Real

/-- `numpy.sqrt(R**2.0 - self.a**2.0 + 0j)`, TwoPowerSphericalPotential.py:595, 740, 954. -/
def Rma (a R : ℝ) : ℂ := ((R ^ 2 - a ^ 2 : ℝ) : ℂ) ^ (1 / 2 : ℂ)

/-- `HernquistPotential._surfdens`, TwoPowerSphericalPotential.py:593-628. -/
def Hernquist.surfdens (a R z : ℝ) : ℝ :=
  let r := √(R ^ 2 + z ^ 2);
  if Rma a R = 0 then
    (-12 * a ^ 3 - 5 * a * z ^ 2 + √(1 + z ^ 2 / a ^ 2) * (12 * a ^ 3 - a * z ^ 2 + 2 / a * z ^ 4))
      / 30 / π * (z ^ 5)⁻¹
  else
    a * ((2 * (a : ℂ) ^ 2 + R ^ 2) * (Rma a R ^ 5)⁻¹
        * (Complex.arctan (z / Rma a R) - Complex.arctan (a * z / r / Rma a R))
      + z * (5 * a ^ 3 * r - 4 * a ^ 4 + a ^ 2 * (2 * r ^ 2 + R ^ 2) - a * r * (5 * R ^ 2 + 3 * z ^ 2)
          + R ^ 2 * r ^ 2)
        / (a ^ 2 - R ^ 2) ^ 2 / (r ^ 2 - a ^ 2) ^ 2).re / 4 / π

/-- `JaffePotential._surfdens`, TwoPowerSphericalPotential.py:738-768. -/
def Jaffe.surfdens (a R z : ℝ) : ℝ :=
  let r := √(R ^ 2 + z ^ 2);
  if Rma a R = 0 then
    (3 * z ^ 2 - 2 * a ^ 2 + 2 * √(1 + (z / a) ^ 2) * (a ^ 2 - 2 * z ^ 2) + 3 * z ^ 3 / a * arctan (z / a))
      / a / z ^ 3 / 6 / π
  else
    ((2 * (a : ℂ) ^ 2 - R ^ 2) * (Rma a R ^ 3)⁻¹
        * (Complex.arctan (z / Rma a R) - Complex.arctan (a * z / r / Rma a R))
      + arctan (z / R) / R - a * z / (R ^ 2 - a ^ 2) / (r + a)).re / a / 2 / π

/-- `NFWPotential._surfdens`, TwoPowerSphericalPotential.py:952-974. -/
def NFW.surfdens (a R z : ℝ) : ℝ :=
  let r := √(R ^ 2 + z ^ 2);
  if Rma a R = 0 then
    let za2 := (z / a) ^ 2;
    a * (2 + √(za2 + 1) * (za2 - 2)) / 6 / π / z ^ 3
  else
    ((a : ℂ) * (Rma a R ^ 3)⁻¹ * (Complex.arctan (a * z / r / Rma a R) - Complex.arctan (z / Rma a R))
      + z / (r + a) / (R ^ 2 - a ^ 2)).re / 2 / π

/-- `BurkertPotential._surfdens`, BurkertPotential.py:104-135. -/
def Burkert.surfdens (a R z : ℝ) : ℝ :=
  let r := √(R ^ 2 + z ^ 2);
  let x := r / a;
  let Rpa := √(R ^ 2 + a ^ 2);
  if Rma a R = 0 then
    let za := z / a;
    a ^ 2 / 2 * ((2 - 2 * √(za ^ 2 + 1) + √2 * za * arctan (za / √2)) / z
      + √(2 * za ^ 2 + 2) * artanh (za / √(2 * (za ^ 2 + 1))) / √(a ^ 2 + z ^ 2))
  else
    a ^ 2 * (Complex.arctan (z / x / Rma a R) / Rma a R + (artanh (z / x / Rpa) / Rpa : ℝ)
      - Complex.arctan (z / Rma a R) / Rma a R + (arctan (z / Rpa) / Rpa : ℝ)).re

end Verif
