import Verif.Model.Pot.Spherical

set_option autoImplicit false

/-!
# PseudoIsothermalPotential

`galpy/potential/PseudoIsothermalPotential.py` and
`potential_c_ext/PseudoIsothermalPotential.c`.  `_a2 = a**2`, `_a3 = a**3`
(PseudoIsothermalPotential.py:48-49).
-/

noncomputable section
namespace Verif.PseudoIsothermal
open Real

/-- `_evaluate`, PseudoIsothermalPotential.py:56-69. -/
def evaluate (a R z : ℝ) : ℝ :=
  let r2 := R ^ 2 + z ^ 2;
  let r := √r2;
  let out := (1 / 2 * log (1 + r2 / a ^ 2) + a / r * arctan (r / a)) / a;
  if r = 0 then 1 / a else out
/-- `_Rforce`, PseudoIsothermalPotential.py:71-74. -/
def Rforce (a R z : ℝ) : ℝ :=
  let r2 := R ^ 2 + z ^ 2;
  let r := √r2;
  -(1 / r - a / r2 * arctan (r / a)) / a * R / r
/-- `_zforce`, PseudoIsothermalPotential.py:76-79. -/
def zforce (a R z : ℝ) : ℝ :=
  let r2 := R ^ 2 + z ^ 2;
  let r := √r2;
  -(1 / r - a / r2 * arctan (r / a)) / a * z / r
/-- `_dens`, PseudoIsothermalPotential.py:81-82. -/
def dens (a R z : ℝ) : ℝ := 1 / (1 + (R ^ 2 + z ^ 2) / a ^ 2) / 4 / π / a ^ 3
/-- `_R2deriv`, PseudoIsothermalPotential.py:84-92. -/
def R2deriv (a R z : ℝ) : ℝ :=
  let r2 := R ^ 2 + z ^ 2;
  let r := √r2;
  (1 / r2 * (1 - R ^ 2 / r2 * (3 * a ^ 2 + 2 * r2) / (a ^ 2 + r2))
    + a / r2 / r * (3 * R ^ 2 / r2 - 1) * arctan (r / a)) / a
/-- `_z2deriv`, PseudoIsothermalPotential.py:94-102. -/
def z2deriv (a R z : ℝ) : ℝ :=
  let r2 := R ^ 2 + z ^ 2;
  let r := √r2;
  (1 / r2 * (1 - z ^ 2 / r2 * (3 * a ^ 2 + 2 * r2) / (a ^ 2 + r2))
    + a / r2 / r * (3 * z ^ 2 / r2 - 1) * arctan (r / a)) / a
/-- `_Rzderiv`, PseudoIsothermalPotential.py:104-116. -/
def Rzderiv (a R z : ℝ) : ℝ :=
  let r2 := R ^ 2 + z ^ 2;
  let r := √r2;
  (3 * a / r2 / r2 * arctan (r / a) - 1 / r2 / r * ((3 * a ^ 2 + 2 * r2) / (r2 + a ^ 2)))
    * R * z / r / a

/-- The Python class as a record of methods. -/
def pot (a : ℝ) : Pot :=
  Pot.axi (evaluate a) (Rforce a) (zforce a) (R2deriv a) (z2deriv a) (Rzderiv a) (dens a)

/-- `PseudoIsothermalPotentialEval`, PseudoIsothermalPotential.c:5-17. -/
def cEval (amp a R Z : ℝ) : ℝ :=
  let a2 := a * a;
  let r2 := R * R + Z * Z;
  let r := √r2;
  amp * (1 / 2 * log (1 + r2 / a2) + a / r * arctan (r / a)) / a
/-- `PseudoIsothermalPotentialRforce`, PseudoIsothermalPotential.c:18-29. -/
def cRforce (amp a R Z : ℝ) : ℝ :=
  let r2 := R * R + Z * Z;
  let r := √r2;
  -amp * (1 / r - a / r2 * arctan (r / a)) / a * R / r
/-- `PseudoIsothermalPotentialPlanarRforce`, PseudoIsothermalPotential.c:30-39. -/
def cPlanarRforce (amp a R : ℝ) : ℝ := -amp * (1 / R - a / R / R * arctan (R / a)) / a
/-- `PseudoIsothermalPotentialzforce`, PseudoIsothermalPotential.c:40-51. -/
def czforce (amp a R Z : ℝ) : ℝ :=
  let r2 := R * R + Z * Z;
  let r := √r2;
  -amp * (1 / r - a / r2 * arctan (r / a)) / a * Z / r
/-- `PseudoIsothermalPotentialPlanarR2deriv`, PseudoIsothermalPotential.c:52-64. -/
def cPlanarR2deriv (amp a R : ℝ) : ℝ :=
  let a2 := a * a;
  let R2 := R * R;
  amp / R2 * (2 * a / R * arctan (R / a) - (2 * a2 + R2) / (a2 + R2)) / a
/-- `PseudoIsothermalPotentialR2deriv`, PseudoIsothermalPotential.c:65-77. -/
def cR2deriv (amp a R Z : ℝ) : ℝ := Spherical.cR2 (cPlanarR2deriv amp a) (cPlanarRforce amp a) R Z
/-- `PseudoIsothermalPotentialz2deriv`, PseudoIsothermalPotential.c:78-89. -/
def cz2deriv (amp a R Z : ℝ) : ℝ := Spherical.cz2 (cPlanarR2deriv amp a) (cPlanarRforce amp a) R Z
/-- `PseudoIsothermalPotentialRzderiv`, PseudoIsothermalPotential.c:90-101. -/
def cRzderiv (amp a R Z : ℝ) : ℝ := Spherical.cRz (cPlanarR2deriv amp a) (cPlanarRforce amp a) R Z
/-- `PseudoIsothermalPotentialDens`, PseudoIsothermalPotential.c:102-113 (`M_1_PI = 1/π`). -/
def cDens (amp a R Z : ℝ) : ℝ :=
  let a2 := a * a;
  let r2 := R * R + Z * Z;
  amp * (1 / π) / 4 / (1 + r2 / a2) / a2 / a

end Verif.PseudoIsothermal
