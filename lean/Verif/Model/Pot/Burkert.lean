import Verif.Model.Pot.Spherical

set_option autoImplicit false

/-!
# BurkertPotential

`galpy/potential/BurkertPotential.py` (a `SphericalPotential`) and
`potential_c_ext/BurkertPotential.c`.  `special.xlogy(x, y)` is `x * log y`.
-/

noncomputable section
namespace Verif.Burkert
open Real

/-- `_revaluate`, BurkertPotential.py:60-72. -/
def revaluate (a r : ℝ) : ℝ :=
  let x := r / a;
  -(a ^ 2) * π * (-π / x + 2 * (1 / x + 1) * arctan (1 / x)
    + (1 / x + 1) * log ((1 + 1 / x) ^ 2 / (1 + 1 / x ^ 2)) + 2 / x * log (1 + x ^ 2))
/-- `_rforce`, BurkertPotential.py:79-91. -/
def rforce (a r : ℝ) : ℝ :=
  let x := r / a;
  a * π / x ^ 2 * (π - 2 * arctan (1 / x) - 2 * log (1 + x) - log (1 + x ^ 2))
/-- `_r2deriv`, BurkertPotential.py:93-98. -/
def r2deriv (a r : ℝ) : ℝ :=
  let x := r / a;
  4 * π / (1 + x ^ 2) / (1 + x) + 2 * rforce a r / x / a
/-- `_rdens`, BurkertPotential.py:100-102. -/
def rdens (a r : ℝ) : ℝ :=
  let x := r / a;
  1 / (1 + x) / (1 + x ^ 2)

/-- The radial profile given to `SphericalPotential`. -/
def radial (a : ℝ) : Spherical.Radial :=
  ⟨fun r _ => revaluate a r, fun r _ => rforce a r, fun r _ => r2deriv a r, fun r _ => rdens a r⟩
/-- The Python class. -/
def pot (a : ℝ) : Pot := Spherical.pot (radial a)

/-- `BurkertPotentialEval`, BurkertPotential.c:8-18. -/
def cEval (amp a R Z : ℝ) : ℝ :=
  let x := √(R * R + Z * Z) / a;
  -amp * a * a * π / x * (-π + 2 * (1 + x) * arctan (1 / x) + 2 * (1 + x) * log (1 + x)
    + (1 - x) * log (1 + x * x))
/-- `BurkertPotentialRforce`, BurkertPotential.c:19-30. -/
def cRforce (amp a R Z : ℝ) : ℝ :=
  let r := √(R * R + Z * Z);
  let x := r / a;
  amp * a * π / x / x * (π - 2 * arctan (1 / x) - 2 * log (1 + x) - log (1 + x * x)) * R / r
/-- `BurkertPotentialPlanarRforce`, BurkertPotential.c:31-41. -/
def cPlanarRforce (amp a R : ℝ) : ℝ :=
  let x := R / a;
  amp * a * π / x / x * (π - 2 * arctan (1 / x) - 2 * log (1 + x) - log (1 + x * x))
/-- `BurkertPotentialzforce`, BurkertPotential.c:42-53. -/
def czforce (amp a R Z : ℝ) : ℝ :=
  let r := √(R * R + Z * Z);
  let x := r / a;
  amp * a * π / x / x * (π - 2 * arctan (1 / x) - 2 * log (1 + x) - log (1 + x * x)) * Z / r
/-- `BurkertPotentialPlanarR2deriv`, BurkertPotential.c:54-65. -/
def cPlanarR2deriv (amp a R : ℝ) : ℝ :=
  let x := R / a;
  let R5 := R ^ 5;
  -amp * π * a ^ 3 / R5 * (-4 * R5 / (a * a + R * R) / (a + R)
    - 2 * R * R * (π - 2 * arctan (1 / x) - 2 * log (1 + x) - log (1 + x * x)))
/-- `BurkertPotentialR2deriv`, BurkertPotential.c:66-78. -/
def cR2deriv (amp a R Z : ℝ) : ℝ := Spherical.cR2 (cPlanarR2deriv amp a) (cPlanarRforce amp a) R Z
/-- `BurkertPotentialz2deriv`, BurkertPotential.c:79-90. -/
def cz2deriv (amp a R Z : ℝ) : ℝ := Spherical.cz2 (cPlanarR2deriv amp a) (cPlanarRforce amp a) R Z
/-- `BurkertPotentialRzderiv`, BurkertPotential.c:91-102. -/
def cRzderiv (amp a R Z : ℝ) : ℝ := Spherical.cRz (cPlanarR2deriv amp a) (cPlanarRforce amp a) R Z
/-- `BurkertPotentialDens`, BurkertPotential.c:103-113. -/
def cDens (amp a R Z : ℝ) : ℝ :=
  let x := √(R * R + Z * Z) / a;
  amp / (1 + x) / (1 + x * x)

end Verif.Burkert
