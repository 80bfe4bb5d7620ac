import Verif.Util.PotLemmas

set_option autoImplicit false

/-!
# FlattenedPowerPotential

`galpy/potential/FlattenedPowerPotential.py` and
`potential_c_ext/FlattenedPowerPotential.c`.  Parameters `alpha`, `q2 = q**2`,
`core2 = core**2` (lines 70-72).  Python methods are without `amp`; C functions
include it.
-/

noncomputable section
namespace Verif.FlattenedPower
open Real

/-- `_evaluate`, FlattenedPowerPotential.py:84-89. -/
def evaluate (α q2 c2 R z : ℝ) : ℝ :=
  if α = 0 then 1 / 2 * log (R ^ 2 + z ^ 2 / q2 + c2)
  else
    let m2 := c2 + R ^ 2 + z ^ 2 / q2;
    -(m2 ^ (-α / 2)) / α
/-- `_Rforce`, FlattenedPowerPotential.py:91-96. -/
def Rforce (α q2 c2 R z : ℝ) : ℝ :=
  if α = 0 then -R / (R ^ 2 + z ^ 2 / q2 + c2)
  else
    let m2 := c2 + R ^ 2 + z ^ 2 / q2;
    -(m2 ^ (-α / 2 - 1)) * R
/-- `_zforce`, FlattenedPowerPotential.py:98-103. -/
def zforce (α q2 c2 R z : ℝ) : ℝ :=
  if α = 0 then -z / q2 / (R ^ 2 + z ^ 2 / q2 + c2)
  else
    let m2 := c2 + R ^ 2 + z ^ 2 / q2;
    -(m2 ^ (-α / 2 - 1)) * z / q2
/-- `_R2deriv`, FlattenedPowerPotential.py:105-113. -/
def R2deriv (α q2 c2 R z : ℝ) : ℝ :=
  if α = 0 then
    let denom := 1 / (R ^ 2 + z ^ 2 / q2 + c2);
    denom - 2 * R ^ 2 * denom ^ 2
  else
    let m2 := c2 + R ^ 2 + z ^ 2 / q2;
    -(m2 ^ (-α / 2 - 1)) * ((α + 2) * R ^ 2 / m2 - 1)
/-- `_z2deriv`, FlattenedPowerPotential.py:115-126. -/
def z2deriv (α q2 c2 R z : ℝ) : ℝ :=
  if α = 0 then
    let denom := 1 / (R ^ 2 + z ^ 2 / q2 + c2);
    denom / q2 - 2 * z ^ 2 * denom ^ 2 / q2 ^ 2
  else
    let m2 := c2 + R ^ 2 + z ^ 2 / q2;
    -1 / q2 * m2 ^ (-α / 2 - 1) * ((α + 2) * z ^ 2 / m2 / q2 - 1)
/-- `_Rzderiv`, FlattenedPowerPotential.py:128-136. -/
def Rzderiv (α q2 c2 R z : ℝ) : ℝ :=
  if α = 0 then
    let denom := 1 / (R ^ 2 + z ^ 2 / q2 + c2);
    -2 * R * z / q2 * denom ^ 2
  else
    let m2 := c2 + R ^ 2 + z ^ 2 / q2;
    -(α + 2) * R * z / q2 * m2 ^ (-α / 2 - 2)
/-- `_dens`, FlattenedPowerPotential.py:138-165. -/
def dens (α q2 c2 R z : ℝ) : ℝ :=
  if α = 0 then
    1 / 4 / π / q2 * ((2 * q2 + 1) * c2 + R ^ 2 + (2 - 1 / q2) * z ^ 2)
      / (R ^ 2 + z ^ 2 / q2 + c2) ^ 2
  else
    let m2 := c2 + R ^ 2 + z ^ 2 / q2;
    1 / q2 * (c2 * (1 + 2 * q2) + R ^ 2 * (1 - α * q2) + z ^ 2 * (2 - (1 + α) / q2))
      * m2 ^ (-α / 2 - 2) / 4 / π

/-- The Python class as a record of methods. -/
def pot (α q2 c2 : ℝ) : Pot :=
  Pot.axi (evaluate α q2 c2) (Rforce α q2 c2) (zforce α q2 c2) (R2deriv α q2 c2)
    (z2deriv α q2 c2) (Rzderiv α q2 c2) (dens α q2 c2)

/-- `FlattenedPowerPotentialEval`, FlattenedPowerPotential.c:5-22. -/
def cEval (amp α q2 c2 R Z : ℝ) : ℝ :=
  if α = 0 then 1 / 2 * amp * log (R * R + Z * Z / q2 + c2)
  else
    let m2 := c2 + R * R + Z * Z / q2;
    -amp * m2 ^ (-(1 / 2) * α) / α
/-- `FlattenedPowerPotentialRforce`, FlattenedPowerPotential.c:23-40. -/
def cRforce (amp α q2 c2 R Z : ℝ) : ℝ :=
  if α = 0 then -amp * R / (R * R + Z * Z / q2 + c2)
  else
    let m2 := c2 + R * R + Z * Z / q2;
    -amp * m2 ^ (-(1 / 2) * α - 1) * R
/-- `FlattenedPowerPotentialPlanarRforce`, FlattenedPowerPotential.c:41-57.  The planar
arguments are packed as `amp, alpha, core2` (integratePlanarOrbit.py:188-192). -/
def cPlanarRforce (amp α c2 R : ℝ) : ℝ :=
  if α = 0 then -amp * R / (R * R + c2)
  else
    let m2 := c2 + R * R;
    -amp * m2 ^ (-(1 / 2) * α - 1) * R
/-- `FlattenedPowerPotentialzforce`, FlattenedPowerPotential.c:58-75. -/
def czforce (amp α q2 c2 R Z : ℝ) : ℝ :=
  if α = 0 then -amp * Z / q2 / (R * R + Z * Z / q2 + c2)
  else
    let m2 := c2 + R * R + Z * Z / q2;
    -amp * m2 ^ (-(1 / 2) * α - 1) * Z / q2
/-- `FlattenedPowerPotentialPlanarR2deriv`, FlattenedPowerPotential.c:76-92. -/
def cPlanarR2deriv (amp α c2 R : ℝ) : ℝ :=
  if α = 0 then amp * (1 - 2 * R * R / (R * R + c2)) / (R * R + c2)
  else
    let m2 := c2 + R * R;
    -amp * m2 ^ (-(1 / 2) * α - 1) * ((α + 2) * R * R / m2 - 1)
/-- `FlattenedPowerPotentialR2deriv`, FlattenedPowerPotential.c:93-112. -/
def cR2deriv (amp α q2 c2 R Z : ℝ) : ℝ :=
  if α = 0 then
    let denom := 1 / (R * R + Z * Z / q2 + c2);
    amp * (denom - 2 * R * R * denom * denom)
  else
    let m2 := c2 + R * R + Z * Z / q2;
    -amp * m2 ^ (-(1 / 2) * α - 1) * ((α + 2) * R * R / m2 - 1)
/-- `FlattenedPowerPotentialz2deriv`, FlattenedPowerPotential.c:113-133. -/
def cz2deriv (amp α q2 c2 R Z : ℝ) : ℝ :=
  if α = 0 then
    let denom := 1 / (R * R + Z * Z / q2 + c2);
    amp / q2 * (denom - 2 * Z * Z * denom * denom / q2)
  else
    let m2 := c2 + R * R + Z * Z / q2;
    -amp / q2 * m2 ^ (-(1 / 2) * α - 1) * ((α + 2) * Z * Z / m2 / q2 - 1)
/-- `FlattenedPowerPotentialRzderiv`, FlattenedPowerPotential.c:134-153. -/
def cRzderiv (amp α q2 c2 R Z : ℝ) : ℝ :=
  if α = 0 then
    let denom := 1 / (R * R + Z * Z / q2 + c2);
    -2 * amp * R * Z / q2 * denom * denom
  else
    let m2 := c2 + R * R + Z * Z / q2;
    -amp * (α + 2) * R * Z / q2 * m2 ^ (-(1 / 2) * α - 2)
/-- `FlattenedPowerPotentialDens`, FlattenedPowerPotential.c:154-174. -/
def cDens (amp α q2 c2 R Z : ℝ) : ℝ :=
  if α = 0 then
    amp * (1 / π) / 4 / q2 * ((2 * q2 + 1) * c2 + R * R + (2 - 1 / q2) * Z * Z)
      * (R * R + Z * Z / q2 + c2) ^ (-2 : ℤ)
  else
    amp * (1 / π) / 4 / q2 * ((2 * q2 + 1) * c2 + R * R * (1 - α * q2)
      + Z * Z * (2 - (1 + α) / q2)) * (R * R + Z * Z / q2 + c2) ^ (-α / 2 - 2)

end Verif.FlattenedPower
