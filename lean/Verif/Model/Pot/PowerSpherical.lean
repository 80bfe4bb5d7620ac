import Verif.Util.PotLemmas

set_option autoImplicit false

/-!
# PowerSphericalPotential and KeplerPotential

`galpy/potential/PowerSphericalPotential.py` and
`potential_c_ext/PowerSphericalPotential.c`.  Python methods are without `amp`;
C functions include it.  The branches for `r2 == 0` returning `-inf`
(PowerSphericalPotential.py:90-91, 94-95) are outside the domain of the theorems
(`R^2+z^2 > 0`) and not transcribed.
-/

noncomputable section
namespace Verif.PowerSpherical
open Real

/-- The stored amplitude, PowerSphericalPotential.py:48-53. -/
def initAmp (amp r1 α : ℝ) : ℝ :=
  if α = 3 then amp else amp * (r1 ^ (α - 3) * 4 * π / (3 - α))

/-- `_evaluate`, PowerSphericalPotential.py:63-96. -/
def evaluate (α R z : ℝ) : ℝ :=
  let r2 := R ^ 2 + z ^ 2;
  if α = 2 then log r2 / 2 else -(r2 ^ (1 - α / 2)) / (α - 2)
/-- `_Rforce`, PowerSphericalPotential.py:98-122. -/
def Rforce (α R z : ℝ) : ℝ := -R / (R ^ 2 + z ^ 2) ^ (α / 2)
/-- `_zforce`, PowerSphericalPotential.py:124-148. -/
def zforce (α R z : ℝ) : ℝ := -z / (R ^ 2 + z ^ 2) ^ (α / 2)
/-- `_rforce_jax`, PowerSphericalPotential.py:150-169 (includes `amp`). -/
def rforceJax (amp α r : ℝ) : ℝ := -amp / r ^ (α - 1)
/-- `_R2deriv`, PowerSphericalPotential.py:171-197. -/
def R2deriv (α R z : ℝ) : ℝ :=
  1 / (R ^ 2 + z ^ 2) ^ (α / 2) - α * R ^ 2 / (R ^ 2 + z ^ 2) ^ (α / 2 + 1)
/-- `_z2deriv`, PowerSphericalPotential.py:199-223. -/
def z2deriv (α R z : ℝ) : ℝ := R2deriv α z R
/-- `_Rzderiv`, PowerSphericalPotential.py:225-249. -/
def Rzderiv (α R z : ℝ) : ℝ := -α * R * z * (R ^ 2 + z ^ 2) ^ (-1 - α / 2)
/-- `_dens`, PowerSphericalPotential.py:251-276. -/
def dens (α R z : ℝ) : ℝ :=
  let r := √(R ^ 2 + z ^ 2);
  (3 - α) / 4 / π / r ^ α
/-- `_ddensdr`, PowerSphericalPotential.py:278-305 (includes `amp`). -/
def ddensdr (amp α r : ℝ) : ℝ := -amp * α * (3 - α) / 4 / π / r ^ (α + 1)
/-- `_d2densdr2`, PowerSphericalPotential.py:307-335 (includes `amp`). -/
def d2densdr2 (amp α r : ℝ) : ℝ := amp * (α + 1) * α * (3 - α) / 4 / π / r ^ (α + 2)
/-- `_ddenstwobetadr`, PowerSphericalPotential.py:337-364 (includes `amp`). -/
def ddenstwobetadr (amp α β r : ℝ) : ℝ :=
  -amp * (α - 2 * β) * (3 - α) / 4 / π / r ^ (α + 1 - 2 * β)

/-- The Python class as a record of methods.  `KeplerPotential`
(PowerSphericalPotential.py:400-460) is `α = 3`. -/
def pot (α : ℝ) : Pot :=
  Pot.axi (evaluate α) (Rforce α) (zforce α) (R2deriv α) (z2deriv α) (Rzderiv α) (dens α)

/-- `KeplerPotential._mass`, PowerSphericalPotential.py:438-460. -/
def keplerMass (_r : ℝ) : ℝ := 1

/-- `PowerSphericalPotentialEval`, PowerSphericalPotential.c:5-17. -/
def cEval (amp α R Z : ℝ) : ℝ :=
  if α = 2 then 1 / 2 * amp * log (R * R + Z * Z)
  else -amp * (R * R + Z * Z) ^ (1 - 1 / 2 * α) / (α - 2)
/-- `PowerSphericalPotentialRforce`, PowerSphericalPotential.c:18-27. -/
def cRforce (amp α R Z : ℝ) : ℝ := -amp * R * (R * R + Z * Z) ^ (-(1 / 2) * α)
/-- `PowerSphericalPotentialPlanarRforce`, PowerSphericalPotential.c:28-37. -/
def cPlanarRforce (amp α R : ℝ) : ℝ := -amp * R ^ (-α + 1)
/-- `PowerSphericalPotentialzforce`, PowerSphericalPotential.c:38-47. -/
def czforce (amp α R Z : ℝ) : ℝ := -amp * Z * (R * R + Z * Z) ^ (-(1 / 2) * α)
/-- `PowerSphericalPotentialPlanarR2deriv`, PowerSphericalPotential.c:48-57. -/
def cPlanarR2deriv (amp α R : ℝ) : ℝ := amp * (1 - α) * R ^ (-α)
/-- `PowerSphericalPotentialR2deriv`, PowerSphericalPotential.c:58-70. -/
def cR2deriv (amp α R Z : ℝ) : ℝ :=
  let r2 := R * R + Z * Z;
  let r := √r2;
  let Phipp := cPlanarR2deriv amp α r;
  let Phip := -cPlanarRforce amp α r;
  let ir2 := 1 / r2;
  let ir3 := ir2 / r;
  Phipp * R * R * ir2 + Phip * Z * Z * ir3
/-- `PowerSphericalPotentialz2deriv`, PowerSphericalPotential.c:71-82. -/
def cz2deriv (amp α R Z : ℝ) : ℝ :=
  let r2 := R * R + Z * Z;
  let r := √r2;
  let Phipp := cPlanarR2deriv amp α r;
  let Phip := -cPlanarRforce amp α r;
  let ir2 := 1 / r2;
  let ir3 := ir2 / r;
  Phipp * Z * Z * ir2 + Phip * R * R * ir3
/-- `PowerSphericalPotentialRzderiv`, PowerSphericalPotential.c:83-94. -/
def cRzderiv (amp α R Z : ℝ) : ℝ :=
  let r2 := R * R + Z * Z;
  let r := √r2;
  let Phipp := cPlanarR2deriv amp α r;
  let Phip := -cPlanarRforce amp α r;
  let ir2 := 1 / r2;
  let ir3 := ir2 / r;
  R * Z * (Phipp * ir2 - Phip * ir3)
/-- `PowerSphericalPotentialDens`, PowerSphericalPotential.c:95-104. -/
def cDens (amp α R Z : ℝ) : ℝ :=
  amp * (1 / π) / 4 * (3 - α) * (R * R + Z * Z) ^ (-(1 / 2) * α)

end Verif.PowerSpherical
