import Verif.Util.PotLemmas
import Mathlib.Data.Sign.Basic
import Mathlib.Data.Real.Sign

set_option autoImplicit false

/-!
# KuzminDiskPotential

`galpy/potential/KuzminDiskPotential.py` and `potential_c_ext/KuzminDiskPotential.c`.
Python methods are without `amp`; C functions include it.  `numpy.sign` is
`Real.sign`, `numpy.fabs` is `|·|`.  The class has no `_dens`: outside the plane
`Potential.dens` falls back on the Poisson equation from forces, see `dens`.
-/

noncomputable section
namespace Verif.KuzminDisk
open Real

/-- `_denom`, KuzminDiskPotential.py:92-93. -/
def denom (a R z : ℝ) : ℝ := R ^ 2 + (a + |z|) ^ 2
/-- `_evaluate`, KuzminDiskPotential.py:58-59. -/
def evaluate (a R z : ℝ) : ℝ := -(denom a R z ^ (-(1/2) : ℝ))
/-- `_Rforce`, KuzminDiskPotential.py:61-62. -/
def Rforce (a R z : ℝ) : ℝ := -(denom a R z ^ (-(3/2) : ℝ)) * R
/-- `_zforce`, KuzminDiskPotential.py:64-65. -/
def zforce (a R z : ℝ) : ℝ := -Real.sign z * denom a R z ^ (-(3/2) : ℝ) * (a + |z|)
/-- `_R2deriv`, KuzminDiskPotential.py:67-68. -/
def R2deriv (a R z : ℝ) : ℝ :=
  denom a R z ^ (-(3/2) : ℝ) - 3 * R ^ 2 * denom a R z ^ (-(5/2) : ℝ)
/-- `_z2deriv`, KuzminDiskPotential.py:70-75. -/
def z2deriv (a R z : ℝ) : ℝ :=
  denom a R z ^ (-(3/2) : ℝ) - 3 * (a + |z|) ^ 2 * denom a R z ^ (-(5/2) : ℝ)
/-- `_Rzderiv`, KuzminDiskPotential.py:77-84. -/
def Rzderiv (a R z : ℝ) : ℝ :=
  -3 * Real.sign z * R * (a + |z|) * denom a R z ^ (-(5/2) : ℝ)
/-- `_surfdens`, KuzminDiskPotential.py:86-87. -/
def surfdens (a R : ℝ) : ℝ := a * (R ^ 2 + a ^ 2) ^ (-(3/2) : ℝ) / 2 / π
/-- `_mass`, KuzminDiskPotential.py:89-90. -/
def mass (a R : ℝ) : ℝ := 1 - a / √(R ^ 2 + a ^ 2)
/-- `Potential.dens` when the class has no `_dens` (Potential.py:605-621): the
Poisson density computed from `Rforce`, `R2deriv`, `z2deriv`, `phi2deriv`. -/
def dens (a R z : ℝ) : ℝ :=
  (-Rforce a R z / R + R2deriv a R z + z2deriv a R z) / 4 / π

/-- The Python class as a record of methods. -/
def pot (a : ℝ) : Pot :=
  Pot.axi (evaluate a) (Rforce a) (zforce a) (R2deriv a) (z2deriv a) (Rzderiv a) (dens a)

/-- `KuzminDiskPotentialEval`, KuzminDiskPotential.c:5-14. -/
def cEval (amp a R z : ℝ) : ℝ := -amp * (R * R + (a + |z|) ^ 2) ^ (-(1/2) : ℝ)
/-- `KuzminDiskPotentialRforce`, KuzminDiskPotential.c:15-24. -/
def cRforce (amp a R z : ℝ) : ℝ := -amp * R * (R * R + (a + |z|) ^ 2) ^ (-(3/2) : ℝ)
/-- `KuzminDiskPotentialPlanarRforce`, KuzminDiskPotential.c:26-35. -/
def cPlanarRforce (amp a R : ℝ) : ℝ := -amp * R * (R * R + a * a) ^ (-(3/2) : ℝ)
/-- `(z > 0) - (z < 0)` in C. -/
def csign (z : ℝ) : ℝ := (if z > 0 then 1 else 0) - (if z < 0 then 1 else 0)
/-- `KuzminDiskPotentialzforce`, KuzminDiskPotential.c:37-47. -/
def czforce (amp a R z : ℝ) : ℝ :=
  -csign z * amp * (R * R + (a + |z|) ^ 2) ^ (-(3/2) : ℝ) * (a + |z|)
/-- `KuzminDiskPotentialPlanarR2deriv`, KuzminDiskPotential.c:49-59. -/
def cPlanarR2deriv (amp a R : ℝ) : ℝ :=
  let denom := R * R + a * a;
  amp * (-denom ^ (-(3/2) : ℝ) + 3 * R * R * denom ^ (-(5/2) : ℝ))
/-- `KuzminDiskPotentialR2deriv`, KuzminDiskPotential.c:61-74. -/
def cR2deriv (amp a R z : ℝ) : ℝ :=
  let az := a + |z|;
  let denom := R * R + az * az;
  let denomm15 := 1 / (denom * √denom);
  amp * (denomm15 - 3 * R * R * denomm15 / denom)
/-- `KuzminDiskPotentialz2deriv`, KuzminDiskPotential.c:75-88. -/
def cz2deriv (amp a R z : ℝ) : ℝ :=
  let az := a + |z|;
  let denom := R * R + az * az;
  let denomm15 := 1 / (denom * √denom);
  amp * (denomm15 - 3 * az * az * denomm15 / denom)
/-- `KuzminDiskPotentialRzderiv`, KuzminDiskPotential.c:89-102. -/
def cRzderiv (amp a R z : ℝ) : ℝ :=
  let az := a + |z|;
  let denom := R * R + az * az;
  let denomm25 := 1 / (denom * denom * √denom);
  amp * (-3 * csign z * R * az * denomm25)

end Verif.KuzminDisk
