import Verif.Model.Pot.Spherical

set_option autoImplicit false

/-!
# SphericalShellPotential and HomogeneousSpherePotential

`galpy/potential/SphericalShellPotential.py`, `HomogeneousSpherePotential.py` and
`potential_c_ext/HomogeneousSpherePotential.c`.  The array branches (`numpy.where`) compute
elementwise the same values as the scalar branches and are not modelled separately.  The
shell's density at `r = a` is infinite in Python; the model has no infinity and uses 0
there, so the theorems exclude `r = a`.
-/

noncomputable section
namespace Verif
open Real

namespace SphericalShell
/-- `_revaluate`, SphericalShellPotential.py:59-71. -/
def revaluate (a r : ℝ) : ℝ := if r ≤ a then -1 / a else -1 / r
/-- `_rforce`, SphericalShellPotential.py:73-81. -/
def rforce (a r : ℝ) : ℝ := if r ≤ a then 0 else -1 / r ^ 2
/-- `_r2deriv`, SphericalShellPotential.py:83-91. -/
def r2deriv (a r : ℝ) : ℝ := if r ≤ a then 0 else -2 / r ^ 3
/-- `_rdens`, SphericalShellPotential.py:93-100 (`inf` at `r = a` not modelled). -/
def rdens (_a _r : ℝ) : ℝ := 0
/-- `_surfdens`, SphericalShellPotential.py:102-117. -/
def surfdens (a R z : ℝ) : ℝ :=
  if R > a then 0
  else
    let h := √(a ^ 2 - R ^ 2);
    if z < h then 0 else 1 / (2 * π * a * h)
/-- The radial profile given to `SphericalPotential`. -/
def radial (a : ℝ) : Spherical.Radial :=
  ⟨fun r _ => revaluate a r, fun r _ => rforce a r, fun r _ => r2deriv a r, fun r _ => rdens a r⟩
/-- The Python class. -/
def pot (a : ℝ) : Pot := Spherical.pot (radial a)
end SphericalShell

namespace HomogeneousSphere
/-- `_evaluate`, HomogeneousSpherePotential.py:58-71; `a` is the radius (`_R2 = a^2`, `_R3 = a^3`). -/
def evaluate (a R z : ℝ) : ℝ :=
  let r2 := R ^ 2 + z ^ 2;
  if r2 < a ^ 2 then r2 - 3 * a ^ 2 else -2 * a ^ 3 / √r2
/-- `_Rforce`, HomogeneousSpherePotential.py:73-84. -/
def Rforce (a R z : ℝ) : ℝ :=
  let r2 := R ^ 2 + z ^ 2;
  if r2 < a ^ 2 then -2 * R else -2 * a ^ 3 * R / r2 ^ (3 / 2 : ℝ)
/-- `_zforce`, HomogeneousSpherePotential.py:86-97. -/
def zforce (a R z : ℝ) : ℝ :=
  let r2 := R ^ 2 + z ^ 2;
  if r2 < a ^ 2 then -2 * z else -2 * a ^ 3 * z / r2 ^ (3 / 2 : ℝ)
/-- `_R2deriv`, HomogeneousSpherePotential.py:99-114. -/
def R2deriv (a R z : ℝ) : ℝ :=
  let r2 := R ^ 2 + z ^ 2;
  if r2 < a ^ 2 then 2
  else 2 * a ^ 3 / r2 ^ (3 / 2 : ℝ) - 6 * a ^ 3 * R ^ 2 / r2 ^ (5 / 2 : ℝ)
/-- `_z2deriv`, HomogeneousSpherePotential.py:116-131. -/
def z2deriv (a R z : ℝ) : ℝ :=
  let r2 := R ^ 2 + z ^ 2;
  if r2 < a ^ 2 then 2
  else 2 * a ^ 3 / r2 ^ (3 / 2 : ℝ) - 6 * a ^ 3 * z ^ 2 / r2 ^ (5 / 2 : ℝ)
/-- `_Rzderiv`, HomogeneousSpherePotential.py:133-146. -/
def Rzderiv (a R z : ℝ) : ℝ :=
  let r2 := R ^ 2 + z ^ 2;
  if r2 < a ^ 2 then 0 else -6 * a ^ 3 * R * z / r2 ^ (5 / 2 : ℝ)
/-- `_dens`, HomogeneousSpherePotential.py:148-161. -/
def dens (a R z : ℝ) : ℝ :=
  let r2 := R ^ 2 + z ^ 2;
  if r2 < a ^ 2 then 3 / 2 / π else 0
/-- The class. -/
def pot (a : ℝ) : Pot :=
  Pot.axi (evaluate a) (Rforce a) (zforce a) (R2deriv a) (z2deriv a) (Rzderiv a) (dens a)

/-- `HomogeneousSpherePotentialEval`, HomogeneousSpherePotential.c:5-20; the C arguments
`R2`, `R3` are `_R2`, `_R3` (orbit/integrateFullOrbit.py:363-365). -/
def cEval (amp R2 R3 R Z : ℝ) : ℝ :=
  let r2 := R * R + Z * Z;
  if r2 < R2 then amp * (r2 - 3 * R2) else -2 * amp * R3 / √r2
/-- `HomogeneousSpherePotentialRforce`, HomogeneousSpherePotential.c:21-36. -/
def cRforce (amp R2 R3 R Z : ℝ) : ℝ :=
  let r2 := R * R + Z * Z;
  if r2 < R2 then -2 * amp * R else -2 * amp * R3 * R / r2 ^ (3 / 2 : ℝ)
/-- `HomogeneousSpherePotentialPlanarRforce`, HomogeneousSpherePotential.c:37-52. -/
def cPlanarRforce (amp R2 R3 R : ℝ) : ℝ :=
  let r2 := R * R;
  if r2 < R2 then -2 * amp * R else -2 * amp * R3 / r2
/-- `HomogeneousSpherePotentialzforce`, HomogeneousSpherePotential.c:53-68. -/
def czforce (amp R2 R3 R Z : ℝ) : ℝ :=
  let r2 := R * R + Z * Z;
  if r2 < R2 then -2 * amp * Z else -2 * amp * R3 * Z / r2 ^ (3 / 2 : ℝ)
/-- `HomogeneousSpherePotentialPlanarR2deriv`, HomogeneousSpherePotential.c:69-84. -/
def cPlanarR2deriv (amp R2 R3 R : ℝ) : ℝ :=
  let r2 := R * R;
  if r2 < R2 then 2 * amp else -4 * amp * R3 / r2 ^ (3 / 2 : ℝ)
/-- `HomogeneousSpherePotentialR2deriv`, HomogeneousSpherePotential.c:85-97. -/
def cR2deriv (amp R2 R3 R Z : ℝ) : ℝ :=
  Spherical.cR2 (cPlanarR2deriv amp R2 R3) (cPlanarRforce amp R2 R3) R Z
/-- `HomogeneousSpherePotentialz2deriv`, HomogeneousSpherePotential.c:98-109. -/
def cz2deriv (amp R2 R3 R Z : ℝ) : ℝ :=
  Spherical.cz2 (cPlanarR2deriv amp R2 R3) (cPlanarRforce amp R2 R3) R Z
/-- `HomogeneousSpherePotentialRzderiv`, HomogeneousSpherePotential.c:110-121. -/
def cRzderiv (amp R2 R3 R Z : ℝ) : ℝ :=
  Spherical.cRz (cPlanarR2deriv amp R2 R3) (cPlanarRforce amp R2 R3) R Z
/-- `HomogeneousSpherePotentialDens`, HomogeneousSpherePotential.c:122-135. -/
def cDens (amp R2 R Z : ℝ) : ℝ :=
  let r2 := R * R + Z * Z;
  if r2 < R2 then 3 / 2 * amp * (1 / π) else 0
end HomogeneousSphere
end Verif
