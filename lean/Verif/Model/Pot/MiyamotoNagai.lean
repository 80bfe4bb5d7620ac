import Verif.Util.PotLemmas

set_option autoImplicit false

/-!
# MiyamotoNagaiPotential

`galpy/potential/MiyamotoNagaiPotential.py` and `potential_c_ext/MiyamotoNagaiPotential.c`.
Python methods are without `amp`; C functions include it.
The Python branch `isinstance(R, float) and sqrtbz == asqrtbz` is transcribed for
scalar (`float`) `R`; for arrays the second branch is always taken, which is the
definition with `scalar := false`.
-/

noncomputable section
namespace Verif.MiyamotoNagai
open Real

/-- `_evaluate`, MiyamotoNagaiPotential.py:68-71. -/
def evaluate (a b R z : ℝ) : ℝ := -1 / √(R ^ 2 + (a + √(z ^ 2 + b ^ 2)) ^ 2)
/-- `_Rforce`, MiyamotoNagaiPotential.py:73-76. -/
def Rforce (a b R z : ℝ) : ℝ := -R / (R ^ 2 + (a + √(z ^ 2 + b ^ 2)) ^ 2) ^ (3/2 : ℝ)
/-- `_zforce`, MiyamotoNagaiPotential.py:78-92. -/
def zforce (scalar : Bool) (a b R z : ℝ) : ℝ :=
  let sqrtbz := √(b ^ 2 + z ^ 2);
  let asqrtbz := a + sqrtbz;
  if scalar = true ∧ sqrtbz = asqrtbz then
    -z / (R ^ 2 + (a + √(z ^ 2 + b ^ 2)) ^ 2) ^ (3/2 : ℝ)
  else
    -z * asqrtbz / sqrtbz / (R ^ 2 + (a + √(z ^ 2 + b ^ 2)) ^ 2) ^ (3/2 : ℝ)
/-- `_dens`, MiyamotoNagaiPotential.py:94-107. -/
def dens (scalar : Bool) (a b R z : ℝ) : ℝ :=
  let sqrtbz := √(b ^ 2 + z ^ 2);
  let asqrtbz := a + sqrtbz;
  if scalar = true ∧ sqrtbz = asqrtbz then
    3 / (R ^ 2 + sqrtbz ^ 2) ^ (5/2 : ℝ) / 4 / π * b ^ 2
  else
    (a * R ^ 2 + (a + 3 * sqrtbz) * asqrtbz ^ 2) / (R ^ 2 + asqrtbz ^ 2) ^ (5/2 : ℝ)
      / sqrtbz ^ 3 / 4 / π * b ^ 2
/-- `_R2deriv`, MiyamotoNagaiPotential.py:109-115. -/
def R2deriv (a b R z : ℝ) : ℝ :=
  1 / (R ^ 2 + (a + √(z ^ 2 + b ^ 2)) ^ 2) ^ (3/2 : ℝ)
    - 3 * R ^ 2 / (R ^ 2 + (a + √(z ^ 2 + b ^ 2)) ^ 2) ^ (5/2 : ℝ)
/-- `_z2deriv`, MiyamotoNagaiPotential.py:117-133. -/
def z2deriv (scalar : Bool) (a b R z : ℝ) : ℝ :=
  let sqrtbz := √(b ^ 2 + z ^ 2);
  let asqrtbz := a + sqrtbz;
  if scalar = true ∧ sqrtbz = asqrtbz then
    (b ^ 2 + R ^ 2 - 2 * z ^ 2) * (b ^ 2 + R ^ 2 + z ^ 2) ^ (-(5/2) : ℝ)
  else
    (a ^ 3 * b ^ 2 + a ^ 2 * (3 * b ^ 2 - 2 * z ^ 2) * √(b ^ 2 + z ^ 2)
      + (b ^ 2 + R ^ 2 - 2 * z ^ 2) * (b ^ 2 + z ^ 2) ^ (3/2 : ℝ)
      + a * (3 * (b ^ 2) ^ 2 - 4 * z ^ 4 + b ^ 2 * (R ^ 2 - z ^ 2)))
      / ((b ^ 2 + z ^ 2) ^ (3/2 : ℝ) * (R ^ 2 + asqrtbz ^ 2) ^ (5/2 : ℝ))
/-- `_Rzderiv`, MiyamotoNagaiPotential.py:135-141. -/
def Rzderiv (scalar : Bool) (a b R z : ℝ) : ℝ :=
  let sqrtbz := √(b ^ 2 + z ^ 2);
  let asqrtbz := a + sqrtbz;
  if scalar = true ∧ sqrtbz = asqrtbz then
    -(3 * R * z / (R ^ 2 + asqrtbz ^ 2) ^ (5/2 : ℝ))
  else
    -(3 * R * z * asqrtbz / sqrtbz / (R ^ 2 + asqrtbz ^ 2) ^ (5/2 : ℝ))

/-- The Python class as a record of methods. -/
def pot (scalar : Bool) (a b : ℝ) : Pot :=
  Pot.axi (evaluate a b) (Rforce a b) (zforce scalar a b) (R2deriv a b) (z2deriv scalar a b)
    (Rzderiv scalar a b) (dens scalar a b)

/-- `MiyamotoNagaiPotentialEval`, MiyamotoNagaiPotential.c:5-15 (`pow(x,0.5)` is `√x`). -/
def cEval (amp a b R z : ℝ) : ℝ :=
  -amp * (R * R + (a + √(z * z + b * b)) ^ 2) ^ (-(1/2) : ℝ)
/-- `MiyamotoNagaiPotentialRforce`, MiyamotoNagaiPotential.c:16-26. -/
def cRforce (amp a b R z : ℝ) : ℝ :=
  -amp * R * (R * R + (a + √(z * z + b * b)) ^ 2) ^ (-(3/2) : ℝ)
/-- `MiyamotoNagaiPotentialPlanarRforce`, MiyamotoNagaiPotential.c:27-37. -/
def cPlanarRforce (amp a b R : ℝ) : ℝ := -amp * R * (R * R + (a + b) ^ 2) ^ (-(3/2) : ℝ)
/-- `MiyamotoNagaiPotentialzforce`, MiyamotoNagaiPotential.c:38-53. -/
def czforce (amp a b R z : ℝ) : ℝ :=
  let sqrtbz := √(b * b + z * z);
  let asqrtbz := a + sqrtbz;
  if a = 0 then amp * (-z * (R * R + asqrtbz * asqrtbz) ^ (-(3/2) : ℝ))
  else amp * (-z * asqrtbz / sqrtbz * (R * R + asqrtbz * asqrtbz) ^ (-(3/2) : ℝ))
/-- `MiyamotoNagaiPotentialPlanarR2deriv`, MiyamotoNagaiPotential.c:54-65. -/
def cPlanarR2deriv (amp a b R : ℝ) : ℝ :=
  let denom := R * R + (a + b) ^ 2;
  amp * (denom ^ (-(3/2) : ℝ) - 3 * R * R * denom ^ (-(5/2) : ℝ))
/-- `MiyamotoNagaiPotentialR2deriv`, MiyamotoNagaiPotential.c:66-79. -/
def cR2deriv (amp a b R z : ℝ) : ℝ :=
  let sqrtbz := √(b * b + z * z);
  let asqrtbz := a + sqrtbz;
  let denom := R * R + asqrtbz * asqrtbz;
  amp * (denom ^ (-(3/2) : ℝ) - 3 * R * R * denom ^ (-(5/2) : ℝ))
/-- `MiyamotoNagaiPotentialz2deriv`, MiyamotoNagaiPotential.c:80-100. -/
def cz2deriv (amp a b R z : ℝ) : ℝ :=
  let b2 := b * b;
  let sqrtbz := √(b2 + z * z);
  let asqrtbz := a + sqrtbz;
  if a = 0 then amp * (b2 + R * R - 2 * z * z) * (b2 + R * R + z * z) ^ (-(5/2) : ℝ)
  else amp * (a * a * a * b2 + a * a * (3 * b2 - 2 * z * z) * sqrtbz
      + (b2 + R * R - 2 * z * z) * (b2 + z * z) ^ (3/2 : ℝ)
      + a * (3 * b2 * b2 - 4 * z * z * z * z + b2 * (R * R - z * z)))
      / ((b2 + z * z) ^ (3/2 : ℝ) * (R * R + asqrtbz * asqrtbz) ^ (5/2 : ℝ))
/-- `MiyamotoNagaiPotentialRzderiv`, MiyamotoNagaiPotential.c:101-117. -/
def cRzderiv (amp a b R z : ℝ) : ℝ :=
  let sqrtbz := √(b * b + z * z);
  let asqrtbz := a + sqrtbz;
  if a = 0 then amp * (-3 * R * z * (R * R + asqrtbz * asqrtbz) ^ (-(5/2) : ℝ))
  else amp * (-3 * R * z * asqrtbz / sqrtbz * (R * R + asqrtbz * asqrtbz) ^ (-(5/2) : ℝ))
/-- `MiyamotoNagaiPotentialDens`, MiyamotoNagaiPotential.c:118-137 (the local
`asqrtbz` is squared in place, line 130). -/
def cDens (amp a b R z : ℝ) : ℝ :=
  let b2 := b * b;
  let sqrtbz := √(b2 + z * z);
  let asqrtbz := (a + sqrtbz) * (a + sqrtbz);
  if a = 0 then 3 * amp * (1 / π) / 4 * b2 * (R * R + sqrtbz * sqrtbz) ^ (-(5/2) : ℝ)
  else amp * (1 / π) / 4 * b2 * (a * R * R + (a + 3 * sqrtbz) * asqrtbz)
      * (R * R + asqrtbz) ^ (-(5/2) : ℝ) * sqrtbz ^ (-3 : ℤ)

end Verif.MiyamotoNagai
