import Verif.Util.PotLemmas

set_option autoImplicit false

/-!
# IsochronePotential

`galpy/potential/IsochronePotential.py` and `potential_c_ext/IsochronePotential.c`.
Python methods are without `amp`; C functions include it.  Exponents `2.0`, `3.0`,
`-2.`, `-3.` are integer powers.
-/

noncomputable section
namespace Verif.Isochrone
open Real

/-- `_evaluate`, IsochronePotential.py:59-62. -/
def evaluate (b R z : ℝ) : ℝ :=
  let rb := √(R ^ 2 + z ^ 2 + b ^ 2);
  -1 / (b + rb)
/-- `_Rforce`, IsochronePotential.py:64-68. -/
def Rforce (b R z : ℝ) : ℝ :=
  let rb := √(R ^ 2 + z ^ 2 + b ^ 2);
  (-1 / rb / (b + rb) ^ 2) * R
/-- `_zforce`, IsochronePotential.py:70-74. -/
def zforce (b R z : ℝ) : ℝ :=
  let rb := √(R ^ 2 + z ^ 2 + b ^ 2);
  (-1 / rb / (b + rb) ^ 2) * z
/-- `_R2deriv`, IsochronePotential.py:76-87. -/
def R2deriv (b R z : ℝ) : ℝ :=
  let rb := √(R ^ 2 + z ^ 2 + b ^ 2);
  -(-(b ^ 3) - b * z ^ 2 + (2 * R ^ 2 - z ^ 2 - b ^ 2) * rb) / rb ^ 3 / (b + rb) ^ 3
/-- `_z2deriv`, IsochronePotential.py:89-100. -/
def z2deriv (b R z : ℝ) : ℝ :=
  let rb := √(R ^ 2 + z ^ 2 + b ^ 2);
  -(-(b ^ 3) - b * R ^ 2 - (R ^ 2 - 2 * z ^ 2 + b ^ 2) * rb) / rb ^ 3 / (b + rb) ^ 3
/-- `_Rzderiv`, IsochronePotential.py:102-105. -/
def Rzderiv (b R z : ℝ) : ℝ :=
  let rb := √(R ^ 2 + z ^ 2 + b ^ 2);
  -R * z * (b + 3 * rb) / rb ^ 3 / (b + rb) ^ 3
/-- `_dens`, IsochronePotential.py:107-116. -/
def dens (b R z : ℝ) : ℝ :=
  let r2 := R ^ 2 + z ^ 2;
  let rb := √(r2 + b ^ 2);
  (3 * (b + rb) * rb ^ 2 - r2 * (b + 3 * rb)) / rb ^ 3 / (b + rb) ^ 3 / 4 / π
/-- `_surfdens`, IsochronePotential.py:118-133. -/
def surfdens (b R z : ℝ) : ℝ :=
  let r2 := R ^ 2 + z ^ 2;
  let rb := √(r2 + b ^ 2);
  b * ((R * z) / r2 - (b * R * z * (b ^ 2 + 2 * R ^ 2 + z ^ 2)) / ((b ^ 2 + R ^ 2) * r2 * rb)
    + arctan (z / R) - arctan (b * z / R / rb)) / R ^ 3 / 2 / π

/-- The Python class as a record of methods. -/
def pot (b : ℝ) : Pot :=
  Pot.axi (evaluate b) (Rforce b) (zforce b) (R2deriv b) (z2deriv b) (Rzderiv b) (dens b)

/-- `IsochronePotentialEval`, IsochronePotential.c:5-15. -/
def cEval (amp b R z : ℝ) : ℝ := -amp / (b + √(R * R + z * z + b * b))
/-- `IsochronePotentialRforce`, IsochronePotential.c:16-27. -/
def cRforce (amp b R z : ℝ) : ℝ :=
  let rb := √(R * R + z * z + b * b);
  -amp * R / rb * (b + rb) ^ (-2 : ℤ)
/-- `IsochronePotentialPlanarRforce`, IsochronePotential.c:28-39. -/
def cPlanarRforce (amp b R : ℝ) : ℝ :=
  let rb := √(R * R + b * b);
  -amp * R / rb * (b + rb) ^ (-2 : ℤ)
/-- `IsochronePotentialzforce`, IsochronePotential.c:40-51. -/
def czforce (amp b R z : ℝ) : ℝ :=
  let rb := √(R * R + z * z + b * b);
  -amp * z / rb * (b + rb) ^ (-2 : ℤ)
/-- `IsochronePotentialPlanarR2deriv`, IsochronePotential.c:52-63. -/
def cPlanarR2deriv (amp b R : ℝ) : ℝ :=
  let r2 := R * R;
  let rb := √(r2 + b * b);
  -amp * (-(b ^ 3) - b * b * rb + 2 * r2 * rb) * (rb * (b + rb)) ^ (-3 : ℤ)
/-- `IsochronePotentialR2deriv`, IsochronePotential.c:64-76. -/
def cR2deriv (amp b R z : ℝ) : ℝ :=
  let r2 := R * R + z * z;
  let r := √r2;
  let Phipp := cPlanarR2deriv amp b r;
  let Phip := -cPlanarRforce amp b r;
  let ir2 := 1 / r2;
  let ir3 := ir2 / r;
  Phipp * R * R * ir2 + Phip * z * z * ir3
/-- `IsochronePotentialz2deriv`, IsochronePotential.c:77-88. -/
def cz2deriv (amp b R z : ℝ) : ℝ :=
  let r2 := R * R + z * z;
  let r := √r2;
  let Phipp := cPlanarR2deriv amp b r;
  let Phip := -cPlanarRforce amp b r;
  let ir2 := 1 / r2;
  let ir3 := ir2 / r;
  Phipp * z * z * ir2 + Phip * R * R * ir3
/-- `IsochronePotentialRzderiv`, IsochronePotential.c:89-100. -/
def cRzderiv (amp b R z : ℝ) : ℝ :=
  let r2 := R * R + z * z;
  let r := √r2;
  let Phipp := cPlanarR2deriv amp b r;
  let Phip := -cPlanarRforce amp b r;
  let ir2 := 1 / r2;
  let ir3 := ir2 / r;
  R * z * (Phipp * ir2 - Phip * ir3)
/-- `IsochronePotentialDens`, IsochronePotential.c:101-115 (`M_1_PI = 1/π`). -/
def cDens (amp b R z : ℝ) : ℝ :=
  let r2 := R * R + z * z;
  let rb := √(r2 + b * b);
  let brbrb := (b + rb) * rb;
  amp * (1 / π) / 4 * (3 * brbrb * rb - r2 * (b + 3 * rb)) * brbrb ^ (-3 : ℤ)

end Verif.Isochrone
