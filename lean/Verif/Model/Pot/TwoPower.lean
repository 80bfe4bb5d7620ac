import Verif.Model.Pot.Spherical

set_option autoImplicit false

/-!
# Dehnen, DehnenCore, Hernquist, Jaffe and NFW potentials

`galpy/potential/TwoPowerSphericalPotential.py` and `potential_c_ext/DehnenPotential.c`,
`DehnenCorePotential.c`, `HernquistPotential.c`, `JaffePotential.c`, `NFWPotential.c`.
The generic `TwoPowerSphericalPotential` is in `TwoPowerGeneric.lean`.
`pow(x, 0.5)` in the C code is written `√`.
-/

noncomputable section
namespace Verif
open Real

/-! ## DehnenSphericalPotential -/
namespace Dehnen

/-- `_evaluate` without `_specialSelf`, TwoPowerSphericalPotential.py:360-363. -/
def evaluate (a α R z : ℝ) : ℝ :=
  let r := √(R ^ 2 + z ^ 2);
  -(1 - 1 / (1 + a / r) ^ (2 - α)) / (a * (2 - α) * (3 - α))
/-- `_Rforce`, TwoPowerSphericalPotential.py:369-375. -/
def Rforce (a α R z : ℝ) : ℝ :=
  let r := √(R ^ 2 + z ^ 2);
  -R / r ^ α * (a + r) ^ (α - 3) / (3 - α)
/-- `_R2deriv`, TwoPowerSphericalPotential.py:380-388. -/
def R2deriv (a α R z : ℝ) : ℝ :=
  let r := √(R ^ 2 + z ^ 2);
  r ^ (-2 - α) * (r + a) ^ (α - 4)
    * (-a * r ^ 2 + (2 * R ^ 2 - z ^ 2) * r + a * α * R ^ 2) / (α - 3)
/-- `_zforce`, TwoPowerSphericalPotential.py:394-400. -/
def zforce (a α R z : ℝ) : ℝ :=
  let r := √(R ^ 2 + z ^ 2);
  -z / r ^ α * (a + r) ^ (α - 3) / (3 - α)
/-- `_z2deriv`, TwoPowerSphericalPotential.py:402-403. -/
def z2deriv (a α R z : ℝ) : ℝ := R2deriv a α z R
/-- `_Rzderiv`, TwoPowerSphericalPotential.py:408-416. -/
def Rzderiv (a α R z : ℝ) : ℝ :=
  let r := √(R ^ 2 + z ^ 2);
  (R * z * r ^ (-2 - α) * (a + r) ^ (α - 4) * (3 * r + a * α)) / (α - 3)
/-- `_dens`, TwoPowerSphericalPotential.py:418-426. -/
def dens (a α R z : ℝ) : ℝ :=
  let r := √(R ^ 2 + z ^ 2);
  (a / r) ^ α / (1 + r / a) ^ (4 - α) / 4 / π / a ^ 3
/-- `_mass`, TwoPowerSphericalPotential.py:428-433. -/
def mass (a α R : ℝ) : ℝ := 1 / (1 + a / R) ^ (3 - α) / (3 - α)
/-- The constructor's range check, TwoPowerSphericalPotential.py:332-333. -/
def valid (α : ℝ) : Prop := 0 ≤ α ∧ α < 3
/-- The class when no `_specialSelf` is set (α not 0, 1, 2). -/
def pot (a α : ℝ) : Pot :=
  Pot.axi (evaluate a α) (Rforce a α) (zforce a α) (R2deriv a α) (z2deriv a α) (Rzderiv a α) (dens a α)

/-- `DehnenSphericalPotentialEval`, DehnenPotential.c:5-16. -/
def cEval (amp a α R Z : ℝ) : ℝ :=
  let s := √(R * R + Z * Z);
  -amp * (1 - (s / (s + a)) ^ (2 - α)) / (a * (2 - α) * (3 - α))
/-- `DehnenSphericalPotentialEval` with the C semantics of `/`: a zero denominator gives no finite
number (`none`). DehnenPotential.c:5-16. -/
def cEvalFinite (amp a α R Z : ℝ) : Option ℝ :=
  let s := √(R * R + Z * Z);
  if a * (2 - α) * (3 - α) = 0 then none
  else some (-amp * (1 - (s / (s + a)) ^ (2 - α)) / (a * (2 - α) * (3 - α)))
/-- `DehnenSphericalPotentialRforce`, DehnenPotential.c:18-28. -/
def cRforce (amp a α R Z : ℝ) : ℝ :=
  let s := √(R * R + Z * Z);
  -amp * (R * (1 + a / s) ^ α / (a + s) ^ 3 / (3 - α))
/-- `DehnenSphericalPotentialPlanarRforce`, DehnenPotential.c:30-40. -/
def cPlanarRforce (amp a α R : ℝ) : ℝ := -amp * (R * (1 + a / R) ^ α / (a + R) ^ 3 / (3 - α))
/-- `DehnenSphericalPotentialzforce`, DehnenPotential.c:42-53. -/
def czforce (amp a α R Z : ℝ) : ℝ :=
  let s := √(R * R + Z * Z);
  -amp * (Z * (1 + a / s) ^ α / (a + s) ^ 3 / (3 - α))
/-- `DehnenSphericalPotentialPlanarR2deriv`, DehnenPotential.c:55-65. -/
def cPlanarR2deriv (amp a α R : ℝ) : ℝ :=
  -amp * ((1 + a / R) ^ α * (a + R) ^ (-4 : ℤ) * (2 * R + a * (α - 1))) / (3 - α)
/-- `DehnenSphericalPotentialR2deriv`, DehnenPotential.c:66-78. -/
def cR2deriv (amp a α R Z : ℝ) : ℝ := Spherical.cR2 (cPlanarR2deriv amp a α) (cPlanarRforce amp a α) R Z
/-- `DehnenSphericalPotentialz2deriv`, DehnenPotential.c:79-90. -/
def cz2deriv (amp a α R Z : ℝ) : ℝ := Spherical.cz2 (cPlanarR2deriv amp a α) (cPlanarRforce amp a α) R Z
/-- `DehnenSphericalPotentialRzderiv`, DehnenPotential.c:91-102. -/
def cRzderiv (amp a α R Z : ℝ) : ℝ := Spherical.cRz (cPlanarR2deriv amp a α) (cPlanarRforce amp a α) R Z
/-- `DehnenSphericalPotentialDens`, DehnenPotential.c:103-114. -/
def cDens (amp a α R Z : ℝ) : ℝ :=
  let r := √(R * R + Z * Z);
  amp * (1 / π) / 4 * r ^ (-α) * (1 + r / a) ^ (α - 4) * a ^ (α - 3)

end Dehnen

/-! ## DehnenCoreSphericalPotential -/
namespace DehnenCore

/-- `_evaluate`, TwoPowerSphericalPotential.py:475-477. -/
def evaluate (a R z : ℝ) : ℝ :=
  let r := √(R ^ 2 + z ^ 2);
  -(1 - 1 / (1 + a / r) ^ 2) / (6 * a)
/-- `_Rforce`, TwoPowerSphericalPotential.py:479-480. -/
def Rforce (a R z : ℝ) : ℝ := -R / (√(R ^ 2 + z ^ 2) + a) ^ 3 / 3
/-- `_rforce_jax`, TwoPowerSphericalPotential.py:482-484 (includes `amp`). -/
def rforceJax (amp a r : ℝ) : ℝ := -amp * r / (r + a) ^ 3 / 3
/-- `_R2deriv`, TwoPowerSphericalPotential.py:486-491. -/
def R2deriv (a R z : ℝ) : ℝ :=
  let r := √(R ^ 2 + z ^ 2);
  -(((2 * R ^ 2 - z ^ 2) - a * r) / (3 * r * (r + a) ^ 4))
/-- `_zforce`, TwoPowerSphericalPotential.py:493-495. -/
def zforce (a R z : ℝ) : ℝ :=
  let r := √(R ^ 2 + z ^ 2);
  -z / (a + r) ^ 3 / 3
/-- `_z2deriv`, TwoPowerSphericalPotential.py:497-498. -/
def z2deriv (a R z : ℝ) : ℝ := R2deriv a z R
/-- `_Rzderiv`, TwoPowerSphericalPotential.py:500-503. -/
def Rzderiv (a R z : ℝ) : ℝ :=
  let r := √(R ^ 2 + z ^ 2);
  -(R * z / r / (a + r) ^ 4)
/-- `_dens`, TwoPowerSphericalPotential.py:505-507. -/
def dens (a R z : ℝ) : ℝ :=
  let r := √(R ^ 2 + z ^ 2);
  1 / (1 + r / a) ^ 4 / 4 / π / a ^ 3
/-- `_mass`, TwoPowerSphericalPotential.py:509-514. -/
def mass (a R : ℝ) : ℝ := 1 / (1 + a / R) ^ 3 / 3
/-- The class. -/
def pot (a : ℝ) : Pot :=
  Pot.axi (evaluate a) (Rforce a) (zforce a) (R2deriv a) (z2deriv a) (Rzderiv a) (dens a)

/-- `DehnenCoreSphericalPotentialEval`, DehnenCorePotential.c:5-14. -/
def cEval (amp a R Z : ℝ) : ℝ :=
  let s := √(R * R + Z * Z);
  -amp * (1 - (s / (s + a)) ^ 2) / (6 * a)
/-- `DehnenCoreSphericalPotentialRforce`, DehnenCorePotential.c:16-25. -/
def cRforce (amp a R Z : ℝ) : ℝ :=
  let s := √(R * R + Z * Z);
  -amp * (R / (a + s) ^ 3 / 3)
/-- `DehnenCoreSphericalPotentialPlanarRforce`, DehnenCorePotential.c:27-36. -/
def cPlanarRforce (amp a R : ℝ) : ℝ := -amp * (R / (a + R) ^ 3 / 3)
/-- `DehnenCoreSphericalPotentialzforce`, DehnenCorePotential.c:38-48. -/
def czforce (amp a R Z : ℝ) : ℝ :=
  let s := √(R * R + Z * Z);
  -amp * (Z / (a + s) ^ 3 / 3)
/-- `DehnenCoreSphericalPotentialPlanarR2deriv`, DehnenCorePotential.c:50-59. -/
def cPlanarR2deriv (amp a R : ℝ) : ℝ := -amp * ((a + R) ^ (-4 : ℤ) * (2 * R - a)) / 3
/-- `DehnenCoreSphericalPotentialR2deriv`, DehnenCorePotential.c:60-72. -/
def cR2deriv (amp a R Z : ℝ) : ℝ := Spherical.cR2 (cPlanarR2deriv amp a) (cPlanarRforce amp a) R Z
/-- `DehnenCoreSphericalPotentialz2deriv`, DehnenCorePotential.c:73-84. -/
def cz2deriv (amp a R Z : ℝ) : ℝ := Spherical.cz2 (cPlanarR2deriv amp a) (cPlanarRforce amp a) R Z
/-- `DehnenCoreSphericalPotentialRzderiv`, DehnenCorePotential.c:85-96. -/
def cRzderiv (amp a R Z : ℝ) : ℝ := Spherical.cRz (cPlanarR2deriv amp a) (cPlanarRforce amp a) R Z
/-- `DehnenCoreSphericalPotentialDens`, DehnenCorePotential.c:97-106. -/
def cDens (amp a R Z : ℝ) : ℝ :=
  let r := √(R * R + Z * Z);
  amp * (1 / π) / 4 * (1 + r / a) ^ (-4 : ℤ) * a ^ (-3 : ℤ)

end DehnenCore

/-- The C body of `HernquistPotentialR2deriv` (HernquistPotential.c:60-75), shared with
`JaffePotentialR2deriv` and `NFWPotentialR2deriv`: `dphi`, `d2phi` are the radial derivatives. -/
def cSphR2 (amp : ℝ) (dphi d2phi : ℝ → ℝ) (R Z : ℝ) : ℝ :=
  let r := √(R * R + Z * Z);
  amp * (d2phi r * R * R / r / r + dphi r * Z * Z / r / r / r)
/-- The C body of `HernquistPotentialz2deriv` (HernquistPotential.c:76-90). -/
def cSphz2 (amp : ℝ) (dphi d2phi : ℝ → ℝ) (R Z : ℝ) : ℝ :=
  let r := √(R * R + Z * Z);
  amp * (d2phi r * Z * Z / r / r + dphi r * R * R / r / r / r)
/-- The C body of `HernquistPotentialRzderiv` (HernquistPotential.c:91-105). -/
def cSphRz (amp : ℝ) (dphi d2phi : ℝ → ℝ) (R Z : ℝ) : ℝ :=
  let r := √(R * R + Z * Z);
  amp * R * Z * (d2phi r / r / r - dphi r / r / r / r)

/-! ## HernquistPotential -/
namespace Hernquist

/-- `_evaluate`, TwoPowerSphericalPotential.py:559-560. -/
def evaluate (a R z : ℝ) : ℝ := -1 / (1 + √(R ^ 2 + z ^ 2) / a) / 2 / a
/-- `_Rforce`, TwoPowerSphericalPotential.py:562-564. -/
def Rforce (a R z : ℝ) : ℝ :=
  let s := √(R ^ 2 + z ^ 2);
  -R / a / s / (1 + s / a) ^ 2 / 2 / a
/-- `_zforce`, TwoPowerSphericalPotential.py:566-568. -/
def zforce (a R z : ℝ) : ℝ :=
  let s := √(R ^ 2 + z ^ 2);
  -z / a / s / (1 + s / a) ^ 2 / 2 / a
/-- `_rforce_jax`, TwoPowerSphericalPotential.py:570-572 (includes `amp`). -/
def rforceJax (amp a r : ℝ) : ℝ := -amp / 2 / (r + a) ^ 2
/-- `_R2deriv`, TwoPowerSphericalPotential.py:574-581. -/
def R2deriv (a R z : ℝ) : ℝ :=
  let s := √(R ^ 2 + z ^ 2);
  (a * z ^ 2 + (z ^ 2 - 2 * R ^ 2) * s) / s ^ 3 / (a + s) ^ 3 / 2
/-- `_z2deriv` (inherited), TwoPowerSphericalPotential.py:402-403. -/
def z2deriv (a R z : ℝ) : ℝ := R2deriv a z R
/-- `_Rzderiv`, TwoPowerSphericalPotential.py:583-591. -/
def Rzderiv (a R z : ℝ) : ℝ :=
  let s := √(R ^ 2 + z ^ 2);
  -R * z * (a + 3 * s) * (s * (a + s)) ^ (-3 : ℤ) / 2
/-- `_dens` (inherited from Dehnen with `alpha=1`), TwoPowerSphericalPotential.py:418-426. -/
def dens (a R z : ℝ) : ℝ := Dehnen.dens a 1 R z
/-- `_mass`, TwoPowerSphericalPotential.py:630-635. -/
def mass (a R : ℝ) : ℝ := 1 / (1 + a / R) ^ 2 / 2
/-- The class. -/
def pot (a : ℝ) : Pot :=
  Pot.axi (evaluate a) (Rforce a) (zforce a) (R2deriv a) (z2deriv a) (Rzderiv a) (dens a)

/-- `HernquistPotentialEval`, HernquistPotential.c:5-14. -/
def cEval (amp a R Z : ℝ) : ℝ := -amp / (1 + √(R * R + Z * Z) / a) / 2 / a
/-- `HernquistPotentialRforce`, HernquistPotential.c:15-25. -/
def cRforce (amp a R Z : ℝ) : ℝ :=
  let s := √(R * R + Z * Z);
  -amp * R / a / s * (1 + s / a) ^ (-2 : ℤ) / 2 / a
/-- `HernquistPotentialPlanarRforce`, HernquistPotential.c:26-35. -/
def cPlanarRforce (amp a R : ℝ) : ℝ := -amp / a * (1 + R / a) ^ (-2 : ℤ) / 2 / a
/-- `HernquistPotentialzforce`, HernquistPotential.c:36-46. -/
def czforce (amp a R Z : ℝ) : ℝ :=
  let s := √(R * R + Z * Z);
  -amp * Z / a / s * (1 + s / a) ^ (-2 : ℤ) / 2 / a
/-- `HernquistPotentialPlanarR2deriv`, HernquistPotential.c:47-56. -/
def cPlanarR2deriv (amp a R : ℝ) : ℝ := -amp / a / a / a * (1 + R / a) ^ (-3 : ℤ)
/-- `dphi` in HernquistPotential.c:67. -/
def cdphi (a r : ℝ) : ℝ := 1 / 2 / a / a * (1 + r / a) ^ (-2 : ℤ)
/-- `d2phi` in HernquistPotential.c:68. -/
def cd2phi (a r : ℝ) : ℝ := -1 / a / a / a * (1 + r / a) ^ (-3 : ℤ)
/-- `HernquistPotentialR2deriv`, HernquistPotential.c:57-71. -/
def cR2deriv (amp a R Z : ℝ) : ℝ := cSphR2 amp (cdphi a) (cd2phi a) R Z
/-- `HernquistPotentialz2deriv`, HernquistPotential.c:72-86. -/
def cz2deriv (amp a R Z : ℝ) : ℝ := cSphz2 amp (cdphi a) (cd2phi a) R Z
/-- `HernquistPotentialRzderiv`, HernquistPotential.c:87-101. -/
def cRzderiv (amp a R Z : ℝ) : ℝ := cSphRz amp (cdphi a) (cd2phi a) R Z
/-- `HernquistPotentialDens`, HernquistPotential.c:102-111. -/
def cDens (amp a R Z : ℝ) : ℝ :=
  let r := √(R * R + Z * Z);
  amp * (1 / π) / 4 / a / a / r * (1 + r / a) ^ (-3 : ℤ)

end Hernquist

/-! ## JaffePotential -/
namespace Jaffe

/-- `_evaluate`, TwoPowerSphericalPotential.py:709-710. -/
def evaluate (a R z : ℝ) : ℝ := -log (1 + a / √(R ^ 2 + z ^ 2)) / a
/-- `_Rforce`, TwoPowerSphericalPotential.py:712-714. -/
def Rforce (a R z : ℝ) : ℝ :=
  let s := √(R ^ 2 + z ^ 2);
  -R / s ^ 3 / (1 + a / s)
/-- `_zforce`, TwoPowerSphericalPotential.py:716-718. -/
def zforce (a R z : ℝ) : ℝ :=
  let s := √(R ^ 2 + z ^ 2);
  -z / s ^ 3 / (1 + a / s)
/-- `_R2deriv`, TwoPowerSphericalPotential.py:720-726. -/
def R2deriv (a R z : ℝ) : ℝ :=
  let s := √(R ^ 2 + z ^ 2);
  (a * (z ^ 2 - R ^ 2) + (z ^ 2 - 2 * R ^ 2) * s) / s ^ 4 / (a + s) ^ 2
/-- `_z2deriv` (inherited), TwoPowerSphericalPotential.py:402-403. -/
def z2deriv (a R z : ℝ) : ℝ := R2deriv a z R
/-- `_Rzderiv`, TwoPowerSphericalPotential.py:728-736. -/
def Rzderiv (a R z : ℝ) : ℝ :=
  let s := √(R ^ 2 + z ^ 2);
  -R * z * (2 * a + 3 * s) * s ^ (-4 : ℤ) * (a + s) ^ (-2 : ℤ)
/-- `_dens` (inherited from Dehnen with `alpha=2`), TwoPowerSphericalPotential.py:418-426. -/
def dens (a R z : ℝ) : ℝ := Dehnen.dens a 2 R z
/-- `_mass`, TwoPowerSphericalPotential.py:770-773. -/
def mass (a R : ℝ) : ℝ := 1 / (1 + a / R)
/-- The class. -/
def pot (a : ℝ) : Pot :=
  Pot.axi (evaluate a) (Rforce a) (zforce a) (R2deriv a) (z2deriv a) (Rzderiv a) (dens a)

/-- `JaffePotentialEval`, JaffePotential.c:5-15. -/
def cEval (amp a R Z : ℝ) : ℝ := -amp * log (1 + a / √(R * R + Z * Z)) / a
/-- `JaffePotentialRforce`, JaffePotential.c:16-26. -/
def cRforce (amp a R Z : ℝ) : ℝ :=
  let s := √(R * R + Z * Z);
  -amp * R * s ^ (-3 : ℤ) / (1 + a / s)
/-- `JaffePotentialPlanarRforce`, JaffePotential.c:27-36. -/
def cPlanarRforce (amp a R : ℝ) : ℝ := -amp * R ^ (-2 : ℤ) / (1 + a / R)
/-- `JaffePotentialzforce`, JaffePotential.c:37-47. -/
def czforce (amp a R Z : ℝ) : ℝ :=
  let s := √(R * R + Z * Z);
  -amp * Z * s ^ (-3 : ℤ) / (1 + a / s)
/-- `JaffePotentialPlanarR2deriv`, JaffePotential.c:48-57. -/
def cPlanarR2deriv (amp a R : ℝ) : ℝ := -amp * (a + 2 * R) * R ^ (-4 : ℤ) * (1 + a / R) ^ (-2 : ℤ)
/-- `dphi` in JaffePotential.c:67. -/
def cdphi (a r : ℝ) : ℝ := r ^ (-2 : ℤ) / (1 + a / r)
/-- `d2phi` in JaffePotential.c:68. -/
def cd2phi (a r : ℝ) : ℝ := -(a + 2 * r) * r ^ (-4 : ℤ) * (1 + a / r) ^ (-2 : ℤ)
/-- `JaffePotentialR2deriv`, JaffePotential.c:58-72. -/
def cR2deriv (amp a R Z : ℝ) : ℝ := cSphR2 amp (cdphi a) (cd2phi a) R Z
/-- `JaffePotentialz2deriv`, JaffePotential.c:73-87. -/
def cz2deriv (amp a R Z : ℝ) : ℝ := cSphz2 amp (cdphi a) (cd2phi a) R Z
/-- `JaffePotentialRzderiv`, JaffePotential.c:88-102. -/
def cRzderiv (amp a R Z : ℝ) : ℝ := cSphRz amp (cdphi a) (cd2phi a) R Z
/-- `JaffePotentialDens`, JaffePotential.c:103-113. -/
def cDens (amp a R Z : ℝ) : ℝ :=
  let r := √(R * R + Z * Z);
  amp * (1 / π) / 4 / a * (r * (1 + r / a)) ^ (-2 : ℤ)

end Jaffe

/-! ## NFWPotential -/
namespace NFW

/-- `_evaluate`, TwoPowerSphericalPotential.py:885-894. -/
def evaluate (a R z : ℝ) : ℝ :=
  let r := √(R ^ 2 + z ^ 2);
  if r = 0 then -1 / a else -(1 / r * log (1 + r / a))
/-- `_Rforce`, TwoPowerSphericalPotential.py:896-902. -/
def Rforce (a R z : ℝ) : ℝ :=
  let Rz := R ^ 2 + z ^ 2;
  let s := √Rz;
  R * (1 / Rz / (a + s) - log (1 + s / a) / s / Rz)
/-- `_zforce`, TwoPowerSphericalPotential.py:904-910. -/
def zforce (a R z : ℝ) : ℝ :=
  let Rz := R ^ 2 + z ^ 2;
  let s := √Rz;
  z * (1 / Rz / (a + s) - log (1 + s / a) / s / Rz)
/-- `_rforce_jax`, TwoPowerSphericalPotential.py:912-917 (includes `amp`). -/
def rforceJax (amp a r : ℝ) : ℝ := amp * (1 / r / (a + r) - log (1 + r / a) / r ^ 2)
/-- `_R2deriv`, TwoPowerSphericalPotential.py:919-933. -/
def R2deriv (a R z : ℝ) : ℝ :=
  let Rz := R ^ 2 + z ^ 2;
  let s := √Rz;
  (3 * R ^ 4 + 2 * R ^ 2 * (z ^ 2 + a * s) - z ^ 2 * (z ^ 2 + a * s)
    - (2 * R ^ 2 - z ^ 2) * (a ^ 2 + R ^ 2 + z ^ 2 + 2 * a * s) * log (1 + s / a))
    / Rz ^ (5 / 2 : ℝ) / (a + s) ^ 2
/-- `_z2deriv` (inherited from TwoPowerSphericalPotential), TwoPowerSphericalPotential.py:286-287. -/
def z2deriv (a R z : ℝ) : ℝ := R2deriv a |z| R
/-- `_Rzderiv`, TwoPowerSphericalPotential.py:935-950. -/
def Rzderiv (a R z : ℝ) : ℝ :=
  let Rz := R ^ 2 + z ^ 2;
  let s := √Rz;
  -R * z * (-4 * Rz - 3 * a * s + 3 * (a ^ 2 + Rz + 2 * a * s) * log (1 + s / a))
    * Rz ^ (-(5 / 2) : ℝ) * (a + s) ^ (-2 : ℤ)
/-- `_dens` (inherited with `alpha=1, beta=3`), TwoPowerSphericalPotential.py:171-179. -/
def dens (a R z : ℝ) : ℝ :=
  let r := √(R ^ 2 + z ^ 2);
  (a / r) ^ (1 : ℝ) / (1 + r / a) ^ (3 - 1 : ℝ) / 4 / π / a ^ 3
/-- `_mass`, TwoPowerSphericalPotential.py:976-979. -/
def mass (a R : ℝ) : ℝ := log (1 + R / a) - R / a / (1 + R / a)
/-- The class. -/
def pot (a : ℝ) : Pot :=
  Pot.axi (evaluate a) (Rforce a) (zforce a) (R2deriv a) (z2deriv a) (Rzderiv a) (dens a)

/-- `NFWPotentialEval`, NFWPotential.c:5-15. -/
def cEval (amp a R Z : ℝ) : ℝ :=
  let s := √(R * R + Z * Z);
  -amp * log (1 + s / a) / s
/-- `NFWPotentialRforce`, NFWPotential.c:16-27. -/
def cRforce (amp a R Z : ℝ) : ℝ :=
  let Rz := R * R + Z * Z;
  let s := √Rz;
  amp * R * (1 / Rz / (a + s) - log (1 + s / a) / s / Rz)
/-- `NFWPotentialPlanarRforce`, NFWPotential.c:28-37. -/
def cPlanarRforce (amp a R : ℝ) : ℝ := amp / R * (1 / (a + R) - log (1 + R / a) / R)
/-- `NFWPotentialzforce`, NFWPotential.c:38-49. -/
def czforce (amp a R Z : ℝ) : ℝ :=
  let Rz := R * R + Z * Z;
  let s := √Rz;
  amp * Z * (1 / Rz / (a + s) - log (1 + s / a) / s / Rz)
/-- `NFWPotentialPlanarR2deriv`, NFWPotential.c:50-61. -/
def cPlanarR2deriv (amp a R : ℝ) : ℝ :=
  let aR := a + R;
  let aR2 := aR * aR;
  amp * ((R * (2 * a + 3 * R) - 2 * aR2 * log (1 + R / a)) / R / R / R / aR2)
/-- `dphi` in NFWPotential.c:71. -/
def cdphi (a r : ℝ) : ℝ := log (1 + r / a) / r / r - 1 / r / (a + r)
/-- `d2phi` in NFWPotential.c:73. -/
def cd2phi (a r : ℝ) : ℝ :=
  let ar := a + r;
  (r * (2 * a + 3 * r) - 2 * ar * ar * log (1 + r / a)) / r / r / r / ar / ar
/-- `NFWPotentialR2deriv`, NFWPotential.c:62-77. -/
def cR2deriv (amp a R Z : ℝ) : ℝ := cSphR2 amp (cdphi a) (cd2phi a) R Z
/-- `NFWPotentialz2deriv`, NFWPotential.c:78-93. -/
def cz2deriv (amp a R Z : ℝ) : ℝ := cSphz2 amp (cdphi a) (cd2phi a) R Z
/-- `NFWPotentialRzderiv`, NFWPotential.c:94-109. -/
def cRzderiv (amp a R Z : ℝ) : ℝ := cSphRz amp (cdphi a) (cd2phi a) R Z
/-- `NFWPotentialDens`, NFWPotential.c:110-121. -/
def cDens (amp a R Z : ℝ) : ℝ :=
  let s := √(R * R + Z * Z);
  amp * (1 / π) / 4 / a / a / (1 + s / a) / (1 + s / a) / s

end NFW

/-! ## The `_specialSelf` dispatch of DehnenSphericalPotential -/
namespace Dehnen

/-- `DehnenSphericalPotential.__init__` chooses `_specialSelf` for α = 0, 1, 2
(TwoPowerSphericalPotential.py:338-348); `_evaluate`, `_Rforce`, `_zforce`, `_R2deriv`, `_Rzderiv`
delegate to it when it is set (356-426), `_z2deriv` calls `self._R2deriv(z, R)` and `_dens`
never delegates. `special` picks the method according to α. -/
def special (α : ℝ) (core hern jaffe gen : ℝ → ℝ → ℝ) : ℝ → ℝ → ℝ :=
  if α = 0 then core else if α = 1 then hern else if α = 2 then jaffe else gen
/-- The class `DehnenSphericalPotential` with its dispatch (unit amplitude). -/
def cls (a α : ℝ) : Pot :=
  let R2 := special α (DehnenCore.R2deriv a) (Hernquist.R2deriv a) (Jaffe.R2deriv a) (R2deriv a α);
  Pot.axi (special α (DehnenCore.evaluate a) (Hernquist.evaluate a) (Jaffe.evaluate a) (evaluate a α))
    (special α (DehnenCore.Rforce a) (Hernquist.Rforce a) (Jaffe.Rforce a) (Rforce a α))
    (special α (DehnenCore.zforce a) (Hernquist.zforce a) (Jaffe.zforce a) (zforce a α))
    R2 (fun R z => R2 z R)
    (special α (DehnenCore.Rzderiv a) (Hernquist.Rzderiv a) (Jaffe.Rzderiv a) (Rzderiv a α)) (dens a α)

end Dehnen

/-! ## Radial derivatives of the density shared by the family -/
namespace TwoPower
/-- `_dens` as a function of `r`, TwoPowerSphericalPotential.py:171-179. -/
def rdens (a α β r : ℝ) : ℝ := (a / r) ^ α / (1 + r / a) ^ (β - α) / 4 / π / a ^ 3
/-- `_ddensdr`, TwoPowerSphericalPotential.py:181-191 (includes `amp`). -/
def ddensdr (amp a α β r : ℝ) : ℝ :=
  -amp * (a / r) ^ (α - 1) * (1 + r / a) ^ (α - β - 1) * (a * α + r * β) / r ^ 2 / 4 / π / a ^ 3
/-- `_d2densdr2`, TwoPowerSphericalPotential.py:193-207 (includes `amp`). -/
def d2densdr2 (amp a α β r : ℝ) : ℝ :=
  amp * (a / r) ^ (α - 2) * (1 + r / a) ^ (α - β - 2)
    * (α * (α + 1) * a ^ 2 + 2 * α * a * (β + 1) * r + β * (β + 1) * r ^ 2)
    / r ^ 4 / 4 / π / a ^ 3
/-- `_ddenstwobetadr`, TwoPowerSphericalPotential.py:209-239 (includes `amp`; `b` is its `beta`). -/
def ddenstwobetadr (amp a α β b r : ℝ) : ℝ :=
  amp / 4 / π / a ^ 3 * r ^ (2 * b - 2) * (a / r) ^ (α - 1) * (1 + r / a) ^ (α - β - 1)
    * (a * (2 * b - α) + r * (2 * b - β))
end TwoPower

end Verif
