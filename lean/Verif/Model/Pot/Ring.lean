import Verif.Util.Elliptic
import Verif.Util.PotLemmas

set_option autoImplicit false

/-!
# RingPotential

Transcription of `galpy/potential/RingPotential.py`; `special.ellipk` and `special.ellipe` are the complete elliptic integrals.
All methods are without the factor `amp`, which the constructor divides by `2 π a` (line 46).
-/

noncomputable section
namespace Verif.Ring
open Real

/-- `self._amp` after `__init__`, RingPotential.py:46. -/
def initAmp (amp a : ℝ) : ℝ := amp / (2 * π * a)

/-- `_evaluate`, RingPotential.py:58-61. -/
def evaluate (a R z : ℝ) : ℝ :=
  let m := 4 * a / ((√R + a / √R) ^ 2 + z ^ 2 / R);
  -4 * a / √((R + a) ^ 2 + z ^ 2) * ellipk m

/-- `_Rforce`, RingPotential.py:63-80. -/
def Rforce (a R z : ℝ) : ℝ :=
  let m := 4 * R * a / ((R + a) ^ 2 + z ^ 2);
  -2 * a / R / √((R + a) ^ 2 + z ^ 2)
    * (m * (R ^ 2 - a ^ 2 - z ^ 2) / 4 / (1 - m) / a / R * ellipe m + ellipk m)

/-- `_zforce`, RingPotential.py:82-91. -/
def zforce (a R z : ℝ) : ℝ :=
  let m := 4 * R * a / ((R + a) ^ 2 + z ^ 2);
  -4 * z * a / (1 - m) * ((R + a) ^ 2 + z ^ 2) ^ (-(3 / 2) : ℝ) * ellipe m

/-- `_R2deriv`, RingPotential.py:93-117. -/
def R2deriv (a R z : ℝ) : ℝ :=
  let Raz2 := (R + a) ^ 2 + z ^ 2;
  let Raz := √Raz2;
  let m := 4 * R * a / Raz2;
  let q := (R ^ 2 - a ^ 2 - z ^ 2) / 4 / a / R / (1 - m);
  (2 * R ^ 2 + a ^ 2 + 3 * R * a + z ^ 2) / R / Raz2 * Rforce a R z
    + 2 * a / R / Raz * (m * (R ^ 2 + a ^ 2 + z ^ 2) / 4 / (1 - m) / a / R ^ 2 * ellipe m
      + (q / (1 - m) * ellipe m + 0.5 * q * (ellipe m - ellipk m)
        + 0.5 * (ellipe m / (1 - m) - ellipk m) / m) * 4 * a * (a ^ 2 + z ^ 2 - R ^ 2) / Raz2 ^ 2)

/-- `_z2deriv`, RingPotential.py:119-141. -/
def z2deriv (a R z : ℝ) : ℝ :=
  let Raz2 := (R + a) ^ 2 + z ^ 2;
  let m := 4 * R * a / Raz2;
  -4 * (3 * z ^ 2 / Raz2 - 1
      + 4 * ((1 + m) / (1 - m) - ellipk m / ellipe m) * a * R * z ^ 2 / Raz2 ^ 2 / m)
    * a / (1 - m) * ((R + a) ^ 2 + z ^ 2) ^ (-(3 / 2) : ℝ) * ellipe m

/-- `_Rzderiv`, RingPotential.py:143-154. -/
def Rzderiv (a R z : ℝ) : ℝ :=
  let Raz2 := (R + a) ^ 2 + z ^ 2;
  let m := 4 * R * a / Raz2;
  (3 * (R + a) / Raz2
    - 2 * ((1 + m) / (1 - m) - ellipk m / ellipe m) * a * (a ^ 2 + z ^ 2 - R ^ 2) / Raz2 ^ 2 / m) * zforce a R z

/-- The density: no `_dens`, so `Potential.dens` applies Poisson's equation to the methods, Potential.py:609-620. -/
def dens (a R z : ℝ) : ℝ := (-Rforce a R z / R + R2deriv a R z + 0 / R ^ 2 + z2deriv a R z) / 4 / π

/-- The Python class as a record of methods. -/
def pot (a : ℝ) : Pot := Pot.axi (evaluate a) (Rforce a) (zforce a) (R2deriv a) (z2deriv a) (Rzderiv a) (dens a)

end Verif.Ring
