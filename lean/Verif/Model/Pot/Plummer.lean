import Verif.Util.PotLemmas

set_option autoImplicit false

/-!
# PlummerPotential

Transcription of `galpy/potential/PlummerPotential.py` and
`galpy/potential/potential_c_ext/PlummerPotential.c`.
Floating-point exponents `2.0` are integer powers; `-1.5`, `-2.5`, `-3.5` are
real powers.  All Python methods are without the factor `amp`.
-/

noncomputable section
namespace Verif.Plummer
open Real

/-- `_evaluate`, PlummerPotential.py:58-59 (`_b2 = b**2`, line 47). -/
def evaluate (b R z : ℝ) : ℝ := -1 / √(R ^ 2 + z ^ 2 + b ^ 2)
/-- `_Rforce`, PlummerPotential.py:61-63. -/
def Rforce (b R z : ℝ) : ℝ := -((R ^ 2 + z ^ 2 + b ^ 2) ^ (-(3/2) : ℝ)) * R
/-- `_zforce`, PlummerPotential.py:65-67. -/
def zforce (b R z : ℝ) : ℝ := -((R ^ 2 + z ^ 2 + b ^ 2) ^ (-(3/2) : ℝ)) * z
/-- `_dens`, PlummerPotential.py:73-74. -/
def dens (b R z : ℝ) : ℝ := 3 / 4 / π * b ^ 2 * (R ^ 2 + z ^ 2 + b ^ 2) ^ (-(5/2) : ℝ)
/-- `_surfdens`, PlummerPotential.py:76-86. -/
def surfdens (b R z : ℝ) : ℝ :=
  let Rb := R ^ 2 + b ^ 2;
  b ^ 2 * z * (3 * Rb + 2 * z ^ 2) / Rb ^ 2 * (Rb + z ^ 2) ^ (-(3/2) : ℝ) / 2 / π
/-- `_R2deriv`, PlummerPotential.py:88-89. -/
def R2deriv (b R z : ℝ) : ℝ :=
  (b ^ 2 - 2 * R ^ 2 + z ^ 2) * (R ^ 2 + z ^ 2 + b ^ 2) ^ (-(5/2) : ℝ)
/-- `_z2deriv`, PlummerPotential.py:91-92. -/
def z2deriv (b R z : ℝ) : ℝ :=
  (b ^ 2 + R ^ 2 - 2 * z ^ 2) * (R ^ 2 + z ^ 2 + b ^ 2) ^ (-(5/2) : ℝ)
/-- `_Rzderiv`, PlummerPotential.py:94-95. -/
def Rzderiv (b R z : ℝ) : ℝ := -3 * R * z * (R ^ 2 + z ^ 2 + b ^ 2) ^ (-(5/2) : ℝ)
/-- `_ddensdr`, PlummerPotential.py:97-106 (this method includes `amp`). -/
def ddensdr (amp b r : ℝ) : ℝ :=
  amp * (-15) / 4 / π * b ^ 2 * r * (r ^ 2 + b ^ 2) ^ (-(7/2) : ℝ)
/-- `_d2densdr2`, PlummerPotential.py:108-116 (includes `amp`). -/
def d2densdr2 (amp b r : ℝ) : ℝ :=
  amp * (-15) / 4 / π * b ^ 2 *
    ((r ^ 2 + b ^ 2) ^ (-(7/2) : ℝ) - 7 * r ^ 2 * (r ^ 2 + b ^ 2) ^ (-(9/2) : ℝ))
/-- `_ddenstwobetadr`, PlummerPotential.py:118-150 (includes `amp`). -/
def ddenstwobetadr (amp b β r : ℝ) : ℝ :=
  amp * 3 / 4 / π * b ^ 2 * r ^ (2 * β - 1)
    * (2 * β * (r ^ 2 + b ^ 2) ^ (-(5/2) : ℝ) - 5 * r ^ 2 * (r ^ 2 + b ^ 2) ^ (-(7/2) : ℝ))
/-- `_mass` for `z=None`, PlummerPotential.py:152-156. -/
def mass (b r : ℝ) : ℝ := (1 + b ^ 2 / r ^ 2) ^ (-(3/2) : ℝ)
/-- `_rforce_jax`, PlummerPotential.py:69-71 (includes `amp`). -/
def rforceJax (amp b r : ℝ) : ℝ := -amp * r * (r ^ 2 + b ^ 2) ^ (-(3/2) : ℝ)

/-- The Python class as a record of methods. -/
def pot (b : ℝ) : Pot :=
  Pot.axi (evaluate b) (Rforce b) (zforce b) (R2deriv b) (z2deriv b) (Rzderiv b) (dens b)

/-! C implementation; `pow(x,-1.5)` is the real power. -/

/-- `PlummerPotentialEval`, PlummerPotential.c:5-14. -/
def cEval (amp b R z : ℝ) : ℝ := -amp / √(R * R + z * z + b * b)
/-- `PlummerPotentialRforce`, PlummerPotential.c:15-24. -/
def cRforce (amp b R z : ℝ) : ℝ := -amp * R * (R * R + z * z + b * b) ^ (-(3/2) : ℝ)
/-- `PlummerPotentialzforce`, PlummerPotential.c:35-44. -/
def czforce (amp b R z : ℝ) : ℝ := -amp * z * (R * R + z * z + b * b) ^ (-(3/2) : ℝ)
/-- `PlummerPotentialPlanarRforce`, PlummerPotential.c:25-34. -/
def cPlanarRforce (amp b R : ℝ) : ℝ := -amp * R * (R * R + b * b) ^ (-(3/2) : ℝ)
/-- `PlummerPotentialPlanarR2deriv`, PlummerPotential.c:45-54. -/
def cPlanarR2deriv (amp b R : ℝ) : ℝ :=
  amp * (b * b - 2 * R * R) * (R * R + b * b) ^ (-(5/2) : ℝ)
/-- `PlummerPotentialR2deriv`, PlummerPotential.c:55-64. -/
def cR2deriv (amp b R z : ℝ) : ℝ :=
  amp * (b * b - 2 * R * R + z * z) * (R * R + z * z + b * b) ^ (-(5/2) : ℝ)
/-- `PlummerPotentialz2deriv`, PlummerPotential.c:65-74. -/
def cz2deriv (amp b R z : ℝ) : ℝ :=
  amp * (b * b + R * R - 2 * z * z) * (R * R + z * z + b * b) ^ (-(5/2) : ℝ)
/-- `PlummerPotentialRzderiv`, PlummerPotential.c:75-84. -/
def cRzderiv (amp b R z : ℝ) : ℝ :=
  amp * (-3 * R * z * (R * R + z * z + b * b) ^ (-(5/2) : ℝ))
/-- `PlummerPotentialDens`, PlummerPotential.c:85-94 (`M_1_PI = 1/π`). -/
def cDens (amp b R z : ℝ) : ℝ :=
  3 * amp * (1 / π) / 4 * (b * b) * (R * R + z * z + b * b) ^ (-(5/2) : ℝ)

end Verif.Plummer
