import Verif.Util.PotLemmas

set_option autoImplicit false

/-!
# LogarithmicHaloPotential

`galpy/potential/LogarithmicHaloPotential.py` and
`potential_c_ext/LogarithmicHaloPotential.c`.  Parameters: `q`, `core2 = core**2`
(line 65) and `b`, which is `None` for the axisymmetric case (lines 67-70).
Python methods are without `amp`; C functions include it.
-/

noncomputable section
namespace Verif.LogarithmicHalo
open Real

/-- `_1m1overb2`, LogarithmicHaloPotential.py:70. -/
def m1 (b : ℝ) : ℝ := 1 - 1 / b ^ 2

/-- `Rt2 = R**2.0 * (1.0 - self._1m1overb2 * numpy.sin(phi) ** 2.0)`, e.g.
LogarithmicHaloPotential.py:94. -/
def Rt2 (m R φ : ℝ) : ℝ := R ^ 2 * (1 - m * sin φ ^ 2)

/-- `_evaluate`, LogarithmicHaloPotential.py:78-90. -/
def evaluate (q core2 : ℝ) (b : Option ℝ) (R z φ : ℝ) : ℝ :=
  match b with
  | some b => 1 / 2 * log (R ^ 2 * (1 - m1 b * sin φ ^ 2) + (z / q) ^ 2 + core2)
  | none => 1 / 2 * log (R ^ 2 + (z / q) ^ 2 + core2)
/-- `_Rforce`, LogarithmicHaloPotential.py:92-97. -/
def Rforce (q core2 : ℝ) (b : Option ℝ) (R z φ : ℝ) : ℝ :=
  match b with
  | some b => -Rt2 (m1 b) R φ / R / (Rt2 (m1 b) R φ + (z / q) ^ 2 + core2)
  | none => -R / (R ^ 2 + (z / q) ^ 2 + core2)
/-- `_zforce`, LogarithmicHaloPotential.py:99-104. -/
def zforce (q core2 : ℝ) (b : Option ℝ) (R z φ : ℝ) : ℝ :=
  match b with
  | some b => -z / q ^ 2 / (Rt2 (m1 b) R φ + (z / q) ^ 2 + core2)
  | none => -z / q ^ 2 / (R ^ 2 + (z / q) ^ 2 + core2)
/-- `_phitorque`, LogarithmicHaloPotential.py:106-117. -/
def phitorque (q core2 : ℝ) (b : Option ℝ) (R z φ : ℝ) : ℝ :=
  match b with
  | some b => R ^ 2 / (Rt2 (m1 b) R φ + (z / q) ^ 2 + core2) * sin (2 * φ) * m1 b / 2
  | none => 0
/-- `_dens`, LogarithmicHaloPotential.py:119-157. -/
def dens (q core2 : ℝ) (b : Option ℝ) (R z φ : ℝ) : ℝ :=
  match b with
  | some b =>
    let R2 := R ^ 2;
    let rt2 := R2 * (1 - m1 b * sin φ ^ 2);
    let denom := 1 / (rt2 + (z / q) ^ 2 + core2);
    let denom2 := denom ^ 2;
    1 / 4 / π * (2 * rt2 / R2 * (denom - rt2 * denom2) + denom / q ^ 2
      - 2 * z ^ 2 * denom2 / q ^ 4
      - m1 b * (2 * R2 * sin (2 * φ) ^ 2 / 4 * m1 b * denom2 + denom * cos (2 * φ)))
  | none =>
    1 / 4 / π / q ^ 2 * ((2 * q ^ 2 + 1) * core2 + R ^ 2 + (2 - q ^ (-2 : ℤ)) * z ^ 2)
      / (R ^ 2 + (z / q) ^ 2 + core2) ^ 2
/-- `_R2deriv`, LogarithmicHaloPotential.py:159-166. -/
def R2deriv (q core2 : ℝ) (b : Option ℝ) (R z φ : ℝ) : ℝ :=
  match b with
  | some b =>
    let denom := 1 / (Rt2 (m1 b) R φ + (z / q) ^ 2 + core2);
    (denom - 2 * Rt2 (m1 b) R φ * denom ^ 2) * Rt2 (m1 b) R φ / R ^ 2
  | none =>
    let denom := 1 / (R ^ 2 + (z / q) ^ 2 + core2);
    denom - 2 * R ^ 2 * denom ^ 2
/-- `_z2deriv`, LogarithmicHaloPotential.py:168-175. -/
def z2deriv (q core2 : ℝ) (b : Option ℝ) (R z φ : ℝ) : ℝ :=
  match b with
  | some b =>
    let denom := 1 / (Rt2 (m1 b) R φ + (z / q) ^ 2 + core2);
    denom / q ^ 2 - 2 * z ^ 2 * denom ^ 2 / q ^ 4
  | none =>
    let denom := 1 / (R ^ 2 + (z / q) ^ 2 + core2);
    denom / q ^ 2 - 2 * z ^ 2 * denom ^ 2 / q ^ 4
/-- `_Rzderiv`, LogarithmicHaloPotential.py:177-195. -/
def Rzderiv (q core2 : ℝ) (b : Option ℝ) (R z φ : ℝ) : ℝ :=
  match b with
  | some b => -2 * Rt2 (m1 b) R φ / R * z / q ^ 2 / (Rt2 (m1 b) R φ + (z / q) ^ 2 + core2) ^ 2
  | none => -2 * R * z / q ^ 2 / (R ^ 2 + (z / q) ^ 2 + core2) ^ 2
/-- `_phi2deriv`, LogarithmicHaloPotential.py:197-210. -/
def phi2deriv (q core2 : ℝ) (b : Option ℝ) (R z φ : ℝ) : ℝ :=
  match b with
  | some b =>
    let denom := 1 / (Rt2 (m1 b) R φ + (z / q) ^ 2 + core2);
    -m1 b * (R ^ 4 * sin (2 * φ) ^ 2 / 2 * m1 b * denom ^ 2 + R ^ 2 * denom * cos (2 * φ))
  | none => 0
/-- `_Rphideriv`, LogarithmicHaloPotential.py:212-220. -/
def Rphideriv (q core2 : ℝ) (b : Option ℝ) (R z φ : ℝ) : ℝ :=
  match b with
  | some b =>
    let denom := 1 / (Rt2 (m1 b) R φ + (z / q) ^ 2 + core2);
    -(denom - Rt2 (m1 b) R φ * denom ^ 2) * R * sin (2 * φ) * m1 b
  | none => 0
/-- `_phizderiv`, LogarithmicHaloPotential.py:222-237. -/
def phizderiv (q core2 : ℝ) (b : Option ℝ) (R z φ : ℝ) : ℝ :=
  match b with
  | some b =>
    let denom := 1 / (Rt2 (m1 b) R φ + (z / q) ^ 2 + core2);
    2 * R ^ 2 * z * sin φ * cos φ * m1 b * denom ^ 2 / q ^ 2
  | none => 0

/-- The Python class as a record of methods. -/
def pot (q core2 : ℝ) (b : Option ℝ) : Pot where
  val := fun R z φ _ => evaluate q core2 b R z φ
  Rforce := fun R z φ _ => Rforce q core2 b R z φ
  zforce := fun R z φ _ => zforce q core2 b R z φ
  phitorque := fun R z φ _ => phitorque q core2 b R z φ
  R2deriv := fun R z φ _ => R2deriv q core2 b R z φ
  z2deriv := fun R z φ _ => z2deriv q core2 b R z φ
  Rzderiv := fun R z φ _ => Rzderiv q core2 b R z φ
  phi2deriv := fun R z φ _ => phi2deriv q core2 b R z φ
  Rphideriv := fun R z φ _ => Rphideriv q core2 b R z φ
  phizderiv := fun R z φ _ => phizderiv q core2 b R z φ
  dens := fun R z φ _ => dens q core2 b R z φ

/-- Fourth C argument: `_1m1overb2` if non-axisymmetric, else `2.0`
(integrateFullOrbit.py:72-78, integratePlanarOrbit.py:69-79). -/
def cArg : Option ℝ → ℝ
  | some b => m1 b
  | none => 2

/-- `LogarithmicHaloPotentialEval`, LogarithmicHaloPotential.c:5-20. -/
def cEval (amp q c m R Z φ : ℝ) : ℝ :=
  let zq := Z / q;
  if m < 1 then 1 / 2 * amp * log (R * R * (1 - m * sin φ ^ 2) + zq * zq + c)
  else 1 / 2 * amp * log (R * R + zq * zq + c)
/-- `LogarithmicHaloPotentialRforce`, LogarithmicHaloPotential.c:21-38. -/
def cRforce (amp q c m R Z φ : ℝ) : ℝ :=
  let zq := Z / q;
  if m < 1 then
    let rt2 := R * R * (1 - m * sin φ ^ 2);
    -amp * rt2 / R / (rt2 + zq * zq + c)
  else -amp * R / (R * R + zq * zq + c)
/-- `LogarithmicHaloPotentialPlanarRforce`, LogarithmicHaloPotential.c:39-54. -/
def cPlanarRforce (amp c m R φ : ℝ) : ℝ :=
  if m < 1 then
    let rt2 := R * R * (1 - m * sin φ ^ 2);
    -amp * rt2 / R / (rt2 + c)
  else -amp * R / (R * R + c)
/-- `LogarithmicHaloPotentialzforce`, LogarithmicHaloPotential.c:55-72. -/
def czforce (amp q c m R z φ : ℝ) : ℝ :=
  let zq := z / q;
  if m < 1 then
    let rt2 := R * R * (1 - m * sin φ ^ 2);
    -amp * zq / q / (rt2 + zq * zq + c)
  else -amp * zq / q / (R * R + zq * zq + c)
/-- `LogarithmicHaloPotentialphitorque`, LogarithmicHaloPotential.c:73-91. -/
def cphitorque (amp q c m R z φ : ℝ) : ℝ :=
  if m < 1 then
    let zq := z / q;
    let rt2 := R * R * (1 - m * sin φ ^ 2);
    amp * R * R / (rt2 + zq * zq + c) * sin (2 * φ) * m / 2
  else 0
/-- `LogarithmicHaloPotentialPlanarphitorque`, LogarithmicHaloPotential.c:92-107. -/
def cPlanarphitorque (amp c m R φ : ℝ) : ℝ :=
  if m < 1 then
    let rt2 := R * R * (1 - m * sin φ ^ 2);
    amp * R * R / (rt2 + c) * sin (2 * φ) * m / 2
  else 0
/-- `LogarithmicHaloPotentialPlanarR2deriv`, LogarithmicHaloPotential.c:108-123. -/
def cPlanarR2deriv (amp c m R φ : ℝ) : ℝ :=
  if m < 1 then
    let rt2 := R * R * (1 - m * sin φ ^ 2);
    amp * (1 - 2 * rt2 / (rt2 + c)) / (rt2 + c) * rt2 / R / R
  else amp * (1 - 2 * R * R / (R * R + c)) / (R * R + c)
/-- `LogarithmicHaloPotentialPlanarphi2deriv`, LogarithmicHaloPotential.c:124-140. -/
def cPlanarphi2deriv (amp c m R φ : ℝ) : ℝ :=
  if m < 1 then
    let rt2 := R * R * (1 - m * sin φ ^ 2);
    -amp * m * (1 / 2 * (R * R * sin (2 * φ)) ^ 2 * m / (rt2 + c) / (rt2 + c)
      + R * R / (rt2 + c) * cos (2 * φ))
  else 0
/-- `LogarithmicHaloPotentialPlanarRphideriv`, LogarithmicHaloPotential.c:141-156. -/
def cPlanarRphideriv (amp c m R φ : ℝ) : ℝ :=
  if m < 1 then
    let rt2 := R * R * (1 - m * sin φ ^ 2);
    -amp * c / (rt2 + c) / (rt2 + c) * R * sin (2 * φ) * m
  else 0
/-- `LogarithmicHaloPotentialR2deriv`, LogarithmicHaloPotential.c:157-177. -/
def cR2deriv (amp q c m R Z φ : ℝ) : ℝ :=
  let zq := Z / q;
  if m < 1 then
    let rt2 := R * R * (1 - m * sin φ ^ 2);
    let denom := 1 / (rt2 + zq * zq + c);
    amp * (denom - 2 * rt2 * denom * denom) * rt2 / (R * R)
  else
    let denom := 1 / (R * R + zq * zq + c);
    amp * (denom - 2 * R * R * denom * denom)
/-- `LogarithmicHaloPotentialz2deriv`, LogarithmicHaloPotential.c:178-197. -/
def cz2deriv (amp q c m R Z φ : ℝ) : ℝ :=
  let zq := Z / q;
  let q2 := q * q;
  let rt2 := if m < 1 then R * R * (1 - m * sin φ ^ 2) else R * R;
  let denom := 1 / (rt2 + zq * zq + c);
  amp * (denom / q2 - 2 * Z * Z * denom * denom / (q2 * q2))
/-- `LogarithmicHaloPotentialRzderiv`, LogarithmicHaloPotential.c:198-219. -/
def cRzderiv (amp q c m R Z φ : ℝ) : ℝ :=
  let zq := Z / q;
  let q2 := q * q;
  if m < 1 then
    let rt2 := R * R * (1 - m * sin φ ^ 2);
    let denom := 1 / (rt2 + zq * zq + c);
    -amp * 2 * rt2 / R * Z / q2 * denom * denom
  else
    let denom := 1 / (R * R + zq * zq + c);
    -amp * 2 * R * Z / q2 * denom * denom
/-- `LogarithmicHaloPotentialphi2deriv`, LogarithmicHaloPotential.c:220-242. -/
def cphi2deriv (amp q c m R Z φ : ℝ) : ℝ :=
  let zq := Z / q;
  let R2 := R * R;
  if m < 1 then
    let rt2 := R2 * (1 - m * sin φ ^ 2);
    let denom := 1 / (rt2 + zq * zq + c);
    let s2phi := sin (2 * φ);
    -amp * m * (1 / 2 * R2 * R2 * s2phi * s2phi * m * denom * denom + R2 * denom * cos (2 * φ))
  else 0
/-- `LogarithmicHaloPotentialRphideriv`, LogarithmicHaloPotential.c:243-262. -/
def cRphideriv (amp q c m R Z φ : ℝ) : ℝ :=
  let zq := Z / q;
  if m < 1 then
    let rt2 := R * R * (1 - m * sin φ ^ 2);
    let denom := 1 / (rt2 + zq * zq + c);
    -amp * (denom - rt2 * denom * denom) * R * sin (2 * φ) * m
  else 0
/-- `LogarithmicHaloPotentialzphideriv`, LogarithmicHaloPotential.c:263-283. -/
def czphideriv (amp q c m R Z φ : ℝ) : ℝ :=
  let zq := Z / q;
  let q2 := q * q;
  if m < 1 then
    let rt2 := R * R * (1 - m * sin φ ^ 2);
    let denom := 1 / (rt2 + zq * zq + c);
    amp * 2 * R * R * Z * sin φ * cos φ * m * denom * denom / q2
  else 0
/-- `LogarithmicHaloPotentialDens`, LogarithmicHaloPotential.c:284-311. -/
def cDens (amp q c m R Z φ : ℝ) : ℝ :=
  let zq := Z / q;
  let q2 := q * q;
  if m < 1 then
    let R2 := R * R;
    let rt2 := R2 * (1 - m * sin φ ^ 2);
    let denom := 1 / (rt2 + zq * zq + c);
    let denom2 := denom * denom;
    amp * (1 / π) / 4 * (2 * rt2 / R2 * (denom - rt2 * denom2) + denom / q2
      - 2 * zq * zq * denom2 / q2
      - m * (2 * R2 * sin (2 * φ) ^ 2 / 4 * m * denom2 + denom * cos (2 * φ)))
  else
    amp * (1 / π) / 4 / q2 * ((2 * q2 + 1) * c + R * R + (2 - 1 / q2) * Z * Z)
      / (R * R + zq * zq + c) ^ 2

end Verif.LogarithmicHalo
