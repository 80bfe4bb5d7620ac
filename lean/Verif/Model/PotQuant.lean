import Verif.Spec.Pot
import Mathlib.Analysis.SpecialFunctions.Pow.Real

set_option autoImplicit false

/-!
# Quantities derived from the evaluation methods of a potential

`galpy/potential/Potential.py`, `Force.py`, `planarPotential.py`. The methods of one potential and
the module-level functions applied to a composite potential compute the same expressions from the
evaluation methods, so one definition serves both. `numpy.sqrt` of a negative number is NaN; the
real square root here is 0, so every theorem about a root assumes a nonnegative argument.
-/

noncomputable section
namespace Verif.PotQuant

/-- `rforce`, Force.py:322-351 (`evaluaterforces`, Potential.py, on composites). -/
def rforce (P : Pot) (R z φ t : ℝ) : ℝ :=
  let r := √(R ^ 2 + z ^ 2);
  P.Rforce R z φ t * R / r + P.zforce R z φ t * z / r

/-- `r2deriv`, Potential.py:541-573 (`evaluater2derivs`, 2546-2578). -/
def r2deriv (P : Pot) (R z φ t : ℝ) : ℝ :=
  let r := √(R ^ 2 + z ^ 2);
  (P.R2deriv R z φ t * R / r + P.Rzderiv R z φ t * z / r) * R / r
    + (P.Rzderiv R z φ t * R / r + P.z2deriv R z φ t * z / r) * z / r

/-- `vcirc`, Potential.py:1212-1236 (3445-3482; planarPotential.py:271-295). -/
def vcirc (P : Pot) (R φ t : ℝ) : ℝ := √(R * -P.Rforce R 0 φ t)

/-- `dvcircdR`, Potential.py:1240-1271 (3488-3541). -/
def dvcircdR (P : Pot) (R φ t : ℝ) : ℝ :=
  1 / 2 * (-P.Rforce R 0 φ t + R * P.R2deriv R 0 φ t) / vcirc P R φ t

/-- `omegac`, Potential.py:1275-1296 (3408-3439; planarPotential.py:299-320). The azimuth argument
is 0 in the code (the default of `Rforce`). -/
def omegac (P : Pot) (R t : ℝ) : ℝ := √(-P.Rforce R 0 0 t / R)

/-- `epifreq`, Potential.py:1300-1324 (3049-3072; planarPotential.py:243-267). -/
def epifreq (P : Pot) (R t : ℝ) : ℝ := √(P.R2deriv R 0 0 t - 3 / R * P.Rforce R 0 0 t)

/-- `verticalfreq`, Potential.py:1328-1349 (3079-3102). -/
def verticalfreq (P : Pot) (R t : ℝ) : ℝ := √(P.z2deriv R 0 0 t)

/-- `flattening`, Potential.py:1498-1528. -/
def flattening (P : Pot) (R z t : ℝ) : ℝ :=
  √|z / R * P.Rforce R z 0 t / P.zforce R z 0 t|

/-- `vterm`, Potential.py:1531-1564 (`deg` as given; Quantity input is the case `deg = false`). -/
def vterm (P : Pot) (l t : ℝ) (deg : Bool) : ℝ :=
  let sinl := if deg then Real.sin (l / 180 * Real.pi) else Real.sin l;
  sinl * (omegac P |sinl| t - omegac P 1 t)

/-- `rtide`, Potential.py:1727-1769 (4235-4278); `M = None` raises. -/
def rtide (P : Pot) (R z φ t : ℝ) : Option ℝ → Except String ℝ
  | none => .error "PotentialError"
  | some M =>
    let r := √(R ^ 2 + z ^ 2);
    let omegac2 := -rforce P R z φ t / r;
    let d2phidr2 := r2deriv P R z φ t;
    .ok ((M / (omegac2 - d2phidr2)) ^ (1 / 3 : ℝ))

/-- The matrix computed by `ttensor`, Potential.py:1803-1847 (4318-4362). -/
def ttensorMat (P : Pot) (R z φ t : ℝ) : Fin 3 → Fin 3 → ℝ :=
  let Rderiv := -P.Rforce R z φ t;
  let phideriv := -P.phitorque R z φ t;
  let R2deriv := P.R2deriv R z φ t;
  let z2deriv := P.z2deriv R z φ t;
  let phi2deriv := P.phi2deriv R z φ t;
  let Rzderiv := P.Rzderiv R z φ t;
  let Rphideriv := P.Rphideriv R z φ t;
  let zphideriv := 0;
  let cosphi := Real.cos φ;
  let sinphi := Real.sin φ;
  let cos2phi := cosphi ^ 2;
  let sin2phi := sinphi ^ 2;
  let R2 := R ^ 2;
  let txx := R2deriv * cos2phi - Rphideriv * 2 * cosphi * sinphi / R + Rderiv * sin2phi / R
    + phi2deriv * sin2phi / R2 + phideriv * 2 * cosphi * sinphi / R2;
  let tyx := R2deriv * sinphi * cosphi + Rphideriv * (cos2phi - sin2phi) / R
    - Rderiv * sinphi * cosphi / R - phi2deriv * sinphi * cosphi / R2
    + phideriv * (sin2phi - cos2phi) / R2;
  let tzx := Rzderiv * cosphi - zphideriv * sinphi / R;
  let tyy := R2deriv * sin2phi + Rphideriv * 2 * cosphi * sinphi / R + Rderiv * cos2phi / R
    + phi2deriv * cos2phi / R2 - phideriv * 2 * sinphi * cosphi / R2;
  let txy := tyx;
  let tzy := Rzderiv * sinphi + zphideriv * cosphi / R;
  let txz := tzx;
  let tyz := tzy;
  let tzz := z2deriv;
  ![![-txx, -txy, -txz], ![-tyx, -tyy, -tyz], ![-tzx, -tzy, -tzz]]

/-- `ttensor`, Potential.py:1773-1852 (4285-4368), with `eigenval=False`; `nonAxi` is the
`isNonAxi` attribute (for composites: of any component). -/
def ttensor (nonAxi : Bool) (P : Pot) (R z φ t : ℝ) : Except String (Fin 3 → Fin 3 → ℝ) :=
  if nonAxi then .error "PotentialError" else .ok (ttensorMat P R z φ t)

end Verif.PotQuant
