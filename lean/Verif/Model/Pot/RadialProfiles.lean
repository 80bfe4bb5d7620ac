import Verif.Model.Pot.Spherical
import Verif.Model.Pot.Ops
import Verif.Util.IncGamma
import Mathlib.Data.EReal.Basic

set_option autoImplicit false

/-!
# EinastoPotential, AnySphericalPotential, interpSphericalPotential, NullPotential

`galpy/potential/EinastoPotential.py`, `AnySphericalPotential.py`, `interpSphericalPotential.py`, `NullPotential.py` and the C
files of the same names.  `special.gammaincc(s, x)` is the regularised upper incomplete Gamma function, `quad` the exact
integral.  Scalars only (the array code does the same per element).
-/

noncomputable section
namespace Verif
open Real MeasureTheory Set

namespace Einasto
/-- `scipy.special.gammaincc` and `gsl_sf_gamma_inc_Q`. -/
def gammaincc (s x : ℝ) : ℝ := upperGamma s x / Gamma s

/-- The core value in `_revaluate`, EinastoPotential.py:108. -/
def core (h n : ℝ) : ℝ := -(4 * π * h ^ 2 * n) * Gamma (2 * n)
/-- `_revaluate`, EinastoPotential.py:97-116. -/
def revaluate (h n r : ℝ) : ℝ :=
  let s := r / h;
  if r = 0 then core h n else
    -(4 * π * h ^ 2 * n * Gamma (3 * n)) *
      ((1 - gammaincc (3 * n) (s ^ (1 / n))) / s + gammaincc (2 * n) (s ^ (1 / n)) * (Gamma (2 * n) / Gamma (3 * n)))
/-- `_rforce`, EinastoPotential.py:118-124. -/
def rforce (h n r : ℝ) : ℝ :=
  let s := r / h;
  4 * π * h * n * Gamma (3 * n) * (s ^ 2)⁻¹ * (gammaincc (3 * n) (s ^ (1 / n)) - 1)
/-- `_r2deriv`, EinastoPotential.py:126-134. -/
def r2deriv (h n r : ℝ) : ℝ :=
  let s := r / h;
  -(4 * π * n * Gamma (3 * n)) * (-2 * (s ^ 3)⁻¹ * (gammaincc (3 * n) (s ^ (1 / n)) - 1)
    - 1 / n * exp (-(s ^ (1 / n))) / Gamma (3 * n))
/-- `_rdens`, EinastoPotential.py:136-137. -/
def rdens (h n r : ℝ) : ℝ := exp (-((r / h) ^ (1 / n)))
/-- The radial profile given to `SphericalPotential`. -/
def radial (h n : ℝ) : Spherical.Radial :=
  ⟨fun r _ => revaluate h n r, fun r _ => rforce h n r, fun r _ => r2deriv h n r, fun r _ => rdens h n r⟩
/-- The Python class. -/
def pot (h n : ℝ) : Pot := Spherical.pot (radial h n)

/-- The object made by the constructor: the amplitude `_amp` every public method uses, the attribute `amp` nothing reads,
and `h`. -/
structure Obj where
  _amp : ℝ
  amp : Option ℝ
  h : ℝ
/-- The ways of giving the scale. -/
inductive Scale
  | h (h : ℝ)
  | rs (rs : ℝ)
  | rm2 (rm2 : ℝ)
/-- `_calculate_dn`'s function, EinastoPotential.py:152-155. -/
def dnFunc (n x : ℝ) : ℝ :=
  let gamma_3n := Gamma (3 * n);
  let gamma_3n_upper := gammaincc (3 * n) x * gamma_3n;
  2 * gamma_3n_upper - gamma_3n
/-- `__init__`, EinastoPotential.py:69-86. `dn` is the number `fsolve` returned. -/
def init (amp n dn : ℝ) : Scale → Obj
  | .rs rs => ⟨amp, some (amp * exp dn), rs / dn ^ n⟩
  | .rm2 rm2 => ⟨amp, some (amp * exp (2 * n)), rm2 / (2 * n) ^ n⟩
  | .h h => ⟨amp, none, h⟩
/-- The constructed potential: Force.py multiplies by `_amp`. -/
def Obj.pot (o : Obj) (n : ℝ) : Pot := (Einasto.pot o.h n).scale o._amp

/-- `EinastoPotentialrevaluate`, EinastoPotential.c:9-26. -/
def cRevaluate (h n r : ℝ) : ℝ :=
  let s := r / h;
  let s_1n := s ^ (1 / n);
  -(4 * π * h ^ 2 * n * Gamma (3 * n)) * s⁻¹ * (1 - gammaincc (3 * n) s_1n + s * upperGamma (2 * n) s_1n / Gamma (3 * n))
/-- `EinastoPotentialrforce`, EinastoPotential.c:28-50. -/
def cRforce (h n r : ℝ) : ℝ :=
  let s := r / h;
  let gamma_3n := Gamma (3 * n);
  let gamma_upper_3n := gammaincc (3 * n) (s ^ (1 / n));
  let s_2 := (s ^ 2)⁻¹;
  4 * π * h * n * gamma_3n * s_2 * (gamma_upper_3n - 1)
/-- `EinastoPotentialr2deriv`, EinastoPotential.c:52-72. -/
def cR2deriv (h n r : ℝ) : ℝ :=
  let s := r / h;
  let s_1n := s ^ (1 / n);
  let gamma_3n := Gamma (3 * n);
  let gamma_upper_3n := gammaincc (3 * n) s_1n;
  -(4 * π * n * gamma_3n) * (-2 * (s ^ 3)⁻¹ * (gamma_upper_3n - 1) - 1 / n * exp (-s_1n) / gamma_3n)
/-- `EinastoPotentialrdens`, EinastoPotential.c:74-86. -/
def cRdens (h n r : ℝ) : ℝ := exp (-((r / h) ^ (1 / n)))
/-- The functions bound for case 41, integrateFullOrbit.c:731-749. -/
def cRadial (h n : ℝ) : Spherical.Radial :=
  ⟨fun r _ => cRevaluate h n r, fun r _ => cRforce h n r, fun r _ => cR2deriv h n r, fun r _ => cRdens h n r⟩
end Einasto

namespace AnySph
/-- `_rawmass`, AnySphericalPotential.py:84-86. -/
def rawmass (ρ : ℝ → ℝ) (r : ℝ) : ℝ := 4 * π * ∫ a in (0:ℝ)..r, a ^ 2 * ρ a
open Classical in
/-- `_pot_zero`, AnySphericalPotential.py:88-98; "divergent" is taken to be reported exactly when the integral does not
converge. -/
def potZero (ρ : ℝ → ℝ) : EReal :=
  if IntegrableOn (fun a => a * ρ a) (Ioi 0) then ((-4 * π * ∫ a in Ioi (0:ℝ), a * ρ a : ℝ) : EReal) else ⊥
open Classical in
/-- `_pot_inf`, AnySphericalPotential.py:100-106; same remark. -/
def potInf (ρ : ℝ → ℝ) : EReal := if IntegrableOn (fun a => a ^ 2 * ρ a) (Ioi 0) then 0 else ⊤
/-- The last branch of `_revaluate_scalar`, AnySphericalPotential.py:129-131. -/
def revaluate (ρ : ℝ → ℝ) (r : ℝ) : ℝ := -rawmass ρ r / r - 4 * π * ∫ a in Ioi r, ρ a * a
/-- `_revaluate_scalar`, AnySphericalPotential.py:123-131; `none` is `numpy.inf`. -/
def revaluateScalar (ρ : ℝ → ℝ) : Option ℝ → EReal
  | none => potInf ρ
  | some r => if r = 0 then potZero ρ else (revaluate ρ r : EReal)
/-- `_rforce`, AnySphericalPotential.py:133-134. -/
def rforce (ρ : ℝ → ℝ) (r : ℝ) : ℝ := -rawmass ρ r / r ^ 2
/-- `_r2deriv`, AnySphericalPotential.py:136-137. -/
def r2deriv (ρ : ℝ → ℝ) (r : ℝ) : ℝ := -2 * rawmass ρ r / r ^ 3 + 4 * π * ρ r
/-- The radial profile given to `SphericalPotential`; `_rdens` is the density given (139-140). -/
def radial (ρ : ℝ → ℝ) : Spherical.Radial :=
  ⟨fun r _ => revaluate ρ r, fun r _ => rforce ρ r, fun r _ => r2deriv ρ r, fun r _ => ρ r⟩
/-- The Python class (away from the centre). -/
def pot (ρ : ℝ → ℝ) : Pot := Spherical.pot (radial ρ)
end AnySph

namespace InterpSph
/-- What the constructor makes, interpSphericalPotential.py:50-102: the interpolating spline as a function (FITPACK's, which
extrapolates, `ext=0`), the ends of the grid and `Phi0`, the potential at the first grid point. -/
structure Obj where
  spline : ℝ → ℝ
  rmin : ℝ
  rmax : ℝ
  phi0 : ℝ
/-- `_pot_spline`, line 88: scipy's antiderivative vanishes at the first knot. -/
def Obj.potSpline (o : Obj) (r : ℝ) : ℝ := ∫ x in o.rmin..r, o.spline x
/-- `_Phi0`, line 89. -/
def Obj.Phi0 (o : Obj) : ℝ := o.phi0 + o.potSpline o.rmin
/-- `_total_mass`, line 94. -/
def Obj.totalMass (o : Obj) : ℝ := -(o.rmax ^ 2) * o.spline o.rmax
/-- `_Phimax`, lines 95-97. -/
def Obj.Phimax (o : Obj) : ℝ := -o.potSpline o.rmax + o.Phi0 + o.totalMass / o.rmax
/-- `_revaluate`, lines 104-108. -/
def revaluate (o : Obj) (r : ℝ) : ℝ := if o.rmax ≤ r then -o.totalMass / r + o.Phimax else -o.potSpline r + o.Phi0
/-- `_rforce`, lines 110-114. -/
def rforce (o : Obj) (r : ℝ) : ℝ := if o.rmax ≤ r then -o.totalMass / r ^ 2 else o.spline r
/-- `_r2deriv`, lines 123-127. -/
def r2deriv (o : Obj) (r : ℝ) : ℝ := if o.rmax ≤ r then -2 * o.totalMass / r ^ 3 else -deriv o.spline r
/-- `_rdens`, lines 129-134. -/
def rdens (o : Obj) (r : ℝ) : ℝ :=
  if o.rmax ≤ r then 0 else Spherical.rdensDefault (fun r _ => rforce o r) (fun r _ => r2deriv o r) r 0
/-- The radial profile given to `SphericalPotential`. -/
def radial (o : Obj) : Spherical.Radial :=
  ⟨fun r _ => revaluate o r, fun r _ => rforce o r, fun r _ => r2deriv o r, fun r _ => rdens o r⟩
/-- The Python class. -/
def pot (o : Obj) : Pot := Spherical.pot (radial o)

/-- The numbers passed to C, integrateFullOrbit.py:366-373, and GSL's natural cubic spline through the same points
(integrateFullOrbit.c:614-627), as a function. -/
structure CArgs where
  rmin : ℝ
  rmax : ℝ
  Mmax : ℝ
  Phi0 : ℝ
  Phimax : ℝ
  gsl : ℝ → ℝ
/-- Lines 371-373. -/
def Obj.cArgs (o : Obj) (gsl : ℝ → ℝ) : CArgs := ⟨o.rmin, o.rmax, o.totalMass, o.Phi0, o.Phimax, gsl⟩
/-- `interpSphericalPotentialrevaluate`, interpSphericalPotential.c:5-22. -/
def cRevaluate (c : CArgs) (r : ℝ) : ℝ :=
  if c.rmax ≤ r then -c.Mmax / r + c.Phimax
  else if r < c.rmin then 0 else -(∫ x in c.rmin..r, c.gsl x) + c.Phi0
/-- `interpSphericalPotentialrforce`, interpSphericalPotential.c:23-37. -/
def cRforce (c : CArgs) (r : ℝ) : ℝ :=
  if c.rmax ≤ r then -c.Mmax / r / r else if r < c.rmin then 0 else c.gsl r
/-- `interpSphericalPotentialr2deriv`, interpSphericalPotential.c:38-52. -/
def cR2deriv (c : CArgs) (r : ℝ) : ℝ :=
  if c.rmax ≤ r then -2 * c.Mmax / r / r / r else if r < c.rmin then 0 else -deriv c.gsl r
/-- `interpSphericalPotentialrdens`, interpSphericalPotential.c:53-69. -/
def cRdens (c : CArgs) (r : ℝ) : ℝ :=
  if c.rmax ≤ r then 0 else if r < c.rmin then 0 else 1 / π / 4 * (cR2deriv c r - 2 * cRforce c r / r)
end InterpSph

/-- NullPotential.py:42-61. -/
def NullPot : Pot :=
  Pot.axi (fun _ _ => 1) (fun _ _ => 0) (fun _ _ => 0) (fun _ _ => 0) (fun _ _ => 0) (fun _ _ => 0) (fun _ _ => 0)

end Verif
