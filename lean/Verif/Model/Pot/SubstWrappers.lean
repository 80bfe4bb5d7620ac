import Verif.Model.Wrappers
import Verif.Model.Conversion
import Verif.Model.Coords

set_option autoImplicit false

/-!
# Wrappers that substitute coordinates

`KuzminLikeWrapperPotential.py`, `CylindricallySeparablePotentialWrapper.py` and their C versions.
The wrapped object is a `Pot` whose entries include its own amplitude; the wrapper's own amplitude
is the outer `Pot.scale`. Neither class has a `_dens`: `WrapperPotential.__getattr__`
(WrapperPotential.py:184-202) resolves it to a call of `_wrap`, which these two classes do not define,
so the call raises `AttributeError` and `Potential.dens` falls back on the Poisson equation
(Potential.py:605-621). The same happens for `_phitorque` (CylindricallySeparable) and the azimuthal second
derivatives, for which the public methods return 0 since the potentials are axisymmetric.
-/

noncomputable section
namespace Verif
open Real

/-- `Potential.dens` of an axisymmetric class without `_dens`, Potential.py:611-620. -/
def Pot.poissonDens (P : Pot) : Pot :=
  { P with
    dens := fun R z φ t =>
      (-P.Rforce R z φ t / R + P.R2deriv R z φ t + P.phi2deriv R z φ t / R ^ 2 + P.z2deriv R z φ t) / 4 / π }

namespace KuzminLike

/-- `_xi`, KuzminLikeWrapperPotential.py:85-86. -/
def xi (a b R z : ℝ) : ℝ := √(R ^ 2 + (a + √(z ^ 2 + b ^ 2)) ^ 2)
/-- `_dxidR`, KuzminLikeWrapperPotential.py:88-89. -/
def dxidR (a b R z : ℝ) : ℝ := R / xi a b R z
/-- `_dxidz`, KuzminLikeWrapperPotential.py:91-97. -/
def dxidz (a b R z : ℝ) : ℝ := (a + √(z ^ 2 + b ^ 2)) * z / xi a b R z / √(z ^ 2 + b ^ 2)
/-- `_d2xidR2`, KuzminLikeWrapperPotential.py:99-102. -/
def d2xidR2 (a b R z : ℝ) : ℝ := (a + √(z ^ 2 + b ^ 2)) ^ 2 / xi a b R z ^ 3
/-- `_d2xidz2`, KuzminLikeWrapperPotential.py:104-114. -/
def d2xidz2 (a b R z : ℝ) : ℝ :=
  (a ^ 3 * b ^ 2 + 3 * a ^ 2 * b ^ 2 * √(b ^ 2 + z ^ 2) + a * b ^ 2 * (3 * b ^ 2 + R ^ 2 + 3 * z ^ 2)
      + (b ^ 2 + R ^ 2) * (b ^ 2 + z ^ 2) ^ (3/2 : ℝ))
    / (b ^ 2 + z ^ 2) ^ (3/2 : ℝ) / xi a b R z ^ 3
/-- `_d2xidRdz`, KuzminLikeWrapperPotential.py:116-120. -/
def d2xidRdz (a b R z : ℝ) : ℝ :=
  -(R * z * (a + √(b ^ 2 + z ^ 2)))
    / (√(b ^ 2 + z ^ 2) * ((a + √(b ^ 2 + z ^ 2)) ^ 2 + R ^ 2) ^ (3/2 : ℝ))

/-- The methods `_evaluate` … `_Rzderiv`, KuzminLikeWrapperPotential.py:122-157, with `R2` the number that
`evaluateR2derivs` returns for the wrapped potential. -/
def potWith (R2 : ℝ → ℝ → ℝ → ℝ → ℝ) (a b : ℝ) (P : Pot) : Pot :=
  Pot.poissonDens {
    val := fun R z φ t => P.val (xi a b R z) 0 φ t
    Rforce := fun R z φ t => P.Rforce (xi a b R z) 0 φ t * dxidR a b R z
    zforce := fun R z φ t => P.Rforce (xi a b R z) 0 φ t * dxidz a b R z
    phitorque := fun _ _ _ _ => 0
    R2deriv := fun R z φ t =>
      R2 (xi a b R z) 0 φ t * dxidR a b R z ^ 2 - P.Rforce (xi a b R z) 0 φ t * d2xidR2 a b R z
    z2deriv := fun R z φ t =>
      R2 (xi a b R z) 0 φ t * dxidz a b R z ^ 2 - P.Rforce (xi a b R z) 0 φ t * d2xidz2 a b R z
    Rzderiv := fun R z φ t =>
      R2 (xi a b R z) 0 φ t * dxidR a b R z * dxidz a b R z
        - P.Rforce (xi a b R z) 0 φ t * d2xidRdz a b R z
    phi2deriv := fun _ _ _ _ => 0
    Rphideriv := fun _ _ _ _ => 0
    phizderiv := fun _ _ _ _ => 0
    dens := fun _ _ _ _ => 0 }

/-- The wrapper when `evaluateR2derivs` returns internal units. -/
def pot (a b : ℝ) (P : Pot) : Pot := potWith P.R2deriv a b P

/-- Arithmetic of an output of a decorated function with a number: a quantity `1/Gyr^2` minus a number raises
`UnitConversionError` (simplification: astropy lets a number equal to 0 pass). -/
def number : Conversion.Output → Except Conversion.Err ℝ
  | .internal x _ => .ok x
  | .physical x => .ok x
  | .quantity _ _ => .error .unitConversion
  | .none => .error .typeError

/-- `_R2deriv` as called: the wrapped second derivative comes from the *public* `evaluateR2derivs`
(KuzminLikeWrapperPotential.py:139-141), decorated with `physical_conversion("forcederivative")`
(Potential.py:2308-2312), whose decision looks at the wrapped potential `obj`. -/
def R2derivPy (k : Conversion.Consts) (apyUnits : Bool) (obj : Conversion.Obj) (a b : ℝ) (P : Pot) (R z φ t : ℝ) :
    Except Conversion.Err ℝ := do
  let out ← Conversion.physical_conversion k apyUnits .forcederivative obj {} (some (P.R2deriv (xi a b R z) 0 φ t))
  let x ← number out
  .ok ((potWith (fun _ _ _ _ => x) a b P).R2deriv R z φ t)

/-! ### C -/

/-- `KuzminLikeWrapperPotential_xi`, KuzminLikeWrapperPotential.c:5-8. -/
def cxi (a b2 R z : ℝ) : ℝ :=
  let asqrtbz := a + √(z * z + b2);
  √(R * R + asqrtbz * asqrtbz)
/-- `KuzminLikeWrapperPotential_dxidR`, KuzminLikeWrapperPotential.c:9-12. -/
def cdxidR (a b2 R z : ℝ) : ℝ :=
  let asqrtbz := a + √(z * z + b2);
  R / √(R * R + asqrtbz * asqrtbz)
/-- `KuzminLikeWrapperPotential_dxidz`, KuzminLikeWrapperPotential.c:13-17. -/
def cdxidz (a b2 R z : ℝ) : ℝ :=
  let sqrtbz := √(z * z + b2);
  let asqrtbz := a + sqrtbz;
  asqrtbz * z / √(R * R + asqrtbz * asqrtbz) / sqrtbz
/-- `KuzminLikeWrapperPotential_d2xidR2`, KuzminLikeWrapperPotential.c:18-24. -/
def cd2xidR2 (a b2 R z : ℝ) : ℝ :=
  let asqrtbz := a + √(z * z + b2);
  asqrtbz * asqrtbz / (R * R + asqrtbz * asqrtbz) ^ (3/2 : ℝ)
/-- `KuzminLikeWrapperPotential_d2xidz2`, KuzminLikeWrapperPotential.c:25-34 (`pow(x, 3.0)` is the third power). -/
def cd2xidz2 (a b2 R z : ℝ) : ℝ :=
  let sqrtbz := √(z * z + b2);
  let xi := cxi a b2 R z;
  (a * a * a * b2 + 3 * a * a * b2 * sqrtbz + a * b2 * (3 * b2 + R * R + 3 * z * z)
      + (b2 + R * R) * sqrtbz ^ 3) / sqrtbz ^ 3 / xi ^ 3
/-- `KuzminLikeWrapperPotential_d2xidRdz`, KuzminLikeWrapperPotential.c:35-41. -/
def cd2xidRdz (a b2 R z : ℝ) : ℝ :=
  let sqrtbz := √(z * z + b2);
  let asqrtbz := a + sqrtbz;
  -R * z * asqrtbz / sqrtbz / (R * R + asqrtbz * asqrtbz) ^ (3/2 : ℝ)

/-- The 3D functions of KuzminLikeWrapperPotential.c:59-90 and 141-193 (arguments `amp, a, b**2`); the functions
that are `NULL` in the parser count as 0. `P` holds what `calc…` return for the wrapped potentials. -/
def cForces (amp a b2 : ℝ) (P : Wrap.CForces) : Wrap.CForces where
  Rforce := fun R z _ t => amp * P.Rforce (cxi a b2 R z) 0 0 t * cdxidR a b2 R z
  zforce := fun R z _ t => amp * P.Rforce (cxi a b2 R z) 0 0 t * cdxidz a b2 R z
  phitorque := fun _ _ _ _ => 0
  R2deriv := fun R z _ t =>
    let xi := cxi a b2 R z;
    let dxidR := cdxidR a b2 R z;
    amp * (P.R2deriv xi 0 0 t * dxidR * dxidR - P.Rforce xi 0 0 t * cd2xidR2 a b2 R z)
  z2deriv := fun R z _ t =>
    let xi := cxi a b2 R z;
    let dxidz := cdxidz a b2 R z;
    amp * (P.R2deriv xi 0 0 t * dxidz * dxidz - P.Rforce xi 0 0 t * cd2xidz2 a b2 R z)
  Rzderiv := fun R z _ t =>
    let xi := cxi a b2 R z;
    amp * (P.R2deriv xi 0 0 t * cdxidR a b2 R z * cdxidz a b2 R z - P.Rforce xi 0 0 t * cd2xidRdz a b2 R z)
  phi2deriv := fun _ _ _ _ => 0
  Rphideriv := fun _ _ _ _ => 0
  zphideriv := fun _ _ _ _ => 0

/-- `KuzminLikeWrapperPotentialPlanarRforce`, KuzminLikeWrapperPotential.c:91-105; arguments `R phi t`, `F` is
`calcPlanarRforce` of the wrapped potentials. -/
def cPlanarRforce (amp a b2 : ℝ) (F : ℝ → ℝ → ℝ → ℝ) (R t : ℝ) : ℝ :=
  amp * F (cxi a b2 R 0) 0 t * cdxidR a b2 R 0
/-- `KuzminLikeWrapperPotentialPlanarR2deriv`, KuzminLikeWrapperPotential.c:106-129. -/
def cPlanarR2deriv (amp a b2 : ℝ) (F F2 : ℝ → ℝ → ℝ → ℝ) (R t : ℝ) : ℝ :=
  amp * (F2 (cxi a b2 R 0) 0 t * cdxidR a b2 R 0 * cdxidR a b2 R 0 - F (cxi a b2 R 0) 0 t * cd2xidR2 a b2 R 0)
/-- `KuzminLikeWrapperPotentialEval`, KuzminLikeWrapperPotential.c:44-58; `V R z` is `evaluatePotentials`, which has
neither azimuth nor time. -/
def cEval (amp a b2 : ℝ) (V : ℝ → ℝ → ℝ) (R z : ℝ) : ℝ := amp * V (cxi a b2 R z) 0

end KuzminLike

namespace CylSep

/-- `_refpot`, CylindricallySeparablePotentialWrapper.py:72 (azimuth `None` is 0 in the model, the time is the
default 0). -/
def refpot (Rp : ℝ) (P : Pot) : ℝ := P.val Rp 0 0 0

/-- The methods, CylindricallySeparablePotentialWrapper.py:82-192: the arguments `phi` and `t` are not passed on to
the wrapped potential. -/
def pot (Rp : ℝ) (P : Pot) : Pot :=
  Pot.poissonDens {
    val := fun R z _ _ => P.val R 0 0 0 + P.val Rp z 0 0 - refpot Rp P
    Rforce := fun R _ _ _ => P.Rforce R 0 0 0
    zforce := fun _ z _ _ => P.zforce Rp z 0 0
    phitorque := fun _ _ _ _ => 0
    R2deriv := fun R _ _ _ => P.R2deriv R 0 0 0
    z2deriv := fun _ z _ _ => P.z2deriv Rp z 0 0
    Rzderiv := fun _ _ _ _ => 0
    phi2deriv := fun _ _ _ _ => 0
    Rphideriv := fun _ _ _ _ => 0
    phizderiv := fun _ _ _ _ => 0
    dens := fun _ _ _ _ => 0 }

/-- The 3D functions of CylindricallySeparablePotentialWrapper.c:12-28 and 47-62. -/
def cForces (amp Rp : ℝ) (P : Wrap.CForces) : Wrap.CForces where
  Rforce := fun R _ _ _ => amp * P.Rforce R 0 0 0
  zforce := fun _ z _ _ => amp * P.zforce Rp z 0 0
  phitorque := fun _ _ _ _ => 0
  R2deriv := fun R _ _ _ => amp * P.R2deriv R 0 0 0
  z2deriv := fun _ z _ _ => amp * P.z2deriv Rp z 0 0
  Rzderiv := fun _ _ _ _ => 0
  phi2deriv := fun _ _ _ _ => 0
  Rphideriv := fun _ _ _ _ => 0
  zphideriv := fun _ _ _ _ => 0

/-- `CylindricallySeparablePotentialWrapperPotentialEval`, CylindricallySeparablePotentialWrapper.c:3-11. -/
def cEval (amp Rp refpot : ℝ) (V : ℝ → ℝ → ℝ) (R z : ℝ) : ℝ := amp * (V R 0 + V Rp z - refpot)
/-- `…PlanarRforce`, CylindricallySeparablePotentialWrapper.c:29-36. -/
def cPlanarRforce (amp : ℝ) (F : ℝ → ℝ → ℝ → ℝ) (R : ℝ) : ℝ := amp * F R 0 0
/-- `…PlanarR2deriv`, CylindricallySeparablePotentialWrapper.c:63-70. -/
def cPlanarR2deriv (amp : ℝ) (F2 : ℝ → ℝ → ℝ → ℝ) (R : ℝ) : ℝ := amp * F2 R 0 0

end CylSep
end Verif
