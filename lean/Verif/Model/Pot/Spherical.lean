import Verif.Util.PotLemmas

set_option autoImplicit false

/-!
# SphericalPotential (base class)

`galpy/potential/SphericalPotential.py` and `potential_c_ext/SphericalPotential.c`.
A subclass supplies the radial profile `_revaluate`, `_rforce`, `_r2deriv` and
optionally `_rdens`; the base class turns it into the cylindrical methods.
-/

noncomputable section
namespace Verif.Spherical
open Real

/-- The methods a subclass supplies, SphericalPotential.py:14-22. Arguments `r t`. -/
structure Radial where
  /-- `_revaluate` -/
  val : ℝ → ℝ → ℝ
  /-- `_rforce` -/
  force : ℝ → ℝ → ℝ
  /-- `_r2deriv` -/
  d2 : ℝ → ℝ → ℝ
  /-- `_rdens` -/
  dens : ℝ → ℝ → ℝ

/-- The default `_rdens`, SphericalPotential.py:48-50. -/
def rdensDefault (force d2 : ℝ → ℝ → ℝ) (r t : ℝ) : ℝ := (d2 r t - 2 * force r t / r) / 4 / π

/-- `_evaluate`, SphericalPotential.py:52-54. -/
def evaluate (P : Radial) (R z t : ℝ) : ℝ := P.val (√(R ^ 2 + z ^ 2)) t
/-- `_Rforce`, SphericalPotential.py:56-58. -/
def Rforce (P : Radial) (R z t : ℝ) : ℝ :=
  let r := √(R ^ 2 + z ^ 2);
  P.force r t * R / r
/-- `_zforce`, SphericalPotential.py:60-62. -/
def zforce (P : Radial) (R z t : ℝ) : ℝ :=
  let r := √(R ^ 2 + z ^ 2);
  P.force r t * z / r
/-- `_R2deriv`, SphericalPotential.py:64-69. -/
def R2deriv (P : Radial) (R z t : ℝ) : ℝ :=
  let r := √(R ^ 2 + z ^ 2);
  P.d2 r t * R ^ 2 / r ^ 2 - P.force r t * z ^ 2 / r ^ 3
/-- `_z2deriv`, SphericalPotential.py:71-76. -/
def z2deriv (P : Radial) (R z t : ℝ) : ℝ :=
  let r := √(R ^ 2 + z ^ 2);
  P.d2 r t * z ^ 2 / r ^ 2 - P.force r t * R ^ 2 / r ^ 3
/-- `_Rzderiv`, SphericalPotential.py:78-83. -/
def Rzderiv (P : Radial) (R z t : ℝ) : ℝ :=
  let r := √(R ^ 2 + z ^ 2);
  P.d2 r t * R * z / r ^ 2 + P.force r t * R * z / r ^ 3
/-- `_dens`, SphericalPotential.py:85-87. -/
def dens (P : Radial) (R z t : ℝ) : ℝ := P.dens (√(R ^ 2 + z ^ 2)) t
/-- `_mass`, SphericalPotential.py:89-93 (`z=None` branch). -/
def mass (P : Radial) (R t : ℝ) : ℝ := -(R ^ 2) * P.force R t

/-- The Python class as a record of methods (the azimuthal ones are the
axisymmetric zeros of `Potential.py`). -/
def pot (P : Radial) : Pot where
  val := fun R z _ t => evaluate P R z t
  Rforce := fun R z _ t => Rforce P R z t
  zforce := fun R z _ t => zforce P R z t
  phitorque := fun _ _ _ _ => 0
  R2deriv := fun R z _ t => R2deriv P R z t
  z2deriv := fun R z _ t => z2deriv P R z t
  Rzderiv := fun R z _ t => Rzderiv P R z t
  phi2deriv := fun _ _ _ _ => 0
  Rphideriv := fun _ _ _ _ => 0
  phizderiv := fun _ _ _ _ => 0
  dens := fun R z _ t => dens P R z t

/-! ### C -/
/-- `SphericalPotentialEval`, SphericalPotential.c:4-12. -/
def cEval (amp : ℝ) (P : Radial) (R z t : ℝ) : ℝ := amp * P.val (√(R * R + z * z)) t
/-- `SphericalPotentialRforce`, SphericalPotential.c:13-21. -/
def cRforce (amp : ℝ) (P : Radial) (R z t : ℝ) : ℝ :=
  let r := √(R * R + z * z);
  amp * P.force r t * R / r
/-- `SphericalPotentialPlanarRforce`, SphericalPotential.c:22-29. -/
def cPlanarRforce (amp : ℝ) (P : Radial) (R t : ℝ) : ℝ := amp * P.force R t
/-- `SphericalPotentialzforce`, SphericalPotential.c:30-38. -/
def czforce (amp : ℝ) (P : Radial) (R z t : ℝ) : ℝ :=
  let r := √(R * R + z * z);
  amp * P.force r t * z / r
/-- `SphericalPotentialPlanarR2deriv`, SphericalPotential.c:39-46. -/
def cPlanarR2deriv (amp : ℝ) (P : Radial) (R t : ℝ) : ℝ := amp * P.d2 R t

/-- The body shared by `SphericalPotentialR2deriv` (SphericalPotential.c:47-58) and the
functions `*PotentialR2deriv` of the other spherical C potentials, which carry an
identical copy of it; `pR2`, `pRf` are the planar functions it calls. -/
def cR2 (pR2 pRf : ℝ → ℝ) (R Z : ℝ) : ℝ :=
  let r2 := R * R + Z * Z;
  let r := √r2;
  let Phipp := pR2 r;
  let Phip := -pRf r;
  let ir2 := 1 / r2;
  let ir3 := ir2 / r;
  Phipp * R * R * ir2 + Phip * Z * Z * ir3
/-- The body shared by the `*Potentialz2deriv`, SphericalPotential.c:59-69. -/
def cz2 (pR2 pRf : ℝ → ℝ) (R Z : ℝ) : ℝ :=
  let r2 := R * R + Z * Z;
  let r := √r2;
  let Phipp := pR2 r;
  let Phip := -pRf r;
  let ir2 := 1 / r2;
  let ir3 := ir2 / r;
  Phipp * Z * Z * ir2 + Phip * R * R * ir3
/-- The body shared by the `*PotentialRzderiv`, SphericalPotential.c:70-80. -/
def cRz (pR2 pRf : ℝ → ℝ) (R Z : ℝ) : ℝ :=
  let r2 := R * R + Z * Z;
  let r := √r2;
  let Phipp := pR2 r;
  let Phip := -pRf r;
  let ir2 := 1 / r2;
  let ir3 := ir2 / r;
  R * Z * (Phipp * ir2 - Phip * ir3)
/-- `SphericalPotentialR2deriv`, SphericalPotential.c:47-58. -/
def cR2deriv (amp : ℝ) (P : Radial) (R Z t : ℝ) : ℝ :=
  cR2 (cPlanarR2deriv amp P · t) (cPlanarRforce amp P · t) R Z
/-- `SphericalPotentialz2deriv`, SphericalPotential.c:59-69. -/
def cz2deriv (amp : ℝ) (P : Radial) (R Z t : ℝ) : ℝ :=
  cz2 (cPlanarR2deriv amp P · t) (cPlanarRforce amp P · t) R Z
/-- `SphericalPotentialRzderiv`, SphericalPotential.c:70-80. -/
def cRzderiv (amp : ℝ) (P : Radial) (R Z t : ℝ) : ℝ :=
  cRz (cPlanarR2deriv amp P · t) (cPlanarRforce amp P · t) R Z
/-- `SphericalPotentialDens`, SphericalPotential.c:81-98 (the commented-out lines omitted). -/
def cDens (amp : ℝ) (P : Radial) (R z t : ℝ) : ℝ := amp * P.dens (√(R * R + z * z)) t

end Verif.Spherical
