import Verif.Model.Pot.Spherical
import Verif.Util.IncGamma

set_option autoImplicit false

/-!
# PowerSphericalPotentialwCutoff

`galpy/potential/PowerSphericalPotentialwCutoff.py` and
`potential_c_ext/PowerSphericalPotentialwCutoff.c`.  Python methods are without `amp`; C functions include it.
`special.gammainc`, `gsl_sf_gamma_inc_P`, `gsl_sf_gamma_inc` and `special.hyp1f1` are trusted to be the functions
`gammainc`, `upperGamma`, `hyp1f1` of `Util/IncGamma.lean`.
-/

noncomputable section
namespace Verif.PowerSphCut
open Real

/-- The stored amplitude, PowerSphericalPotentialwCutoff.py:57-62. -/
def initAmp (amp r1 α : ℝ) : ℝ := amp * r1 ^ α

/-- `_mass` at a finite float radius, PowerSphericalPotentialwCutoff.py:206-221 (`z=None`; for a given `z` an
`AttributeError` makes `Potential.mass` integrate numerically, which is not modelled here). -/
def mass (α rc R : ℝ) : ℝ :=
  2 * π * R ^ (3 - α) / (1.5 - α / 2) * hyp1f1 (1.5 - α / 2) (2.5 - α / 2) (-((R / rc) ^ 2))
/-- `_mass` at `R = inf`, PowerSphericalPotentialwCutoff.py:222-227. -/
def massInf (α rc : ℝ) : ℝ := 2 * π * rc ^ (3 - α) * Gamma (1.5 - α / 2)
/-- `_mass` at an `int` radius, PowerSphericalPotentialwCutoff.py:209-211: `numpy.array(R)` has an integer type, so
has `numpy.ones_like(R)`, and assigning a float to an element of it truncates towards zero. -/
def massInt (α rc : ℝ) (n : ℤ) : ℤ :=
  let m := mass α rc n;
  if 0 ≤ m then ⌊m⌋ else ⌈m⌉

/-- `_evaluate`, PowerSphericalPotentialwCutoff.py:75-98. -/
def evaluate (α rc R z : ℝ) : ℝ :=
  let r := √(R ^ 2 + z ^ 2);
  let out := 2 * π * rc ^ (3 - α) * (1 / rc * Gamma (1 - α / 2) * gammainc (1 - α / 2) ((r / rc) ^ 2)
    - Gamma (1.5 - α / 2) * gammainc (1.5 - α / 2) ((r / rc) ^ 2) / r);
  if r = 0 then 0 else out
/-- `_Rforce`, PowerSphericalPotentialwCutoff.py:100-102. -/
def Rforce (α rc R z : ℝ) : ℝ :=
  let r := √(R * R + z * z);
  -mass α rc r * R / r ^ 3
/-- `_zforce`, PowerSphericalPotentialwCutoff.py:104-106. -/
def zforce (α rc R z : ℝ) : ℝ :=
  let r := √(R * R + z * z);
  -mass α rc r * z / r ^ 3
/-- `_R2deriv`, PowerSphericalPotentialwCutoff.py:108-112. -/
def R2deriv (α rc R z : ℝ) : ℝ :=
  let r := √(R * R + z * z);
  4 * π * r ^ (-2 - α) * exp (-((r / rc) ^ 2)) * R ^ 2 + mass α rc r / r ^ 5 * (z ^ 2 - 2 * R ^ 2)
/-- `_z2deriv`, PowerSphericalPotentialwCutoff.py:114-118. -/
def z2deriv (α rc R z : ℝ) : ℝ :=
  let r := √(R * R + z * z);
  4 * π * r ^ (-2 - α) * exp (-((r / rc) ^ 2)) * z ^ 2 + mass α rc r / r ^ 5 * (R ^ 2 - 2 * z ^ 2)
/-- `_Rzderiv`, PowerSphericalPotentialwCutoff.py:120-132. -/
def Rzderiv (α rc R z : ℝ) : ℝ :=
  let r := √(R * R + z * z);
  R * z * (4 * π * r ^ (-2 - α) * exp (-((r / rc) ^ 2)) - 3 * mass α rc r / r ^ 5)
/-- `_rforce_jax`, PowerSphericalPotentialwCutoff.py:134-147 (includes `amp`; `jspecial.gammaln` is `log Γ`). -/
def rforceJax (amp α rc r : ℝ) : ℝ :=
  -amp * 2 * π * rc ^ (3 - α) * gammainc (1.5 - 0.5 * α) ((r / rc) ^ 2) * exp (log (Gamma (1.5 - 0.5 * α))) / r ^ 2
/-- `_ddensdr`, PowerSphericalPotentialwCutoff.py:149-155 (includes `amp`). -/
def ddensdr (amp α rc r : ℝ) : ℝ :=
  -amp * r ^ (-1 - α) * exp (-((r / rc) ^ 2)) * (2 * r ^ 2 / rc ^ 2 + α)
/-- `_d2densdr2`, PowerSphericalPotentialwCutoff.py:157-169 (includes `amp`). -/
def d2densdr2 (amp α rc r : ℝ) : ℝ :=
  amp * r ^ (-2 - α) * exp (-((r / rc) ^ 2))
    * (α ^ 2 + α + 4 * α * r ^ 2 / rc ^ 2 - 2 * r ^ 2 / rc ^ 2 + 4 * r ^ 4 / rc ^ 4)
/-- `_ddenstwobetadr`, PowerSphericalPotentialwCutoff.py:171-200 (includes `amp`). -/
def ddenstwobetadr (amp α rc β r : ℝ) : ℝ :=
  -amp * exp (-((r / rc) ^ 2)) / r ^ (α - 2 * β) * ((α - 2 * β) / r + 2 * r / rc ^ 2)
/-- `_dens`, PowerSphericalPotentialwCutoff.py:202-204. -/
def dens (α rc R z : ℝ) : ℝ :=
  let r := √(R ^ 2 + z ^ 2);
  1 / r ^ α * exp (-((r / rc) ^ 2))

/-- The Python class as a record of methods. -/
def pot (α rc : ℝ) : Pot :=
  Pot.axi (evaluate α rc) (Rforce α rc) (zforce α rc) (R2deriv α rc) (z2deriv α rc) (Rzderiv α rc) (dens α rc)

/-! ### C -/
/-- `mass`, PowerSphericalPotentialwCutoff.c:9-11. -/
def cmass (r2 α rc : ℝ) : ℝ :=
  2 * π * rc ^ (3 - α) * (Gamma (1.5 - 0.5 * α) * gammainc (1.5 - 0.5 * α) (r2 / rc / rc))
/-- `PowerSphericalPotentialwCutoffEval`, PowerSphericalPotentialwCutoff.c:12-24. -/
def cEval (amp α rc R Z : ℝ) : ℝ :=
  let r2 := R * R + Z * Z;
  let r := √r2;
  amp * 2 * π * rc ^ (3 - α) / r * (r / rc * (Gamma (1 - 0.5 * α) - upperGamma (1 - 0.5 * α) (r2 / rc / rc))
    - (Gamma (1.5 - 0.5 * α) - upperGamma (1.5 - 0.5 * α) (r2 / rc / rc)))
/-- `PowerSphericalPotentialwCutoffPlanarRforce`, PowerSphericalPotentialwCutoff.c:47-59. -/
def cPlanarRforce (amp α rc R : ℝ) : ℝ :=
  let r2 := R * R;
  -amp * cmass r2 α rc / r2
/-- `PowerSphericalPotentialwCutoffPlanarR2deriv`, PowerSphericalPotentialwCutoff.c:82-94. -/
def cPlanarR2deriv (amp α rc R : ℝ) : ℝ :=
  let r2 := R * R;
  amp * (4 * π * r2 ^ (-0.5 * α) * exp (-r2 / rc / rc) - 2 * cmass r2 α rc / r2 ^ (1.5 : ℝ))
/-- `PowerSphericalPotentialwCutoffR2deriv`, PowerSphericalPotentialwCutoff.c:95-107. -/
def cR2deriv (amp α rc R Z : ℝ) : ℝ := Spherical.cR2 (cPlanarR2deriv amp α rc) (cPlanarRforce amp α rc) R Z
/-- `PowerSphericalPotentialwCutoffz2deriv`, PowerSphericalPotentialwCutoff.c:108-119. -/
def cz2deriv (amp α rc R Z : ℝ) : ℝ := Spherical.cz2 (cPlanarR2deriv amp α rc) (cPlanarRforce amp α rc) R Z
/-- `PowerSphericalPotentialwCutoffRzderiv`, PowerSphericalPotentialwCutoff.c:120-131. -/
def cRzderiv (amp α rc R Z : ℝ) : ℝ := Spherical.cRz (cPlanarR2deriv amp α rc) (cPlanarRforce amp α rc) R Z
/-- `PowerSphericalPotentialwCutoffDens`, PowerSphericalPotentialwCutoff.c:132-144. -/
def cDens (amp α rc R Z : ℝ) : ℝ :=
  let r2 := R * R + Z * Z;
  let r := √r2;
  amp * r ^ (-α) * exp (-r2 / rc / rc)

/-- The two mutable entries of the C argument array, `cached_r2` and `cached_force`. -/
structure CArgs where
  r2 : ℝ
  force : ℝ
/-- As packed, `pot_args.extend([0.0, 0.0])`, integrateFullOrbit.py:181. -/
def CArgs.fresh : CArgs := ⟨0, 0⟩
/-- The statements shared by the C `Rforce` (PowerSphericalPotentialwCutoff.c:34-43) and `zforce` (69-78). -/
def cLookup (amp α rc R Z : ℝ) (s : CArgs) : CArgs × ℝ :=
  let r2 := R * R + Z * Z;
  if r2 = s.r2 then (s, s.force)
  else
    let force := -amp * cmass r2 α rc / r2 ^ (1.5 : ℝ)
    (⟨r2, force⟩, force)
/-- The C functions that can be called on one argument array. -/
inductive CFun where
  | eval | Rforce | zforce | R2deriv | z2deriv | Rzderiv | dens
/-- One C call: the new argument array and the returned number.  `Rforce` and `zforce` are
PowerSphericalPotentialwCutoff.c:25-46 and 60-81; the others leave the array alone. -/
def cCall (amp α rc : ℝ) (s : CArgs) (c : CFun × ℝ × ℝ) : CArgs × ℝ :=
  let R := c.2.1;
  let Z := c.2.2;
  match c.1 with
  | .eval => (s, cEval amp α rc R Z)
  | .Rforce => let f := cLookup amp α rc R Z s; (f.1, f.2 * R)
  | .zforce => let f := cLookup amp α rc R Z s; (f.1, f.2 * Z)
  | .R2deriv => (s, cR2deriv amp α rc R Z)
  | .z2deriv => (s, cz2deriv amp α rc R Z)
  | .Rzderiv => (s, cRzderiv amp α rc R Z)
  | .dens => (s, cDens amp α rc R Z)

end Verif.PowerSphCut
