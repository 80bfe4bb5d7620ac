import Verif.Util.Erf
import Verif.Model.Pot.RadialProfiles
import Verif.Model.DF.Spherical

set_option autoImplicit false

/-!
# `kingdf` and `KingPotential`

Transcription of `galpy/df/kingdf.py` and `galpy/potential/KingPotential.py`, without units.  Outside: `solve_ivp` (an argument, the
theorems take an exact solver), the splines (functions that are arguments), sampling.  The method `_dens_W` is an argument `dens` of
the solution of the model; it is `densW` for King's model.  `fE` is for one energy (an array of any shape in the code).
-/

noncomputable section
namespace Verif.King
open Real

/-- `_dens_W`, kingdf.py:183-188. -/
def densW (W : ℝ) : ℝ :=
  let sqW := √W;
  exp W * erf sqW - 2 / √π * sqW * (1 + 2 / 3 * W)

/-! ### `_scalefreekingdf` -/

/-- The right-hand side of the first system, 135-138. -/
def rhs1 (dens : ℝ → ℝ) (t : ℝ) (y : ℝ × ℝ) : ℝ × ℝ := (y.2, -(4 * π) * dens y.1 - (if t > 0 then 2 * y.2 / t else 0))

/-- The right-hand side of the second system, 152-155. -/
def rhs2 (dens : ℝ → ℝ) (t : ℝ) (y : ℝ × ℝ) : ℝ × ℝ := (1 / y.2, -1 / y.2 * (4 * π * dens t + 2 * y.2 / y.1))

/-- `rho0`, 123. -/
def rho0 (dens : ℝ → ℝ) (W0 : ℝ) : ℝ := dens W0

/-- `r0`, 124. -/
def r0 (dens : ℝ → ℝ) (W0 : ℝ) : ℝ := √(9 / 4 / π / rho0 dens W0)

/-- `rbreak`, 127-130. -/
def rbreak (dens : ℝ → ℝ) (W0 : ℝ) : ℝ := if W0 < 2 then r0 dens W0 / 100 else r0 dens W0

/-- `numpy.linspace(a, b, n)[i]`. -/
def linspace (a b : ℝ) (n i : ℕ) : ℝ := a + i * ((b - a) / (n - 1))

/-- `solve_ivp(f, [t0, .], y0)`, evaluated at `t`. -/
abbrev Solver := (ℝ → ℝ × ℝ → ℝ × ℝ) → ℝ → ℝ × ℝ → ℝ → ℝ × ℝ

/-- The first solution, 134-143. -/
def sol1 (S : Solver) (dens : ℝ → ℝ) (W0 : ℝ) : ℝ → ℝ × ℝ := S (rhs1 dens) 0 (W0, 0)

/-- The second solution, 151-160: it starts at the last point of the first. -/
def sol2 (S : Solver) (dens : ℝ → ℝ) (W0 : ℝ) : ℝ → ℝ × ℝ :=
  S (rhs2 dens) (sol1 S dens W0 (rbreak dens W0)).1 (rbreak dens W0, (sol1 S dens W0 (rbreak dens W0)).2)

/-- `_W`, 144 and 150. -/
def arrW (S : Solver) (dens : ℝ → ℝ) (W0 : ℝ) (npt i : ℕ) : ℝ :=
  if i < npt / 2 - 1 then (sol1 S dens W0 (linspace 0 (rbreak dens W0) (npt / 2) i)).1
  else linspace (sol1 S dens W0 (rbreak dens W0)).1 0 (npt - npt / 2 + 1) (i - (npt / 2 - 1))

/-- `_r`, 133 and 161. -/
def arrR (S : Solver) (dens : ℝ → ℝ) (W0 : ℝ) (npt i : ℕ) : ℝ :=
  if i < npt / 2 - 1 then linspace 0 (rbreak dens W0) (npt / 2) i else (sol2 S dens W0 (arrW S dens W0 npt i)).1

/-- `_dWdr`, 145 and 162. -/
def arrdW (S : Solver) (dens : ℝ → ℝ) (W0 : ℝ) (npt i : ℕ) : ℝ :=
  if i < npt / 2 - 1 then (sol1 S dens W0 (linspace 0 (rbreak dens W0) (npt / 2) i)).2 else (sol2 S dens W0 (arrW S dens W0 npt i)).2

/-- `rt`, 169. -/
def sfRt (S : Solver) (dens : ℝ → ℝ) (W0 : ℝ) (npt : ℕ) : ℝ := arrR S dens W0 npt (npt - 1)

/-- The loop raising decreasing entries, 175-179; `eps` is the spacing of floating-point numbers. -/
def raise (eps : ℝ) (c : ℕ → ℝ) : ℕ → ℝ
  | 0 => c 0
  | i + 1 => if c (i + 1) < raise eps c i then raise eps c i + 2 * eps else c (i + 1)

/-- `_cumul_mass`, 174-179. -/
def cumulMass (eps : ℝ) (S : Solver) (dens : ℝ → ℝ) (W0 : ℝ) (npt : ℕ) : ℕ → ℝ :=
  raise eps fun i => -arrdW S dens W0 npt i * arrR S dens W0 npt i ^ 2

/-- `mass`, 180. -/
def sfMass (eps : ℝ) (S : Solver) (dens : ℝ → ℝ) (W0 : ℝ) (npt : ℕ) : ℝ := cumulMass eps S dens W0 npt (npt - 1)

/-! ### `kingdf` and `KingPotential` -/

/-- What `kingdf.__init__` and `KingPotential.__init__` take from the scale-free model (mass and tidal radius), and their arguments;
`W` and `dW` are the splines through `_W` and `_dWdr`. -/
structure Par where
  W0 : ℝ
  M : ℝ
  rt : ℝ
  sfMass : ℝ
  sfRt : ℝ
  W : ℝ → ℝ
  dW : ℝ → ℝ

/-- `_radius_scale`, kingdf.py:57-60, KingPotential.py:60-61. -/
def Par.radiusScale (p : Par) : ℝ := p.rt / p.sfRt
/-- `_mass_scale`, kingdf.py:57-60, KingPotential.py:60-61. -/
def Par.massScale (p : Par) : ℝ := p.M / p.sfMass
/-- `_velocity_scale`, kingdf.py:57-60. -/
def Par.velocityScale (p : Par) : ℝ := √(p.massScale / p.radiusScale)
/-- `_density_scale`, kingdf.py:57-60. -/
def Par.densityScale (p : Par) : ℝ := p.massScale / p.radiusScale ^ 3

/-- `rho0`, kingdf.py:62-67. -/
def Par.rho0 (p : Par) : ℝ := King.rho0 densW p.W0 * p.densityScale
/-- `r0`, kingdf.py:62-67. -/
def Par.r0 (p : Par) : ℝ := King.r0 densW p.W0 * p.radiusScale
/-- `sigma`, kingdf.py:62-67. -/
def Par.sigma (p : Par) : ℝ := p.velocityScale
/-- `_sigma2`, kingdf.py:62-67. -/
def Par.sigma2 (p : Par) : ℝ := p.sigma ^ 2
/-- `rho1`, kingdf.py:62-67. -/
def Par.rho1 (p : Par) : ℝ := p.densityScale

/-- What `KingPotential` hands to `interpSphericalPotential`, KingPotential.py:65-76: values at the grid points of the force are those
of the derivative, rescaled; its spline is the rescaled spline. -/
def Par.obj (p : Par) : InterpSph.Obj :=
  ⟨fun r => p.massScale / p.radiusScale ^ 2 * p.dW (r / p.radiusScale), 0, p.sfRt * p.radiusScale, -p.W0 * p.massScale / p.radiusScale - p.M / p.rt⟩

/-- The potential. -/
def Par.pot (p : Par) : Pot := InterpSph.pot p.obj

/-- `_potInf`, kingdf.py:79. -/
def Par.potInf (p : Par) : ℝ := p.pot.val p.rt 0 0 0

/-- `dens`, kingdf.py:92-93 and 190-191. -/
def Par.dens (p : Par) (r : ℝ) : ℝ := densW (p.W (r / p.radiusScale)) * p.densityScale

/-- `fE`, kingdf.py:95-104. -/
def Par.fE (p : Par) (E : ℝ) : ℝ :=
  let varE := p.potInf - E;
  if varE > 0 then (exp (varE / p.sigma2) - 1) * (2 * π * p.sigma2) ^ (-1.5 : ℝ) * p.rho1 else 0

/-- The potential at the largest radius of `sphericaldf`, `rmax = rt`, used for the largest velocity (sphericaldf.py:612-622). -/
def Par.phiMax (p : Par) : ℝ := p.pot.val (p.rt + 1e-10) 0 0 0

end Verif.King
