import Verif.Spec.Pot
import Mathlib.Analysis.SpecialFunctions.Trigonometric.Inverse

set_option autoImplicit false

/-!
# Equations of motion given to the integrators

`galpy/orbit/integrateFullOrbit.py`, `integratePlanarOrbit.py`, `integrateLinearOrbit.py`. A force
field may depend on the velocity `v = [vR, vT, vz]` (dissipative forces); for a potential the
argument is ignored.
-/

namespace Verif

/-- What `_evaluateRforces`, `_evaluatephitorques`, `_evaluatezforces` return; arguments
`R z phi t v`. -/
structure Force where
  R : ℝ → ℝ → ℝ → ℝ → (Fin 3 → ℝ) → ℝ
  phi : ℝ → ℝ → ℝ → ℝ → (Fin 3 → ℝ) → ℝ
  z : ℝ → ℝ → ℝ → ℝ → (Fin 3 → ℝ) → ℝ

/-- The force field of a potential. -/
def Pot.force (P : Pot) : Force where
  R := fun R z φ t _ => P.Rforce R z φ t
  phi := fun R z φ t _ => P.phitorque R z φ t
  z := fun R z φ t _ => P.zforce R z φ t

namespace EOM

/-- `_EOM`, integrateFullOrbit.py:1520-1558; `y = (R, vR, phi, phidot, z, vz)`. -/
noncomputable def full (F : Force) (t : ℝ) (y : Fin 6 → ℝ) : Fin 6 → ℝ :=
  let l2 := (y 0 ^ 2 * y 3) ^ 2;
  let v : Fin 3 → ℝ := ![y 1, y 0 * y 3, y 5];
  ![y 1, l2 / y 0 ^ 3 + F.R (y 0) (y 4) (y 2) t v, y 3,
    1 / y 0 ^ 2 * (F.phi (y 0) (y 4) (y 2) t v - 2 * y 0 * y 1 * y 3), y 5,
    F.z (y 0) (y 4) (y 2) t v]

/-- `_RZEOM`, integrateFullOrbit.py:1488-1517; `y = (R, vR, z, vz)`; the azimuth is not passed, for
the axisymmetric potentials this is used with its value does not matter (0 here). -/
noncomputable def rz (P : Pot) (l2 t : ℝ) (y : Fin 4 → ℝ) : Fin 4 → ℝ :=
  ![y 1, l2 / y 0 ^ 3 + P.Rforce (y 0) (y 2) 0 t, y 3, P.zforce (y 0) (y 2) 0 t]

/-- `_planarEOM`, integratePlanarOrbit.py:1894-1928; `y = (R, vR, phi, phidot)`. The planar force
of a potential is its force at `z = 0`; of `v` only `[vR, vT]` is passed. -/
noncomputable def planar (F : Force) (t : ℝ) (y : Fin 4 → ℝ) : Fin 4 → ℝ :=
  let l2 := (y 0 ^ 2 * y 3) ^ 2;
  let v : Fin 3 → ℝ := ![y 1, y 0 * y 3, 0];
  ![y 1, l2 / y 0 ^ 3 + F.R (y 0) 0 (y 2) t v, y 3,
    1 / y 0 ^ 2 * (F.phi (y 0) 0 (y 2) t v - 2 * y 0 * y 1 * y 3)]

/-- `_planarREOM`, integratePlanarOrbit.py:1865-1891; `y = (R, vR)`. -/
noncomputable def planarR (P : Pot) (l2 t : ℝ) (y : Fin 2 → ℝ) : Fin 2 → ℝ :=
  ![y 1, l2 / y 0 ^ 3 + P.Rforce (y 0) 0 0 t]

/-- `_linearEOM`, integrateLinearOrbit.py:377-400; `f` is `_evaluatelinearForces`. -/
def linear (f : ℝ → ℝ → ℝ) (t : ℝ) (y : Fin 2 → ℝ) : Fin 2 → ℝ := ![y 1, f (y 0) t]

/-- `_linearEOM_dxdv`, integrateLinearOrbit.py:596-624; `f2` is `_evaluatelinearForce2derivs`. -/
def linearDxdv (f f2 : ℝ → ℝ → ℝ) (t : ℝ) (y : Fin 4 → ℝ) : Fin 4 → ℝ :=
  ![y 1, f (y 0) t, y 3, -f2 (y 0) t * y 2]

open Classical in
/-- Azimuth of the point with rectangular coordinates `x, y` as computed in `_rectForce`,
integrateFullOrbit.py:1619-1624 (also 1666-1671 and integratePlanarOrbit.py:1954-1959, 2099-2104). -/
noncomputable def azimuth (x y : ℝ) : ℝ :=
  let R := √(x ^ 2 + y ^ 2);
  if y < 0 then 2 * Real.pi - Real.arccos (x / R) else Real.arccos (x / R)

/-- `_rectForce`, integrateFullOrbit.py:1594-1638, with a velocity `vx`. -/
noncomputable def rectForceV (F : Force) (t : ℝ) (x v : Fin 3 → ℝ) : Fin 3 → ℝ :=
  let R := √(x 0 ^ 2 + x 1 ^ 2);
  let φ := azimuth (x 0) (x 1);
  let s := x 1 / R;
  let c := x 0 / R;
  let w : Fin 3 → ℝ := ![v 0 * c + v 1 * s, -v 0 * s + v 1 * c, v 2];
  let FR := F.R R (x 2) φ t w;
  let Fp := F.phi R (x 2) φ t w;
  ![c * FR - 1 / R * s * Fp, s * FR + 1 / R * c * Fp, F.z R (x 2) φ t w]

/-- `_rectForce` without velocity, as the symplectic integrators call it. -/
noncomputable def rectForce (P : Pot) (t : ℝ) (x : Fin 3 → ℝ) : Fin 3 → ℝ :=
  rectForceV P.force t x 0

/-- `_planarRectForce`, integratePlanarOrbit.py:2073-2117. -/
noncomputable def planarRectForceV (F : Force) (t : ℝ) (x v : Fin 2 → ℝ) : Fin 2 → ℝ :=
  let R := √(x 0 ^ 2 + x 1 ^ 2);
  let φ := azimuth (x 0) (x 1);
  let s := x 1 / R;
  let c := x 0 / R;
  let w : Fin 3 → ℝ := ![v 0 * c + v 1 * s, -v 0 * s + v 1 * c, 0];
  let FR := F.R R 0 φ t w;
  let Fp := F.phi R 0 φ t w;
  ![c * FR - 1 / R * s * Fp, s * FR + 1 / R * c * Fp]

/-- `_SOSEOM`, integrateFullOrbit.py:1561-1591; `y = (x, vx, y, vy, A, t)`. -/
noncomputable def sos (F : Force) (psi : ℝ) (y : Fin 6 → ℝ) : Fin 6 → ℝ :=
  let sp := Real.sin psi;
  let cp := Real.cos psi;
  let z := y 4 * sp;
  let g := rectForceV F (y 5) ![y 0, y 2, z] ![y 1, y 3, y 4 * cp];
  let psidot := cp ^ 2 - sp / y 4 * g 2;
  let Adot := y 4 * cp * sp + g 2 * cp;
  ![y 1 / psidot, g 0 / psidot, y 3 / psidot, g 1 / psidot, Adot / psidot, 1 / psidot]

/-- `_planarSOSEOMx`, integratePlanarOrbit.py:2009-2037; `y = (y, vy, A, t)`. -/
noncomputable def sosX (F : Force) (psi : ℝ) (y : Fin 4 → ℝ) : Fin 4 → ℝ :=
  let sp := Real.sin psi;
  let cp := Real.cos psi;
  let g := planarRectForceV F (y 3) ![y 2 * sp, y 0] ![y 2 * cp, y 1];
  let psidot := cp ^ 2 - sp / y 2 * g 0;
  let Adot := y 2 * cp * sp + g 0 * cp;
  ![y 1 / psidot, g 1 / psidot, Adot / psidot, 1 / psidot]

/-- `_planarSOSEOMy`, integratePlanarOrbit.py:2040-2070; `y = (x, vx, A, t)`. -/
noncomputable def sosY (F : Force) (psi : ℝ) (y : Fin 4 → ℝ) : Fin 4 → ℝ :=
  let sp := Real.sin psi;
  let cp := Real.cos psi;
  let g := planarRectForceV F (y 3) ![y 0, y 2 * sp] ![y 1, y 2 * cp];
  let psidot := cp ^ 2 - sp / y 2 * g 1;
  let Adot := y 2 * cp * sp + g 1 * cp;
  ![y 1 / psidot, g 0 / psidot, Adot / psidot, 1 / psidot]

/-- The matrix of the deviation equations, `_EOM_dxdv`, integrateFullOrbit.py:1665-1711, rows and
columns in the order `x, y, z`. -/
noncomputable def tidal (P : Pot) (t : ℝ) (x : Fin 3 → ℝ) : Fin 3 → Fin 3 → ℝ :=
  let R := √(x 0 ^ 2 + x 1 ^ 2);
  let φ := azimuth (x 0) (x 1);
  let s := x 1 / R;
  let c := x 0 / R;
  let z := x 2;
  let Rforce := P.Rforce R z φ t;
  let phitorque := P.phitorque R z φ t;
  let R2 := P.R2deriv R z φ t;
  let p2 := P.phi2deriv R z φ t;
  let Rp := P.Rphideriv R z φ t;
  let z2 := P.z2deriv R z φ t;
  let Rz := P.Rzderiv R z φ t;
  let zp := P.phizderiv R z φ t;
  let dFxdx := -(c ^ 2) * R2 + 2 * c * s / R ^ 2 * phitorque + s ^ 2 / R * Rforce
    + 2 * s * c / R * Rp - s ^ 2 / R ^ 2 * p2;
  let dFxdy := -s * c * R2 + (s ^ 2 - c ^ 2) / R ^ 2 * phitorque - c * s / R * Rforce
    - (c ^ 2 - s ^ 2) / R * Rp + c * s / R ^ 2 * p2;
  let dFydy := -(s ^ 2) * R2 - 2 * s * c / R ^ 2 * phitorque - 2 * s * c / R * Rp
    + c ^ 2 / R * Rforce - c ^ 2 / R ^ 2 * p2;
  let dFxdz := -c * Rz + s / R * zp;
  let dFydz := -s * Rz - c / R * zp;
  let dFzdz := -z2;
  ![![dFxdx, dFxdy, dFxdz], ![dFxdy, dFydy, dFydz], ![dFxdz, dFydz, dFzdz]]

/-- `_EOM_dxdv`, integrateFullOrbit.py:1712-1728; `y = (x, v, dx, dv)` with three entries each. -/
noncomputable def dxdv (P : Pot) (t : ℝ) (y : (Fin 3 → ℝ) × (Fin 3 → ℝ) × (Fin 3 → ℝ) × (Fin 3 → ℝ)) :
    (Fin 3 → ℝ) × (Fin 3 → ℝ) × (Fin 3 → ℝ) × (Fin 3 → ℝ) :=
  let K := tidal P t y.1;
  let d := y.2.2.1;
  (y.2.1, rectForce P t y.1, y.2.2.2,
    fun i => K i 0 * d 0 + K i 1 * d 1 + K i 2 * d 2)

/-- The matrix in `_planarEOM_dxdv`, integratePlanarOrbit.py:1953-1994, where the four entries are
written out separately. -/
noncomputable def planarTidal (P : Pot) (t : ℝ) (x : Fin 2 → ℝ) : Fin 2 → Fin 2 → ℝ :=
  let R := √(x 0 ^ 2 + x 1 ^ 2);
  let φ := azimuth (x 0) (x 1);
  let s := x 1 / R;
  let c := x 0 / R;
  let Rforce := P.Rforce R 0 φ t;
  let phitorque := P.phitorque R 0 φ t;
  let R2 := P.R2deriv R 0 φ t;
  let p2 := P.phi2deriv R 0 φ t;
  let Rp := P.Rphideriv R 0 φ t;
  let dFxdx := -(c ^ 2) * R2 + 2 * c * s / R ^ 2 * phitorque + s ^ 2 / R * Rforce
    + 2 * s * c / R * Rp - s ^ 2 / R ^ 2 * p2;
  let dFxdy := -s * c * R2 + (s ^ 2 - c ^ 2) / R ^ 2 * phitorque - c * s / R * Rforce
    - (c ^ 2 - s ^ 2) / R * Rp + c * s / R ^ 2 * p2;
  let dFydx := -c * s * R2 + (s ^ 2 - c ^ 2) / R ^ 2 * phitorque + (s ^ 2 - c ^ 2) / R * Rp
    - s * c / R * Rforce + s * c / R ^ 2 * p2;
  let dFydy := -(s ^ 2) * R2 - 2 * s * c / R ^ 2 * phitorque - 2 * s * c / R * Rp
    + c ^ 2 / R * Rforce - c ^ 2 / R ^ 2 * p2;
  ![![dFxdx, dFxdy], ![dFydx, dFydy]]

/-- `_planarEOM_dxdv`, integratePlanarOrbit.py:1995-2006; `y = (x, v, dx, dv)` with two entries
each. -/
noncomputable def planarDxdv (P : Pot) (t : ℝ)
    (y : (Fin 2 → ℝ) × (Fin 2 → ℝ) × (Fin 2 → ℝ) × (Fin 2 → ℝ)) :
    (Fin 2 → ℝ) × (Fin 2 → ℝ) × (Fin 2 → ℝ) × (Fin 2 → ℝ) :=
  let K := planarTidal P t y.1;
  let d := y.2.2.1;
  (y.2.1, planarRectForceV P.force t y.1 0, y.2.2.2, fun i => K i 0 * d 0 + K i 1 * d 1)

end EOM

end Verif
