import Mathlib.Analysis.SpecialFunctions.Trigonometric.Basic
import Mathlib.LinearAlgebra.CrossProduct
import Verif.Model.Orbit

set_option autoImplicit false

/-!
# Phase-space states of an orbit and the quantities computed from them

One row of `Orbit.vxvv`, or of the stored trajectory, has 2 to 6 entries (`phasedim`). The methods
of `Orbit` are transcribed for one row; the code applies them to every row. The potential is given
by its evaluation functions at the three dimensions, which may raise.
-/

namespace Verif.Orb

/-- A row of `vxvv`: `[x,v]`, `[R,vR,vT]`, `[R,vR,vT,phi]`, `[R,vR,vT,z,vz]`,
`[R,vR,vT,z,vz,phi]`. Orbits.py:298-340 (documentation of `vxvv`). -/
inductive State
  | lin (x v : ℝ)
  | pl3 (R vR vT : ℝ)
  | pl4 (R vR vT phi : ℝ)
  | fu5 (R vR vT z vz : ℝ)
  | fu6 (R vR vT z vz phi : ℝ)

namespace State

/-- The row itself. -/
def row : State → List ℝ
  | lin x v => [x, v]
  | pl3 R vR vT => [R, vR, vT]
  | pl4 R vR vT phi => [R, vR, vT, phi]
  | fu5 R vR vT z vz => [R, vR, vT, z, vz]
  | fu6 R vR vT z vz phi => [R, vR, vT, z, vz, phi]

/-- The new row of `flip()`, Orbits.py:2809-2858. -/
def flip : State → State
  | lin x v => lin x (-v)
  | pl3 R vR vT => pl3 R (-vR) (-vT)
  | pl4 R vR vT phi => pl4 R (-vR) (-vT) phi
  | fu5 R vR vT z vz => fu5 R (-vR) (-vT) z (-vz)
  | fu6 R vR vT z vz phi => fu6 R (-vR) (-vT) z (-vz) phi

/-- The assignments of `flip(inplace=True)` on one row, Orbits.py:2789-2793 and 2795-2799. -/
def flipRow (x : List ℝ) : List ℝ :=
  let y := x.modify 1 (- ·);
  let y := if 2 < x.length then y.modify 2 (- ·) else y;
  if 4 < x.length then y.modify 4 (- ·) else y

/-- `x()`, Orbits.py:4813-4819. -/
noncomputable def x : State → Except Err ℝ
  | lin x _ => .ok x
  | pl4 R _ _ phi => .ok (R * Real.cos phi)
  | fu6 R _ _ _ _ phi => .ok (R * Real.cos phi)
  | _ => .error .attributeError

/-- `y()`, Orbits.py:4848-4852. -/
noncomputable def y : State → Except Err ℝ
  | pl4 R _ _ phi => .ok (R * Real.sin phi)
  | fu6 R _ _ _ _ phi => .ok (R * Real.sin phi)
  | _ => .error .attributeError

/-- `z()`, Orbits.py:4726-4728. -/
def z : State → Except Err ℝ
  | fu5 _ _ _ z _ => .ok z
  | fu6 _ _ _ z _ _ => .ok z
  | _ => .error .attributeError

/-- `vx()`, Orbits.py:4881-4887. -/
noncomputable def vx : State → Except Err ℝ
  | lin _ v => .ok v
  | pl4 _ vR vT phi => .ok (vR * Real.cos phi - vT * Real.sin phi)
  | fu6 _ vR vT _ _ phi => .ok (vR * Real.cos phi - vT * Real.sin phi)
  | _ => .error .attributeError

/-- `vy()`, Orbits.py:4916-4920. -/
noncomputable def vy : State → Except Err ℝ
  | pl4 _ vR vT phi => .ok (vT * Real.cos phi + vR * Real.sin phi)
  | fu6 _ vR vT _ _ phi => .ok (vT * Real.cos phi + vR * Real.sin phi)
  | _ => .error .attributeError

/-- `vz()`, Orbits.py:4757-4759. -/
def vz : State → Except Err ℝ
  | fu5 _ _ _ _ vz => .ok vz
  | fu6 _ _ _ _ vz _ => .ok vz
  | _ => .error .attributeError

/-- `Lz()`, Orbits.py:3206-3207. -/
def Lz : State → Except Err ℝ
  | lin _ _ => .error .indexError
  | pl3 R _ vT => .ok (R * vT)
  | pl4 R _ vT _ => .ok (R * vT)
  | fu5 R _ vT _ _ => .ok (R * vT)
  | fu6 R _ vT _ _ _ => .ok (R * vT)

/-- `L()` of an orbit with three dimensions and azimuth, Orbits.py:3152-3174; the planar case of
that method returns `Lz`. -/
noncomputable def L (s : State) : Except Err (Fin 3 → ℝ) :=
  match s with
  | fu6 .. => do
    let vx ← s.vx
    let vy ← s.vy
    let vz ← s.vz
    let x ← s.x
    let y ← s.y
    let z ← s.z
    .ok ![y * vz - z * vy, z * vx - x * vz, x * vy - y * vx]
  | _ => .error .attributeError

end State

/-- The evaluation functions of a potential that `E` calls: `evaluatelinearPotentials(pot, x, t)`,
`evaluateplanarPotentials(pot, R, phi, t)`, `evaluatePotentials(pot, R, z, phi, t)`; `none` is an
azimuth that is not passed. -/
structure PotEval where
  lin : ℝ → ℝ → Except Err ℝ
  planar : ℝ → Option ℝ → ℝ → Except Err ℝ
  full : ℝ → ℝ → Option ℝ → ℝ → Except Err ℝ

/-- `E(t, pot)` with the factors `_z`, `_vz` of `ER` and `Ez`, Orbits.py:2927-3112. The
`except (ValueError, ...)` arms repeat the computation entry by entry and are not modelled. -/
noncomputable def energyWith (zf vzf : ℝ) (pe : PotEval) (t : ℝ) : State → Except Err ℝ
  | .lin x v => do
    let p ← pe.lin x t
    .ok (p + v ^ 2 / 2)
  | .pl3 R vR vT => do
    let p ← pe.planar R none t
    .ok (p + vR ^ 2 / 2 + vT ^ 2 / 2)
  | .pl4 R vR vT phi => do
    let p ← pe.planar R (some phi) t
    .ok (p + vR ^ 2 / 2 + vT ^ 2 / 2)
  | .fu5 R vR vT z vz => do
    let p ← pe.full R (zf * z) none t
    .ok (p + vR ^ 2 / 2 + vT ^ 2 / 2 + (vzf * vz) ^ 2 / 2)
  | .fu6 R vR vT z vz phi => do
    let p ← pe.full R (zf * z) (some phi) t
    .ok (p + vR ^ 2 / 2 + vT ^ 2 / 2 + (vzf * vz) ^ 2 / 2)

/-- `E()`, Orbits.py:2902-3112. -/
noncomputable def energy (pe : PotEval) (t : ℝ) (s : State) : Except Err ℝ := energyWith 1 1 pe t s

/-- `ER()`, Orbits.py:3236-3251. -/
noncomputable def energyR (pe : PotEval) (t : ℝ) (s : State) : Except Err ℝ := energyWith 0 0 pe t s

/-- `Ez()`, Orbits.py:3280-3296. -/
noncomputable def energyZ (pe : PotEval) (t : ℝ) (s : State) : Except Err ℝ := do
  let tE ← energyWith 1 1 pe t s
  let e ← energyWith 0 0 pe t s
  .ok (tE - e)

/-- The pattern speed `Jacobi` uses: the argument, else that of the first member of the potential
that has one, else 1. Orbits.py:3328-3345. -/
def patternSpeed (arg : Option ℝ) (members : List (Option ℝ)) : ℝ :=
  match arg with
  | some om => om
  | none => (members.findSome? id).getD 1

/-- `Jacobi(OmegaP=number)`, Orbits.py:3365. -/
noncomputable def jacobi (om : ℝ) (pe : PotEval) (t : ℝ) (s : State) : Except Err ℝ := do
  let e ← energy pe t s
  let l ← s.Lz
  .ok (e - om * l)

/-- `Jacobi(OmegaP=[ox,oy,oz])` for an orbit with three dimensions and azimuth,
Orbits.py:3354-3363. -/
noncomputable def jacobiVec (om : Fin 3 → ℝ) (pe : PotEval) (t : ℝ) (s : State) : Except Err ℝ := do
  let l ← s.L
  let e ← energy pe t s
  .ok (e - (om 0 * l 0 + om 1 * l 1 + om 2 * l 2))

/-! ### Output of the Python ODE integrators -/

/-- Conversion of one output row of the ODE solver to a state, `integrateFullOrbit` with azimuth,
integrateFullOrbit.py:1176-1188: the solver's row is `(R, vR, phi, phidot, z, vz)`, the row built
from it `(R, R', R phi', z, z', phi)`, and where `R < 0` entry 0 is negated and `pi` is added to
entry 3. -/
noncomputable def postFull6 (R vR phi phidot z vz : ℝ) : State :=
  if R < 0 then .fu6 (-R) vR (R * phidot) (z + Real.pi) vz phi
  else .fu6 R vR (R * phidot) z vz phi

/-- The same without azimuth, integrateFullOrbit.py:1134-1175: the row is
`(R, R', l/R, z, z')`; where `R < 0` only entry 0 is negated. -/
noncomputable def postFull5 (l R vR z vz : ℝ) : State :=
  if R < 0 then .fu5 (-R) vR (l / R) z vz else .fu5 R vR (l / R) z vz

/-- `integratePlanarOrbit` with azimuth, integratePlanarOrbit.py:1353-1370: the solver's row is
`(R, vR, phi, phidot)`; where `R < 0` entry 0 is negated and `pi` is added to entry 3. -/
noncomputable def postPlanar4 (R vR phi phidot : ℝ) : State :=
  if R < 0 then .pl4 (-R) vR (R * phidot) (phi + Real.pi) else .pl4 R vR (R * phidot) phi

/-- `integratePlanarOrbit` without azimuth, integratePlanarOrbit.py:1316-1350. -/
noncomputable def postPlanar3 (l R vR : ℝ) : State :=
  if R < 0 then .pl3 (-R) vR (l / R) else .pl3 R vR (l / R)

/-! ### Time grids -/

/-- `numpy.linspace(a, b, n)` for `n ≥ 1`; the last entry is set to `b`. -/
noncomputable def linspace (a b : ℝ) (n : Nat) : List ℝ :=
  (List.range n).map fun i : Nat =>
    if i = 0 then a else if i + 1 = n then b else a + i * ((b - a) / ((n : ℝ) - 1))

open Classical in
/-- `_generate_auto_time_array(pot, N)` for an orbit object of dimension `dim` whose largest radius
is `r` and dynamical time `tdyn`, Orbits.py:1591-1622. -/
noncomputable def autoTimes (dim : Nat) (r : ℝ) (tdyn : Except Err ℝ) (N : ℤ) : Except Err (List ℝ) :=
  if dim = 1 then .error .valueError
  else if r < 1e-10 then .error .valueError
  else do
    let td ← tdyn
    .ok (linspace 0 (N * td) (101 * N.natAbs + 1))

end Verif.Orb
