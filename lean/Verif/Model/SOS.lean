import Verif.Model.EOM
import Verif.Model.Coords

set_option autoImplicit false

/-!
# Surfaces of section

`Orbit.integrate_SOS`, `Orbit.SOS` and `Orbit.bruteSOS` (`galpy/orbit/Orbits.py`), the coordinates in
which they integrate (`integrateFullOrbit.py`, `integratePlanarOrbit.py`, `galpy/util/bovy_coords.c`)
and the C right-hand sides (`orbit_c_ext/integrateFullOrbit.c`, `integratePlanarOrbit.c`). The Python
right-hand sides are `EOM.sos`, `EOM.sosX`, `EOM.sosY`. C functions that work in place are modelled
by the value of the array afterwards.
-/

namespace Verif.SOS
open Coords Real

noncomputable section

/-! ## Coordinates -/

/-- The starting angle, integrateFullOrbit.py:1429; a row is `(R, vR, vT, z, vz, phi)`. -/
def initPsi (v : Fin 6 → ℝ) : ℝ := atan2 (v 3) (v 4)

/-- `(x, vx, y, vy, A, t)` of a row, integrateFullOrbit.py:1430-1439. -/
def init (v : Fin 6 → ℝ) (t0 : ℝ) : Fin 6 → ℝ :=
  ![v 0 * cos (v 5), v 1 * cos (v 5) - v 2 * sin (v 5), v 0 * sin (v 5),
    v 2 * cos (v 5) + v 1 * sin (v 5), √(v 3 ^ 2 + v 4 ^ 2), t0]

/-- The row of a point of the solution, integrateFullOrbit.py:1445-1455 (columns 0-5). -/
def back (y : Fin 6 → ℝ) (psi : ℝ) : Fin 6 → ℝ :=
  let phi := atan2 (y 2) (y 0);
  ![√(y 0 ^ 2 + y 2 ^ 2), y 1 * cos phi + y 3 * sin phi, y 3 * cos phi - y 1 * sin phi,
    y 4 * sin psi, y 4 * cos psi, phi]

/-- `cyl_to_sos_galpy`, bovy_coords.c:149-163: `(R, vR, vT, z, vz, phi, t)` to
`(x, y, vx, vy, A, t, psi)`. -/
def cylToSos (v : Fin 7 → ℝ) : Fin 7 → ℝ :=
  ![v 0 * cos (v 5), v 0 * sin (v 5), v 1 * cos (v 5) - v 2 * sin (v 5),
    v 1 * sin (v 5) + v 2 * cos (v 5), √(v 3 * v 3 + v 4 * v 4), v 6, atan2 (v 3) (v 4)]

/-- `sos_to_cyl_galpy`, bovy_coords.c:173-189. -/
def sosToCyl (q : Fin 7 → ℝ) : Fin 7 → ℝ :=
  let phi := atan2 (q 1) (q 0);
  ![√(q 0 * q 0 + q 1 * q 1), q 2 * cos phi + q 3 * sin phi, -q 2 * sin phi + q 3 * cos phi,
    q 4 * sin (q 6), q 4 * cos (q 6), phi, q 5]

/-- `evalSOSDeriv`, integrateFullOrbit.c:1353-1391; `q = (x, y, vx, vy, A, t, psi)`. -/
def derivC (F : Force) (q : Fin 7 → ℝ) : Fin 7 → ℝ :=
  let R := √(q 0 * q 0 + q 1 * q 1);
  let phi := atan2 (q 1) (q 0);
  let s := q 1 / R;
  let c := q 0 / R;
  let z := q 4 * sin (q 6);
  let w : Fin 3 → ℝ := ![q 2 * c + q 3 * s, -q 2 * s + q 3 * c, q 4 * cos (q 6)];
  let Rf := F.R R z phi (q 5) w;
  let pt := F.phi R z phi (q 5) w;
  let a3 := c * Rf - 1 / R * s * pt;
  let a4 := s * Rf + 1 / R * c * pt;
  let a5 := F.z R z phi (q 5) w;
  let psidot := cos (q 6) * cos (q 6) - sin (q 6) * a5 / q 4;
  ![q 2 / psidot, q 3 / psidot, a3 / psidot, a4 / psidot,
    cos (q 6) * (q 4 * sin (q 6) + a5) / psidot, 1 / psidot, 1]

/-- The starting angle for the surface `x = 0`, integratePlanarOrbit.py:1771-1773; a row is
`(R, vR, vT, phi)`. -/
def initPsiX (v : Fin 4 → ℝ) : ℝ :=
  atan2 (v 0 * cos (v 3)) (v 1 * cos (v 3) - v 2 * sin (v 3))

/-- `(y, vy, A, t)`, integratePlanarOrbit.py:1774-1781. -/
def initX (v : Fin 4 → ℝ) (t0 : ℝ) : Fin 4 → ℝ :=
  ![v 0 * sin (v 3), v 2 * cos (v 3) + v 1 * sin (v 3),
    √((v 0 * cos (v 3)) ^ 2 + (v 1 * cos (v 3) - v 2 * sin (v 3)) ^ 2), t0]

/-- The starting angle for the surface `y = 0`, integratePlanarOrbit.py:1796-1798. -/
def initPsiY (v : Fin 4 → ℝ) : ℝ :=
  atan2 (v 0 * sin (v 3)) (v 2 * cos (v 3) + v 1 * sin (v 3))

/-- `(x, vx, A, t)`, integratePlanarOrbit.py:1799-1806. -/
def initY (v : Fin 4 → ℝ) (t0 : ℝ) : Fin 4 → ℝ :=
  ![v 0 * cos (v 3), v 1 * cos (v 3) - v 2 * sin (v 3),
    √((v 0 * sin (v 3)) ^ 2 + (v 2 * cos (v 3) + v 1 * sin (v 3)) ^ 2), t0]

/-- The row of rectangular coordinates, integratePlanarOrbit.py:1820-1824. -/
def backRect (x y vx vy : ℝ) : Fin 4 → ℝ :=
  let phi := atan2 y x;
  ![√(x ^ 2 + y ^ 2), vx * cos phi + vy * sin phi, vy * cos phi - vx * sin phi, phi]

/-- integratePlanarOrbit.py:1791-1794 and 1820-1824. -/
def backX (y : Fin 4 → ℝ) (psi : ℝ) : Fin 4 → ℝ :=
  backRect (y 2 * sin psi) (y 0) (y 2 * cos psi) (y 1)

/-- integratePlanarOrbit.py:1816-1824. -/
def backY (y : Fin 4 → ℝ) (psi : ℝ) : Fin 4 → ℝ :=
  backRect (y 0) (y 2 * sin psi) (y 1) (y 2 * cos psi)

/-- `polar_to_sos_galpy`, bovy_coords.c:200-224: `(R, vR, vT, phi, t)` to `(x, vx, A, t, psi)` for the
surface `y = 0` (`surface == 1`), to `(y, vy, A, t, psi)` otherwise. -/
def polarToSos (v : Fin 5 → ℝ) (surfaceY : Bool) : Fin 5 → ℝ :=
  let x := v 0 * cos (v 3);
  let y := v 0 * sin (v 3);
  let vx := v 1 * cos (v 3) - v 2 * sin (v 3);
  let vy := v 1 * sin (v 3) + v 2 * cos (v 3);
  if surfaceY then ![x, vx, √(y * y + vy * vy), v 4, atan2 y vy]
  else ![y, vy, √(x * x + vx * vx), v 4, atan2 x vx]

/-- `sos_to_polar_galpy`, bovy_coords.c:235-256. -/
def sosToPolar (q : Fin 5 → ℝ) (surfaceY : Bool) : Fin 5 → ℝ :=
  let x := if surfaceY then q 0 else q 2 * sin (q 4);
  let vx := if surfaceY then q 1 else q 2 * cos (q 4);
  let y := if surfaceY then q 2 * sin (q 4) else q 0;
  let vy := if surfaceY then q 2 * cos (q 4) else q 1;
  let phi := atan2 y x;
  ![√(x * x + y * y), vx * cos phi + vy * sin phi, -vx * sin phi + vy * cos phi, phi, q 3]

/-- `evalPlanarSOSDerivx`, integratePlanarOrbit.c:1056-1088; `q = (y, vy, A, t, psi)`. -/
def derivXC (F : Force) (q : Fin 5 → ℝ) : Fin 5 → ℝ :=
  let x := q 2 * sin (q 4);
  let y := q 0;
  let R := √(x * x + y * y);
  let phi := atan2 y x;
  let s := y / R;
  let c := x / R;
  let w : Fin 3 → ℝ := ![q 2 * cos (q 4) * c + q 1 * s, -q 2 * cos (q 4) * s + q 1 * c, 0];
  let Rf := F.R R 0 phi (q 3) w;
  let pt := F.phi R 0 phi (q 3) w;
  let a2 := c * Rf - 1 / R * s * pt;
  let a3 := s * Rf + 1 / R * c * pt;
  let psidot := cos (q 4) * cos (q 4) - sin (q 4) * a2 / q 2;
  ![q 1 / psidot, a3 / psidot, cos (q 4) * (q 2 * sin (q 4) + a2) / psidot, 1 / psidot, 1]

/-- `evalPlanarSOSDerivy`, integratePlanarOrbit.c:1090-1122; `q = (x, vx, A, t, psi)`. -/
def derivYC (F : Force) (q : Fin 5 → ℝ) : Fin 5 → ℝ :=
  let x := q 0;
  let y := q 2 * sin (q 4);
  let R := √(x * x + y * y);
  let phi := atan2 y x;
  let s := y / R;
  let c := x / R;
  let w : Fin 3 → ℝ := ![q 1 * c + q 2 * cos (q 4) * s, -q 1 * s + q 2 * cos (q 4) * c, 0];
  let Rf := F.R R 0 phi (q 3) w;
  let pt := F.phi R 0 phi (q 3) w;
  let a2 := c * Rf - 1 / R * s * pt;
  let a3 := s * Rf + 1 / R * c * pt;
  let psidot := cos (q 4) * cos (q 4) - sin (q 4) * a3 / q 2;
  ![q 1 / psidot, a2 / psidot, cos (q 4) * (q 2 * sin (q 4) + a3) / psidot, 1 / psidot, 1]

/-! ## The driver

A row is of an arbitrary type; `pos` and `vel` are the coordinate whose zero is the surface and its
velocity (`z, vz` in three dimensions, `x, vx` or `y, vy` in two). -/

inductive Err where
  /-- "An orbit appears to be within the SOS surface" -/
  | within
  /-- "SOS integration failed (time does not monotonically increase with increasing psi)" -/
  | assertion
  /-- `len()` of a float -/
  | typeError
  deriving DecidableEq

/-- The attributes of the object that take part. -/
structure Obj (S : Type) where
  vxvv : List S
  orbit : List (List S)
  t : List (List ℝ)

/-- The `t0` argument. -/
inductive T0 where
  | scalar (t : ℝ)
  | array (ts : List ℝ)

/-- The starting time of each orbit: `t0[0] if len(t0) == 1 else t0[ii]` for several orbits in
Python (integrateFullOrbit.py:1474, integratePlanarOrbit.py:1851), `t0` itself for one (1467, 1844);
`numpy.atleast_1d` in C (integrateFullOrbit.py:1268-1274). An array that is too short is
an error in both (`typeError` stands for it). -/
def startTimes (python : Bool) (n : ℕ) : T0 → Except Err (List ℝ)
  | .scalar t => if python && n != 1 then .error .typeError else .ok (List.replicate n t)
  | .array [t] => .ok (List.replicate n t)
  | .array ts => if ts.length = n then .ok ts else .error .typeError

/-- All consecutive differences of times and angles have the same sign, Orbits.py:2267-2273. -/
def forward : List ℝ → List ℝ → Prop
  | t₁ :: t₂ :: ts, p₁ :: p₂ :: ps => (t₂ - t₁) * (p₂ - p₁) > 0 ∧ forward (t₂ :: ts) (p₂ :: ps)
  | _, _ => True

open Classical in
/-- `integrate_SOS`, Orbits.py:2103-2274: one list of angle increments per orbit (a common list is
repeated). `I` is the numerical integration of one orbit: increments, row, starting time to rows with
times. The result is stored before the times are checked. -/
def integrateSOS {S : Type} (I : List ℝ → S → ℝ → List (S × ℝ)) (python : Bool) (psis : List (List ℝ))
    (t0 : T0) (o : Obj S) : Except Err Unit × Obj S :=
  match startTimes python o.vxvv.length t0 with
  | .error e => (.error e, o)
  | .ok ts =>
    let out := List.zipWith (fun p q => I p.1 p.2 q) (List.zip psis o.vxvv) ts;
    let o' := { o with orbit := out.map (List.map Prod.fst), t := out.map (List.map Prod.snd) };
    if ∀ p ∈ List.zip o'.t psis, forward p.1 p.2 then (.ok (), o') else (.error .assertion, o')

/-- Python's `x % y` for positive `y`. -/
def pmod (x y : ℝ) : ℝ := x - y * ⌊x / y⌋

/-- `numpy.linspace(0.0, b, 101)`. -/
def linspace101 (b : ℝ) : List ℝ := (List.range 101).map fun i : ℕ => (i : ℝ) * (b / 100)

/-- Every `k`-th element, `l[::k]`. -/
def everyNth {S : Type} (k : ℕ) (l : List S) : List S :=
  (List.range ((l.length + k - 1) / k)).filterMap fun i => l[k * i]?

open Classical in
/-- `SOS`, Orbits.py:6134-6307. `fixed` is `method == "rk4_c" or method == "rk6_c"`. The returned pair
of coordinates is read from the stored rows, so the rows are returned here. An error of
`integrate_SOS` leaves the object as it is at that moment. -/
def run {S : Type} (I : List ℝ → S → ℝ → List (S × ℝ)) (pos vel : S → ℝ) (python fixed : Bool)
    (ncross skip : ℕ) (t0 : T0) (o : Obj S) : Except Err (List (List S)) × Obj S :=
  let init := o.vxvv.map fun s => atan2 (pos s) (vel s);
  if ∃ s ∈ o.vxvv, vel s = 0 ∧ |pmod (atan2 (pos s) (vel s)) π| ≤ 1e-10 then (.error .within, o)
  else
    let off : Bool := decide (∃ p ∈ init, |p| > 1e-10);
    let init' := if off then init.map fun p => pmod (p + 2 * π) (2 * π) else init;
    let r₁ := if off then integrateSOS I python (init'.map fun p => linspace101 (2 * π - p)) t0 o
      else (.ok (), o);
    match r₁ with
    | (.error e, o₁) => (.error e, o₁)
    | (.ok (), o₁) =>
      let o₁' := if off then { o₁ with vxvv := o₁.orbit.filterMap List.getLast? } else o₁;
      let iskip := if fixed then skip else 1;
      let psis := (List.range (ncross * iskip)).map fun i : ℕ => (i : ℝ) * 2 * π / iskip;
      match integrateSOS I python (List.replicate o₁'.vxvv.length psis) t0 o₁' with
      | (.error e, o₂) => (.error e, o₂)
      | (.ok (), o₂) =>
        let o₃ := { o₂ with t := o₂.t.map (everyNth iskip), orbit := o₂.orbit.map (everyNth iskip) };
        let o₄ := if ∃ p ∈ init', |p| > 1e-7 then { o₃ with vxvv := o.vxvv } else o₃;
        (.ok o₄.orbit, o₄)

open Classical in
/-- The columns `bruteSOS` keeps for one orbit, Orbits.py:6397-6398: the coordinate is negative and
the next one positive. -/
def crossings (cross : List ℝ) : List ℕ :=
  (List.range (cross.length - 1)).filter fun i =>
    decide (∃ a b, cross[i]? = some a ∧ cross[i + 1]? = some b ∧ a < 0 ∧ 0 < b)

end

end Verif.SOS
