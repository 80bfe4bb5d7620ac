import Mathlib.Data.List.Infix

set_option autoImplicit false

/-!
# Choice of the integration routine

`galpy/orbit/Orbits.py` 1342-1405, 1730-1818, 2163-2257, 2376-2490; `integrateFullOrbit.py` 947-1000,
1096-1200, 1415-1470; `integratePlanarOrbit.py` 690-709 and the corresponding places;
`integrateLinearOrbit.py` 309-360. A method name is a list of (ASCII) characters.
-/

namespace Verif.Integ

/-- `str.lower` for ASCII. -/
def lower (m : List Char) : List Char := m.map Char.toLower

/-- `a in b` for strings. -/
def contains (b a : List Char) : Bool := decide (a <:+: b)

def odeint : List Char := ['o', 'd', 'e', 'i', 'n', 't']
def leapfrog : List Char := ['l', 'e', 'a', 'p', 'f', 'r', 'o', 'g']
def dop853 : List Char := ['d', 'o', 'p', '8', '5', '3']
def leapfrog_c : List Char := ['l', 'e', 'a', 'p', 'f', 'r', 'o', 'g', '_', 'c']
def symplec4_c : List Char := ['s', 'y', 'm', 'p', 'l', 'e', 'c', '4', '_', 'c']
def symplec6_c : List Char := ['s', 'y', 'm', 'p', 'l', 'e', 'c', '6', '_', 'c']
def rk4_c : List Char := ['r', 'k', '4', '_', 'c']
def rk6_c : List Char := ['r', 'k', '6', '_', 'c']
def dopr54_c : List Char := ['d', 'o', 'p', 'r', '5', '4', '_', 'c']
def dop853_c : List Char := ['d', 'o', 'p', '8', '5', '3', '_', 'c']
def ias15_c : List Char := ['i', 'a', 's', '1', '5', '_', 'c']
def symplec : List Char := ['s', 'y', 'm', 'p', 'l', 'e', 'c']
def _c : List Char := ['_', 'c']

/-- `valid_methods`, Orbits.py:1343-1367. -/
def validMethods (noSymplec allowCSymplec : Bool) : List (List Char) :=
  let all := [odeint, leapfrog, dop853, leapfrog_c, symplec4_c, symplec6_c, rk4_c, rk6_c, dopr54_c, dop853_c,
    ias15_c];
  if noSymplec then
    let l := (all.erase leapfrog).erase ias15_c;
    if allowCSymplec then l else ((l.erase leapfrog_c).erase symplec4_c).erase symplec6_c
  else all

/-- `check_integrator`, Orbits.py:1342-1369. -/
def checkIntegrator (m : List Char) (noSymplec allowCSymplec : Bool) : Bool :=
  decide (lower m ∈ validMethods noSymplec allowCSymplec)

/-- `_check_method_c_compatible`, Orbits.py:1372-1391. -/
def cCompatible (m : List Char) (ext hasC : Bool) : List Char :=
  if contains m _c then
    if !ext || !hasC then
      if contains m leapfrog || contains m symplec then leapfrog else odeint
    else m
  else m

/-- `_check_method_dissipative_compatible`, Orbits.py:1394-1405. -/
def dissipativeCompatible (m : List Char) (diss : Bool) : List Char :=
  if diss && (contains m leapfrog || contains m symplec) then
    if contains m _c then dopr54_c else odeint
  else m

/-- The routines that can run: the three of Python, and those of the C library by their number. -/
inductive Engine
  | pyLeapfrog | pyDop853 | pyOdeint
  | c (code : Nat)
  deriving DecidableEq, Repr

/-- `_parse_integrator`, integratePlanarOrbit.py:690-709. -/
def parseIntegrator (m : List Char) : Nat :=
  if lower m = rk4_c then 1
  else if lower m = rk6_c then 2
  else if lower m = symplec4_c then 3
  else if lower m = symplec6_c then 4
  else if lower m = dopr54_c then 5
  else if lower m = dop853_c then 6
  else if lower m = ias15_c then 7
  else 0

/-- The dispatch inside `integrateFullOrbit` (1096-1200), `integratePlanarOrbit` (1281-1380) and
`integrateLinearOrbit` (309-360). -/
def pyDispatch (m : List Char) : Engine :=
  if lower m = leapfrog then .pyLeapfrog
  else if lower m = dop853 then .pyDop853
  else if lower m = odeint then .pyOdeint
  else .c (parseIntegrator m)

/-- The routine run by `integrate`, `none` for the `ValueError`. Orbits.py:1646, 1730-1818. -/
def integrateEngine (m : List Char) (ext hasC diss forceMap : Bool) : Option Engine :=
  if !checkIntegrator m false false then none
  else
    let m1 := dissipativeCompatible (cCompatible m ext hasC) diss;
    if !contains m1 _c || !ext || forceMap then some (pyDispatch m1) else some (.c (parseIntegrator m1))

/-- The dispatch inside `integrateFullOrbit_sos` (1415-1470) and `integratePlanarOrbit_sos` (1756-1840). -/
def pyDispatchSOS (m : List Char) : Engine :=
  if !contains m _c then (if lower m = dop853 then .pyDop853 else .pyOdeint)
  else .c (parseIntegrator m)

/-- The routine run by `integrate_SOS`, Orbits.py:2163, 2194-2257. -/
def sosEngine (m : List Char) (ext hasC diss forceMap : Bool) : Option Engine :=
  if !checkIntegrator m true false then none
  else
    let m1 := dissipativeCompatible (cCompatible m ext hasC) diss;
    if !contains m1 _c || !ext || forceMap then some (pyDispatchSOS m1) else some (.c (parseIntegrator m1))

/-- The dispatch inside the `integrate…Orbit_dxdv` functions (integrateFullOrbit.py:947-1000). -/
def pyDispatchDxdv (m : List Char) : Engine :=
  if lower m = dop853 then .pyDop853
  else if lower m = odeint then .pyOdeint
  else .c (parseIntegrator m)

/-- The routine run by `integrate_dxdv`, Orbits.py:2376-2490; `hasCdxdv`: also the second derivatives of the
potential are available in C (`_check_c(pot, dxdv=True)` or `dxdv3d=True`). -/
def dxdvEngine (m : List Char) (ext hasC hasCdxdv diss : Bool) : Option Engine :=
  if !checkIntegrator m true true then none
  else
    let m1 := dissipativeCompatible m diss;
    let m2 := if contains m1 _c then (if !ext || !(hasC && hasCdxdv) then odeint else m1) else m1;
    some (pyDispatchDxdv m2)

end Verif.Integ
