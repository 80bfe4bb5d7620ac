import Verif.Model.RootSearch
import Verif.Model.NFWVirial
import Verif.Model.IsochroneAA
import Verif.Model.Coords
import Mathlib.MeasureTheory.Integral.IntervalIntegral.Basic

set_option autoImplicit false

/-!
# Staeckel action-angle coordinates (Python version)

`galpy/actionAngle/actionAngleStaeckel.py`: `actionAngleStaeckelSingle` and the Python branches of `actionAngleStaeckel`, one phase-space
point at a time.  The potential is a function of `R` and `z`.  `integrate.quad` and the quadratures of
`_staeckelChiQuadratures` are exact integrals, `optimize.brentq` is the relation `Brentq`.  NaN is `none`; the replacement of
NaN frequencies by the epicycle ones (597-606) is not modelled.
-/

noncomputable section
namespace Verif.StaeckelAA
open Real RootSearch NFWVirial
open IsochroneAA (Point)

/-- `potentialStaeckel` (actionAngleStaeckel.py 1777-1802). -/
def potUV (pot : ℝ → ℝ → ℝ) (delta u v : ℝ) : ℝ :=
  let q := Coords.uv_to_Rz u v delta false;
  pot q.1 q.2

/-- `_JRStaeckelIntegrandSquared` (actionAngleStaeckel.py 1870-1879). -/
def jrSquared (pot : ℝ → ℝ → ℝ) (E Lz I3U delta sinh2u0 v0 sin2v0 potu0v0 u : ℝ) : ℝ :=
  let sinh2u := sinh u ^ 2;
  let dU := (sinh2u + sin2v0) * potUV pot delta u v0 - (sinh2u0 + sin2v0) * potu0v0;
  E * sinh2u - I3U - dU - Lz ^ 2 / 2 / delta ^ 2 / sinh2u

/-- `_JzStaeckelIntegrandSquared` (actionAngleStaeckel.py 1890-1897). -/
def jzSquared (pot : ℝ → ℝ → ℝ) (E Lz I3V delta u0 cosh2u0 sinh2u0 potu0pi2 v : ℝ) : ℝ :=
  let sin2v := sin v ^ 2;
  let dV := cosh2u0 * potu0pi2 - (sinh2u0 + sin2v) * potUV pot delta u0 v;
  E * sin2v + I3V + dV - Lz ^ 2 / 2 / delta ^ 2 / sin2v

/-- The attributes set by `actionAngleStaeckelSingle.__init__` before the turning points are searched. -/
structure Single where
  ux : ℝ
  vx : ℝ
  pux : ℝ
  pvx : ℝ
  E : ℝ
  Lz : ℝ
  u0 : ℝ
  v0u : ℝ
  I3U : ℝ
  I3V : ℝ

/-- `actionAngleStaeckelSingle.__init__` (actionAngleStaeckel.py 788-853); `u0` is the optional keyword. -/
def single (pot : ℝ → ℝ → ℝ) (delta : ℝ) (u0 : Option ℝ) (p : Point) : Single :=
  let w := Coords.Rz_to_uv p.R p.z delta false;
  let ux := w.1;
  let vx := w.2;
  let pux := delta * (p.vR * cosh ux * sin vx + p.vz * sinh ux * cos vx);
  let pvx := delta * (p.vR * sinh ux * cos vx - p.vz * cosh ux * sin vx);
  let E := pot p.R p.z + p.vR ^ 2 / 2 + p.vT ^ 2 / 2 + p.vz ^ 2 / 2;
  let Lz := p.R * p.vT;
  let u0 := u0.getD ux;
  let v0u := π / 2;
  let potu0v0 := potUV pot delta u0 v0u;
  let I3U := E * sinh ux ^ 2 - pux ^ 2 / 2 / delta ^ 2 - Lz ^ 2 / 2 / delta ^ 2 / sinh ux ^ 2
    - (sinh ux ^ 2 + sin v0u ^ 2) * potUV pot delta ux v0u + (sinh u0 ^ 2 + sin v0u ^ 2) * potu0v0;
  let potupi2 := potUV pot delta u0 (π / 2);
  let dV := cosh u0 ^ 2 * potupi2 - (sinh u0 ^ 2 + sin vx ^ 2) * potUV pot delta u0 vx;
  let I3V := -E * sin vx ^ 2 + pvx ^ 2 / 2 / delta ^ 2 + Lz ^ 2 / 2 / delta ^ 2 / sin vx ^ 2 - dV;
  { ux, vx, pux, pvx, E, Lz, u0, v0u, I3U, I3V }

/-- The under-radical function of the radial action with the object's arguments (`_uIntegrandArgs`, actionAngleStaeckel.py 1346-1358). -/
def Single.sR (s : Single) (pot : ℝ → ℝ → ℝ) (delta : ℝ) : ℝ → ℝ :=
  jrSquared pot s.E s.Lz s.I3U delta (sinh s.u0 ^ 2) s.v0u (sin s.v0u ^ 2) (potUV pot delta s.u0 s.v0u)

/-- The under-radical function of the vertical action with the object's arguments (`_vIntegrandArgs`, actionAngleStaeckel.py 1360-1371). -/
def Single.sZ (s : Single) (pot : ℝ → ℝ → ℝ) (delta : ℝ) : ℝ → ℝ :=
  jzSquared pot s.E s.Lz s.I3V delta s.u0 (cosh s.u0 ^ 2) (sinh s.u0 ^ 2) (potUV pot delta s.u0 (π / 2))

/-- `calcUminUmax` (actionAngleStaeckel.py 1045-1252) with the under-radical function `S`; `none` when an exception is raised. -/
def UminUmax (S : ℝ → ℝ) (ux pux : ℝ) (out : Option (ℝ × ℝ)) : Prop :=
  if |pux| < 1 / 10 ^ 7 ∨ |S ux| < 1 / 10 ^ 10 then
    if S (ux + 1 / 10 ^ 8) < 0 ∧ S (ux - 1 / 10 ^ 8) > 0 then
      ∃ n r, uminUmaxFindStart S ux false n = some r ∧
        match r with
        | none => out = none
        | some (rstart, _) =>
          if rstart = 0 then out = some (0, ux)
          else ∃ y, Brentq S rstart (ux - 1 / 10 ^ 8) y ∧ out = y.map fun umin => (umin, ux)
    else if S (ux + 1 / 10 ^ 8) > 0 ∧ S (ux - 1 / 10 ^ 8) < 0 then
      ∃ n r, uminUmaxFindStart S ux true n = some r ∧
        match r with
        | none => out = none
        | some (rend, _) => ∃ y, Brentq S (ux + 1 / 10 ^ 8) rend y ∧ out = y.map fun umax => (ux, umax)
    else out = some (ux, ux)
  else
    ∃ n r, uminUmaxFindStart S ux false n = some r ∧
      match r with
      | none => out = none
      | some (rstart, prevr) =>
        ∃ umin, (if rstart = 0 then umin = some 0
            else Brentq S rstart (if |prevr - ux| < 1 / 10 ^ 2 then ux else prevr) umin) ∧
          match umin with
          | none => out = none
          | some umin =>
            ∃ n r, uminUmaxFindStart S ux true n = some r ∧
              match r with
              | none => out = none
              | some (rend, prevr) => ∃ y, Brentq S prevr rend y ∧ out = y.map fun umax => (umin, umax)

/-- `calcVmin` (actionAngleStaeckel.py 1267-1344) with the under-radical function `S`; `none` when an exception is raised. -/
def Vmin (S : ℝ → ℝ) (vx pvx : ℝ) (out : Option ℝ) : Prop :=
  if |pvx| < 1 / 10 ^ 7 then
    if S (vx + 1 / 10 ^ 8) < 0 ∧ S (vx - 1 / 10 ^ 8) > 0 then out = none
    else out = some vx
  else
    ∃ n rstart, vminFindStart S vx n = some rstart ∧
      if rstart = 0 then out = some 0 else Brentq S rstart (rstart / (9 / 10)) out

/-- `_staeckelChiQuadratures` (actionAngleStaeckel.py 1954-2032), the first value, as an exact integral over `chi`.  The
reconstruction of the function next to the turning points (2020-2029), which guards against cancellation, is left out. -/
def chiAction (S : ℝ → ℝ) (qmin D chimax : ℝ) : ℝ :=
  D / 4 * ∫ chi in (0 : ℝ)..chimax,
    let y := sin (chi / 2) ^ 2
    √(S (qmin + D * y) / (y * (1 - y))) * sin chi ^ 2

/-- `_staeckelChiQuadratures` (actionAngleStaeckel.py 1954-2032), the values for the weight `f`. -/
def chiWeight (S f : ℝ → ℝ) (qmin D chimax : ℝ) : ℝ :=
  D * ∫ chi in (0 : ℝ)..chimax,
    let y := sin (chi / 2) ^ 2
    f (qmin + D * y) / √(S (qmin + D * y) / (y * (1 - y)))

/-- `numpy.clip(x, 0, 1)`. -/
def clip01 (x : ℝ) : ℝ := min (max x 0) 1

/-- `chimax` (actionAngleStaeckel.py 1381-1388, 1414-1423) for an upper limit. -/
def chiOf (q qmin D : ℝ) : ℝ := 2 * arcsin (√(clip01 ((q - qmin) / D)))

/-- The weights (actionAngleStaeckel.py 1942-1951): energy, third integral, angular momentum. -/
inductive Key where
  | E | I3 | Lz

def weightU : Key → ℝ → ℝ
  | .E, q => sinh q ^ 2
  | .I3, _ => 1
  | .Lz, q => 1 / sinh q ^ 2

def weightV : Key → ℝ → ℝ
  | .E, q => sin q ^ 2
  | .I3, _ => 1
  | .Lz, q => 1 / sin q ^ 2

/-- `_chiQuadsU` (actionAngleStaeckel.py 1373-1402). -/
def quadsU (S : ℝ → ℝ) (umin umax : ℝ) (k : Key) (uupp : Option ℝ) : ℝ :=
  chiWeight S (weightU k) umin (umax - umin) (match uupp with
    | none => π
    | some q => chiOf q umin (umax - umin))

/-- `_chiQuadsV` (actionAngleStaeckel.py 1404-1437). -/
def quadsV (S : ℝ → ℝ) (vmin : ℝ) (k : Key) (vupp : Option ℝ) : ℝ :=
  chiWeight S (weightV k) vmin (π - 2 * vmin) (match vupp with
    | none => π / 2
    | some q => chiOf q vmin (π - 2 * vmin))

/-- `JR` with `fixed_quad` (actionAngleStaeckel.py 898-917). -/
def calcJR (S : ℝ → ℝ) (delta umin umax : ℝ) : ℝ :=
  if (umax - umin) / umax < 1 / 10 ^ 6 then 0 else 1 / π * √2 * delta * chiAction S umin (umax - umin) π

/-- `JR` without `fixed_quad` (actionAngleStaeckel.py 898-942). -/
def calcJRquad (S : ℝ → ℝ) (delta umin umax : ℝ) : ℝ :=
  if (umax - umin) / umax < 1 / 10 ^ 6 then 0 else 1 / π * √2 * delta * ∫ u in umin..umax, √(S u)

/-- `Jz` with `fixed_quad` (actionAngleStaeckel.py 965-983). -/
def calcJz (S : ℝ → ℝ) (delta vmin : ℝ) : ℝ :=
  if π / 2 - vmin < 1 / 10 ^ 7 then 0 else 2 / π * √2 * delta * chiAction S vmin (π - 2 * vmin) (π / 2)

/-- `Jz` without `fixed_quad` (actionAngleStaeckel.py 965-1008). -/
def calcJzquad (S : ℝ → ℝ) (delta vmin : ℝ) : ℝ :=
  if π / 2 - vmin < 1 / 10 ^ 7 then 0 else 2 / π * √2 * delta * ∫ v in vmin..π / 2, √(S v)

/-- `calcdJR` (actionAngleStaeckel.py 1457-1473). -/
def dJR (S : ℝ → ℝ) (delta Lz umin umax : ℝ) (k : Key) : ℝ :=
  if (umax - umin) / umax < 1 / 10 ^ 6 then 0
  else quadsU S umin umax k none * match k with
    | .E => delta / π / √2
    | .Lz => -Lz / π / √2 / delta
    | .I3 => -delta / π / √2

/-- `calcdJz` (actionAngleStaeckel.py 1493-1509). -/
def dJz (S : ℝ → ℝ) (delta Lz vmin : ℝ) (k : Key) : ℝ :=
  if (π / 2 - vmin) / π * 2 < 1 / 10 ^ 6 then 0
  else quadsV S vmin k none * match k with
    | .E => √2 * delta / π
    | .Lz => -Lz * √2 / π / delta
    | .I3 => √2 * delta / π

/-- What `calcFreqs` returns. -/
structure Freqs where
  Or : ℝ
  Op : ℝ
  Oz : ℝ
  dI3dJR : ℝ
  dI3dJz : ℝ
  dI3dLz : ℝ

/-- `calcFreqs` (actionAngleStaeckel.py 1530-1546) from the derivatives of the actions; `none` is NaN. -/
def calcFreqs (djr djz : Key → ℝ) : Option Freqs :=
  let detA := djr .E * djz .I3 - djz .E * djr .I3;
  if detA = 0 then none
  else some
    { Or := djz .I3 / detA
      Oz := -djr .I3 / detA
      Op := (djr .I3 * djz .Lz - djz .I3 * djr .Lz) / detA
      dI3dJR := -djz .E / detA
      dI3dJz := djr .E / detA
      dI3dLz := -(djr .E * djz .Lz - djz .E * djr .Lz) / detA }

/-- `uquad` (actionAngleStaeckel.py 1591-1598): the panel `low` is the part up to `q`, the panel `high` the part from `q`, with
`q = umin + mid**2` or `umax - mid**2`. -/
def uquad (S : ℝ → ℝ) (umin umax : ℝ) (k : Key) (low : Bool) (mid : ℝ) : ℝ :=
  if low then quadsU S umin umax k (some (umin + mid ^ 2))
  else quadsU S umin umax k none - quadsU S umin umax k (some (umax - mid ^ 2))

/-- `vquad` (actionAngleStaeckel.py 1600-1607). -/
def vquad (S : ℝ → ℝ) (vmin : ℝ) (k : Key) (low : Bool) (mid : ℝ) : ℝ :=
  if low then quadsV S vmin k (some (vmin + mid ^ 2))
  else quadsV S vmin k none - quadsV S vmin k (some (π / 2 - mid ^ 2))

/-- The u-branch (actionAngleStaeckel.py 1610-1655): `Or1`, `I3r1` and the first part of `anglephi`. -/
def uBranch (S : ℝ → ℝ) (delta Lz umin umax ux pux : ℝ) (djr : Key → ℝ) : ℝ × ℝ × ℝ :=
  let midpoint := umin + 0.5 * (umax - umin);
  if pux > 0 then
    if ux > midpoint then
      let mid := √(umax - ux);
      (π * djr .E - uquad S umin umax .E false mid * (delta / √2),
        π * djr .I3 - -uquad S umin umax .I3 false mid * (delta / √2),
        π * djr .Lz + Lz * uquad S umin umax .Lz false mid / delta / √2)
    else
      let mid := √(ux - umin);
      (uquad S umin umax .E true mid * (delta / √2),
        -uquad S umin umax .I3 true mid * (delta / √2),
        -Lz * uquad S umin umax .Lz true mid / delta / √2)
  else
    if ux > midpoint then
      let mid := √(umax - ux);
      (π * djr .E + uquad S umin umax .E false mid * (delta / √2),
        π * djr .I3 + -uquad S umin umax .I3 false mid * (delta / √2),
        π * djr .Lz - Lz * uquad S umin umax .Lz false mid / delta / √2)
    else
      let mid := √(ux - umin);
      (2 * π * djr .E - uquad S umin umax .E true mid * (delta / √2),
        2 * π * djr .I3 - -uquad S umin umax .I3 true mid * (delta / √2),
        2 * π * djr .Lz + Lz * uquad S umin umax .Lz true mid / delta / √2)

/-- The factors of the v-branch (actionAngleStaeckel.py 1666-1668 and the corresponding lines). -/
def vFactor (delta Lz : ℝ) : Key → ℝ
  | .E => delta / √2
  | .I3 => delta / √2
  | .Lz => -Lz / delta / √2

/-- The v-branch (actionAngleStaeckel.py 1658-1716): `Or2`, `I3r2` and `phitmp` have the same form. -/
def vBranch (S : ℝ → ℝ) (delta Lz vmin vx pvx : ℝ) (djz : Key → ℝ) (k : Key) : ℝ :=
  let midpoint := vmin + 0.5 * (0.5 * π - vmin);
  let edge := vx < midpoint ∨ vx > π - midpoint;
  if pvx > 0 then
    if edge then
      let mid := if vx > 0.5 * π then √(π - vx - vmin) else √(vx - vmin);
      let q := vquad S vmin k true mid * vFactor delta Lz k;
      if vx > 0.5 * π then π * djz k - q else q
    else
      let q := vquad S vmin k false (√|0.5 * π - vx|) * vFactor delta Lz k;
      if vx > 0.5 * π then 0.5 * π * djz k + q else 0.5 * π * djz k - q
  else
    if edge then
      let mid := if vx > 0.5 * π then √(π - vx - vmin) else √(vx - vmin);
      let q := vquad S vmin k true mid * vFactor delta Lz k;
      if vx < 0.5 * π then 2 * π * djz k - q else π * djz k + q
    else
      let q := vquad S vmin k false (√|0.5 * π - vx|) * vFactor delta Lz k;
      if vx < 0.5 * π then 1.5 * π * djz k + q else 1.5 * π * djz k - q

/-- `numpy.fmod(x, 2 pi)` followed by the loops that add or subtract `2 pi` (actionAngleStaeckel.py 1722-1734). -/
def wrapF (x : ℝ) : ℝ :=
  let y := if 0 ≤ x then x - 2 * π * ⌊x / (2 * π)⌋ else x - 2 * π * ⌈x / (2 * π)⌉;
  if y < 0 then y + 2 * π else y

/-- What `actionsFreqsAngles` returns for one point; frequencies and angles are `none` when they are NaN. -/
structure Out where
  jr : ℝ
  jphi : ℝ
  jz : ℝ
  freqs : Option (ℝ × ℝ × ℝ)
  angles : Option (ℝ × ℝ × ℝ)

/-- `calcAngles` (actionAngleStaeckel.py 1567-1735) and the assembly in `_actionsFreqsAngles` (actionAngleStaeckel.py 576-592). -/
def compute (pot : ℝ → ℝ → ℝ) (delta : ℝ) (u0 : Option ℝ) (p : Point) (umin umax vmin : ℝ) : Out :=
  let s := single pot delta u0 p;
  let SR := s.sR pot delta;
  let SZ := s.sZ pot delta;
  let djr := dJR SR delta s.Lz umin umax;
  let djz := dJz SZ delta s.Lz vmin;
  let f := calcFreqs djr djz;
  let a := uBranch SR delta s.Lz umin umax s.ux s.pux djr;
  let b := vBranch SZ delta s.Lz vmin s.vx s.pvx djz;
  { jr := calcJR SR delta umin umax
    jphi := p.R * p.vT
    jz := calcJz SZ delta vmin
    freqs := f.map fun f => (f.Or, f.Op, f.Oz)
    angles :=
      if (umax - umin) / umax < 1 / 10 ^ 6 then
        some (0, IsochroneAA.mod2pi (0 + IsochroneAA.mod2pi p.phi), 0)
      else f.map fun f =>
        let o := a.1 + b .E;
        let i := a.2.1 + b .I3;
        let raw := a.2.2 + b .Lz + (f.Op * o + f.dI3dLz * i);
        (wrapF (f.Or * o + f.dI3dJR * i),
          IsochroneAA.mod2pi (raw + IsochroneAA.mod2pi p.phi),
          wrapF (f.Oz * o + f.dI3dJz * i + 0.5 * π)) }

/-- `_actionsFreqsAngles` without C (actionAngleStaeckel.py 525-607); `none` when an exception is raised. -/
def Angles (pot : ℝ → ℝ → ℝ) (delta : ℝ) (u0 : Option ℝ) (p : Point) (out : Option Out) : Prop :=
  let s := single pot delta u0 p;
  ∃ uu, UminUmax (s.sR pot delta) s.ux s.pux uu ∧
    match uu with
    | none => out = none
    | some (umin, umax) =>
      ∃ vv, Vmin (s.sZ pot delta) s.vx s.pvx vv ∧ out = vv.map fun vmin => compute pot delta u0 p umin umax vmin

/-- `_evaluate` without C and with the default quadrature (actionAngleStaeckel.py 216-230). -/
def Actions (pot : ℝ → ℝ → ℝ) (delta : ℝ) (p : Point) (out : Option (ℝ × ℝ × ℝ)) : Prop :=
  let s := single pot delta none p;
  ∃ uu, UminUmax (s.sR pot delta) s.ux s.pux uu ∧
    match uu with
    | none => out = none
    | some (umin, umax) =>
      ∃ vv, Vmin (s.sZ pot delta) s.vx s.pvx vv ∧ out = vv.map fun vmin =>
        (calcJRquad (s.sR pot delta) delta umin umax, p.R * p.vT, calcJzquad (s.sZ pot delta) delta vmin)

/-- `_EccZmaxRperiRap` without C (actionAngleStaeckel.py 637-643, 750-761). -/
def Ecc (pot : ℝ → ℝ → ℝ) (delta : ℝ) (p : Point) (out : Option (ℝ × ℝ × ℝ × ℝ)) : Prop :=
  let s := single pot delta none p;
  ∃ uu, UminUmax (s.sR pot delta) s.ux s.pux uu ∧
    match uu with
    | none => out = none
    | some (umin, umax) =>
      ∃ vv, Vmin (s.sZ pot delta) s.vx s.pvx vv ∧ out = vv.map fun vmin =>
        let rperi := (Coords.uv_to_Rz umin (π / 2) delta false).1;
        let q := Coords.uv_to_Rz umax vmin delta false;
        let rap := √(q.1 ^ 2 + q.2 ^ 2);
        ((rap - rperi) / (rap + rperi), q.2, rperi, rap)

/-- `estimateDeltaStaeckel` for numbers (actionAngleStaeckel.py 2252-2256, 2282-2300): a potential without SCF parts, given by its
methods.  A negative argument of the final square root (NaN) gives 0 here. -/
def estimateDelta (Rforce zforce R2deriv z2deriv Rzderiv : ℝ → ℝ → ℝ) (delta0 R z : ℝ) : ℝ :=
  let z := if z = 0 then 1 / 10 ^ 4 else z;
  let delta2 := z ^ 2 - R ^ 2
    + (3 * R * zforce R z - 3 * z * Rforce R z + R * z * (R2deriv R z - z2deriv R z)) / Rzderiv R z;
  let delta2 := if delta2 < delta0 ^ 2 ∧ delta2 > -(1 / 10 ^ 10) then delta0 ^ 2 else delta2;
  √delta2

end Verif.StaeckelAA
