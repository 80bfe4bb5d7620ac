import Verif.Spec.Pot
import Verif.Model.Coords
import Verif.Model.UtilNumerics
import Mathlib.LinearAlgebra.Matrix.NonsingularInverse

set_option autoImplicit false

/-!
# `RotateAndTiltWrapperPotential`

`galpy/potential/RotateAndTiltWrapperPotential.py` and
`galpy/potential/potential_c_ext/RotateAndTiltWrapperPotential.c`. Numbers are real; angles and lengths are given
without units. The branch for infinite `R` in `_evaluate` and `_dens` is not modelled. The amplitude is applied
outside (`Model/Pot/Ops.lean`), in C at the end of each function.
-/

noncomputable section
namespace Verif.Tilt
open Real Util Coords

abbrev Vec := Fin 3 → ℝ
abbrev Mat := Matrix (Fin 3) (Fin 3) ℝ

/-- What may be passed as `zvec`: a list or an array, of integers or of floats. -/
inductive ZVec where
  | ints (v : Fin 3 → ℤ) (isArray : Bool)
  | floats (v : Vec) (isArray : Bool)

/-- The keyword arguments of `__init__`, RotateAndTiltWrapperPotential.py:45-57. -/
structure Args where
  inclination : Option ℝ := none
  galaxyPa : Option ℝ := none
  skyPa : Option ℝ := none
  zvec : Option ZVec := none
  offset : Option Vec := none

/-- `None + float` and the in-place division of an array of integers, both a `TypeError`. -/
inductive Err where
  | noneAddition
  | intDivision
deriving DecidableEq

/-- The matrix `zvec_rot` of `_parse_inclination`, lines 114-129. -/
def inclRot (sky i : ℝ) : Mat :=
  !![sin sky, cos sky, 0; -cos sky, sin sky, 0; 0, 0, 1] * !![1, 0, 0; 0, -cos i, -sin i; 0, -sin i, cos i]

/-- `_parse_inclination`, lines 109-135. -/
def parseInclination (A : Args) : Except Err (Option ZVec × Option ℝ) :=
  match A.inclination with
  | none => .ok (A.zvec, A.galaxyPa)
  | some i =>
    let sky := A.skyPa.getD 0;
    let zvec_rot := inclRot sky i;
    let zvec := zvec_rot.mulVec ![0, 0, 1];
    let int_rot := rotateTo ![0, 0, 1] zvec false false;
    let pa := int_rot.mulVec (zvec_rot.mulVec ![1, 0, 0]);
    match A.galaxyPa with
    | none => .error .noneAddition
    | some g => .ok (some (.floats zvec true), some (g + atan2 (pa 1) (pa 0)))

/-- `pa_rot`, lines 138-147. -/
def paRot (pa : Option ℝ) : Mat :=
  match pa with
  | none => 1
  | some p => !![cos p, sin p, 0; -sin p, cos p, 0; 0, 0, 1]

/-- `zvec_rot`, lines 148-156. -/
def zvecRot (zvec : Option ZVec) : Except Err Mat :=
  match zvec with
  | none => .ok 1
  | some (.ints _ _) => .error .intDivision
  | some (.floats v _) => .ok (rotateTo ![0, 0, 1] (unitVec v) true false)

/-- The attributes set by `__init__`. -/
structure Wrapper where
  rot : Mat
  invRot : Mat
  offset : Option Vec
  norot : Bool

open Classical in
/-- `__init__` with `_setup_zvec_pa`, lines 87-98 and 137-159. `numpy.linalg.inv` is the inverse matrix. -/
def init (A : Args) : Except Err Wrapper :=
  match parseInclination A with
  | .error e => .error e
  | .ok (zvec, pa) =>
    match zvecRot zvec with
    | .error e => .error e
    | .ok zr =>
      let rot := paRot pa * zr;
      .ok ⟨rot, rot⁻¹, A.offset, decide (rot = 1)⟩

/-- What the array passed as `zvec` holds after `__init__`: the division in line 151 is done in place. -/
def callerZvec (A : Args) : Option ZVec :=
  match A.inclination, A.zvec with
  | none, some (.floats v true) => some (.floats (unitVec v) true)
  | _, z => z

/-- `xyzp`, lines 165-172 and again in each method. -/
def point (W : Wrapper) (R z φ : ℝ) : Vec :=
  let c := cyl_to_rect R φ z;
  let x : Vec := ![c.1, c.2.1, c.2.2];
  let p := if W.norot then x else W.rot.mulVec x;
  match W.offset with
  | none => p
  | some o => fun i => p i + o i

/-- `_evaluate`, lines 164-174. -/
def evaluate (P : Pot) (W : Wrapper) (R z φ t : ℝ) : ℝ :=
  let p := point W R z φ;
  let c := rect_to_cyl (p 0) (p 1) (p 2);
  P.val c.1 c.2.2 c.2.1 t

/-- The rectangular force in the frame of the wrapped potential, lines 197-204. -/
def forceP (P : Pot) (p : Vec) (t : ℝ) : Vec :=
  let c := rect_to_cyl (p 0) (p 1) (p 2);
  let Rp := c.1;
  let phip := c.2.1;
  let zp := c.2.2;
  let Rforcep := P.Rforce Rp zp phip t;
  let phitorquep := P.phitorque Rp zp phip t;
  let zforcep := P.zforce Rp zp phip t;
  ![cos phip * Rforcep - sin phip * phitorquep / Rp, sin phip * Rforcep + cos phip * phitorquep / Rp, zforcep]

/-- `_force_xyz`, lines 190-205. -/
def forceXYZ (P : Pot) (W : Wrapper) (R z φ t : ℝ) : Vec := W.invRot.mulVec (forceP P (point W R z φ) t)

/-- The matrix of second derivatives in the frame of the wrapped potential, lines 258-311. -/
def hessP (P : Pot) (p : Vec) (t : ℝ) : Mat :=
  let c := rect_to_cyl (p 0) (p 1) (p 2);
  let Rp := c.1;
  let phip := c.2.1;
  let zp := c.2.2;
  let Rforcep := P.Rforce Rp zp phip t;
  let phitorquep := P.phitorque Rp zp phip t;
  let R2derivp := P.R2deriv Rp zp phip t;
  let phi2derivp := P.phi2deriv Rp zp phip t;
  let z2derivp := P.z2deriv Rp zp phip t;
  let Rzderivp := P.Rzderiv Rp zp phip t;
  let Rphiderivp := P.Rphideriv Rp zp phip t;
  let phizderivp := P.phizderiv Rp zp phip t;
  let cp := cos phip;
  let sp := sin phip;
  let cp2 := cp ^ 2;
  let sp2 := sp ^ 2;
  let cpsp := cp * sp;
  let Rp2 := Rp * Rp;
  let x2derivp := R2derivp * cp2 - 2 * Rphiderivp * cpsp / Rp + phi2derivp * sp2 / Rp2 - Rforcep * sp2 / Rp
    - 2 * phitorquep * cpsp / Rp2;
  let y2derivp := R2derivp * sp2 + 2 * Rphiderivp * cpsp / Rp + phi2derivp * cp2 / Rp2 - Rforcep * cp2 / Rp
    + 2 * phitorquep * cpsp / Rp2;
  let xyderivp := R2derivp * cpsp + Rphiderivp * (cp2 - sp2) / Rp - phi2derivp * cpsp / Rp2 + Rforcep * cpsp / Rp
    + phitorquep * (cp2 - sp2) / Rp2;
  let xzderivp := Rzderivp * cp - phizderivp * sp / Rp;
  let yzderivp := Rzderivp * sp + phizderivp * cp / Rp;
  !![x2derivp, xyderivp, xzderivp; xyderivp, y2derivp, yzderivp; xzderivp, yzderivp, z2derivp]

/-- `_2ndderiv_xyz`, lines 249-319. -/
def hessXYZ (P : Pot) (W : Wrapper) (R z φ t : ℝ) : Mat :=
  W.invRot * (hessP P (point W R z φ) t * W.invRot.transpose)

/-- `_dens`, lines 321-331. -/
def dens (P : Pot) (W : Wrapper) (R z φ t : ℝ) : ℝ :=
  let p := point W R z φ;
  let c := rect_to_cyl (p 0) (p 1) (p 2);
  P.dens c.1 c.2.2 c.2.1 t

/-- The methods of the wrapper, lines 164-247 and 321-331, without the amplitude. -/
def pot (P : Pot) (W : Wrapper) : Pot where
  val := evaluate P W
  Rforce := fun R z φ t => cos φ * forceXYZ P W R z φ t 0 + sin φ * forceXYZ P W R z φ t 1
  phitorque := fun R z φ t => R * (-sin φ * forceXYZ P W R z φ t 0 + cos φ * forceXYZ P W R z φ t 1)
  zforce := fun R z φ t => forceXYZ P W R z φ t 2
  R2deriv := fun R z φ t =>
    cos φ ^ 2 * hessXYZ P W R z φ t 0 0 + sin φ ^ 2 * hessXYZ P W R z φ t 1 1
      + 2 * cos φ * sin φ * hessXYZ P W R z φ t 0 1
  Rzderiv := fun R z φ t => cos φ * hessXYZ P W R z φ t 0 2 + sin φ * hessXYZ P W R z φ t 1 2
  z2deriv := fun R z φ t => hessXYZ P W R z φ t 2 2
  phi2deriv := fun R z φ t =>
    R ^ 2 * (sin φ ^ 2 * hessXYZ P W R z φ t 0 0 + cos φ ^ 2 * hessXYZ P W R z φ t 1 1
      - 2 * cos φ * sin φ * hessXYZ P W R z φ t 0 1)
      + R * (cos φ * forceXYZ P W R z φ t 0 + sin φ * forceXYZ P W R z φ t 1)
  Rphideriv := fun R z φ t =>
    R * cos φ * sin φ * (hessXYZ P W R z φ t 1 1 - hessXYZ P W R z φ t 0 0)
      + R * cos (2 * φ) * hessXYZ P W R z φ t 0 1 + sin φ * forceXYZ P W R z φ t 0 - cos φ * forceXYZ P W R z φ t 1
  phizderiv := fun R z φ t => R * (cos φ * hessXYZ P W R z φ t 1 2 - sin φ * hessXYZ P W R z φ t 0 2)
  dens := dens P W

/-! ### The C version -/

/-- The fixed part of `args`, RotateAndTiltWrapperPotential.c:8-19, as filled by
`galpy/orbit/integrateFullOrbit.py:546-568`. -/
structure CArgs where
  amp : ℝ
  rot : Mat
  rotSet : Bool
  offsetSet : Bool
  offset : Vec

/-- `_parse_pot`, integrateFullOrbit.py:556-564. -/
def pack (amp : ℝ) (W : Wrapper) : CArgs :=
  ⟨amp, W.rot, !W.norot, W.offset.isSome, W.offset.getD ![0, 0, 0]⟩

/-- The cached part of `args`: the entries 1-7, and 22-31 where the key is nan (`none`) at the start. -/
structure Cache where
  key : Fin 4 → ℝ
  F : Vec
  hkey : Option (Fin 4 → ℝ)
  H : Fin 6 → ℝ

/-- integrateFullOrbit.py:558 and 568. -/
def cache0 : Cache := ⟨0, 0, none, 0⟩

/-- `rotate`, galpy_potentials.c:391-399. -/
def cRotate (r : Mat) (x : Vec) : Vec :=
  ![r 0 0 * x 0 + r 0 1 * x 1 + r 0 2 * x 2, r 1 0 * x 0 + r 1 1 * x 1 + r 1 2 * x 2,
    r 2 0 * x 0 + r 2 1 * x 1 + r 2 2 * x 2]

/-- `rotate_force`, galpy_potentials.c:400-409. -/
def cRotateForce (r : Mat) (x : Vec) : Vec :=
  ![r 0 0 * x 0 + r 1 0 * x 1 + r 2 0 * x 2, r 0 1 * x 0 + r 1 1 * x 1 + r 2 1 * x 2,
    r 0 2 * x 0 + r 1 2 * x 1 + r 2 2 * x 2]

/-- Lines 36-46 and 137-146: the point in the frame of the wrapped potential. -/
def cPoint (A : CArgs) (R z φ : ℝ) : Vec :=
  let x : Vec := ![R * cos φ, R * sin φ, z];
  let p := if A.rotSet then cRotate A.rot x else x;
  if A.offsetSet then ![p 0 + A.offset 0, p 1 + A.offset 1, p 2 + A.offset 2] else p

/-- `rect_to_cyl`, bovy_coords.c:27-30. -/
def cPolar (p : Vec) : ℝ × ℝ := (sqrt (p 0 * p 0 + p 1 * p 1), atan2 (p 1) (p 0))

/-- `RotateAndTiltWrapperPotentialxyzforces`, lines 20-63, the value stored. -/
def cForces (P : Pot) (A : CArgs) (R z φ t : ℝ) : Vec :=
  let p := cPoint A R z φ;
  let c := cPolar p;
  let Rforce := P.Rforce c.1 (p 2) c.2 t;
  let phitorque := P.phitorque c.1 (p 2) c.2 t;
  let F : Vec := ![cos c.2 * Rforce - sin c.2 * phitorque / c.1, sin c.2 * Rforce + cos c.2 * phitorque / c.1,
    P.zforce c.1 (p 2) c.2 t];
  if A.rotSet then cRotateForce A.rot F else F

/-- `RotateAndTiltWrapperPotentialxyzhessian`, lines 118-207, the value stored: `Hxx, Hxy, Hxz, Hyy, Hyz, Hzz`. -/
def cHessian (P : Pot) (A : CArgs) (R z φ t : ℝ) : Fin 6 → ℝ :=
  let p := cPoint A R z φ;
  let c := cPolar p;
  let R := c.1;
  let phi := c.2;
  let z := p 2;
  let Rforcep := P.Rforce R z phi t;
  let phitorquep := P.phitorque R z phi t;
  let R2derivp := P.R2deriv R z phi t;
  let phi2derivp := P.phi2deriv R z phi t;
  let z2derivp := P.z2deriv R z phi t;
  let Rzderivp := P.Rzderiv R z phi t;
  let Rphiderivp := P.Rphideriv R z phi t;
  let zphiderivp := P.phizderiv R z phi t;
  let cp := cos phi;
  let sp := sin phi;
  let R2 := R * R;
  let Hxx := R2derivp * cp * cp - 2 * Rphiderivp * cp * sp / R + phi2derivp * sp * sp / R2 - Rforcep * sp * sp / R
    - 2 * phitorquep * cp * sp / R2;
  let Hyy := R2derivp * sp * sp + 2 * Rphiderivp * cp * sp / R + phi2derivp * cp * cp / R2 - Rforcep * cp * cp / R
    + 2 * phitorquep * cp * sp / R2;
  let Hxy := R2derivp * cp * sp + Rphiderivp * (cp * cp - sp * sp) / R - phi2derivp * cp * sp / R2
    + Rforcep * cp * sp / R + phitorquep * (cp * cp - sp * sp) / R2;
  let Hxz := Rzderivp * cp - zphiderivp * sp / R;
  let Hyz := Rzderivp * sp + zphiderivp * cp / R;
  let Hzz := z2derivp;
  let r := A.rot;
  let Hp : Mat := !![Hxx, Hxy, Hxz; Hxy, Hyy, Hyz; Hxz, Hyz, Hzz];
  let T : Mat := fun i j => Hp i 0 * r 0 j + Hp i 1 * r 1 j + Hp i 2 * r 2 j;
  if A.rotSet then
    ![r 0 0 * T 0 0 + r 1 0 * T 1 0 + r 2 0 * T 2 0, r 0 0 * T 0 1 + r 1 0 * T 1 1 + r 2 0 * T 2 1,
      r 0 0 * T 0 2 + r 1 0 * T 1 2 + r 2 0 * T 2 2, r 0 1 * T 0 1 + r 1 1 * T 1 1 + r 2 1 * T 2 1,
      r 0 1 * T 0 2 + r 1 1 * T 1 2 + r 2 1 * T 2 2, r 0 2 * T 0 2 + r 1 2 * T 1 2 + r 2 2 * T 2 2]
  else ![Hxx, Hxy, Hxz, Hyy, Hyz, Hzz]

open Classical in
/-- `RotateAndTiltWrapperPotentialgetforces`, lines 66-81. -/
def getForces (P : Pot) (A : CArgs) (R z φ t : ℝ) (c : Cache) : Vec × Cache :=
  let k : Fin 4 → ℝ := ![R * cos φ, R * sin φ, z, t];
  if k = c.key then (c.F, c) else (cForces P A R z φ t, { c with key := k, F := cForces P A R z φ t })

open Classical in
/-- `RotateAndTiltWrapperPotentialgethessian`, lines 210-227. -/
def getHessian (P : Pot) (A : CArgs) (R z φ t : ℝ) (c : Cache) : (Fin 6 → ℝ) × Cache :=
  let k : Fin 4 → ℝ := ![R * cos φ, R * sin φ, z, t];
  if some k = c.hkey then (c.H, c)
  else (cHessian P A R z φ t, { c with hkey := some k, H := cHessian P A R z φ t })

/-- The C functions with their own entry in `parse_leapFuncArgs_Full`. -/
inductive Method where
  | Rforce | zforce | phitorque | R2deriv | z2deriv | Rzderiv | phi2deriv | Rphideriv | phizderiv
deriving DecidableEq

/-- The cylindrical components, lines 82-112 and 232-303. -/
def cCall (P : Pot) (A : CArgs) (m : Method) (R z φ t : ℝ) (c : Cache) : ℝ × Cache :=
  let cp := cos φ;
  let sp := sin φ;
  match m with
  | .Rforce =>
    let F := getForces P A R z φ t c;
    (A.amp * (cp * F.1 0 + sp * F.1 1), F.2)
  | .phitorque =>
    let F := getForces P A R z φ t c;
    (A.amp * R * (-sp * F.1 0 + cp * F.1 1), F.2)
  | .zforce =>
    let F := getForces P A R z φ t c;
    (A.amp * F.1 2, F.2)
  | .R2deriv =>
    let H := getHessian P A R z φ t c;
    (A.amp * (cp * cp * H.1 0 + sp * sp * H.1 3 + 2 * cp * sp * H.1 1), H.2)
  | .z2deriv =>
    let H := getHessian P A R z φ t c;
    (A.amp * H.1 5, H.2)
  | .Rzderiv =>
    let H := getHessian P A R z φ t c;
    (A.amp * (cp * H.1 2 + sp * H.1 4), H.2)
  | .phi2deriv =>
    let H := getHessian P A R z φ t c;
    let F := getForces P A R z φ t H.2;
    (A.amp * (R * R * (sp * sp * H.1 0 + cp * cp * H.1 3 - 2 * cp * sp * H.1 1) + R * (cp * F.1 0 + sp * F.1 1)), F.2)
  | .Rphideriv =>
    let H := getHessian P A R z φ t c;
    let F := getForces P A R z φ t H.2;
    (A.amp * (R * cp * sp * (H.1 3 - H.1 0) + R * cos (2 * φ) * H.1 1 + sp * F.1 0 - cp * F.1 1), F.2)
  | .phizderiv =>
    let H := getHessian P A R z φ t c;
    (A.amp * R * (cp * H.1 4 - sp * H.1 2), H.2)

/-- A sequence of calls on one set of arguments; the results in order. -/
def cCalls (P : Pot) (A : CArgs) : List (Method × ℝ × ℝ × ℝ × ℝ) → Cache → List ℝ
  | [], _ => []
  | (m, R, z, φ, t) :: l, c =>
    let r := cCall P A m R z φ t c;
    r.1 :: cCalls P A l r.2

/-- The method of a potential that a C function computes. -/
def method (Q : Pot) (m : Method) : ℝ → ℝ → ℝ → ℝ → ℝ :=
  match m with
  | .Rforce => Q.Rforce
  | .zforce => Q.zforce
  | .phitorque => Q.phitorque
  | .R2deriv => Q.R2deriv
  | .z2deriv => Q.z2deriv
  | .Rzderiv => Q.Rzderiv
  | .phi2deriv => Q.phi2deriv
  | .Rphideriv => Q.Rphideriv
  | .phizderiv => Q.phizderiv

end Verif.Tilt
