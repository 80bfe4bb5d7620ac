import Verif.Spec.Pot
import Verif.Model.Tilt
import Mathlib.MeasureTheory.Integral.IntervalIntegral.Basic
import Mathlib.Analysis.SpecialFunctions.Trigonometric.Arctan

set_option autoImplicit false

/-!
# EllipsoidalPotential and its subclasses

`galpy/potential/EllipsoidalPotential.py`, `PerfectEllipsoidPotential.py`, `PowerTriaxialPotential.py`,
`TriaxialGaussianPotential.py`, `TwoPowerTriaxialPotential.py` (Hernquist, Jaffe and NFW) and
`potential_c_ext/EllipsoidalPotential.c`. Python methods are without `amp`; C functions include it.

With `glorder=None` the integrals are those of `scipy.integrate.quad`, modelled as exact integrals. With a number they
are sums over the stored nodes and weights, modelled as any list of nodes and weights. The branch for infinite `R` of
`_evaluate` is not modelled. The md5 key of the memory is the point itself.
-/

noncomputable section
namespace Verif.Ellipsoidal
open Real

/-- What a subclass supplies: `_psi`, `_mdens`, `_mdens_deriv`. -/
structure Profile where
  psi : ℝ → ℝ
  mdens : ℝ → ℝ
  mdensDeriv : ℝ → ℝ

/-- The attributes set by `__init__`, EllipsoidalPotential.py:81-135. `rot = none` is `_aligned`; `gl` has the pairs
`(_glx[k], _glw[k])`, `none` for `glorder=None`. -/
structure Par where
  b : ℝ
  c : ℝ
  prof : Profile
  rot : Option Tilt.Mat := none
  gl : Option (List (ℝ × ℝ))

/-- `_setup_zvec_pa`, EllipsoidalPotential.py:97-124. The matrices are computed as in RotateAndTiltWrapperPotential. -/
def setupRot (zvec : Option Tilt.ZVec) (pa : Option ℝ) : Except Tilt.Err (Option Tilt.Mat) :=
  if zvec.isNone ∧ (∀ p ∈ pa, |p| < 1e-10) then .ok none
  else
    match Tilt.zvecRot zvec with
    | .error e => .error e
    | .ok zr => .ok (some (Tilt.paRot pa * zr))

/-- The interval change of `_setup_gl`, EllipsoidalPotential.py:131-134, of the nodes and weights of
`numpy.polynomial.legendre.leggauss`. -/
def setupGl (leg : List (ℝ × ℝ)) : List (ℝ × ℝ) := leg.map fun n => (0.5 * n.1 + 0.5, n.2 * 0.5)

variable (p : Par)

/-- `_b2`, `_c2`, EllipsoidalPotential.py:85-86. -/
def Par.b2 : ℝ := p.b ^ 2
def Par.c2 : ℝ := p.c ^ 2
/-- `isNonAxi`, EllipsoidalPotential.py:93-94 (false in Potential.__init__). -/
def Par.isNonAxi : Prop := p.rot ≠ none ∨ |p.b - 1| > 1e-10
open Classical in
/-- `if not self.isNonAxi: phi = 0.0` at the start of the methods. -/
def Par.phi (φ : ℝ) : ℝ := if ¬ p.isNonAxi then 0 else φ

/-- `_potInt`, EllipsoidalPotential.py:376-397. -/
def potInt (x y z : ℝ) : ℝ :=
  match p.gl with
  | none => ∫ s in (0 : ℝ)..1,
      let t := 1 / s ^ 2 - 1;
      p.prof.psi (√(x ^ 2 / (1 + t) + y ^ 2 / (p.b2 + t) + z ^ 2 / (p.c2 + t)))
        / √((1 + (p.b2 - 1) * s ^ 2) * (1 + (p.c2 - 1) * s ^ 2))
  | some l => (l.map fun n =>
      let s := n.1;
      let t := 1 / s ^ 2 - 1;
      let denom := √((1 + (p.b2 - 1) * s ^ 2) * (1 + (p.c2 - 1) * s ^ 2));
      let m := √(x ^ 2 / (1 + t) + y ^ 2 / (p.b2 + t) + z ^ 2 / (p.c2 + t));
      n.2 * p.prof.psi m / denom).sum

/-- Python's `i == j` as a number. -/
def ind (i j : ℕ) : ℝ := if i = j then 1 else 0

/-- `_forceInt`, EllipsoidalPotential.py:400-416. -/
def forceInt (x y z : ℝ) (i : ℕ) : ℝ :=
  ∫ s in (0 : ℝ)..1,
    let t := 1 / s ^ 2 - 1;
    p.prof.mdens (√(x ^ 2 / (1 + t) + y ^ 2 / (p.b2 + t) + z ^ 2 / (p.c2 + t)))
      * (x / (1 + t) * ind i 0 + y / (p.b2 + t) * ind i 1 + z / (p.c2 + t) * ind i 2)
      / √((1 + (p.b2 - 1) * s ^ 2) * (1 + (p.c2 - 1) * s ^ 2))

/-- `_forceInt_all`, EllipsoidalPotential.py:419-444. -/
def forceIntAll (x y z : ℝ) : ℝ × ℝ × ℝ :=
  match p.gl with
  | none => (forceInt p x y z 0, forceInt p x y z 1, forceInt p x y z 2)
  | some l =>
    let common : ℝ × ℝ → ℝ := fun n =>
      let t := 1 / n.1 ^ 2 - 1;
      let m := √(x ^ 2 * (1 / (1 + t)) + y ^ 2 * (1 / (p.b2 + t)) + z ^ 2 * (1 / (p.c2 + t)));
      n.2 * p.prof.mdens m / √((1 + (p.b2 - 1) * n.1 ^ 2) * (1 + (p.c2 - 1) * n.1 ^ 2));
    ((l.map fun n => common n * x * (1 / (1 + (1 / n.1 ^ 2 - 1)))).sum,
      (l.map fun n => common n * y * (1 / (p.b2 + (1 / n.1 ^ 2 - 1)))).sum,
      (l.map fun n => common n * z * (1 / (p.c2 + (1 / n.1 ^ 2 - 1)))).sum)

/-- `_2ndDerivInt`, EllipsoidalPotential.py:447-476. -/
def hessInt (x y z : ℝ) (i j : ℕ) : ℝ :=
  ∫ s in (0 : ℝ)..1,
    let t := 1 / s ^ 2 - 1;
    let m := √(x ^ 2 / (1 + t) + y ^ 2 / (p.b2 + t) + z ^ 2 / (p.c2 + t));
    (p.prof.mdensDeriv m
        * (x / (1 + t) * ind i 0 + y / (p.b2 + t) * ind i 1 + z / (p.c2 + t) * ind i 2)
        * (x / (1 + t) * ind j 0 + y / (p.b2 + t) * ind j 1 + z / (p.c2 + t) * ind j 2) / m
      + p.prof.mdens m * ind i j * (1 / (1 + t) * ind i 0 + 1 / (p.b2 + t) * ind i 1 + 1 / (p.c2 + t) * ind i 2))
      / √((1 + (p.b2 - 1) * s ^ 2) * (1 + (p.c2 - 1) * s ^ 2))

/-- The six second derivatives. -/
@[ext] structure Hess where
  xx : ℝ
  xy : ℝ
  xz : ℝ
  yy : ℝ
  yz : ℝ
  zz : ℝ

/-- `_2ndDerivInt_all`, EllipsoidalPotential.py:479-519. -/
def hessIntAll (x y z : ℝ) : Hess :=
  match p.gl with
  | none => ⟨hessInt p x y z 0 0, hessInt p x y z 0 1, hessInt p x y z 0 2, hessInt p x y z 1 1, hessInt p x y z 1 2,
      hessInt p x y z 2 2⟩
  | some l =>
    let inv1t : ℝ × ℝ → ℝ := fun n => 1 / (1 + (1 / n.1 ^ 2 - 1));
    let invb2t : ℝ × ℝ → ℝ := fun n => 1 / (p.b2 + (1 / n.1 ^ 2 - 1));
    let invc2t : ℝ × ℝ → ℝ := fun n => 1 / (p.c2 + (1 / n.1 ^ 2 - 1));
    let m : ℝ × ℝ → ℝ := fun n => √(x ^ 2 * inv1t n + y ^ 2 * invb2t n + z ^ 2 * invc2t n);
    let wd : ℝ × ℝ → ℝ := fun n => n.2 / √((1 + (p.b2 - 1) * n.1 ^ 2) * (1 + (p.c2 - 1) * n.1 ^ 2));
    let dd : ℝ × ℝ → ℝ := fun n => wd n * (p.prof.mdensDeriv (m n) / m n);
    { xx := (l.map fun n => dd n * (x * inv1t n) * (x * inv1t n) + wd n * p.prof.mdens (m n) * inv1t n).sum
      xy := (l.map fun n => dd n * (x * inv1t n) * (y * invb2t n)).sum
      xz := (l.map fun n => dd n * (x * inv1t n) * (z * invc2t n)).sum
      yy := (l.map fun n => dd n * (y * invb2t n) * (y * invb2t n) + wd n * p.prof.mdens (m n) * invb2t n).sum
      yz := (l.map fun n => dd n * (y * invb2t n) * (z * invc2t n)).sum
      zz := (l.map fun n => dd n * (z * invc2t n) * (z * invc2t n) + wd n * p.prof.mdens (m n) * invc2t n).sum }

/-- `numpy.dot(self._rot, numpy.array([x, y, z]))` unless aligned. -/
def toFrame (q : ℝ × ℝ × ℝ) : ℝ × ℝ × ℝ :=
  match p.rot with
  | none => q
  | some M =>
    let v := M.mulVec ![q.1, q.2.1, q.2.2];
    (v 0, v 1, v 2)
/-- `numpy.dot(self._rot.T, numpy.array([Fx, Fy, Fz]))` unless aligned. -/
def fromFrame (F : ℝ × ℝ × ℝ) : ℝ × ℝ × ℝ :=
  match p.rot with
  | none => F
  | some M =>
    let v := M.transpose.mulVec ![F.1, F.2.1, F.2.2];
    (v 0, v 1, v 2)

/-- `_evaluate_xyz`, EllipsoidalPotential.py:152-163. -/
def evaluateXyz (x y z : ℝ) : ℝ := 2 * π * p.b * p.c * potInt p x y z
/-- `_evaluate`, EllipsoidalPotential.py:137-150. -/
def evaluate (R z φ : ℝ) : ℝ :=
  let φ := p.phi φ;
  let q := toFrame p (Coords.cyl_to_rect R φ z);
  evaluateXyz p q.1 q.2.1 q.2.2
/-- The triple computed in `_compute_forces` when the point is new, EllipsoidalPotential.py:169-187. -/
def xyzforces (q : ℝ × ℝ × ℝ) : ℝ × ℝ × ℝ :=
  let q' := toFrame p q;
  let prefac := -4 * π * p.b * p.c;
  let F := forceIntAll p q'.1 q'.2.1 q'.2.2;
  (prefac * F.1, prefac * F.2.1, prefac * F.2.2)
/-- The values computed in `_compute_2ndderivs` when the point is new, EllipsoidalPotential.py:233-250. -/
def xyzhess (q : ℝ × ℝ × ℝ) : Hess :=
  let prefac := 4 * π * p.b * p.c;
  let H := hessIntAll p q.1 q.2.1 q.2.2;
  ⟨prefac * H.xx, prefac * H.xy, prefac * H.xz, prefac * H.yy, prefac * H.yz, prefac * H.zz⟩

/-- The return values of `_Rforce`, `_phitorque`, `_zforce` from the cached triple,
EllipsoidalPotential.py:195-200, 207-212, 219-226. -/
def RforceOf (φ : ℝ) (F : ℝ × ℝ × ℝ) : ℝ :=
  let F := fromFrame p F;
  cos φ * F.1 + sin φ * F.2.1
def phitorqueOf (R φ : ℝ) (F : ℝ × ℝ × ℝ) : ℝ :=
  let F := fromFrame p F;
  R * (-sin φ * F.1 + cos φ * F.2.1)
def zforceOf (F : ℝ × ℝ × ℝ) : ℝ := (fromFrame p F).2.2
/-- The return values of the second derivatives from the cached values, EllipsoidalPotential.py:265-269, 282, 293,
310-314, 331-336, 349. -/
def R2derivOf (φ : ℝ) (H : Hess) : ℝ := cos φ ^ 2 * H.xx + sin φ ^ 2 * H.yy + 2 * cos φ * sin φ * H.xy
def RzderivOf (φ : ℝ) (H : Hess) : ℝ := cos φ * H.xz + sin φ * H.yz
def phi2derivOf (R φ : ℝ) (F : ℝ × ℝ × ℝ) (H : Hess) : ℝ :=
  R ^ 2 * (sin φ ^ 2 * H.xx + cos φ ^ 2 * H.yy - 2 * cos φ * sin φ * H.xy) + R * (cos φ * F.1 + sin φ * F.2.1)
def RphiderivOf (R φ : ℝ) (F : ℝ × ℝ × ℝ) (H : Hess) : ℝ :=
  R * cos φ * sin φ * (H.yy - H.xx) + R * cos (2 * φ) * H.xy + sin φ * F.1 - cos φ * F.2.1
def phizderivOf (R φ : ℝ) (H : Hess) : ℝ := R * (cos φ * H.yz - sin φ * H.xz)

/-- `_dens`, EllipsoidalPotential.py:351-359. -/
def dens (R z φ : ℝ) : ℝ :=
  let q := toFrame p (Coords.cyl_to_rect R φ z);
  p.prof.mdens (√(q.1 ^ 2 + q.2.1 ^ 2 / p.b2 + q.2.2 ^ 2 / p.c2))

/-- The class as a record of methods, each computed afresh. The second derivatives raise an exception in a rotated
frame (see `call`); the entries of the record are those of the aligned frame. -/
def pot : Pot where
  val := fun R z φ _ => evaluate p R z φ
  Rforce := fun R z φ _ => RforceOf p (p.phi φ) (xyzforces p (Coords.cyl_to_rect R (p.phi φ) z))
  zforce := fun R z φ _ => zforceOf p (xyzforces p (Coords.cyl_to_rect R (p.phi φ) z))
  phitorque := fun R z φ _ => phitorqueOf p R (p.phi φ) (xyzforces p (Coords.cyl_to_rect R (p.phi φ) z))
  R2deriv := fun R z φ _ => R2derivOf (p.phi φ) (xyzhess p (Coords.cyl_to_rect R (p.phi φ) z))
  z2deriv := fun R z φ _ => (xyzhess p (Coords.cyl_to_rect R (p.phi φ) z)).zz
  Rzderiv := fun R z φ _ => RzderivOf (p.phi φ) (xyzhess p (Coords.cyl_to_rect R (p.phi φ) z))
  phi2deriv := fun R z φ _ => phi2derivOf R (p.phi φ) (xyzforces p (Coords.cyl_to_rect R (p.phi φ) z))
    (xyzhess p (Coords.cyl_to_rect R (p.phi φ) z))
  Rphideriv := fun R z φ _ => RphiderivOf R (p.phi φ) (xyzforces p (Coords.cyl_to_rect R (p.phi φ) z))
    (xyzhess p (Coords.cyl_to_rect R (p.phi φ) z))
  phizderiv := fun R z φ _ => phizderivOf R (p.phi φ) (xyzhess p (Coords.cyl_to_rect R (p.phi φ) z))
  dens := fun R z φ _ => dens p R z φ

/-! ### The memory -/

/-- The methods of one object. -/
inductive Method where
  | Rforce | zforce | phitorque | R2deriv | z2deriv | Rzderiv | phi2deriv | Rphideriv | phizderiv

/-- `NotImplementedError` (rotated frame) and a missing attribute. -/
inductive Err where
  | notImplemented
  | attribute
deriving DecidableEq

/-- `_force_hash`, `_cached_F…`, `_2ndderiv_hash`, `_cached_2nd_…`; the hashes are `None` at first
(EllipsoidalPotential.py:87-88). -/
structure PyCache where
  force : Option ((ℝ × ℝ × ℝ) × (ℝ × ℝ × ℝ)) := none
  hess : Option ((ℝ × ℝ × ℝ) × Hess) := none

open Classical in
/-- `_compute_forces`, EllipsoidalPotential.py:165-188. -/
def computeForces (s : PyCache) (q : ℝ × ℝ × ℝ) : PyCache :=
  if s.force.map Prod.fst ≠ some q then { s with force := some (q, xyzforces p q) } else s
open Classical in
/-- `_compute_2ndderivs`, EllipsoidalPotential.py:228-251. -/
def computeHess (s : PyCache) (q : ℝ × ℝ × ℝ) : PyCache :=
  if s.hess.map Prod.fst ≠ some q then { s with hess := some (q, xyzhess p q) } else s

/-- Read an attribute. -/
def attr {α : Type} : Option α → Except Err α
  | none => .error .attribute
  | some a => .ok a

/-- One call of a method (EllipsoidalPotential.py:190-226, 253-349): new memory and returned value. -/
def call (s : PyCache) (m : Method) (R z φ : ℝ) : PyCache × Except Err ℝ :=
  let φ := p.phi φ;
  let q := Coords.cyl_to_rect R φ z;
  match m, p.rot with
  | .Rforce, _ => let s := computeForces p s q; (s, (attr s.force).map fun c => RforceOf p φ c.2)
  | .phitorque, _ => let s := computeForces p s q; (s, (attr s.force).map fun c => phitorqueOf p R φ c.2)
  | .zforce, _ => let s := computeForces p s q; (s, (attr s.force).map fun c => zforceOf p c.2)
  | _, some _ => (s, .error .notImplemented)
  | .R2deriv, none => let s := computeHess p s q; (s, (attr s.hess).map fun c => R2derivOf φ c.2)
  | .Rzderiv, none => let s := computeHess p s q; (s, (attr s.hess).map fun c => RzderivOf φ c.2)
  | .z2deriv, none => let s := computeHess p s q; (s, (attr s.hess).map fun c => c.2.zz)
  | .phi2deriv, none =>
    let s := computeHess p (computeForces p s q) q;
    (s, (attr s.force).bind fun f => (attr s.hess).map fun c => phi2derivOf R φ f.2 c.2)
  | .Rphideriv, none =>
    let s := computeHess p (computeForces p s q) q;
    (s, (attr s.force).bind fun f => (attr s.hess).map fun c => RphiderivOf R φ f.2 c.2)
  | .phizderiv, none => let s := computeHess p s q; (s, (attr s.hess).map fun c => phizderivOf R φ c.2)

/-- A sequence of calls `(method, R, z, phi)` on one object, from memory `s`. -/
def calls (s : PyCache) : List (Method × ℝ × ℝ × ℝ) → List (Except Err ℝ)
  | [] => []
  | (m, R, z, φ) :: l => (call p s m R z φ).2 :: calls (call p s m R z φ).1 l

/-! ### C

`args` is packed in orbit/integrateFullOrbit.py:214-286 (identically in orbit/integratePlanarOrbit.py): the amplitude,
fifteen zeros for the memory, the parameters of the profile, `b2`, `c2`, the alignment and the matrix (the identity
when aligned), and the nodes with weights `-4 pi glw b c / sqrt(...)`. The C functions of the profile are those of
Python (`CProfile`). -/

/-- The packed nodes and weights, orbit/integrateFullOrbit.py:272-286. -/
def cGl (l : List (ℝ × ℝ)) : List (ℝ × ℝ) :=
  l.map fun n => (n.1, -4 * π * n.2 * p.b * p.c
    / √((1 + (p.b2 - 1) * n.1 ^ 2) * (1 + (p.c2 - 1) * n.1 ^ 2)))
/-- `rotate` and `rotate_force`, galpy_potentials.c:391-409, under `if ( !aligned )`. -/
def cRotate (q : ℝ × ℝ × ℝ) : ℝ × ℝ × ℝ :=
  match p.rot with
  | none => q
  | some M => (M 0 0 * q.1 + M 0 1 * q.2.1 + M 0 2 * q.2.2, M 1 0 * q.1 + M 1 1 * q.2.1 + M 1 2 * q.2.2,
      M 2 0 * q.1 + M 2 1 * q.2.1 + M 2 2 * q.2.2)
def cRotateForce (q : ℝ × ℝ × ℝ) : ℝ × ℝ × ℝ :=
  match p.rot with
  | none => q
  | some M => (M 0 0 * q.1 + M 1 0 * q.2.1 + M 2 0 * q.2.2, M 0 1 * q.1 + M 1 1 * q.2.1 + M 2 1 * q.2.2,
      M 0 2 * q.1 + M 1 2 * q.2.1 + M 2 2 * q.2.2)

/-- `EllipsoidalPotentialEval`, EllipsoidalPotential.c:6-37; `prof` has the C functions. -/
def cEval (prof : Profile) (l : List (ℝ × ℝ)) (amp R z φ : ℝ) : ℝ :=
  let q := cRotate p (R * cos φ, R * sin φ, z);
  -0.5 * amp * ((cGl p l).map fun n =>
    let s := 1 / n.1 / n.1 - 1;
    n.2 * prof.psi (√(q.1 * q.1 / (1 + s) + q.2.1 * q.2.1 / (p.b2 + s) + q.2.2 * q.2.2 / (p.c2 + s)))).sum
/-- The loop of `EllipsoidalPotentialxyzforces_xyz`, EllipsoidalPotential.c:38-77. -/
def cxyzforces (prof : Profile) (l : List (ℝ × ℝ)) (q : ℝ × ℝ × ℝ) : ℝ × ℝ × ℝ :=
  let q := cRotate p q;
  let td : ℝ × ℝ → ℝ := fun n =>
    let t := 1 / n.1 / n.1 - 1;
    n.2 * prof.mdens (√(q.1 * q.1 / (1 + t) + q.2.1 * q.2.1 / (p.b2 + t) + q.2.2 * q.2.2 / (p.c2 + t)));
  cRotateForce p (((cGl p l).map fun n => td n * q.1 / (1 + (1 / n.1 / n.1 - 1))).sum,
    ((cGl p l).map fun n => td n * q.2.1 / (p.b2 + (1 / n.1 / n.1 - 1))).sum,
    ((cGl p l).map fun n => td n * q.2.2 / (p.c2 + (1 / n.1 / n.1 - 1))).sum)
/-- The loop of `EllipsoidalPotential_2ndderiv_xyz_all`, EllipsoidalPotential.c:146-228. -/
def cxyzhess (prof : Profile) (l : List (ℝ × ℝ)) (q : ℝ × ℝ × ℝ) : Hess :=
  let t1 : ℝ × ℝ → ℝ := fun n => 1 + (1 / n.1 / n.1 - 1);
  let t2 : ℝ × ℝ → ℝ := fun n => p.b2 + (1 / n.1 / n.1 - 1);
  let t3 : ℝ × ℝ → ℝ := fun n => p.c2 + (1 / n.1 / n.1 - 1);
  let m : ℝ × ℝ → ℝ := fun n => √(q.1 * q.1 / t1 n + q.2.1 * q.2.1 / t2 n + q.2.2 * q.2.2 / t3 n);
  let dens_val : ℝ × ℝ → ℝ := fun n => n.2 * prof.mdens (m n);
  let dd : ℝ × ℝ → ℝ := fun n => n.2 * prof.mdensDeriv (m n) / m n;
  { xx := ((cGl p l).map fun n => -(dd n * (q.1 / t1 n) * (q.1 / t1 n) + dens_val n / t1 n)).sum
    xy := ((cGl p l).map fun n => -(dd n * (q.1 / t1 n) * (q.2.1 / t2 n))).sum
    xz := ((cGl p l).map fun n => -(dd n * (q.1 / t1 n) * (q.2.2 / t3 n))).sum
    yy := ((cGl p l).map fun n => -(dd n * (q.2.1 / t2 n) * (q.2.1 / t2 n) + dens_val n / t2 n)).sum
    yz := ((cGl p l).map fun n => -(dd n * (q.2.1 / t2 n) * (q.2.2 / t3 n))).sum
    zz := ((cGl p l).map fun n => -(dd n * (q.2.2 / t3 n) * (q.2.2 / t3 n) + dens_val n / t3 n)).sum }
/-- `EllipsoidalPotentialDens`, EllipsoidalPotential.c:124-143. -/
def cDens (prof : Profile) (amp R z φ : ℝ) : ℝ :=
  let q := cRotate p (R * cos φ, R * sin φ, z);
  amp * prof.mdens (√(q.1 * q.1 + q.2.1 * q.2.1 / p.b2 + q.2.2 * q.2.2 / p.c2))

/-- Entries 1 to 15 of `args`; zeros at first (orbit/integrateFullOrbit.py:216-234). -/
structure CCache where
  fq : ℝ × ℝ × ℝ := (0, 0, 0)
  F : ℝ × ℝ × ℝ := (0, 0, 0)
  hq : ℝ × ℝ × ℝ := (0, 0, 0)
  H : Hess := ⟨0, 0, 0, 0, 0, 0⟩

open Classical in
/-- `EllipsoidalPotential_get_forces`, EllipsoidalPotential.c:461-478. -/
def cGetForces (prof : Profile) (l : List (ℝ × ℝ)) (s : CCache) (q : ℝ × ℝ × ℝ) : CCache :=
  if q = s.fq then s else { s with fq := q, F := cxyzforces p prof l q }
open Classical in
/-- `EllipsoidalPotential_get_2ndderiv`, EllipsoidalPotential.c:425-458. -/
def cGetHess (prof : Profile) (l : List (ℝ × ℝ)) (s : CCache) (q : ℝ × ℝ × ℝ) : CCache :=
  if q = s.hq then s else { s with hq := q, H := cxyzhess p prof l q }

/-- One call of any of the C functions, EllipsoidalPotential.c:88-114 and 479-570; the planar ones (116-123, 232-410)
are these at `z = 0`. -/
def cCall (prof : Profile) (l : List (ℝ × ℝ)) (amp : ℝ) (s : CCache) (m : Method) (R z φ : ℝ) : CCache × ℝ :=
  let q := (R * cos φ, R * sin φ, z);
  match m with
  | .Rforce => let s := cGetForces p prof l s q; (s, amp * (cos φ * s.F.1 + sin φ * s.F.2.1))
  | .phitorque => let s := cGetForces p prof l s q; (s, amp * R * (-sin φ * s.F.1 + cos φ * s.F.2.1))
  | .zforce => let s := cGetForces p prof l s q; (s, amp * s.F.2.2)
  | .R2deriv =>
    let s := cGetHess p prof l s q;
    (s, amp * (cos φ * cos φ * s.H.xx + sin φ * sin φ * s.H.yy + 2 * cos φ * sin φ * s.H.xy))
  | .z2deriv => let s := cGetHess p prof l s q; (s, amp * s.H.zz)
  | .Rzderiv => let s := cGetHess p prof l s q; (s, amp * (cos φ * s.H.xz + sin φ * s.H.yz))
  | .phi2deriv =>
    let s := cGetHess p prof l (cGetForces p prof l s q) q;
    (s, amp * (R * R * (sin φ * sin φ * s.H.xx + cos φ * cos φ * s.H.yy - 2 * cos φ * sin φ * s.H.xy)
      + R * (cos φ * s.F.1 + sin φ * s.F.2.1)))
  | .Rphideriv =>
    let s := cGetHess p prof l (cGetForces p prof l s q) q;
    (s, amp * (R * (cos φ * sin φ * (s.H.yy - s.H.xx) + cos (2 * φ) * s.H.xy) + sin φ * s.F.1 - cos φ * s.F.2.1))
  | .phizderiv => let s := cGetHess p prof l s q; (s, amp * R * (cos φ * s.H.yz - sin φ * s.H.xz))

/-- A sequence of C calls sharing one `potentialArg`. -/
def cCalls (prof : Profile) (l : List (ℝ × ℝ)) (amp : ℝ) (s : CCache) : List (Method × ℝ × ℝ × ℝ) → List ℝ
  | [] => []
  | (m, R, z, φ) :: k => (cCall p prof l amp s m R z φ).2 :: cCalls prof l amp (cCall p prof l amp s m R z φ).1 k

/-! ### The subclasses -/

/-- PerfectEllipsoidPotential.py:99-109. -/
def perfect (a : ℝ) : Profile where
  psi := fun m => -1 / (a ^ 2 + m ^ 2)
  mdens := fun m => (a ^ 2 + m ^ 2) ^ (-2 : ℤ)
  mdensDeriv := fun m => -4 * m * (a ^ 2 + m ^ 2) ^ (-3 : ℤ)
/-- TwoPowerTriaxialPotential.py:286-296, TriaxialHernquistPotential with `a4 = a**4` (272). -/
def hernquist (a : ℝ) : Profile where
  psi := fun m => -a ^ 4 / (m + a) ^ 2
  mdens := fun m => a ^ 4 / m / (m + a) ^ 3
  mdensDeriv := fun m => -a ^ 4 * (a + 4 * m) / m ^ 2 / (a + m) ^ 4
/-- TwoPowerTriaxialPotential.py:405-419, TriaxialJaffePotential. -/
def jaffe (a : ℝ) : Profile where
  psi := fun m => 2 * a ^ 2 * (1 / (1 + m / a) + log (1 / (1 + a / m)))
  mdens := fun m => a ^ 2 / m ^ 2 / (1 + m / a) ^ 2
  mdensDeriv := fun m => -2 * (a ^ 2) ^ 2 * (a + 2 * m) / m ^ 3 / (a + m) ^ 3
/-- TwoPowerTriaxialPotential.py:557-567, TriaxialNFWPotential with `a3 = a**3` (549). -/
def nfw (a : ℝ) : Profile where
  psi := fun m => -2 * a ^ 3 / (a + m)
  mdens := fun m => a / m / (1 + m / a) ^ 2
  mdensDeriv := fun m => -a ^ 3 * (a + 3 * m) / m ^ 2 / (a + m) ^ 3
/-- PowerTriaxialPotential.py:103-113. -/
def power (α : ℝ) : Profile where
  psi := fun m => 2 / (2 - α) * m ^ (2 - α)
  mdens := fun m => m ^ (-α)
  mdensDeriv := fun m => -α * m ^ (-(1 + α))
/-- TriaxialGaussianPotential.py:101-111 with `_twosigma2 = 2*sigma**2` (85). -/
def gaussian (σ : ℝ) : Profile where
  psi := fun m => -(2 * σ ^ 2) * exp (-m ^ 2 / (2 * σ ^ 2))
  mdens := fun m => exp (-m ^ 2 / (2 * σ ^ 2))
  mdensDeriv := fun m => -2 * m * exp (-m ^ 2 / (2 * σ ^ 2)) / (2 * σ ^ 2)

/-- PerfectEllipsoidPotential.c:4-18 with the argument `a2` (integrateFullOrbit.py:261). -/
def cPerfect (a : ℝ) : Profile where
  psi := fun m => -1 / (a ^ 2 + m * m)
  mdens := fun m => 1 / (a ^ 2 + m * m) / (a ^ 2 + m * m)
  mdensDeriv := fun m => -4 * m * (a ^ 2 + m * m) ^ (-3 : ℤ)
/-- TwoPowerTriaxialPotential.c:8-25 with the arguments `a, a4` (integrateFullOrbit.py:238). -/
def cHernquist (a : ℝ) : Profile where
  psi := fun m => -a ^ 4 / (m + a) / (m + a)
  mdens := fun m => a ^ 4 * (m + a) ^ (-3 : ℤ) / m
  mdensDeriv := fun m => -a ^ 4 * (a + 4 * m) / m / m * (m + a) ^ (-4 : ℤ)
/-- TwoPowerTriaxialPotential.c:28-45 with the arguments `a, a2` (integrateFullOrbit.py:244). -/
def cJaffe (a : ℝ) : Profile where
  psi := fun m => 2 * a ^ 2 * (a / (m + a) + log (m / (m + a)))
  mdens := fun m => a ^ 2 * a ^ 2 * (m * (m + a)) ^ (-2 : ℤ)
  mdensDeriv := fun m => -2 * a ^ 2 * a ^ 2 * (a + 2 * m) * (m * (m + a)) ^ (-3 : ℤ)
/-- TwoPowerTriaxialPotential.c:48-65 with the arguments `a, a3` (integrateFullOrbit.py:241). -/
def cNfw (a : ℝ) : Profile where
  psi := fun m => -2 * a ^ 3 / (m + a)
  mdens := fun m => a ^ 3 / m / (m + a) / (m + a)
  mdensDeriv := fun m => -a ^ 3 * (a + 3 * m) / m / m * (m + a) ^ (-3 : ℤ)
/-- PowerTriaxialPotential.c:4-18 with the argument `alpha` (integrateFullOrbit.py:267). -/
def cPower (α : ℝ) : Profile where
  psi := fun m => 2 / (2 - α) * (m * m) ^ (1 - α / 2)
  mdens := fun m => (m * m) ^ (-α / 2)
  mdensDeriv := fun m => -α * (m * m) ^ ((-α - 1) / 2)
/-- TriaxialGaussianPotential.c:4-15 with the argument `-_twosigma2` (integrateFullOrbit.py:264). -/
def cGaussian (σ : ℝ) : Profile where
  psi := fun m => -(2 * σ ^ 2) * exp (m * m / -(2 * σ ^ 2))
  mdens := fun m => exp (m * m / -(2 * σ ^ 2))
  mdensDeriv := fun m => 2 * m / -(2 * σ ^ 2) * exp (m * m / -(2 * σ ^ 2))

/-! ### Enclosed masses

The mass within the ellipsoid of semi-major axis `R`. -/

/-- `_mass` of the base class, EllipsoidalPotential.py:361-370 (also for PowerTriaxialPotential). -/
def mass (R : ℝ) : ℝ := 4 * π * p.b * p.c * ∫ m in (0 : ℝ)..R, m ^ 2 * p.prof.mdens m
/-- PerfectEllipsoidPotential.py:111-121. -/
def massPerfect (a b c R : ℝ) : ℝ := 2 * π * b * c / a * (arctan (R / a) - R * a / (1 + R ^ 2))
/-- TwoPowerTriaxialPotential.py:298-310. -/
def massHernquist (a b c R : ℝ) : ℝ := 4 * π * a ^ 4 / a / (1 + a / R) ^ 2 / 2 * b * c
/-- TwoPowerTriaxialPotential.py:421-426. -/
def massJaffe (a b c R : ℝ) : ℝ := 4 * π * a * a ^ 2 / (1 + a / R) * b * c
/-- TwoPowerTriaxialPotential.py:569-579. -/
def massNfw (a b c R : ℝ) : ℝ := 4 * π * a ^ 3 * b * c * (log (1 + R / a) - R / a / (1 + R / a))
/-- `scipy.special.erf`. -/
def erf (x : ℝ) : ℝ := 2 / √π * ∫ t in (0 : ℝ)..x, exp (-t ^ 2)
/-- TriaxialGaussianPotential.py:113-127. -/
def massGaussian (σ b c R : ℝ) : ℝ :=
  π * b * c * (2 * σ ^ 2) * σ * (√(2 * π) * erf (R / σ / √2) - 2 * R / σ * exp (-R ^ 2 / (2 * σ ^ 2)))

end Verif.Ellipsoidal
