import Verif.Spec.Pot
import Mathlib.Analysis.SpecialFunctions.Trigonometric.Basic
import Mathlib.Analysis.SpecialFunctions.Pow.Real

set_option autoImplicit false

/-!
# SoftenedNeedleBarPotential

`galpy/potential/SoftenedNeedleBarPotential.py` and `potential_c_ext/SoftenedNeedleBarPotential.c`. Python methods are
without `amp`; C functions include it.

Both implementations remember the rectangular forces (Python also the second derivatives) of the last point. The
record `pot` has the values computed without that memory; the memory itself is `PyCache`, `CCache` and the `…Step`
functions. Simplification: the key is the tuple `(R, phi, z, t)` itself, not its md5 digest.
-/

noncomputable section
namespace Verif.SoftenedNeedle
open Real

/-- The parameters: `_a`, `_b`, `_c2`, `_pa`, `_omegab` (SoftenedNeedleBarPotential.py:72-81). -/
structure Par where
  a : ℝ
  b : ℝ
  c2 : ℝ
  pa : ℝ
  omegab : ℝ

variable (p : Par)

/-- `_compute_xyz`, SoftenedNeedleBarPotential.py:140-141, with coords.cyl_to_rect (coords.py). -/
def xyz (R φ z t : ℝ) : ℝ × ℝ × ℝ :=
  (R * cos (φ - p.pa - p.omegab * t), R * sin (φ - p.pa - p.omegab * t), z)
/-- `_compute_TpTm`, SoftenedNeedleBarPotential.py:143-148. -/
def TpTm (x y z : ℝ) : ℝ × ℝ :=
  let secondpart := y ^ 2 + (p.b + √(p.c2 + z ^ 2)) ^ 2;
  (√((p.a + x) ^ 2 + secondpart), √((p.a - x) ^ 2 + secondpart))
/-- `_evaluate`, SoftenedNeedleBarPotential.py:94-97. -/
def evaluate (R z φ t : ℝ) : ℝ :=
  let (x, y, z) := xyz p R φ z t;
  let (Tp, Tm) := TpTm p x y z;
  log ((x - p.a + Tm) / (x + p.a + Tp)) / 2 / p.a
/-- `_xforce_xyz`, SoftenedNeedleBarPotential.py:216-217. -/
def xforce (x Tp Tm : ℝ) : ℝ := -2 * x / Tp / Tm / (Tp + Tm)
/-- `_yforce_xyz`, SoftenedNeedleBarPotential.py:219-227. -/
def yforce (x y z Tp Tm : ℝ) : ℝ :=
  -y / 2 / Tp / Tm * (Tp + Tm - 4 * x ^ 2 / (Tp + Tm)) / (y ^ 2 + (p.b + √(z ^ 2 + p.c2)) ^ 2)
/-- `_zforce_xyz`, SoftenedNeedleBarPotential.py:229-240. -/
def zforceXyz (x y z Tp Tm : ℝ) : ℝ :=
  let zc := √(z ^ 2 + p.c2);
  -z / 2 / Tp / Tm * (Tp + Tm - 4 * x ^ 2 / (Tp + Tm)) / (y ^ 2 + (p.b + zc) ^ 2) * (p.b + zc) / zc
/-- The triple computed in `_compute_xyzforces` when the point is new, SoftenedNeedleBarPotential.py:154-164. -/
def xyzforces (R φ z t : ℝ) : ℝ × ℝ × ℝ :=
  let (x, y, z) := xyz p R φ z t;
  let (Tp, Tm) := TpTm p x y z;
  let Fx := xforce x Tp Tm;
  let Fy := yforce p x y z Tp Tm;
  let Fz := zforceXyz p x y z Tp Tm;
  let tp := p.pa + p.omegab * t;
  let cp := cos tp;
  let sp := sin tp;
  (cp * Fx - sp * Fy, sp * Fx + cp * Fy, Fz)

/-- The six second derivatives of `_compute_cylhess`, SoftenedNeedleBarPotential.py:204-214. -/
structure Hess where
  RR : ℝ
  phiphi : ℝ
  Rphi : ℝ
  Rz : ℝ
  zz : ℝ
  phiz : ℝ

/-- The values computed in `_compute_cylhess` when the point is new, SoftenedNeedleBarPotential.py:176-214. -/
def cylhess (R φ z t : ℝ) : Hess :=
  let phid := φ - p.pa - p.omegab * t;
  let cd := cos phid;
  let sd := sin phid;
  let x := R * cd;
  let y := R * sd;
  let zc := √(z ^ 2 + p.c2);
  let u := p.b + zc;
  let s2 := y ^ 2 + u ^ 2;
  let (Tp, Tm) := TpTm p x y z;
  let G := (p.a - x) / Tm + (p.a + x) / Tp;
  let H := (p.a - x) / Tm ^ 3 + (p.a + x) / Tp ^ 3;
  let K := 1 / Tm ^ 3 - 1 / Tp ^ 3;
  let w := z * u / zc;
  let px := (1 / Tm - 1 / Tp) / 2 / p.a;
  let py := y * G / 2 / p.a / s2;
  let pxx := H / 2 / p.a;
  let pxy := -y * K / 2 / p.a;
  let pxz := -w * K / 2 / p.a;
  let pyy := (G * (s2 - 2 * y ^ 2) / s2 ^ 2 - y ^ 2 * H / s2) / 2 / p.a;
  let pyz := -y * w * (2 * G / s2 ^ 2 + H / s2) / 2 / p.a;
  let pzz := ((1 + p.b * p.c2 / zc ^ 3) * G / s2 - w ^ 2 * (H / s2 + 2 * G / s2 ^ 2)) / 2 / p.a;
  { RR := cd ^ 2 * pxx + 2 * cd * sd * pxy + sd ^ 2 * pyy
    phiphi := R ^ 2 * (sd ^ 2 * pxx - 2 * sd * cd * pxy + cd ^ 2 * pyy) - R * (cd * px + sd * py)
    Rphi := R * (-sd * cd * pxx + (cd ^ 2 - sd ^ 2) * pxy + sd * cd * pyy) + (-sd * px + cd * py)
    Rz := cd * pxz + sd * pyz
    zz := pzz
    phiz := R * (-sd * pxz + cd * pyz) }

/-- `_dens`, SoftenedNeedleBarPotential.py:242-269. -/
def dens (R z φ t : ℝ) : ℝ :=
  let (x, y, z) := xyz p R φ z t;
  let zc := √(z ^ 2 + p.c2);
  let bzc2 := (p.b + zc) ^ 2;
  let bigA := p.b * y ^ 2 + (p.b + 3 * zc) * bzc2;
  let bigC := y ^ 2 + bzc2;
  p.c2 / 24 / π / p.a / bigC ^ 2 / zc ^ 3
    * ((x + p.a) * (3 * bigA * bigC + (2 * bigA + p.b * bigC) * (x + p.a) ^ 2) / (bigC + (x + p.a) ^ 2) ^ (1.5 : ℝ)
      - (x - p.a) * (3 * bigA * bigC + (2 * bigA + p.b * bigC) * (x - p.a) ^ 2) / (bigC + (x - p.a) ^ 2) ^ (1.5 : ℝ))

/-- The components returned by `_Rforce`, `_phitorque`, `_zforce` from the cached triple,
SoftenedNeedleBarPotential.py:99-111. -/
def ofForces (R φ : ℝ) (F : ℝ × ℝ × ℝ) : ℝ × ℝ × ℝ :=
  (cos φ * F.1 + sin φ * F.2.1, R * (-sin φ * F.1 + cos φ * F.2.1), F.2.2)

/-- The class as a record of methods, each computed afresh. -/
def pot : Pot where
  val := evaluate p
  Rforce := fun R z φ t => (ofForces R φ (xyzforces p R φ z t)).1
  zforce := fun R z φ t => (ofForces R φ (xyzforces p R φ z t)).2.2
  phitorque := fun R z φ t => (ofForces R φ (xyzforces p R φ z t)).2.1
  R2deriv := fun R z φ t => (cylhess p R φ z t).RR
  z2deriv := fun R z φ t => (cylhess p R φ z t).zz
  Rzderiv := fun R z φ t => (cylhess p R φ z t).Rz
  phi2deriv := fun R z φ t => (cylhess p R φ z t).phiphi
  Rphideriv := fun R z φ t => (cylhess p R φ z t).Rphi
  phizderiv := fun R z φ t => (cylhess p R φ z t).phiz
  dens := dens p

/-! ### The memory -/

/-- The methods of one object. -/
inductive Method where
  | Rforce | zforce | phitorque | R2deriv | z2deriv | Rzderiv | phi2deriv | Rphideriv | phizderiv

/-- `_force_hash`, `_cached_F…`, `_hess_hash`, `_cached_d2…`; the hashes are `None` at first
(SoftenedNeedleBarPotential.py:82-83). -/
structure PyCache where
  force : Option ((ℝ × ℝ × ℝ × ℝ) × (ℝ × ℝ × ℝ)) := none
  hess : Option ((ℝ × ℝ × ℝ × ℝ) × Hess) := none

open Classical in
/-- `_compute_xyzforces`, SoftenedNeedleBarPotential.py:150-164. -/
def computeForces (s : PyCache) (R φ z t : ℝ) : PyCache :=
  if s.force.map Prod.fst ≠ some (R, φ, z, t) then { s with force := some ((R, φ, z, t), xyzforces p R φ z t) } else s
open Classical in
/-- `_compute_cylhess`, SoftenedNeedleBarPotential.py:166-214. -/
def computeHess (s : PyCache) (R φ z t : ℝ) : PyCache :=
  if s.hess.map Prod.fst = some (R, φ, z, t) then s else { s with hess := some ((R, φ, z, t), cylhess p R φ z t) }

/-- One call of a method (SoftenedNeedleBarPotential.py:99-135): new memory and returned value; `none` stands for the
attribute missing. -/
def call (s : PyCache) (m : Method) (R z φ t : ℝ) : PyCache × Option ℝ :=
  match m with
  | .Rforce =>
    let s' := computeForces p s R φ z t;
    (s', s'.force.map fun c => (ofForces R φ c.2).1)
  | .phitorque =>
    let s' := computeForces p s R φ z t;
    (s', s'.force.map fun c => (ofForces R φ c.2).2.1)
  | .zforce =>
    let s' := computeForces p s R φ z t;
    (s', s'.force.map fun c => (ofForces R φ c.2).2.2)
  | .R2deriv => let s' := computeHess p s R φ z t; (s', s'.hess.map fun c => c.2.RR)
  | .z2deriv => let s' := computeHess p s R φ z t; (s', s'.hess.map fun c => c.2.zz)
  | .phi2deriv => let s' := computeHess p s R φ z t; (s', s'.hess.map fun c => c.2.phiphi)
  | .Rzderiv => let s' := computeHess p s R φ z t; (s', s'.hess.map fun c => c.2.Rz)
  | .Rphideriv => let s' := computeHess p s R φ z t; (s', s'.hess.map fun c => c.2.Rphi)
  | .phizderiv => let s' := computeHess p s R φ z t; (s', s'.hess.map fun c => c.2.phiz)

/-- A sequence of calls `(method, R, z, phi, t)` on one object, from memory `s`. -/
def calls (s : PyCache) : List (Method × ℝ × ℝ × ℝ × ℝ) → List (Option ℝ)
  | [] => []
  | (m, R, z, φ, t) :: l => (call p s m R z φ t).2 :: calls (call p s m R z φ t).1 l

/-! ### C -/

/-- `compute_TpTm`, SoftenedNeedleBarPotential.c:5-11. -/
def cTpTm (x y z : ℝ) : ℝ × ℝ :=
  let secondpart := y * y + (p.b + √(z * z + p.c2)) ^ 2;
  (√((p.a + x) ^ 2 + secondpart), √((p.a - x) ^ 2 + secondpart))
/-- `SoftenedNeedleBarPotentialEval`, SoftenedNeedleBarPotential.c:12-29. -/
def cEval (amp R z φ t : ℝ) : ℝ :=
  let x := R * cos (φ - p.pa - p.omegab * t);
  let y := R * sin (φ - p.pa - p.omegab * t);
  let (Tp, Tm) := cTpTm p x y z;
  0.5 * amp * log ((x - p.a + Tm) / (x + p.a + Tp)) / p.a
/-- The last seven entries of `args`: cached `R, z, phi, t` and forces; zeros at first
(orbit/integrateFullOrbit.py:305-306, orbit/integratePlanarOrbit.py). -/
structure CCache where
  R : ℝ := 0
  z : ℝ := 0
  φ : ℝ := 0
  t : ℝ := 0
  Fx : ℝ := 0
  Fy : ℝ := 0
  Fz : ℝ := 0
open Classical in
/-- `SoftenedNeedleBarPotentialxyzforces_xyz`, SoftenedNeedleBarPotential.c:30-66. -/
def cxyzforces (s : CCache) (R z φ t : ℝ) : CCache :=
  if R ≠ s.R ∨ φ ≠ s.φ ∨ z ≠ s.z ∨ t ≠ s.t then
    let x := R * cos (φ - p.pa - p.omegab * t);
    let y := R * sin (φ - p.pa - p.omegab * t);
    let (Tp, Tm) := cTpTm p x y z;
    let zc := √(z * z + p.c2);
    let Fx := -2 * x / Tp / Tm / (Tp + Tm);
    let Fy := -y / 2 / Tp / Tm * (Tp + Tm - 4 * x * x / (Tp + Tm)) / (y * y + (p.b + zc) ^ 2);
    let Fz := -z / 2 / Tp / Tm * (Tp + Tm - 4 * x * x / (Tp + Tm)) / (y * y + (p.b + zc) ^ 2) * (p.b + zc) / zc;
    let cp := cos (p.pa + p.omegab * t);
    let sp := sin (p.pa + p.omegab * t);
    { R, z, φ, t, Fx := cp * Fx - sp * Fy, Fy := sp * Fx + cp * Fy, Fz }
  else s
/-- The force functions, SoftenedNeedleBarPotential.c:67-139; the planar ones (87-90, 111-114) are these at `z = 0`. -/
def cForce (amp : ℝ) (s : CCache) (m : Method) (R z φ t : ℝ) : CCache × ℝ :=
  let s' := cxyzforces p s R z φ t;
  match m with
  | .Rforce => (s', amp * (cos φ * s'.Fx + sin φ * s'.Fy))
  | .phitorque => (s', amp * R * (-sin φ * s'.Fx + cos φ * s'.Fy))
  | _ => (s', amp * s'.Fz)
/-- `SoftenedNeedleBarPotentialCylHess`, SoftenedNeedleBarPotential.c:147-196. -/
def cCylHess (R z φ t : ℝ) : Hess :=
  let cd := cos (φ - p.pa - p.omegab * t);
  let sd := sin (φ - p.pa - p.omegab * t);
  let x := R * cd;
  let y := R * sd;
  let zc := √(z * z + p.c2);
  let u := p.b + zc;
  let s2 := y * y + u * u;
  let (Tp, Tm) := cTpTm p x y z;
  let Tp3 := Tp * Tp * Tp;
  let Tm3 := Tm * Tm * Tm;
  let G := (p.a - x) / Tm + (p.a + x) / Tp;
  let H := (p.a - x) / Tm3 + (p.a + x) / Tp3;
  let K := 1 / Tm3 - 1 / Tp3;
  let w := z * u / zc;
  let px := (1 / Tm - 1 / Tp) / 2 / p.a;
  let py := y * G / 2 / p.a / s2;
  let pxx := H / 2 / p.a;
  let pxy := -y * K / 2 / p.a;
  let pxz := -w * K / 2 / p.a;
  let pyy := (G * (s2 - 2 * y * y) / s2 / s2 - y * y * H / s2) / 2 / p.a;
  let pyz := -y * w * (2 * G / s2 / s2 + H / s2) / 2 / p.a;
  let pzz := ((1 + p.b * p.c2 / zc / zc / zc) * G / s2 - w * w * (H / s2 + 2 * G / s2 / s2)) / 2 / p.a;
  { RR := cd * cd * pxx + 2 * cd * sd * pxy + sd * sd * pyy
    zz := pzz
    phiphi := R * R * (sd * sd * pxx - 2 * sd * cd * pxy + cd * cd * pyy) - R * (cd * px + sd * py)
    Rz := cd * pxz + sd * pyz
    Rphi := R * (-sd * cd * pxx + (cd * cd - sd * sd) * pxy + sd * cd * pyy) - sd * px + cd * py
    phiz := R * (-sd * pxz + cd * pyz) }
/-- One call of any of the C functions, SoftenedNeedleBarPotential.c:67-139 and 197-300. -/
def cCall (amp : ℝ) (s : CCache) (m : Method) (R z φ t : ℝ) : CCache × ℝ :=
  match m with
  | .Rforce | .phitorque | .zforce => cForce p amp s m R z φ t
  | .R2deriv => (s, amp * (cCylHess p R z φ t).RR)
  | .z2deriv => (s, amp * (cCylHess p R z φ t).zz)
  | .phi2deriv => (s, amp * (cCylHess p R z φ t).phiphi)
  | .Rzderiv => (s, amp * (cCylHess p R z φ t).Rz)
  | .Rphideriv => (s, amp * (cCylHess p R z φ t).Rphi)
  | .phizderiv => (s, amp * (cCylHess p R z φ t).phiz)
/-- A sequence of C calls sharing one `potentialArg`. -/
def cCalls (amp : ℝ) (s : CCache) : List (Method × ℝ × ℝ × ℝ × ℝ) → List ℝ
  | [] => []
  | (m, R, z, φ, t) :: l => (cCall p amp s m R z φ t).2 :: cCalls amp (cCall p amp s m R z φ t).1 l

end Verif.SoftenedNeedle
