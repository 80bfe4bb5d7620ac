import Verif.Spec.Pot
import Verif.Model.Pot.Ellipsoidal
import Mathlib.Analysis.SpecialFunctions.Gamma.Basic
import Mathlib.MeasureTheory.Integral.Bochner.Set

set_option autoImplicit false

/-!
# FerrersPotential

`galpy/potential/FerrersPotential.py`, without `amp`; there is no C version. `scipy.integrate.quad` is modelled as the
exact integral and `numpy.roots` as the exact roots. The branch for a composite of arrays is not modelled (the code
works on scalars). The key of the memory is the tuple `(R, phi, z, t)` itself, not its md5 digest.
-/

noncomputable section
namespace Verif.Ferrers
open Real

/-- `a`, `n`, `_b`, `_c`, `_omegab`, `_pa`, FerrersPotential.py:83-98. -/
structure Par where
  a : ℝ
  n : ℝ
  b : ℝ
  c : ℝ
  omegab : ℝ
  pa : ℝ

/-- `__init__` refuses `n <= 0`, FerrersPotential.py:88-89. -/
def init (q : Par) : Option Par := if q.n ≤ 0 then none else some q

variable (p : Par)

/-- `_rhoc_M`, FerrersPotential.py:99. -/
def Par.rhocM : ℝ := Gamma (p.n + 2.5) / Gamma (p.n + 1) / π ^ (1.5 : ℝ) / p.a ^ 3 / p.b / p.c
/-- `_a2`, `_b2`, `_c2`, FerrersPotential.py:94-96. -/
def Par.a2 : ℝ := p.a ^ 2
def Par.b2 : ℝ := p.b ^ 2
def Par.c2 : ℝ := p.c ^ 2
/-- `isNonAxi`, FerrersPotential.py:104-105. -/
def Par.isNonAxi : Prop := |p.b - 1| > 1e-10
open Classical in
/-- `if not self.isNonAxi: phi = 0.0` at the start of the methods. -/
def Par.phi (φ : ℝ) : ℝ := if ¬ p.isNonAxi then 0 else φ

/-- `_FracInt`, FerrersPotential.py:435-442. -/
def fracInt (x y z a b c τ n : ℝ) : ℝ :=
  (1 - x ^ 2 / (a + τ) - y ^ 2 / (b + τ) - z ^ 2 / (c + τ)) ^ n / √((a + τ) * (b + τ) * (c + τ))
/-- `lowerlim`, FerrersPotential.py:445-458; `ll[0]` is the first positive real root. There is only one
(`lowerlim_spec`), the infimum picks it. -/
def lowerlim (x y z a b c : ℝ) : ℝ :=
  if x / a + y / b + z / c > 1 then
    let B := a + b + c - x - y - z;
    let C := a * b + a * c + b * c - a * y - a * z - b * x - b * z - c * x - c * y;
    let D := a * b * c - a * b * z - a * c * y - b * c * x;
    sInf {r | 0 < r ∧ 1 * r ^ 3 + B * r ^ 2 + C * r + D = 0}
  else 0
/-- `_potInt`, FerrersPotential.py:365-378. -/
def potInt (x y z a2 b2 c2 n : ℝ) : ℝ :=
  ∫ τ in Set.Ioi (lowerlim (x ^ 2) (y ^ 2) (z ^ 2) a2 b2 c2), fracInt x y z a2 b2 c2 τ (n + 1)
/-- Python's `i == j` as a number. -/
def ind (i j : ℕ) : ℝ := if i = j then 1 else 0
/-- `_forceInt`, FerrersPotential.py:381-398. -/
def forceInt (x y z a2 b2 c2 n : ℝ) (i : ℕ) : ℝ :=
  ∫ τ in Set.Ioi (lowerlim (x ^ 2) (y ^ 2) (z ^ 2) a2 b2 c2),
    (x * ind i 0 + y * ind i 1 + z * ind i 2) / (a2 * ind i 0 + b2 * ind i 1 + c2 * ind i 2 + τ)
      * fracInt x y z a2 b2 c2 τ n
/-- `i == k or j == k` as a number. -/
def either (i j k : ℕ) : ℝ := if i = k ∨ j = k then 1 else 0
/-- `_2ndDerivInt`, FerrersPotential.py:401-432. -/
def hessInt (x y z a2 b2 c2 n : ℝ) (i j : ℕ) : ℝ :=
  ∫ τ in Set.Ioi (lowerlim (x ^ 2) (y ^ 2) (z ^ 2) a2 b2 c2),
    if i ≠ j then
      fracInt x y z a2 b2 c2 τ (n - 1) * n
        * (1 + (-1 - 2 * x / (τ + a2)) * either i j 0)
        * (1 + (-1 - 2 * y / (τ + b2)) * either i j 1)
        * (1 + (-1 - 2 * z / (τ + c2)) * either i j 2)
    else
      let var2 := x ^ 2 * ind i 0 + y ^ 2 * ind i 1 + z ^ 2 * ind i 2;
      let coef2 := a2 * ind i 0 + b2 * ind i 1 + c2 * ind i 2;
      fracInt x y z a2 b2 c2 τ (n - 1) * n * (4 * var2) / (τ + coef2) ^ 2
        + fracInt x y z a2 b2 c2 τ n * (-2 / (τ + coef2))

/-- `_evaluate_xyz`, FerrersPotential.py:116-129. -/
def evaluateXyz (x y z : ℝ) : ℝ :=
  -π * p.rhocM / (p.n + 1) * p.a ^ 3 * p.b * p.c * potInt x y z p.a2 (p.b2 * p.a2) (p.c2 * p.a2) p.n
/-- `_xforce_xyz`, `_yforce_xyz`, `_zforce_xyz`, FerrersPotential.py:173-216. -/
def forceXyz (x y z : ℝ) (i : ℕ) : ℝ :=
  -2 * π * p.rhocM * p.a ^ 3 * p.b * p.c * forceInt x y z p.a2 (p.b2 * p.a2) (p.c2 * p.a2) p.n i
/-- `_2ndderiv_xyz`, FerrersPotential.py:310-330. -/
def hessXyz (x y z : ℝ) (i j : ℕ) : ℝ :=
  -π * p.rhocM * p.a ^ 3 * p.b * p.c * hessInt x y z p.a2 (p.b2 * p.a2) (p.c2 * p.a2) p.n i j

/-- `_compute_xyz`, FerrersPotential.py:151-152. -/
def xyz (R φ z t : ℝ) : ℝ × ℝ × ℝ := Coords.cyl_to_rect R (φ - p.pa - p.omegab * t) z

/-- `_evaluate`, FerrersPotential.py:108-114, with `rot(t)`, 343-362. -/
def evaluate (R z φ t : ℝ) : ℝ :=
  let (x, y, z) := Coords.cyl_to_rect R (p.phi φ) z;
  evaluateXyz p (cos (p.pa + p.omegab * t) * x + sin (p.pa + p.omegab * t) * y)
    (-sin (p.pa + p.omegab * t) * x + cos (p.pa + p.omegab * t) * y) z
/-- The triple computed in `_compute_xyzforces` when the point is new, FerrersPotential.py:162-171. -/
def xyzforces (R φ z t : ℝ) : ℝ × ℝ × ℝ :=
  let (x, y, z) := xyz p R φ z t;
  let Fx := forceXyz p x y z 0;
  let Fy := forceXyz p x y z 1;
  let Fz := forceXyz p x y z 2;
  let tp := p.pa + p.omegab * t;
  (cos tp * Fx - sin tp * Fy, sin tp * Fx + cos tp * Fy, Fz)
/-- The rotated force of `_phi2deriv`, `_Rphideriv`, FerrersPotential.py:258-261, 280-283. -/
def rotForce (R φ z t : ℝ) : ℝ × ℝ :=
  let (x, y, z) := xyz p R φ z t;
  let Fx := forceXyz p x y z 0;
  let Fy := forceXyz p x y z 1;
  let tp := p.pa + p.omegab * t;
  (cos tp * Fx + -sin tp * Fy, sin tp * Fx + cos tp * Fy)
/-- `phixx, phixy, phiyy`, FerrersPotential.py:221-229, repeated at 262-269 and 284-291. -/
def rotHess (R φ z t : ℝ) : ℝ × ℝ × ℝ :=
  let (x, y, z) := xyz p R φ z t;
  let phixxa := hessXyz p x y z 0 0;
  let phixya := hessXyz p x y z 0 1;
  let phiyya := hessXyz p x y z 1 1;
  let ang := p.omegab * t + p.pa;
  let c := cos ang;
  let s := sin ang;
  (c ^ 2 * phixxa + 2 * c * s * phixya + s ^ 2 * phiyya,
    (c ^ 2 - s ^ 2) * phixya + c * s * (phiyya - phixxa),
    s ^ 2 * phixxa - 2 * c * s * phixya + c ^ 2 * phiyya)
/-- `_R2deriv`, FerrersPotential.py:218-234. -/
def R2deriv (R z φ t : ℝ) : ℝ :=
  let φ := p.phi φ;
  let (xx, xy, yy) := rotHess p R φ z t;
  cos φ ^ 2 * xx + sin φ ^ 2 * yy + 2 * cos φ * sin φ * xy
/-- `_Rzderiv`, FerrersPotential.py:236-246. -/
def Rzderiv (R z φ t : ℝ) : ℝ :=
  let φ := p.phi φ;
  let (x, y, z) := xyz p R φ z t;
  let phixza := hessXyz p x y z 0 2;
  let phiyza := hessXyz p x y z 1 2;
  let ang := p.omegab * t + p.pa;
  let c := cos ang;
  let s := sin ang;
  let phixz := c * phixza + s * phiyza;
  let phiyz := -s * phixza + c * phiyza;
  cos φ * phixz + sin φ * phiyz
/-- `_z2deriv`, FerrersPotential.py:248-252. -/
def z2deriv (R z φ t : ℝ) : ℝ :=
  let (x, y, z) := xyz p R (p.phi φ) z t;
  hessXyz p x y z 2 2
/-- `_phi2deriv`, FerrersPotential.py:254-274. -/
def phi2deriv (R z φ t : ℝ) : ℝ :=
  let φ := p.phi φ;
  let (xx, xy, yy) := rotHess p R φ z t;
  let (Fx, Fy) := rotForce p R φ z t;
  R ^ 2 * (sin φ ^ 2 * xx + cos φ ^ 2 * yy - 2 * cos φ * sin φ * xy) + R * (cos φ * Fx + sin φ * Fy)
/-- `_Rphideriv`, FerrersPotential.py:276-297. -/
def Rphideriv (R z φ t : ℝ) : ℝ :=
  let φ := p.phi φ;
  let (xx, xy, yy) := rotHess p R φ z t;
  let (Fx, Fy) := rotForce p R φ z t;
  R * cos φ * sin φ * (yy - xx) + R * cos (2 * φ) * xy + sin φ * Fx - cos φ * Fy
/-- `_phizderiv`, FerrersPotential.py:299-308. -/
def phizderiv (R z φ t : ℝ) : ℝ :=
  let φ := p.phi φ;
  let (x, y, z) := xyz p R φ z t;
  let phixza := hessXyz p x y z 0 2;
  let phiyza := hessXyz p x y z 1 2;
  let tp := p.pa + p.omegab * t;
  let phixz := cos tp * phixza + -sin tp * phiyza;
  let phiyz := sin tp * phixza + cos tp * phiyza;
  R * (cos φ * phiyz - sin φ * phixz)
open Classical in
/-- `_dens`, FerrersPotential.py:332-338. -/
def dens (R z φ t : ℝ) : ℝ :=
  let (x, y, z) := xyz p R φ z t;
  let m2 := x ^ 2 / p.a2 + y ^ 2 / p.b2 + z ^ 2 / p.c2;
  if m2 < 1 then p.rhocM * (1 - m2 / p.a ^ 2) ^ p.n else 0

/-- The class as a record of methods, each computed afresh; forces from FerrersPotential.py:131-149. -/
def pot : Pot where
  val := evaluate p
  Rforce := fun R z φ t => let F := xyzforces p R (p.phi φ) z t; cos (p.phi φ) * F.1 + sin (p.phi φ) * F.2.1
  phitorque := fun R z φ t => let F := xyzforces p R (p.phi φ) z t; R * (-sin (p.phi φ) * F.1 + cos (p.phi φ) * F.2.1)
  zforce := fun R z φ t => (xyzforces p R (p.phi φ) z t).2.2
  R2deriv := R2deriv p
  z2deriv := z2deriv p
  Rzderiv := Rzderiv p
  phi2deriv := phi2deriv p
  Rphideriv := Rphideriv p
  phizderiv := phizderiv p
  dens := dens p

/-! ### The memory of the last point -/

/-- `_force_hash`, `None` at first (FerrersPotential.py:97), and `_cached_Fx/Fy/Fz`. -/
structure PyCache where
  force : Option ((ℝ × ℝ × ℝ × ℝ) × (ℝ × ℝ × ℝ)) := none

open Classical in
/-- `_compute_xyzforces`, FerrersPotential.py:154-171. -/
def computeForces (s : PyCache) (R φ z t : ℝ) : PyCache :=
  if s.force.map Prod.fst = some (R, φ, z, t) then s else ⟨some ((R, φ, z, t), xyzforces p R φ z t)⟩

/-- The methods of the class. -/
inductive Method where
  | val | Rforce | phitorque | zforce | R2deriv | z2deriv | Rzderiv | phi2deriv | Rphideriv | phizderiv | dens

/-- One call; `none` is an `AttributeError`. Only the forces use the memory, FerrersPotential.py:131-149. -/
def call (s : PyCache) (m : Method) (R z φ t : ℝ) : PyCache × Option ℝ :=
  let s' := computeForces p s R (p.phi φ) z t;
  match m with
  | .val => (s, some (evaluate p R z φ t))
  | .Rforce => (s', s'.force.map fun F => cos (p.phi φ) * F.2.1 + sin (p.phi φ) * F.2.2.1)
  | .phitorque => (s', s'.force.map fun F => R * (-sin (p.phi φ) * F.2.1 + cos (p.phi φ) * F.2.2.1))
  | .zforce => (s', s'.force.map fun F => F.2.2.2)
  | .R2deriv => (s, some (R2deriv p R z φ t))
  | .z2deriv => (s, some (z2deriv p R z φ t))
  | .Rzderiv => (s, some (Rzderiv p R z φ t))
  | .phi2deriv => (s, some (phi2deriv p R z φ t))
  | .Rphideriv => (s, some (Rphideriv p R z φ t))
  | .phizderiv => (s, some (phizderiv p R z φ t))
  | .dens => (s, some (dens p R z φ t))

/-- A sequence of calls on one object. -/
def calls (s : PyCache) : List (Method × ℝ × ℝ × ℝ × ℝ) → List (Option ℝ)
  | [] => []
  | (m, R, z, φ, t) :: l => (call p s m R z φ t).2 :: calls (call p s m R z φ t).1 l

end Verif.Ferrers
