import Verif.Model.UtilNumerics
import Mathlib.MeasureTheory.Integral.IntervalIntegral.Basic
import Mathlib.Analysis.SpecialFunctions.Trigonometric.Inverse
import Mathlib.Algebra.Order.Floor.Ring

set_option autoImplicit false

/-!
# Velocity kicks in the impulse approximation

Transcription of the functions `impulse_deltav_*` of `galpy/df/streamgapdf.py` for one star (one row of `v`); arrays of stars
are treated row by row.
Division by zero produces a number that is not finite in the code; where that matters the model returns `none`.
`integrate.quad` is the integral.
-/

noncomputable section
namespace Verif.Impulse
open Real Util

/-- Assignment to an element of an array of the type of `v`: an array of integers drops the fraction. -/
def store (int : Bool) (x : ℝ) : ℝ := if int then (if 0 ≤ x then (⌊x⌋ : ℝ) else (⌈x⌉ : ℝ)) else x

/-- `_rotation_vy`, streamgapdf.py:2085-2086. -/
def rotationVy (v : Fin 3 → ℝ) (inv : Bool) : Matrix (Fin 3) (Fin 3) ℝ := rotateTo v ![0, 1, 0] inv false

/-- `numpy.sqrt(numpy.sum(x**2))`. -/
def mag (x : Fin 3 → ℝ) : ℝ := √(x 0 ^ 2 + x 1 ^ 2 + x 2 ^ 2)

/-- `tilew`, streamgapdf.py:1318, 1448, 1604, 1907. -/
def tilew (v w : Fin 3 → ℝ) : Fin 3 → ℝ := (rotationVy v false).mulVec w
/-- `wperp`, streamgapdf.py:1320, 1449, 1909. -/
def wperp (v w : Fin 3 → ℝ) : ℝ := √(tilew v w 0 ^ 2 + tilew v w 2 ^ 2)
/-- `wpar`, streamgapdf.py:1321, 1450, 1910. -/
def wpar (v w : Fin 3 → ℝ) : ℝ := mag v - tilew v w 1
/-- `wmag2`, streamgapdf.py:1322, 1451, 1911. -/
def wmag2 (v w : Fin 3 → ℝ) : ℝ := wpar v w ^ 2 + wperp v w ^ 2
/-- `wmag`, streamgapdf.py:1323, 1452, 1912. -/
def wmag (v w : Fin 3 → ℝ) : ℝ := √(wmag2 v w)

/-- The array `out` of `impulse_deltav_plummer`, streamgapdf.py:1324-1340; `int` says whether `v` is an array of integers. -/
def plummerOut (int : Bool) (v : Fin 3 → ℝ) (y b : ℝ) (w : Fin 3 → ℝ) (rs : ℝ) : Fin 3 → ℝ :=
  let tw := tilew v w;
  let denom := wmag v w * ((b ^ 2 + rs ^ 2) * wmag2 v w + wperp v w ^ 2 * y ^ 2);
  if |wperp v w| < 10 ^ (-10 : ℤ) then
    ![store int ((b * wmag2 v w - y * wpar v w * tw 0) / denom),
      store int (-(wperp v w ^ 2) * y / denom),
      store int (-(b * wmag2 v w + y * wpar v w * tw 2) / denom)]
  else
    ![store int ((b * wmag2 v w * tw 2 / wperp v w - y * wpar v w * tw 0) / denom),
      store int (-(wperp v w ^ 2) * y / denom),
      store int (-(b * wmag2 v w * tw 0 / wperp v w + y * wpar v w * tw 2) / denom)]

/-- `impulse_deltav_plummer`, streamgapdf.py:1282-1348. -/
def plummer (int : Bool) (v : Fin 3 → ℝ) (y b : ℝ) (w : Fin 3 → ℝ) (GM rs : ℝ) : Fin 3 → ℝ := fun i =>
  2 * GM * (rotationVy v true).mulVec (plummerOut int v y b w rs) i

/-- `b0` of the functions for curved streams, streamgapdf.py:1387-1388, 1538-1539, 1656-1657. -/
def b0 (b : ℝ) (w v0 : Fin 3 → ℝ) : Fin 3 → ℝ := fun i => cross w v0 i * (b / mag (cross w v0))
/-- `b_`, streamgapdf.py:1389, 1540, 1658. -/
def bvec (x : Fin 3 → ℝ) (b : ℝ) (w x0 v0 : Fin 3 → ℝ) : Fin 3 → ℝ := fun i => b0 b w v0 i + x i - x0 i

/-- `impulse_deltav_plummer_curvedstream`, streamgapdf.py:1351-1395. -/
def plummerCurved (v x : Fin 3 → ℝ) (b : ℝ) (w x0 v0 : Fin 3 → ℝ) (GM rs : ℝ) : Fin 3 → ℝ :=
  let b_ := bvec x b w x0 v0;
  let w' : Fin 3 → ℝ := fun i => w i - v i;
  let bdotw := dot b_ w' / mag w';
  let denom := mag w' * (dot b_ b_ + rs ^ 2 - bdotw ^ 2);
  fun i => -2 * GM * ((b_ i - bdotw * w' i / mag w') * (1 / denom))

/-- `HernquistX`, streamgapdf.py:1398-1409; `none` is the exception, and also the division by zero at `s = 0`. -/
def hernquistX (s : ℝ) : Option ℝ :=
  if s < 0 then none
  else if s = 0 then none
  else if s < 1 then some (log ((1 + √(1 - s * s)) / s) / √(1 - s * s))
  else if s = 1 then some 1
  else some (arccos (1 / s) / √(s * s - 1))

/-- `Xfac`, streamgapdf.py:1456-1458, 1547-1549. -/
def xfac (B rs : ℝ) : Option ℝ := (hernquistX (√(2 * B / (rs + B)))).map fun X => 1 - 2 * rs / (rs + B) * X

/-- `B`, streamgapdf.py:1453. -/
def hernquistB (v : Fin 3 → ℝ) (y b : ℝ) (w : Fin 3 → ℝ) : ℝ := √(b ^ 2 + wperp v w ^ 2 * y ^ 2 / wmag2 v w)

/-- The array `out` of `impulse_deltav_hernquist`, streamgapdf.py:1453-1490; not finite where `denom` is zero. -/
def hernquistOut (int : Bool) (v : Fin 3 → ℝ) (y b : ℝ) (w : Fin 3 → ℝ) (rs : ℝ) : Option (Fin 3 → ℝ) :=
  let tw := tilew v w;
  let B := hernquistB v y b w;
  let denom0 := wmag v w * (B ^ 2 - rs ^ 2);
  if denom0 = 0 then none
  else
    let denom := 1 / denom0;
    (xfac B rs).map fun Xfac =>
      if |wperp v w| < 10 ^ (-10 : ℤ) then
        ![store int ((b - y * wpar v w * tw 0 / wmag2 v w) * denom * Xfac),
          store int (-(wperp v w ^ 2) * y * denom * Xfac / wmag2 v w),
          store int (-(b + y * wpar v w * tw 2 / wmag2 v w) * denom * Xfac)]
      else
        ![store int ((b * tw 2 / wperp v w - y * wpar v w * tw 0 / wmag2 v w) * denom * Xfac),
          store int (-(wperp v w ^ 2) * y * denom * Xfac / wmag2 v w),
          store int (-(b * tw 0 / wperp v w + y * wpar v w * tw 2 / wmag2 v w) * denom * Xfac)]

/-- `impulse_deltav_hernquist`, streamgapdf.py:1412-1498. -/
def hernquist (int : Bool) (v : Fin 3 → ℝ) (y b : ℝ) (w : Fin 3 → ℝ) (GM rs : ℝ) : Option (Fin 3 → ℝ) :=
  (hernquistOut int v y b w rs).map fun out i => 2 * GM * (rotationVy v true).mulVec out i

/-- `impulse_deltav_hernquist_curvedstream`, streamgapdf.py:1501-1550. -/
def hernquistCurved (v x : Fin 3 → ℝ) (b : ℝ) (w x0 v0 : Fin 3 → ℝ) (GM rs : ℝ) : Option (Fin 3 → ℝ) :=
  let b_ := bvec x b w x0 v0;
  let w' : Fin 3 → ℝ := fun i => w i - v i;
  let bdotw := dot b_ w' / mag w';
  let B := √(dot b_ b_ - bdotw ^ 2);
  let denom0 := mag w' * (B ^ 2 - rs ^ 2);
  if denom0 = 0 then none
  else (xfac B rs).map fun Xfac i => -2 * GM * ((b_ i - bdotw * w' i / mag w') * Xfac * (1 / denom0))

/-- `_a_integrand`, streamgapdf.py:1553-1557; `F` is `evaluateRforces(pot, r, 0)`. -/
def aIntegrand (T y : ℝ) (b w : Fin 3 → ℝ) (F : ℝ → ℝ) (compt : Fin 3) : ℝ :=
  let t := T / (1 - T * T);
  let X : Fin 3 → ℝ := fun i => b i + w i * t + y * ![0, 1, 0] i;
  let r := mag X;
  (1 + T * T) / (1 - T * T) ^ 2 * F r * X compt / r

/-- `_deltav_integrate`, streamgapdf.py:1560-1566. -/
def deltavIntegrate (y : ℝ) (b w : Fin 3 → ℝ) (F : ℝ → ℝ) : Fin 3 → ℝ := fun i =>
  ∫ T in (-1 : ℝ)..1, aIntegrand T y b w F i

/-- `impulse_deltav_general`, streamgapdf.py:1569-1617. -/
def general (v : Fin 3 → ℝ) (y b : ℝ) (w : Fin 3 → ℝ) (F : ℝ → ℝ) : Fin 3 → ℝ :=
  let tw : Fin 3 → ℝ := ![tilew v w 0, tilew v w 1 - mag v, tilew v w 2];
  let wmag' := √(tw 0 ^ 2 + tw 2 ^ 2);
  let b0' : Fin 3 → ℝ := ![b * (-tw 2 / wmag'), b * 0, b * (tw 0 / wmag')];
  fun i => (rotationVy v true).mulVec (deltavIntegrate y b0' tw F) i

/-- `impulse_deltav_general_curvedstream`, streamgapdf.py:1620-1661. -/
def generalCurved (v x : Fin 3 → ℝ) (b : ℝ) (w x0 v0 : Fin 3 → ℝ) (F : ℝ → ℝ) : Fin 3 → ℝ :=
  deltavIntegrate 0 (bvec x b w x0 v0) (fun i => w i - v i) F

/-- `impulse_deltav_plummerstream`, streamgapdf.py:1864-1977, with the integrands 1844-1861, both times given. -/
def plummerStream (int : Bool) (v : Fin 3 → ℝ) (y b : ℝ) (w : Fin 3 → ℝ) (GSigma : ℝ → ℝ) (rs tmin tmax : ℝ) : Fin 3 → ℝ :=
  let tw := tilew v w;
  let vmag := mag v;
  let q : ℝ → ℝ := fun t => (b ^ 2 + rs ^ 2) * wmag2 v w + wperp v w ^ 2 * (y - vmag * t) ^ 2;
  let out : Fin 3 → ℝ := ![
    store int (1 / wmag v w * ∫ t in tmin..tmax,
      GSigma t * (b * wmag2 v w * tw 2 / wperp v w - (y - vmag * t) * wpar v w * tw 0) / q t),
    store int (-(wperp v w ^ 2) / wmag v w * ∫ t in tmin..tmax, GSigma t * (y - vmag * t) / q t),
    store int (1 / wmag v w * ∫ t in tmin..tmax,
      -GSigma t * (b * wmag2 v w * tw 0 / wperp v w + (y - vmag * t) * wpar v w * tw 2) / q t)];
  fun i => 2 * (rotationVy v true).mulVec out i

end Verif.Impulse
