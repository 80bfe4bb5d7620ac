import Mathlib.Analysis.SpecialFunctions.Pow.Real
import Mathlib.Algebra.BigOperators.Fin

set_option autoImplicit false

/-!
# The DOP853 integrator in Python

`galpy/util/leung_dop853.py`, used by `galpy/orbit/integrateLinearOrbit.py:332`. Real numbers for floating-point ones. The
coefficients (36-198) are parameters, so everything proved holds for the values in the file. A norm that is zero where
the code divides by it gives `inf` or `nan` in numpy and zero here. `nmax` is not used by the code.
-/

noncomputable section
namespace Verif.Dop853
open Real

/-- The coefficients, leung_dop853.py:36-198: `a i j` is `a<i><j>`, `d i j` is `d<i><j>`. -/
structure Tab where
  a : ℕ → ℕ → ℝ
  b : ℕ → ℝ
  bhh : ℕ → ℝ
  er : ℕ → ℝ
  c : ℕ → ℝ
  d : ℕ → ℕ → ℝ

abbrev V (n : ℕ) := Fin n → ℝ

/-- `1e3 * uround`, leung_dop853.py:203, 300. -/
def hmin : ℝ := 1e3 * 2 ^ (-52 : ℤ)

open Classical in
/-- `custom_sign`, leung_dop853.py:206-207. -/
def customSign (a b : ℝ) : ℝ := if b > 0 then |a| else -|a|

/-- The arguments of `dopri853core`, leung_dop853.py:264-266. -/
structure Par (n : ℕ) where
  tab : Tab
  f : V n → ℝ → V n
  hmax : ℝ
  rtol : ℝ
  atol : ℝ
  safe : ℝ
  beta : ℝ
  fac1 : ℝ
  fac2 : ℝ
  pn : ℝ

section
variable {n : ℕ} (P : Par n)

/-- `hinit`, leung_dop853.py:210-239: the step only. `iord = 8`. -/
def hinit (x : V n) (t0 : ℝ) (f0 : V n) : ℝ :=
  let sk : V n := fun i => P.atol + P.rtol * |x i|;
  let dnf := ∑ i, (f0 i / sk i) ^ 2;
  let dny := ∑ i, (x i / sk i) ^ 2;
  let h := √(dny / dnf) * 0.01;
  let h := min h |P.hmax|;
  let h := customSign h P.pn;
  let xx1 := x + h • f0;
  let f1 := P.f xx1 (t0 + h);
  let der2 := ∑ i, ((f1 i - f0 i) / sk i) ^ 2;
  let der2 := √der2 / h;
  let der12 := max |der2| (√dnf);
  let h1 := (0.01 / der12) ^ (1 / 8 : ℝ);
  let h := min (100 * |h|) (min |h1| |P.hmax|);
  customSign h P.pn

/-- What is kept of the stages: the variables `k1`, `k6` to `k10`, `k2` (eleventh), `k3` (twelfth), `k4` (the increment)
and `k5` (the new state). -/
structure Ks (n : ℕ) where
  k1 : V n
  k6 : V n
  k7 : V n
  k8 : V n
  k9 : V n
  k10 : V n
  k2 : V n
  k3 : V n
  k4 : V n
  k5 : V n

/-- The twelve stages, leung_dop853.py:302-378. -/
def stages (x : V n) (t h : ℝ) (k1 : V n) : Ks n :=
  let a := P.tab.a;
  let b := P.tab.b;
  let c := P.tab.c;
  let k2 := P.f (x + (h * a 2 1) • k1) (t + c 2 * h);
  let k3 := P.f (x + h • (a 3 1 • k1 + a 3 2 • k2)) (t + c 3 * h);
  let k4 := P.f (x + h • (a 4 1 • k1 + a 4 3 • k3)) (t + c 4 * h);
  let k5 := P.f (x + h • (a 5 1 • k1 + a 5 3 • k3 + a 5 4 • k4)) (t + c 5 * h);
  let k6 := P.f (x + h • (a 6 1 • k1 + a 6 4 • k4 + a 6 5 • k5)) (t + c 6 * h);
  let k7 := P.f (x + h • (a 7 1 • k1 + a 7 4 • k4 + a 7 5 • k5 + a 7 6 • k6)) (t + c 7 * h);
  let k8 := P.f (x + h • (a 8 1 • k1 + a 8 4 • k4 + a 8 5 • k5 + a 8 6 • k6 + a 8 7 • k7)) (t + c 8 * h);
  let k9 := P.f (x + h • (a 9 1 • k1 + a 9 4 • k4 + a 9 5 • k5 + a 9 6 • k6 + a 9 7 • k7 + a 9 8 • k8)) (t + c 9 * h);
  let k10 := P.f (x + h • (a 10 1 • k1 + a 10 4 • k4 + a 10 5 • k5 + a 10 6 • k6 + a 10 7 • k7 + a 10 8 • k8
    + a 10 9 • k9)) (t + c 10 * h);
  let k2 := P.f (x + h • (a 11 1 • k1 + a 11 4 • k4 + a 11 5 • k5 + a 11 6 • k6 + a 11 7 • k7 + a 11 8 • k8
    + a 11 9 • k9 + a 11 10 • k10)) (t + c 11 * h);
  let xx1 := x + h • (a 12 1 • k1 + a 12 4 • k4 + a 12 5 • k5 + a 12 6 • k6 + a 12 7 • k7 + a 12 8 • k8
    + a 12 9 • k9 + a 12 10 • k10 + a 12 11 • k2);
  let k3 := P.f xx1 (t + h);
  let k4 := b 1 • k1 + b 6 • k6 + b 7 • k7 + b 8 • k8 + b 9 • k9 + b 10 • k10 + b 11 • k2 + b 12 • k3;
  let k5 := x + h • k4;
  ⟨k1, k6, k7, k8, k9, k10, k2, k3, k4, k5⟩

open Classical in
/-- The error estimate, leung_dop853.py:380-398. -/
def errOf (x : V n) (h : ℝ) (K : Ks n) : ℝ :=
  let e := P.tab.er;
  let sk : V n := fun i => P.atol + P.rtol * max |x i| |K.k5 i|;
  let erri := K.k4 - P.tab.bhh 1 • K.k1 - P.tab.bhh 2 • K.k9 - P.tab.bhh 3 • K.k3;
  let err2 := ∑ i, (erri i / sk i) ^ 2;
  let erri := e 1 • K.k1 + e 6 • K.k6 + e 7 • K.k7 + e 8 • K.k8 + e 9 • K.k9 + e 10 • K.k10 + e 11 • K.k2 + e 12 • K.k3;
  let err := ∑ i, (erri i / sk i) ^ 2;
  let deno := err + 0.01 * err2;
  let deno := if deno ≤ 0 then 1 else deno;
  |h| * err * √(1 / (deno * n))

/-- `rcont1` to `rcont8`, leung_dop853.py:415-502. -/
structure Rc (n : ℕ) where
  r1 : V n
  r2 : V n
  r3 : V n
  r4 : V n
  r5 : V n
  r6 : V n
  r7 : V n
  r8 : V n

/-- The preparation of the dense output, leung_dop853.py:415-502; `kn` is `k4` after line 413, `t` is `t_old`. -/
def rcont (x : V n) (t h : ℝ) (K : Ks n) (kn : V n) : Rc n :=
  let a := P.tab.a;
  let d := P.tab.d;
  let xdiff := K.k5 - x;
  let bspl := h • K.k1 - xdiff;
  let part := fun i => d i 1 • K.k1 + d i 6 • K.k6 + d i 7 • K.k7 + d i 8 • K.k8 + d i 9 • K.k9 + d i 10 • K.k10
    + d i 11 • K.k2 + d i 12 • K.k3;
  let k10 := P.f (x + h • (a 14 1 • K.k1 + a 14 7 • K.k7 + a 14 8 • K.k8 + a 14 9 • K.k9 + a 14 10 • K.k10
    + a 14 11 • K.k2 + a 14 12 • K.k3 + a 14 13 • kn)) (t + P.tab.c 14 * h);
  let k2 := P.f (x + h • (a 15 1 • K.k1 + a 15 6 • K.k6 + a 15 7 • K.k7 + a 15 8 • K.k8 + a 15 11 • K.k2
    + a 15 12 • K.k3 + a 15 13 • kn + a 15 14 • k10)) (t + P.tab.c 15 * h);
  let k3 := P.f (x + h • (a 16 1 • K.k1 + a 16 6 • K.k6 + a 16 7 • K.k7 + a 16 8 • K.k8 + a 16 9 • K.k9
    + a 16 13 • kn + a 16 14 • k10 + a 16 15 • k2)) (t + P.tab.c 16 * h);
  let fin := fun i => h • (part i + d i 13 • kn + d i 14 • k10 + d i 15 • k2 + d i 16 • k3);
  ⟨x, xdiff, bspl, xdiff - h • kn - bspl, fin 4, fin 5, fin 6, fin 7⟩

/-- `dense_output`, leung_dop853.py:242-261. -/
def dense (t told h : ℝ) (r : Rc n) : V n :=
  let s := (t - told) / h;
  let s1 := 1 - s;
  r.r1 + s • (r.r2 + s1 • (r.r3 + s • (r.r4 + s1 • (r.r5 + s • (r.r6 + s1 • (r.r7 + s • r.r8))))))

/-- The variables of the loop. `rest` has the times after index `finished_user_t_ii`, `out` the rows up to it. `t_old` is
set in every pass before it is used, so its value between passes is left out. -/
structure St (n : ℕ) where
  h : ℝ
  x : V n
  k1 : V n
  tc : ℝ
  facold : ℝ
  reject : Bool
  rest : List ℝ
  out : List (V n)

open Classical in
/-- One pass of the loop, leung_dop853.py:299-534. -/
def step (S : St n) : St n :=
  let expo1 := 1 / 8 - P.beta * 0.2;
  let facc1 := 1 / P.fac1;
  let facc2 := 1 / P.fac2;
  let hmax := |P.hmax|;
  let h := P.pn * max |S.h| hmin;
  let K := stages P S.x S.tc h S.k1;
  let told := S.tc;
  let tc := S.tc + h;
  let err := errOf P S.x h K;
  let fac11 := err ^ expo1;
  let fac := fac11 / S.facold ^ P.beta;
  let fac := max facc2 (min facc1 (fac / P.safe));
  let hnew := h / fac;
  if err ≤ 1 then
    let kn := P.f K.k5 tc;
    let r := rcont P S.x told h K kn;
    let hnew := if |hnew| > hmax then P.pn * hmax else hnew;
    let hnew := if S.reject then P.pn * min |hnew| |h| else hnew;
    { h := hnew, x := K.k5, k1 := kn, tc := tc, facold := max err 1e-4, reject := false,
      rest := S.rest.dropWhile fun t => P.pn * t < P.pn * tc,
      out := S.out ++ (S.rest.takeWhile fun t => P.pn * t < P.pn * tc).map fun t => dense t told h r }
  else { S with h := h / min facc1 (fac11 / P.safe), reject := true }

open Classical in
/-- The state before the loop, leung_dop853.py:270-293. -/
def init (x : V n) (h t0 : ℝ) (ts : List ℝ) : St n :=
  let k1 := P.f x t0;
  let h := if h = 0 then hinit P x t0 k1 else h;
  { h := h, x := x, k1 := k1, tc := t0, facold := 1e-4, reject := false, rest := ts, out := [x] }

/-- The loop, leung_dop853.py:296-536, stopped after `fuel` passes if it has not ended (`none`). -/
def loop : ℕ → St n → Option (List (V n))
  | 0, S => if S.rest = [] then some S.out else none
  | k + 1, S => if S.rest = [] then some S.out else loop k (step P S)
end

open Classical in
/-- `dop853`, leung_dop853.py:539-609, for the times `t0 :: ts`. -/
def dop853 {n : ℕ} (tab : Tab) (f : V n → ℝ → V n) (x : V n) (t0 : ℝ) (ts : List ℝ) (hmax h rtol atol safe beta fac1 fac2 : ℝ)
    (fuel : ℕ) : Option (List (V n)) :=
  let last := (t0 :: ts).getLast (List.cons_ne_nil _ _);
  let hmax := if hmax = 0 then last - t0 else hmax;
  let pn := customSign 1 (last - t0);
  let P : Par n := ⟨tab, f, hmax, rtol, atol, safe, beta, fac1, fac2, pn⟩;
  loop P fuel (init P x h t0 ts)

end Verif.Dop853
