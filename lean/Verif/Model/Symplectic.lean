import Verif.Spec.Splitting
import Mathlib.Algebra.BigOperators.Fin
import Mathlib.Analysis.SpecialFunctions.Pow.Real
import Mathlib.Algebra.Order.Round

set_option autoImplicit false

/-!
# Symplectic integrators

`galpy/util/symplecticode.py` and `galpy/util/bovy_symplecticode.c`.  Positions and momenta are
elements of a real vector space `V` (arrays of any length); arithmetic is exact.  A force function
has arguments position and time.  Signal handling of the C functions is an arbitrary function
`intr` telling whether the flag `interrupted` is set when output `ii` is started.
-/

noncomputable section
namespace Verif.Symp

variable {V : Type*} [AddCommGroup V] [Module ℝ V]

/-- `leapfrog_leapq`, symplecticode.py:100-101 and bovy_symplecticode.c:63-67. -/
def leapq (q p : V) (dt : ℝ) : V := q + dt • p
/-- `leapfrog_leapp`, symplecticode.py:104-105 and bovy_symplecticode.c:68-72. -/
def leapp (p : V) (dt : ℝ) (force : V) : V := p + dt • force

/-- `int(x)` in Python, `(long) x` in C: rounding towards zero. -/
def trunc (x : ℝ) : ℤ := if 0 ≤ x then ⌊x⌋ else ⌈x⌉

/-! ### Python -/

/-- Loop body, symplecticode.py:81-88 (the local variables `q12`, `po`, `to`). -/
def pySub (F : V → ℝ → V) (dt : ℝ) (s : St V) : St V :=
  let force := F s.q (s.t + dt / 2);
  let po := leapp s.p dt force;
  let q12 := leapq s.q po dt;
  ⟨q12, po, s.t + dt⟩

/-- One output interval, symplecticode.py:79-93. -/
def pyInterval (F : V → ℝ → V) (dt : ℝ) (ndt : ℤ) (s : St V) : St V :=
  let q12 := leapq s.q s.p (dt / 2);
  let s1 := (pySub F dt)^[(ndt - 1).toNat] ⟨q12, s.p, s.t⟩;
  let force := F s1.q (s1.t + dt / 2);
  let po := leapp s1.p dt force;
  ⟨leapq s1.q po (dt / 2), po, s1.t + dt⟩

/-- The rows written by the loop over outputs, symplecticode.py:78-96. -/
def outputs (step : St V → St V) : ℕ → St V → List (St V)
  | 0, _ => []
  | n + 1, s => step s :: outputs step n (step s)

/-- The loop of `_leapfrog_estimate_step`, symplecticode.py:113-133; `errOf dt` is the error norm
computed for the current `dt` (lines 116-132). At most `fuel` rounds; `Lemmas/Symplectic` shows 15
are always enough. -/
def pyEstLoop (errOf : ℝ → ℝ) (init_dt : ℝ) : ℕ → ℝ → ℝ → ℝ
  | 0, dt, _ => dt
  | fuel + 1, dt, err =>
    if 1 < err ∧ init_dt / dt < 10000 then pyEstLoop errOf init_dt fuel (dt / 2) (errOf dt) else dt

/-- Error norm of `_leapfrog_estimate_step`, symplecticode.py:110-112, 116-132, for arrays of length
`n`; `amax`, `mean` as in numpy. (Division by a zero scale gives 0 here, inf or nan in numpy.) -/
def pyErr {n : ℕ} (F : (Fin n → ℝ) → ℝ → Fin n → ℝ) (qo po : Fin n → ℝ) (t₀ rtol atol dt : ℝ) : ℝ :=
  let qmax := ⨆ i, |qo i|;
  let pmax := ⨆ i, |po i|;
  let scaleq := atol + rtol * qmax;
  let scalep := atol + rtol * pmax;
  let q12 := leapq qo po (dt / 2);
  let p11 := leapp po dt (F q12 (t₀ + dt / 2));
  let q11 := leapq q12 p11 (dt / 2);
  let q12 := leapq qo po (dt / 4);
  let ptmp := leapp po (dt / 2) (F q12 (t₀ + dt / 4));
  let qtmp := leapq q12 ptmp (dt / 2);
  let p12 := leapp ptmp (dt / 2) (F qtmp (t₀ + 3 * dt / 4));
  let q12 := leapq qtmp p12 (dt / 4);
  Real.sqrt ((∑ i, (|q11 i - q12 i| / scaleq) ^ 2 + ∑ i, (|p11 i - p12 i| / scalep) ^ 2) / (2 * n))

/-- `leapfrog`, symplecticode.py:38-97: output rows as pairs (position, momentum), with the value of
the variable `to`. Fewer than two times raise `IndexError` at line 70 or 72; two equal first times
make `init_dt / dt` a nan, and `int(nan)` at line 75 raises `ValueError`. -/
def pyLeapfrog {n : ℕ} (F : (Fin n → ℝ) → ℝ → Fin n → ℝ) (qo po : Fin n → ℝ) (t : List ℝ)
    (rtol atol : ℝ) : Except String (List (St (Fin n → ℝ))) :=
  match t with
  | t₀ :: t₁ :: rest =>
    let init_dt := t₁ - t₀;
    let dt := pyEstLoop (pyErr F qo po t₀ rtol atol) init_dt 15 (2 * init_dt) 2;
    let ndt := trunc (init_dt / dt);
    if init_dt = 0 then .error "ValueError" else
    .ok (⟨qo, po, t₀⟩ :: outputs (pyInterval F dt ndt) (t₁ :: rest).length ⟨qo, po, t₀⟩)
  | _ => .error "IndexError"

/-! ### C -/

/-- The work arrays and the variable `to` (here `tc`) of the C functions. -/
structure CBuf (V : Type*) where
  qo : V
  po : V
  q12 : V
  p12 : V
  tc : ℝ

/-- `leapfrog`, inner loop body, bovy_symplecticode.c:190-200. -/
def cLeapSub (F : V → ℝ → V) (dt : ℝ) (b : CBuf V) : CBuf V :=
  let a := F b.q12 (b.tc + dt / 2);
  let b := { b with p12 := leapp b.po dt a };
  let b := { b with qo := leapq b.q12 b.p12 dt };
  let b := { b with tc := b.tc + dt };
  { b with q12 := b.qo, po := b.p12 }

/-- `leapfrog`, one output interval, bovy_symplecticode.c:186-208. -/
def cLeapInterval (F : V → ℝ → V) (dt : ℝ) (ndt : ℤ) (b : CBuf V) : CBuf V :=
  let b := { b with q12 := leapq b.qo b.po (dt / 2) };
  let b := (cLeapSub F dt)^[(ndt - 1).toNat] b;
  let a := F b.q12 (b.tc + dt / 2);
  let b := { b with po := leapp b.po dt a };
  let b := { b with qo := leapq b.q12 b.po (dt / 2) };
  { b with tc := b.tc + dt }

/-- `symplec4_cs`, bovy_symplecticode.c:96-97. -/
def cs4 : Fin 4 → ℝ := ![0.6756035959798289, -0.1756035959798288, -0.1756035959798288, 0.6756035959798289]
/-- `symplec4_ds`, bovy_symplecticode.c:98-99. -/
def ds4 : Fin 3 → ℝ := ![1.3512071919596578, -1.7024143839193153, 1.3512071919596578]
/-- `symplec6_cs`, bovy_symplecticode.c:100-103. -/
def cs6 : Fin 8 → ℝ := ![0.392256805238780, 0.510043411918458, -0.471053385409758,
  0.687531682525198e-1, 0.687531682525198e-1, -0.471053385409758, 0.510043411918458, 0.392256805238780]
/-- `symplec6_ds`, bovy_symplecticode.c:104-107. -/
def ds6 : Fin 7 → ℝ := ![0.784513610477560, 0.235573213359357, -0.117767998417887e1,
  0.131518632068391e1, -0.117767998417887e1, 0.235573213359357, 0.784513610477560]

/-- The part of one step shared by the inner loop body and the end of the interval,
bovy_symplecticode.c:317-331 and 342-356: three kicks and two drifts. -/
def c4Core (F : V → ℝ → V) (c : Fin 4 → ℝ) (d : Fin 3 → ℝ) (dt : ℝ) (b : CBuf V) : CBuf V :=
  let b := { b with p12 := leapp b.po (d 0 * dt) (F b.q12 b.tc) };
  let b := { b with qo := leapq b.q12 b.p12 (c 1 * dt) };
  let b := { b with tc := b.tc + c 1 * dt };
  let b := { b with po := leapp b.p12 (d 1 * dt) (F b.qo b.tc) };
  let b := { b with q12 := leapq b.qo b.po (c 2 * dt) };
  let b := { b with tc := b.tc + c 2 * dt };
  { b with p12 := leapp b.po (d 2 * dt) (F b.q12 b.tc) }

/-- `symplec4`, inner loop body, bovy_symplecticode.c:316-340. -/
def c4Sub (F : V → ℝ → V) (c : Fin 4 → ℝ) (d : Fin 3 → ℝ) (dt : ℝ) (b : CBuf V) : CBuf V :=
  let b := c4Core F c d dt b;
  let b := { b with qo := leapq b.q12 b.p12 ((c 3 + c 0) * dt) };
  let b := { b with tc := b.tc + (c 3 + c 0) * dt };
  { b with q12 := b.qo, po := b.p12 }

/-- `symplec4`, one output interval, bovy_symplecticode.c:312-361. -/
def c4Interval (F : V → ℝ → V) (c : Fin 4 → ℝ) (d : Fin 3 → ℝ) (dt : ℝ) (ndt : ℤ) (b : CBuf V) :
    CBuf V :=
  let b := { b with q12 := leapq b.qo b.po (c 0 * dt) };
  let b := { b with tc := b.tc + c 0 * dt };
  let b := (c4Sub F c d dt)^[(ndt - 1).toNat] b;
  let b := c4Core F c d dt b;
  let b := { b with qo := leapq b.q12 b.p12 (c 3 * dt) };
  let b := { b with tc := b.tc + c 3 * dt };
  { b with po := b.p12 }

/-- As `c4Core` for `symplec6`, bovy_symplecticode.c:478-516 and 527-565. -/
def c6Core (F : V → ℝ → V) (c : Fin 8 → ℝ) (d : Fin 7 → ℝ) (dt : ℝ) (b : CBuf V) : CBuf V :=
  let b := { b with p12 := leapp b.po (d 0 * dt) (F b.q12 b.tc) };
  let b := { b with qo := leapq b.q12 b.p12 (c 1 * dt) };
  let b := { b with tc := b.tc + c 1 * dt };
  let b := { b with po := leapp b.p12 (d 1 * dt) (F b.qo b.tc) };
  let b := { b with q12 := leapq b.qo b.po (c 2 * dt) };
  let b := { b with tc := b.tc + c 2 * dt };
  let b := { b with p12 := leapp b.po (d 2 * dt) (F b.q12 b.tc) };
  let b := { b with qo := leapq b.q12 b.p12 (c 3 * dt) };
  let b := { b with tc := b.tc + c 3 * dt };
  let b := { b with po := leapp b.p12 (d 3 * dt) (F b.qo b.tc) };
  let b := { b with q12 := leapq b.qo b.po (c 4 * dt) };
  let b := { b with tc := b.tc + c 4 * dt };
  let b := { b with p12 := leapp b.po (d 4 * dt) (F b.q12 b.tc) };
  let b := { b with qo := leapq b.q12 b.p12 (c 5 * dt) };
  let b := { b with tc := b.tc + c 5 * dt };
  let b := { b with po := leapp b.p12 (d 5 * dt) (F b.qo b.tc) };
  let b := { b with q12 := leapq b.qo b.po (c 6 * dt) };
  let b := { b with tc := b.tc + c 6 * dt };
  { b with p12 := leapp b.po (d 6 * dt) (F b.q12 b.tc) }

/-- `symplec6`, inner loop body, bovy_symplecticode.c:477-525. -/
def c6Sub (F : V → ℝ → V) (c : Fin 8 → ℝ) (d : Fin 7 → ℝ) (dt : ℝ) (b : CBuf V) : CBuf V :=
  let b := c6Core F c d dt b;
  let b := { b with qo := leapq b.q12 b.p12 ((c 7 + c 0) * dt) };
  let b := { b with tc := b.tc + (c 7 + c 0) * dt };
  { b with q12 := b.qo, po := b.p12 }

/-- `symplec6`, one output interval, bovy_symplecticode.c:473-570. -/
def c6Interval (F : V → ℝ → V) (c : Fin 8 → ℝ) (d : Fin 7 → ℝ) (dt : ℝ) (ndt : ℤ) (b : CBuf V) :
    CBuf V :=
  let b := { b with q12 := leapq b.qo b.po (c 0 * dt) };
  let b := { b with tc := b.tc + c 0 * dt };
  let b := (c6Sub F c d dt)^[(ndt - 1).toNat] b;
  let b := c6Core F c d dt b;
  let b := { b with qo := leapq b.q12 b.p12 (c 7 * dt) };
  let b := { b with tc := b.tc + c 7 * dt };
  { b with po := b.p12 }

/-- The loops of the three C step-size estimators, e.g. bovy_symplecticode.c:626-650 (the same loop
at 711-795 and 864-1020). -/
def cEstLoop (errOf : ℝ → ℝ) (init_dt : ℝ) : ℕ → ℝ → ℝ → ℝ
  | 0, dt, _ => dt
  | fuel + 1, dt, err =>
    if 1 < err ∧ init_dt / dt < 10000 then cEstLoop errOf init_dt fuel (dt / 2) (errOf (dt / 2))
    else dt

/-- Loop over outputs of the C functions, e.g. bovy_symplecticode.c:174-212: rows written from
output `ii` on, and the error code. -/
def cOutputs (step : CBuf V → CBuf V) (intr : ℕ → Bool) : ℕ → ℕ → CBuf V → List (St V) × ℤ
  | 0, _, _ => ([], 0)
  | n + 1, ii, b =>
    if intr ii then ([], -10)
    else
      let b' := step b;
      let r := cOutputs step intr n (ii + 1) b';
      (⟨b'.qo, b'.po, b'.tc⟩ :: r.1, r.2)

/-- The step used, bovy_symplecticode.c:159-162: the caller's, or the estimate when that is `none`. -/
def cStep (errOf : ℝ → ℝ) (init_dt : ℝ) : Option ℝ → ℝ
  | some dt => dt
  | none => cEstLoop errOf init_dt 16 (2 * init_dt) 2

/-- `leapfrog`, `symplec4`, `symplec6` of bovy_symplecticode.c (132-224, 250-377, 403-586) with
`interval` the code of one output interval and `errOf` the error norm of its step-size estimator;
`dt` is `none` for the value -9999.99. Times `t₀, t₁` are the first two output times, `nt` their
number. Work arrays start with unspecified content `junk`. -/
def cRun (interval : ℝ → ℤ → CBuf V → CBuf V) (errOf : ℝ → ℝ) (intr : ℕ → Bool) (junk qo po : V)
    (nt : ℕ) (dt : Option ℝ) (t₀ t₁ : ℝ) : List (St V) × ℤ :=
  let init_dt := t₁ - t₀;
  let dt := cStep errOf init_dt dt;
  let ndt := trunc (init_dt / dt);
  let r := cOutputs (interval dt ndt) intr (nt - 1) 0 ⟨qo, po, junk, junk, t₀⟩;
  (⟨qo, po, t₀⟩ :: r.1, r.2)

/-- `_check_integrate_dt`, Orbits.py:9456-9462, for one array of times with first two elements
`t₀, t₁`. (`numpy.round` takes halves to even, `round` takes them up; the verdict is the same.) -/
def checkIntegrateDt (t₀ t₁ : ℝ) (dt : Option ℝ) : Prop :=
  match dt with
  | none => True
  | some dt => |(round ((t₁ - t₀) / dt) : ℝ) * dt - (t₁ - t₀)| < 1 / 10 ^ 10

/-! ### Deviations -/

/-- `force_aug` as used by the `_dxdv` steppers, bovy_symplecticode.c:1034-1052 (comment) and
orbit_c_ext/integrateFullOrbit.c `evalRectForce_dxdv`: block 0 is the force, every other block is the
force Jacobian `DF` applied to the position block of that deviation. -/
def augForce {ι : Type*} {W : Type*} (F : W → ℝ → W) (DF : W → ℝ → W → W) :
    (W × (ι → W)) → ℝ → W × (ι → W) :=
  fun q t => (F q.1 t, fun j => DF q.1 t (q.2 j))

end Verif.Symp
