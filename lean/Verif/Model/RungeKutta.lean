import Verif.Model.Symplectic
import Mathlib.Analysis.SpecialFunctions.Pow.Real
import Mathlib.Analysis.SpecialFunctions.Log.Basic
import Mathlib.Algebra.BigOperators.Fin
import Mathlib.Algebra.Order.Round

set_option autoImplicit false

/-!
# Runge-Kutta integrators

`galpy/util/bovy_rk.c`.  Arrays are elements of a real vector space or of `Fin n → ℝ`; arithmetic is
exact, so there is no NaN and no overflow.  `f t y` is the derivative function `func`.
-/

noncomputable section
namespace Verif.RK
open Verif.Symp (trunc)

variable {V : Type*} [AddCommGroup V] [Module ℝ V]

/-! ### rk4 and rk6 -/

/-- `bovy_rk4_onestep`, bovy_rk.c:142-166: the new content of the array `yn1`. -/
def rk4Onestep (f : ℝ → V → V) (tn dt : ℝ) (yn yn1 : V) : V :=
  let a := f tn yn;
  let yn1 := yn1 + (dt / 6) • a;
  let ynk := yn + (dt / 2) • a;
  let a := f (tn + dt / 2) ynk;
  let yn1 := yn1 + (dt / 3) • a;
  let ynk := yn + (dt / 2) • a;
  let a := f (tn + dt / 2) ynk;
  let yn1 := yn1 + (dt / 3) • a;
  let ynk := yn + dt • a;
  let a := f (tn + dt) ynk;
  yn1 + (dt / 6) • a

/-- `bovy_rk6_onestep`, bovy_rk.c:270-326: the new content of the array `yn1`. -/
def rk6Onestep (f : ℝ → V → V) (tn dt : ℝ) (yn yn1 : V) : V :=
  let a := f tn yn;
  let yn1 := yn1 + (11 * dt / 120) • a;
  let k1 := dt • a;
  let ynk := yn + (1 / 3 : ℝ) • k1;
  let a := f (tn + dt / 3) ynk;
  let k2 := dt • a;
  let ynk := yn + (2 / 3 : ℝ) • k2;
  let a := f (tn + 2 * dt / 3) ynk;
  let yn1 := yn1 + (81 * dt / 120) • a;
  let k3 := dt • a;
  let ynk := yn + (1 / 12 : ℝ) • (k1 + (4 : ℝ) • k2 - k3);
  let a := f (tn + dt / 3) ynk;
  let yn1 := yn1 + (81 * dt / 120) • a;
  let k4 := dt • a;
  let ynk := yn + (1 / 16 : ℝ) • (-k1 + (18 : ℝ) • k2 - (3 : ℝ) • k3 - (6 : ℝ) • k4);
  let a := f (tn + dt / 2) ynk;
  let yn1 := yn1 - (32 * dt / 120) • a;
  let k5 := dt • a;
  let ynk := yn + (1 / 8 : ℝ) • ((9 : ℝ) • k2 - (3 : ℝ) • k3 - (6 : ℝ) • k4 + (4 : ℝ) • k5);
  let a := f (tn + dt / 2) ynk;
  let yn1 := yn1 - (32 * dt / 120) • a;
  let k5 := dt • a;
  let ynk := yn + (1 / 44 : ℝ) • ((9 : ℝ) • k1 - (36 : ℝ) • k2 + (63 : ℝ) • k3 + (72 : ℝ) • k4 - (64 : ℝ) • k5);
  let a := f (tn + dt) ynk;
  yn1 + (11 * dt / 120) • a

/-- The work arrays `yn`, `yn1` and the variable `to` of `bovy_rk4` and `bovy_rk6`. -/
structure RKBuf (V : Type*) where
  yn : V
  yn1 : V
  tc : ℝ

/-- Loop body, bovy_rk.c:115-120 (`bovy_rk4`) and 225-231 (`bovy_rk6`). -/
def rkSub (onestep : ℝ → ℝ → V → V → V) (dt : ℝ) (b : RKBuf V) : RKBuf V :=
  let b := { b with yn1 := onestep b.tc dt b.yn b.yn1 };
  let b := { b with tc := b.tc + dt };
  { b with yn := b.yn1 }

/-- One output interval, bovy_rk.c:115-127 and 225-239: the buffers afterwards; the row saved is
`yn1`. -/
def rkInterval (onestep : ℝ → ℝ → V → V → V) (dt : ℝ) (ndt : ℤ) (b : RKBuf V) : RKBuf V :=
  let b := (rkSub onestep dt)^[(ndt - 1).toNat] b;
  let b := { b with yn1 := onestep b.tc dt b.yn b.yn1 };
  let b := { b with tc := b.tc + dt };
  { b with yn := b.yn1 }

/-- Loop of `rk4_estimate_step` (with exponent 1/5) and `rk6_estimate_step` (1/7), bovy_rk.c:358-382
and 431-458; `errOf dt` is the error norm computed for `dt`. The loop condition `err > 1` holds
whenever the body continues. At most `fuel` rounds. -/
def rkEstLoop (errOf : ℝ → ℝ) (ex init_dt : ℝ) : ℕ → ℝ → ℝ
  | 0, dt => dt
  | fuel + 1, dt =>
    let c : ℝ := ⌈errOf dt ^ ex⌉;
    if 1 < c ∧ init_dt / dt * c < 10000 then rkEstLoop errOf ex init_dt fuel (dt / c) else dt

/-- The scale of the error norms, bovy_rk.c:348-355 and 728-734, whose logarithm the code computes;
`rtol` and `atol` are logarithms of the tolerances. -/
def errScale {n : ℕ} (yo : Fin n → ℝ) (rtol atol : ℝ) : ℝ := Real.exp atol + Real.exp rtol * ⨆ i, |yo i|

/-- Error norms, bovy_rk.c:372-376 and 736-739. -/
def errNorm {n : ℕ} (yo yerr : Fin n → ℝ) (rtol atol : ℝ) : ℝ :=
  Real.sqrt ((∑ i, (|yerr i| / errScale yo rtol atol) ^ 2) / n)

/-- Error of one step of size `dt` compared with two of half size, bovy_rk.c:360-376. -/
def rkErr {n : ℕ} (onestep : ℝ → ℝ → (Fin n → ℝ) → (Fin n → ℝ) → Fin n → ℝ) (yo : Fin n → ℝ)
    (rtol atol t₀ dt : ℝ) : ℝ :=
  let y1 := onestep t₀ dt yo yo;
  let y21 := onestep t₀ (dt / 2) yo yo;
  let y2 := onestep (t₀ + dt / 2) (dt / 2) y21 y21;
  errNorm yo (y1 - y2) rtol atol

/-- Loop over outputs with the interrupt flag, bovy_rk.c:103-128 and 213-240: rows as pairs of time
variable and array, and the error code. -/
def rkOutputs (step : RKBuf V → RKBuf V) (intr : ℕ → Bool) : ℕ → ℕ → RKBuf V → List (ℝ × V) × ℤ
  | 0, _, _ => ([], 0)
  | n + 1, ii, b =>
    if intr ii then ([], -10)
    else
      let b' := step b;
      let r := rkOutputs step intr n (ii + 1) b';
      ((b'.tc, b'.yn1) :: r.1, r.2)

/-- The step used by `bovy_rk4` and `bovy_rk6`, bovy_rk.c:92-95 and 202-205: the caller's or the
estimate. -/
def rkStep (errOf : ℝ → ℝ) (ex init_dt : ℝ) : Option ℝ → ℝ
  | some dt => dt
  | none => rkEstLoop errOf ex init_dt 14 init_dt

/-- `bovy_rk4` (exponent 1/5) and `bovy_rk6` (1/7), bovy_rk.c:66-140 and 171-257; `dt` is `none` for
the value -9999.99. -/
def rkRun (onestep : ℝ → ℝ → V → V → V) (errOf : ℝ → ℝ) (ex : ℝ) (intr : ℕ → Bool) (yo : V)
    (nt : ℕ) (dt : Option ℝ) (t₀ t₁ : ℝ) : List (ℝ × V) × ℤ :=
  let init_dt := t₁ - t₀;
  let dt := rkStep errOf ex init_dt dt;
  let ndt := trunc (init_dt / dt);
  let r := rkOutputs (rkInterval onestep dt ndt) intr (nt - 1) 0 ⟨yo, yo, t₀⟩;
  ((t₀, yo) :: r.1, r.2)

/-! ### Dormand-Prince 5(4) -/

/-- The stages of `bovy_dopr54_actualstep`, bovy_rk.c:629-726: proposed new value `yn1`, error
estimate `yerr` and last derivative `a`. -/
def dopStages (f : ℝ → V → V) (t dt : ℝ) (yo a1 : V) : V × V × V :=
  let be1 : ℝ := 35 / 384 - 5179 / 57600;
  let be3 : ℝ := 500 / 1113 - 7571 / 16695;
  let be4 : ℝ := 125 / 192 - 393 / 640;
  let be5 : ℝ := -2187 / 6784 + 92097 / 339200;
  let be6 : ℝ := 11 / 84 - 187 / 2100;
  let be7 : ℝ := -1 / 40;
  let yn1 := yo;
  let a := a1;
  let k1 := dt • a;
  let yn1 := yn1 + (35 / 384 : ℝ) • k1;
  let yerr := be1 • k1;
  let ynk := yo + (0.2 : ℝ) • k1;
  let a := f (t + 0.2 * dt) ynk;
  let k2 := dt • a;
  let ynk := yo + (3 / 40 : ℝ) • k1 + (9 / 40 : ℝ) • k2;
  let a := f (t + 0.3 * dt) ynk;
  let k3 := dt • a;
  let yn1 := yn1 + (500 / 1113 : ℝ) • k3;
  let yerr := yerr + be3 • k3;
  let ynk := yo + (44 / 45 : ℝ) • k1 + (-56 / 15 : ℝ) • k2 + (32 / 9 : ℝ) • k3;
  let a := f (t + 0.8 * dt) ynk;
  let k4 := dt • a;
  let yn1 := yn1 + (125 / 192 : ℝ) • k4;
  let yerr := yerr + be4 • k4;
  let ynk := yo + (19372 / 6561 : ℝ) • k1 + (-25360 / 2187 : ℝ) • k2 + (64448 / 6561 : ℝ) • k3
    + (-212 / 729 : ℝ) • k4;
  let a := f (t + 8 / 9 * dt) ynk;
  let k5 := dt • a;
  let yn1 := yn1 + (-2187 / 6784 : ℝ) • k5;
  let yerr := yerr + be5 • k5;
  let ynk := yo + (9017 / 3168 : ℝ) • k1 + (-355 / 33 : ℝ) • k2 + (46732 / 5247 : ℝ) • k3
    + (49 / 176 : ℝ) • k4 + (-5103 / 18656 : ℝ) • k5;
  let a := f (t + dt) ynk;
  let k6 := dt • a;
  let yn1 := yn1 + (11 / 84 : ℝ) • k6;
  let yerr := yerr + be6 • k6;
  let ynk := yo + (35 / 384 : ℝ) • k1 + (500 / 1113 : ℝ) • k3 + (125 / 192 : ℝ) • k4
    + (-2187 / 6784 : ℝ) • k5 + (11 / 84 : ℝ) • k6;
  let a := f (t + dt) ynk;
  let yerr := yerr + (be7 * dt) • a;
  (yn1, yerr, a)

/-- C `round`: to the nearest integer, halves away from zero. -/
def cround (x : ℝ) : ℤ := if 0 ≤ x then ⌊x + 1 / 2⌋ else ⌈x - 1 / 2⌉

/-- The exponent of two of the step-size change, bovy_rk.c:740-746. For an error of exactly zero
`pow` gives infinity and the exponent is the largest allowed. -/
def dopPow2 (err : ℝ) : ℤ :=
  if err = 0 then 3
  else
    let powertwo := cround (Real.log (0.85 * err ^ (-0.2 : ℝ)) / Real.log 2);
    if 3 < powertwo then 3 else if powertwo < -3 then -3 else powertwo

/-- Variables of the Dormand-Prince integrator. -/
structure DopState (V : Type*) where
  yo : V
  a1 : V
  tc : ℝ
  dt_one : ℝ
  err : ℤ

/-- `bovy_dopr54_actualstep`, bovy_rk.c:617-761, with the error norm of the estimate as function `norm yo
yerr`; the new step size is the result of the C function. -/
def dopActual (f : ℝ → V → V) (norm : V → V → ℝ) (accept : Bool) (s : DopState V) : DopState V :=
  let r := dopStages f s.tc s.dt_one s.yo s.a1;
  let powertwo := dopPow2 (norm s.yo r.2.1);
  let dt_one := s.dt_one * 2 ^ powertwo;
  if 0 ≤ powertwo ∨ accept = true then
    { s with a1 := r.2.2, yo := r.1, tc := s.tc + s.dt_one, dt_one := dt_one }
  else { s with dt_one := dt_one }

/-- Loop condition of `bovy_dopr54_onestep`, bovy_rk.c:598-599. -/
def dopCond (dt init_to : ℝ) (s : DopState V) : Prop :=
  (0 ≤ dt ∧ s.tc < init_to + dt) ∨ (dt < 0 ∧ init_to + dt < s.tc)

/-- Loop body of `bovy_dopr54_onestep`, bovy_rk.c:600-615. -/
def dopBody (f : ℝ → V → V) (norm : V → V → ℝ) (dt init_dt_one init_to : ℝ) (s : DopState V) :
    DopState V :=
  let accept : Bool := decide (10000 < init_dt_one / s.dt_one);
  let s := if accept then
      { s with dt_one := init_dt_one / 10000, err := if s.err % 2 = 0 then s.err + 1 else s.err }
    else s;
  let s := if 0 ≤ dt ∧ init_to + dt - s.tc < s.dt_one then { s with dt_one := init_to + dt - s.tc } else s;
  let s := if dt < 0 ∧ s.dt_one < init_to + dt - s.tc then { s with dt_one := init_to + dt - s.tc } else s;
  dopActual f norm accept s

/-- `bovy_dopr54_onestep`, bovy_rk.c:584-616, as a relation: the loop leaves `s` in the state `s'`
after finitely many rounds. -/
def DopOnestep (f : ℝ → V → V) (norm : V → V → ℝ) (dt : ℝ) (s s' : DopState V) : Prop :=
  ∃ n, s' = (dopBody f norm dt s.dt_one s.tc)^[n] s ∧ ¬ dopCond dt s.tc s' ∧
    ∀ k < n, dopCond dt s.tc ((dopBody f norm dt s.dt_one s.tc)^[k] s)

/-- Loop over outputs of `bovy_dopr54`, bovy_rk.c:545-563: rows from output `ii` on (time variable and
array) and the final error code. -/
inductive DopOutputs (f : ℝ → V → V) (norm : V → V → ℝ) (dt : ℝ) (intr : ℕ → Bool) :
    ℕ → ℕ → DopState V → List (ℝ × V) → ℤ → Prop
  | done (ii : ℕ) (s : DopState V) : DopOutputs f norm dt intr 0 ii s [] s.err
  | interrupted (n ii : ℕ) (s : DopState V) (h : intr ii = true) :
      DopOutputs f norm dt intr (n + 1) ii s [] (-10)
  | step (n ii : ℕ) (s s' : DopState V) (rows : List (ℝ × V)) (e : ℤ) (h : intr ii = false)
      (h1 : DopOnestep f norm dt s s') (h2 : DopOutputs f norm dt intr n (ii + 1) s' rows e) :
      DopOutputs f norm dt intr (n + 1) ii s ((s'.tc, s'.yo) :: rows) e

/-- The state before the loop over outputs of `bovy_dopr54`, bovy_rk.c:526-535; the first step is the
caller's or the estimate of `rk4_estimate_step`. -/
def dopInit (f : ℝ → V → V) (errOf : ℝ → ℝ) (yo : V) (dt_one : Option ℝ) (t₀ t₁ : ℝ) : DopState V where
  yo := yo
  a1 := f t₀ yo
  tc := t₀
  dt_one := rkStep errOf (1 / 5) (t₁ - t₀) dt_one
  err := 0

/-- `bovy_dopr54`, bovy_rk.c:501-582, as a relation between input and result rows, error code. -/
def DopRun (f : ℝ → V → V) (norm : V → V → ℝ) (errOf : ℝ → ℝ) (intr : ℕ → Bool) (yo : V) (nt : ℕ)
    (dt_one : Option ℝ) (t₀ t₁ : ℝ) (rows : List (ℝ × V)) (e : ℤ) : Prop :=
  ∃ rs, rows = (t₀, yo) :: rs ∧
    DopOutputs f norm (t₁ - t₀) intr (nt - 1) 0 (dopInit f errOf yo dt_one t₀ t₁) rs e

end Verif.RK
