import Mathlib.Analysis.SpecialFunctions.Complex.Log
import Mathlib.Analysis.SpecialFunctions.Pow.Real
import Mathlib.MeasureTheory.Integral.IntervalIntegral.Basic

set_option autoImplicit false

/-!
# Two-dimensional disk distribution functions

`galpy/df/surfaceSigmaProfile.py` and the parts of `galpy/df/diskdf.py` that evaluate the Dehnen,
Shu and Schwarzschild distribution functions, their logarithmic derivatives and their velocity
moments. All quantities are in internal units (the decorators are in `Model/Conversion.lean`).

Simplifications. `scipy.integrate.dblquad` is the exact iterated integral. Python's `x ** y` is
`Real.rpow`; for a negative base and a non-integer exponent Python gives `nan`, and the theorems
exclude that. `numpylog` (diskdf.py:27) is `numpy.lib.scimath.log`: the complex principal
logarithm, except `-inf` at zero, which is why `expLog` below treats zero separately.
-/

noncomputable section
namespace Verif.Disk
open Real

/-- The eight methods of a `surfaceSigmaProfile`, surfaceSigmaProfile.py:57-104: each of the four
functions with `log=False` and `log=True`. -/
structure Profile where
  surfacemass : ℝ → ℝ
  surfacemassLog : ℝ → ℝ
  surfacemassDerivative : ℝ → ℝ
  surfacemassDerivativeLog : ℝ → ℝ
  sigma2 : ℝ → ℝ
  sigma2Log : ℝ → ℝ
  sigma2Derivative : ℝ → ℝ
  sigma2DerivativeLog : ℝ → ℝ

/-- `expSurfaceSigmaProfile`, surfaceSigmaProfile.py:107-232, with `params = (h, hs, s0)`. -/
def expProfile (h hs s0 : ℝ) : Profile where
  surfacemass R := exp (-R / h)
  surfacemassLog R := -R / h
  surfacemassDerivative R := -exp (-R / h) / h
  surfacemassDerivativeLog _ := -1 / h
  sigma2 R := s0 ^ 2 * exp (-2 * (R - 1) / hs)
  sigma2Log R := 2 * log s0 - 2 * (R - 1) / hs
  sigma2Derivative R := s0 ^ 2 * exp (-2 * (R - 1) / hs) * (-2 / hs)
  sigma2DerivativeLog _ := -2 / hs

/-- The `_dftype` strings. -/
inductive DfType
  | dehnen | shu | schwarzschild
deriving DecidableEq

/-- `axipotential`, diskdf.py:3064-3094, at `R != 0` (at `R == 0` an array gets `log(1e-10)`). -/
def axipotential (R β : ℝ) : ℝ := if β = 0 then log R else R ^ (2 * β) / 2 / β

/-- `self._gamma`, diskdf.py:116. -/
def gamma (β : ℝ) : ℝ := √(2 / (1 + β))

/-- `vRvTRToEL`, diskdf.py:3018-3061. -/
def vRvTRToEL (vR vT R β : ℝ) (ty : DfType) : ℝ × ℝ :=
  match ty with
  | .schwarzschild =>
    let g := √(2 / (1 + β));
    let L := R * vT;
    let xL := if β = 0 then L else L ^ (1 / (β + 1));
    (0.5 * vR ^ 2 + 0.5 * g ^ 2 * (vT - R ^ β) ^ 2 + xL ^ (2 * β) / 2 + axipotential xL β, L)
  | _ => (axipotential R β + 0.5 * vR ^ 2 + 0.5 * vT ^ 2, vT * R)

/-- `numpy.exp(a + numpylog(x) - s)`: `numpylog` is complex below zero and `-inf` at zero. -/
def expLog (a x s : ℝ) : ℂ := if x = 0 then 0 else Complex.exp (a + Complex.log x - s)

/-- The energy radius of `dehnendf`, diskdf.py:1868-1873 (also 2126-2138, 2149-2161, ...). -/
def xE (β E : ℝ) : ℝ :=
  if β = 0 then exp (E - 0.5) else (2 * E / (1 + 1 / β)) ^ (1 / 2 / β)

/-- The guiding-centre radius of `shudf`, diskdf.py:2314-2318 (also 2533-2539, ...). -/
def xL (β L : ℝ) : ℝ := if β = 0 then L else L ^ (1 / (β + 1))

/-- `numpy.exp(logOLLE - SRE2)` of `dehnendf.eval`, diskdf.py:1868-1873 and 1895. -/
def expOLLE (β E L s : ℝ) : ℂ :=
  let x := xE β E;
  if β = 0 then expLog 0 (L / x - 1) s else expLog (β * log x) (L / x - x ^ β) s

/-- `dehnendf.eval`, diskdf.py:1836-1924. `corr` is `self._corr.correct(., log=True)`; without
corrections it is zero (1880). -/
def dehnenEval (p : Profile) (β : ℝ) (corr : ℝ → ℝ × ℝ) (E L logSigmaR logsigmaR2 : ℝ) : ℂ :=
  let x := xE β E;
  let SRE2 := p.sigma2Log x + (corr x).2;
  gamma β * Complex.exp ((logsigmaR2 - SRE2 + p.surfacemassLog x - logSigmaR : ℝ)
    + expOLLE β E L SRE2 + ((corr x).1 : ℝ)) / 2 / π

/-- The argument of the logarithm `logECLE` of `shudf.eval`, diskdf.py:2314-2321. `numpylog(xL)` of
a negative `xL` is complex, but then the function returns before using it (2322). -/
def ECLE (β E L : ℝ) : ℝ :=
  if β = 0 then -log (xL β L) - 0.5 + E
  else -0.5 * (1 / β + 1) * (xL β L) ^ (2 * β) + E

/-- `shudf.eval` (also that of `schwarzschilddf`), diskdf.py:2287-2341, for one orbit (on an array
of several the test in line 2322 raises). -/
def shuEval (p : Profile) (β : ℝ) (corr : ℝ → ℝ × ℝ) (E L logSigmaR logsigmaR2 : ℝ) : ℂ :=
  let x := xL β L;
  if x < 0 then 0
  else
    let SRE2 := p.sigma2Log x + (corr x).2;
    gamma β * Complex.exp ((logsigmaR2 - SRE2 + p.surfacemassLog x - logSigmaR : ℝ)
      - expLog 0 (ECLE β E L) SRE2 + ((corr x).1 : ℝ)) / 2 / π

/-- `self.eval` by class. -/
def eval (ty : DfType) (p : Profile) (β : ℝ) (corr : ℝ → ℝ × ℝ) (E L logSigmaR logsigmaR2 : ℝ) : ℂ :=
  match ty with
  | .dehnen => dehnenEval p β corr E L logSigmaR logsigmaR2
  | _ => shuEval p β corr E L logSigmaR logsigmaR2

/-- No corrections, diskdf.py:132-133 and 1880. -/
def noCorr : ℝ → ℝ × ℝ := fun _ => (0, 0)

/-- `__call__` with an energy and an angular momentum, diskdf.py:230-231. -/
def callEL (ty : DfType) (p : Profile) (β : ℝ) (corr : ℝ → ℝ × ℝ) (E L : ℝ) : ℝ :=
  (eval ty p β corr E L 0 0).re

/-- `__call__` with a phase-space point (an `Orbit` or an array), diskdf.py:184-194, 220-229. -/
def call (ty : DfType) (p : Profile) (β : ℝ) (corr : ℝ → ℝ × ℝ) (R vR vT : ℝ) : ℝ :=
  let EL := vRvTRToEL vR vT R β ty;
  callEL ty p β corr EL.1 EL.2

/-- The energy as computed in `dehnendf._dlnfdR` and its siblings, diskdf.py:2126-2137. -/
def dehnenE (β R vR vT : ℝ) : ℝ :=
  if β = 0 then vR ^ 2 / 2 + vT ^ 2 / 2 + log R
  else vR ^ 2 / 2 + vT ^ 2 / 2 + 1 / 2 / β * R ^ (2 * β)
/-- `OE`, diskdf.py:2129 and 2139. -/
def OE (β x : ℝ) : ℝ := if β = 0 then x ^ (-1 : ℝ) else x ^ (β - 1)
/-- `LCE`, diskdf.py:2130 and 2140. -/
def LCE (β x : ℝ) : ℝ := if β = 0 then x else x ^ (β + 1)

/-- `dehnendf._dlnfdRe`, diskdf.py:2190-2216. -/
def dlnfdRe (p : Profile) (β R vR vT : ℝ) : ℝ :=
  let x := xE β (dehnenE β R vR vT);
  let L := R * vT;
  let s := p.sigma2 x;
  p.surfacemassDerivativeLog x - (1 + OE β x * (L - LCE β x) / s) * p.sigma2DerivativeLog x
    + (L - LCE β x) / s * (β - 1) * x ^ (β - 2) - OE β x * (β + 1) / s * x ^ β

/-- `dehnendf._dlnfdl`, diskdf.py:2218-2234. -/
def dlnfdl (p : Profile) (β R vR vT : ℝ) : ℝ :=
  let x := xE β (dehnenE β R vR vT);
  OE β x / p.sigma2 x

/-- `dehnendf._dlnfdR`, diskdf.py:2124-2145. -/
def dehnenDlnfdR (p : Profile) (β R vR vT : ℝ) : ℝ :=
  let E := dehnenE β R vR vT;
  let x := xE β E;
  let d := if β = 0 then x / R else x / 2 / β / E * R ^ (2 * β - 1);
  dlnfdRe p β R vR vT * d + dlnfdl p β R vR vT * vT

/-- `dehnendf._dlnfdvR`, diskdf.py:2147-2165. -/
def dehnenDlnfdvR (p : Profile) (β R vR vT : ℝ) : ℝ :=
  let E := dehnenE β R vR vT;
  let x := xE β E;
  let d := if β = 0 then x * vR else x / 2 / β / E * vR;
  dlnfdRe p β R vR vT * d

/-- `dehnendf._dlnfdvT`, diskdf.py:2167-2188. -/
def dehnenDlnfdvT (p : Profile) (β R vR vT : ℝ) : ℝ :=
  let E := dehnenE β R vR vT;
  let x := xE β E;
  let d := if β = 0 then x * vT else x / 2 / β / E * vT;
  dlnfdRe p β R vR vT * d + dlnfdl p β R vR vT * R

/-- `_vtmaxEq`, diskdf.py:3178-3205. -/
def vtmaxEq (p : Profile) (β vT R : ℝ) : ℝ :=
  let E := if β = 0 then vT ^ 2 / 2 + log R else vT ^ 2 / 2 + 1 / 2 / β * R ^ (2 * β);
  let x := xE β E;
  let d := if β = 0 then x * vT else x / 2 / β / E * vT;
  let L := R * vT;
  let s := p.sigma2 x;
  OE β x * R / s
    + (p.surfacemassDerivativeLog x - (1 + OE β x * (L - LCE β x) / s) * p.sigma2DerivativeLog x
      + (L - LCE β x) / s * (β - 1) * x ^ (β - 2) - OE β x * (β + 1) / s * x ^ β) * d

/-- `ECL`, diskdf.py:2536 and 2541. -/
def ECL (β x : ℝ) : ℝ := if β = 0 then log x + 0.5 else 0.5 * (1 / β + 1) * x ^ (2 * β)

/-- `shudf._dlnfdR` (inherited by `schwarzschilddf`), diskdf.py:2530-2550. -/
def shuDlnfdR (ty : DfType) (p : Profile) (β R vR vT : ℝ) : ℝ :=
  let EL := vRvTRToEL vR vT R β ty;
  let x := xL β EL.2;
  let dRl := if β = 0 then vT else EL.2 ^ (1 / (β + 1)) / R / (β + 1);
  let dECLE := if β = 0 then 0 else (1 + β) * x ^ (2 * β - 1) * dRl - R ^ (2 * β - 1);
  (p.surfacemassDerivativeLog x - (1 + (ECL β x - EL.1) / p.sigma2 x) * p.sigma2DerivativeLog x) * dRl
    + dECLE / p.sigma2 x

/-- `shudf._dlnfdvR`, diskdf.py:2552-2560. -/
def shuDlnfdvR (ty : DfType) (p : Profile) (β R vR vT : ℝ) : ℝ :=
  let EL := vRvTRToEL vR vT R β ty;
  -vR / p.sigma2 (xL β EL.2)

/-- `shudf._dlnfdvT`, diskdf.py:2562-2582. -/
def shuDlnfdvT (ty : DfType) (p : Profile) (β R vR vT : ℝ) : ℝ :=
  let EL := vRvTRToEL vR vT R β ty;
  let x := xL β EL.2;
  let dRl := if β = 0 then R else EL.2 ^ (1 / (β + 1)) / vT / (β + 1);
  let dECLE := if β = 0 then 1 / vT - vT else (1 + β) * x ^ (2 * β - 1) * dRl - vT;
  (p.surfacemassDerivativeLog x - (1 + (ECL β x - EL.1) / p.sigma2 x) * p.sigma2DerivativeLog x) * dRl
    + dECLE / p.sigma2 x

/-- `self._dlnfdR` by class. -/
def dlnfdR (ty : DfType) (p : Profile) (β R vR vT : ℝ) : ℝ :=
  match ty with
  | .dehnen => dehnenDlnfdR p β R vR vT
  | ty => shuDlnfdR ty p β R vR vT
/-- `self._dlnfdvR` by class. -/
def dlnfdvR (ty : DfType) (p : Profile) (β R vR vT : ℝ) : ℝ :=
  match ty with
  | .dehnen => dehnenDlnfdvR p β R vR vT
  | ty => shuDlnfdvR ty p β R vR vT
/-- `self._dlnfdvT` by class. -/
def dlnfdvT (ty : DfType) (p : Profile) (β R vR vT : ℝ) : ℝ :=
  match ty with
  | .dehnen => dehnenDlnfdvT p β R vR vT
  | ty => shuDlnfdvT ty p β R vR vT

/-! ### Velocity moments -/

/-- `asymmetricdrift`, diskdf.py:723-752. -/
def asymmetricdrift (p : Profile) (β R : ℝ) : ℝ :=
  p.sigma2 R / 2 / R ^ β
    * (1 / gamma β ^ 2 - 1 - R * p.surfacemassDerivativeLog R - R * p.sigma2DerivativeLog R)

/-- The estimate `va` used to centre the integration range, diskdf.py:791-803, 871-883, 984-996. -/
def vaRange (p : Profile) (β R : ℝ) : ℝ :=
  let va := p.sigma2 R / 2 / R ^ β
    * (1 / gamma β ^ 2 - 1 - R * p.surfacemassDerivativeLog R - R * p.sigma2DerivativeLog R);
  if |va| > √(p.sigma2 R) then 0 else va

/-- Lower end of the outer range, e.g. diskdf.py:822. -/
def vTlo (p : Profile) (β R ns : ℝ) : ℝ :=
  gamma β * (R ^ β - vaRange p β R) / √(p.sigma2 R) - ns
/-- Upper end of the outer range, e.g. diskdf.py:823. -/
def vThi (p : Profile) (β R ns : ℝ) : ℝ :=
  gamma β * (R ^ β - vaRange p β R) / √(p.sigma2 R) + ns

/-- `df.eval(E, L, logSigmaR, logsigmaR2)` at scaled velocities, the common part of the four
integrands, diskdf.py:2639-2694; the real part is what `quad` keeps. -/
def scaledEval (ty : DfType) (p : Profile) (β : ℝ) (corr : ℝ → ℝ × ℝ) (R vR vT : ℝ) : ℝ :=
  let s1 := √(p.sigma2 R);
  let EL := vRvTRToEL (vR * s1) (vT * (s1 / gamma β)) R β ty;
  (eval ty p β corr EL.1 EL.2 (p.surfacemassLog R) (log (p.sigma2 R))).re

/-- `surfacemass`, diskdf.py:756-831 (with `relative`). -/
def surfacemass (ty : DfType) (p : Profile) (β : ℝ) (corr : ℝ → ℝ × ℝ) (R ns : ℝ) (relative : Bool) : ℝ :=
  let norm := if relative then 1 else exp (p.surfacemassLog R);
  (∫ vT in vTlo p β R ns..vThi p β R ns, ∫ vR in (0 : ℝ)..ns,
    scaledEval ty p β corr R vR vT * 2 * π / gamma β) / π * norm

/-- `sigma2surfacemass`, diskdf.py:835-911. -/
def sigma2surfacemass (ty : DfType) (p : Profile) (β : ℝ) (corr : ℝ → ℝ × ℝ) (R ns : ℝ) (relative : Bool) : ℝ :=
  let norm := if relative then 1 else exp (p.surfacemassLog R + log (p.sigma2 R));
  (∫ vT in vTlo p β R ns..vThi p β R ns, ∫ vR in (0 : ℝ)..ns,
    vR ^ 2 * scaledEval ty p β corr R vR vT * 2 * π / gamma β) / π * norm

/-- `_vmomentsurfacemass`, diskdf.py:966-1078, for natural `n` and `m`; `deriv` says whether
`deriv="R"` was passed. -/
def vmoment (ty : DfType) (p : Profile) (β : ℝ) (corr : ℝ → ℝ × ℝ) (R : ℝ) (n m : ℕ) (ns : ℝ)
    (relative deriv : Bool) : ℝ :=
  if n % 2 = 1 then 0
  else
    let norm := if relative then 1 else
      exp (p.surfacemassLog R + log (p.sigma2 R) * (n + m) / 2) / gamma β ^ m;
    let s1 := √(p.sigma2 R);
    (∫ vT in vTlo p β R ns..vThi p β R ns, ∫ vR in (-ns)..ns,
      vR ^ n * vT ^ m * scaledEval ty p β corr R vR vT * 2 * π / gamma β
        * (if deriv then dlnfdR ty p β R (vR * s1) (vT * s1 / gamma β) else 1)) / π * norm / 2

/-- `meanvT`, diskdf.py:1354-1380. -/
def meanvT (ty : DfType) (p : Profile) (β : ℝ) (corr : ℝ → ℝ × ℝ) (R ns : ℝ) : ℝ :=
  vmoment ty p β corr R 0 1 ns false false / surfacemass ty p β corr R ns false
/-- `meanvR`, diskdf.py:1384-1411. -/
def meanvR (ty : DfType) (p : Profile) (β : ℝ) (corr : ℝ → ℝ × ℝ) (R ns : ℝ) : ℝ :=
  vmoment ty p β corr R 1 0 ns false false / surfacemass ty p β corr R ns false
/-- `sigma2` and `sigmaR2`, diskdf.py:1258-1285, 1325-1350. -/
def sigmaR2 (ty : DfType) (p : Profile) (β : ℝ) (corr : ℝ → ℝ × ℝ) (R ns : ℝ) : ℝ :=
  sigma2surfacemass ty p β corr R ns false / surfacemass ty p β corr R ns false
/-- `sigmaT2`, diskdf.py:1289-1321. -/
def sigmaT2 (ty : DfType) (p : Profile) (β : ℝ) (corr : ℝ → ℝ × ℝ) (R ns : ℝ) : ℝ :=
  let S := surfacemass ty p β corr R ns false;
  (vmoment ty p β corr R 0 2 ns false false - vmoment ty p β corr R 0 1 ns false false ^ 2 / S) / S
/-- `skewvT`, diskdf.py:1414-1451. -/
def skewvT (ty : DfType) (p : Profile) (β : ℝ) (corr : ℝ → ℝ × ℝ) (R ns : ℝ) : ℝ :=
  let S := surfacemass ty p β corr R ns false;
  let v1 := vmoment ty p β corr R 0 1 ns false false / S;
  let v2 := vmoment ty p β corr R 0 2 ns false false / S;
  let v3 := vmoment ty p β corr R 0 3 ns false false / S;
  let s2 := v2 - v1 ^ 2;
  (v3 - 3 * v1 * v2 + 2 * v1 ^ 3) * s2 ^ (-1.5 : ℝ)
/-- `kurtosisvT`, diskdf.py:1495-1538. -/
def kurtosisvT (ty : DfType) (p : Profile) (β : ℝ) (corr : ℝ → ℝ × ℝ) (R ns : ℝ) : ℝ :=
  let S := surfacemass ty p β corr R ns false;
  let v1 := vmoment ty p β corr R 0 1 ns false false / S;
  let v2 := vmoment ty p β corr R 0 2 ns false false / S;
  let v3 := vmoment ty p β corr R 0 3 ns false false / S;
  let v4 := vmoment ty p β corr R 0 4 ns false false / S;
  let s2 := v2 - v1 ^ 2;
  (v4 - 4 * v1 * v3 + 6 * v1 ^ 2 * v2 - 3 * v1 ^ 4) * s2 ^ (-2 : ℝ) - 3
/-- `skewvR`, diskdf.py:1454-1492. -/
def skewvR (ty : DfType) (p : Profile) (β : ℝ) (corr : ℝ → ℝ × ℝ) (R ns : ℝ) : ℝ :=
  let S := surfacemass ty p β corr R ns false;
  let v1 := vmoment ty p β corr R 1 0 ns false false / S;
  let v2 := vmoment ty p β corr R 2 0 ns false false / S;
  let v3 := vmoment ty p β corr R 3 0 ns false false / S;
  let s2 := v2 - v1 ^ 2;
  (v3 - 3 * v1 * v2 + 2 * v1 ^ 3) * s2 ^ (-1.5 : ℝ)
/-- `kurtosisvR`, diskdf.py:1541-1583. -/
def kurtosisvR (ty : DfType) (p : Profile) (β : ℝ) (corr : ℝ → ℝ × ℝ) (R ns : ℝ) : ℝ :=
  let S := surfacemass ty p β corr R ns false;
  let v1 := vmoment ty p β corr R 1 0 ns false false / S;
  let v2 := vmoment ty p β corr R 2 0 ns false false / S;
  let v3 := vmoment ty p β corr R 3 0 ns false false / S;
  let v4 := vmoment ty p β corr R 4 0 ns false false / S;
  let s2 := v2 - v1 ^ 2;
  (v4 - 4 * v1 * v3 + 6 * v1 ^ 2 * v2 - 3 * v1 ^ 4) * s2 ^ (-2 : ℝ) - 3

/-- `dmeanvphidR` of `oortA` and `oortB`, diskdf.py:1112-1121, 1156-1165. -/
def dmeanvTdR (ty : DfType) (p : Profile) (β : ℝ) (corr : ℝ → ℝ × ℝ) (R ns : ℝ) : ℝ :=
  let S := vmoment ty p β corr R 0 0 ns false false;
  vmoment ty p β corr R 0 1 ns false true / S
    - vmoment ty p β corr R 0 1 ns false false / S ^ 2 * vmoment ty p β corr R 0 0 ns false true
/-- `oortA`, diskdf.py:1082-1122. -/
def oortA (ty : DfType) (p : Profile) (β : ℝ) (corr : ℝ → ℝ × ℝ) (R ns : ℝ) : ℝ :=
  0.5 * (meanvT ty p β corr R ns / R - 0 / R - dmeanvTdR ty p β corr R ns)
/-- `oortB`, diskdf.py:1126-1166. -/
def oortB (ty : DfType) (p : Profile) (β : ℝ) (corr : ℝ → ℝ × ℝ) (R ns : ℝ) : ℝ :=
  0.5 * (-meanvT ty p β corr R ns / R + 0 / R - dmeanvTdR ty p β corr R ns)
/-- `oortC`, diskdf.py:1170-1210. -/
def oortC (ty : DfType) (p : Profile) (β : ℝ) (corr : ℝ → ℝ × ℝ) (R ns : ℝ) : ℝ :=
  0.5 * (-meanvR ty p β corr R ns / R - 0 / R
    + vmoment ty p β corr R 1 0 ns false true / vmoment ty p β corr R 0 0 ns false false)
/-- `oortK`, diskdf.py:1214-1254. -/
def oortK (ty : DfType) (p : Profile) (β : ℝ) (corr : ℝ → ℝ × ℝ) (R ns : ℝ) : ℝ :=
  0.5 * (meanvR ty p β corr R ns / R + 0 / R
    + vmoment ty p β corr R 1 0 ns false true / vmoment ty p β corr R 0 0 ns false false)

end Verif.Disk
