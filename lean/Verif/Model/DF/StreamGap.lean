import Verif.Model.DF.Stream
import Mathlib.Data.Nat.Choose.Basic
import Mathlib.Algebra.BigOperators.Intervals

set_option autoImplicit false

/-!
# streamgapdf: density and mean frequency of a stream with a gap

Transcription of the closed forms of `galpy/df/streamgapdf.py` built on the piecewise-polynomial form of the kick.  Quantities
without units; `special.erf` is the error function, `special.binom` the binomial coefficient.
-/

noncomputable section
namespace Verif.StreamGap
open Real MeasureTheory Set Finset

/-- The attributes used besides those of `streamdf`: `_timpact`, `_deltaAngleTrackImpact`, the spline `_kick_interpdOpar_raw` as a
function of the angle offset at impact, and its piecewise polynomials `_kick_interpdOpar_poly`: breakpoints `x 0, …, x n` and `c m i` the coefficient of the `m`-th
power on interval `i` (`poly.c[-m - 1][i]`), up to `spline_order`. -/
structure Gap extends Stream.Par where
  timpact : ℝ
  delta : ℝ
  raw : ℝ → ℝ
  n : ℕ
  x : ℕ → ℝ
  c : ℕ → ℕ → ℝ
  splineOrder : ℕ

variable (p : Gap)

/-- `_kick_interpdOpar` with the decorator `impact_check_range`, streamgapdf.py:20-35 and 797-800. -/
def kick (da : ℝ) : ℝ := if da < p.delta ∧ 0 < da then p.raw da else 0

/-- `pOparapar`, streamgapdf.py:221-260, for one frequency (`ts` is infinite or NaN for `Opar = 0`). -/
def pOparapar (Opar apar : ℝ) : ℝ :=
  let apar_impact := apar - Opar * p.timpact;
  let dOpar_impact := kick p apar_impact;
  let Opar_b4impact := Opar - dOpar_impact;
  if Opar ≠ 0 ∧ apar / Opar < p.timpact ∧ 0 ≤ apar / Opar then Stream.pOparapar p.toPar Opar apar p.tdisrupt
  else Stream.pOparapar p.toPar Opar_b4impact apar_impact (p.tdisrupt - p.timpact)

/-- `Oparb`, streamgapdf.py:294, 433 and 521. -/
def Ob (dangle : ℝ) (i : ℕ) : ℝ := (dangle - p.x i) / p.timpact

/-- `lowx` before the negative entries are replaced, streamgapdf.py:435-443. -/
def lowx (dangle tdisrupt : ℝ) (i : ℕ) : ℝ :=
  ((Ob p dangle i - p.c 0 i) * (tdisrupt - p.timpact) + Ob p dangle i * p.timpact - dangle)
    / ((tdisrupt - p.timpact) * (1 + p.c 1 i * p.timpact) + p.timpact)

/-- `lowx[lowx < 0] = inf`, `argmin`, streamgapdf.py:444-447, over the first `m` entries: position (the first of equal ones) and
value.  `none` if all are infinite, in which case the code goes on with the first and infinity (not modelled). -/
def minRaw (dangle tdisrupt : ℝ) : ℕ → Option (ℕ × ℝ)
  | 0 => none
  | m + 1 =>
    if lowx p dangle tdisrupt m < 0 then minRaw dangle tdisrupt m
    else match minRaw dangle tdisrupt m with
      | none => some (m, lowx p dangle tdisrupt m)
      | some (i, v) => if lowx p dangle tdisrupt m < v then some (m, lowx p dangle tdisrupt m) else some (i, v)

/-- `minOpar`, streamgapdf.py:407-449. -/
def minOpar (dangle tdisrupt : ℝ) : Option ℝ :=
  (minRaw p dangle tdisrupt p.n).map fun r => Ob p dangle r.1 - r.2

/-- `Oparb` after `Oparb[lowbindx + 1] = Oparb[lowbindx] - lowx`, streamgapdf.py:298 and 525. -/
def ObCut (dangle : ℝ) (b : ℕ) (low : ℝ) (i : ℕ) : ℝ := if i = b + 1 then Ob p dangle b - low else Ob p dangle i

/-- The array of `_density_par_approx`, streamgapdf.py:300-322. -/
def densArr (O : ℕ → ℝ) (i : ℕ) : ℝ :=
  0.5 / (1 + p.c 1 i * p.timpact)
    * (erf (1 / √(2 * p.e2) * (O i - p.c 0 i - p.meandO))
      - erf (1 / √(2 * p.e2) * (O (i + 1) - p.c 0 i - p.meandO - p.c 1 i * p.timpact * (O i - O (i + 1)))))

/-- Row `-j - 1` of `_densMoments_approx_higherorder_gaussxpolyInts`, streamgapdf.py:385-405. -/
def gaussxpolyInt (ll ul : ℝ) : ℕ → ℝ
  | 0 => 1 / √π * (exp (-ll ^ 2) - exp (-ul ^ 2))
  | 1 => 1 / √π * (exp (-ll ^ 2) * ll - exp (-ul ^ 2) * ul) + 0.5 * (erf ul - erf ll)
  | j + 2 => 1 / √π * (exp (-ll ^ 2) * ll ^ (j + 2) - exp (-ul ^ 2) * ul ^ (j + 2)) + 0.5 * (j + 2) * gaussxpolyInt ll ul j

/-- `ll` and `ul`, streamgapdf.py:346-356 and 589-599. -/
def ll (O : ℕ → ℝ) (i : ℕ) : ℝ :=
  (O (i + 1) - p.c 0 i - p.meandO - p.c 1 i * p.timpact * (O i - O (i + 1))) / √(2 * p.e2)
def ul (O : ℕ → ℝ) (i : ℕ) : ℝ := (O i - p.c 0 i - p.meandO) / √(2 * p.e2)

/-- The factor of each row, streamgapdf.py:362-367 and 610-615. -/
def rowFac (j : ℕ) : ℝ := -0.5 * (-√2) ^ (j + 1) * p.e2 ^ (0.5 * ((j : ℝ) - 1))

/-- Column `i` of the array of `_density_par_approx_higherorder`, streamgapdf.py:338-383 (for a spline of order one the
method returns zero, and so does the empty sum over `m`).  The code multiplies `binom(m, j) = 0` for `j > m` with a negative power of
`Oparb - c0 - meandO`, which gives zero unless that is zero (then NaN, not modelled). -/
def densHigherArr (O : ℕ → ℝ) (i : ℕ) : ℝ :=
  ∑ j ∈ range (p.splineOrder + 1), gaussxpolyInt (ll p O i) (ul p O i) j * rowFac p j *
    ∑ m ∈ Ico 2 (p.splineOrder + 1), p.c m i * p.timpact ^ m / (1 + p.c 1 i * p.timpact) ^ (m + 1) * (m.choose j : ℝ)
      * (O i - p.c 0 i - p.meandO) ^ (m - j)

/-- `_density_par_approx`, streamgapdf.py:288-336. -/
def densApprox (dangle tdisrupt : ℝ) (higherorder : Bool) : Option ℝ :=
  (minRaw p dangle tdisrupt p.n).map fun r =>
    let O := ObCut p dangle r.1 r.2;
    ∑ i ∈ range (r.1 + 1), densArr p O i + (if higherorder then ∑ i ∈ range (r.1 + 1), densHigherArr p O i else 0)
      + 0.5 * (1 + erf ((p.meandO - O 0) / √(2 * p.e2)))

/-- The summand of `_meanOmega_num_approx`, streamgapdf.py:527-562. -/
def meanArr (O : ℕ → ℝ) (i : ℕ) : ℝ :=
  (O i + (p.meandO + p.c 0 i - O i) / (1 + p.c 1 i * p.timpact)) * densArr p O i
    + √(p.e2 / 2 / π) / (1 + p.c 1 i * p.timpact) ^ 2
      * (exp (-0.5 * (O i - p.c 0 i - (1 + p.c 1 i * p.timpact) * (O i - O (i + 1)) - p.meandO) ^ 2 / p.e2)
        - exp (-0.5 * (O i - p.c 0 i - p.meandO) ^ 2 / p.e2))

/-- Column `i` of `_meanOmega_num_approx_higherorder`, streamgapdf.py:583-630. -/
def meanHigherArr (O : ℕ → ℝ) (i : ℕ) : ℝ :=
  ∑ j ∈ range (p.splineOrder + 2), gaussxpolyInt (ll p O i) (ul p O i) j * rowFac p j *
    (∑ m ∈ Ico 2 (p.splineOrder + 1), p.c m i * p.timpact ^ m / (1 + p.c 1 i * p.timpact) ^ (m + 2) * ((m + 1).choose j : ℝ)
      * (O i - p.c 0 i - p.meandO) ^ (m + 1 - j))
    + O i * densHigherArr p O i

/-- `_meanOmega_num_approx`, streamgapdf.py:518-581. -/
def meanNumApprox (dangle tdisrupt : ℝ) (higherorder : Bool) : Option ℝ :=
  (minRaw p dangle tdisrupt p.n).map fun r =>
    let O := ObCut p dangle r.1 r.2;
    ∑ i ∈ range (r.1 + 1), meanArr p O i + (if higherorder then ∑ i ∈ range (r.1 + 1), meanHigherArr p O i else 0)
      + 0.5 * (√(2 / π) * √p.e2 * exp (-0.5 * (p.meandO - O 0) ^ 2 / p.e2)
        + p.meandO * (1 + erf ((p.meandO - O 0) / √(2 * p.e2))))

/-- The frequency at integration variable `T`, streamgapdf.py:279-280 and 491-492. -/
def OT (T : ℝ) : ℝ := T / (1 - T * T) * √p.e2 + p.meandO

/-- `_density_par(approx=False)`, streamgapdf.py:273-286.  `tdisrupt` is not used. -/
def densExact (dangle _tdisrupt : ℝ) : ℝ :=
  ∫ T in (-1 : ℝ)..1, √p.e2 * (1 + T * T) / (1 - T * T) ^ 2 * pOparapar p (OT p T) dangle

/-- The numerator of `meanOmega(approx=False)`, streamgapdf.py:488-505. -/
def meanNumExact (dangle : ℝ) : ℝ :=
  ∫ T in (-1 : ℝ)..1, OT p T * √p.e2 * (1 + T * T) / (1 - T * T) ^ 2 * pOparapar p (OT p T) dangle

/-- `meanOmega(oned=True)`, streamgapdf.py:451-511. -/
def meanOmega1 (dangle tdisrupt : ℝ) (approx higherorder : Bool) : Option ℝ :=
  if approx then do
    let num ← meanNumApprox p dangle tdisrupt higherorder
    let denom ← densApprox p dangle tdisrupt higherorder
    return num / denom
  else some (meanNumExact p dangle / densExact p dangle tdisrupt)

end Verif.StreamGap
