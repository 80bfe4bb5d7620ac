import Verif.Util.Erf

set_option autoImplicit false

/-!
# streamdf: one-dimensional model of a stream

Transcription of the closed forms of `galpy/df/streamdf.py` for the distribution of the frequency offset, the stripping time and
the perpendicular angle at a given angle offset.  Quantities without units; `integrate.quad` is the exact integral and
`special.erf` the error function.
-/

noncomputable section
namespace Verif.Stream
open Real MeasureTheory Set

/-- The attributes used: `_meandO`, `_sortedSigOEig` (increasing), `_tdisrupt`, `_sigangle`. -/
structure Par where
  meandO : ℝ
  /-- `_sortedSigOEig[2]` -/
  e2 : ℝ
  e1 : ℝ
  e0 : ℝ
  tdisrupt : ℝ
  sigangle : ℝ

/-- `pOparapar`, streamdf.py:2264-2301, for one frequency.  `apar / Opar` is infinite or NaN for `Opar = 0`, hence the first condition. -/
def pOparapar (p : Par) (Opar apar tdisrupt : ℝ) : ℝ :=
  if Opar ≠ 0 ∧ apar / Opar < tdisrupt ∧ 0 ≤ apar / Opar then
    exp (-0.5 * (Opar - p.meandO) ^ 2 / p.e2) / √p.e2
  else 0

/-- `_density_par`, streamdf.py:2396-2407. -/
def densityPar (p : Par) (dangle tdisrupt : ℝ) : ℝ :=
  let dOmin := dangle / tdisrupt;
  0.5 * (1 + erf ((p.meandO - dOmin) / √(2 * p.e2)))

/-- `meanOmega(oned=True)`, streamdf.py:2534-2578. -/
def meanOmega1 (p : Par) (dangle tdisrupt : ℝ) : ℝ :=
  let dOmin := dangle / tdisrupt;
  √(2 / π) * √p.e2 * exp (-0.5 * (p.meandO - dOmin) ^ 2 / p.e2) / (1 + erf ((p.meandO - dOmin) / √(2 * p.e2))) + p.meandO

/-- `meanOmega`, streamdf.py:2579-2583: one component, `prog` that of `_progenitor_Omega` and `dir` that of
`_dsigomeanProgDirection`. -/
def meanOmega (p : Par) (dangle tdisrupt prog dir sign : ℝ) : ℝ := prog + meanOmega1 p dangle tdisrupt * dir * sign

/-- `sigOmega`, streamdf.py:2585-2624. -/
def sigOmega (p : Par) (dangle : ℝ) : ℝ :=
  let dOmin := dangle / p.tdisrupt;
  let sO1D2 := √(2 / π) * √p.e2 * (p.meandO + dOmin) * exp (-0.5 * (p.meandO - dOmin) ^ 2 / p.e2)
      / (1 + erf ((p.meandO - dOmin) / √(2 * p.e2))) + p.meandO ^ 2 + p.e2;
  let mO := meanOmega1 p dangle p.tdisrupt;
  √(sO1D2 - mO ^ 2)

/-- `ptdAngle`, streamdf.py:2626-2657, for one time. -/
def ptdAngle (p : Par) (t dangle : ℝ) : ℝ :=
  if 0 < t ∧ t < p.tdisrupt then
    let dO := dangle / t;
    dO ^ 2 / dangle * exp (-0.5 * (dO - p.meandO) ^ 2 / p.e2) / √p.e2
  else 0

/-- The limits of the integrals over the stripping time, streamdf.py:2679-2680 and 2712-2713. -/
def Tlow (p : Par) (dangle : ℝ) : ℝ := dangle / (p.meandO + 3 * √p.e2)
def Thigh (p : Par) (dangle : ℝ) : ℝ := dangle / (p.meandO - 3 * √p.e2)

/-- `meantdAngle`, streamdf.py:2659-2690. -/
def meantdAngle (p : Par) (dangle : ℝ) : ℝ :=
  let num := ∫ x in (Tlow p dangle)..(Thigh p dangle), x * ptdAngle p x dangle;
  let denom := ∫ x in (Tlow p dangle)..(Thigh p dangle), ptdAngle p x dangle;
  if denom = 0 ∧ dangle / p.meandO < p.tdisrupt / 10 then 0
  else if denom = 0 ∧ dangle / p.meandO > p.tdisrupt / 10 then p.tdisrupt
  else num / denom

/-- `sigtdAngle`, streamdf.py:2692-2722. -/
def sigtdAngle (p : Par) (dangle : ℝ) : ℝ :=
  let numsig2 := ∫ x in (Tlow p dangle)..(Thigh p dangle), x ^ 2 * ptdAngle p x dangle;
  let nummean := ∫ x in (Tlow p dangle)..(Thigh p dangle), x * ptdAngle p x dangle;
  let denom := ∫ x in (Tlow p dangle)..(Thigh p dangle), ptdAngle p x dangle;
  if denom = 0 then 0 else √(numsig2 / denom - (nummean / denom) ^ 2)

/-- `_sortedSigOEig[eigIndx]`, streamdf.py:2781-2784, 2825-2828 and 2855-2858. -/
def eig (p : Par) (smallest : Bool) : ℝ := if smallest then p.e0 else p.e1

/-- `_pangledAnglet`, streamdf.py:2853-2874. -/
def pangledAnglet (p : Par) (t angleperp dangle : ℝ) (smallest : Bool) : ℝ :=
  if t < p.tdisrupt then
    exp (-0.5 * angleperp ^ 2 / (t ^ 2 * eig p smallest + p.sigangle ^ 2)) / √(t ^ 2 * eig p smallest + p.sigangle ^ 2)
      * ptdAngle p t dangle
  else 0

/-- `pangledAngle`, streamdf.py:2724-2757, for one angle. -/
def pangledAngle (p : Par) (angleperp dangle : ℝ) (smallest : Bool) : ℝ :=
  ∫ t in (0 : ℝ)..p.tdisrupt, pangledAnglet p t angleperp dangle smallest

/-- `aplow`, streamdf.py:2785-2790 and 2832-2837. -/
def aplow (p : Par) (smallest : Bool) : ℝ := max (√(eig p smallest) * p.tdisrupt * 5) p.sigangle

/-- `meanangledAngle`, streamdf.py:2759-2798. -/
def meanangledAngle (p : Par) (dangle : ℝ) (smallest : Bool) : ℝ :=
  let num := ∫ x in (aplow p smallest)..(-aplow p smallest), x * pangledAngle p x dangle smallest;
  let denom := ∫ x in (aplow p smallest)..(-aplow p smallest), pangledAngle p x dangle smallest;
  if denom = 0 then 0 else num / denom

/-- `sigangledAngle`, streamdf.py:2800-2851 (`smallest` is not handed on to `pangledAngle`, lines 2839, 2843 and 2847). -/
def sigangledAngle (p : Par) (dangle : ℝ) (assumeZeroMean smallest simple : Bool) : ℝ :=
  if simple then
    let dt := meantdAngle p dangle;
    √(p.sigangle ^ 2 + eig p smallest * dt ^ 2)
  else
    let numsig2 := ∫ x in (aplow p smallest)..(-aplow p smallest), x ^ 2 * pangledAngle p x dangle false;
    let nummean := if assumeZeroMean then 0
      else ∫ x in (aplow p smallest)..(-aplow p smallest), x * pangledAngle p x dangle false;
    let denom := ∫ x in (aplow p smallest)..(-aplow p smallest), pangledAngle p x dangle false;
    if denom = 0 then 0 else √(numsig2 / denom - (nummean / denom) ^ 2)

end Verif.Stream
