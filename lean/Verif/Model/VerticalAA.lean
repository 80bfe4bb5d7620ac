import Verif.Model.RootSearch
import Verif.Model.NFWVirial
import Verif.Model.IsochroneAA
import Mathlib.MeasureTheory.Integral.IntervalIntegral.Basic

set_option autoImplicit false

/-!
# Action-angle coordinates of one-dimensional potentials

`galpy/actionAngle/actionAngleVertical.py`.  The potential is a function of `x`; one entry of the input arrays is one evaluation.
`integrate.quad` is the exact integral and `optimize.brentq` the relation `Brentq`.  The loop that moves the root down while
rounding makes it fall outside (350-353) is not modelled: at an exact root it does nothing.
-/

noncomputable section
namespace Verif.VerticalAA
open Real RootSearch NFWVirial

/-- `calcxmax` (actionAngleVertical.py 297-354); `none` when `brentq` raises. -/
def XmaxOut (phi : ℝ → ℝ) (x vx : ℝ) (out : Option ℝ) : Prop :=
  ∃ n r, calcxmax phi x vx n = some r ∧
    match r with
    | .value y => out = some y
    | .interval lo hi => Brentq (fun xm => vx ^ 2 / 2 + phi x - phi xm) lo hi out

/-- The energy (actionAngleVertical.py 78-80, 135-137, 222-224). -/
def E (phi : ℝ → ℝ) (x vx : ℝ) : ℝ := vx ^ 2 / 2 + phi x

/-- The action (actionAngleVertical.py 85-101, 143-159, 231-247). -/
def calcJ (phi : ℝ → ℝ) (E xmax : ℝ) : ℝ := 2 * (∫ xi in (0 : ℝ)..xmax, √(2 * (E - phi xi))) / π

/-- The frequency as computed in `_actionsFreqs` (actionAngleVertical.py 161-187). -/
def calcOmegaFreqs (phi : ℝ → ℝ) (E xmax : ℝ) : ℝ :=
  π / 2 / ∫ t in (0 : ℝ)..√xmax, 2 * t / (if t > 1 / 10 ^ 6 then √(2 * (E - phi (xmax - t ^ 2))) else 1)

/-- The frequency as computed in `_actionsFreqsAngles` (actionAngleVertical.py 248-268).  For a body at rest at the centre the integral is 0
and the code raises `ZeroDivisionError`, which is not modelled. -/
def calcOmega (phi : ℝ → ℝ) (E xmax : ℝ) : ℝ := π / 2 / ∫ t in (0 : ℝ)..√xmax, 2 * t / √(2 * (E - phi (xmax - t ^ 2)))

/-- The angle (actionAngleVertical.py 269-291). -/
def calcAngle (phi : ℝ → ℝ) (x vx E omega : ℝ) : ℝ :=
  let angle := (∫ xi in (0 : ℝ)..|x|, 1 / √(2 * (E - phi xi))) * omega
  let angle := if x ≥ 0 ∧ vx < 0 then π - angle else angle;
  let angle := if x < 0 ∧ vx ≤ 0 then π + angle else angle;
  let angle := if x < 0 ∧ vx > 0 then 2 * π - angle else angle;
  IsochroneAA.mod2pi angle

/-- `_evaluate` (actionAngleVertical.py 71-102), one entry. -/
def Action (phi : ℝ → ℝ) (x vx : ℝ) (out : Option ℝ) : Prop :=
  ∃ xm, XmaxOut phi x vx xm ∧ out = xm.map fun xmax => if xmax = -9999.99 then 9999.99 else calcJ phi (E phi x vx) xmax

/-- `_actionsFreqs` (actionAngleVertical.py 127-188), one entry. -/
def Freqs (phi : ℝ → ℝ) (x vx : ℝ) (out : Option (ℝ × ℝ)) : Prop :=
  ∃ xm, XmaxOut phi x vx xm ∧ out = xm.map fun xmax =>
    if xmax = -9999.99 then (9999.99, 9999.99) else (calcJ phi (E phi x vx) xmax, calcOmegaFreqs phi (E phi x vx) xmax)

/-- `_actionsFreqsAngles` (actionAngleVertical.py 213-291), one entry.  When `xmax` is the value -9999.99 the stored number 9999.99 is
multiplied by itself and goes through the choice of quadrant (227-229, 285-291). -/
def Angles (phi : ℝ → ℝ) (x vx : ℝ) (out : Option (ℝ × ℝ × ℝ)) : Prop :=
  ∃ xm, XmaxOut phi x vx xm ∧ out = xm.map fun xmax =>
    if xmax = -9999.99 then
      (9999.99, 9999.99,
        let angle : ℝ := 9999.99 * 9999.99
        let angle := if x ≥ 0 ∧ vx < 0 then π - angle else angle;
        let angle := if x < 0 ∧ vx ≤ 0 then π + angle else angle;
        let angle := if x < 0 ∧ vx > 0 then 2 * π - angle else angle;
        IsochroneAA.mod2pi angle)
    else
      let omega := calcOmega phi (E phi x vx) xmax
      (calcJ phi (E phi x vx) xmax, omega, calcAngle phi x vx (E phi x vx) omega)

end Verif.VerticalAA
