import Verif.Model.Coords

set_option autoImplicit false

/-!
# Action-angle coordinates of the harmonic oscillator

`galpy/actionAngle/actionAngleHarmonic.py` and `actionAngleHarmonicInverse.py`.
-/

noncomputable section
namespace Verif.Harmonic
open Real Coords

/-- `_evaluate` (actionAngleHarmonic.py 70-71). -/
def action (omega x vx : ℝ) : ℝ := (vx ^ 2 / omega + omega * x ^ 2) / 2

/-- `_actionsFreqs` (actionAngleHarmonic.py 96-100). -/
def actionsFreqs (omega x vx : ℝ) : ℝ × ℝ := ((vx ^ 2 / omega + omega * x ^ 2) / 2, omega * 1)

/-- `_actionsFreqsAngles` (actionAngleHarmonic.py 125-130). -/
def actionsFreqsAngles (omega x vx : ℝ) : ℝ × ℝ × ℝ :=
  ((vx ^ 2 / omega + omega * x ^ 2) / 2, omega * 1, atan2 (omega * x) vx)

/-- `_xvFreqs` (actionAngleHarmonicInverse.py 91-94). -/
def xvFreqs (omega j angle : ℝ) : ℝ × ℝ × ℝ :=
  let amp := √(2 * j / omega)
  (amp * sin angle, amp * omega * cos angle, omega)

/-- `_evaluate` (actionAngleHarmonicInverse.py 65). -/
def xv (omega j angle : ℝ) : ℝ × ℝ := ((xvFreqs omega j angle).1, (xvFreqs omega j angle).2.1)

/-- `_Freqs` (actionAngleHarmonicInverse.py 115). -/
def freqs (omega _j : ℝ) : ℝ := omega

end Verif.Harmonic
