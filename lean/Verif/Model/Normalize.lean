import Verif.Model.Pot.Ops
import Verif.Model.PotQuant
import Verif.Model.Pot.MiyamotoNagai
import Verif.Model.Pot.TwoPower
import Verif.Model.Pot.PowerSphericalCutoff
import Verif.Lemmas.Pot.Sum

set_option autoImplicit false

/-!
# `normalize` and the Milky-Way models

`galpy/potential/Potential.py:902-920`, the `normalize=` argument of the constructors, and
`galpy/potential/mwpotentials.py:19-29`.
-/

noncomputable section
namespace Verif.Normalize

/-- `Potential.normalize`, Potential.py:902-920: the new `_amp` of an object with methods `P` (without amplitude).
`self.Rforce(1.0, 0.0)` includes the current amplitude and uses the defaults `phi=0.0`, `t=0.0`. -/
def normAmp (P : Pot) (norm amp : ℝ) : ℝ := amp * (norm / |(P.scale amp).Rforce 1 0 0 0|)

/-- The `normalize=` argument of a constructor. -/
inductive Arg where
  | bool (b : Bool)
  | num (x : ℝ)

/-- The last statements of the constructors, e.g. PowerSphericalPotentialwCutoff.py:65-68, MiyamotoNagaiPotential.py:57-61:
`if normalize or (isinstance(normalize, (int, float)) and not isinstance(normalize, bool)): self.normalize(normalize)`
(`True` is the number 1 in `norm / ...`). -/
def init (P : Pot) (amp : ℝ) : Arg → ℝ
  | .bool false => amp
  | .bool true => normAmp P 1 amp
  | .num x => normAmp P x amp

/-- A combination of objects given by methods and amplitude, `CompositePotential(...)`. -/
def composite (l : List (Pot × ℝ)) : Pot := Pot.sum (l.map fun q => q.1.scale q.2)

/-- One member of a model: methods, the amplitude the constructor computed before normalizing, and the norm. -/
def member (P : Pot) (amp norm : ℝ) : Pot × ℝ := (P, init P amp (.num norm))

/-- `MWPotential2014`, mwpotentials.py:25-29.  The default `amp=1.0`, `r1=1.0`. -/
def MWPotential2014 : Pot := composite
  [member (PowerSphCut.pot 1.8 (1.9 / 8)) (PowerSphCut.initAmp 1 1 1.8) 0.05,
   member (MiyamotoNagai.pot true (3 / 8) (0.28 / 8)) 1 0.6,
   member (NFW.pot 2) 1 0.35]
/-- `_MWPotential`, mwpotentials.py:19-23. -/
def MWPotentialOld : Pot := composite
  [member (MiyamotoNagai.pot true 0.5 0.0375) 1 0.6,
   member (NFW.pot 4.5) 1 0.35,
   member (Hernquist.pot (0.6 / 8)) 1 0.05]

end Verif.Normalize
