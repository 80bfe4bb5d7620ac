import Mathlib.Analysis.SpecialFunctions.Pow.Real
import Verif.Spec.Pot

set_option autoImplicit false

/-!
# `NumericalPotentialDerivativesMixin`

`galpy/potential/NumericalPotentialDerivativesMixin.py`. The user's class supplies `_evaluate` and `isNonAxi`. Real arithmetic: a step recomputed from
the rounded abscissae, such as `(Rplus2dR - R) / 2.0`, is the step itself up to the rounding that the code wants to remove.
-/

noncomputable section
namespace Verif.NumDeriv

/-- `_dR`, `_dphi`, `_dz`, `_dR2`, `_dphi2`, `_dz2`, set at lines 26-34. -/
structure Steps where
  dR : ℝ
  dphi : ℝ
  dz : ℝ
  dR2 : ℝ
  dphi2 : ℝ
  dz2 : ℝ

/-- `__init__`, 26-34: a keyword given by the user or the default. -/
def init (dR dphi dz dR2 dphi2 dz2 : Option ℝ) : Steps :=
  ⟨dR.getD 1e-8, dphi.getD 1e-8, dz.getD 1e-8, dR2.getD 1e-4, dphi2.getD 1e-4, dz2.getD 1e-4⟩

section
variable (s : Steps) (isNonAxi : Bool) (ev : ℝ → ℝ → ℝ → ℝ → ℝ) (R z phi t : ℝ)

/-- `_Rforce`, 36-45. -/
def Rforce : ℝ :=
  let RplusdR := R + s.dR;
  let Rplus2dR := R + 2 * s.dR;
  let dR := (Rplus2dR - R) / 2;
  (1.5 * ev R z phi t - 2 * ev RplusdR z phi t + 0.5 * ev Rplus2dR z phi t) / dR

/-- `_zforce`, 47-55. -/
def zforce : ℝ :=
  let zplusdz := z + s.dz;
  let zminusdz := z - s.dz;
  let dz := zplusdz - zminusdz;
  (ev R zminusdz phi t - ev R zplusdz phi t) / dz

/-- `_phitorque`, 57-67. -/
def phitorque : ℝ :=
  if !isNonAxi then 0
  else
    let phiplusdphi := phi + s.dphi;
    let phiminusdphi := phi - s.dphi;
    let dphi := phiplusdphi - phiminusdphi;
    (ev R z phiminusdphi t - ev R z phiplusdphi t) / dphi

/-- `_R2deriv`, 69-80. -/
def R2deriv : ℝ :=
  let RplusdR := R + s.dR2;
  let Rplus2dR := R + 2 * s.dR2;
  let Rplus3dR := R + 3 * s.dR2;
  let dR := (Rplus3dR - R) / 3;
  (2 * ev R z phi t - 5 * ev RplusdR z phi t + 4 * ev Rplus2dR z phi t - 1 * ev Rplus3dR z phi t) / dR ^ 2

/-- `_z2deriv`, 82-91. -/
def z2deriv : ℝ :=
  let zplusdz := z + s.dz2;
  let zminusdz := z - s.dz2;
  let dz := (zplusdz - zminusdz) / 2;
  (ev R zplusdz phi t + ev R zminusdz phi t - 2 * ev R z phi t) / dz ^ 2

/-- `_phi2deriv`, 93-104. -/
def phi2deriv : ℝ :=
  if !isNonAxi then 0
  else
    let phiplusdphi := phi + s.dphi2;
    let phiminusdphi := phi - s.dphi2;
    let dphi := (phiplusdphi - phiminusdphi) / 2;
    (ev R z phiplusdphi t + ev R z phiminusdphi t - 2 * ev R z phi t) / dphi ^ 2

/-- `_Rzderiv`, 106-125. -/
def Rzderiv : ℝ :=
  let RplusdR := R + s.dR2;
  let Rplus2dR := R + 2 * s.dR2;
  let dR := (Rplus2dR - R) / 2;
  let zplusdz := z + s.dz2;
  let zminusdz := z - s.dz2;
  let dz := zplusdz - zminusdz;
  (-1.5 * ev R zplusdz phi t + 2 * ev RplusdR zplusdz phi t - 0.5 * ev Rplus2dR zplusdz phi t
    + 1.5 * ev R zminusdz phi t - 2 * ev RplusdR zminusdz phi t + 0.5 * ev Rplus2dR zminusdz phi t) / dR / dz

/-- `_Rphideriv`, 127-148. -/
def Rphideriv : ℝ :=
  if !isNonAxi then 0
  else
    let RplusdR := R + s.dR2;
    let Rplus2dR := R + 2 * s.dR2;
    let dR := (Rplus2dR - R) / 2;
    let phiplusdphi := phi + s.dphi2;
    let phiminusdphi := phi - s.dphi2;
    let dphi := phiplusdphi - phiminusdphi;
    (-1.5 * ev R z phiplusdphi t + 2 * ev RplusdR z phiplusdphi t - 0.5 * ev Rplus2dR z phiplusdphi t
      + 1.5 * ev R z phiminusdphi t - 2 * ev RplusdR z phiminusdphi t + 0.5 * ev Rplus2dR z phiminusdphi t) / dR / dphi

/-- `_phizderiv`, 150-170. -/
def phizderiv : ℝ :=
  if !isNonAxi then 0
  else
    let phiplusdphi := phi + s.dphi2;
    let phiminusdphi := phi - s.dphi2;
    let dphi := (phiplusdphi - phiminusdphi) / 2;
    let zplusdz := z + s.dz2;
    let zminusdz := z - s.dz2;
    let dz := zplusdz - zminusdz;
    (ev R zplusdz phiplusdphi t - ev R zplusdz phiminusdphi t - ev R zminusdz phiplusdphi t
      + ev R zminusdz phiminusdphi t) / dz / dphi / 2

end
end Verif.NumDeriv
