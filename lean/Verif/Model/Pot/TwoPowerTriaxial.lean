import Verif.Model.Pot.Ellipsoidal
import Verif.Model.Pot.TwoPowerGeneric

set_option autoImplicit false

/-!
# TwoPowerTriaxialPotential with arbitrary exponents

`galpy/potential/TwoPowerTriaxialPotential.py:20-190` and `potential_c_ext/TwoPowerTriaxialPotential.c:66-118`: the three
functions it gives to EllipsoidalPotential, and the mass. `hyp2f1` is Euler's integral (`TwoPowerGeneric.lean`), so inner
slopes between 2 and 3, for which the first parameter of the call in `_psi` is negative, are not covered.
-/

noncomputable section
namespace Verif.Ellipsoidal
open Real

/-- The constructor's check, TwoPowerTriaxialPotential.py:105-108. -/
def twoPowerRaises (α β : ℝ) : Prop := β ≤ 2 ∨ 3 ≤ α
/-- `psi_inf`, TwoPowerTriaxialPotential.py:115-119. -/
def psiInf (α β : ℝ) : ℝ := Gamma (β - 2) * Gamma (3 - α) / Gamma (β - α)
open Classical in
/-- `_psi`, `_mdens`, `_mdens_deriv`, TwoPowerTriaxialPotential.py:134-174. -/
def twoPower (a α β : ℝ) : Profile where
  psi := fun m =>
    if 2 - α = 0 then
      -2 * a ^ 2 * (a / m) ^ (β - α) / (β - α) * hyp2f1 (β - α) (β - α) (β - α + 1) (-a / m)
    else
      -2 * a ^ 2 * (psiInf α β - (m / a) ^ (2 - α) / (2 - α) * hyp2f1 (2 - α) (β - α) (3 - α) (-m / a))
  mdens := fun m => (a / m) ^ α / (1 + m / a) ^ (β - α)
  mdensDeriv := fun m => -((a / m) ^ α / (1 + m / a) ^ (β - α)) * (a * α + β * m) / m / (a + m)
open Classical in
/-- TwoPowerTriaxialPotential.c:68-118 with the arguments of integrateFullOrbit.py:247-258. -/
def cTwoPower (a α β : ℝ) : Profile where
  psi := fun m =>
    let a2 := a * a;
    if |2 - α| < 1e-10 then
      let aom := a / m;
      -2 * a2 * aom ^ (β - α) / (β - α) * hyp2f1 (β - α) (β - α) (β - α + 1) (-aom)
    else
      let moa := m / a;
      -2 * a2 * ((if 2 - α ≠ 0 then psiInf α β else 0) - moa ^ (2 - α) / (2 - α) * hyp2f1 (2 - α) (β - α) (3 - α) (-moa))
  mdens := fun m => (a / m) ^ α / (m / a + 1) ^ (β - α)
  mdensDeriv := fun m =>
    let mpa := m + a;
    let mdens := (a / m) ^ α / (mpa / a) ^ (β - α);
    -mdens * (a * α + β * m) / m / mpa
/-- `_mass`, TwoPowerTriaxialPotential.py:176-190. -/
def massTwoPower (a α β b c R : ℝ) : ℝ :=
  4 * π * a ^ α * R ^ (3 - α) / (3 - α) * b * c * hyp2f1 (3 - α) (β - α) (4 - α) (-R / a)
/-- The amplitude stored by the constructor, TwoPowerTriaxialPotential.py:121. -/
def twoPowerAmp (amp a : ℝ) : ℝ := amp / (4 * π * a ^ 3)

end Verif.Ellipsoidal
