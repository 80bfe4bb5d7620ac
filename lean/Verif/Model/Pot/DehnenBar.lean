import Verif.Spec.Pot
import Verif.Model.Wrappers
import Mathlib.Analysis.SpecialFunctions.Pow.Real

set_option autoImplicit false

/-!
# DehnenBarPotential

`galpy/potential/DehnenBarPotential.py` and `potential_c_ext/DehnenBarPotential.c`. The methods are
those for scalar arguments (the `else` branches); the array branch of `_evaluate` is `evaluateArr`.
Python methods are without `amp`.
-/

noncomputable section
namespace Verif.DehnenBar
open Real

/-- The attributes of an instance. -/
structure Par where
  af : ℝ
  tform : ℝ
  tsteady : ℝ
  rb : ℝ
  omegab : ℝ
  barphi : ℝ

open Classical in
/-- `__init__`, DehnenBarPotential.py:124-146, arguments in natural units: `free` is
`some (omegab, rb, Af)` when `omegab` is given (lines 137-140). -/
def init (free : Option (ℝ × ℝ × ℝ)) (chi rolr barphi tform : ℝ) (tsteady : Option ℝ)
    (beta alpha : ℝ) : Par :=
  let (omegab, rb, af) := match free with
    | none =>
      let omegab := 1 / (rolr ^ (1 - beta) / (1 + √((1 + beta) / 2)));
      let rb := chi * omegab ^ (1 / (beta - 1));
      (omegab, rb, alpha / 3 / rb ^ 3)
    | some x => x;
  let tb := if omegab ≠ 0 then 2 * π / omegab else 1;
  let tform := tform * tb;
  let tsteady := match tsteady with
    | none => tform / 2
    | some s => tform + s * tb;
  ⟨af, tform, tsteady, rb, omegab, barphi⟩

/-- `_smooth`, DehnenBarPotential.py:160-171. -/
def smooth (k : Par) (t : ℝ) : ℝ := Wrap.dehnenSmooth k.tform k.tsteady true t

/-- `2.0 * (phi - self._omegab * t - self._barphi)`, in every method. -/
def ang (k : Par) (φ t : ℝ) : ℝ := 2 * (φ - k.omegab * t - k.barphi)

open Classical in
/-- `_evaluate`, scalar branch, DehnenBarPotential.py:201-226. -/
def evaluate (k : Par) (R z φ t : ℝ) : ℝ :=
  let r2 := R ^ 2 + z ^ 2;
  let r := √r2;
  if r = 0 then -2 * k.af * smooth k t * cos (ang k φ t)
  else if r ≤ k.rb then
    k.af * smooth k t * cos (ang k φ t) * ((r / k.rb) ^ 3 - 2) * R ^ 2 / r2
  else -k.af * smooth k t * cos (ang k φ t) * (k.rb / r) ^ 3 * 1 / (1 + z ^ 2 / R ^ 2)
open Classical in
/-- `_evaluate` on one entry of an array, DehnenBarPotential.py:178-200: `numpy.divide(a, b,
ones_like, where=R != 0)` passes the array of ones as the output, so an entry with `R == 0` keeps
the value one. -/
def evaluateArr (k : Par) (R z φ t : ℝ) : ℝ :=
  let r2 := R ^ 2 + z ^ 2;
  let r := √r2;
  let out :=
    if r ≤ k.rb then ((r / k.rb) ^ 3 - 2) * (if R ≠ 0 then R ^ 2 / r2 else 1)
    else -((k.rb / r) ^ 3) * 1 / (1 + z ^ 2 / R ^ 2);
  out * (k.af * smooth k t * cos (ang k φ t))
open Classical in
/-- `_Rforce`, DehnenBarPotential.py:262-283. -/
def Rforce (k : Par) (R z φ t : ℝ) : ℝ :=
  let r := √(R ^ 2 + z ^ 2);
  if r ≤ k.rb then
    -k.af * smooth k t * cos (ang k φ t)
      * ((r / k.rb) ^ 3 * R * (3 * R ^ 2 + 2 * z ^ 2) - 4 * R * z ^ 2) / r ^ 4
  else
    -k.af * smooth k t * cos (ang k φ t) * (k.rb / r) ^ 3 * R / r ^ 4 * (3 * R ^ 2 - 2 * z ^ 2)
open Classical in
/-- `_phitorque`, DehnenBarPotential.py:307-327. -/
def phitorque (k : Par) (R z φ t : ℝ) : ℝ :=
  let r2 := R ^ 2 + z ^ 2;
  let r := √r2;
  if r ≤ k.rb then
    2 * k.af * smooth k t * sin (ang k φ t) * ((r / k.rb) ^ 3 - 2) * R ^ 2 / r2
  else -2 * k.af * smooth k t * sin (ang k φ t) * (k.rb / r) ^ 3 * R ^ 2 / r2
open Classical in
/-- `_zforce`, DehnenBarPotential.py:361-382. -/
def zforce (k : Par) (R z φ t : ℝ) : ℝ :=
  let r := √(R ^ 2 + z ^ 2);
  if r ≤ k.rb then
    -k.af * smooth k t * cos (ang k φ t) * ((r / k.rb) ^ 3 + 4) * R ^ 2 * z / r ^ 4
  else -5 * k.af * smooth k t * cos (ang k φ t) * (k.rb / r) ^ 3 * R ^ 2 * z / r ^ 4
open Classical in
/-- `_R2deriv`, DehnenBarPotential.py:420-446. -/
def R2deriv (k : Par) (R z φ t : ℝ) : ℝ :=
  let r := √(R ^ 2 + z ^ 2);
  if r ≤ k.rb then
    k.af * smooth k t * cos (ang k φ t)
      * ((r / k.rb) ^ 3 * ((9 * R ^ 2 + 2 * z ^ 2) / r ^ 4
          - R ^ 2 / r ^ 6 * (3 * R ^ 2 + 2 * z ^ 2))
        + 4 * z ^ 2 / r ^ 6 * (4 * R ^ 2 - r ^ 2))
  else
    k.af * smooth k t * cos (ang k φ t) * (k.rb / r) ^ 3 / r ^ 6
      * ((r ^ 2 - 7 * R ^ 2) * (3 * R ^ 2 - 2 * z ^ 2) + 6 * R ^ 2 * r ^ 2)
open Classical in
/-- `_phi2deriv`, DehnenBarPotential.py:472-492. -/
def phi2deriv (k : Par) (R z φ t : ℝ) : ℝ :=
  let r := √(R ^ 2 + z ^ 2);
  if r ≤ k.rb then
    -4 * k.af * smooth k t * cos (ang k φ t) * ((r / k.rb) ^ 3 - 2) * R ^ 2 / r ^ 2
  else 4 * k.af * smooth k t * cos (ang k φ t) * (k.rb / r) ^ 3 * R ^ 2 / r ^ 2
open Classical in
/-- `_Rphideriv`, DehnenBarPotential.py:526-549. -/
def Rphideriv (k : Par) (R z φ t : ℝ) : ℝ :=
  let r := √(R ^ 2 + z ^ 2);
  if r ≤ k.rb then
    -2 * k.af * smooth k t * sin (ang k φ t)
      * ((r / k.rb) ^ 3 * R * (3 * R ^ 2 + 2 * z ^ 2) - 4 * R * z ^ 2) / r ^ 4
  else
    -2 * k.af * smooth k t * sin (ang k φ t) * (k.rb / r) ^ 3 * R / r ^ 4 * (3 * R ^ 2 - 2 * z ^ 2)
open Classical in
/-- `_z2deriv`, DehnenBarPotential.py:585-608. -/
def z2deriv (k : Par) (R z φ t : ℝ) : ℝ :=
  let r := √(R ^ 2 + z ^ 2);
  if r ≤ k.rb then
    k.af * smooth k t * cos (ang k φ t) * R ^ 2 / r ^ 6
      * ((r / k.rb) ^ 3 * (r ^ 2 - z ^ 2) + 4 * (r ^ 2 - 4 * z ^ 2))
  else
    5 * k.af * smooth k t * cos (ang k φ t) * (k.rb / r) ^ 3 * R ^ 2 / r ^ 6
      * (r ^ 2 - 7 * z ^ 2)
open Classical in
/-- `_Rzderiv`, DehnenBarPotential.py:647-672. -/
def Rzderiv (k : Par) (R z φ t : ℝ) : ℝ :=
  let r := √(R ^ 2 + z ^ 2);
  if r ≤ k.rb then
    k.af * smooth k t * cos (ang k φ t) * R * z / r ^ 6
      * ((r / k.rb) ^ 3 * (2 * r ^ 2 - R ^ 2) + 8 * (r ^ 2 - 2 * R ^ 2))
  else
    5 * k.af * smooth k t * cos (ang k φ t) * (k.rb / r) ^ 3 * R * z / r ^ 6
      * (2 * r ^ 2 - 7 * R ^ 2)
open Classical in
/-- `_phizderiv`, DehnenBarPotential.py:706-728. -/
def phizderiv (k : Par) (R z φ t : ℝ) : ℝ :=
  let r := √(R ^ 2 + z ^ 2);
  if r ≤ k.rb then
    -2 * k.af * smooth k t * sin (ang k φ t) * ((r / k.rb) ^ 3 + 4) * R ^ 2 * z / r ^ 4
  else -10 * k.af * smooth k t * sin (ang k φ t) * (k.rb / r) ^ 3 * R ^ 2 * z / r ^ 4

/-- The class as a record of methods. The class defines no `_dens`, so the density is the one
`Potential.dens` computes from the forces and second derivatives (Potential.py:605-620). -/
def pot (k : Par) : Pot where
  val := evaluate k
  Rforce := Rforce k
  zforce := zforce k
  phitorque := phitorque k
  R2deriv := R2deriv k
  z2deriv := z2deriv k
  Rzderiv := Rzderiv k
  phi2deriv := phi2deriv k
  Rphideriv := Rphideriv k
  phizderiv := phizderiv k
  dens := fun R z φ t => (-Rforce k R z φ t / R + R2deriv k R z φ t + phi2deriv k R z φ t / R ^ 2
    + z2deriv k R z φ t) / 4 / π

/-- The arguments packed for C (integrateFullOrbit.py:73-77, integratePlanarOrbit.py:81-93): the
amplitude times `af`, then the other attributes. -/
def cArgs (amp : ℝ) (k : Par) : Par := { k with af := amp * k.af }

open Classical in
/-- `DehnenBarPotentialRforce`, DehnenBarPotential.c:18-40. The first argument is `a.af`. -/
def cRforce (a : Par) (R z φ t : ℝ) : ℝ :=
  let r := √(R * R + z * z);
  if r ≤ a.rb then
    -a.af * smooth a t * cos (ang a φ t)
      * ((r / a.rb) ^ 3 * R * (3 * R * R + 2 * z * z) - 4 * R * z * z) / r ^ 4
  else
    -a.af * smooth a t * cos (ang a φ t) * (a.rb / r) ^ 3 * R / r ^ 4 * (3 * R * R - 2 * z * z)
open Classical in
/-- `DehnenBarPotentialPlanarRforce`, DehnenBarPotential.c:41-59. -/
def cPlanarRforce (a : Par) (R φ t : ℝ) : ℝ :=
  if R ≤ a.rb then -3 * a.af * smooth a t * cos (ang a φ t) * (R / a.rb) ^ 3 / R
  else -3 * a.af * smooth a t * cos (ang a φ t) * (a.rb / R) ^ 3 / R
open Classical in
/-- `DehnenBarPotentialphitorque`, DehnenBarPotential.c:60-82. -/
def cphitorque (a : Par) (R z φ t : ℝ) : ℝ :=
  let r2 := R * R + z * z;
  let r := √r2;
  if r ≤ a.rb then 2 * a.af * smooth a t * sin (ang a φ t) * ((r / a.rb) ^ 3 - 2) * R * R / r2
  else -2 * a.af * smooth a t * sin (ang a φ t) * (a.rb / r) ^ 3 * R * R / r2
open Classical in
/-- `DehnenBarPotentialPlanarphitorque`, DehnenBarPotential.c:83-101. -/
def cPlanarphitorque (a : Par) (R φ t : ℝ) : ℝ :=
  if R ≤ a.rb then 2 * a.af * smooth a t * sin (ang a φ t) * ((R / a.rb) ^ 3 - 2)
  else -2 * a.af * smooth a t * sin (ang a φ t) * (a.rb / R) ^ 3
open Classical in
/-- `DehnenBarPotentialzforce`, DehnenBarPotential.c:102-124. -/
def czforce (a : Par) (R z φ t : ℝ) : ℝ :=
  let r := √(R * R + z * z);
  if r ≤ a.rb then
    -a.af * smooth a t * cos (ang a φ t) * ((r / a.rb) ^ 3 + 4) * R * R * z / r ^ 4
  else -5 * a.af * smooth a t * cos (ang a φ t) * (a.rb / r) ^ 3 * R * R * z / r ^ 4
open Classical in
/-- `DehnenBarPotentialPlanarR2deriv`, DehnenBarPotential.c:125-142. -/
def cPlanarR2deriv (a : Par) (R φ t : ℝ) : ℝ :=
  if R ≤ a.rb then 6 * a.af * smooth a t * cos (ang a φ t) * (R / a.rb) ^ 3 / R / R
  else -12 * a.af * smooth a t * cos (ang a φ t) * (a.rb / R) ^ 3 / R / R
open Classical in
/-- `DehnenBarPotentialPlanarphi2deriv`, DehnenBarPotential.c:143-160. -/
def cPlanarphi2deriv (a : Par) (R φ t : ℝ) : ℝ :=
  if R ≤ a.rb then -4 * a.af * smooth a t * cos (ang a φ t) * ((R / a.rb) ^ 3 - 2)
  else 4 * a.af * smooth a t * cos (ang a φ t) * (a.rb / R) ^ 3
open Classical in
/-- `DehnenBarPotentialPlanarRphideriv`, DehnenBarPotential.c:161-178. -/
def cPlanarRphideriv (a : Par) (R φ t : ℝ) : ℝ :=
  if R ≤ a.rb then -6 * a.af * smooth a t * sin (ang a φ t) * (R / a.rb) ^ 3 / R
  else -6 * a.af * smooth a t * sin (ang a φ t) * (a.rb / R) ^ 3 / R
open Classical in
/-- `DehnenBarPotentialR2deriv`, DehnenBarPotential.c:180-205. -/
def cR2deriv (a : Par) (R z φ t : ℝ) : ℝ :=
  let R2 := R * R; let z2 := z * z; let r2 := R2 + z2; let r4 := r2 * r2; let r6 := r4 * r2;
  let prefac := a.af * smooth a t * cos (ang a φ t);
  if r2 ≤ a.rb * a.rb then
    prefac * (r2 ^ (3 / 2 : ℝ) / (a.rb * a.rb * a.rb)
        * ((9 * R2 + 2 * z2) / r4 - R2 / r6 * (3 * R2 + 2 * z2)) + 4 * z2 / r6 * (4 * R2 - r2))
  else prefac * a.rb ^ 3 * r2 ^ (-(3 / 2) : ℝ) / r6
    * ((r2 - 7 * R2) * (3 * R2 - 2 * z2) + 6 * R2 * r2)
open Classical in
/-- `DehnenBarPotentialphi2deriv`, DehnenBarPotential.c:206-225. -/
def cphi2deriv (a : Par) (R z φ t : ℝ) : ℝ :=
  let R2 := R * R; let r2 := R2 + z * z;
  let prefac := 4 * a.af * smooth a t * cos (ang a φ t);
  if r2 ≤ a.rb * a.rb then -prefac * (r2 ^ (3 / 2 : ℝ) / (a.rb * a.rb * a.rb) - 2) * R2 / r2
  else prefac * a.rb ^ 3 * r2 ^ (-(3 / 2) : ℝ) * R2 / r2
open Classical in
/-- `DehnenBarPotentialRphideriv`, DehnenBarPotential.c:226-248. -/
def cRphideriv (a : Par) (R z φ t : ℝ) : ℝ :=
  let R2 := R * R; let z2 := z * z; let r2 := R2 + z2; let r4 := r2 * r2;
  let prefac := -2 * a.af * smooth a t * sin (ang a φ t);
  if r2 ≤ a.rb * a.rb then
    prefac * (r2 ^ (3 / 2 : ℝ) / (a.rb * a.rb * a.rb) * R * (3 * R2 + 2 * z2) - 4 * R * z2) / r4
  else prefac * a.rb ^ 3 * r2 ^ (-(3 / 2) : ℝ) * R / r4 * (3 * R2 - 2 * z2)
open Classical in
/-- `DehnenBarPotentialz2deriv`, DehnenBarPotential.c:249-271. -/
def cz2deriv (a : Par) (R z φ t : ℝ) : ℝ :=
  let R2 := R * R; let z2 := z * z; let r2 := R2 + z2; let r6 := r2 * r2 * r2;
  let prefac := a.af * smooth a t * cos (ang a φ t);
  if r2 ≤ a.rb * a.rb then
    prefac * R2 / r6 * (r2 ^ (3 / 2 : ℝ) / (a.rb * a.rb * a.rb) * (r2 - z2) + 4 * (r2 - 4 * z2))
  else prefac * 5 * a.rb ^ 3 * r2 ^ (-(3 / 2) : ℝ) * R2 / r6 * (r2 - 7 * z2)
open Classical in
/-- `DehnenBarPotentialRzderiv`, DehnenBarPotential.c:272-293. -/
def cRzderiv (a : Par) (R z φ t : ℝ) : ℝ :=
  let R2 := R * R; let r2 := R2 + z * z; let r6 := r2 * r2 * r2;
  let prefac := a.af * smooth a t * cos (ang a φ t);
  if r2 ≤ a.rb * a.rb then
    prefac * R * z / r6 * (r2 ^ (3 / 2 : ℝ) / (a.rb * a.rb * a.rb) * (2 * r2 - R2)
      + 8 * (r2 - 2 * R2))
  else prefac * 5 * a.rb ^ 3 * r2 ^ (-(3 / 2) : ℝ) * R * z / r6 * (2 * r2 - 7 * R2)
open Classical in
/-- `DehnenBarPotentialzphideriv`, DehnenBarPotential.c:294-314. -/
def czphideriv (a : Par) (R z φ t : ℝ) : ℝ :=
  let R2 := R * R; let r2 := R2 + z * z; let r4 := r2 * r2;
  let prefac := -2 * a.af * smooth a t * sin (ang a φ t);
  if r2 ≤ a.rb * a.rb then
    prefac * (r2 ^ (3 / 2 : ℝ) / (a.rb * a.rb * a.rb) + 4) * R2 * z / r4
  else prefac * 5 * a.rb ^ 3 * r2 ^ (-(3 / 2) : ℝ) * R2 * z / r4

end Verif.DehnenBar
