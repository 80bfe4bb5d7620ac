import Verif.Model.Pot.Ops
import Mathlib.Analysis.SpecialFunctions.Pow.Real

set_option autoImplicit false

/-!
# Wrapper potentials that change amplitude or azimuth

`galpy/potential/WrapperPotential.py` and the wrappers `DehnenSmooth`, `GaussianAmplitude`,
`TimeDependentAmplitude`, `SolidBodyRotation`, `CorotatingRotation`, with their C versions. The
wrapped object is a `Pot` whose entries are what the `evaluate…` functions return for it
(WrapperPotential.py:204-252), that is, including its own amplitude. The wrapper's own amplitude is
the outer `Pot.scale`.
-/

noncomputable section
namespace Verif.Wrap

open Classical in
/-- `_smooth`, DehnenSmoothWrapperPotential.py:73-83; also DehnenBarPotential.py:160-171 and
EllipticalDiskPotential.py:106-115 (with `grow = true`), and in C `dehnenSmooth`,
DehnenSmoothWrapperPotential.c:6-18, `dehnenBarSmooth`, DehnenBarPotential.c:5-17. -/
def dehnenSmooth (tform tsteady : ℝ) (grow : Bool) (t : ℝ) : ℝ :=
  let smooth :=
    if t < tform then 0
    else if t < tsteady then
      let deltat := t - tform;
      let xi := 2 * deltat / (tsteady - tform) - 1;
      3 / 16 * xi ^ 5 - 5 / 8 * xi ^ 3 + 15 / 16 * xi + 1 / 2
    else 1;
  if grow then smooth else 1 - smooth

/-- The two times set by the constructor, DehnenSmoothWrapperPotential.py:57-63 (also
DehnenBarPotential.py:142-146 in units of the bar period): `tsteady` is an interval after `tform`,
by default `-tform/2`. -/
def dehnenTimes (tform : ℝ) (tsteady : Option ℝ) : ℝ × ℝ :=
  (tform, match tsteady with
    | none => tform / 2
    | some s => tform + s)

open Classical in
/-- `_smooth` for an array of times, DehnenBarPotential.py:149-159: ones, then the entries before
`tform` set to 0, then the entries between the two times set to the polynomial. -/
def dehnenSmoothArray (tform tsteady : ℝ) (ts : List ℝ) : List ℝ :=
  let smooth : List (ℝ × ℝ) := ts.map fun t => (t, 1);
  let smooth := smooth.map fun p => if p.1 < tform then (p.1, 0) else p;
  let smooth := smooth.map fun p => if p.1 < tsteady ∧ tform ≤ p.1 then
    (p.1, let xi := 2 * (p.1 - tform) / (tsteady - tform) - 1;
      3 / 16 * xi ^ 5 - 5 / 8 * xi ^ 3 + 15 / 16 * xi + 1 / 2) else p;
  smooth.map Prod.snd

/-- `_smooth`, GaussianAmplitudeWrapperPotential.py:54-55 (`_sigma2 = sigma**2`, line 45); in C
`gaussSmooth`, GaussianAmplitudeWrapperPotential.c:5-7. -/
def gaussSmooth (t₀ sigma : ℝ) (t : ℝ) : ℝ := Real.exp (-(1 / 2) * (t - t₀) ^ 2 / sigma ^ 2)

/-- `_wrap` of the amplitude wrappers with time factor `A`: DehnenSmoothWrapperPotential.py:85-88,
GaussianAmplitudeWrapperPotential.py:57-60, TimeDependentAmplitudeWrapperPotential.py:78-81, applied
to each method as in WrapperPotential.py:184-202. -/
def modulate (A : ℝ → ℝ) (P : Pot) : Pot where
  val := fun R z φ t => A t * P.val R z φ t
  Rforce := fun R z φ t => A t * P.Rforce R z φ t
  zforce := fun R z φ t => A t * P.zforce R z φ t
  phitorque := fun R z φ t => A t * P.phitorque R z φ t
  R2deriv := fun R z φ t => A t * P.R2deriv R z φ t
  z2deriv := fun R z φ t => A t * P.z2deriv R z φ t
  Rzderiv := fun R z φ t => A t * P.Rzderiv R z φ t
  phi2deriv := fun R z φ t => A t * P.phi2deriv R z φ t
  Rphideriv := fun R z φ t => A t * P.Rphideriv R z φ t
  phizderiv := fun R z φ t => A t * P.phizderiv R z φ t
  dens := fun R z φ t => A t * P.dens R z φ t

/-- `_wrap`, SolidBodyRotationWrapperPotential.py:59-63. -/
def solidBody (omega pa : ℝ) (P : Pot) : Pot where
  val := fun R z φ t => P.val R z (φ - omega * t - pa) t
  Rforce := fun R z φ t => P.Rforce R z (φ - omega * t - pa) t
  zforce := fun R z φ t => P.zforce R z (φ - omega * t - pa) t
  phitorque := fun R z φ t => P.phitorque R z (φ - omega * t - pa) t
  R2deriv := fun R z φ t => P.R2deriv R z (φ - omega * t - pa) t
  z2deriv := fun R z φ t => P.z2deriv R z (φ - omega * t - pa) t
  Rzderiv := fun R z φ t => P.Rzderiv R z (φ - omega * t - pa) t
  phi2deriv := fun R z φ t => P.phi2deriv R z (φ - omega * t - pa) t
  Rphideriv := fun R z φ t => P.Rphideriv R z (φ - omega * t - pa) t
  phizderiv := fun R z φ t => P.phizderiv R z (φ - omega * t - pa) t
  dens := fun R z φ t => P.dens R z (φ - omega * t - pa) t

/-- The azimuth at which the wrapped potential is evaluated,
CorotatingRotationWrapperPotential.py:72-78. -/
def corotPhi (vpo beta t₀ pa R φ t : ℝ) : ℝ := φ - vpo * R ^ (beta - 1) * (t - t₀) - pa

/-- `CorotatingRotationWrapperPotential`: `_wrap` (71-79) for the value, `zforce`, `phitorque`,
`z2deriv`, `phi2deriv`, `phizderiv` and `dens`, and the methods `_Rforce` (83-98), `_R2deriv`
(100-129), `_Rzderiv` (131-150), `_Rphideriv` (152-166). -/
def corotating (vpo beta t₀ pa : ℝ) (P : Pot) : Pot where
  val := fun R z φ t => P.val R z (corotPhi vpo beta t₀ pa R φ t) t
  Rforce := fun R z φ t =>
    let φ' := corotPhi vpo beta t₀ pa R φ t;
    P.Rforce R z φ' t
      - P.phitorque R z φ' t * (vpo * (beta - 1) * R ^ (beta - 2) * (t - t₀))
  zforce := fun R z φ t => P.zforce R z (corotPhi vpo beta t₀ pa R φ t) t
  phitorque := fun R z φ t => P.phitorque R z (corotPhi vpo beta t₀ pa R φ t) t
  R2deriv := fun R z φ t =>
    let φ' := corotPhi vpo beta t₀ pa R φ t;
    let phiRderiv := -vpo * (beta - 1) * R ^ (beta - 2) * (t - t₀);
    P.R2deriv R z φ' t + 2 * P.Rphideriv R z φ' t * phiRderiv
      + P.phi2deriv R z φ' t * phiRderiv ^ 2
      + P.phitorque R z φ' t * (vpo * (beta - 1) * (beta - 2) * R ^ (beta - 3) * (t - t₀))
  z2deriv := fun R z φ t => P.z2deriv R z (corotPhi vpo beta t₀ pa R φ t) t
  Rzderiv := fun R z φ t =>
    let φ' := corotPhi vpo beta t₀ pa R φ t;
    P.Rzderiv R z φ' t
      - P.phizderiv R z φ' t * (vpo * (beta - 1) * R ^ (beta - 2) * (t - t₀))
  phi2deriv := fun R z φ t => P.phi2deriv R z (corotPhi vpo beta t₀ pa R φ t) t
  Rphideriv := fun R z φ t =>
    let φ' := corotPhi vpo beta t₀ pa R φ t;
    P.Rphideriv R z φ' t
      - P.phi2deriv R z φ' t * vpo * (beta - 1) * R ^ (beta - 2) * (t - t₀)
  phizderiv := fun R z φ t => P.phizderiv R z (corotPhi vpo beta t₀ pa R φ t) t
  dens := fun R z φ t => P.dens R z (corotPhi vpo beta t₀ pa R φ t) t

/-! ### C versions -/

/-- The force and second-derivative functions of one C potential, arguments `R z phi t`; `calc…` of
the wrapped potentials (galpy_potentials.c) are the entries for the wrapped potential. There is no
density for wrappers in C. -/
structure CForces where
  Rforce : ℝ → ℝ → ℝ → ℝ → ℝ
  zforce : ℝ → ℝ → ℝ → ℝ → ℝ
  phitorque : ℝ → ℝ → ℝ → ℝ → ℝ
  R2deriv : ℝ → ℝ → ℝ → ℝ → ℝ
  z2deriv : ℝ → ℝ → ℝ → ℝ → ℝ
  Rzderiv : ℝ → ℝ → ℝ → ℝ → ℝ
  phi2deriv : ℝ → ℝ → ℝ → ℝ → ℝ
  Rphideriv : ℝ → ℝ → ℝ → ℝ → ℝ
  zphideriv : ℝ → ℝ → ℝ → ℝ → ℝ

/-- `SolidBodyRotationWrapperPotential.c:5-114` (3D functions). -/
def cSolidBody (amp omega pa : ℝ) (P : CForces) : CForces where
  Rforce := fun R z φ t => amp * P.Rforce R z (φ - omega * t - pa) t
  zforce := fun R z φ t => amp * P.zforce R z (φ - omega * t - pa) t
  phitorque := fun R z φ t => amp * P.phitorque R z (φ - omega * t - pa) t
  R2deriv := fun R z φ t => amp * P.R2deriv R z (φ - omega * t - pa) t
  z2deriv := fun R z φ t => amp * P.z2deriv R z (φ - omega * t - pa) t
  Rzderiv := fun R z φ t => amp * P.Rzderiv R z (φ - omega * t - pa) t
  phi2deriv := fun R z φ t => amp * P.phi2deriv R z (φ - omega * t - pa) t
  Rphideriv := fun R z φ t => amp * P.Rphideriv R z (φ - omega * t - pa) t
  zphideriv := fun R z φ t => amp * P.zphideriv R z (φ - omega * t - pa) t

/-- `DehnenSmoothWrapperPotential.c`, `GaussianAmplitudeWrapperPotential.c`,
`TimeDependentAmplitudeWrapperPotential.c` (3D functions) with time factor `A`. -/
def cModulate (amp : ℝ) (A : ℝ → ℝ) (P : CForces) : CForces where
  Rforce := fun R z φ t => amp * A t * P.Rforce R z φ t
  zforce := fun R z φ t => amp * A t * P.zforce R z φ t
  phitorque := fun R z φ t => amp * A t * P.phitorque R z φ t
  R2deriv := fun R z φ t => amp * A t * P.R2deriv R z φ t
  z2deriv := fun R z φ t => amp * A t * P.z2deriv R z φ t
  Rzderiv := fun R z φ t => amp * A t * P.Rzderiv R z φ t
  phi2deriv := fun R z φ t => amp * A t * P.phi2deriv R z φ t
  Rphideriv := fun R z φ t => amp * A t * P.Rphideriv R z φ t
  zphideriv := fun R z φ t => amp * A t * P.zphideriv R z φ t

/-- `CorotatingRotationWrapperPotential.c` (3D functions; arguments `amp, vpo, beta, pa, to`). -/
def cCorotating (amp vpo beta pa t₀ : ℝ) (P : CForces) : CForces :=
  let phi_new := fun R φ t : ℝ => φ - vpo * R ^ (beta - 1) * (t - t₀) - pa;
  let phiRderiv := fun R t : ℝ => -vpo * (beta - 1) * R ^ (beta - 2) * (t - t₀);
  { Rforce := fun R z φ t => amp * (P.Rforce R z (phi_new R φ t) t
      - P.phitorque R z (phi_new R φ t) t * vpo * (beta - 1) * R ^ (beta - 2) * (t - t₀))
    zforce := fun R z φ t => amp * P.zforce R z (phi_new R φ t) t
    phitorque := fun R z φ t => amp * P.phitorque R z (phi_new R φ t) t
    R2deriv := fun R z φ t => amp * (P.R2deriv R z (phi_new R φ t) t
      + 2 * phiRderiv R t * P.Rphideriv R z (phi_new R φ t) t
      + phiRderiv R t * phiRderiv R t * P.phi2deriv R z (phi_new R φ t) t
      + P.phitorque R z (phi_new R φ t) t * vpo * (beta - 1) * (beta - 2) * R ^ (beta - 3) * (t - t₀))
    z2deriv := fun R z φ t => amp * P.z2deriv R z (phi_new R φ t) t
    Rzderiv := fun R z φ t => amp * (P.Rzderiv R z (phi_new R φ t) t
      + phiRderiv R t * P.zphideriv R z (phi_new R φ t) t)
    phi2deriv := fun R z φ t => amp * P.phi2deriv R z (phi_new R φ t) t
    Rphideriv := fun R z φ t => amp * (P.Rphideriv R z (phi_new R φ t) t
      + phiRderiv R t * P.phi2deriv R z (phi_new R φ t) t)
    zphideriv := fun R z φ t => amp * P.zphideriv R z (phi_new R φ t) t }

end Verif.Wrap
