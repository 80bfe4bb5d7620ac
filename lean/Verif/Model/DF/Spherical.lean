import Mathlib.Analysis.SpecialFunctions.OrdinaryHypergeometric
import Verif.Model.Pot.Plummer
import Verif.Model.Pot.TwoPower
import Verif.Model.Pot.PowerSpherical
import Verif.Model.Coords
import Mathlib.Analysis.SpecialFunctions.Gamma.Basic
import Mathlib.Analysis.SpecialFunctions.Trigonometric.Inverse
import Mathlib.MeasureTheory.Integral.IntervalIntegral.Basic

set_option autoImplicit false

/-!
# Spherical distribution functions

`galpy/df/sphericaldf.py`, `isotropicPlummerdf.py`, `isotropicHernquistdf.py`,
`isotropicPowerLawdf.py`, `eddingtondf.py`, `constantbetadf.py`, `constantbetaHernquistdf.py`,
`constantbetaPowerLawdf.py`, `osipkovmerrittdf.py`, `osipkovmerrittHernquistdf.py`, and the density
derivatives the general ones read from the potentials. All quantities are in internal units.

Simplifications. `scipy.integrate.quad`, `dblquad` and `quadpack.quadrature` are the exact
integrals; the spline `_rphi` is a parameter (the theorems take an exact inverse of the potential).
The orders `n`, `m` of a moment are natural numbers. Energies come one at a time instead of in
arrays. `hyp2f1` (constant-beta Hernquist, other values of beta) and the interpolated samplers are
not modelled.
-/

noncomputable section
namespace Verif.Sph
open Real

/-! ## `sphericaldf` -/

/-- `_evaluatePotentials(self._pot, r, 0)`. -/
def phi (P : Pot) (r : ℝ) : ℝ := P.val r 0 0 0

/-- The energy, angular momentum and its z-component computed by `__call__` from a phase-space
point, sphericaldf.py:250-255. -/
def toEL (P : Pot) (R vR vT z vz : ℝ) : ℝ × ℝ × ℝ :=
  let vtotSq := vR ^ 2 + vT ^ 2 + vz ^ 2;
  let r := √(R ^ 2 + z ^ 2);
  let vrad := (R * vR + z * vz) / r;
  (0.5 * vtotSq + P.val R z 0 0, √(vtotSq - vrad ^ 2) * r, R * vT)

/-- `__call__` at a phase-space point, sphericaldf.py:242-256; `f` is `_call_internal`. -/
def call (P : Pot) (f : ℝ → ℝ → ℝ → ℝ) (R vR vT z vz : ℝ) : ℝ :=
  let q := toEL P R vR vT z vz;
  f q.1 q.2.1 q.2.2

/-- `__call__` with an `Orbit` holding the given orbits `(E, (Lx, Ly, Lz))`, sphericaldf.py:236-239:
the squares of all angular-momentum components of all orbits are summed into one number `L`. -/
def callOrbits (f : ℝ → ℝ → ℝ → ℝ) (os : List (ℝ × ℝ × ℝ × ℝ)) : List ℝ :=
  let L := √((os.map fun o => o.2.1 ^ 2 + o.2.2.1 ^ 2 + o.2.2.2 ^ 2).sum);
  os.map fun o => f o.1 L o.2.2.2

/-- `_vmax_at_r`, sphericaldf.py:612-622, with `phiMax` the potential at `rmax + 1e-10`; also
isotropicPowerLawdf.py:128-130 and constantbetaPowerLawdf.py:143-145 (`phiMax = 0`). -/
def vmaxAtR (P : Pot) (phiMax r : ℝ) : ℝ := √(2 * (phiMax - phi P r))

/-- `_vmomentdensity` of the base class, sphericaldf.py:340-363. -/
def vmomentdensity (P : Pot) (phiMax : ℝ) (f : ℝ → ℝ → ℝ → ℝ) (r : ℝ) (n m : ℕ) : ℝ :=
  2 * π * ∫ v in (0 : ℝ)..vmaxAtR P phiMax r, ∫ η in (0 : ℝ)..π,
    v ^ (2 + m + n) * sin η ^ (1 + m) * cos η ^ n * call P f r (v * cos η) (v * sin η) 0 0

/-- `sigmar`, sphericaldf.py:387; `M` is `_vmomentdensity`. -/
def sigmar (M : ℝ → ℕ → ℕ → ℝ) (r : ℝ) : ℝ := √(M r 2 0 / M r 0 0)
/-- `sigmat`, sphericaldf.py:412. -/
def sigmat (M : ℝ → ℕ → ℕ → ℝ) (r : ℝ) : ℝ := √(M r 0 2 / M r 0 0)
/-- `beta`, sphericaldf.py:442. -/
def betaOf (M : ℝ → ℕ → ℕ → ℝ) (r : ℝ) : ℝ := 1 - M r 0 2 / 2 / M r 2 0

/-! ### Sampling -/

/-- A phase-space point `(R, vR, vT, z, vz, phi)`. -/
structure Point where
  R : ℝ
  vR : ℝ
  vT : ℝ
  z : ℝ
  vz : ℝ
  phi : ℝ

/-- The velocity of `sample` from the speed and the angles, sphericaldf.py:512-516. -/
def sampleVelocity (θ v η ψ : ℝ) : ℝ × ℝ × ℝ :=
  let vr := v * cos η;
  let vtheta := v * sin η * cos ψ;
  let vT := v * sin η * sin ψ;
  (vr * sin θ + vtheta * cos θ, vT, vr * cos θ - vtheta * sin θ)

/-- `sample` without a position, sphericaldf.py:482-486 and 512-516. -/
def sample6D (r θ φ v η ψ : ℝ) : Point :=
  let w := sampleVelocity θ v η ψ;
  ⟨r * sin θ, w.1, w.2.1, r * cos θ, w.2.2, φ⟩

/-- `sample` at a position, sphericaldf.py:487-516; `arctan2(R, z)` in line 500. -/
def sampleAt (R z φ v η ψ : ℝ) : Point :=
  let θ := Coords.atan2 R z;
  let w := sampleVelocity θ v η ψ;
  ⟨R, w.1, w.2.1, z, w.2.2, φ⟩

/-- One draw of `sample`, sphericaldf.py:482-516, from the radius `r`, the position angles `φ'`, `θ'` and
the velocity drawn for it: the arguments `R`, `z` and `phi` only matter when both `R` and `z` are given. -/
def sample (R z φ : Option ℝ) (r θ' φ' v η ψ : ℝ) : Point :=
  match R, z with
  | some R, some z => sampleAt R z (φ.getD φ') v η ψ
  | _, _ => sample6D r θ' φ' v η ψ

/-- `_RToxi` for a finite radius, SCFPotential.py:1201-1202. -/
def RToxi (a r : ℝ) : ℝ := (r / a - 1) / (r / a + 1)
/-- `_xiToR`, SCFPotential.py:1197-1198. -/
def xiToR (a ξ : ℝ) : ℝ := a * ((1 + ξ) / (1 - ξ))
/-- The tabulated mass fraction of `_make_cmf_interpolator`, sphericaldf.py:567-575; `mmax` is the mass
within `rmax`. -/
def cmfNode (mass : ℝ → ℝ) (mmax rmin r : ℝ) : ℝ :=
  if 0 < rmin then (mass r - mass rmin) / (mmax - mass rmin) else mass r / mmax

/-- `_sample_r`, sphericaldf.py:532-548: a class with its own `_icmf` uses it whatever `rmin` is. -/
def sampleR (icmf : Option (ℝ → ℝ)) (interp : ℝ → ℝ → ℝ) (rmin u : ℝ) : ℝ :=
  match icmf with
  | some g => g u
  | none => interp rmin u

/-- `_sample_position_angles`, sphericaldf.py:586-590. -/
def samplePositionAngles (u₁ u₂ : ℝ) : ℝ × ℝ := (u₁ * 2 * π, arccos (1 - 2 * u₂))

/-- `_sample_eta` of an isotropic distribution function, sphericaldf.py:872-874. -/
def isoSampleEta (u : ℝ) : ℝ := arccos (1 - 2 * u)

/-! ## `isotropicsphericaldf` -/

/-- `_call_internal`, sphericaldf.py:803-821. -/
def isoCall (fE : ℝ → ℝ) (E _L _Lz : ℝ) : ℝ := fE E

/-- `_vmomentdensity`, sphericaldf.py:853-870. -/
def isoVmoment (P : Pot) (phiMax : ℝ) (fE : ℝ → ℝ) (r : ℝ) (n m : ℕ) : ℝ :=
  if m % 2 = 1 ∨ n % 2 = 1 then 0
  else 2 * π * (∫ v in (0 : ℝ)..vmaxAtR P phiMax r, v ^ (2 + m + n) * fE (phi P r + 0.5 * v ^ 2))
    * Gamma ((m / 2 : ℕ) + 1) * Gamma ((n / 2 : ℕ) + 0.5) / Gamma ((m / 2 : ℕ) + (n / 2 : ℕ) + 1.5)

/-- `_p_v_at_r` without the interpolator, sphericaldf.py:876-883. -/
def isoPvAtR (P : Pot) (fE : ℝ → ℝ) (v r : ℝ) : ℝ := fE (phi P r + 0.5 * v ^ 2) * v ^ 2

/-- `_dMdE` where `fE > 0`, sphericaldf.py:823-851. -/
def isoDMdE (P : Pot) (fE rphi : ℝ → ℝ) (E : ℝ) : ℝ :=
  16 * π ^ 2 * √2 * fE E * ∫ r in (0 : ℝ)..rphi E, r ^ 2 * √(E - phi P r)

/-! ### Plummer -/
namespace PlummerDF

/-- `_fEnorm`, isotropicPlummerdf.py:42-44. -/
def norm (amp b : ℝ) : ℝ := 24 * √2 / 7 / π ^ 3 * b ^ 2 / amp ^ 4
/-- `fE`, isotropicPlummerdf.py:46-69 (`_Etildemax`, line 40). -/
def fE (amp b E : ℝ) : ℝ :=
  let Et := -E;
  if 0 < Et ∧ Et ≤ amp / b then norm amp b * Et ^ (3.5 : ℝ) else 0
/-- `_icmf`, isotropicPlummerdf.py:71-74. -/
def icmf (b ms : ℝ) : ℝ := b / √(ms ^ (-2 / 3 : ℝ) - 1)
end PlummerDF

/-! ### Hernquist -/
namespace HernquistDF

/-- `_psi0`, isotropicHernquistdf.py:34. -/
def psi0 (amp a : ℝ) : ℝ := -(amp * Hernquist.evaluate a 0 0)
/-- `_GMa`, isotropicHernquistdf.py:35. -/
def GMa (amp a : ℝ) : ℝ := psi0 amp a * a ^ 2
/-- `_fEnorm`, isotropicHernquistdf.py:37-43 (also osipkovmerrittHernquistdf.py:48-54). -/
def norm (amp a : ℝ) : ℝ := psi0 amp a * a / √2 / (2 * π) ^ 3 / GMa amp a ^ (1.5 : ℝ)
/-- The bracket of `fE`, isotropicHernquistdf.py:70-81. -/
def shape (x : ℝ) : ℝ :=
  √x / (1 - x) ^ 2 * ((1 - 2 * x) * (8 * x ^ 2 - 8 * x - 3) + 3 * arcsin (√x) / √(x * (1 - x)))
/-- `fE`, isotropicHernquistdf.py:45-85. -/
def fE (amp a E : ℝ) : ℝ :=
  let Et := -(E / psi0 amp a);
  if Et < 0 ∨ 1 < Et then 0 else norm amp a * shape Et
/-- `_dMdE` where `fE > 0`, isotropicHernquistdf.py:87-102. -/
def dMdE (amp a E : ℝ) : ℝ :=
  let A := -psi0 amp a / E;
  (4 * π) ^ 2 * fE amp a E * a ^ 3 * √(-2 * E)
    * (√(A - 1) * (0.125 * A ^ 2 - 5 / 12 * A - 1 / 3)
      + 0.125 * A * (A ^ 2 - 4 * A + 8) * arccos (A ^ (-0.5 : ℝ)))
/-- `_icmf`, isotropicHernquistdf.py:104-107 (the same in constantbetaHernquistdf.py:118-121 and
osipkovmerrittHernquistdf.py:99-102). -/
def icmf (a ms : ℝ) : ℝ := a * √ms / (1 - √ms)
/-- `osipkovmerrittHernquistdf.fQ`, osipkovmerrittHernquistdf.py:56-97. -/
def fQ (amp a ra Q : ℝ) : ℝ :=
  let Qt := Q / psi0 amp a;
  if Qt < 0 ∨ 1 < Qt then 0
  else norm amp a * (shape Qt + 8 * (a ^ 2 / ra ^ 2) * √Qt * (1 - 2 * Qt))
/-- `constantbetaHernquistdf.fE` for `beta = 0.5`, constantbetaHernquistdf.py:96-97. -/
def fEhalf (amp a E : ℝ) : ℝ :=
  let Et := -(E / psi0 amp a);
  if Et < 0 ∨ 1 < Et then 0 else 3 * Et ^ 2 / (4 * π ^ 3 * a)
/-- `constantbetaHernquistdf.fE` for `beta = -0.5`, constantbetaHernquistdf.py:98-102. -/
def fEmhalf (amp a E : ℝ) : ℝ :=
  let Et := -(E / psi0 amp a);
  if Et < 0 ∨ 1 < Et then 0
  else (20 * Et ^ 3 - 20 * Et ^ 4 + 6 * Et ^ 5) / (1 - Et) ^ 4 / (4 * π ^ 3 * GMa amp a * a)
/-- `_fEnorm`, constantbetaHernquistdf.py:42-50. -/
def normBeta (amp a β : ℝ) : ℝ :=
  2 ^ β / (2 * π) ^ (2.5 : ℝ) * Gamma (5 - 2 * β) / Gamma (1 - β) / Gamma (3.5 - β) / GMa amp a ^ (1.5 - β)
    * psi0 amp a * a

/-- `constantbetaHernquistdf.fE`, constantbetaHernquistdf.py:52-116, for one energy, dispatching on `beta`. -/
def fEbeta (amp a β E : ℝ) : ℝ :=
  if β = 0 then fE amp a E
  else if β = 0.5 then fEhalf amp a E
  else if β = -0.5 then fEmhalf amp a E
  else
    let Et := -(E / psi0 amp a);
    if Et < 0 ∨ 1 < Et then 0
    else normBeta amp a β * Et ^ (2.5 - β) * ordinaryHypergeometric (5 - 2 * β) (1 - 2 * β) (3.5 - β) Et
end HernquistDF

/-! ### Power laws -/
namespace PowerDF

/-- `_C`, isotropicPowerLawdf.py:78 and constantbetaPowerLawdf.py:90. -/
def C (amp α : ℝ) : ℝ := amp / (α - 2)
/-- `_nu0`, isotropicPowerLawdf.py:83 and constantbetaPowerLawdf.py:94. -/
def nu0 (ampd γ : ℝ) : ℝ := ampd * (3 - γ) / (4 * π)
/-- `_s`, isotropicPowerLawdf.py:85 (`_n`, line 86). -/
def s (α γ : ℝ) : ℝ := γ / (α - 2)
/-- `_fEnorm`, isotropicPowerLawdf.py:88-98. -/
def norm (amp α ampd γ : ℝ) : ℝ :=
  nu0 ampd γ * Gamma (s α γ + 1)
    / (2 * √2 * π ^ (1.5 : ℝ) * Gamma (s α γ - 0.5) * C amp α ^ s α γ)
/-- `fE`, isotropicPowerLawdf.py:101-126. -/
def fE (amp α ampd γ E : ℝ) : ℝ :=
  let eps := -E;
  if 0 < eps then norm amp α ampd γ * eps ^ (s α γ - 1.5) else 0
/-- `_icmf`, isotropicPowerLawdf.py:132-137 and constantbetaPowerLawdf.py:147-152. -/
def icmf (γ rmin rmax ms : ℝ) : ℝ :=
  let rminG := rmin ^ (3 - γ);
  let rmaxG := rmax ^ (3 - γ);
  (ms * (rmaxG - rminG) + rminG) ^ (1 / (3 - γ))
/-- `_p`, constantbetaPowerLawdf.py:96. -/
def p (α γ β : ℝ) : ℝ := (γ - 2 * β) / (α - 2)
/-- `_n`, constantbetaPowerLawdf.py:97. -/
def n (α γ β : ℝ) : ℝ := p α γ β + β - 1.5
/-- `_fEnorm`, constantbetaPowerLawdf.py:103-113. -/
def normBeta (amp α ampd γ β : ℝ) : ℝ :=
  nu0 ampd γ * 2 ^ β * Gamma (p α γ β + 1)
    / ((2 * π) ^ (1.5 : ℝ) * Gamma (1 - β) * Gamma (n α γ β + 1) * C amp α ^ p α γ β)
/-- `fE`, constantbetaPowerLawdf.py:116-141. -/
def fEBeta (amp α ampd γ β E : ℝ) : ℝ :=
  let eps := -E;
  if 0 < eps then normBeta amp α ampd γ β * eps ^ n α γ β else 0
end PowerDF

/-! ## Constant anisotropy -/

/-- `_constantbetadf._call_internal`, constantbetadf.py:50-72. -/
def cbCall (β : ℝ) (fE : ℝ → ℝ) (E L _Lz : ℝ) : ℝ := L ^ (-2 * β) * fE E

/-- `_constantbetadf._vmomentdensity`, constantbetadf.py:132-150. -/
def cbVmoment (P : Pot) (phiMax β : ℝ) (fE : ℝ → ℝ) (r : ℝ) (n m : ℕ) : ℝ :=
  if m % 2 = 1 ∨ n % 2 = 1 then 0
  else 2 * π * r ^ (-2 * β)
    * (∫ v in (0 : ℝ)..vmaxAtR P phiMax r, v ^ (2 - 2 * β + m + n) * fE (phi P r + 0.5 * v ^ 2))
    * Gamma (m / 2 - β + 1) * Gamma ((n + 1) / 2) / Gamma (0.5 * (m + n - 2 * β + 3))

/-- The cumulative distribution of `cos(eta)` that `_constantbetadf._sample_eta` tabulates and inverts,
constantbetadf.py:109-116. -/
def cbCosEtaCmf (β x : ℝ) : ℝ :=
  x * ordinaryHypergeometric 0.5 β 1.5 (x ^ 2) / √π / Gamma (1 - β) * Gamma (1.5 - β) + 0.5

/-- `_constantbetadf._p_v_at_r`, constantbetadf.py:122-130. -/
def cbPvAtR (P : Pot) (β : ℝ) (fE : ℝ → ℝ) (v r : ℝ) : ℝ :=
  fE (phi P r + 0.5 * v ^ 2) * v ^ (2 - 2 * β)

/-! ## Osipkov-Merritt -/

/-- `_osipkovmerrittdf._call_internal`, osipkovmerrittdf.py:51-73. -/
def omCall (ra : ℝ) (fQ : ℝ → ℝ) (E L _Lz : ℝ) : ℝ := fQ (-E - 0.5 * L ^ 2 / ra ^ 2)

/-- `_osipkovmerrittdf._vmomentdensity`, osipkovmerrittdf.py:177-195. -/
def omVmoment (P : Pot) (phiMax ra : ℝ) (fQ : ℝ → ℝ) (r : ℝ) (n m : ℕ) : ℝ :=
  if m % 2 = 1 ∨ n % 2 = 1 then 0
  else 2 * π * (∫ v in (0 : ℝ)..vmaxAtR P phiMax r, v ^ (2 + m + n) * fQ (-phi P r - 0.5 * v ^ 2))
    * Gamma (m / 2 + 1) * Gamma ((n + 1) / 2) / Gamma (0.5 * (m + n + 3))
    / (1 + r ^ 2 / ra ^ 2) ^ ((m : ℝ) / 2 + 1)

/-- The cosine drawn by `_osipkovmerrittdf._sample_eta`, osipkovmerrittdf.py:145-152; `sign` is the
choice of `1` or `-1`. -/
def omSampleCos (ra r c sign : ℝ) : ℝ :=
  c * √(1 + r ^ 2 / ra ^ 2) / √(r ^ 2 / ra ^ 2 * c ^ 2 + 1) * sign

/-- `_osipkovmerrittdf._p_v_at_r` without the interpolator, osipkovmerrittdf.py:165-168. -/
def omPvAtR (P : Pot) (fQ : ℝ → ℝ) (v r : ℝ) : ℝ := fQ (-phi P r - 0.5 * v ^ 2) * v ^ 2

/-- `_osipkovmerrittdf._sample_v`, osipkovmerrittdf.py:170-175. -/
def omSampleV (ra r η out : ℝ) : ℝ := out / √(1 + r ^ 2 / ra ^ 2 * sin η ^ 2)

/-- First derivative of the augmented density, osipkovmerrittdf.py:264-270. -/
def omDnudr (ra : ℝ) (dens ddens : ℝ → ℝ) (r : ℝ) : ℝ :=
  ddens r * (1 + r ^ 2 / ra ^ 2) + 2 * dens r * r / ra ^ 2
/-- Second derivative of the augmented density, osipkovmerrittdf.py:283-290. -/
def omD2nudr2 (ra : ℝ) (dens ddens d2dens : ℝ → ℝ) (r : ℝ) : ℝ :=
  d2dens r * (1 + r ^ 2 / ra ^ 2) + 4 * ddens r * r / ra ^ 2 + 2 * dens r / ra ^ 2

/-- What `denspot` can be for the general Osipkov-Merritt class: it tests for `list`
(osipkovmerrittdf.py:271, 291), but a sum of potentials is a `CompositePotential` (and a list is
turned into one, Potential.py:89-117), which has no `_ddensdr`. -/
inductive DensPot
  | single (dens ddens : ℝ → ℝ)
  | composite (parts : List ((ℝ → ℝ) × (ℝ → ℝ)))
  | list (parts : List ((ℝ → ℝ) × (ℝ → ℝ)))

/-- `self._edf._dnudr` of `osipkovmerrittdf`, osipkovmerrittdf.py:264-282; `none` is the
`AttributeError`. -/
def omDnudrOf (ra : ℝ) : DensPot → ℝ → Option ℝ
  | .single dens ddens, r => some (omDnudr ra dens ddens r)
  | .composite _, _ => none
  | .list ps, r => some ((ps.map fun p => p.2 r).sum * (1 + r ^ 2 / ra ^ 2)
      + 2 * (ps.map fun p => p.1 r).sum * r / ra ^ 2)

/-- `self._dnudr` of `eddingtondf`, eddingtondf.py:60-64. -/
def eddDnudrOf : DensPot → ℝ → Option ℝ
  | .single _ ddens, r => some (ddens r)
  | .composite ps, r => some ((ps.map fun p => p.2 r).sum)
  | .list _, _ => none

/-! ## Eddington inversion -/

/-- `_fEintegrand_raw`, eddingtondf.py:177-184. -/
def eddRaw (P : Pot) (dnu d2nu : ℝ → ℝ) (E r : ℝ) : ℝ :=
  let Fr := P.Rforce r 0 0 0;
  (Fr * d2nu r + dnu r * P.R2deriv r 0 0 0) / Fr ^ 2 / √(phi P r - E)
/-- `_fEintegrand_smallr`, eddingtondf.py:187-189. -/
def eddSmall (P : Pot) (dnu d2nu : ℝ → ℝ) (E rE t : ℝ) : ℝ := 2 * t * eddRaw P dnu d2nu E (t ^ 2 + rE)
/-- `_fEintegrand_larger`, eddingtondf.py:192-194. -/
def eddLarge (P : Pot) (dnu d2nu : ℝ → ℝ) (E t : ℝ) : ℝ := 1 / t ^ 2 * eddRaw P dnu d2nu E (1 / t)

/-- `eddingtondf.fE`, eddingtondf.py:114-174. `bnd` is `dnudr(rInf) / Rforce(rInf)`, or zero where
the boundary term is not finite (170). -/
def eddFE (P : Pot) (dnu d2nu rphi : ℝ → ℝ) (bnd potInf Emin E : ℝ) : ℝ :=
  if E < potInf ∧ Emin ≤ E then
    -((∫ t in (0 : ℝ)..√(rphi E), eddSmall P dnu d2nu E (rphi E) t)
      + (∫ t in (0 : ℝ)..0.5 / rphi E, eddLarge P dnu d2nu E t)
      - bnd / √(-E)) / (√8 * π ^ 2)
  else 0

/-! ## Constant anisotropy, general -/

/-- The function that the constructor of `constantbetadf` builds by repeated differentiation,
constantbetadf.py:233-239 and 255-265: `ddtb` is `denspot._ddenstwobetadr`, `F` is
`pot._rforce_jax`, and automatic differentiation is the derivative. -/
def cbFunc (F ddtb : ℝ → ℝ) : ℕ → ℝ → ℝ
  | 0, r => ddtb r / F r
  | k + 1, r => deriv (cbFunc F ddtb k) r / F r

/-- `_m` and `_alpha` away from half-integer `β`, constantbetadf.py:241-242. -/
def cbM (β : ℝ) : ℕ := (⌊1.5 - β⌋).toNat
def cbAlpha (β : ℝ) : ℝ := 1.5 - β - cbM β

/-- `_gradfunc` away from half-integer `β`, constantbetadf.py:249-266. -/
def cbGrad (F ddtb : ℝ → ℝ) : ℕ → ℝ → ℝ
  | 0 => ddtb
  | m + 1 => deriv (cbFunc F ddtb m)

/-- `fE` for an integer odd `twobeta`, constantbetadf.py:348-358; `m = (3 - twobeta) // 2`. -/
def cbHalfFE (F ddtb rphi : ℝ → ℝ) (β : ℝ) (m : ℕ) (potInf Emin E : ℝ) : ℝ :=
  (if E < potInf ∧ Emin ≤ E then cbFunc F ddtb (m - 1) (rphi E) else 0)
    / (2 * π ^ (1.5 : ℝ) * 2 ^ (0.5 - β) * Gamma (1 - β))

/-- `_fEintegrand_raw`, constantbetadf.py:405-413. -/
def cbRaw (P : Pot) (g : ℝ → ℝ) (α E r : ℝ) : ℝ := g r / (phi P r - E) ^ α
/-- `_fEintegrand_smallr`, constantbetadf.py:416-426. -/
def cbSmall (P : Pot) (g : ℝ → ℝ) (α E rE t : ℝ) : ℝ :=
  1 / (1 - α) * t ^ (α / (1 - α)) * cbRaw P g α E (t ^ (1 / (1 - α)) + rE)
/-- `_fEintegrand_larger`, constantbetadf.py:429-431. -/
def cbLarge (P : Pot) (g : ℝ → ℝ) (α E t : ℝ) : ℝ := 1 / t ^ 2 * cbRaw P g α E (1 / t)
/-- `_fE_prefactor`, constantbetadf.py:243-248. -/
def cbPrefactor (β : ℝ) : ℝ :=
  2 ^ β / (2 * π) ^ (1.5 : ℝ) / Gamma (1 - cbAlpha β) / Gamma (1 - β)

/-- `fE` otherwise, constantbetadf.py:359-402. Simplification: the first integral starts at zero; the
code starts it at a small positive value and adds that value times the integrand there. -/
def cbFE (P : Pot) (F ddtb rphi : ℝ → ℝ) (β potInf Emin E : ℝ) : ℝ :=
  -(if E < potInf ∧ Emin ≤ E then
      (∫ t in (0 : ℝ)..rphi E ^ (1 - cbAlpha β), cbSmall P (cbGrad F ddtb (cbM β)) (cbAlpha β) E (rphi E) t)
      + ∫ t in (0 : ℝ)..0.5 / rphi E, cbLarge P (cbGrad F ddtb (cbM β)) (cbAlpha β) E t
    else 0) * cbPrefactor β

end Verif.Sph
