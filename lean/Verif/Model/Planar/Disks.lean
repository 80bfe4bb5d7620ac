import Verif.Spec.Planar
import Verif.Model.Wrappers
import Verif.Model.Coords
import Mathlib.Analysis.SpecialFunctions.Pow.Real
import Mathlib.Analysis.SpecialFunctions.Trigonometric.Arctan

set_option autoImplicit false

/-!
# Analytic planar potentials

`HenonHeilesPotential.py`, `CosmphiDiskPotential.py` (with `LopsidedDiskPotential`),
`EllipticalDiskPotential.py`, `SteadyLogSpiralPotential.py`, `TransientLogSpiralPotential.py` in
`galpy/potential`, and their C versions. Python methods are without `amp`, C functions include it.
Powers with a real exponent are Mathlib's real power, which agrees with the code's `**`/`pow` for
positive radii; all theorems are for positive radii where such powers occur.
-/

noncomputable section
namespace Verif
open Real

namespace HenonHeiles

/-- `_evaluate`, HenonHeilesPotential.py:39-40. -/
def evaluate (R φ : ℝ) : ℝ := 1 / 2 * R * R * (1 + 2 / 3 * R * sin (3 * φ))
/-- `_Rforce`, HenonHeilesPotential.py:42-43. -/
def Rforce (R φ : ℝ) : ℝ := -R * (1 + R * sin (3 * φ))
/-- `_phitorque`, HenonHeilesPotential.py:45-46. -/
def phitorque (R φ : ℝ) : ℝ := -(R ^ 3) * cos (3 * φ)
/-- `_R2deriv`, HenonHeilesPotential.py:48-49. -/
def R2deriv (R φ : ℝ) : ℝ := 1 + 2 * R * sin (3 * φ)
/-- `_phi2deriv`, HenonHeilesPotential.py:51-52. -/
def phi2deriv (R φ : ℝ) : ℝ := -3 * R ^ 3 * sin (3 * φ)
/-- `_Rphideriv`, HenonHeilesPotential.py:54-55. -/
def Rphideriv (R φ : ℝ) : ℝ := 3 * R ^ 2 * cos (3 * φ)

/-- The class as a record of methods. -/
def pot : PPot where
  val := fun R φ _ => evaluate R φ
  Rforce := fun R φ _ => Rforce R φ
  phitorque := fun R φ _ => phitorque R φ
  R2deriv := fun R φ _ => R2deriv R φ
  phi2deriv := fun R φ _ => phi2deriv R φ
  Rphideriv := fun R φ _ => Rphideriv R φ

/-- `HenonHeilesPotentialRforce`, HenonHeilesPotential.c:4-8. -/
def cRforce (amp R φ : ℝ) : ℝ := -amp * R * (1 + R * sin (3 * φ))
/-- `HenonHeilesPotentialphitorque`, HenonHeilesPotential.c:9-14. -/
def cphitorque (amp R φ : ℝ) : ℝ := -amp * R ^ 3 * cos (3 * φ)
/-- `HenonHeilesPotentialR2deriv`, HenonHeilesPotential.c:15-19. -/
def cR2deriv (amp R φ : ℝ) : ℝ := amp * (1 + 2 * R * sin (3 * φ))
/-- `HenonHeilesPotentialphi2deriv`, HenonHeilesPotential.c:20-24. -/
def cphi2deriv (amp R φ : ℝ) : ℝ := -3 * amp * R ^ 3 * sin (3 * φ)
/-- `HenonHeilesPotentialRphideriv`, HenonHeilesPotential.c:25-29. -/
def cRphideriv (amp R φ : ℝ) : ℝ := 3 * amp * R * R * cos (3 * φ)

end HenonHeiles

namespace Cosmphi

/-- The attributes of an instance, set by `__init__`, CosmphiDiskPotential.py:75-106. -/
structure Par where
  amp : ℝ
  mphio : ℝ
  p : ℝ
  m : ℤ
  phib : ℝ
  mphib : ℝ
  rb : ℝ
  rbp : ℝ
  rb2p : ℝ
  r1p : ℝ

open Classical in
/-- `__init__`, CosmphiDiskPotential.py:75-106, arguments already in natural units. `m` is the
integer `int(m)`; the test `m < 2.0` of line 93 is made on the argument itself, which is taken to be
that integer. `cpsp` is `some (cp, sp)` when both are given. -/
def init (amp phib p phio : ℝ) (m : ℤ) (r1 : ℝ) (rb : Option ℝ) (cpsp : Option (ℝ × ℝ)) : Par :=
  let r1p := r1 ^ p;
  let amp := amp / r1p;
  let (phib, mphio) := match cpsp with
    | none => (phib, phio * m)
    | some (cp, sp) =>
      let mphio := √(cp * cp + sp * sp);
      let phib := arctan (sp / cp) / m;
      let phib := if m < 2 ∧ cp < 0 then π + phib else phib;
      (phib, mphio);
  let (rb, rbp, rb2p) := match rb with
    | none => ((0 : ℝ), (1 : ℝ), (1 : ℝ))
    | some rb => (rb, rb ^ p, (rb ^ p) ^ 2);
  { amp := amp, mphio := mphio, p := p, m := m, phib := phib, mphib := m * phib, rb := rb,
    rbp := rbp, rb2p := rb2p, r1p := r1p }

/-- `LopsidedDiskPotential.__init__`, CosmphiDiskPotential.py:222-238: `r1` is an argument but is
not passed on to `CosmphiDiskPotential.__init__`, so its default `1.0` is used; no break radius. -/
def initLopsided (amp phib p phio _r1 : ℝ) (cpsp : Option (ℝ × ℝ)) : Par :=
  init amp phib p phio 1 1 none cpsp

open Classical in
/-- `_evaluate`, CosmphiDiskPotential.py:108-123. -/
def evaluate (k : Par) (R φ : ℝ) : ℝ :=
  if R < k.rb then
    k.mphio / k.m * cos (k.m * φ - k.mphib) * k.rbp * (2 * k.r1p - k.rbp / R ^ k.p)
  else k.mphio / k.m * R ^ k.p * cos (k.m * φ - k.mphib)
open Classical in
/-- `_Rforce`, CosmphiDiskPotential.py:125-142. -/
def Rforce (k : Par) (R φ : ℝ) : ℝ :=
  if R < k.rb then -k.p * k.mphio / k.m * k.rb2p / R ^ (k.p + 1) * cos (k.m * φ - k.mphib)
  else -k.p * k.mphio / k.m * R ^ (k.p - 1) * cos (k.m * φ - k.mphib)
open Classical in
/-- `_phitorque`, CosmphiDiskPotential.py:144-153. -/
def phitorque (k : Par) (R φ : ℝ) : ℝ :=
  if R < k.rb then
    k.mphio * sin (k.m * φ - k.mphib) * k.rbp * (2 * k.r1p - k.rbp / R ^ k.p)
  else k.mphio * R ^ k.p * sin (k.m * φ - k.mphib)
open Classical in
/-- `_R2deriv`, CosmphiDiskPotential.py:155-174. -/
def R2deriv (k : Par) (R φ : ℝ) : ℝ :=
  if R < k.rb then
    -k.p * (k.p + 1) * k.mphio / k.m * k.rb2p / R ^ (k.p + 2) * cos (k.m * φ - k.mphib)
  else k.p * (k.p - 1) / k.m * k.mphio * R ^ (k.p - 2) * cos (k.m * φ - k.mphib)
open Classical in
/-- `_phi2deriv`, CosmphiDiskPotential.py:176-191. -/
def phi2deriv (k : Par) (R φ : ℝ) : ℝ :=
  if R < k.rb then
    -k.m * k.mphio * cos (k.m * φ - k.mphib) * k.rbp * (2 * k.r1p - k.rbp / R ^ k.p)
  else -k.m * k.mphio * R ^ k.p * cos (k.m * φ - k.mphib)
open Classical in
/-- `_Rphideriv`, CosmphiDiskPotential.py:193-209. -/
def Rphideriv (k : Par) (R φ : ℝ) : ℝ :=
  if R < k.rb then -k.p * k.mphio / k.m * k.rb2p / R ^ (k.p + 1) * sin (k.m * φ - k.mphib)
  else -k.p * k.mphio * R ^ (k.p - 1) * sin (k.m * φ - k.mphib)

/-- The public methods of an instance (amplitude included). -/
def pot (k : Par) : PPot := PPot.scale k.amp
  { val := fun R φ _ => evaluate k R φ
    Rforce := fun R φ _ => Rforce k R φ
    phitorque := fun R φ _ => phitorque k R φ
    R2deriv := fun R φ _ => R2deriv k R φ
    phi2deriv := fun R φ _ => phi2deriv k R φ
    Rphideriv := fun R φ _ => Rphideriv k R φ }

/-- The nine arguments packed for C, integratePlanarOrbit.py:410-414. -/
structure CArgs where
  amp : ℝ
  mphio : ℝ
  p : ℝ
  mphib : ℝ
  m : ℤ
  rb : ℝ
  rbp : ℝ
  rb2p : ℝ
  r1p : ℝ

/-- integratePlanarOrbit.py:410-414. -/
def cArgs (k : Par) : CArgs :=
  ⟨k.amp, k.mphio, k.p, k.mphib, k.m, k.rb, k.rbp, k.rb2p, k.r1p⟩

open Classical in
/-- `CosmphiDiskPotentialRforce`, CosmphiDiskPotential.c:4-19. -/
def cRforce (a : CArgs) (R φ : ℝ) : ℝ :=
  if R ≤ a.rb then -a.amp * a.p * a.mphio / a.m * a.rb2p / R ^ (a.p + 1) * cos (a.m * φ - a.mphib)
  else -a.amp * a.p * a.mphio / a.m * R ^ (a.p - 1) * cos (a.m * φ - a.mphib)
open Classical in
/-- `CosmphiDiskPotentialphitorque`, CosmphiDiskPotential.c:20-37. -/
def cphitorque (a : CArgs) (R φ : ℝ) : ℝ :=
  if R ≤ a.rb then a.amp * a.mphio * a.rbp * (2 * a.r1p - a.rbp / R ^ a.p) * sin (a.m * φ - a.mphib)
  else a.amp * a.mphio * R ^ a.p * sin (a.m * φ - a.mphib)
open Classical in
/-- `CosmphiDiskPotentialR2deriv`, CosmphiDiskPotential.c:38-54. -/
def cR2deriv (a : CArgs) (R φ : ℝ) : ℝ :=
  if R ≤ a.rb then
    -a.amp * a.p * (a.p + 1) * a.mphio / a.m * a.rb2p / R ^ (a.p + 2) * cos (a.m * φ - a.mphib)
  else a.amp * a.p * (a.p - 1) * a.mphio / a.m * R ^ (a.p - 2) * cos (a.m * φ - a.mphib)
open Classical in
/-- `CosmphiDiskPotentialphi2deriv`, CosmphiDiskPotential.c:55-72. -/
def cphi2deriv (a : CArgs) (R φ : ℝ) : ℝ :=
  if R ≤ a.rb then
    -a.amp * a.m * a.mphio * a.rbp * (2 * a.r1p - a.rbp / R ^ a.p) * cos (a.m * φ - a.mphib)
  else -a.amp * a.m * a.mphio * R ^ a.p * cos (a.m * φ - a.mphib)
open Classical in
/-- `CosmphiDiskPotentialRphideriv`, CosmphiDiskPotential.c:73-88. -/
def cRphideriv (a : CArgs) (R φ : ℝ) : ℝ :=
  if R ≤ a.rb then -a.amp * a.p * a.mphio / a.m * a.rb2p / R ^ (a.p + 1) * sin (a.m * φ - a.mphib)
  else -a.amp * a.p * a.mphio * R ^ (a.p - 1) * sin (a.m * φ - a.mphib)

/-- The four arguments packed for a `LopsidedDiskPotential`, integratePlanarOrbit.py:142-144. -/
def cArgsLopsided (k : Par) : ℝ × ℝ × ℝ × ℝ := (k.amp, k.mphio, k.p, k.phib)
/-- `LopsidedDiskPotentialRforce`, LopsidedDiskPotential.c:4-14. -/
def lRforce (a : ℝ × ℝ × ℝ × ℝ) (R φ : ℝ) : ℝ :=
  let (amp, phio, p, phib) := a; -amp * p * phio * R ^ (p - 1) * cos (φ - phib)
/-- `LopsidedDiskPotentialphitorque`, LopsidedDiskPotential.c:15-25. -/
def lphitorque (a : ℝ × ℝ × ℝ × ℝ) (R φ : ℝ) : ℝ :=
  let (amp, phio, p, phib) := a; amp * phio * R ^ p * sin (φ - phib)
/-- `LopsidedDiskPotentialR2deriv`, LopsidedDiskPotential.c:26-36. -/
def lR2deriv (a : ℝ × ℝ × ℝ × ℝ) (R φ : ℝ) : ℝ :=
  let (amp, phio, p, phib) := a; amp * p * (p - 1) * phio * R ^ (p - 2) * cos (φ - phib)
/-- `LopsidedDiskPotentialphi2deriv`, LopsidedDiskPotential.c:37-47. -/
def lphi2deriv (a : ℝ × ℝ × ℝ × ℝ) (R φ : ℝ) : ℝ :=
  let (amp, phio, p, phib) := a; -amp * phio * R ^ p * cos (φ - phib)
/-- `LopsidedDiskPotentialRphideriv`, LopsidedDiskPotential.c:48-58. -/
def lRphideriv (a : ℝ × ℝ × ℝ × ℝ) (R φ : ℝ) : ℝ :=
  let (amp, phio, p, phib) := a; -amp * p * phio * R ^ (p - 1) * sin (φ - phib)

end Cosmphi

/-- The growth factor of the planar potentials that can be switched on
(EllipticalDiskPotential.py:105-117, SteadyLogSpiralPotential.py:99-111; in C
`EllipticalDiskSmooth`, EllipticalDiskPotential.c:5-21, and `dehnenSpiralSmooth`,
SteadyLogSpiralPotential.c:5-21, where "not given" is passed as NaN): 1 when no formation time was
given, else the Dehnen (2000) polynomial between the two times. -/
def growth (times : Option (ℝ × ℝ)) (t : ℝ) : ℝ :=
  match times with
  | none => 1
  | some (tform, tsteady) => Wrap.dehnenSmooth tform tsteady true t

namespace Elliptical

/-- The attributes of an instance. -/
structure Par where
  amp : ℝ
  twophio : ℝ
  phib : ℝ
  p : ℝ
  times : Option (ℝ × ℝ)

/-- `__init__`, EllipticalDiskPotential.py:72-101, arguments in natural units; `none` is the
`TypeError` of adding `None` to a number when `tsteady` is given without `tform`. -/
def init (amp phib p twophio r1 : ℝ) (tform tsteady : Option ℝ) (cpsp : Option (ℝ × ℝ)) :
    Option Par :=
  let amp := amp / r1 ^ p;
  let (phib, twophio) := match cpsp with
    | none => (phib, twophio)
    | some (cp, sp) => (Coords.atan2 sp cp / 2, √(cp * cp + sp * sp));
  match tform, tsteady with
  | none, none => some ⟨amp, twophio, phib, p, none⟩
  | none, some _ => none
  | some f, none => some ⟨amp, twophio, phib, p, some (f, f + 2)⟩
  | some f, some s => some ⟨amp, twophio, phib, p, some (f, f + s)⟩

/-- `_evaluate`, EllipticalDiskPotential.py:103-124. -/
def evaluate (k : Par) (R φ t : ℝ) : ℝ :=
  growth k.times t * k.twophio / 2 * R ^ k.p * cos (2 * (φ - k.phib))
/-- `_Rforce`, EllipticalDiskPotential.py:126-148. -/
def Rforce (k : Par) (R φ t : ℝ) : ℝ :=
  -growth k.times t * k.p * k.twophio / 2 * R ^ (k.p - 1) * cos (2 * (φ - k.phib))
/-- `_phitorque`, EllipticalDiskPotential.py:150-165. -/
def phitorque (k : Par) (R φ t : ℝ) : ℝ :=
  growth k.times t * k.twophio * R ^ k.p * sin (2 * (φ - k.phib))
/-- `_R2deriv`, EllipticalDiskPotential.py:167-190. -/
def R2deriv (k : Par) (R φ t : ℝ) : ℝ :=
  growth k.times t * k.p * (k.p - 1) / 2 * k.twophio * R ^ (k.p - 2) * cos (2 * (φ - k.phib))
/-- `_phi2deriv`, EllipticalDiskPotential.py:192-213. -/
def phi2deriv (k : Par) (R φ t : ℝ) : ℝ :=
  -2 * growth k.times t * k.twophio * R ^ k.p * cos (2 * (φ - k.phib))
/-- `_Rphideriv`, EllipticalDiskPotential.py:215-236. -/
def Rphideriv (k : Par) (R φ t : ℝ) : ℝ :=
  -growth k.times t * k.p * k.twophio * R ^ (k.p - 1) * sin (2 * (φ - k.phib))

/-- The public methods of an instance (amplitude included). -/
def pot (k : Par) : PPot := PPot.scale k.amp
  ⟨evaluate k, Rforce k, phitorque k, R2deriv k, phi2deriv k, Rphideriv k⟩

/-- `EllipticalDiskPotentialRforce`, EllipticalDiskPotential.c:22-38; the arguments are packed in
the order of the attributes (integratePlanarOrbit.py:127-136). -/
def cRforce (k : Par) (R φ t : ℝ) : ℝ :=
  -k.amp * growth k.times t * k.p * k.twophio / 2 * R ^ (k.p - 1) * cos (2 * (φ - k.phib))
/-- `EllipticalDiskPotentialphitorque`, EllipticalDiskPotential.c:39-55. -/
def cphitorque (k : Par) (R φ t : ℝ) : ℝ :=
  k.amp * growth k.times t * k.twophio * R ^ k.p * sin (2 * (φ - k.phib))
/-- `EllipticalDiskPotentialR2deriv`, EllipticalDiskPotential.c:56-72. -/
def cR2deriv (k : Par) (R φ t : ℝ) : ℝ :=
  k.amp * growth k.times t * k.p * (k.p - 1) * k.twophio / 2 * R ^ (k.p - 2)
    * cos (2 * (φ - k.phib))
/-- `EllipticalDiskPotentialphi2deriv`, EllipticalDiskPotential.c:73-89. -/
def cphi2deriv (k : Par) (R φ t : ℝ) : ℝ :=
  -2 * k.amp * growth k.times t * k.twophio * R ^ k.p * cos (2 * (φ - k.phib))
/-- `EllipticalDiskPotentialRphideriv`, EllipticalDiskPotential.c:90-106. -/
def cRphideriv (k : Par) (R φ t : ℝ) : ℝ :=
  -k.amp * growth k.times t * k.p * k.twophio * R ^ (k.p - 1) * sin (2 * (φ - k.phib))

end Elliptical

namespace Spiral

/-- The attributes of a spiral; `A` may depend on time (see `steadyA`, `transientA`). -/
structure Par where
  amp : ℝ
  alpha : ℝ
  m : ℝ
  omegas : ℝ
  gamma : ℝ

/-- `self._alpha`, SteadyLogSpiralPotential.py:79-82 and TransientLogSpiralPotential.py:85-88: from
the pitch angle when it is given. -/
def alphaOf (alpha m : ℝ) (pitch : Option ℝ) : ℝ :=
  match pitch with
  | some p => m / tan p
  | none => alpha

open Classical in
/-- The two times of a steady spiral, SteadyLogSpiralPotential.py:83-94: in units of the period
`2 π / omegas` (1 if the pattern does not rotate). The outer `none` is the `TypeError` of adding
`None` to a number when `tsteady` is given without `tform`. -/
def times (omegas : ℝ) (tform tsteady : Option ℝ) : Option (Option (ℝ × ℝ)) :=
  let ts := if omegas ≠ 0 then 2 * π / omegas else 1;
  match tform, tsteady with
  | none, none => some none
  | none, some _ => none
  | some f, none => some (some (f * ts, f * ts + 2 * ts))
  | some f, some s => some (some (f * ts, f * ts + s * ts))

/-- Amplitude of `SteadyLogSpiralPotential` at time `t` (`smooth * self._A`, lines 99-114). -/
def steadyA (A : ℝ) (times : Option (ℝ × ℝ)) (t : ℝ) : ℝ := growth times t * A
/-- Amplitude of `TransientLogSpiralPotential` at time `t`
(`self._A * numpy.exp(-((t - self._to) ** 2.0) / 2.0 / self._sigma2)`, lines 94-95; `_sigma2 =
sigma**2`, line 84). -/
def transientA (A t₀ sigma : ℝ) (t : ℝ) : ℝ := A * exp (-((t - t₀) ^ 2) / 2 / sigma ^ 2)

/-- The phase, e.g. SteadyLogSpiralPotential.py:117-118. -/
def chi (k : Par) (R φ t : ℝ) : ℝ := k.alpha * log R - k.m * (φ - k.omegas * t - k.gamma)

/-- `_evaluate`, SteadyLogSpiralPotential.py:98-120, TransientLogSpiralPotential.py:92-101. -/
def evaluate (k : Par) (A : ℝ → ℝ) (R φ t : ℝ) : ℝ := A t / k.alpha * cos (chi k R φ t)
/-- `_Rforce`, SteadyLogSpiralPotential.py:122-144, TransientLogSpiralPotential.py:103-112. -/
def Rforce (k : Par) (A : ℝ → ℝ) (R φ t : ℝ) : ℝ := A t / R * sin (chi k R φ t)
/-- `_phitorque`, SteadyLogSpiralPotential.py:146-169, TransientLogSpiralPotential.py:114-124. -/
def phitorque (k : Par) (A : ℝ → ℝ) (R φ t : ℝ) : ℝ := -A t / k.alpha * k.m * sin (chi k R φ t)
/-- `_R2deriv`, SteadyLogSpiralPotential.py:171-190, TransientLogSpiralPotential.py:126-135. -/
def R2deriv (k : Par) (A : ℝ → ℝ) (R φ t : ℝ) : ℝ :=
  A t / R ^ 2 * (sin (chi k R φ t) - k.alpha * cos (chi k R φ t))
/-- `_phi2deriv`, SteadyLogSpiralPotential.py:192-215, TransientLogSpiralPotential.py:137-147. -/
def phi2deriv (k : Par) (A : ℝ → ℝ) (R φ t : ℝ) : ℝ :=
  -A t / k.alpha * k.m ^ 2 * cos (chi k R φ t)
/-- `_Rphideriv`, SteadyLogSpiralPotential.py:217-240, TransientLogSpiralPotential.py:149-159. -/
def Rphideriv (k : Par) (A : ℝ → ℝ) (R φ t : ℝ) : ℝ := A t * k.m / R * cos (chi k R φ t)

/-- The public methods of an instance (amplitude included). -/
def pot (k : Par) (A : ℝ → ℝ) : PPot := PPot.scale k.amp
  ⟨evaluate k A, Rforce k A, phitorque k A, R2deriv k A, phi2deriv k A, Rphideriv k A⟩

/-- `SteadyLogSpiralPotentialRforce`, SteadyLogSpiralPotential.c:22-39. -/
def cSteadyRforce (k : Par) (A : ℝ) (times : Option (ℝ × ℝ)) (R φ t : ℝ) : ℝ :=
  k.amp * growth times t * A / R * sin (k.alpha * log R - k.m * (φ - k.omegas * t - k.gamma))
/-- `SteadyLogSpiralPotentialphitorque`, SteadyLogSpiralPotential.c:40-58. -/
def cSteadyphitorque (k : Par) (A : ℝ) (times : Option (ℝ × ℝ)) (R φ t : ℝ) : ℝ :=
  -k.amp * growth times t * A / k.alpha * k.m
    * sin (k.alpha * log R - k.m * (φ - k.omegas * t - k.gamma))
/-- `SteadyLogSpiralPotentialR2deriv`, SteadyLogSpiralPotential.c:59-77. -/
def cSteadyR2deriv (k : Par) (A : ℝ) (times : Option (ℝ × ℝ)) (R φ t : ℝ) : ℝ :=
  let chi := k.alpha * log R - k.m * (φ - k.omegas * t - k.gamma);
  k.amp * growth times t * A / R / R * (sin chi - k.alpha * cos chi)
/-- `SteadyLogSpiralPotentialphi2deriv`, SteadyLogSpiralPotential.c:78-96. -/
def cSteadyphi2deriv (k : Par) (A : ℝ) (times : Option (ℝ × ℝ)) (R φ t : ℝ) : ℝ :=
  -k.amp * growth times t * A / k.alpha * k.m * k.m
    * cos (k.alpha * log R - k.m * (φ - k.omegas * t - k.gamma))
/-- `SteadyLogSpiralPotentialRphideriv`, SteadyLogSpiralPotential.c:97-115. -/
def cSteadyRphideriv (k : Par) (A : ℝ) (times : Option (ℝ × ℝ)) (R φ t : ℝ) : ℝ :=
  k.amp * growth times t * A * k.m / R * cos (k.alpha * log R - k.m * (φ - k.omegas * t - k.gamma))

/-- `TransientLogSpiralPotentialRforce`, TransientLogSpiralPotential.c:5-20; `sigma2 = sigma**2`
(integratePlanarOrbit.py:95-98). -/
def cTransRforce (k : Par) (A t₀ sigma : ℝ) (R φ t : ℝ) : ℝ :=
  k.amp * A * exp (-((t - t₀) ^ 2) / 2 / sigma ^ 2) / R
    * sin (k.alpha * log R - k.m * (φ - k.omegas * t - k.gamma))
/-- `TransientLogSpiralPotentialphitorque`, TransientLogSpiralPotential.c:21-36. -/
def cTransphitorque (k : Par) (A t₀ sigma : ℝ) (R φ t : ℝ) : ℝ :=
  -k.amp * A * exp (-((t - t₀) ^ 2) / 2 / sigma ^ 2) / k.alpha * k.m
    * sin (k.alpha * log R - k.m * (φ - k.omegas * t - k.gamma))
/-- `TransientLogSpiralPotentialR2deriv`, TransientLogSpiralPotential.c:37-55. -/
def cTransR2deriv (k : Par) (A t₀ sigma : ℝ) (R φ t : ℝ) : ℝ :=
  let chi := k.alpha * log R - k.m * (φ - k.omegas * t - k.gamma);
  k.amp * A * exp (-((t - t₀) ^ 2) / 2 / sigma ^ 2) / R / R * (sin chi - k.alpha * cos chi)
/-- `TransientLogSpiralPotentialphi2deriv`, TransientLogSpiralPotential.c:56-71. -/
def cTransphi2deriv (k : Par) (A t₀ sigma : ℝ) (R φ t : ℝ) : ℝ :=
  -k.amp * A * exp (-((t - t₀) ^ 2) / 2 / sigma ^ 2) / k.alpha * k.m * k.m
    * cos (k.alpha * log R - k.m * (φ - k.omegas * t - k.gamma))
/-- `TransientLogSpiralPotentialRphideriv`, TransientLogSpiralPotential.c:72-87. -/
def cTransRphideriv (k : Par) (A t₀ sigma : ℝ) (R φ t : ℝ) : ℝ :=
  k.amp * A * exp (-((t - t₀) ^ 2) / 2 / sigma ^ 2) * k.m / R
    * cos (k.alpha * log R - k.m * (φ - k.omegas * t - k.gamma))

end Spiral
end Verif
