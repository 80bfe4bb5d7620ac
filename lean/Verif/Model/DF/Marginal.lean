import Verif.Model.DF.Disk
import Verif.Model.DF.Evolved
import Mathlib.MeasureTheory.Integral.IntervalIntegral.Basic

set_option autoImplicit false

/-!
# Disk distribution functions marginalized over one velocity component

`marginalizeVperp=True` and `marginalizeVlos=True` of `diskdf.__call__` (diskdf.py:179-182) and
`evolveddiskdf.__call__` (evolveddiskdf.py:136-165). `l` is the Galactic longitude in radian and `phi` the
azimuth of the star; the observer is at `R = 1`, azimuth 0. The integral is `scipy.integrate.quad`,
represented by the exact integral. Everything is in internal units.
-/

noncomputable section
namespace Verif.Marginal
open Real

/-- `_marginalizeVperpIntegrandSinAlphaLarge`, diskdf.py:3208-3219, evolveddiskdf.py:3479-3484; `f` is the
density as a function of `vR` and `vT`. -/
def large (f : ℝ → ℝ → ℝ) (sinα cotα v vcirc σ vR : ℝ) : ℝ :=
  f (vR * σ) (cotα * vR * σ + v / sinα + vcirc)

/-- `_marginalizeVperpIntegrandSinAlphaSmall`, diskdf.py:3222-3233, evolveddiskdf.py:3487-3492. -/
def small (f : ℝ → ℝ → ℝ) (cosα tanα v vcirc σ vT : ℝ) : ℝ :=
  f (tanα * vT * σ - v / cosα) (vT * σ + vcirc)

open Classical in
/-- The two branches common to all four functions: `cS, σS` are the centre of the integration range and
the scale of the branch with a small sine, `σL` the scale of the other one. -/
def branches (f : ℝ → ℝ → ℝ) (α v vcirc nsigma cS σS σL : ℝ) : ℝ :=
  if |sin α| < √(1 / 2) then
    (∫ x in (cS - nsigma)..(cS + nsigma), small f (cos α) (tan α) v vcirc σS x) / |cos α| * σS
  else
    (∫ x in (-nsigma)..nsigma, large f (sin α) (1 / tan α) v vcirc σL x) / |sin α| * σL

/-- `diskdf._call_marginalizevperp`, diskdf.py:233-310; `vlos` is `o.vlos(...)` of the orbit. -/
def diskVperp (ty : Disk.DfType) (p : Disk.Profile) (β : ℝ) (corr : ℝ → ℝ × ℝ) (R phi l vlos nsigma : ℝ) : ℝ :=
  let vcirc := R ^ β;
  let σ := √(p.sigma2 R);
  let va := Disk.vaRange p β R;
  branches (Disk.call ty p β corr R) (phi + l) (vlos - vcirc * sin (phi + l)) vcirc nsigma
    (-Disk.gamma β * va / σ) (σ / Disk.gamma β) σ

/-- `diskdf._call_marginalizevlos`, diskdf.py:312-392; `vperp` is `o.vll(...)` of the orbit. -/
def diskVlos (ty : Disk.DfType) (p : Disk.Profile) (β : ℝ) (corr : ℝ → ℝ × ℝ) (R phi l vperp nsigma : ℝ) : ℝ :=
  let vcirc := R ^ β;
  let σ := √(p.sigma2 R);
  let va := Disk.vaRange p β R;
  branches (Disk.call ty p β corr R) (π / 2 + phi + l) (vperp - vcirc * cos (phi + l)) vcirc nsigma
    (-Disk.gamma β * va / σ) (σ / Disk.gamma β) σ

/-- The density `evolveddiskdf.__call__(Orbit([R, vR, vT, phi]))` in the integrands,
evolveddiskdf.py:3482-3484, 3490-3492: no time is passed, so that it is evaluated at `t = 0`
(evolveddiskdf.py:118-119). -/
def evolvedDensity (S : Evolved.Setup) (R phi vR vT : ℝ) : ℝ := (Evolved.callOne S ![R, vR, vT, phi] 0).getD 0

/-- What the initial distribution function and the axisymmetric part of the potential contribute:
`calcRotcurve`, `sigmaR2`, `sigmaT2`, `meanvT` at the radius of the star. -/
structure Local where
  vcirc : ℝ
  sigmaR2 : ℝ
  sigmaT2 : ℝ
  meanvT : ℝ

/-- `__call__(o, t, marginalizeVperp=True)`, evolveddiskdf.py:136-150 and `_call_marginalizevperp`,
2971-3041. The time `t` is not passed on. -/
def evolvedVperp (S : Evolved.Setup) (L : Local) (R phi l vlos nsigma : ℝ) (_t : ℝ) : ℝ :=
  branches (evolvedDensity S R phi) (phi + l) (vlos - L.vcirc * sin (phi + l)) L.vcirc nsigma 0
    (√L.sigmaT2) (√L.sigmaR2)

/-- `__call__(o, t, marginalizeVlos=True)`, evolveddiskdf.py:151-165 and `_call_marginalizevlos`,
3043-3116. The time `t` is not passed on. -/
def evolvedVlos (S : Evolved.Setup) (L : Local) (R phi l vperp nsigma : ℝ) (_t : ℝ) : ℝ :=
  let va := L.vcirc - L.meanvT;
  branches (evolvedDensity S R phi) (π / 2 + phi + l) (vperp - L.vcirc * cos (phi + l)) L.vcirc nsigma
    (-va / √L.sigmaT2) (√L.sigmaT2) (√L.sigmaR2)

end Verif.Marginal
