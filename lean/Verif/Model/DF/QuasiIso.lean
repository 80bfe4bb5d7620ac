import Verif.Model.Pot.SCFCoef
import Mathlib.Analysis.SpecialFunctions.Trigonometric.Arctan
import Mathlib.Analysis.SpecialFunctions.Arsinh

set_option autoImplicit false

/-!
# `quasiisothermaldf`

Transcription of `galpy/df/quasiisothermaldf.py`: the distribution function, its velocity moments (Gauss-Legendre, Monte Carlo and
direct integration), the marginal velocity distributions, the vertically integrated density, and the interpolated guiding radius.
Without units.  Outside: the action-angle object, whose actions are an argument, the radius and frequencies of circular orbits,
`leggauss` (`leg K` are its nodes and weights), the spline through radii of circular orbits, random numbers.  Values that are not a
number, which the code replaces by zero, do not exist here.
-/

noncomputable section
namespace Verif.QuasiIso
open Real
open SCF (Rule)

/-- What `__init__` stores, quasiisothermaldf.py:96-105, 128. -/
structure Par where
  hr : ℝ
  sr : ℝ
  sz : ℝ
  hsr : ℝ
  hsz : ℝ
  refr : ℝ
  lo : ℝ
  cutcounter : Bool

/-- Functions of the potential (`rl`, `epifreq`, `verticalfreq`, `vcirc`) and the grid of guiding radii (129-155). Without the grid
`Lzmin` is the largest and `Lzmax` the smallest floating-point number. -/
structure Env where
  rl : ℝ → ℝ
  epifreq : ℝ → ℝ
  verticalfreq : ℝ → ℝ
  vcirc : ℝ → ℝ
  rgInterp : ℝ → ℝ
  Lzmin : ℝ
  Lzmax : ℝ

/-- The check of the potential of the action-angle object, 114-126, for an object of class `actionAngleIsochrone` whose potential is
not the same object: `pot` holds the parameters `b`, `amp` when the potential is an `IsochronePotential`. -/
def acceptsIsochrone (b amp : ℝ) (pot : Option (ℝ × ℝ)) : Bool :=
  match pot with
  | none => true
  | some (pb, pamp) => if b ≠ pb ∧ amp ≠ pamp then false else true

/-- `_rg` of a number, 3063-3066. -/
def rgScalar (e : Env) (lz : ℝ) : ℝ := if lz > e.Lzmax ∨ lz < e.Lzmin then e.rl lz else e.rgInterp lz

/-- `_rg` of an array, 3054-3062. -/
def rgArray (e : Env) (lz : List ℝ) : List ℝ :=
  lz.map fun l =>
    let indx := l > e.Lzmax ∧ l < e.Lzmin;
    if indx then e.rl l else e.rgInterp l

/-- The value for given actions and given guiding radius and frequencies, 249-264 and 288-301. -/
def linAt (p : Par) (func : Option (ℝ → ℝ → ℝ → ℝ)) (jr lz jz rg kappa nu Omega : ℝ) : ℝ :=
  let lnsurfmass := (p.refr - rg) / p.hr;
  let lnsr := log p.sr + (p.refr - rg) / p.hsr;
  let lnsz := log p.sz + (p.refr - rg) / p.hsz;
  let funcFactor := match func with | some g => g jr lz jz | none => 1;
  let srm2 := exp (-2 * lnsr);
  let fsr := Omega * exp lnsurfmass * srm2 / π / kappa * (1 + tanh (lz / p.lo)) * exp (-kappa * jr * srm2);
  let szm2 := exp (-2 * lnsz);
  let fsz := nu / 2 / π * szm2 * exp (-nu * jz * szm2);
  fsr * fsz * funcFactor

/-- The logarithm of the value, 249-281. -/
def logAt (p : Par) (func : Option (ℝ → ℝ → ℝ → ℝ)) (jr lz jz rg kappa nu Omega : ℝ) : ℝ :=
  let lnsurfmass := (p.refr - rg) / p.hr;
  let lnsr := log p.sr + (p.refr - rg) / p.hsr;
  let lnsz := log p.sz + (p.refr - rg) / p.hsz;
  let funcTerm := match func with | some g => log (g jr lz jz) | none => 0;
  let lnfsr := log Omega + lnsurfmass - 2 * lnsr - log π - log kappa + log (1 + tanh (lz / p.lo)) - kappa * jr * exp (-2 * lnsr);
  let lnfsz := log nu - log (2 * π) - 2 * lnsz - nu * jz * exp (-2 * lnsz);
  lnfsr + lnfsz + funcTerm

/-- `__call__` at one point, 217-315: `j` are the actions, `none` when the action-angle object raises `UnboundError`. -/
def call (p : Par) (e : Env) (func : Option (ℝ → ℝ → ℝ → ℝ)) (j : Option (ℝ × ℝ × ℝ)) : ℝ :=
  match j with
  | none => 0
  | some (jr, lz, jz) =>
    if p.cutcounter = true ∧ lz < 0 then 0
    else
      let rg := rgScalar e lz;
      linAt p func jr lz jz rg (e.epifreq rg) (e.verticalfreq rg) (|lz| / rg / rg)

/-- `__call__` with `log=True` at one point; `none` is minus the largest floating-point number. -/
def callLog (p : Par) (e : Env) (func : Option (ℝ → ℝ → ℝ → ℝ)) (j : Option (ℝ × ℝ × ℝ)) : Option ℝ :=
  match j with
  | none => none
  | some (jr, lz, jz) =>
    if p.cutcounter = true ∧ lz < 0 then none
    else
      let rg := rgScalar e lz;
      some (logAt p func jr lz jz rg (e.epifreq rg) (e.verticalfreq rg) (|lz| / rg / rg))

/-- `__call__` for arrays of actions, 243-307. -/
def callArray (p : Par) (e : Env) (js : List (ℝ × ℝ × ℝ)) : List ℝ :=
  ((js.zip (rgArray e (js.map fun j => j.2.1))).map fun q =>
    if p.cutcounter = true ∧ q.1.2.1 < 0 then 0
    else linAt p none q.1.1 q.1.2.1 q.1.2.2 q.2 (e.epifreq q.2) (e.verticalfreq q.2) (|q.1.2.1| / q.2 / q.2))

/-! ### Moments -/

/-- An object as seen by the moments: parameters, the circular velocity, whether the action-angle object is adiabatic
(`actionAngleAdiabatic` or its grid), and the distribution function at `R, vR, vT, z, vz`. -/
structure Obj where
  p : Par
  vcirc : ℝ → ℝ
  adiab : Bool
  f : ℝ → ℝ → ℝ → ℝ → ℝ → ℝ

inductive Err where
  | value
  | notImplemented
  deriving DecidableEq

/-- Dispersions used to scale the velocities, 637-644. -/
def Obj.sigmaR1 (o : Obj) (R : ℝ) : ℝ := o.p.sr * exp ((o.p.refr - R) / o.p.hsr)
def Obj.sigmaz1 (o : Obj) (R : ℝ) : ℝ := o.p.sz * exp ((o.p.refr - R) / o.p.hsz)

/-- `gamma`, 647. -/
def gamma : ℝ := √0.5

/-- The asymmetric drift, 648-659. -/
def Obj.va (o : Obj) (R : ℝ) : ℝ :=
  let s := o.sigmaR1 R;
  let va := s ^ 2 / 2 / o.vcirc R * (gamma ^ 2 - 1 + R * (1 / o.p.hr + 2 / o.p.hsr));
  if |va| > s then 0 else va

/-- Nodes and weights of `leggauss(K)`. -/
def nodes (leg : ℕ → Rule) (K : ℕ) : List (ℝ × ℝ) := (List.range K).map fun i => ((leg K).x i, (leg K).w i)

/-- Nodes and weights on `[0, h]`, as in 683-686 and 709; the weights are not scaled. -/
def pos (leg : ℕ → Rule) (K : ℕ) (h : ℝ) : List (ℝ × ℝ) := (nodes leg K).map fun q => (h / 2 * (q.1 + 1), q.2)

/-- Nodes and weights on `[-h, 0]`, as in 691. -/
def neg (leg : ℕ → Rule) (K : ℕ) (h : ℝ) : List (ℝ × ℝ) := (nodes leg K).map fun q => (-h / 2 * (q.1 + 1), q.2)

/-- Nodes and weights for a velocity component along which the distribution is expected to be even, 676-707: for adiabatic actions
only one side. -/
def axis (adiab : Bool) (leg : ℕ → Rule) (ngl : ℕ) (h : ℝ) : List (ℝ × ℝ) :=
  if adiab then pos leg ngl h else pos leg (ngl / 2) h ++ neg leg (ngl / 2) h

/-- `_vmomentdensity` with `gl=True`, 629-634 and 660-831, at a number `R`; `nsigma = none` is the default. -/
def Obj.momentGL (o : Obj) (leg : ℕ → Rule) (R z : ℝ) (n m k : ℕ) (nsigma : Option ℝ) (ngl : ℕ) (vTmax : ℝ) : Except Err ℝ :=
  if o.adiab = true ∧ (n % 2 = 1 ∨ k % 2 = 1) then .ok 0
  else if ngl % 2 = 1 then .error .value
  else
    let nsigma := nsigma.getD 4;
    let sigmaR1 := o.sigmaR1 R;
    let sigmaz1 := o.sigmaz1 R;
    let vRgl := axis o.adiab leg ngl (nsigma * sigmaR1);
    let vzgl := axis o.adiab leg ngl (nsigma * sigmaz1);
    let vTgl := pos leg ngl vTmax;
    .ok ((vTgl.map fun vT => (vRgl.map fun vR => (vzgl.map fun vz =>
      o.f R vR.1 vT.1 z vz.1 * vR.1 ^ n * vT.1 ^ m * vz.1 ^ k * vT.2 * vR.2 * vz.2).sum).sum).sum
      * sigmaR1 * sigmaz1 * 0.125 * vTmax * nsigma ^ 2)

/-- `_vmomentsurfaceMCIntegrand`, 3081-3091. -/
def Obj.mcIntegrand (o : Obj) (R z mvT : ℝ) (n m k : ℕ) (vR vT vz : ℝ) : ℝ :=
  vR ^ n * vT ^ m * vz ^ k * o.f R (vR * o.sigmaR1 R) (vT * o.sigmaR1 R * gamma) z (vz * o.sigmaz1 R)
    * exp (vR ^ 2 / 2 + (vT - mvT) ^ 2 / 2 + vz ^ 2 / 2)

/-- `mvT`, 833. -/
def Obj.mvT (o : Obj) (R : ℝ) : ℝ := (o.vcirc R - o.va R) / gamma / o.sigmaR1 R

/-- `_vmomentdensity` with `mc=True`, 832-891, for given normal random numbers `(vR, vT, vz)`. -/
def Obj.momentMC (o : Obj) (R z : ℝ) (n m k : ℕ) (normal : List (ℝ × ℝ × ℝ)) : ℝ :=
  if o.adiab = true ∧ (n % 2 = 1 ∨ k % 2 = 1) then 0
  else
    let mvT := o.mvT R;
    let Is := normal.map fun v => o.mcIntegrand R z mvT n m k v.1 (v.2.1 + mvT) v.2.2;
    Is.sum / Is.length * o.sigmaR1 R ^ (2 + n + m) * gamma ^ (1 + m) * o.sigmaz1 R ^ (1 + k)

/-- `_vmomentdensity` by direct integration, 897-912, with the exact integral in place of `tplquad`. -/
def Obj.momentDirect (o : Obj) (R z : ℝ) (n m k : ℕ) (nsigma : Option ℝ) : ℝ :=
  if o.adiab = true ∧ (n % 2 = 1 ∨ k % 2 = 1) then 0
  else
    let nsigma := nsigma.getD 4;
    let c := 1 / gamma * (o.vcirc R - o.va R) / o.sigmaR1 R;
    (∫ vT in (c - nsigma)..(c + nsigma), ∫ vR in (0 : ℝ)..nsigma, ∫ vz in (0 : ℝ)..nsigma,
      vR ^ n * vT ^ m * vz ^ k * o.f R (vR * o.sigmaR1 R) (vT * o.sigmaR1 R * gamma) z (vz * o.sigmaz1 R))
      * o.sigmaR1 R ^ (2 + n + m) * gamma ^ (1 + m) * o.sigmaz1 R ^ (1 + k)

/-- `density` with Gauss-Legendre integration, 1070-1107. -/
def Obj.density (o : Obj) (leg : ℕ → Rule) (R z : ℝ) (nsigma : Option ℝ) (ngl : ℕ) (vTmax : ℝ) : Except Err ℝ :=
  o.momentGL leg R z 0 0 0 nsigma ngl vTmax

/-- The `gl` branch of `sigmaR2`, `sigmaRz`, `sigmaz2`, `meanvT`, `meanvR`, `meanvz`, for example 1177-1186: the moment divided by
the density, both without passing `nsigma` on. -/
def Obj.ratioGL (o : Obj) (leg : ℕ → Rule) (R z : ℝ) (n m k : ℕ) (_nsigma : Option ℝ) (ngl : ℕ) (vTmax : ℝ) : Except Err ℝ := do
  let surfmass ← o.momentGL leg R z 0 0 0 none ngl vTmax
  let mom ← o.momentGL leg R z n m k none ngl vTmax
  return mom / surfmass

/-- `sigmaR2`, 1110-1192; `sigmaRz`, 1194-1277; `sigmaz2`, 1408-1491; `meanvT`, 1493-1576; `meanvR`, 1578-1661; `meanvz`, 1663-1745. -/
def Obj.sigmaR2 (o : Obj) (leg : ℕ → Rule) (R z : ℝ) := o.ratioGL leg R z 2 0 0
def Obj.sigmaRz (o : Obj) (leg : ℕ → Rule) (R z : ℝ) := o.ratioGL leg R z 1 0 1
def Obj.sigmaz2 (o : Obj) (leg : ℕ → Rule) (R z : ℝ) := o.ratioGL leg R z 0 0 2
def Obj.meanvT (o : Obj) (leg : ℕ → Rule) (R z : ℝ) := o.ratioGL leg R z 0 1 0
def Obj.meanvR (o : Obj) (leg : ℕ → Rule) (R z : ℝ) := o.ratioGL leg R z 1 0 0
def Obj.meanvz (o : Obj) (leg : ℕ → Rule) (R z : ℝ) := o.ratioGL leg R z 0 0 1

/-- `sigmaT2` with `gl=True`, 1834-1850. -/
def Obj.sigmaT2 (o : Obj) (leg : ℕ → Rule) (R z : ℝ) (nsigma : Option ℝ) (ngl : ℕ) (vTmax : ℝ) : Except Err ℝ := do
  let mvt ← o.ratioGL leg R z 0 1 0 nsigma ngl vTmax
  let m2 ← o.ratioGL leg R z 0 2 0 nsigma ngl vTmax
  return m2 - mvt ^ 2

/-- `sigmaT2` by direct integration, 1852-1868. -/
def Obj.sigmaT2Direct (o : Obj) (R z : ℝ) (nsigma : Option ℝ) : ℝ :=
  let surfmass := o.momentDirect R z 0 0 0 nsigma;
  o.momentDirect R z 0 2 0 nsigma / surfmass - (o.momentDirect R z 0 2 0 nsigma / surfmass) ^ 2

/-- The last line of `tilt`, 1381 and 1404, with the moments it computed. -/
def tiltOf (sigmar2 sigmaz2 sigmarz : ℝ) : ℝ := 0.5 * arctan (2 * sigmarz / (sigmar2 - sigmaz2))

/-- `tilt` with `gl=True`, 1382-1404. -/
def Obj.tilt (o : Obj) (leg : ℕ → Rule) (R z : ℝ) (nsigma : Option ℝ) (ngl : ℕ) (vTmax : ℝ) : Except Err ℝ := do
  let r2 ← o.sigmaR2 leg R z nsigma ngl vTmax
  let z2 ← o.sigmaz2 leg R z nsigma ngl vTmax
  let rz ← o.sigmaRz leg R z nsigma ngl vTmax
  return tiltOf r2 z2 rz

/-! ### Marginal distributions -/

/-- The factor multiplying the weights of `axis`, for example 2422 and 2432-2434. -/
def fac (adiab : Bool) (h : ℝ) : ℝ := if adiab then h else 0.5 * h

/-- `pvR`, 2367-2455. -/
def Obj.pvR (o : Obj) (leg : ℕ → Rule) (vR R z : ℝ) (ngl : ℕ) (nsigma vTmax : ℝ) : Except Err ℝ :=
  if ngl % 2 = 1 then .error .value
  else
    let h := nsigma * o.sigmaz1 R;
    .ok (((pos leg ngl vTmax).map fun vT => ((axis o.adiab leg ngl h).map fun vz =>
      o.f R vR vT.1 z vz.1 * vT.2 * vz.2 * fac o.adiab h).sum).sum * (0.5 * vTmax))

/-- `pvT`, 2459-2559. -/
def Obj.pvT (o : Obj) (leg : ℕ → Rule) (vT R z : ℝ) (ngl : ℕ) (nsigma : ℝ) : Except Err ℝ :=
  if ngl % 2 = 1 then .error .value
  else
    let hR := nsigma * o.sigmaR1 R;
    let hz := nsigma * o.sigmaz1 R;
    .ok ((axis o.adiab leg ngl hR).map fun vR => ((axis o.adiab leg ngl hz).map fun vz =>
      o.f R vR.1 vT z vz.1 * vR.2 * vz.2 * fac o.adiab hR * fac o.adiab hz).sum).sum

/-- `pvz` at numbers, 2563-2752. -/
def Obj.pvz (o : Obj) (leg : ℕ → Rule) (vz R z : ℝ) (ngl : ℕ) (nsigma vTmax : ℝ) : Except Err ℝ :=
  if ngl % 2 = 1 then .error .value
  else
    let h := nsigma * o.sigmaR1 R;
    .ok (((pos leg ngl vTmax).map fun vT => ((axis o.adiab leg ngl h).map fun vR =>
      o.f R vR.1 vT.1 z vz * vT.2 * vR.2).sum).sum * fac o.adiab h * (0.5 * vTmax))

/-- `pvRvT`, 2756-2834. -/
def Obj.pvRvT (o : Obj) (leg : ℕ → Rule) (vR vT R z : ℝ) (ngl : ℕ) (nsigma : ℝ) : Except Err ℝ :=
  if ngl % 2 = 1 then .error .value
  else
    let h := nsigma * o.sigmaz1 R;
    .ok ((axis o.adiab leg ngl h).map fun vz => o.f R vR vT z vz.1 * vz.2 * fac o.adiab h).sum

/-- `pvTvz`, 2838-2917. -/
def Obj.pvTvz (o : Obj) (leg : ℕ → Rule) (vT vz R z : ℝ) (ngl : ℕ) (nsigma : ℝ) : Except Err ℝ :=
  if ngl % 2 = 1 then .error .value
  else
    let h := nsigma * o.sigmaR1 R;
    .ok ((axis o.adiab leg ngl h).map fun vR => o.f R vR.1 vT z vz * vR.2 * fac o.adiab h).sum

/-- `pvRvz` at numbers, 2921-2994. -/
def Obj.pvRvz (o : Obj) (leg : ℕ → Rule) (vR vz R z : ℝ) (ngl : ℕ) (vTmax : ℝ) : Except Err ℝ :=
  if ngl % 2 = 1 then .error .value
  else .ok ((pos leg ngl vTmax).map fun vT => o.f R vR vT.1 z vz * vT.2 * (0.5 * vTmax)).sum

/-! ### Vertically integrated density -/

/-- `surfacemass_z` with `fixed_quad=True`, 489-500: scipy's `fixed_quad` of order `fixed_order` over `[0, 0.5]`. -/
def surfacemassFixed (leg : ℕ → Rule) (density : ℝ → ℝ → ℝ) (R : ℝ) (_nz : ℕ) (_zmax : ℝ) (fixed_order : ℕ) : ℝ :=
  2 * ((nodes leg fixed_order).map fun q => q.2 * density R ((0.5 - 0) * (q.1 + 1) / 2 + 0)).sum * ((0.5 - 0) / 2)

/-- `surfacemass_z` with `fixed_quad=False`, 501-507: `lsfInterp zs lsf` is the spline through the logarithms. -/
def surfacemassSpline (lsfInterp : List ℝ → List ℝ → ℝ → ℝ) (density : ℝ → ℝ → ℝ) (R : ℝ) (nz : ℕ) (zmax : ℝ) : ℝ :=
  let zs := (List.range nz).map fun i => (i : ℝ) * (zmax / (nz - 1));
  let lsf := zs.map fun z => log (density R z);
  2 * ∫ x in (0 : ℝ)..1, exp (lsfInterp zs lsf x)

/-! ### Scale lengths -/

/-- `estimate_hr` with a number `z`, 344-354, and `estimate_hsr`, `estimate_hsz` (420-423, 452-455) with `half = true`. -/
def estimateR (q : ℝ → ℝ) (R dR : ℝ) (half : Bool) : ℝ :=
  let l := fun x => if half then log (q x) / 2 else log (q x);
  -dR / (l (R + dR / 2) - l (R - dR / 2))

/-- `estimate_hz`, 383-391. -/
def estimateZ (q : ℝ → ℝ) (z dz : ℝ) : ℝ :=
  if z = 0 then -dz / (log (q (z + dz)) - log (q z))
  else -dz / (log (q (z + dz / 2)) - log (q (z - dz / 2)))

end Verif.QuasiIso
