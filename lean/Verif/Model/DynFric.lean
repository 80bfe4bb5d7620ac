import Verif.Model.Jeans
import Verif.Model.Pot.LogarithmicHalo
import Verif.Model.Pot.Ops
import Verif.Model.Coords
import Verif.Spec.Frames
import Verif.Util.Erf

set_option autoImplicit false

/-!
# Dynamical friction

`galpy/potential/ChandrasekharDynamicalFrictionForce.py`, `FDMDynamicalFrictionForce.py` and their C versions
`potential_c_ext/ChandrasekharDynamicalFrictionForce.c`, `FDMDynamicalFrictionForce.c`. Not modelled: unit conversion of
Quantities (property C32), the replacement of NaN dispersions where the density is zero, arrays of points. The interpolation
of the dispersion on its grid is a parameter: `spl` for the FITPACK spline, `cspl` for the GSL spline. C `double` constants
`M_SQRT1_2` and `M_2_SQRTPI` are `1/√2` and `2/√π`.
-/

noncomputable section
namespace Verif.DynFric
open Real Spec Coords

/-- Constructor arguments, ChandrasekharDynamicalFrictionForce.py:40-55; `lnL` is `const_lnLambda` with `False` as 0. -/
structure Args where
  amp : ℝ
  GMs : ℝ
  gamma : ℝ
  rhm : ℝ
  dens : Option Pot
  sigmar : Option (ℝ → ℝ)
  lnL : ℝ
  minr : ℝ
  maxr : ℝ

/-- What the hash of a call is computed from, ChandrasekharDynamicalFrictionForce.py:238-240 (md5 taken to be injective). -/
structure Key where
  R : ℝ
  φ : ℝ
  z : ℝ
  v : Vec
  t : ℝ

/-- Attributes of the object. -/
structure Obj where
  amp : ℝ
  ms : ℝ
  gamma : ℝ
  rhm : ℝ
  minr : ℝ
  maxr : ℝ
  densKwarg : Option Pot
  sigmarKwarg : Option (ℝ → ℝ)
  densPot : Pot
  sigmarOrig : ℝ → ℝ
  spl : ℝ → ℝ
  lnL : ℝ
  hash : Option Key
  cached : ℝ

/-- The default density, `LogarithmicHaloPotential(normalize=1.0, q=1.0)` with the default core `1e-8`,
ChandrasekharDynamicalFrictionForce.py:111-114; `normalize` makes the radial force at `R = 1` equal to -1. -/
def defaultHalo : Pot := (LogarithmicHalo.pot 1 ((10 : ℝ) ^ (-16 : ℤ)) none).scale (1 + (10 : ℝ) ^ (-16 : ℤ))

/-- `__init__`, ChandrasekharDynamicalFrictionForce.py:93-168; `interp f` is the cubic spline through `f` on
`linspace(minr, maxr, nr)`. -/
def init (interp : (ℝ → ℝ) → ℝ → ℝ) (a : Args) : Obj :=
  let amp0 := a.amp * a.GMs;
  let dens := a.dens.getD defaultHalo;
  let sigmar := match a.dens, a.sigmar with
    | _, some s => s
    | none, none => fun _ => 1 / √2
    | some _, none => fun x => Jeans.sigmar dens x none (.num 0);
  { amp := amp0 * (4 * π)
    ms := amp0 / a.amp
    gamma := a.gamma
    rhm := a.rhm
    minr := a.minr
    maxr := a.maxr
    densKwarg := a.dens
    sigmarKwarg := a.sigmar
    densPot := dens
    sigmarOrig := sigmar
    spl := interp sigmar
    lnL := a.lnL
    hash := none
    cached := 0 }

/-- The `GMs` setter, ChandrasekharDynamicalFrictionForce.py:170-178. -/
def Obj.setGMs (o : Obj) (g : ℝ) : Obj := { o with amp := o.amp * (g / o.ms), ms := g, hash := none }

/-- The `rhm` setter, ChandrasekharDynamicalFrictionForce.py:180-186. -/
def Obj.setRhm (o : Obj) (h : ℝ) : Obj := { o with rhm := h, hash := none }

/-- `lnLambda`, ChandrasekharDynamicalFrictionForce.py:188-218. -/
def Obj.lnLambda (o : Obj) (r v : ℝ) : ℝ :=
  if o.lnL ≠ 0 then o.lnL
  else
    let GMvs := o.ms / v ^ 2;
    let L := if GMvs < o.rhm then r / o.gamma / o.rhm else r / o.gamma / GMvs;
    1 / 2 * log (1 + L ^ 2)

/-- The dispersion used at `r`, ChandrasekharDynamicalFrictionForce.py:226-229. -/
def Obj.sr (o : Obj) (r : ℝ) : ℝ := if r > o.maxr then o.sigmarOrig r else o.spl r

/-- `Xfactor`, ChandrasekharDynamicalFrictionForce.py:230-231. -/
def Obj.Xfactor (o : Obj) (r vs : ℝ) : ℝ :=
  let X := vs * (1 / √2) / o.sr r;
  erf X - 2 * X * (1 / √π) * exp (-X ^ 2)

/-- The speed, ChandrasekharDynamicalFrictionForce.py:225. -/
def speed (v : Vec) : ℝ := √(v 0 ^ 2 + v 1 ^ 2 + v 2 ^ 2)

/-- The value `_calc_force` puts in the cache, ChandrasekharDynamicalFrictionForce.py:220-235. -/
def Obj.calc (o : Obj) (R z φ t : ℝ) (v : Vec) : ℝ :=
  let r := √(R ^ 2 + z ^ 2);
  if r < o.minr then 0
  else
    let vs := speed v;
    -o.densPot.dens R z φ t / vs ^ 3 * o.Xfactor r vs * o.lnLambda r vs

/-- The three force methods. -/
inductive Method where
  | Rforce
  | phitorque
  | zforce

/-- The factor that multiplies the cached force, ChandrasekharDynamicalFrictionForce.py:243, 251, 259. -/
def Method.fac : Method → ℝ → Vec → ℝ
  | .Rforce, _, v => v 0
  | .phitorque, R, v => v 1 * R
  | .zforce, _, v => v 2

open Classical in
/-- A force call, ChandrasekharDynamicalFrictionForce.py:237-259 and the amplitude of `Force.py`: the cache is refilled unless
the hash of the arguments equals `_force_hash`, which only the constructor and the setters assign, to `None`. -/
def Obj.callWith (cf : Obj → ℝ → ℝ → ℝ → ℝ → Vec → ℝ) (o : Obj) (m : Method) (R z φ t : ℝ) (v : Vec) : Obj × ℝ :=
  let o' := if o.hash = some ⟨R, φ, z, v, t⟩ then o else { o with cached := cf o R z φ t v };
  (o', o.amp * (o'.cached * m.fac R v))

/-- A force call of the Chandrasekhar force. -/
def Obj.call : Obj → Method → ℝ → ℝ → ℝ → ℝ → Vec → Obj × ℝ := Obj.callWith Obj.calc

/-- `__setstate__` applied to `__getstate__`, ChandrasekharDynamicalFrictionForce.py:262-288. -/
def Obj.repickle (o : Obj) : Obj :=
  match o.densKwarg, o.sigmarKwarg with
  | none, none => { o with sigmarOrig := fun _ => 1 / √2 }
  | _, _ => { o with sigmarOrig := fun x => Jeans.sigmar o.densPot x none (.num 0) }

/-! ### FDM -/

/-- `krValue`, FDMDynamicalFrictionForce.py:143-158. -/
def kr (mhbar r v : ℝ) : ℝ := mhbar * v * r

/-- `M_sigma`, FDMDynamicalFrictionForce.py:160-168. -/
def Obj.Msigma (o : Obj) (r v : ℝ) : ℝ := v / o.sr r

/-- `numpy.interp(x, [a, b], [fa, fb])` for `a ≤ x ≤ b`. -/
def lerp (x a b fa fb : ℝ) : ℝ := fa + (fb - fa) * ((x - a) / (b - a))

/-- `frictionFactor`, FDMDynamicalFrictionForce.py:170-212. -/
def Obj.frictionFactor (o : Obj) (mhbar r vs : ℝ) : ℝ :=
  let Xf := o.Xfactor r vs;
  let lnL := o.lnLambda r vs;
  let k := kr mhbar r vs;
  let M := o.Msigma r vs;
  let Ccdm := lnL * Xf;
  let C :=
    if k > 2 * M then log (2 * k / M) * Xf
    else if k < M / 2 then -Ci (2 * k) + log (2 * k) + eulerMascheroniConstant + sin (2 * k) / (2 * k) - 1
    else
      let Cfdm := -Ci M + log M + eulerMascheroniConstant + sin M / M - 1;
      lerp k (M / 2) (2 * M) Cfdm (log 4 * Xf);
  if C < Ccdm then C else Ccdm

/-- The value `_calc_force` puts in the cache, FDMDynamicalFrictionForce.py:214-229; `constF` is `const_FDMfactor` with `False`
as 0. -/
def Obj.calcFDM (mhbar constF : ℝ) (o : Obj) (R z φ t : ℝ) (v : Vec) : ℝ :=
  let r := √(R ^ 2 + z ^ 2);
  if r < o.minr then 0
  else
    let vs := speed v;
    let C := if constF ≠ 0 then constF else o.frictionFactor mhbar r vs;
    -o.densPot.dens R z φ t / vs ^ 3 * C

/-- A force call of the FDM force, which inherits the force methods. -/
def Obj.callFDM (mhbar constF : ℝ) : Obj → Method → ℝ → ℝ → ℝ → ℝ → Vec → Obj × ℝ := Obj.callWith (Obj.calcFDM mhbar constF)

/-! ### C -/

/-- The constant entries of the C argument array, and the functions behind the pointers. -/
structure CPar where
  amp : ℝ
  ms : ℝ
  rhm : ℝ
  gamma2 : ℝ
  lnLambda : ℝ
  minr2 : ℝ
  ro : ℝ
  rf : ℝ
  /-- `gsl_spline_eval` on the rescaled grid -/
  cspl : ℝ → ℝ
  /-- `gsl_spline_eval_deriv` on the rescaled grid -/
  cspl' : ℝ → ℝ
  /-- `calcDensity` -/
  dens : ℝ → ℝ → ℝ → ℝ → ℝ

/-- `_parse_pot`, integrateFullOrbit.py:518-545 (the Chandrasekhar part of 468-497 is the same); the grid of radii goes from
`minr` to `maxr`. -/
def Obj.toC (o : Obj) (cspl cspl' : ℝ → ℝ) : CPar where
  amp := o.amp
  ms := o.ms
  rhm := o.rhm
  gamma2 := o.gamma ^ 2
  lnLambda := if o.lnL = 0 then -1 else o.lnL
  minr2 := o.minr ^ 2
  ro := o.minr
  rf := o.maxr
  cspl := cspl
  cspl' := cspl'
  dens := o.densPot.dens

namespace CPar
variable (p : CPar)

/-- `d_ind` clamped, ChandrasekharDynamicalFrictionForce.c:41-42. -/
def dInd (r : ℝ) : ℝ :=
  let d := (r - p.ro) / (p.rf - p.ro);
  if d < 0 then 0 else if d > 1 then 1 else d

/-- `sr`, ChandrasekharDynamicalFrictionForce.c:43. -/
def sr (r : ℝ) : ℝ := p.cspl (p.dInd r)

/-- The Coulomb logarithm, ChandrasekharDynamicalFrictionForce.c:33-40. -/
def lnL (r2 v : ℝ) : ℝ :=
  if p.lnLambda < 0 then
    let GMvs := p.ms / v / v;
    if GMvs < p.rhm then 0.5 * log (1 + r2 / p.gamma2 / p.rhm / p.rhm)
    else 0.5 * log (1 + r2 / p.gamma2 / GMvs / GMvs)
  else p.lnLambda

/-- `Xfactor`, ChandrasekharDynamicalFrictionForce.c:44-45. -/
def Xfactor (r v : ℝ) : ℝ :=
  let X := 1 / √2 * v / p.sr r;
  erf X - 2 / √π * X * exp (-X * X)

/-- `ChandrasekharDynamicalFrictionForceAmplitude`, ChandrasekharDynamicalFrictionForce.c:13-59, without the caching. -/
def amplitude (R z φ t r2 : ℝ) (w : Vec) : ℝ :=
  let r := √r2;
  let v2 := w 0 * w 0 + w 1 * w 1 + w 2 * w 2;
  let v := √v2;
  -p.amp * p.Xfactor r v * p.lnL r2 v / v2 / v * p.dens R z φ t

/-- The cached entries 1-8 of the argument array. -/
structure Cache where
  R : ℝ
  z : ℝ
  φ : ℝ
  t : ℝ
  v : Vec
  A : ℝ

/-- Initial entries, integrateFullOrbit.py:533. -/
def Cache.fresh : Cache := ⟨-1, 0, 0, 0, ![0, 0, 0], 0⟩

/-- The C force functions, ChandrasekharDynamicalFrictionForce.c:60-144 and FDMDynamicalFrictionForce.c:111-195, for a given
amplitude function. -/
def callWith (amplitude : ℝ → ℝ → ℝ → ℝ → ℝ → Vec → ℝ) (s : Cache) (m : Method) (R z φ t : ℝ) (v : Vec) : Cache × ℝ :=
  let r2 := R * R + z * z;
  if r2 < p.minr2 then (s, 0)
  else if R ≠ s.R ∨ φ ≠ s.φ ∨ z ≠ s.z ∨ t ≠ s.t ∨ v 0 ≠ s.v 0 ∨ v 1 ≠ s.v 1 ∨ v 2 ≠ s.v 2 then
    let A := amplitude R z φ t r2 v;
    (⟨R, z, φ, t, v, A⟩, A * m.fac R v)
  else (s, s.A * m.fac R v)

/-- The C force functions of the Chandrasekhar force. -/
def call : Cache → Method → ℝ → ℝ → ℝ → ℝ → Vec → Cache × ℝ := p.callWith p.amplitude

/-! #### FDM -/

/-- `FDMDynamicalFrictionForceFDMvsCDM`, FDMDynamicalFrictionForce.c:15-81: the FDM factor. -/
def fdmFactor (mhbar constF r v : ℝ) : ℝ :=
  let Xf := p.Xfactor r v;
  if constF < 0 then
    let k := 2.0 * mhbar * v * r;
    let M := v / p.sr r;
    if k < M then eulerMascheroniConstant + log k - Ci k + sin k / k - 1
    else if k > 4 * M then log (k / M) * Xf
    else
      let Cfdm := eulerMascheroniConstant + log M - Ci M + sin M / M - 1;
      let Cdisp := log 4 * Xf;
      let mu := (2 * M - k / 2) / (2 * M - M / 2);
      mu * Cfdm + (1 - mu) * Cdisp
  else constF

/-- `FDMDynamicalFrictionForceAmplitude`, FDMDynamicalFrictionForce.c:82-110, without the caching. -/
def amplitudeFDM (mhbar constF R z φ t r2 : ℝ) (w : Vec) : ℝ :=
  let r := √r2;
  let v := √(w 0 * w 0 + w 1 * w 1 + w 2 * w 2);
  let A := p.amplitude R z φ t r2 w;
  let ratio := p.fdmFactor mhbar constF r v / (p.lnL r2 v * p.Xfactor r v);
  if ratio < 1 ∨ constF ≥ 0 then A * ratio else A

/-- The C force functions of the FDM force. -/
def callFDM (mhbar constF : ℝ) : Cache → Method → ℝ → ℝ → ℝ → ℝ → Vec → Cache × ℝ :=
  p.callWith (p.amplitudeFDM mhbar constF)

/-! #### Jacobians -/

/-- `dsigmadr`, ChandrasekharDynamicalFrictionForce.c:241-250. -/
def dsr (r : ℝ) : ℝ :=
  let d := (r - p.ro) / (p.rf - p.ro);
  if d < 0 ∨ d > 1 then 0 else p.cspl' d / (p.rf - p.ro)

/-- `dXfactordX`, ChandrasekharDynamicalFrictionForce.c:255. -/
def dXf (r v : ℝ) : ℝ :=
  let X := 1 / √2 * v / p.sr r;
  2 * (2 / √π) * X * X * exp (-X * X)

/-- `dlnLambdadr_overr`, ChandrasekharDynamicalFrictionForce.c:256-276. -/
def dlnLr (r2 v : ℝ) : ℝ :=
  if p.lnLambda < 0 then
    let GMvs := p.ms / v ^ 2;
    if GMvs < p.rhm then 1 / (p.gamma2 * p.rhm * p.rhm + r2) else 1 / (p.gamma2 * GMvs * GMvs + r2)
  else 0

/-- `dlnLambdadv`, ChandrasekharDynamicalFrictionForce.c:256-276. -/
def dlnLv (r2 v : ℝ) : ℝ :=
  if p.lnLambda < 0 then
    let GMvs := p.ms / v ^ 2;
    if GMvs < p.rhm then 0 else 2 * r2 * v ^ 2 * v / (p.gamma2 * p.ms * p.ms + r2 * v ^ 2 * v ^ 2)
  else 0

/-- `ChandrasekharDynamicalFrictionForceRectDissipativeForceJacobian`, ChandrasekharDynamicalFrictionForce.c:204-316: columns
0-2 are `jac_x`, 3-5 are `jac_v`. `g` is the gradient of the density, which the code takes by central differences. -/
def jac (t : ℝ) (g : Vec) (q : Fin 6 → ℝ) : Matrix (Fin 3) (Fin 6) ℝ :=
  let x := q 0;
  let y := q 1;
  let z := q 2;
  let xv : Vec := ![x, y, z];
  let vv : Vec := ![q 3, q 4, q 5];
  let r2 := x * x + y * y + z * z;
  if r2 < p.minr2 then 0
  else
    let r := √r2;
    let v2 := vv 0 * vv 0 + vv 1 * vv 1 + vv 2 * vv 2;
    let v := √v2;
    let dens := p.dens (√(x * x + y * y)) z (atan2 y x) t;
    let Av3 := -p.amp / v2 / v;
    let L := p.lnL r2 v;
    let Xf := p.Xfactor r v;
    let X := 1 / √2 * v / p.sr r;
    let A := Av3 * L * Xf * dens;
    let dAdv := Av3 * dens * (p.dlnLv r2 v * Xf + L * p.dXf r v * (1 / √2) / p.sr r - 3 * L * Xf / v);
    let dAdx : Vec := fun j =>
      let dXdx := -X * p.dsr r / p.sr r * xv j / r;
      Av3 * (p.dlnLr r2 v * xv j * Xf * dens + L * p.dXf r v * dXdx * dens + L * Xf * g j);
    Matrix.of fun i => ![vv i * dAdx 0, vv i * dAdx 1, vv i * dAdx 2,
      vv i * vv 0 / v * dAdv + (if i = 0 then A else 0),
      vv i * vv 1 / v * dAdv + (if i = 1 then A else 0),
      vv i * vv 2 / v * dAdv + (if i = 2 then A else 0)]

/-- `dFDMfactordr`, FDMDynamicalFrictionForce.c:380-421. -/
def dfdmr (mhbar r v : ℝ) : ℝ :=
  let Xf := p.Xfactor r v;
  let X := 1 / √2 * v / p.sr r;
  let dXdr := -X * p.dsr r / p.sr r;
  let k := 2 * mhbar * v * r;
  let M := v / p.sr r;
  let dk := k / r;
  let dM := -M * p.dsr r / p.sr r;
  if k < M then (1 - sin k / k) / k * dk
  else if k > 4 * M then (dk / k - dM / M) * Xf + log (k / M) * p.dXf r v * dXdr
  else
    let sincM := sin M / M;
    let Cfdm := eulerMascheroniConstant + log M - Ci M + sincM - 1;
    let dC := (1 - sincM) / M;
    let Cdisp := log 4 * Xf;
    let mu := (2 * M - 0.5 * k) / (1.5 * M);
    let dmu := -dk / (3 * M) + k * dM / (3 * M * M);
    dmu * (Cfdm - Cdisp) + mu * dC * dM + (1 - mu) * log 4 * p.dXf r v * dXdr

/-- `dFDMfactordv`, FDMDynamicalFrictionForce.c:380-421. -/
def dfdmv (mhbar r v : ℝ) : ℝ :=
  let Xf := p.Xfactor r v;
  let dXdv := 1 / √2 / p.sr r;
  let k := 2 * mhbar * v * r;
  let M := v / p.sr r;
  let dk := k / v;
  let dM := 1 / p.sr r;
  if k < M then (1 - sin k / k) / k * dk
  else if k > 4 * M then (dk / k - dM / M) * Xf + log (k / M) * p.dXf r v * dXdv
  else
    let sincM := sin M / M;
    let Cfdm := eulerMascheroniConstant + log M - Ci M + sincM - 1;
    let dC := (1 - sincM) / M;
    let Cdisp := log 4 * Xf;
    let mu := (2 * M - 0.5 * k) / (1.5 * M);
    let dmu := -dk / (3 * M) + k * dM / (3 * M * M);
    dmu * (Cfdm - Cdisp) + mu * dC * dM + (1 - mu) * log 4 * p.dXf r v * dXdv

/-- `Ceff` and its derivatives, FDMDynamicalFrictionForce.c:375-438. The value of `FDMfactor` there is the expression of
`fdmFactor` written with `0.5 * kr` and `1.5 * M_sigma`. -/
def ceff (mhbar constF r v : ℝ) : ℝ × ℝ × ℝ :=
  let Xf := p.Xfactor r v;
  let X := 1 / √2 * v / p.sr r;
  let dXdr := -X * p.dsr r / p.sr r;
  let dXdv := 1 / √2 / p.sr r;
  let L := p.lnL (r ^ 2) v;
  if constF < 0 then
    let F := p.fdmFactor mhbar constF r v;
    if F / (L * Xf) < 1 then (F, p.dfdmr mhbar r v, p.dfdmv mhbar r v)
    else (L * Xf, p.dlnLr (r ^ 2) v * r * Xf + L * p.dXf r v * dXdr, p.dlnLv (r ^ 2) v * Xf + L * p.dXf r v * dXdv)
  else (constF, 0, 0)

/-- `FDMDynamicalFrictionForceRectDissipativeForceJacobian`, FDMDynamicalFrictionForce.c:298-476. -/
def jacFDM (mhbar constF t : ℝ) (g : Vec) (q : Fin 6 → ℝ) : Matrix (Fin 3) (Fin 6) ℝ :=
  let x := q 0;
  let y := q 1;
  let z := q 2;
  let xv : Vec := ![x, y, z];
  let vv : Vec := ![q 3, q 4, q 5];
  let r2 := x * x + y * y + z * z;
  if r2 < p.minr2 then 0
  else
    let r := √r2;
    let v2 := vv 0 * vv 0 + vv 1 * vv 1 + vv 2 * vv 2;
    let v := √v2;
    let dens := p.dens (√(x * x + y * y)) z (atan2 y x) t;
    let c := p.ceff mhbar constF r v;
    let Cf := -p.amp / v2 / v;
    let A := Cf * c.1 * dens;
    let dAdv := Cf * dens * (c.2.2 - 3 * c.1 / v);
    let dAdx : Vec := fun j => Cf * (c.2.1 * xv j / r * dens + c.1 * g j);
    Matrix.of fun i => ![vv i * dAdx 0, vv i * dAdx 1, vv i * dAdx 2,
      vv i * vv 0 / v * dAdv + (if i = 0 then A else 0),
      vv i * vv 1 / v * dAdv + (if i = 1 then A else 0),
      vv i * vv 2 / v * dAdv + (if i = 2 then A else 0)]

end CPar

end Verif.DynFric
