import Verif.Util.PotLemmas

set_option autoImplicit false

/-!
# MovingObjectPotential

Transcription of `galpy/potential/MovingObjectPotential.py` and
`galpy/potential/potential_c_ext/MovingObjectPotential.c`.  The potential of the object itself (the kernel) is any record of
methods; only axisymmetric ones pass the constructor (lines 60-63), and they are evaluated without an azimuth, here at azimuth
0.  The orbit of the object is given by the functions of time that `orbit.R`, `orbit.phi`, `orbit.z` return; `z` is 0 for an
orbit that is not three-dimensional (line 81).  Python methods are without the factor `amp`.
-/

noncomputable section
namespace Verif.MovingObject
open Real

/-- The orbit of the object: `self._orb.R`, `self._orb.phi`, `self._orb.z` and whether `self._orb.dim() == 3`. -/
structure Orb where
  R : ℝ → ℝ
  phi : ℝ → ℝ
  zorb : ℝ → ℝ
  dim3 : Bool

/-- `orbz`, MovingObjectPotential.py:81, 89, 101, 110, 133, 203. -/
def Orb.z (o : Orb) (t : ℝ) : ℝ := if o.dim3 = true then o.zorb t else 0

/-- `_cylR`, MovingObjectPotential.py:209-212. -/
def cylR (R1 φ1 R2 φ2 : ℝ) : ℝ := √(R1 ^ 2 + R2 ^ 2 - 2 * R1 * R2 * cos (φ1 - φ2))

/-- `dx` of `_cyldiff`, MovingObjectPotential.py:216. -/
def dx (R1 φ1 R2 φ2 : ℝ) : ℝ := R1 * cos φ1 - R2 * cos φ2
/-- `dy` of `_cyldiff`, MovingObjectPotential.py:217. -/
def dy (R1 φ1 R2 φ2 : ℝ) : ℝ := R1 * sin φ1 - R2 * sin φ2

/-- The eight values returned by `_xyzHess`. -/
structure Hess where
  x : ℝ
  y : ℝ
  xx : ℝ
  xy : ℝ
  yy : ℝ
  xz : ℝ
  yz : ℝ
  zz : ℝ

variable (K : Pot) (o : Orb)

/-- `_evaluate`, MovingObjectPotential.py:78-83. -/
def evaluate (R z φ t : ℝ) : ℝ := K.val (cylR R φ (o.R t) (o.phi t)) (o.z t - z) 0 t

/-- `_Rforce`, MovingObjectPotential.py:85-95. -/
def Rforce (R z φ t : ℝ) : ℝ :=
  let Rdist := cylR R φ (o.R t) (o.phi t);
  let xd := dx (o.R t) (o.phi t) R φ;
  let yd := dy (o.R t) (o.phi t) R φ;
  let zd := o.z t - z;
  let RF := K.Rforce Rdist zd 0 t;
  -RF * (cos φ * xd + sin φ * yd) / Rdist

/-- `_zforce`, MovingObjectPotential.py:97-104. -/
def zforce (R z φ t : ℝ) : ℝ := -K.zforce (cylR R φ (o.R t) (o.phi t)) (o.z t - z) 0 t

/-- `_phitorque`, MovingObjectPotential.py:106-115. -/
def phitorque (R z φ t : ℝ) : ℝ :=
  let Rdist := cylR R φ (o.R t) (o.phi t);
  let xd := dx (o.R t) (o.phi t) R φ;
  let yd := dy (o.R t) (o.phi t) R φ;
  let zd := o.z t - z;
  let RF := K.Rforce Rdist zd 0 t;
  -RF * R * (cos φ * yd - sin φ * xd) / Rdist

/-- `_xyzHess`, MovingObjectPotential.py:117-150. -/
def xyzHess (R z φ t : ℝ) : Hess :=
  let Rdist := cylR R φ (o.R t) (o.phi t);
  let xd := dx (o.R t) (o.phi t) R φ;
  let yd := dy (o.R t) (o.phi t) R φ;
  let zd := o.z t - z;
  let RF := K.Rforce Rdist zd 0 t;
  let R2d := K.R2deriv Rdist zd 0 t;
  let Rzd := K.Rzderiv Rdist zd 0 t;
  let z2d := K.z2deriv Rdist zd 0 t;
  { x := RF * xd / Rdist
    y := RF * yd / Rdist
    xx := R2d * xd ^ 2 / Rdist ^ 2 - RF * yd ^ 2 / Rdist ^ 3
    yy := R2d * yd ^ 2 / Rdist ^ 2 - RF * xd ^ 2 / Rdist ^ 3
    xy := (R2d + RF / Rdist) * xd * yd / Rdist ^ 2
    xz := Rzd * xd / Rdist
    yz := Rzd * yd / Rdist
    zz := z2d }

/-- The return value of `_R2deriv`, MovingObjectPotential.py:156-157; also MovingObjectPotential.c:206-208, 300-302. -/
def Hess.R2 (h : Hess) (φ : ℝ) : ℝ := cos φ ^ 2 * h.xx + 2 * cos φ * sin φ * h.xy + sin φ ^ 2 * h.yy
/-- The return value of `_Rzderiv`, MovingObjectPotential.py:169-170; also MovingObjectPotential.c:224-226. -/
def Hess.Rz (h : Hess) (φ : ℝ) : ℝ := cos φ * h.xz + sin φ * h.yz
/-- The return value of `_phi2deriv`, MovingObjectPotential.py:176-179; also MovingObjectPotential.c:234-236, 310-312. -/
def Hess.p2 (h : Hess) (R φ : ℝ) : ℝ :=
  R ^ 2 * (sin φ ^ 2 * h.xx - 2 * cos φ * sin φ * h.xy + cos φ ^ 2 * h.yy) - R * (cos φ * h.x + sin φ * h.y)
/-- The return value of `_Rphideriv`, MovingObjectPotential.py:185-190; also MovingObjectPotential.c:244-246, 320-322. -/
def Hess.Rp (h : Hess) (R φ : ℝ) : ℝ :=
  R * (cos φ * sin φ * (h.yy - h.xx) + (cos φ ^ 2 - sin φ ^ 2) * h.xy) - sin φ * h.x + cos φ * h.y
/-- The return value of `_phizderiv`, MovingObjectPotential.py:196-197; also MovingObjectPotential.c:254-256. -/
def Hess.pz (h : Hess) (R φ : ℝ) : ℝ := R * (cos φ * h.yz - sin φ * h.xz)

/-- `_R2deriv`, MovingObjectPotential.py:152-157. -/
def R2deriv (R z φ t : ℝ) : ℝ := (xyzHess K o R z φ t).R2 φ
/-- `_z2deriv`, MovingObjectPotential.py:159-163. -/
def z2deriv (R z φ t : ℝ) : ℝ := (xyzHess K o R z φ t).zz
/-- `_Rzderiv`, MovingObjectPotential.py:165-170. -/
def Rzderiv (R z φ t : ℝ) : ℝ := (xyzHess K o R z φ t).Rz φ
/-- `_phi2deriv`, MovingObjectPotential.py:172-179. -/
def phi2deriv (R z φ t : ℝ) : ℝ := (xyzHess K o R z φ t).p2 R φ
/-- `_Rphideriv`, MovingObjectPotential.py:181-190. -/
def Rphideriv (R z φ t : ℝ) : ℝ := (xyzHess K o R z φ t).Rp R φ
/-- `_phizderiv`, MovingObjectPotential.py:192-197. -/
def phizderiv (R z φ t : ℝ) : ℝ := (xyzHess K o R z φ t).pz R φ
/-- `_dens`, MovingObjectPotential.py:199-206. -/
def dens (R z φ t : ℝ) : ℝ := K.dens (cylR R φ (o.R t) (o.phi t)) (o.z t - z) 0 t

/-- The Python class as a record of methods. -/
def pot : Pot where
  val := evaluate K o
  Rforce := Rforce K o
  zforce := zforce K o
  phitorque := phitorque K o
  R2deriv := R2deriv K o
  z2deriv := z2deriv K o
  Rzderiv := Rzderiv K o
  phi2deriv := phi2deriv K o
  Rphideriv := Rphideriv K o
  phizderiv := phizderiv K o
  dens := dens K o

/-! C implementation.  The three splines (`gsl_interp_cspline` through the orbit's output at times rescaled to `[0, 1]`,
integrateFullOrbit.c:1392-1433) are arbitrary functions; the wrapped potential's functions take the azimuth of the field
point. -/

/-- What the C side holds for the object: the splines of `x`, `y`, `z` and the three arguments (integrateFullOrbit.py:458-464).
-/
structure CArgs where
  sx : ℝ → ℝ
  sy : ℝ → ℝ
  sz : ℝ → ℝ
  amp : ℝ
  t0 : ℝ
  tf : ℝ

/-- The functions of the wrapped potential in C (`calcRforce` etc.; amplitude included). -/
structure CKernel where
  Rforce : ℝ → ℝ → ℝ → ℝ → ℝ
  zforce : ℝ → ℝ → ℝ → ℝ → ℝ
  R2deriv : ℝ → ℝ → ℝ → ℝ → ℝ
  Rzderiv : ℝ → ℝ → ℝ → ℝ → ℝ
  z2deriv : ℝ → ℝ → ℝ → ℝ → ℝ
  planarRforce : ℝ → ℝ → ℝ → ℝ
  planarR2deriv : ℝ → ℝ → ℝ → ℝ

/-- `constrain_range`, MovingObjectPotential.c:7-11. -/
def constrain (d : ℝ) : ℝ :=
  let d' := if d < 0 then 0 else d;
  if d' > 1 then 1 else d'

/-- `d_ind` after `constrain_range`, MovingObjectPotential.c:21-24. -/
def dInd (a : CArgs) (t : ℝ) : ℝ := constrain ((t - a.t0) / (a.tf - a.t0))

variable (k : CKernel) (a : CArgs)

/-- `Rdist` of the force functions, MovingObjectPotential.c:31 (`pow(·, 0.5)` is the square root). -/
def cRdist (R φ t : ℝ) : ℝ :=
  √((R * cos φ - a.sx (dInd a t)) ^ 2 + (R * sin φ - a.sy (dInd a t)) ^ 2)

/-- `MovingObjectPotentialRforce`, MovingObjectPotential.c:12-36. -/
def cRforce (R z φ t : ℝ) : ℝ :=
  let RF := k.Rforce (cRdist a R φ t) (a.sz (dInd a t) - z) φ t;
  -a.amp * RF * (cos φ * (a.sx (dInd a t) - R * cos φ) + sin φ * (a.sy (dInd a t) - R * sin φ)) / cRdist a R φ t
/-- `MovingObjectPotentialzforce`, MovingObjectPotential.c:38-61. -/
def czforce (R z φ t : ℝ) : ℝ := -a.amp * k.zforce (cRdist a R φ t) (a.sz (dInd a t) - z) φ t
/-- `MovingObjectPotentialphitorque`, MovingObjectPotential.c:63-87. -/
def cphitorque (R z φ t : ℝ) : ℝ :=
  let RF := k.Rforce (cRdist a R φ t) (a.sz (dInd a t) - z) φ t;
  -a.amp * RF * R * (cos φ * (a.sy (dInd a t) - R * sin φ) - sin φ * (a.sx (dInd a t) - R * cos φ)) / cRdist a R φ t
/-- `MovingObjectPotentialPlanarRforce`, MovingObjectPotential.c:89-111. -/
def cPlanarRforce (R φ t : ℝ) : ℝ :=
  let RF := k.planarRforce (cRdist a R φ t) φ t;
  -a.amp * RF * (cos φ * (a.sx (dInd a t) - R * cos φ) + sin φ * (a.sy (dInd a t) - R * sin φ)) / cRdist a R φ t
/-- `MovingObjectPotentialPlanarphitorque`, MovingObjectPotential.c:113-135. -/
def cPlanarphitorque (R φ t : ℝ) : ℝ :=
  let RF := k.planarRforce (cRdist a R φ t) φ t;
  -a.amp * RF * R * (cos φ * (a.sy (dInd a t) - R * sin φ) - sin φ * (a.sx (dInd a t) - R * cos φ)) / cRdist a R φ t

/-- `MovingObjectPotentialxyzHess`, MovingObjectPotential.c:151-199. -/
def cxyzHess (R z φ t : ℝ) : Hess :=
  let xd := a.sx (dInd a t) - R * cos φ;
  let yd := a.sy (dInd a t) - R * sin φ;
  let zd := a.sz (dInd a t) - z;
  let Rdist := √(xd * xd + yd * yd);
  let RF := k.Rforce Rdist zd φ t;
  let R2d := k.R2deriv Rdist zd φ t;
  let Rzd := k.Rzderiv Rdist zd φ t;
  let z2d := k.z2deriv Rdist zd φ t;
  { x := a.amp * RF * xd / Rdist
    y := a.amp * RF * yd / Rdist
    xx := a.amp * (R2d * xd * xd / Rdist / Rdist - RF * yd * yd / Rdist / Rdist / Rdist)
    yy := a.amp * (R2d * yd * yd / Rdist / Rdist - RF * xd * xd / Rdist / Rdist / Rdist)
    xy := a.amp * (R2d + RF / Rdist) * xd * yd / Rdist / Rdist
    xz := a.amp * Rzd * xd / Rdist
    yz := a.amp * Rzd * yd / Rdist
    zz := a.amp * z2d }

/-- `MovingObjectPotentialPlanarxyHess`, MovingObjectPotential.c:262-293 (the last three entries do not exist there). -/
def cPlanarHess (R φ t : ℝ) : Hess :=
  let xd := a.sx (dInd a t) - R * cos φ;
  let yd := a.sy (dInd a t) - R * sin φ;
  let Rdist := √(xd * xd + yd * yd);
  let RF := k.planarRforce Rdist φ t;
  let R2d := k.planarR2deriv Rdist φ t;
  { x := a.amp * RF * xd / Rdist
    y := a.amp * RF * yd / Rdist
    xx := a.amp * (R2d * xd * xd / Rdist / Rdist - RF * yd * yd / Rdist / Rdist / Rdist)
    yy := a.amp * (R2d * yd * yd / Rdist / Rdist - RF * xd * xd / Rdist / Rdist / Rdist)
    xy := a.amp * (R2d + RF / Rdist) * xd * yd / Rdist / Rdist
    xz := 0
    yz := 0
    zz := 0 }

/-- `MovingObjectPotentialR2deriv`, MovingObjectPotential.c:201-209. -/
def cR2deriv (R z φ t : ℝ) : ℝ := (cxyzHess k a R z φ t).R2 φ
/-- `MovingObjectPotentialz2deriv`, MovingObjectPotential.c:211-217. -/
def cz2deriv (R z φ t : ℝ) : ℝ := (cxyzHess k a R z φ t).zz
/-- `MovingObjectPotentialRzderiv`, MovingObjectPotential.c:219-227. -/
def cRzderiv (R z φ t : ℝ) : ℝ := (cxyzHess k a R z φ t).Rz φ
/-- `MovingObjectPotentialphi2deriv`, MovingObjectPotential.c:229-237. -/
def cphi2deriv (R z φ t : ℝ) : ℝ := (cxyzHess k a R z φ t).p2 R φ
/-- `MovingObjectPotentialRphideriv`, MovingObjectPotential.c:239-247. -/
def cRphideriv (R z φ t : ℝ) : ℝ := (cxyzHess k a R z φ t).Rp R φ
/-- `MovingObjectPotentialzphideriv`, MovingObjectPotential.c:249-257. -/
def czphideriv (R z φ t : ℝ) : ℝ := (cxyzHess k a R z φ t).pz R φ
/-- `MovingObjectPotentialPlanarR2deriv`, MovingObjectPotential.c:295-303. -/
def cPlanarR2deriv (R φ t : ℝ) : ℝ := (cPlanarHess k a R φ t).R2 φ
/-- `MovingObjectPotentialPlanarphi2deriv`, MovingObjectPotential.c:305-313. -/
def cPlanarphi2deriv (R φ t : ℝ) : ℝ := (cPlanarHess k a R φ t).p2 R φ
/-- `MovingObjectPotentialPlanarRphideriv`, MovingObjectPotential.c:315-323. -/
def cPlanarRphideriv (R φ t : ℝ) : ℝ := (cPlanarHess k a R φ t).Rp R φ

end Verif.MovingObject
