import Verif.Model.Coords

set_option autoImplicit false

/-!
# OblateStaeckelWrapperPotential

`galpy/potential/OblateStaeckelWrapperPotential.py` and `galpy/potential/potential_c_ext/OblateStaeckelWrapperPotential.c`: an axisymmetric
potential made into one that separates in prolate spheroidal coordinates.  Units of `u0` and `delta` are not modelled.  The wrapped
potential is only used at time 0 (the `t` of the methods is not passed on).
-/

noncomputable section
namespace Verif.OblateStaeckel
open Real Coords

/-- What is used of the wrapped potential: value, forces and second derivatives at `(R, z)`. -/
structure Wrapped where
  phi : ℝ → ℝ → ℝ
  rforce : ℝ → ℝ → ℝ
  zforce : ℝ → ℝ → ℝ
  r2deriv : ℝ → ℝ → ℝ
  z2deriv : ℝ → ℝ → ℝ
  rzderiv : ℝ → ℝ → ℝ

/-- `u0=` (OblateStaeckelWrapperPotential.py 78-85): a number or a point `(R, z)`. -/
def initU0 (delta : ℝ) : ℝ ⊕ ℝ × ℝ → ℝ
  | .inl u0 => u0
  | .inr q => (Rz_to_uv q.1 q.2 delta false).1

/-- The object after `__init__` (51-99): wrapped potential at each time, amplitude, focal distance, reference `u`.  `eps` is the `1e-12` that is
added to `tanh(u)`. -/
structure Obj where
  pot : ℝ → Wrapped
  amp : ℝ
  delta : ℝ
  u0 : ℝ
  eps : ℝ

/-- `__init__` (51-99). -/
def init (amp : ℝ) (pot : ℝ → Wrapped) (delta : ℝ) (u0 : ℝ ⊕ ℝ × ℝ) : Obj := ⟨pot, amp, delta, initU0 delta u0, 1 / 10 ^ 12⟩

/-- `_staeckel_prefactor` (483-484). -/
def prefactor (u v : ℝ) : ℝ := sinh u ^ 2 + sin v ^ 2
/-- `_dstaeckel_prefactordudv` (487-488). -/
def dprefactor (u v : ℝ) : ℝ × ℝ := (2 * sinh u * cosh u, 2 * sin v * cos v)
/-- `_dstaeckel_prefactord2ud2v` (491-492). -/
def d2prefactor (u v : ℝ) : ℝ × ℝ := (2 * cosh (2 * u), 2 * cos (2 * v))

variable (o : Obj)

/-- `self._pot`, as it is called everywhere: without `t`, that is at time 0. -/
def Obj.w : Wrapped := o.pot 0

/-- `_refpot` (86-90). -/
def Obj.refpot : ℝ :=
  let q := uv_to_Rz o.u0 (π / 2) o.delta false;
  o.w.phi q.1 q.2 * cosh o.u0 ^ 2

/-- `_U` (392-395). -/
def Obj.U (u : ℝ) : ℝ :=
  let q := uv_to_Rz u (π / 2) o.delta false;
  cosh u ^ 2 * o.w.phi q.1 q.2

/-- `_dUdu` (397-407). -/
def Obj.dUdu (u : ℝ) : ℝ :=
  let q := uv_to_Rz u (π / 2) o.delta false;
  2 * cosh u * sinh u * o.w.phi q.1 q.2
    - cosh u ^ 2 * (o.w.rforce q.1 q.2 * q.1 / (tanh u + o.eps) + o.w.zforce q.1 q.2 * q.2 * tanh u)

/-- `_d2Udu2` (409-437). -/
def Obj.d2Udu2 (u : ℝ) : ℝ :=
  let q := uv_to_Rz u (π / 2) o.delta false;
  let tR := o.w.rforce q.1 q.2;
  let tz := o.w.zforce q.1 q.2;
  2 * cosh (2 * u) * o.w.phi q.1 q.2
    - 4 * cosh u * sinh u * (tR * q.1 / (tanh u + o.eps) + tz * q.2 * tanh u)
    - cosh u ^ 2 * (-o.w.r2deriv q.1 q.2 * q.1 ^ 2 / (tanh u + o.eps) ^ 2 - 2 * o.w.rzderiv q.1 q.2 * q.1 * q.2 + tR * q.1
      - o.w.z2deriv q.1 q.2 * q.2 ^ 2 * tanh u ^ 2 + tz * q.2)

/-- `_V` (439-445). -/
def Obj.V (v : ℝ) : ℝ :=
  let q := uv_to_Rz o.u0 v o.delta false;
  o.refpot - prefactor o.u0 v * o.w.phi q.1 q.2

/-- `z * tan(v)` (453, 464, 476-477) with `z = delta cosh(u0) cos(v)`.  The double nearest to `pi / 2` is not `pi / 2` and has a finite
tangent, with which the product is `delta cosh(u0) sin(v)` up to rounding; the real tangent there is not defined. -/
def Obj.ztan (v : ℝ) : ℝ := if cos v = 0 then o.delta * cosh o.u0 * sin v else (uv_to_Rz o.u0 v o.delta false).2 * tan v

/-- `_dVdv` (447-454). -/
def Obj.dVdv (v : ℝ) : ℝ :=
  let q := uv_to_Rz o.u0 v o.delta false;
  -2 * sin v * cos v * o.w.phi q.1 q.2
    + prefactor o.u0 v * (o.w.rforce q.1 q.2 * q.1 / tan v - o.w.zforce q.1 q.2 * o.ztan v)

/-- `_d2Vdv2` (456-480). -/
def Obj.d2Vdv2 (v : ℝ) : ℝ :=
  let q := uv_to_Rz o.u0 v o.delta false;
  let tR := o.w.rforce q.1 q.2;
  let tz := o.w.zforce q.1 q.2;
  -2 * cos (2 * v) * o.w.phi q.1 q.2
    + 2 * sin (2 * v) * (tR * q.1 / tan v - tz * o.ztan v)
    + prefactor o.u0 v * (-o.w.r2deriv q.1 q.2 * q.1 ^ 2 / tan v ^ 2 + 2 * o.w.rzderiv q.1 q.2 * q.1 * q.2 - tR * q.1
      - o.w.z2deriv q.1 q.2 * o.ztan v ^ 2 - tz * q.2)

/-- `_evaluate` (101-118). -/
def Obj.evaluate (R z _t : ℝ) : ℝ :=
  let w := Rz_to_uv R z o.delta false;
  (o.U w.1 - o.V w.2) / prefactor w.1 w.2

/-- `_Rforce` (120-152). -/
def Obj.Rforce (R z _t : ℝ) : ℝ :=
  let w := Rz_to_uv R z o.delta false;
  let u := w.1;
  let v := w.2;
  let prefac := prefactor u v;
  let d := dprefactor u v;
  (-o.dUdu u * o.delta * sin v * cosh u + o.dVdv v * tanh u * z
    + (o.U u - o.V v) * (d.1 * o.delta * sin v * cosh u + d.2 * tanh u * z) / prefac) / o.delta ^ 2 / prefac ^ 2

/-- `_zforce` (154-186). -/
def Obj.zforce (R z _t : ℝ) : ℝ :=
  let w := Rz_to_uv R z o.delta false;
  let u := w.1;
  let v := w.2;
  let prefac := prefactor u v;
  let d := dprefactor u v;
  (-o.dUdu u * R / tan v - o.dVdv v * o.delta * sin v * cosh u
    + (o.U u - o.V v) * (d.1 / tan v * R - d.2 * o.delta * sin v * cosh u) / prefac) / o.delta ^ 2 / prefac ^ 2

/-- `_R2deriv` (188-252). -/
def Obj.R2deriv (R z t : ℝ) : ℝ :=
  let w := Rz_to_uv R z o.delta false;
  let u := w.1;
  let v := w.2;
  let prefac := prefactor u v;
  let d := dprefactor u v;
  let d2 := d2prefactor u v;
  let umvfac := (d.1 * o.delta * sin v * cosh u + d.2 * tanh u * z) / prefac;
  (o.d2Udu2 u * sin v ^ 2 * cosh u ^ 2 + o.dUdu u * sinh u * cosh u - o.d2Vdv2 v * sinh u ^ 2 * cos v ^ 2 - o.dVdv v * sin v * cos v
    + ((-o.dUdu u * cosh u * sin v + o.dVdv v * sinh u * cos v) / o.delta * umvfac
      + (o.U u - o.V v) * (-d2.1 * cosh u ^ 2 * sin v ^ 2 - d.1 * sinh u * cosh u - d2.2 * sinh u ^ 2 * cos v ^ 2 - d.2 * sin v * cos v) / prefac
      + (o.U u - o.V v) * umvfac / prefac / o.delta * (d.1 * cosh u * sin v + d.2 * sinh u * cos v))) / o.delta ^ 2 / prefac ^ 3
    + 2 * o.Rforce R z t / prefac ^ 2 * (d.1 * cosh u * sin v + d.2 * sinh u * cos v) / o.delta

/-- `_z2deriv` (254-318). -/
def Obj.z2deriv (R z t : ℝ) : ℝ :=
  let w := Rz_to_uv R z o.delta false;
  let u := w.1;
  let v := w.2;
  let prefac := prefactor u v;
  let d := dprefactor u v;
  let d2 := d2prefactor u v;
  let umvfac := (d.1 / tan v * R - d.2 * o.delta * sin v * cosh u) / prefac;
  (o.d2Udu2 u * sinh u ^ 2 * cos v ^ 2 + o.dUdu u * cosh u * sinh u - o.d2Vdv2 v * sin v ^ 2 * cosh u ^ 2 - o.dVdv v * cos v * sin v
    + ((-o.dUdu u * sinh u * cos v - o.dVdv v * cosh u * sin v) / o.delta * umvfac
      + (o.U u - o.V v) * (-d2.1 * sinh u ^ 2 * cos v ^ 2 - d.1 * sinh u * cosh u - d2.2 * sin v ^ 2 * cosh u ^ 2 - d.2 * cos v * sin v) / prefac
      - (o.U u - o.V v) * umvfac / prefac / o.delta * (-d.1 * sinh u * cos v + d.2 * cosh u * sin v))) / o.delta ^ 2 / prefac ^ 3
    - 2 * o.zforce R z t / prefac ^ 2 * (-d.1 * sinh u * cos v + d.2 * cosh u * sin v) / o.delta

/-- `_Rzderiv` (320-390). -/
def Obj.Rzderiv (R z t : ℝ) : ℝ :=
  let w := Rz_to_uv R z o.delta false;
  let u := w.1;
  let v := w.2;
  let prefac := prefactor u v;
  let d := dprefactor u v;
  let d2 := d2prefactor u v;
  let umvfac := (d.1 / tan v * R - d.2 * o.delta * sin v * cosh u) / prefac;
  ((o.d2Udu2 u + o.d2Vdv2 v) * cosh u * sin v * cos v * sinh u + o.dUdu u * sin v * cos v + o.dVdv v * sinh u * cosh u
    + ((-o.dUdu u * cosh u * sin v + o.dVdv v * sinh u * cos v) / o.delta * umvfac
      + (o.U u - o.V v) * ((-d2.1 + d2.2) * sin v * cosh u * sinh u * cos v - d.1 * sin v * cos v + d.2 * cosh u * sinh u) / prefac
      + (o.U u - o.V v) * umvfac / prefac / o.delta * (d.1 * cosh u * sin v + d.2 * sinh u * cos v))) / o.delta ^ 2 / prefac ^ 3
    + 2 * o.zforce R z t / prefac ^ 2 * (d.1 * cosh u * sin v + d.2 * sinh u * cos v) / o.delta

/-! ### C

`U`, `dUdu`, `d2Udu2`, `V`, `dVdv`, `d2Vdv2` and the prefactors (OblateStaeckelWrapperPotential.c 4-80, 116-163) are term by term those above, at
`phi = 0`, `t = 0`. -/

/-- `OblateStaeckelWrapperPotentialEval` (164-174). -/
def Obj.cEval (R z _phi _t : ℝ) : ℝ :=
  let w := Rz_to_uv R z o.delta false;
  o.amp * (o.U w.1 - o.V w.2) / prefactor w.1 w.2

/-- `OblateStaeckelWrapperPotentialRforce` (175-194). -/
def Obj.cRforce (R z _phi _t : ℝ) : ℝ :=
  let w := Rz_to_uv R z o.delta false;
  let u := w.1;
  let v := w.2;
  let prefac := prefactor u v;
  let d := dprefactor u v;
  o.amp * ((-o.dUdu u * o.delta * sin v * cosh u + o.dVdv v * tanh u * z
    + (o.U u - o.V v) * (d.1 * o.delta * sin v * cosh u + d.2 * tanh u * z) / prefac) / (o.delta * prefac) ^ 2)

/-- `OblateStaeckelWrapperPotentialzforce` (195-214). -/
def Obj.cZforce (R z _phi _t : ℝ) : ℝ :=
  let w := Rz_to_uv R z o.delta false;
  let u := w.1;
  let v := w.2;
  let prefac := prefactor u v;
  let d := dprefactor u v;
  o.amp * ((-o.dUdu u * R / tan v - o.dVdv v * o.delta * sin v * cosh u
    + (o.U u - o.V v) * (d.1 / tan v * R - d.2 * o.delta * sin v * cosh u) / prefac) / (o.delta * prefac) ^ 2)

/-- `OblateStaeckelWrapperPotentialR2deriv` (243-288). -/
def Obj.cR2deriv (R z phi t : ℝ) : ℝ :=
  let w := Rz_to_uv R z o.delta false;
  let u := w.1;
  let v := w.2;
  let prefac := prefactor u v;
  let d := dprefactor u v;
  let d2 := d2prefactor u v;
  let umvfac := (d.1 * o.delta * sin v * cosh u + d.2 * tanh u * z) / prefac;
  o.amp * (o.d2Udu2 u * sin v ^ 2 * cosh u ^ 2 + o.dUdu u * sinh u * cosh u - o.d2Vdv2 v * sinh u ^ 2 * cos v ^ 2 - o.dVdv v * sin v * cos v
    + ((-o.dUdu u * cosh u * sin v + o.dVdv v * sinh u * cos v) / o.delta * umvfac
      + (o.U u - o.V v) * (-d2.1 * cosh u ^ 2 * sin v ^ 2 - d.1 * sinh u * cosh u - d2.2 * sinh u ^ 2 * cos v ^ 2 - d.2 * sin v * cos v) / prefac
      + (o.U u - o.V v) * umvfac / prefac / o.delta * (d.1 * cosh u * sin v + d.2 * sinh u * cos v))) / o.delta ^ 2 / prefac ^ 3
    + 2 * o.cRforce R z phi t / prefac ^ 2 * (d.1 * cosh u * sin v + d.2 * sinh u * cos v) / o.delta

/-- `OblateStaeckelWrapperPotentialz2deriv` (289-334). -/
def Obj.cZ2deriv (R z phi t : ℝ) : ℝ :=
  let w := Rz_to_uv R z o.delta false;
  let u := w.1;
  let v := w.2;
  let prefac := prefactor u v;
  let d := dprefactor u v;
  let d2 := d2prefactor u v;
  let umvfac := (d.1 / tan v * R - d.2 * o.delta * sin v * cosh u) / prefac;
  o.amp * (o.d2Udu2 u * sinh u ^ 2 * cos v ^ 2 + o.dUdu u * cosh u * sinh u - o.d2Vdv2 v * sin v ^ 2 * cosh u ^ 2 - o.dVdv v * cos v * sin v
    + ((-o.dUdu u * sinh u * cos v - o.dVdv v * cosh u * sin v) / o.delta * umvfac
      + (o.U u - o.V v) * (-d2.1 * sinh u ^ 2 * cos v ^ 2 - d.1 * sinh u * cosh u - d2.2 * sin v ^ 2 * cosh u ^ 2 - d.2 * cos v * sin v) / prefac
      - (o.U u - o.V v) * umvfac / prefac / o.delta * (-d.1 * sinh u * cos v + d.2 * cosh u * sin v))) / o.delta ^ 2 / prefac ^ 3
    - 2 * o.cZforce R z phi t / prefac ^ 2 * (-d.1 * sinh u * cos v + d.2 * cosh u * sin v) / o.delta

/-- `OblateStaeckelWrapperPotentialRzderiv` (335-379). -/
def Obj.cRzderiv (R z phi t : ℝ) : ℝ :=
  let w := Rz_to_uv R z o.delta false;
  let u := w.1;
  let v := w.2;
  let prefac := prefactor u v;
  let d := dprefactor u v;
  let d2 := d2prefactor u v;
  let umvfac := (d.1 / tan v * R - d.2 * o.delta * sin v * cosh u) / prefac;
  o.amp * ((o.d2Udu2 u + o.d2Vdv2 v) * cosh u * sin v * cos v * sinh u + o.dUdu u * sin v * cos v + o.dVdv v * sinh u * cosh u
    + ((-o.dUdu u * cosh u * sin v + o.dVdv v * sinh u * cos v) / o.delta * umvfac
      + (o.U u - o.V v) * ((-d2.1 + d2.2) * sin v * cosh u * sinh u * cos v - d.1 * sin v * cos v + d.2 * cosh u * sinh u) / prefac
      + (o.U u - o.V v) * umvfac / prefac / o.delta * (d.1 * cosh u * sin v + d.2 * sinh u * cos v))) / o.delta ^ 2 / prefac ^ 3
    + 2 * o.cZforce R z phi t / prefac ^ 2 * (d.1 * cosh u * sin v + d.2 * sinh u * cos v) / o.delta

/-! ### C, planar -/

/-- `planardUdu` (OblateStaeckelWrapperPotential.c 81-92); the planar force of the wrapped potential is its force at `z = 0`. -/
def Obj.cPlanardUdu (u : ℝ) : ℝ :=
  let q := uv_to_Rz u (π / 2) o.delta false;
  2 * cosh u * sinh u * o.w.phi q.1 q.2 - cosh u ^ 2 * o.w.rforce q.1 0 * q.1 / (tanh u + o.eps)

/-- `planard2Udu2` (93-115). -/
def Obj.cPlanard2Udu2 (u : ℝ) : ℝ :=
  let q := uv_to_Rz u (π / 2) o.delta false;
  let tR := o.w.rforce q.1 0;
  2 * cosh (2 * u) * o.w.phi q.1 q.2 - 4 * cosh u * sinh u * tR * q.1 / (tanh u + o.eps)
    - cosh u ^ 2 * (-o.w.r2deriv q.1 0 * q.1 * q.1 / (tanh u + o.eps) ^ 2 + tR * q.1)

/-- `OblateStaeckelWrapperPotentialPlanarRforce` (215-230). -/
def Obj.cPlanarRforce (R _phi _t : ℝ) : ℝ :=
  let w := Rz_to_uv R 0 o.delta false;
  let u := w.1;
  let v := w.2;
  let prefac := prefactor u v;
  let d := dprefactor u v;
  o.amp * ((-o.cPlanardUdu u * o.delta * sin v * cosh u + o.U u * d.1 * o.delta * sin v * cosh u / prefac) / (o.delta * prefac) ^ 2)

/-- `OblateStaeckelWrapperPotentialPlanarR2deriv` (380-416). -/
def Obj.cPlanarR2deriv (R phi t : ℝ) : ℝ :=
  let w := Rz_to_uv R 0 o.delta false;
  let u := w.1;
  let v := w.2;
  let prefac := prefactor u v;
  let d := dprefactor u v;
  let d2 := d2prefactor u v;
  let umvfac := d.1 * o.delta * sin v * cosh u / prefac;
  o.amp * (o.cPlanard2Udu2 u * sin v ^ 2 * cosh u ^ 2 + o.cPlanardUdu u * sinh u * cosh u
    + (-o.cPlanardUdu u * cosh u * sin v / o.delta * umvfac
      + o.U u * (-d2.1 * cosh u ^ 2 * sin v ^ 2 - d.1 * sinh u * cosh u) / prefac
      + o.U u * umvfac / prefac / o.delta * d.1 * cosh u * sin v)) / o.delta ^ 2 / prefac ^ 3
    + 2 * o.cPlanarRforce R phi t / prefac ^ 2 * d.1 * cosh u * sin v / o.delta

end Verif.OblateStaeckel
