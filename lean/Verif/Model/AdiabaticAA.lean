import Verif.Model.SphericalAA
import Verif.Model.VerticalAA

set_option autoImplicit false

/-!
# Actions, frequencies and angles in the adiabatic approximation

`galpy/actionAngle/actionAngleAdiabatic.py` in Python for three-dimensional axisymmetric potentials and single points (arrays are done
one entry at a time, 145-155, 229-247, 312-336, 430-444), and the parts of `actionAngleSpherical.py` that only it uses, with `_gamma`
and `_Jz`.  The C code, two-dimensional potentials and the private options `_justjr` and `_justjz` are not modelled.  Quadratures
are exact integrals and `brentq` is the relation `Brentq`.  `none` stands for an exception.
-/

noncomputable section
namespace Verif.AdiabaticAA
open Real RootSearch IsochroneAA
open NFWVirial (Brentq)
open SphericalAA (Radial rad vr vt vtheta E calcJr calcOr calcOp rmean calcAngler calcWz arccosF)
open Classical

/-- What is used of the potential: values, `Rforce`, `R2deriv` and `z2deriv` at `(R, z)`. -/
structure Pot3 where
  phi : ℝ → ℝ → ℝ
  rforce : ℝ → ℝ → ℝ
  r2deriv : ℝ → ℝ → ℝ
  z2deriv : ℝ → ℝ → ℝ

/-- `toPlanarPotential(pot)` (actionAngleAdiabatic.py 69-70; planarPotential.py 524-652): the plane `z = 0`. -/
def Pot3.planar (P : Pot3) : Radial := ⟨fun R => P.phi R 0, fun R => P.rforce R 0, fun R => P.r2deriv R 0⟩
/-- `toVerticalPotential(pot, R)` (actionAngleAdiabatic.py 166, 251, 340, 447; verticalPotential.py 89-117). -/
def Pot3.vertical (P : Pot3) (R z : ℝ) : ℝ := P.phi R z - P.phi R 0
/-- `verticalfreq` (Potential.py 1328-1350). -/
def Pot3.verticalfreq (P : Pot3) (R : ℝ) : ℝ := √(P.z2deriv R 0)

/-- `startsign` (actionAngleSpherical.py 489-493, 503-507, 516-520), from the value at the trial radius. -/
def startsign (gamma y : ℝ) : ℝ := if gamma ≠ 0 then y / |y| else 1

/-- `_calc_rperi_rap` (actionAngleSpherical.py 478-535) for any `_gamma`: the possible outcomes. -/
def RperiRap (gamma : ℝ) (P : Radial) (r vr vt E L : ℝ) (out : Option (ℝ × ℝ)) : Prop :=
  let f := rapRperiEq P.phi E L
  if vr = 0 ∧ |vt - P.vcirc r| < 1 / 10 ^ 15 then out = some (r, r)
  else if vr = 0 ∧ vt > P.vcirc r then
    ∃ rend, Ends (rapRperiStep f true (startsign gamma (f (r + 1 / 10 ^ 8)))) (2 * r) rend ∧
      ((rend = none ∧ out = none)
        ∨ ∃ e x, rend = some e ∧ Brentq f (r + 1 / 10 ^ 5) e x ∧ out = x.map fun rap => (r, rap))
  else if vr = 0 ∧ vt < P.vcirc r then
    ∃ rstart, Ends (rapRperiStep f false (startsign gamma (f (r - 1 / 10 ^ 8)))) (r / 2) (some rstart) ∧
      if rstart = 0 then out = some (0, r)
      else ∃ x, Brentq f rstart (r - 1 / 10 ^ 6) x ∧ out = x.map fun rperi => (rperi, r)
  else
    ∃ rstart rend x y, Ends (rapRperiStep f false (startsign gamma (f r))) (r / 2) (some rstart) ∧
      (if rstart = 0 then x = some 0 else Brentq f rstart r x) ∧
      Ends (rapRperiStep f true (startsign gamma (f r))) (2 * r) rend ∧
      (match rend with
        | none => y = none
        | some e => Brentq f r e y) ∧
      out = x.bind fun rperi => y.map fun rap => (rperi, rap)

/-- `L` after the correction by the vertical action (actionAngleSpherical.py 136-137, 211-212, 312-313, 461-462). -/
def effL (gamma jz : ℝ) (p : Point) : ℝ := if gamma ≠ 0 then L p + gamma * jz else L p
/-- `E` after the correction (actionAngleSpherical.py 138, 213, 314, 463). -/
def effE (gamma : ℝ) (P : Radial) (jz : ℝ) (p : Point) : ℝ :=
  if gamma ≠ 0 then E P p + (effL gamma jz p ^ 2 / 2 / rad p ^ 2 - vt p ^ 2 / 2) else E P p

/-- The turning points found for `p` (actionAngleSpherical.py 145, 222, 327, 466); `vt` is the uncorrected one. -/
def Turning (gamma : ℝ) (P : Radial) (jz : ℝ) (p : Point) (rr : Option (ℝ × ℝ)) : Prop :=
  RperiRap gamma P (rad p) (vr p) (vt p) (effE gamma P jz p) (effL gamma jz p) rr

/-- `_calc_long_asc` (actionAngleSpherical.py 650-662) with the corrected `L`. -/
def asc (l : ℝ) (p : Point) : ℝ :=
  let i := arccosF (Lz p / l)
  let sinu := p.z / p.R / tan i
  let sinu := if sinu > 1 ∧ sinu < 1 + 1 / 10 ^ 7 then 1 else sinu
  let sinu := if sinu < -1 then -1 else sinu
  p.phi - (if tan i = 0 ∨ sinu > 1 then p.phi
    else if vtheta p > 0 then π - arcsin sinu else arcsin sinu)

/-- `psi` in `_calc_anglez` (actionAngleSpherical.py 744-754) with the corrected `L`. -/
def psi (l : ℝ) (p : Point) : ℝ :=
  let i := arccosF (Lz p / l)
  let sinpsi := p.z / rad p / sin i
  let psi := if sin i ≠ 0 then
      let sinpsi := if sinpsi > 1 then 1 else if sinpsi < -1 then -1 else sinpsi
      if vtheta p > 0 then π - arcsin sinpsi else arcsin sinpsi
    else p.phi
  mod2pi psi

/-- `jr, jphi, Or, Op, ar, ap` of `_actionsFreqsAngles` (actionAngleSpherical.py 316-402) for given turning points. -/
def radial (gamma : ℝ) (P : Radial) (jz : ℝ) (p : Point) (rr : ℝ × ℝ) : ℝ × ℝ × ℝ × ℝ × ℝ × ℝ :=
  let rperi := rr.1
  let rap := rr.2
  let e := effE gamma P jz p
  let l := effL gamma jz p
  let Jr := calcJr P rperi rap e l
  let Rmean := rmean rperi rap
  let Or := if Jr < 1 / 10 ^ 9 then P.epifreq (rad p) else calcOr P Rmean rperi rap e l
  let Op := if Jr < 1 / 10 ^ 9 then P.omegac (rad p) else calcOp P Or Rmean rperi rap e l
  let ar := calcAngler P Or (rad p) Rmean rperi rap e l (vr p)
  let az := -calcWz P Or Op Rmean rperi rap e l (rad p) (vr p) + psi l p + Op / Or * ar
  let Op := if p.vT < 0 then Op * -1 else Op
  let ap := if p.vT < 0 then asc l p - az else asc l p + az
  (Jr, Lz p, Or, Op, mod2pi ar, mod2pi ap)

/-- The point given to `actionAngleSpherical` (actionAngleAdiabatic.py 179, 257, 347-349, 457-459). -/
def flat (p : Point) : Point := ⟨p.R, p.vR, p.vT, 0, 0, p.phi⟩

/-- `_evaluate` (actionAngleAdiabatic.py 79-184; actionAngleSpherical.py 74-147): the possible outcomes `(jr, lz, jz)`. -/
def Actions (gamma : ℝ) (P : Pot3) (p : Point) (out : Option (ℝ × ℝ × ℝ)) : Prop :=
  ∃ oz, VerticalAA.Action (P.vertical p.R) p.z p.vz oz ∧
    match oz with
    | none => out = none
    | some jz => ∃ rr, Turning gamma P.planar jz (flat p) rr ∧ out = rr.map fun rr =>
        (calcJr P.planar rr.1 rr.2 (effE gamma P.planar jz (flat p)) (effL gamma jz (flat p)), Lz (flat p), jz)

/-- `_actionsFreqs` (actionAngleAdiabatic.py 186-265; actionAngleSpherical.py 149-245): the possible outcomes
`(jr, lz, jz, Or, Op, Oz)`. -/
def Freqs (gamma : ℝ) (P : Pot3) (p : Point) (out : Option (ℝ × ℝ × ℝ × ℝ × ℝ × ℝ)) : Prop :=
  ∃ oz, (if p.z = 0 ∧ p.vz = 0 then oz = some (0, P.verticalfreq p.R) else VerticalAA.Freqs (P.vertical p.R) p.z p.vz oz) ∧
    match oz with
    | none => out = none
    | some (jz, Oz) => ∃ rr, Turning gamma P.planar jz (flat p) rr ∧ out = rr.map fun rr =>
        let o := radial gamma P.planar jz (flat p) rr
        (o.1, o.2.1, jz, o.2.2.1, o.2.2.2.1, Oz)

/-- What `actionsFreqsAngles` returns. -/
structure Out where
  jr : ℝ
  jphi : ℝ
  jz : ℝ
  Or : ℝ
  Op : ℝ
  Oz : ℝ
  ar : ℝ
  ap : ℝ
  az : ℝ

/-- `_actionsFreqsAngles` (actionAngleAdiabatic.py 267-360; actionAngleSpherical.py 247-402): the possible outcomes. -/
def Angles (gamma : ℝ) (P : Pot3) (p : Point) (out : Option Out) : Prop :=
  ∃ oz, (if p.z = 0 ∧ p.vz = 0 then oz = some (0, P.verticalfreq p.R, 0) else VerticalAA.Angles (P.vertical p.R) p.z p.vz oz) ∧
    match oz with
    | none => out = none
    | some (jz, Oz, az) => ∃ rr, Turning gamma P.planar jz (flat p) rr ∧ out = rr.map fun rr =>
        let o := radial gamma P.planar jz (flat p) rr
        ⟨o.1, o.2.1, jz, o.2.2.1, o.2.2.2.1, Oz, o.2.2.2.2.1, o.2.2.2.2.2, az⟩

/-- `_EccZmaxRperiRap` (actionAngleAdiabatic.py 362-466; actionAngleSpherical.py 404-476): the possible outcomes
`(ecc, zmax, rperi, rap)`. -/
def Ecc (gamma : ℝ) (P : Pot3) (p : Point) (out : Option (ℝ × ℝ × ℝ × ℝ)) : Prop :=
  ∃ ox oz, VerticalAA.XmaxOut (P.vertical p.R) p.z p.vz ox ∧
    (if gamma ≠ 0 then VerticalAA.Action (P.vertical p.R) p.z p.vz oz else oz = some 0) ∧
    match ox, oz with
    | some zmax, some jz => ∃ rr, Turning gamma P.planar jz (flat p) rr ∧ out = rr.map fun rr =>
        let rperi := rr.1
        let rap := √(rr.2 ^ 2 + zmax ^ 2)
        ((rap - rperi) / (rap + rperi), zmax, rperi, rap)
    | _, _ => out = none

end Verif.AdiabaticAA
