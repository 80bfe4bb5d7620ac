import Verif.Model.IsochroneAA
import Verif.Model.NFWVirial
import Verif.Model.RootSearch
import Mathlib.MeasureTheory.Integral.IntervalIntegral.Basic

set_option autoImplicit false

/-!
# Action-angle coordinates of spherical potentials

`galpy/actionAngle/actionAngleSpherical.py` for single points, with `_gamma = 0` (the adiabatic approximation is the only user
of other values).  Quadratures (`quad`, `quadpack.quadrature`, `fixed_quad`) are exact integrals; `brentq` is the relation
`NFWVirial.Brentq`.  The loop that returns a bracket is run as often as needed.  `none` stands for an exception.
-/

noncomputable section
namespace Verif.SphericalAA
open Real RootSearch IsochroneAA
open NFWVirial (Brentq)
open Classical

/-- The planar potential `_2dpot` (actionAngleSpherical.py 54-60): values, `Rforce` and `R2deriv` at radius `r`. -/
structure Radial where
  phi : ℝ → ℝ
  rforce : ℝ → ℝ
  r2deriv : ℝ → ℝ

/-- `vcirc`, `omegac`, `epifreq` of a planar potential (planarPotential.py 243-320). -/
def Radial.vcirc (P : Radial) (r : ℝ) : ℝ := √(r * -P.rforce r)
/-- `omegac`; see `Radial.vcirc`. -/
def Radial.omegac (P : Radial) (r : ℝ) : ℝ := √(-P.rforce r / r)
/-- `epifreq`; see `Radial.vcirc`. -/
def Radial.epifreq (P : Radial) (r : ℝ) : ℝ := √(P.r2deriv r - 3 / r * P.rforce r)

/-- `r` (actionAngleSpherical.py 122, 197, 297, 447). -/
def rad (p : Point) : ℝ := √(p.R ^ 2 + p.z ^ 2)
/-- `vr` (actionAngleSpherical.py 123, 198, 298, 448). -/
def vr (p : Point) : ℝ := (p.R * p.vR + p.z * p.vz) / rad p
/-- `vtheta` (actionAngleSpherical.py 299). -/
def vtheta (p : Point) : ℝ := (p.z * p.vR - p.R * p.vz) / rad p
/-- `E` (actionAngleSpherical.py 128-133, 203-208, 304-309, 454-459). -/
def E (P : Radial) (p : Point) : ℝ := P.phi (rad p) + p.vR ^ 2 / 2 + p.vT ^ 2 / 2 + p.vz ^ 2 / 2
/-- `vt` (actionAngleSpherical.py 135, 210, 311, 460); `Lz`, `L2`, `L` (124-127, 134) are those of `actionAngleIsochrone`. -/
def vt (p : Point) : ℝ := L p / rad p

/-- `_calc_rperi_rap` (actionAngleSpherical.py 478-535): the possible outcomes. -/
def RperiRap (P : Radial) (r vr vt E L : ℝ) (out : Option (ℝ × ℝ)) : Prop :=
  let f := rapRperiEq P.phi E L
  if vr = 0 ∧ |vt - P.vcirc r| < 1 / 10 ^ 15 then out = some (r, r)
  else if vr = 0 ∧ vt > P.vcirc r then
    ∃ rend, Ends (rapRperiStep f true 1) (2 * r) rend ∧
      ((rend = none ∧ out = none)
        ∨ ∃ e x, rend = some e ∧ Brentq f (r + 1 / 10 ^ 5) e x ∧ out = x.map fun rap => (r, rap))
  else if vr = 0 ∧ vt < P.vcirc r then
    ∃ rstart, Ends (rapRperiStep f false 1) (r / 2) (some rstart) ∧
      if rstart = 0 then out = some (0, r)
      else ∃ x, Brentq f rstart (r - 1 / 10 ^ 6) x ∧ out = x.map fun rperi => (rperi, r)
  else
    ∃ rstart rend x y, Ends (rapRperiStep f false 1) (r / 2) (some rstart) ∧
      (if rstart = 0 then x = some 0 else Brentq f rstart r x) ∧
      Ends (rapRperiStep f true 1) (2 * r) rend ∧
      (match rend with
        | none => y = none
        | some e => Brentq f r e y) ∧
      out = x.bind fun rperi => y.map fun rap => (rperi, rap)

/-- `_JrSphericalIntegrand` (actionAngleSpherical.py 820-822). -/
def jrIntegrand (P : Radial) (E L r : ℝ) : ℝ := √(2 * (E - P.phi r) - L ^ 2 / r ^ 2)
/-- `_TrSphericalIntegrandSmall` (actionAngleSpherical.py 825-827). -/
def trSmall (P : Radial) (E L rperi t : ℝ) : ℝ := 2 * t / jrIntegrand P E L (rperi + t ^ 2)
/-- `_TrSphericalIntegrandLarge` (actionAngleSpherical.py 830-832). -/
def trLarge (P : Radial) (E L rap t : ℝ) : ℝ := 2 * t / jrIntegrand P E L (rap - t ^ 2)
/-- `_ISphericalIntegrandSmall` (actionAngleSpherical.py 835-837). -/
def iSmall (P : Radial) (E L rperi t : ℝ) : ℝ := 2 * t / jrIntegrand P E L (rperi + t ^ 2) / (rperi + t ^ 2) ^ 2
/-- `_ISphericalIntegrandLarge` (actionAngleSpherical.py 840-842). -/
def iLarge (P : Radial) (E L rap t : ℝ) : ℝ := 2 * t / jrIntegrand P E L (rap - t ^ 2) / (rap - t ^ 2) ^ 2

/-- `_calc_jr` (actionAngleSpherical.py 537-561). -/
def calcJr (P : Radial) (rperi rap E L : ℝ) : ℝ := (∫ r in rperi..rap, jrIntegrand P E L r) / π

/-- `Rmean` (actionAngleSpherical.py 229-233, 330-334). -/
def rmean (rperi rap : ℝ) : ℝ := if rperi > 0 then exp ((log rperi + log rap) / 2) else rap / 2

/-- `_calc_or` (actionAngleSpherical.py 563-604). -/
def calcOr (P : Radial) (Rmean rperi rap E L : ℝ) : ℝ :=
  let Tr := if Rmean > rperi then ∫ t in (0 : ℝ)..√(Rmean - rperi), trSmall P E L rperi t else 0
  let Tr := if Rmean < rap then Tr + ∫ t in (0 : ℝ)..√(rap - Rmean), trLarge P E L rap t else Tr
  let Tr := 2 * Tr
  2 * π / Tr

/-- `_calc_op` (actionAngleSpherical.py 606-648). -/
def calcOp (P : Radial) (Or Rmean rperi rap E L : ℝ) : ℝ :=
  let I := if Rmean > rperi then ∫ t in (0 : ℝ)..√(Rmean - rperi), iSmall P E L rperi t else 0
  let I := if Rmean < rap then I + ∫ t in (0 : ℝ)..√(rap - Rmean), iLarge P E L rap t else I
  let I := I * (2 * L)
  I * Or / 2 / π

/-- The double nearest to `pi`. -/
def piF : ℝ := 884279719003555 / 281474976710656
/-- `numpy.arccos`.  Exact except at `-1`, where rounding decides what follows: the sine and tangent of the result are not nought. -/
def arccosF (x : ℝ) : ℝ := if x = -1 then piF else arccos x
/-- `i` (actionAngleSpherical.py 651, 745). -/
def inc (p : Point) : ℝ := arccosF (Lz p / L p)

/-- `u` (actionAngleSpherical.py 651-661).  A vanishing tangent and an argument of `arcsin` that stays above one make it
undefined, and `phi` is used. -/
def node (p : Point) : ℝ :=
  let sinu := p.z / p.R / tan (inc p)
  let sinu := if sinu > 1 ∧ sinu < 1 + 1 / 10 ^ 7 then 1 else sinu
  let sinu := if sinu < -1 then -1 else sinu
  if tan (inc p) = 0 ∨ sinu > 1 then p.phi
  else if vtheta p > 0 then π - arcsin sinu else arcsin sinu
/-- `_calc_long_asc` (actionAngleSpherical.py 650-662). -/
def asc (p : Point) : ℝ := p.phi - node p

/-- `_calc_angler` (actionAngleSpherical.py 664-723). -/
def calcAngler (P : Radial) (Or r Rmean rperi rap E L vr : ℝ) : ℝ :=
  if r < Rmean then
    let wr := if r > rperi then Or * ∫ t in (0 : ℝ)..√(r - rperi), trSmall P E L rperi t else 0
    if vr < 0 then 2 * π - wr else wr
  else
    let wr := if r < rap then Or * ∫ t in (0 : ℝ)..√(rap - r), trLarge P E L rap t else 0
    if vr < 0 then π + wr else π - wr

/-- `psi` in `_calc_anglez` (actionAngleSpherical.py 744-754). -/
def psi (p : Point) : ℝ :=
  let sinpsi := p.z / rad p / sin (inc p)
  let psi := if sin (inc p) ≠ 0 then
      let sinpsi := if sinpsi > 1 then 1 else if sinpsi < -1 then -1 else sinpsi
      if vtheta p > 0 then π - arcsin sinpsi else arcsin sinpsi
    else p.phi
  mod2pi psi

/-- `wz` in `_calc_anglez` (actionAngleSpherical.py 755-814). -/
def calcWz (P : Radial) (Or Op Rmean rperi rap E L r vr : ℝ) : ℝ :=
  let dpsi := Op / Or * 2 * π
  if r < Rmean then
    let wz := if √(r - rperi) = 0 then 0 else L * ∫ t in (0 : ℝ)..√(r - rperi), iSmall P E L rperi t
    if vr < 0 then dpsi - wz else wz
  else
    let wz := if √(rap - r) = 0 then 0 else L * ∫ t in (0 : ℝ)..√(rap - r), iLarge P E L rap t
    if vr < 0 then dpsi / 2 + wz else dpsi / 2 - wz

/-- `_calc_anglez` (actionAngleSpherical.py 725-817). -/
def calcAnglez (P : Radial) (Or Op ar Rmean rperi rap E L : ℝ) (p : Point) : ℝ :=
  -calcWz P Or Op Rmean rperi rap E L (rad p) (vr p) + psi p + Op / Or * ar

/-- What `actionsFreqsAngles` returns. -/
structure Out where
  jr : ℝ
  jphi : ℝ
  jz : ℝ
  Or : ℝ
  Op : ℝ
  Oz : ℝ
  ar : ℝ
  ap : ℝ
  az : ℝ

/-- `Jz` (actionAngleSpherical.py 141, 216, 317). -/
def jz (p : Point) : ℝ := L p - |Lz p|

/-- The body of the loop and what follows it in `_actionsFreqsAngles` (actionAngleSpherical.py 316-402). -/
def compute (P : Radial) (p : Point) (rr : ℝ × ℝ) : Out :=
  let rperi := rr.1
  let rap := rr.2
  let e := E P p
  let l := L p
  let Jr := calcJr P rperi rap e l
  let Rmean := rmean rperi rap
  let Or := if Jr < 1 / 10 ^ 9 then P.epifreq (rad p) else calcOr P Rmean rperi rap e l
  let Op := if Jr < 1 / 10 ^ 9 then P.omegac (rad p) else calcOp P Or Rmean rperi rap e l
  let ar := calcAngler P Or (rad p) Rmean rperi rap e l (vr p)
  let az := calcAnglez P Or Op ar Rmean rperi rap e l p
  let Oz := Op
  let Op := if p.vT < 0 then Op * -1 else Op
  let ap := if p.vT < 0 then asc p - az else asc p + az
  ⟨Jr, Lz p, jz p, Or, Op, Oz, mod2pi ar, mod2pi ap, mod2pi az⟩

/-- `_actionsFreqsAngles` (actionAngleSpherical.py 247-402): the possible outcomes. -/
def Angles (P : Radial) (p : Point) (out : Option Out) : Prop :=
  ∃ rr, RperiRap P (rad p) (vr p) (vt p) (E P p) (L p) rr ∧ out = rr.map (compute P p)

/-- `_actionsFreqs` (actionAngleSpherical.py 149-245): the possible outcomes. -/
def Freqs (P : Radial) (p : Point) (out : Option (ℝ × ℝ × ℝ × ℝ × ℝ × ℝ)) : Prop :=
  ∃ rr, RperiRap P (rad p) (vr p) (vt p) (E P p) (L p) rr ∧ out = rr.map fun rr =>
    let Jr := calcJr P rr.1 rr.2 (E P p) (L p)
    let Or := if Jr < 1 / 10 ^ 9 then P.epifreq (rad p) else calcOr P (rmean rr.1 rr.2) rr.1 rr.2 (E P p) (L p)
    let Op := if Jr < 1 / 10 ^ 9 then P.omegac (rad p) else calcOp P Or (rmean rr.1 rr.2) rr.1 rr.2 (E P p) (L p)
    (Jr, Lz p, jz p, Or, (if p.vT < 0 then Op * -1 else Op), Op)

/-- `_evaluate` (actionAngleSpherical.py 74-147): the possible outcomes. -/
def Actions (P : Radial) (p : Point) (out : Option (ℝ × ℝ × ℝ)) : Prop :=
  ∃ rr, RperiRap P (rad p) (vr p) (vt p) (E P p) (L p) rr ∧ out = rr.map fun rr =>
    (calcJr P rr.1 rr.2 (E P p) (L p), Lz p, jz p)

/-- `_EccZmaxRperiRap` (actionAngleSpherical.py 404-476): the possible outcomes. -/
def Ecc (P : Radial) (p : Point) (out : Option (ℝ × ℝ × ℝ × ℝ)) : Prop :=
  ∃ rr, RperiRap P (rad p) (vr p) (vt p) (E P p) (L p) rr ∧ out = rr.map fun rr =>
    ((rr.2 - rr.1) / (rr.2 + rr.1), rr.2 * √(1 - Lz p ^ 2 / L2 p), rr.1, rr.2)

end Verif.SphericalAA
