import Verif.Model.Pot.TwoPower
import Verif.Model.Pot.Ops
import Verif.Model.PotQuant
import Verif.Model.Conversion

set_option autoImplicit false

/-!
# Virial quantities and alternative constructors of NFWPotential

`galpy/potential/TwoPowerSphericalPotential.py` (NFWPotential: `__init__`, `rvir`, `rmax`, `vmax`) and
`Potential.mvir`, `Potential.conc` (`galpy/potential/Potential.py`).  Numbers in internal units; `scipy.optimize.brentq` is
the relation `Brentq`: it raises `ValueError` when the end points have values of the same sign and otherwise returns a zero
(its tolerance is not modelled).
-/

noncomputable section
namespace Verif.NFWVirial
open Real

/-- The outcomes of `brentq(f, lo, hi)`: `none` is `ValueError`. -/
def Brentq (f : ℝ → ℝ) (lo hi : ℝ) : Option ℝ → Prop
  | none => 0 < f lo * f hi
  | some y => f lo * f hi ≤ 0 ∧ lo ≤ y ∧ y ≤ hi ∧ f y = 0

/-- How a virial overdensity is specified: the arguments `H, Om, overdens, wrtcrit`. -/
structure Virial where
  H : ℝ
  Om : ℝ
  overdens : ℝ
  wrtcrit : Bool

/-- `od`, TwoPowerSphericalPotential.py:1027-1030 and 862-867. -/
def Virial.od (v : Virial) (vo ro : ℝ) : ℝ :=
  if v.wrtcrit then v.overdens / Conversion.dens_in_criticaldens vo ro v.H
  else v.overdens / Conversion.dens_in_meanmatterdens vo ro v.H v.Om

/-- The attributes of an NFWPotential used here. -/
structure Obj where
  amp : ℝ
  a : ℝ

/-- Construction with `rmax` and `vmax`, TwoPowerSphericalPotential.py:856-860. -/
def initMax (rmax vmax : ℝ) : Obj :=
  let a := rmax / 2.1625815870646098349;
  ⟨vmax ^ 2 * a / 0.21621659550187311005, a⟩

/-- Construction with `conc` and `mvir`, TwoPowerSphericalPotential.py:861-873. -/
def initVir (k : Conversion.Consts) (vo ro : ℝ) (v : Virial) (conc mvir : ℝ) : Obj :=
  let od := v.od vo ro;
  let mvirNatural := mvir * 100 / Conversion.mass_in_1010msol k vo ro;
  let rvir := (3 * mvirNatural / od / 4 / π) ^ (1 / 3 : ℝ);
  ⟨mvirNatural / (log (1 + conc) - conc / (1 + conc)), rvir / conc⟩

/-- `NFWPotential.rvir`, TwoPowerSphericalPotential.py:982-1037: the possible outcomes (`none` is `ValueError`). -/
def Rvir (o : Obj) (vo ro : ℝ) (v : Virial) (out : Option ℝ) : Prop :=
  let dc := 12 * ((NFW.pot o.a).scale o.amp).dens o.a 0 0 0 / v.od vo ro;
  ∃ x, Brentq (fun y => (log (1 + y) - y / (1 + y)) / y ^ 3 - 1 / dc) 0.01 100 x ∧ out = x.map (· * o.a)
/-- `Potential.mvir`, Potential.py:838-900. -/
def Mvir (o : Obj) (vo ro : ℝ) (v : Virial) (out : Option ℝ) : Prop :=
  ∃ r, Rvir o vo ro v r ∧ out = r.map fun r => o.amp * NFW.mass o.a r
/-- `Potential.conc`, Potential.py:1619-1668 (`_scale` is `a`, TwoPowerSphericalPotential.py:877). -/
def Conc (o : Obj) (vo ro : ℝ) (v : Virial) (out : Option ℝ) : Prop :=
  ∃ r, Rvir o vo ro v r ∧ out = r.map (· / o.a)
/-- `NFWPotential.rmax`, TwoPowerSphericalPotential.py:1040-1056. -/
def rmax (o : Obj) : ℝ := 2.1625815870646098349 * o.a
/-- `NFWPotential.vmax`, TwoPowerSphericalPotential.py:1058-1074. -/
def vmax (o : Obj) : ℝ := √(0.21621659550187311005 * o.amp / o.a)

end Verif.NFWVirial
