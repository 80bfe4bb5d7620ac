import Verif.Util.ExpInt
import Verif.Model.Pot.Spherical
import Verif.Model.Pot.Ops

set_option autoImplicit false

/-!
# ExpTruncNFWPotential

`galpy/potential/ExpTruncNFWPotential.py` and `potential_c_ext/ExpTruncNFWPotential.c`, without units and for scalars (the array code
does the same per element).  `scipy.special.exp1` is the exponential integral; `brentq` is an argument.
-/

noncomputable section
namespace Verif.ExpTruncNFW
open Real

/-- `_small_r_thresh`, 91. -/
def thresh (a rc : ℝ) : ℝ := 1e-3 * min a rc

/-- `_F_closed`, 252-262. -/
def Fclosed (a rc r : ℝ) : ℝ :=
  let beta := (a + r) / rc;
  exp (a / rc) * (1 + a / rc) * (E1 (a / rc) - E1 beta) - 1 + a * exp (-r / rc) / (a + r)

/-- `_F_series`, 264-283. -/
def Fseries (a rc r : ℝ) : ℝ :=
  let c2 := 0.5;
  let c3 := -(1 / rc + 2 / a) / 3;
  let c4 := (0.5 / rc / rc + 2 / (rc * a) + 3 / (a * a)) / 4;
  let c5 := -(1 / (6 * rc ^ 3) + 1 / (rc * rc * a) + 3 / (rc * a * a) + 4 / a ^ 3) / 5;
  r * r / (a * a) * (c2 + r * (c3 + r * (c4 + r * c5)))

/-- `_F_scalar`, 247-250. -/
def F (a rc r : ℝ) : ℝ := if r < thresh a rc then Fseries a rc r else Fclosed a rc r

/-- `_G`, 285-291. -/
def G (a rc r : ℝ) : ℝ :=
  let beta := (a + r) / rc;
  exp (-r / rc) / (a + r) - exp (a / rc) * E1 beta / rc

/-- `_rdens`, 293-300. -/
def rdens (a rc r : ℝ) : ℝ := exp (-r / rc) / (4 * π * a * a * r * (1 + r / a) ^ 2)

/-- `_revaluate`, 302-314. -/
def revaluate (a rc r : ℝ) : ℝ := if r = 0 then -G a rc 0 else -(F a rc r / r + G a rc r)

/-- `_rforce`, 316-327. -/
def rforce (a rc r : ℝ) : ℝ := if r = 0 then -0.5 / (a * a) else -F a rc r / (r * r)

/-- `_r2deriv`, 329-330. -/
def r2deriv (a rc r : ℝ) : ℝ := 4 * π * rdens a rc r - 2 * F a rc r / r ^ 3

/-- The radial profile given to `SphericalPotential`. -/
def radial (a rc : ℝ) : Spherical.Radial :=
  ⟨fun r _ => revaluate a rc r, fun r _ => rforce a rc r, fun r _ => r2deriv a rc r, fun r _ => rdens a rc r⟩

/-- The Python class. -/
def pot (a rc : ℝ) : Pot := Spherical.pot (radial a rc)

/-- `_mass` for `z=None`, 332-339, at a finite radius. -/
def mass (a rc R : ℝ) : ℝ := F a rc R

/-- `_mass` at `numpy.inf`, where `exp1` and `exp` give zero and so does `a * 0 / inf`. -/
def massInf (a rc : ℝ) : ℝ := exp (a / rc) * (1 + a / rc) * (E1 (a / rc) - 0) - 1 + 0

/-- `_Ftot`, 77-82. -/
def Ftot (alpha : ℝ) : ℝ := exp alpha * (1 + alpha) * E1 alpha - 1

/-- `_ddensdr`, 341-346. -/
def ddensdr (amp a rc r : ℝ) : ℝ :=
  let rho_phys := amp * rdens a rc r;
  let g := 1 / r + 2 / (a + r) + 1 / rc;
  -rho_phys * g

/-- `_d2densdr2`, 348-352. -/
def d2densdr2 (amp a rc r : ℝ) : ℝ :=
  let rho_phys := amp * rdens a rc r;
  let g := 1 / r + 2 / (a + r) + 1 / rc;
  let gprime := -1 / (r * r) - 2 / (a + r) ^ 2;
  rho_phys * (g * g - gprime)

/-- `_ddenstwobetadr`, 354-393. -/
def ddenstwobetadr (amp a rc r beta : ℝ) : ℝ :=
  let rho := amp * exp (-r / rc) / (4 * π * a * a * r * (1 + r / a) ^ 2);
  rho * r ^ (2 * beta) * ((2 * beta - 1) / r - 2 / (a + r) - 1 / rc)

/-- `_rforce_jax`, 395-415: `-expi(-x)` is `E1(x)` for positive `x`. -/
def rforceJax (amp a rc r : ℝ) : ℝ :=
  let alpha := a / rc;
  let beta := (a + r) / rc;
  let F := exp alpha * (1 + alpha) * (E1 alpha - E1 beta) - 1 + a * exp (-r / rc) / (a + r);
  -amp * F / r ^ 2

/-- The constructed object: `_amp`, `a`, `rc`. -/
structure Obj where
  amp : ℝ
  a : ℝ
  rc : ℝ

/-- `__init__`, 69-87, with `normalize=False`. -/
def init (amp a rc : ℝ) (mass : Option ℝ) : Obj :=
  match mass with
  | some m => ⟨m / Ftot (a / rc), a, rc⟩
  | none => ⟨amp, a, rc⟩

/-- The public potential. -/
def Obj.pot (o : Obj) : Pot := (ExpTruncNFW.pot o.a o.rc).scale o.amp

/-- Python's ValueError. -/
inductive Err
  | value
deriving DecidableEq

/-- `optimize.brentq`: `ValueError` when the function has the same sign at both ends, otherwise what `root` returns. -/
def brentq (root : (ℝ → ℝ) → ℝ → ℝ → ℝ) (f : ℝ → ℝ) (lo hi : ℝ) : Except Err ℝ :=
  if f lo * f hi > 0 then .error .value else .ok (root f lo hi)

/-- `from_nfw`, 102-231 (warnings left out); the NFW potential is given by its `_amp` and `a`. -/
def fromNfw (root : (ℝ → ℝ) → ℝ → ℝ → ℝ) (nfwAmp nfwA : ℝ) (rc mass : Option ℝ) : Except Err Obj :=
  if rc.isNone == mass.isNone then .error .value
  else
    match mass with
    | some m =>
      let target_F := m / nfwAmp;
      let Froot := fun al : ℝ => exp al * (1 + al) * E1 al - 1 - target_F;
      if Froot 690 > 0 then .error .value
      else do
        let alpha ← brentq root Froot 1e-150 690
        return init nfwAmp nfwA (nfwA / alpha) none
    | none => .ok (init nfwAmp nfwA (rc.getD 0) none)

/-! ### C -/

/-- `ExpTruncNFW_F`, ExpTruncNFWPotential.c:11-29. -/
def cF (r a rc : ℝ) : ℝ :=
  let small_r_thresh := 1e-3 * (if a < rc then a else rc);
  if r < small_r_thresh then
    let c2 := 0.5;
    let c3 := -(1 / rc + 2 / a) / 3;
    let c4 := (0.5 / (rc * rc) + 2 / (rc * a) + 3 / (a * a)) / 4;
    let c5 := -(1 / (6 * rc * rc * rc) + 1 / (rc * rc * a) + 3 / (rc * a * a) + 4 / (a * a * a)) / 5;
    r * r / (a * a) * (c2 + r * (c3 + r * (c4 + r * c5)))
  else
    let alpha := a / rc;
    let beta := (a + r) / rc;
    exp alpha * (1 + alpha) * (E1 alpha - E1 beta) - 1 + a * exp (-r / rc) / (a + r)

/-- `ExpTruncNFW_G`, ExpTruncNFWPotential.c:30-34. -/
def cG (r a rc : ℝ) : ℝ :=
  let alpha := a / rc;
  let beta := (a + r) / rc;
  exp (-r / rc) / (a + r) - exp alpha * E1 beta / rc

/-- `ExpTruncNFWPotentialrdens`, 35-42. -/
def cRdens (a rc r : ℝ) : ℝ := exp (-r / rc) / (4 * π * a * a * r * (1 + r / a) ^ 2)
/-- `ExpTruncNFWPotentialrevaluate`, 43-50. -/
def cRevaluate (a rc r : ℝ) : ℝ := -(cF r a rc / r + cG r a rc)
/-- `ExpTruncNFWPotentialrforce`, 51-58. -/
def cRforce (a rc r : ℝ) : ℝ := -cF r a rc / (r * r)
/-- `ExpTruncNFWPotentialr2deriv`, 59-67. -/
def cR2deriv (a rc r : ℝ) : ℝ := 4 * π * cRdens a rc r - 2 * cF r a rc / (r * r * r)
/-- The functions bound for case 46, integrateFullOrbit.c:801-819. -/
def cRadial (a rc : ℝ) : Spherical.Radial :=
  ⟨fun r _ => cRevaluate a rc r, fun r _ => cRforce a rc r, fun r _ => cR2deriv a rc r, fun r _ => cRdens a rc r⟩

end Verif.ExpTruncNFW
