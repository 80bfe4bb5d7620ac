import Mathlib.Analysis.Real.Sqrt

set_option autoImplicit false

/-!
# Searches for starting intervals of root finding

The `while` loops that look for a bracket before `scipy.optimize.brentq` is called.  A loop is a step function; `run n`
performs at most `n` tests of the loop condition and is `none` when the loop has not ended by then.  The functions whose
root is sought are parameters; `brentq` itself is not modelled beyond raising `ValueError` when the end points have the
same sign.
-/

noncomputable section
namespace Verif.RootSearch
open Classical

/-- One pass of a loop: go on with a new state or end with a result. -/
inductive Step (α β : Type) where
  | next (a : α)
  | done (b : β)

/-- At most `n` passes. -/
def run {α β : Type} (step : α → Step α β) : ℕ → α → Option β
  | 0, _ => none
  | n + 1, a => match step a with
    | .next a' => run step n a'
    | .done b => some b

/-- The loop ends with the result `b`. -/
def Ends {α β : Type} (step : α → Step α β) (a : α) (b : β) : Prop := ∃ n, run step n a = some b

/-! ### Potential.py -/

/-- The loop of `_rlFindStart`, `_rEFindStart` and `_rhalfFindStart` (Potential.py 3226-3230, 3287-3291, 4543-4547). -/
def findStep (f : ℝ → ℝ) (lower : Bool) (r : ℝ) : Step ℝ ℝ :=
  if (2 * (if lower then 1 else 0) - 1) * f r > 0 then .next (if lower then r / 2 else r * 2) else .done r

/-- `_rlFindStart`, `_rEFindStart`, `_rhalfFindStart` (Potential.py 3223-3231, 3284-3292, 4540-4548), which differ in the
function only. -/
def findStart (f : ℝ → ℝ) (r : ℝ) (lower : Bool) (n : ℕ) : Option ℝ := run (findStep f lower) n (2 * r)

/-- `_rlfunc` (Potential.py 3217-3220). -/
def rlFunc (vc : ℝ → ℝ) (lz r : ℝ) : ℝ := r * vc r - lz
/-- `_rEfunc` (Potential.py 3278-3281). -/
def rEFunc (vc phi : ℝ → ℝ) (E r : ℝ) : ℝ := vc r ^ 2 / 2 + phi r - E
/-- `_rhalffunc` (Potential.py 4536-4537). -/
def rhalfFunc (mass : ℝ → ℝ) (tot r : ℝ) : ℝ := mass r / tot - 0.5

/-- The interval that the last call of `brentq` in `rl` and `rE` gets (Potential.py 3202-3214, 3268-3275). -/
def bracket (f : ℝ → ℝ) (r0 : ℝ) (n : ℕ) : Option (ℝ × ℝ) := do
  let rstart ← findStart f r0 false n
  if f (1 / 10 ^ 5) * f rstart ≤ 0 then
    some (1 / 10 ^ 5, rstart)
  else
    let rlower ← findStart f (1 / 10 ^ 5) true n
    some (rlower, rstart)

/-- `rl` (Potential.py 3171-3214). -/
def rl (vc : ℝ → ℝ) (lz : ℝ) (n : ℕ) : Option (ℝ × ℝ) := bracket (rlFunc vc |lz|) |lz| n
/-- `rE` (Potential.py 3237-3275). -/
def rE (vc phi : ℝ → ℝ) (E : ℝ) (n : ℕ) : Option (ℝ × ℝ) := bracket (rEFunc vc phi E) 1 n
/-- `rhalf` (Potential.py 4505-4533): the interval `(rlo, rhi)`. -/
def rhalf (mass : ℝ → ℝ) (tot : ℝ) (n : ℕ) : Option (ℝ × ℝ) := do
  let rhi ← findStart (rhalfFunc mass tot) 1 false n
  let rlo ← findStart (rhalfFunc mass tot) 1 true n
  some (rlo, rhi)

/-- What `zvc` returns or asks `brentq` for. -/
inductive Zvc where
  | zero
  | nan
  | error
  | interval (hi : ℝ)

/-- The loop of `zvc` (Potential.py 4418-4422); `g z` is the effective potential at height `z`. -/
def zvcStep (g : ℝ → ℝ) (E z : ℝ) : Step ℝ ℝ := if E - g z > 0 ∧ z < 1000 then .next (z * 2) else .done z

/-- `zvc` (Potential.py 4406-4433); `g z = Phi(R, z) + Lz^2 / 2 / R^2`. -/
def zvc (g : ℝ → ℝ) (E : ℝ) (n : ℕ) : Option Zvc :=
  if |g 0 - E| < 1 / 10 ^ 8 then some .zero
  else if g 0 > E then some .nan
  else (run (zvcStep g E) n 1).map fun zstart =>
    if (g 0 - E) * (g zstart - E) > 0 then .error else .interval zstart

/-- The loops of `zvc_range` (Potential.py 4475-4479, 4488-4492); `g R` is the effective potential in the plane. -/
def zvcRangeStep (g : ℝ → ℝ) (E : ℝ) (up : Bool) (R : ℝ) : Step ℝ ℝ :=
  if g R < E ∧ (if up then R < 1000 else R > 1 / 10 ^ 8) then .next (if up then R * 2 else R / 2) else .done R

/-- Result of `zvc_range`. -/
inductive ZvcRange where
  | nan
  | error
  | intervals (lo hi : ℝ)

/-- `zvc_range` (Potential.py 4467-4498); `RLz` is the guiding radius.  The root finders get `(lo, RLz)` and `(RLz, hi)`. -/
def zvcRange (g : ℝ → ℝ) (E RLz : ℝ) (n : ℕ) : Option ZvcRange :=
  if g RLz > E then some .nan
  else do
    let lo ← run (zvcRangeStep g E false) n RLz
    if (g lo - E) * (g RLz - E) > 0 then some .error
    else
      let hi ← run (zvcRangeStep g E true) n RLz
      if (g RLz - E) * (g hi - E) > 0 then some .error else some (.intervals lo hi)

/-! ### Action-angle classes -/

/-- `_rapRperiAxiEq` (actionAngleSpherical.py 845-847). -/
def rapRperiEq (phi : ℝ → ℝ) (E L r : ℝ) : ℝ := E - phi r - L ^ 2 / 2 / r ^ 2

/-- The loop of `_rapRperiAxiFindStart` (actionAngleSpherical.py 882-889); `none` is `UnboundError`. -/
def rapRperiStep (f : ℝ → ℝ) (rap : Bool) (startsign r : ℝ) : Step ℝ (Option ℝ) :=
  if startsign * f r > 0 ∧ r > 1 / 10 ^ 9 then
    if rap then (if r > 100 then .done none else .next (r * 2)) else .next (r / 2)
  else .done (some (if r < 1 / 10 ^ 9 then 0 else r))

/-- `_rapRperiAxiFindStart` (actionAngleSpherical.py 850-892). -/
def rapRperiFindStart (f : ℝ → ℝ) (R : ℝ) (rap : Bool) (startsign : ℝ) (n : ℕ) : Option (Option ℝ) :=
  run (rapRperiStep f rap startsign) n (if rap then 2 * R else R / 2)

/-- The loop of `_uminUmaxFindStart` (actionAngleStaeckel.py 2082-2098) on the pair `(utry, prevu)`. -/
def uminUmaxStep (f : ℝ → ℝ) (umax : Bool) (s : ℝ × ℝ) : Step (ℝ × ℝ) (Option (ℝ × ℝ)) :=
  if f s.1 ≥ 0 ∧ s.1 > 1 / 10 ^ 9 then
    if umax then (if s.1 > 100 then .done none else .next (s.1 * (11 / 10), s.1)) else .next (s.1 * (9 / 10), s.1)
  else .done (some (if s.1 < 1 / 10 ^ 9 then (0, s.2) else s))

/-- `_uminUmaxFindStart` (actionAngleStaeckel.py 2035-2098). -/
def uminUmaxFindStart (f : ℝ → ℝ) (u : ℝ) (umax : Bool) (n : ℕ) : Option (Option (ℝ × ℝ)) :=
  run (uminUmaxStep f umax) n (if umax then u * (11 / 10) else u * (9 / 10), u)

/-- The loop of `_vminFindStart` (actionAngleStaeckel.py 2138-2150). -/
def vminStep (f : ℝ → ℝ) (v : ℝ) : Step ℝ ℝ :=
  if f v ≥ 0 ∧ v > 1 / 10 ^ 9 then .next (v * (9 / 10)) else .done (if v < 1 / 10 ^ 9 then 0 else v)

/-- `_vminFindStart` (actionAngleStaeckel.py 2101-2150). -/
def vminFindStart (f : ℝ → ℝ) (v : ℝ) (n : ℕ) : Option ℝ := run (vminStep f) n (9 / 10 * v)

/-- The first loop of `calcxmax` (actionAngleVertical.py 333-338); `none` is the `OverflowError`. -/
def xmaxStep (phi : ℝ → ℝ) (E x : ℝ) : Step ℝ (Option ℝ) :=
  if E - phi x > 0 then (if x * 2 > 100 then .done none else .next (x * 2)) else .done (some x)

/-- Result of `calcxmax`: a value or an interval for `brentq`. -/
inductive Xmax where
  | value (x : ℝ)
  | interval (lo hi : ℝ)

/-- `calcxmax` (actionAngleVertical.py 297-354) with `E` not given, up to the call of `brentq`.  The second loop, which moves
the root down while rounding makes it fall outside, is not modelled. -/
def calcxmax (phi : ℝ → ℝ) (x vx : ℝ) (n : ℕ) : Option Xmax :=
  let E := vx ^ 2 / 2 + phi x
  if vx = 0 then some (.value |x|)
  else
    (run (xmaxStep phi E) n (if x = 0 then 1 / 10 ^ 5 else 2 * |x|)).map fun
      | none => .value (-9999.99)
      | some xend => .interval x xend

end Verif.RootSearch
