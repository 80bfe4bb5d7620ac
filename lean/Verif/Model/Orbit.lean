import Mathlib.Data.Real.Basic
import Mathlib.Algebra.Order.Round
import Mathlib.Data.Real.Archimedean
import Mathlib.Data.List.Basic
import Mathlib.Algebra.BigOperators.Group.List.Basic

set_option autoImplicit false

/-!
# The `Orbit` object: stored arrays, indexing, integration and its continuation

`galpy/orbit/Orbits.py`. An `Orbit` holds a flattened list of initial conditions, the shape, and after an
integration the times and the integrated states. Attributes that may be absent (`hasattr`) are `Option`.
Exceptions are values; an operation returns the object as it is when the exception leaves it.

Simplifications: a phase-space state is an element of a type `S`; a potential is an element of a type `P`
(`_pot` and `_orig_pot` differ by the reduction to the plane, which is not represented); warnings are
dropped, hence also the comparison of the old and the new potential, whose only effect is a warning
(but the attribute access it makes is kept); `Quantity` inputs are assumed converted; the checks of the
dimension and units of the potential are made before anything else and are not represented.
-/

noncomputable section
namespace Verif.Orb

/-- Exceptions. `integrator` stands for any exception raised inside the integration routine, including a
`KeyboardInterrupt`. -/
inductive Err
  | attributeError | valueError | indexError | assertionError | lookupError | integrator
  deriving DecidableEq, Repr

/-- `self.t`: one shared array or one row per orbit. -/
inductive Times
  | shared (ts : List ℝ)
  | indiv (rows : List (List ℝ))

/-- A unit scale (`_ro`, `_vo`, `_zo`): one number, or a flattened array with one entry per orbit
(Orbits.py:438-449). -/
inductive Scale
  | one (x : ℝ)
  | each (xs : List ℝ)

/-- The object. Orbits.py:437, 475, 619-626, 848, 1727-1729, 1820, 6406. -/
structure Orbit (S P : Type) where
  shape : List Nat
  /-- `vxvv`, flattened over `shape` in row-major order -/
  vxvv : List S
  t : Option Times
  orbit : Option (List (List S))
  pot : Option P
  origPot : Option P
  /-- `hasattr(self, "_cannot_continue_integration") and self._cannot_continue_integration` -/
  cannotContinue : Bool
  name : Option (List String)
  ro : Scale
  vo : Scale
  roSet : Bool
  voSet : Bool

variable {S P : Type}

/-- `Orbit(vxvv)` for an array of states of the given shape, Orbits.py:298-479. -/
def new (shape : List Nat) (vxvv : List S) (ro vo : Scale) (roSet voSet : Bool) : Orbit S P where
  shape := shape
  vxvv := vxvv
  t := none
  orbit := none
  pot := none
  origPot := none
  cannotContinue := false
  name := none
  ro := ro
  vo := vo
  roSet := roSet
  voSet := voSet

/-! ### Indexing -/

/-- One entry of a basic index. -/
inductive AxisKey
  | int (k : Int)
  | slice (start stop step : Option Int)

/-- Index expressions: a tuple of integers and slices (a single integer or slice is a tuple of one; the
empty tuple is `...`), or a list of integers or of booleans for the first axis. -/
inductive Key
  | basic (ks : List AxisKey)
  | fancy (ks : List Int)
  | mask (bs : List Bool)

/-- Python's position of index `k` in an axis of length `len`. -/
def pos (len : Nat) (k : Int) : Option Nat :=
  if 0 ≤ k then (if k.toNat < len then some k.toNat else none)
  else (if (-k).toNat ≤ len then some (len - (-k).toNat) else none)

/-- One bound of a slice after `slice.indices(len)` (CPython `PySlice_AdjustIndices`): `dflt` for a
missing bound, otherwise the length is added to a negative value and the result is cut at `lo` and `hi`. -/
def adjust (len lo hi dflt : Int) : Option Int → Int
  | none => dflt
  | some k =>
    if k < 0 then (if k + len < lo then lo else if hi < k + len then hi else k + len)
    else if hi < k then hi else k

/-- The rows selected by a slice; `none` is the `ValueError` for step zero. -/
def sliceRows (len : Nat) (start stop step : Option Int) : Option (List Nat) :=
  let st := step.getD 1;
  if st = 0 then none
  else if 0 < st then
    let a := adjust len 0 len 0 start;
    let b := adjust len 0 len len stop;
    let n := if a < b then (b - a - 1) / st + 1 else 0;
    some ((List.range n.toNat).map fun i : Nat => (a + i * st).toNat)
  else
    let a := adjust len (-1) (len - 1) (len - 1) start;
    let b := adjust len (-1) (len - 1) (-1) stop;
    let n := if b < a then (a - b - 1) / (-st) + 1 else 0;
    some ((List.range n.toNat).map fun i : Nat => (a + i * st).toNat)

/-- The flattened index array and its shape for a basic index of `arange(prod shape).reshape(shape)`. -/
def basicIdx : List Nat → List AxisKey → Except Err (List Nat × List Nat)
  | sh, [] => .ok (List.range sh.prod, sh)
  | [], _ :: _ => .error .indexError
  | n :: rest, .int k :: ks =>
    match pos n k with
    | none => .error .indexError
    | some p => match basicIdx rest ks with
      | .error e => .error e
      | .ok (sub, sh) => .ok (sub.map (p * rest.prod + ·), sh)
  | n :: rest, .slice a b c :: ks =>
    match sliceRows n a b c with
    | none => .error .valueError
    | some rs => match basicIdx rest ks with
      | .error e => .error e
      | .ok (sub, sh) => .ok (rs.flatMap fun r => sub.map (r * rest.prod + ·), rs.length :: sh)

/-- The rows selected by a list of integers or booleans. -/
def advRows (n : Nat) : Key → Option (List Nat)
  | .basic _ => none
  | .fancy ks => ks.mapM (pos n)
  | .mask bs => if bs.length = n then some ((List.range n).filter fun i => bs[i]? = some true) else none

/-- The flattened index array and its shape for a list of integers or booleans. -/
def advIdx (key : Key) : List Nat → Except Err (List Nat × List Nat)
  | [] => .error .indexError
  | n :: rest => match advRows n key with
    | none => .error .indexError
    | some rs => .ok (rs.flatMap fun r => (List.range rest.prod).map (r * rest.prod + ·), rs.length :: rest)

/-- `numpy.arange(size).reshape(shape)[key]`, Orbits.py:1198-1204. -/
def indxArray (shape : List Nat) : Key → Except Err (List Nat × List Nat)
  | .basic ks => basicIdx shape ks
  | .fancy ks => advIdx (.fancy ks) shape
  | .mask bs => advIdx (.mask bs) shape

/-- `array[flat_indx_array]`. -/
def take {α : Type} (xs : List α) (is : List Nat) : Except Err (List α) :=
  is.mapM fun i => match xs[i]? with
    | some x => .ok x
    | none => .error .indexError

/-- The times of the selection: shared times are passed on, per-orbit times are selected,
Orbits.py:1217-1220. -/
def takeTimes (flat : List Nat) : Option Times → Except Err (Option Times)
  | some (.shared ts) => .ok (some (.shared ts))
  | some (.indiv rs) => do
    let x ← take rs flat
    .ok (some (.indiv x))
  | none => .error .attributeError

/-- The integration attributes of the selection, Orbits.py:1214-1225: copied only if there is an
integrated orbit. `_orig_pot` and `_cannot_continue_integration` are not in the list. -/
def takeIntegration (o : Orbit S P) (flat : List Nat) :
    Except Err (Option Times × Option (List (List S)) × Option P) :=
  match o.orbit with
  | none => .ok (none, none, none)
  | some xs => do
    let t ← takeTimes flat o.t
    let ys ← take xs flat
    .ok (t, some ys, o.pot)

/-- The names of the selection, Orbits.py:1228-1229. -/
def takeName (o : Orbit S P) (flat : List Nat) : Except Err (Option (List String)) :=
  match o.name with
  | none => .ok none
  | some ns => do
    let x ← take ns flat
    .ok (some x)

/-- `__getitem__` and `_from_slice`, Orbits.py:1179-1251. The scales `_ro`, `_vo` are passed on
unchanged, also when they hold one entry per orbit. -/
def getItem (o : Orbit S P) (key : Key) : Except Err (Orbit S P) := do
  let (flat, sh) ← indxArray o.shape key
  let vs ← take o.vxvv flat
  let (t, xs, p) ← takeIntegration o flat
  let nm ← takeName o flat
  .ok { shape := sh, vxvv := vs, t := t, orbit := xs, pot := p, origPot := none,
        cannotContinue := false, name := nm, ro := o.ro, vo := o.vo, roSet := o.roSet, voSet := o.voSet }

/-- `reshape`, Orbits.py:1253-1284, for a new shape without `-1`. -/
def reshape (o : Orbit S P) (sh : List Nat) : Except Err Unit × Orbit S P :=
  if sh.prod = o.shape.prod then (.ok (), { o with shape := sh }) else (.error .valueError, o)

/-! ### Integration -/

/-- `numpy.isclose(a, b)` with its default tolerances. -/
def isclose (a b : ℝ) : Prop := |a - b| ≤ 1e-8 + 1e-5 * |b|

/-- `numpy.diff`. -/
def diffs : List ℝ → List ℝ
  | a :: b :: l => (b - a) :: diffs (b :: l)
  | _ => []

open Classical in
/-- `_check_array_evenlyspaced` for one row; `ode`: the method is `odeint`, `dop853` or `dop853_c`.
Orbits.py:1407-1415. -/
def evenlySpaced (ode : Bool) (ts : List ℝ) : Except Err Bool :=
  if ode then .ok true
  else match diffs ts with
    | [] => .error .indexError
    | d :: ds => .ok (decide (∀ x ∈ d :: ds, isclose x d))

/-- `numpy.round` (half to even). -/
def pyround (x : ℝ) : ℤ :=
  let f := ⌊x⌋;
  if x - f < 1 / 2 then f
  else if 1 / 2 < x - f then f + 1
  else if f % 2 = 0 then f else f + 1

open Classical in
/-- `_check_integrate_dt` for one row, Orbits.py:9456-9462. -/
def checkDt (ts : List ℝ) : Option ℝ → Except Err Bool
  | none => .ok true
  | some dt => match ts with
    | a :: b :: _ => .ok (decide (dt ≠ 0 ∧ |(pyround ((b - a) / dt) : ℝ) * dt - (b - a)| < 1e-10))
    | _ => .error .indexError

/-- Direction of a continuation. -/
inductive Dir
  | forward | backward
  deriving DecidableEq, Repr

open Classical in
/-- The comparison of the new times `t0 :: ts` with the stored ones, Orbits.py:1474-1496. -/
def direction (new old : List ℝ) : Except Err (Option Dir) :=
  match new.head?, new.getLast?, old.head?, old.getLast? with
  | some t0, some t1, some s0, some s1 =>
    let oldDir := decide (s0 < s1);
    if isclose t0 s1 then
      let newDir := if 1 < new.length then decide (t0 < t1) else oldDir;
      .ok (if oldDir = newDir then some .forward else none)
    else if isclose t0 s0 then
      let newDir := if 1 < new.length then decide (t0 < t1) else !oldDir;
      .ok (if oldDir ≠ newDir then some .backward else none)
    else .ok none
  | _, _, _, _ => .error .indexError

/-- `_should_continue_integration`, Orbits.py:1428-1496. -/
def shouldContinue (o : Orbit S P) (t : Times) : Except Err (Option Dir) :=
  if o.cannotContinue then .ok none
  else match o.t, o.pot with
    | some st, some _ =>
      match t, st with
      | .shared new, .shared old =>
        match o.origPot with
        | none => .error .attributeError
        | some _ => direction new old
      | _, _ => .ok none
    | _, _ => .ok none

/-- The state from which a continuation starts, Orbits.py:1716-1721. -/
def startState (d : Dir) (xs : List S) : Except Err S :=
  match (match d with | .forward => xs.getLast? | .backward => xs.head?) with
  | some x => .ok x
  | none => .error .indexError

/-- The part up to the call of the integration routine, Orbits.py:1710-1729: what is saved for the
merge, and the object as it is during the integration. -/
def begin (o : Orbit S P) (t : Times) (p : P) : Option Dir →
    Except Err (Option (Dir × List ℝ × List (List S) × List S)) × Orbit S P
  | none => (.ok none, { o with t := some t, pot := some p, origPot := some p })
  | some d =>
    match o.t, o.orbit with
    | some (.shared ts), some xs =>
      match xs.mapM (startState d) with
      | .error e => (.error e, o)
      | .ok starts =>
        (.ok (some (d, ts, xs, o.vxvv)), { o with vxvv := starts, t := some t, pot := some p, origPot := some p })
    | _, _ => (.error .attributeError, o)

/-- The times given to the integrator for orbit `i`. -/
def Times.forOrbit (t : Times) (i : Nat) : List ℝ :=
  match t with
  | .shared ts => ts
  | .indiv rows => (rows[i]?).getD []

/-- Integration of all orbits; `integ` is the routine for one orbit. Orbits.py:1733-1818. -/
def runAll (integ : P → S → List ℝ → Except Err (List S)) (p : P) (t : Times) (vs : List S) :
    Except Err (List (List S)) :=
  vs.zipIdx.mapM fun (v, i) => integ p v (t.forOrbit i)

/-- The merge with the stored trajectory, Orbits.py:1819-1837. -/
def merge (o : Orbit S P) (out : List (List S)) (new : List ℝ) :
    Option (Dir × List ℝ × List (List S) × List S) → Orbit S P
  | none => { o with orbit := some out }
  | some (.forward, oldT, oldX, oldV) =>
    { o with vxvv := oldV, t := some (.shared (oldT ++ new.tail)),
             orbit := some (List.zipWith (fun a b => a ++ b.tail) oldX out) }
  | some (.backward, oldT, oldX, oldV) =>
    { o with vxvv := oldV, t := some (.shared (new.tail.reverse ++ oldT)),
             orbit := some (List.zipWith (fun a b => b.tail.reverse ++ a) oldX out) }

/-- The argument `t` of `integrate`: one array, or an array of shape `lead ++ [nt]`. -/
inductive TArg
  | shared (ts : List ℝ)
  | indiv (lead : List Nat) (rows : List (List ℝ))

/-- The rows of the argument. -/
def TArg.rows : TArg → List (List ℝ)
  | .shared ts => [ts]
  | .indiv _ rs => rs

/-- `t_for_int`. -/
def TArg.times : TArg → Times
  | .shared ts => .shared ts
  | .indiv _ rs => .indiv rs

/-- The checks of the times, Orbits.py:1655-1687. -/
def checkTimes (o : Orbit S P) (t : TArg) (ode : Bool) (dt : Option ℝ) : Except Err Unit := do
  match t with
  | .indiv lead _ => if lead ≠ o.shape then throw .valueError
  | .shared _ => pure ()
  let es ← t.rows.mapM (evenlySpaced ode)
  if es.any (!·) then throw .valueError
  let ds ← t.rows.mapM (checkDt · dt)
  if ds.any (!·) then throw .valueError
  pure ()

/-- `_integrate_impl`, Orbits.py:1624-1837. -/
def integrate (integ : P → S → List ℝ → Except Err (List S)) (o : Orbit S P) (t : TArg) (p : P)
    (ode : Bool) (dt : Option ℝ) : Except Err Unit × Orbit S P :=
  match checkTimes o t ode dt with
  | .error e => (.error e, o)
  | .ok _ =>
    match shouldContinue o t.times with
    | .error e => (.error e, o)
    | .ok d =>
      match begin o t.times p d with
      | (.error e, o') => (.error e, o')
      | (.ok saved, o') =>
        match runAll integ p t.times o'.vxvv with
        | .error e => (.error e, o')
        | .ok out => (.ok (), merge o' out (t.times.forOrbit 0) saved)

/-- `integrate_dxdv`, Orbits.py:2276-2494 (the deviation is not represented): no continuation, and
`_orig_pot` is not set. -/
def integrateDxdv (integ : P → S → List ℝ → Except Err (List S)) (o : Orbit S P) (ts : List ℝ) (p : P)
    (ode : Bool) : Except Err Unit × Orbit S P :=
  match evenlySpaced ode ts with
  | .error e => (.error e, o)
  | .ok false => (.error .valueError, o)
  | .ok true =>
    let o' := { o with t := some (.shared ts), pot := some p };
    match runAll integ p (.shared ts) o'.vxvv with
    | .error e => (.error e, o')
    | .ok out => (.ok (), { o' with orbit := some out })

/-- `integrate_SOS`, Orbits.py:2103-2274: the times are an output, one row per orbit. `sos` is the
routine for one orbit. -/
def integrateSOS (sos : P → S → Except Err (List S × List ℝ)) (o : Orbit S P) (p : P) :
    Except Err Unit × Orbit S P :=
  let o' := { o with pot := some p };
  match o.vxvv.mapM (sos p) with
  | .error e => (.error e, o')
  | .ok out => (.ok (), { o' with orbit := some (out.map Prod.fst), t := some (.indiv (out.map Prod.snd)) })

/-- `bruteSOS`, Orbits.py:6310-6422: an integration, then only the selected columns are kept, one row
per orbit, and continuation is disabled. `cols` are the columns with a crossing (the `nan` marks of the
columns in which this particular orbit does not cross are not represented). -/
def bruteSOS (integ : P → S → List ℝ → Except Err (List S)) (cols : List Nat) (o : Orbit S P) (t : TArg)
    (p : P) (ode : Bool) (dt : Option ℝ) : Except Err Unit × Orbit S P :=
  match integrate integ o t p ode dt with
  | (.error e, o') => (.error e, o')
  | (.ok _, o') =>
    match o'.t, o'.orbit with
    | some (.shared ts), some xs =>
      match take ts cols, xs.mapM (take · cols) with
      | .ok ts', .ok xs' =>
        (.ok (), { o' with t := some (.indiv (List.replicate o.shape.prod ts')), orbit := some xs',
                           cannotContinue := true })
      | .error e, _ => (.error e, o')
      | _, .error e => (.error e, o')
    | _, _ => (.error .indexError, o')

/-- `flip(inplace=True)`, Orbits.py:2788-2802; `rev` negates the velocities of one state. -/
def flipInplace (rev : S → S) (o : Orbit S P) : Orbit S P :=
  { o with vxvv := o.vxvv.map rev, orbit := o.orbit.map fun xs => xs.map fun x => x.map rev }

/-- `flip()`, Orbits.py:2803-2865: a new, not integrated, object. -/
def flip (rev : S → S) (o : Orbit S P) : Orbit S P :=
  { new o.shape (o.vxvv.map rev) o.ro o.vo o.roSet o.voSet with name := none }

end Verif.Orb
