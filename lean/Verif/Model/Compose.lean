import Verif.Spec.Pot

set_option autoImplicit false

/-!
# Potential objects, combinations and their operators

Object-level model of `galpy/potential/Force.py`, `planarForce.py`, `linearPotential.py`,
`DissipativeForce.py`, `baseCompositePotential.py`, `CompositePotential.py`,
`planarCompositePotential.py`, `linearCompositePotential.py` and of the functions `flatten`,
`_isNonAxi`, `_isDissipative`, `_check_c`, `evaluate...` of `Potential.py`.

Python objects live in a heap (list of objects, references are positions) because operators share
members between combinations and item assignment mutates them. Exceptions are values and keep the
heap at the point where they were raised.

Simplifications: numbers are reals; `float`/`int` checks become the `Val.num`/other distinction;
warnings are dropped; the `getattr(.., False)` recursion of `_check_c` into wrapper potentials is
collapsed into the leaf's own flag; methods of a leaf are given (their formulas are the subject of
other modules).
-/

noncomputable section
namespace Verif.Compose

/-- Position of an object in the heap. -/
abbrev Ref := Nat

/-- Python exceptions that the modelled code raises. -/
inductive Err
  | typeError | valueError | assertionError | attributeError | indexError
  | potentialError | zeroDivision | recursionError | notAnObject
  deriving DecidableEq, Repr

/-- `_ro, _vo, _roSet, _voSet`, Force.py:48-60. -/
structure Units where
  ro : ℝ
  vo : ℝ
  roSet : Bool
  voSet : Bool

/-- Methods a potential or force object provides. For a planar object `z` is ignored; for a
one-dimensional object the coordinate is `z`, `force` is `zforce` and `force2deriv` is `z2deriv`. -/
inductive Fn
  | val | Rforce | zforce | phitorque | R2deriv | z2deriv | Rzderiv | phi2deriv | Rphideriv
  | phizderiv | dens | mass
  deriving DecidableEq, Repr

/-- The force methods take the velocity of dissipative members,
CompositePotential.py:162-256. -/
def Fn.isForce : Fn → Bool
  | .Rforce | .zforce | .phitorque => true
  | _ => false

/-- Velocity argument. -/
abbrev Vel := ℝ × ℝ × ℝ

/-- A single potential or force object. -/
structure Leaf where
  /-- `dim` -/
  dim : Nat
  /-- `isNonAxi`; `linearPotential.__init__` does not set it (linearPotential.py:26-49). -/
  nonAxi : Option Bool
  /-- `isDissipative` -/
  dissipative : Bool
  /-- `_check_c(self)` -/
  hasC : Bool
  /-- `_check_c(self, dxdv=True)` -/
  hasC_dxdv : Bool
  /-- `_check_c(self, dxdv3d=True)` -/
  hasC_dxdv3d : Bool
  /-- `_check_c(self, dens=True)` -/
  hasC_dens : Bool
  /-- `hasC_planar`, Potential.py:185 -/
  hasC_planar : Bool
  /-- `_amp` -/
  amp : ℝ
  units : Units
  /-- The private methods `_evaluate, _Rforce, ...` at `R z φ t` and velocity `v`. -/
  meth : Fn → ℝ → ℝ → ℝ → ℝ → Vel → ℝ

/-- A combination (`CompositePotential`, `planarCompositePotential`, `linearCompositePotential`,
distinguished by `dim`). Its own amplitude is always 1 (CompositePotential.py:69-73). -/
structure Comp where
  dim : Nat
  /-- `_potlist` -/
  members : List Ref
  nonAxi : Option Bool
  dissipative : Bool
  hasC : Bool
  hasC_dxdv : Bool
  /-- Not set by the constructors of the planar and linear classes. -/
  hasC_dxdv3d : Option Bool
  hasC_dens : Bool
  units : Units

inductive Obj
  | leaf (l : Leaf)
  | comp (c : Comp)

abbrev Heap := List Obj

/-- Arguments that may be passed: an object, a (nested) list, or something else. -/
inductive Val
  | ref (r : Ref)
  | list (vs : List Val)
  | junk

/-- Attribute reads on an object. -/
def Obj.dim : Obj → Nat
  | .leaf l => l.dim
  | .comp c => c.dim
def Obj.nonAxi : Obj → Option Bool
  | .leaf l => l.nonAxi
  | .comp c => c.nonAxi
def Obj.dissipative : Obj → Bool
  | .leaf l => l.dissipative
  | .comp c => c.dissipative
def Obj.hasC : Obj → Bool
  | .leaf l => l.hasC
  | .comp c => c.hasC
def Obj.hasC_dxdv : Obj → Bool
  | .leaf l => l.hasC_dxdv
  | .comp c => c.hasC_dxdv
/-- `getattr(Pot, "hasC_dxdv3d", False)` -/
def Obj.hasC_dxdv3d : Obj → Bool
  | .leaf l => l.hasC_dxdv3d
  | .comp c => c.hasC_dxdv3d.getD false
def Obj.hasC_dens : Obj → Bool
  | .leaf l => l.hasC_dens
  | .comp c => c.hasC_dens
def Obj.units : Obj → Units
  | .leaf l => l.units
  | .comp c => c.units

/-- The iteration protocol of one object inside `_flatten_list`: a combination is replaced by its
recursively flattened members, anything else is itself. Potential.py:4040-4053. `n` is the
remaining interpreter recursion depth for nested combinations. -/
def flattenRef (h : Heap) : Nat → Ref → Except Err (List Ref)
  | 0, _ => .error .recursionError
  | n + 1, r =>
    match h[r]? with
    | none => .error .notAnObject
    | some (.leaf _) => .ok [r]
    | some (.comp c) => (c.members.mapM (flattenRef h n)).map List.flatten

mutual
/-- `_flatten_list([v])`, Potential.py:4033-4059. A non-object, non-list item is yielded unchanged
(`none`). -/
def flattenVal (h : Heap) (n : Nat) : Val → Except Err (List (Option Ref))
  | .ref r => (flattenRef h n r).map (·.map some)
  | .list vs => flattenVals h n vs
  | .junk => .ok [none]
/-- `_flatten_list(L)`. -/
def flattenVals (h : Heap) (n : Nat) : List Val → Except Err (List (Option Ref))
  | [] => .ok []
  | v :: vs => do
    let a ← flattenVal h n v
    let b ← flattenVals h n vs
    .ok (a ++ b)
end

/-- `physical_compatible` for two set-ups, conversion.py:518-525. The division by an unset-free
`ro` of zero (a `ZeroDivisionError`) is not modelled: `ro`, `vo` are nonzero in use. -/
def compatible (u w : Units) : Prop :=
  (u.roSet = true → w.roSet = true → |(u.ro - w.ro) / u.ro| < 1e-8) ∧
    (u.voSet = true → w.voSet = true → |(u.vo - w.vo) / u.vo| < 1e-8)

open Classical in
/-- The compatibility assertion of the constructors, CompositePotential.py:48-54: every later
member against the first. -/
def allCompatible (h : Heap) : List Ref → Prop
  | [] => True
  | r :: rs => ∀ s ∈ rs, ∀ o p, h[r]? = some o → h[s]? = some p → compatible o.units p.units

/-- The `isNonAxi` attribute of one member; `PotentialError` when it has none
(Potential.py:4212-4216). -/
def nonAxiOf (h : Heap) (r : Ref) : Except Err Bool :=
  match h[r]? with
  | some o => (match o.nonAxi with
    | some b => .ok b
    | none => .error .potentialError)
  | none => .error .notAnObject

/-- `_isNonAxi(list)`, Potential.py:4207-4218: or of the attribute of the members (not recursive). -/
def isNonAxi (h : Heap) (rs : List Ref) : Except Err Bool := do
  let bs ← rs.mapM (nonAxiOf h)
  .ok (bs.any id)

/-- `[getattr(p, f) for p in refs]`. -/
def attrs (h : Heap) (f : Obj → Bool) (rs : List Ref) : Except Err (List Bool) :=
  rs.mapM fun r =>
    match h[r]? with
    | some o => .ok (f o)
    | none => .error .notAnObject

/-- `_isDissipative(list)`, DissipativeForce.py:169-182 (flattens first). -/
def isDissipative (h : Heap) (n : Nat) (rs : List Ref) : Except Err Bool := do
  let fl ← rs.mapM (flattenRef h n)
  let bs ← attrs h Obj.dissipative fl.flatten
  .ok (bs.any id)

/-- `_check_c(list, ...)`, Potential.py:4118-4141 (flattens first, `numpy.all`). -/
def checkC (h : Heap) (n : Nat) (f : Obj → Bool) (rs : List Ref) : Except Err Bool := do
  let fl ← rs.mapM (flattenRef h n)
  let bs ← attrs h f fl.flatten
  .ok (bs.all id)

/-- Default `ro`, `vo` from the configuration, Force.py:49-60. -/
def defaultUnits : Units := ⟨8, 220, false, false⟩

/-- Units of a combination: those of the first member, CompositePotential.py:56-67, 75-78
(`ro=`/`vo=` keywords not given, as in all operators). -/
def firstUnits (h : Heap) : List Ref → Units
  | [] => defaultUnits
  | r :: _ => match h[r]? with
    | some o => o.units
    | none => defaultUnits

/-- `isDissipative` set by the constructor: CompositePotential.py:70-73 (the base-class initialiser
called), linearCompositePotential.py:75 (`linearPotential.__init__`: `False`). -/
def initDissipative (h : Heap) (n dim : Nat) (rs : List Ref) : Except Err Bool :=
  if dim = 1 then .ok false else isDissipative h n rs
/-- `isNonAxi` set by the constructor: CompositePotential.py:81, planarCompositePotential.py:91; the
linear class does not set it. -/
def initNonAxi (h : Heap) (dim : Nat) (rs : List Ref) : Except Err (Option Bool) :=
  if dim = 1 then .ok none else (isNonAxi h rs).map some
/-- `hasC_dxdv3d` is set only by the 3D class, CompositePotential.py:87. -/
def initC3d (h : Heap) (n dim : Nat) (rs : List Ref) : Except Err (Option Bool) :=
  if dim = 3 then (checkC h n Obj.hasC_dxdv3d rs).map some else .ok none

/-- All flags of a combination with the given members. -/
def mkFlags (h : Heap) (n dim : Nat) (rs : List Ref) : Except Err Comp := do
  let diss ← initDissipative h n dim rs
  let na ← initNonAxi h dim rs
  let c ← checkC h n Obj.hasC rs
  let c2 ← checkC h n Obj.hasC_dxdv rs
  let c3 ← initC3d h n dim rs
  let cd ← checkC h n Obj.hasC_dens rs
  .ok { dim := dim, members := rs, nonAxi := na, dissipative := diss, hasC := c, hasC_dxdv := c2,
        hasC_dxdv3d := c3, hasC_dens := cd, units := firstUnits h rs }

open Classical in
/-- `CompositePotential.__init__` (CompositePotential.py:15-89), `planarCompositePotential.__init__`
(planarCompositePotential.py:21-98), `linearCompositePotential.__init__`
(linearCompositePotential.py:16-88). Returns the new object's reference. -/
def mkComp (n dim : Nat) (args : List Val) (h : Heap) : Except Err Ref × Heap :=
  match flattenVals h n args with
  | .error e => (.error e, h)
  | .ok vs =>
    match vs.mapM id with
    | none => (.error .attributeError, h)
    | some rs =>
      if ∃ r ∈ rs, ∀ o, h[r]? = some o → o.dim ≠ dim then (.error .valueError, h)
      else if ¬ allCompatible h rs then (.error .assertionError, h)
      else match mkFlags h n dim rs with
        | .error e => (.error e, h)
        | .ok c => (.ok h.length, h ++ [.comp c])

/-- `Force.toPlanar` on a single object: `planarPotentialFromRZPotential`,
`planarPotentialFromFullPotential`, `planarDissipativeForceFromFullDissipativeForce`
(planarPotential.py:524-557, 703-736, planarDissipativeForce.py:94-126). The new object has
amplitude 1 and evaluates the wrapped one, amplitude included, at `z = 0` and `v_z = 0`. -/
def Leaf.toPlanar (l : Leaf) : Leaf where
  dim := 2
  nonAxi := if l.dissipative then some true else l.nonAxi
  dissipative := l.dissipative
  hasC := l.hasC && l.hasC_planar
  hasC_dxdv := l.hasC_dxdv && l.hasC_planar
  hasC_dxdv3d := false
  hasC_dens := l.hasC_dens
  hasC_planar := true
  amp := 1
  units := l.units
  meth := fun f R _ φ t v => l.amp * l.meth f R 0 φ t (v.1, v.2.1, 0)

/-- `[g(x) for x in refs]` with heap effects and exceptions, left to right. -/
def mapRefs (g : Ref → Heap → Except Err Ref × Heap) : List Ref → Heap → Except Err (List Ref) × Heap
  | [], h => (.ok [], h)
  | r :: rs, h =>
    match g r h with
    | (.error e, h') => (.error e, h')
    | (.ok r', h') =>
      match mapRefs g rs h' with
      | (.error e, h'') => (.error e, h'')
      | (.ok rs', h'') => (.ok (r' :: rs'), h'')

/-- `pot.toPlanar()` of a single object. A member that is itself a combination (reachable only by
assigning a combination to an item) is not modelled here. -/
def planarLeaf (r : Ref) (h : Heap) : Except Err Ref × Heap :=
  match h[r]? with
  | some (.leaf l) => (.ok h.length, h ++ [.leaf l.toPlanar])
  | _ => (.error .notAnObject, h)

/-- `toPlanar()` of any 3D object, planarPotential.py:948-974. -/
def toPlanar (n : Nat) (r : Ref) (h : Heap) : Except Err Ref × Heap :=
  match h[r]? with
  | some (.leaf l) => (.ok h.length, h ++ [.leaf l.toPlanar])
  | some (.comp c) =>
    match mapRefs planarLeaf c.members h with
    | (.error e, h') => (.error e, h')
    | (.ok rs, h') => mkComp n 2 (rs.map Val.ref) h'
  | none => (.error .notAnObject, h)

/-- Units used by `physical_compatible` for an operand, conversion.py:443-466: of the object itself,
or of the first object of a flattened list. -/
def valUnits (h : Heap) (n : Nat) : Val → Option Units
  | .ref r => (h[r]?).map Obj.units
  | v => match flattenVal h n v with
    | .ok (some r :: _) => (h[r]?).map Obj.units
    | _ => none

/-- Dimension of an operand object (`none` for lists and other things). -/
def valDim (h : Heap) : Val → Option Nat
  | .ref r => (h[r]?).map Obj.dim
  | _ => none

/-- Dimension of the first flattened entry of an operand. -/
def headDim (h : Heap) (n : Nat) (v : Val) : Except Err (Option Nat) :=
  match flattenVal h n v with
  | .error e => .error e
  | .ok [] => .error .indexError
  | .ok (none :: _) => .ok none
  | .ok (some r :: _) => .ok ((h[r]?).map Obj.dim)

open Classical in
/-- `a + b` for an object `a`: `Force.__add__` (Force.py:182-222), `planarForce.__add__`
(planarForce.py:149-183), `linearPotential.__add__` (linearPotential.py:134-169),
`CompositePotential.__add__` (CompositePotential.py:91-133), `planarCompositePotential.__add__`
(planarCompositePotential.py:100-137), `linearCompositePotential.__add__`
(linearCompositePotential.py:90-121). -/
def add (n : Nat) (a : Ref) (b : Val) (h : Heap) : Except Err Ref × Heap :=
  match h[a]? with
  | none => (.error .notAnObject, h)
  | some (.leaf l) =>
    match headDim h n b with
    | .error e => (.error e, h)
    | .ok hd =>
      if l.dim = 1 then
        if hd ≠ some 1 then (.error .typeError, h)
        else if ¬ ∀ u, valUnits h n b = some u → compatible l.units u then (.error .assertionError, h)
        else mkComp n 1 [.ref a, b] h
      else if ¬ (hd = some 3 ∨ hd = some 2) then (.error .typeError, h)
      else if l.dim = 2 then
        match b with
        | .ref r =>
          if valDim h b = some 3 then
            match toPlanar n r h with
            | (.error e, h') => (.error e, h')
            | (.ok r', h') => mkComp n 2 [.ref a, .ref r'] h'
          else mkComp n 2 [.ref a, b] h
        | _ => mkComp n 2 [.ref a, b] h
      else
        if ¬ ∀ u, valUnits h n b = some u → compatible l.units u then (.error .assertionError, h)
        else if valDim h b = some 2 then
          match toPlanar n a h with
          | (.error e, h') => (.error e, h')
          | (.ok r', h') => mkComp n 2 [.ref r', b] h'
        else mkComp n 3 [.ref a, b] h
  | some (.comp c) =>
    match b with
    | .ref r =>
      match h[r]? with
      | none => (.error .notAnObject, h)
      | some o =>
        if (c.dim = 1 ∧ o.dim ≠ 1) ∨ (c.dim ≠ 1 ∧ o.dim = 1) then (.error .typeError, h)
        else if ¬ compatible c.units o.units then (.error .assertionError, h)
        else if c.dim = 3 ∧ o.dim = 2 then
          match mapRefs planarLeaf c.members h with
          | (.error e, h') => (.error e, h')
          | (.ok rs, h') => mkComp n 2 (rs.map Val.ref ++ [.ref r]) h'
        else if c.dim = 2 ∧ o.dim = 3 then
          match toPlanar n r h with
          | (.error e, h') => (.error e, h')
          | (.ok r', h') => mkComp n 2 (c.members.map Val.ref ++ [.ref r']) h'
        else match o with
          | .comp d => mkComp n c.dim (c.members.map Val.ref ++ d.members.map Val.ref) h
          | .leaf _ => mkComp n c.dim (c.members.map Val.ref ++ [.ref r]) h
    | _ => (.error .typeError, h)

/-- `copy.deepcopy(self)` then `out._amp *= b`, Force.py:138-140, planarForce.py:105-107,
linearPotential.py:90-92. -/
def Leaf.mul (l : Leaf) (b : ℝ) : Leaf := { l with amp := l.amp * b }

/-- `force * b` for a number `b`, Force.py:138-140, baseCompositePotential.py:129. -/
def mulRef (N : Nat) (b : ℝ) : Nat → Ref → Heap → Except Err Ref × Heap
  | 0, _, h => (.error .recursionError, h)
  | n + 1, a, h =>
    match h[a]? with
    | none => (.error .notAnObject, h)
    | some (.leaf l) => (.ok h.length, h ++ [.leaf (l.mul b)])
    | some (.comp c) =>
      match mapRefs (mulRef N b n) c.members h with
      | (.error e, h') => (.error e, h')
      | (.ok rs, h') => mkComp N c.dim (rs.map Val.ref) h'

/-- `a * b` and `b * a` (`none`: `b` is not a number). Force.py:115-143,
baseCompositePotential.py:107-131. -/
def mul (n : Nat) (a : Ref) (b : Option ℝ) (h : Heap) : Except Err Ref × Heap :=
  match b with
  | none => (.error .typeError, h)
  | some b => mulRef n b n a h

open Classical in
/-- `a / b` is `a * (1/b)`, Force.py:145-148, baseCompositePotential.py:133-150. -/
def div (n : Nat) (a : Ref) (b : ℝ) (h : Heap) : Except Err Ref × Heap :=
  if b = 0 then (.error .zeroDivision, h) else mul n a (some (1 / b)) h

/-- Item keys: an integer (possibly negative) or a slice with step 1 whose bounds have been clipped
to the length. -/
inductive Key
  | int (k : Int)
  | slice (i j : Nat)

/-- Python's list index: negative indices count from the end. -/
def pyIndex (len : Nat) (k : Int) : Option Nat :=
  if 0 ≤ k then (if k.toNat < len then some k.toNat else none)
  else (if (-k).toNat ≤ len then some (len - (-k).toNat) else none)

/-- `__getitem__`, baseCompositePotential.py:16-39. -/
def getItem (n : Nat) (a : Ref) (k : Key) (h : Heap) : Except Err Ref × Heap :=
  match h[a]? with
  | some (.comp c) =>
    match k with
    | .int k => match pyIndex c.members.length k with
      | some i => match c.members[i]? with
        | some r => (.ok r, h)
        | none => (.error .indexError, h)
      | none => (.error .indexError, h)
    | .slice i j => mkComp n c.dim ((c.members.take j).drop i |>.map Val.ref) h
  | _ => (.error .typeError, h)

/-- `iter(value)`: an object yields itself, a combination its members
(Force.py:166-180, baseCompositePotential.py:81-83). -/
def iterObj (r : Ref) : Obj → List Ref
  | .leaf _ => [r]
  | .comp c => c.members

/-- The assignment `self._potlist[key] = value`; `none` is an index error. -/
def assign (c : Comp) (r : Ref) (o : Obj) : Key → Option (List Ref)
  | .int k => (pyIndex c.members.length k).map fun i => c.members.set i r
  | .slice i j => some (c.members.take i ++ iterObj r o ++ c.members.drop (max i j))

/-- The recomputation of the flags after an assignment, baseCompositePotential.py:73-79, statement
by statement: an exception leaves the later flags unchanged. -/
def recompute (h : Heap) (n : Nat) (c : Comp) : Except Err Unit × Comp :=
  match isNonAxi h c.members with
  | .error e => (.error e, c)
  | .ok na =>
    let c := { c with nonAxi := some na };
    match isDissipative h n c.members with
    | .error e => (.error e, c)
    | .ok d =>
      let c := { c with dissipative := d };
      match checkC h n Obj.hasC c.members with
      | .error e => (.error e, c)
      | .ok b =>
        let c := { c with hasC := b };
        match checkC h n Obj.hasC_dxdv c.members with
        | .error e => (.error e, c)
        | .ok b =>
          let c := { c with hasC_dxdv := b };
          match checkC h n Obj.hasC_dxdv3d c.members with
          | .error e => (.error e, c)
          | .ok b =>
            let c := { c with hasC_dxdv3d := some b };
            match checkC h n Obj.hasC_dens c.members with
            | .error e => (.error e, c)
            | .ok b => (.ok (), { c with hasC_dens := b })

open Classical in
/-- `self[key] = value`, baseCompositePotential.py:41-79. -/
def setItem (n : Nat) (a : Ref) (k : Key) (v : Val) (h : Heap) : Except Err Unit × Heap :=
  match h[a]? with
  | some (.comp c) =>
    match v with
    | .ref r =>
      match h[r]? with
      | none => (.error .notAnObject, h)
      | some o =>
        if o.dim ≠ c.dim then (.error .typeError, h)
        else if (∃ i : Int, k = .int i ∧ i ≠ 0) ∧
            ¬ (∀ s u, c.members.head? = some s → (h[s]?).map Obj.units = some u → compatible u o.units)
          then (.error .assertionError, h)
        else match assign c r o k with
          | none => (.error .indexError, h)
          | some rs =>
            -- the list is mutated first, then the flags are read back from the heap
            let c' := { c with members := rs };
            let h' := h.set a (.comp c');
            let q := recompute h' n c';
            (q.1, h'.set a (.comp q.2))
    | _ => (.error .typeError, h)
  | _ => (.error .typeError, h)

/-- The `ro=`/`vo=` arguments of `turn_physical_on`: `False`, `None` or a number. -/
inductive UArg
  | no
  | keep
  | value (x : ℝ)

/-- `turn_physical_on` on one object, Force.py:254-285. -/
def Units.on (u : Units) (ro vo : UArg) : Units where
  ro := match ro with
    | .value x => x
    | _ => u.ro
  roSet := match ro with
    | .no => u.roSet
    | _ => true
  vo := match vo with
    | .value x => x
    | _ => u.vo
  voSet := match vo with
    | .no => u.voSet
    | _ => true

/-- `turn_physical_off` on one object, Force.py:237-252. -/
def Units.off (u : Units) : Units := { u with roSet := false, voSet := false }

/-- Apply a change of units to one object. -/
def Obj.mapUnits (f : Units → Units) : Obj → Obj
  | .leaf l => .leaf { l with units := f l.units }
  | .comp c => .comp { c with units := f c.units }

/-- Apply a change of units to the object at `r`. -/
def setUnits (f : Units → Units) (h : Heap) (r : Ref) : Heap := h.modify r (Obj.mapUnits f)

/-- `turn_physical_on/off`, Force.py:237-285, baseCompositePotential.py:152-197: the combination
itself, then every member (members that are combinations would recurse; `n` as in `flattenRef`). -/
def physical (f : Units → Units) : Nat → Ref → Heap → Heap
  | 0, _, h => h
  | n + 1, a, h =>
    match h[a]? with
    | some (.comp c) => c.members.foldl (fun h r => physical f n r h) (setUnits f h a)
    | _ => setUnits f h a

/-! ### Evaluation -/

/-- Private method times amplitude for one object (`_call_nodecorator`, `_Rforce_nodecorator`, ...).
`φ = none` is `phi=None`: axisymmetric classes ignore the azimuth, in the others arithmetic with
`None` is a `TypeError`; the same for the velocity of dissipative forces. Dissipative forces have
no potential, density or second derivatives. -/
def Leaf.call (l : Leaf) (f : Fn) (R z : ℝ) (φ : Option ℝ) (t : ℝ) (v : Option Vel) : Except Err ℝ :=
  if l.dissipative && !f.isForce then .error .attributeError
  else match φ, l.nonAxi.getD false with
    | none, true => .error .typeError
    | _, _ =>
      match v, l.dissipative with
      | none, true => .error .typeError
      | _, _ => .ok (l.amp * l.meth f R z (φ.getD 0) t (v.getD (0, 0, 0)))

/-- A method of an object in the heap. For a combination: the sum over the members; force methods
pass `v` only to dissipative members; all other methods skip dissipative members.
CompositePotential.py:135-470, planarCompositePotential.py:139-297,
linearCompositePotential.py:123-178. -/
def call (h : Heap) (f : Fn) (R z : ℝ) (φ : Option ℝ) (t : ℝ) (v : Option Vel) :
    Nat → Ref → Except Err ℝ
  | 0, _ => .error .recursionError
  | n + 1, r =>
    match h[r]? with
    | none => .error .notAnObject
    | some (.leaf l) => l.call f R z φ t v
    | some (.comp c) => do
      let ms := c.members.filter fun s =>
        f.isForce || !(match h[s]? with
          | some o => o.dissipative
          | none => false);
      let xs ← ms.mapM (call h f R z φ t v n)
      .ok xs.sum

/-- The module-level functions `evaluatePotentials`, `evaluateRforces`, ...
(Potential.py:1925-2578; planarPotential.py:985-1200): checks, then the object's method. -/
def evaluate (h : Heap) (f : Fn) (r : Ref) (R z : ℝ) (φ : Option ℝ) (t : ℝ) (v : Option Vel) (n : Nat) :
    Except Err ℝ :=
  match h[r]? with
  | none => .error .notAnObject
  | some o =>
    match o.nonAxi with
    | none => .error .potentialError
    | some na =>
      if na && φ.isNone then .error .potentialError
      else if f.isForce && o.dissipative && v.isNone then .error .potentialError
      else call h f R z φ t v n r

/-! ### Histories -/

/-- The operations of a session. -/
inductive Op
  | new (l : Leaf)
  | combine (dim : Nat) (args : List Val)
  | add (a : Ref) (b : Val)
  | mul (a : Ref) (b : Option ℝ)
  | div (a : Ref) (b : ℝ)
  | get (a : Ref) (k : Key)
  | set (a : Ref) (k : Key) (v : Val)
  | physicalOn (a : Ref) (ro vo : UArg)
  | physicalOff (a : Ref)

/-- What `new` may create: the classes of the three families
(Force/Potential, planarForce, linearPotential). -/
def Leaf.valid (l : Leaf) : Prop :=
  (l.dim = 1 ∧ l.nonAxi = none ∧ l.dissipative = false) ∨
    ((l.dim = 2 ∨ l.dim = 3) ∧ l.nonAxi.isSome)

/-- Effect of one operation on the heap; exceptions keep whatever was already changed. -/
def exec (n : Nat) (h : Heap) : Op → Heap
  | .new l => h ++ [.leaf l]
  | .combine d args => (mkComp n d args h).2
  | .add a b => (Compose.add n a b h).2
  | .mul a b => (Compose.mul n a b h).2
  | .div a b => (Compose.div n a b h).2
  | .get a k => (getItem n a k h).2
  | .set a k v => (setItem n a k v h).2
  | .physicalOn a ro vo => physical (·.on ro vo) n a h
  | .physicalOff a => physical (·.off) n a h

end Verif.Compose
