import Verif.Spec.Pot
import Verif.Spec.Planar
import Verif.Model.EOM

set_option autoImplicit false

/-!
# Reduction of 3D potentials to the plane and to the vertical direction

`toPlanarPotential`, `RZToplanarPotential` (`galpy/potential/planarPotential.py`),
`toVerticalPotential`, `RZToverticalPotential` (`verticalPotential.py`) and the classes they build.
Arguments are in natural units; the methods are the public ones (amplitude included) for scalar
arguments; a list argument has already become a combination
(`_check_potential_list_and_deprecate`, Potential.py:89-131).
-/

noncomputable section
namespace Verif.Reduce

/-- The exceptions the reductions end with. -/
inductive Err
  | potentialError
  | notImplemented
  deriving DecidableEq

/-- A velocity-dependent planar force: arguments `R φ t (vR, vT)`. -/
structure PDiss where
  Rforce : ℝ → ℝ → ℝ → ℝ × ℝ → ℝ
  phitorque : ℝ → ℝ → ℝ → ℝ × ℝ → ℝ

/-- A member of a 3D combination: a potential with its `isNonAxi` attribute, or a dissipative
force. -/
inductive Member
  | pot (P : Pot) (nonAxi : Bool)
  | diss (F : Force)

/-- What can be passed to the reductions. A combination is given by its (flat) members, a planar or
one-dimensional potential, single or combined, by its methods. -/
inductive Thing
  | single (m : Member)
  | comp (ms : List Member)
  | planar (p : PPot) (nonAxi : Bool)
  | linear (l : LPot)
  | other

/-- What the planar reductions return: a single object or a combination. -/
inductive PMember
  | pot (p : PPot)
  | diss (d : PDiss)
inductive Planar
  | single (m : PMember)
  | comp (ms : List PMember)

/-- `planarPotentialFromFullPotential`, planarPotential.py:703-922 (amplitude 1). -/
def ofFull (P : Pot) : PPot where
  val := fun R φ t => P.val R 0 φ t
  Rforce := fun R φ t => P.Rforce R 0 φ t
  phitorque := fun R φ t => P.phitorque R 0 φ t
  R2deriv := fun R φ t => P.R2deriv R 0 φ t
  phi2deriv := fun R φ t => P.phi2deriv R 0 φ t
  Rphideriv := fun R φ t => P.Rphideriv R 0 φ t

/-- `planarPotentialFromRZPotential`, planarPotential.py:524-651: the azimuth is not passed on, so
the default `phi=0.0` of the wrapped methods is used; the azimuthal methods are those of
`planarAxiPotential`, planarPotential.py:351-409, zero. -/
def ofRZ (P : Pot) : PPot where
  val := fun R _ t => P.val R 0 0 t
  Rforce := fun R _ t => P.Rforce R 0 0 t
  phitorque := fun _ _ _ => 0
  R2deriv := fun R _ t => P.R2deriv R 0 0 t
  phi2deriv := fun _ _ _ => 0
  Rphideriv := fun _ _ _ => 0

/-- `planarDissipativeForceFromFullDissipativeForce`, planarDissipativeForce.py:94-184. -/
def ofDiss (F : Force) : PDiss where
  Rforce := fun R φ t v => F.R R 0 φ t ![v.1, v.2, 0]
  phitorque := fun R φ t v => F.phi R 0 φ t ![v.1, v.2, 0]

/-- One member in `toPlanarPotential`, planarPotential.py:952-957, 967-974. -/
def planarMember : Member → PMember
  | .pot P true => .pot (ofFull P)
  | .pot P false => .pot (ofRZ P)
  | .diss F => .diss (ofDiss F)

/-- `toPlanarPotential`, planarPotential.py:925-978. -/
def toPlanar : Thing → Except Err Planar
  | .comp ms => .ok (.comp (ms.map planarMember))
  | .single m => .ok (.single (planarMember m))
  | .planar p _ => .ok (.single (.pot p))
  | .linear _ => .error .potentialError
  | .other => .error .potentialError

/-- The `isDissipative` attribute of a member. -/
def Member.isDiss : Member → Bool
  | .diss _ => true
  | .pot _ _ => false

/-- `_isDissipative`, DissipativeForce.py:148-186, on these arguments; anything that is not a force
raises. -/
def isDissipative : Thing → Except Err Bool
  | .comp ms => .ok (ms.any Member.isDiss)
  | .single (.diss _) => .ok true
  | .single (.pot _ _) => .ok false
  | .planar _ _ => .ok false
  | .linear _ => .ok false
  | .other => .error .potentialError

/-- The loop of `RZToplanarPotential`, planarPotential.py:682-689. -/
def rzMembers : List Member → Except Err (List PMember)
  | [] => .ok []
  | .pot P false :: ms => (rzMembers ms).map (.pot (ofRZ P) :: ·)
  | .pot _ true :: _ => .error .potentialError
  | .diss _ :: _ => .error .potentialError

/-- `RZToplanarPotential`, planarPotential.py:654-700. -/
def rzToPlanar (x : Thing) : Except Err Planar :=
  match isDissipative x with
  | .error e => .error e
  | .ok true => .error .notImplemented
  | .ok false => match x with
    | .comp ms => (rzMembers ms).map .comp
    | .single (.pot P false) => .ok (.single (.pot (ofRZ P)))
    | .planar p false => .ok (.single (.pot p))
    | _ => .error .potentialError

/-- Sum of planar methods. -/
def sumP (ps : List PPot) : PPot where
  val := fun R φ t => (ps.map fun p => p.val R φ t).sum
  Rforce := fun R φ t => (ps.map fun p => p.Rforce R φ t).sum
  phitorque := fun R φ t => (ps.map fun p => p.phitorque R φ t).sum
  R2deriv := fun R φ t => (ps.map fun p => p.R2deriv R φ t).sum
  phi2deriv := fun R φ t => (ps.map fun p => p.phi2deriv R φ t).sum
  Rphideriv := fun R φ t => (ps.map fun p => p.Rphideriv R φ t).sum

/-- The members that are potentials. -/
def PMember.pot? : PMember → Option PPot
  | .pot p => some p
  | .diss _ => none

/-- Value and second derivatives of a reduced object: of a combination, the sum over the members
that are not dissipative, planarCompositePotential.py:139-162, 224-297. -/
def Planar.conservative : Planar → PPot
  | .single (.pot p) => p
  | .single (.diss _) => sumP []
  | .comp ms => sumP (ms.filterMap PMember.pot?)

/-- Forces of one member; the velocity goes to dissipative ones only,
planarCompositePotential.py:185-192, 215-222. -/
def PMember.force (m : PMember) (R φ t : ℝ) (v : ℝ × ℝ) : ℝ × ℝ :=
  match m with
  | .pot p => (p.Rforce R φ t, p.phitorque R φ t)
  | .diss d => (d.Rforce R φ t v, d.phitorque R φ t v)
/-- Radial force and torque of a reduced object, planarCompositePotential.py:164-222. -/
def Planar.force (x : Planar) (R φ t : ℝ) (v : ℝ × ℝ) : ℝ × ℝ :=
  match x with
  | .single m => m.force R φ t v
  | .comp ms => ((ms.map fun m => (m.force R φ t v).1).sum, (ms.map fun m => (m.force R φ t v).2).sum)

/-- The methods of a `verticalPotential` with azimuth `φ`, verticalPotential.py:51-53, 89-153. -/
def verticalOf (P : Pot) (R φ t₀ : ℝ) : LPot where
  val := fun z t => P.val R z φ t - P.val R 0 φ t₀
  force := fun z t => P.zforce R z φ t
  force2deriv := fun z t => P.z2deriv R z φ t

/-- `verticalPotential.__init__`, verticalPotential.py:15-62. -/
def vertical (P : Pot) (nonAxi : Bool) (R : ℝ) (phi : Option ℝ) (t₀ : ℝ) : Except Err LPot :=
  match phi with
  | none => if nonAxi then .error .potentialError else .ok (verticalOf P R 0 t₀)
  | some φ => .ok (verticalOf P R φ t₀)

/-- `linearCompositePotential`, linearCompositePotential.py:123-178. -/
def sumL (ls : List LPot) : LPot where
  val := fun z t => (ls.map fun l => l.val z t).sum
  force := fun z t => (ls.map fun l => l.force z t).sum
  force2deriv := fun z t => (ls.map fun l => l.force2deriv z t).sum

/-- The loops of the vertical reductions, verticalPotential.py:196-203, 267-276. -/
def verticalMembers (R : ℝ) (phi : Option ℝ) (t₀ : ℝ) : List Member → Except Err (List LPot)
  | [] => .ok []
  | .pot P na :: ms =>
    match vertical P na R phi t₀ with
    | .error e => .error e
    | .ok l => (verticalMembers R phi t₀ ms).map (l :: ·)
  | .diss _ :: _ => .error .potentialError

/-- `toVerticalPotential`, verticalPotential.py:221-291 (a thing that has no physical scales is
`other`, lines 253-258). -/
def toVertical (x : Thing) (R : ℝ) (phi : Option ℝ) (t₀ : ℝ) : Except Err LPot :=
  match isDissipative x with
  | .error e => .error e
  | .ok true => .error .notImplemented
  | .ok false => match x with
    | .comp ms => (verticalMembers R phi t₀ ms).map sumL
    | .single (.pot P na) => vertical P na R phi t₀
    | .linear l => .ok l
    | _ => .error .potentialError

/-- `RZToverticalPotential`, verticalPotential.py:156-218: no azimuth and no time are passed on. -/
def rzToVertical (x : Thing) (R : ℝ) : Except Err LPot := toVertical x R none 0

end Verif.Reduce
