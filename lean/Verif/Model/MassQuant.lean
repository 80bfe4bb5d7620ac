import Verif.Model.PotQuant
import Mathlib.MeasureTheory.Integral.IntervalIntegral.Basic

set_option autoImplicit false

/-!
# Mass, surface density and dynamical time of any potential

`galpy/potential/Potential.py`: `surfdens`, `mass`, `tdyn` (methods and module-level functions) and
`CompositePotential._mass`. `scipy.integrate.quad` is modelled as the exact integral. The optional
private methods `_dens`, `_surfdens`, `_mass` are `Option`s; inside them a raised `AttributeError`
is the value `none`, which is what the `except AttributeError` clauses see.
-/

noncomputable section
namespace Verif.MassQuant
open Real

/-- A three-dimensional potential object, as far as `mass` and `surfdens` look at it. `pot` holds
the public evaluation methods (amplitude included). -/
structure Obj where
  pot : Pot
  isNonAxi : Bool
  /-- `isinstance(self, EllipsoidalPotential)` -/
  isEllipsoidal : Bool
  amp : ℝ
  /-- `_dens(R, z, phi, t)`, absent for potentials that rely on the Poisson equation -/
  dens : Option (ℝ → ℝ → ℝ → ℝ → ℝ)
  /-- an own `_surfdens(R, z, phi, t)`; without it the class inherits Potential.py:678-716 -/
  surfdens : Option (ℝ → ℝ → ℝ → ℝ → ℝ)
  /-- `_mass(R, z, t)`, absent or raising `AttributeError` for some arguments -/
  mass : Option (ℝ → Option ℝ → ℝ → Option ℝ)

/-- Exceptions. -/
inductive Err
  | notImplemented
deriving DecidableEq

/-- The Poisson branch of `dens`, Potential.py:611-620. -/
def poissonDens (P : Pot) (R z φ t : ℝ) : ℝ :=
  (-P.Rforce R z φ t / R + P.R2deriv R z φ t + P.phi2deriv R z φ t / R ^ 2 + P.z2deriv R z φ t) / 4 / π

/-- `dens`, Potential.py:577-620. -/
def densOf (o : Obj) (R z φ t : ℝ) (forcepoisson : Bool) : ℝ :=
  match forcepoisson, o.dens with
  | false, some d => o.amp * d R z φ t
  | _, _ => poissonDens o.pot R z φ t

/-- The Poisson branch of `surfdens`, Potential.py:658-676. -/
def poissonSurfdens (P : Pot) (R z φ t : ℝ) : ℝ :=
  (-P.zforce R |z| φ t + P.zforce R (-|z|) φ t
    + ∫ x in (-|z|)..|z|, (-P.Rforce R x φ t / R + P.R2deriv R x φ t + P.phi2deriv R x φ t / R ^ 2)) / 4 / π

/-- `surfdens`, Potential.py:624-676, with the inherited `_surfdens`, 678-716 (which raises
`AttributeError` when there is no `_dens`). -/
def surfdensOf (o : Obj) (R z φ t : ℝ) (forcepoisson : Bool) : ℝ :=
  match forcepoisson, o.surfdens, o.dens with
  | false, some s, _ => o.amp * s R z φ t
  | false, none, some d => o.amp * ∫ x in (-|z|)..|z|, d R x φ t
  | _, _, _ => poissonSurfdens o.pot R z φ t

/-- Gauss' theorem over a sphere, Potential.py:766-775; `phi` is left at its default 0. -/
def gaussSphere (P : Pot) (R t : ℝ) : ℝ :=
  -(R ^ 2) * (∫ θ in (0 : ℝ)..π, PotQuant.rforce P (R * sin θ) (R * cos θ) 0 t * sin θ) / 2

/-- Gauss' theorem over a cylinder, Potential.py:776-786. -/
def gaussCylinder (P : Pot) (R z t : ℝ) : ℝ :=
  -R * (∫ x in (-z)..z, P.Rforce R x 0 t) / 2 - ∫ x in (0 : ℝ)..R, x * P.zforce x z 0 t

/-- The `try` block of `mass`, Potential.py:758-786, after the checks. -/
def massBody (o : Obj) (R : ℝ) (z : Option ℝ) (t : ℝ) (forceint : Bool) : ℝ :=
  let z := z.map (|·|)
  match (if forceint then none else o.mass.bind fun m => m R z t) with
  | some m => o.amp * m
  | none => match z with
    | none => gaussSphere o.pot R t
    | some z => gaussCylinder o.pot R z t

/-- The method `mass`, Potential.py:720-786. -/
def massOf (o : Obj) (R : ℝ) (z : Option ℝ) (t : ℝ) (forceint : Bool) : Except Err ℝ :=
  if o.isNonAxi && !o.isEllipsoidal then .error .notImplemented
  else if o.isNonAxi && o.isEllipsoidal && z.isSome then .error .notImplemented
  else .ok (massBody o R z t forceint)

/-- The function `mass`, Potential.py:2058-2091. -/
def massFn (o : Obj) (R : ℝ) (z : Option ℝ) (t : ℝ) (forceint : Bool) : Except Err ℝ :=
  if o.isNonAxi then .error .notImplemented else massOf o R z t forceint

/-- Sum of the members' public methods; a composite's own amplitude is 1 (CompositePotential.py). -/
def sumPot (l : List Obj) : Pot where
  val R z φ t := (l.map fun o => o.pot.val R z φ t).sum
  Rforce R z φ t := (l.map fun o => o.pot.Rforce R z φ t).sum
  zforce R z φ t := (l.map fun o => o.pot.zforce R z φ t).sum
  phitorque R z φ t := (l.map fun o => o.pot.phitorque R z φ t).sum
  R2deriv R z φ t := (l.map fun o => o.pot.R2deriv R z φ t).sum
  z2deriv R z φ t := (l.map fun o => o.pot.z2deriv R z φ t).sum
  Rzderiv R z φ t := (l.map fun o => o.pot.Rzderiv R z φ t).sum
  phi2deriv R z φ t := (l.map fun o => o.pot.phi2deriv R z φ t).sum
  Rphideriv R z φ t := (l.map fun o => o.pot.Rphideriv R z φ t).sum
  phizderiv R z φ t := (l.map fun o => o.pot.phizderiv R z φ t).sum
  dens R z φ t := (l.map fun o => o.pot.dens R z φ t).sum

/-- The sum in `CompositePotential._mass`, CompositePotential.py:285-307. (Dissipative members, which
are not potentials and are skipped by `_dens` and `_mass`, are left out of `l`.) The members' own check can
only raise `NotImplementedError` for a non-axisymmetric member, and then the composite's check has
already raised, so the members are evaluated by `massBody`. -/
def compositeMass (l : List Obj) (R : ℝ) (z : Option ℝ) (t : ℝ) : ℝ :=
  (l.map fun o => massBody o R z t false).sum

/-- A composite of the members `l` as an object: non-axisymmetric if a member is, never an instance
of `EllipsoidalPotential`. `_dens` sums the members' `dens`. -/
def composite (l : List Obj) : Obj where
  pot := sumPot l
  isNonAxi := l.any (·.isNonAxi)
  isEllipsoidal := false
  amp := 1
  dens := some fun R z φ t => (l.map fun o => densOf o R z φ t false).sum
  surfdens := none
  mass := some fun R z t => some (compositeMass l R z t)

/-- The method `tdyn`, Potential.py:814-835: the time is not passed on. -/
def tdynOf (o : Obj) (R _t : ℝ) : Except Err ℝ := do
  let m ← massOf o R none 0 false
  return 2 * π * R * √(R / m)

/-- The function `tdyn`, Potential.py:4555-4578: likewise. -/
def tdynFn (o : Obj) (R _t : ℝ) : Except Err ℝ := do
  let m ← massFn o R none 0 false
  return 2 * π * R * √(R / m)

end Verif.MassQuant
