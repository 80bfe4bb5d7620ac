import Verif.Spec.Pot

set_option autoImplicit false

/-!
# Specification vocabulary for two- and one-dimensional potentials

`PPot` collects the evaluation methods of a planar potential
(`galpy/potential/planarPotential.py`: `__call__`, `Rforce`, `phitorque`, `R2deriv`, `phi2deriv`,
`Rphideriv`), `LPot` those of a one-dimensional one (`galpy/potential/linearPotential.py`:
`__call__`, `force`, and the `_force2deriv` the variational equations use).
-/

namespace Verif

/-- The methods of a planar potential, arguments in the order `R phi t`. -/
structure PPot where
  val : ℝ → ℝ → ℝ → ℝ
  Rforce : ℝ → ℝ → ℝ → ℝ
  phitorque : ℝ → ℝ → ℝ → ℝ
  R2deriv : ℝ → ℝ → ℝ → ℝ
  phi2deriv : ℝ → ℝ → ℝ → ℝ
  Rphideriv : ℝ → ℝ → ℝ → ℝ

/-- The methods of a one-dimensional potential, arguments `x t`. -/
structure LPot where
  val : ℝ → ℝ → ℝ
  force : ℝ → ℝ → ℝ
  force2deriv : ℝ → ℝ → ℝ

/-- Radial force and torque are minus the partial derivatives of the value. -/
structure PGradAt (P : PPot) (R φ t : ℝ) : Prop where
  dR : HasDerivAt (fun x => P.val x φ t) (-(P.Rforce R φ t)) R
  dphi : HasDerivAt (fun x => P.val R x t) (-(P.phitorque R φ t)) φ

/-- The three second-derivative methods are the second partial derivatives of the value (the mixed
one in both orders). -/
structure PHessAt (P : PPot) (R φ t : ℝ) : Prop where
  RR : HasDerivAt (fun x => deriv (fun y => P.val y φ t) x) (P.R2deriv R φ t) R
  Rp : HasDerivAt (fun x => deriv (fun y => P.val y x t) R) (P.Rphideriv R φ t) φ
  pR : HasDerivAt (fun x => deriv (fun y => P.val x y t) φ) (P.Rphideriv R φ t) R
  pp : HasDerivAt (fun x => deriv (fun y => P.val R y t) x) (P.phi2deriv R φ t) φ

/-- The force is minus the derivative of the value. -/
def LGradAt (P : LPot) (x t : ℝ) : Prop := HasDerivAt (fun y => P.val y t) (-(P.force x t)) x

/-- The second-derivative method is the second derivative of the value. -/
def LHessAt (P : LPot) (x t : ℝ) : Prop :=
  HasDerivAt (fun y => deriv (fun u => P.val u t) y) (P.force2deriv x t) x

/-- Multiplication of every method by the amplitude (planarPotential.py: value line 72, `_Rforce_nodecorator` and
`_phitorque_nodecorator` lines 92-139, R2deriv 171, phi2deriv 203, Rphideriv 235). -/
def PPot.scale (amp : ℝ) (P : PPot) : PPot where
  val := fun R φ t => amp * P.val R φ t
  Rforce := fun R φ t => amp * P.Rforce R φ t
  phitorque := fun R φ t => amp * P.phitorque R φ t
  R2deriv := fun R φ t => amp * P.R2deriv R φ t
  phi2deriv := fun R φ t => amp * P.phi2deriv R φ t
  Rphideriv := fun R φ t => amp * P.Rphideriv R φ t

/-- Multiplication of every method by the amplitude (linearPotential.py: `__call__`, `force`;
evaluatelinearForces and the C integrators do the same for `force2deriv`). -/
def LPot.scale (amp : ℝ) (P : LPot) : LPot where
  val := fun x t => amp * P.val x t
  force := fun x t => amp * P.force x t
  force2deriv := fun x t => amp * P.force2deriv x t

end Verif
