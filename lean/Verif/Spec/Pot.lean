import Mathlib.Analysis.Calculus.Deriv.Basic
import Mathlib.Analysis.SpecialFunctions.Trigonometric.Basic

set_option autoImplicit false

/-!
# Specification vocabulary for potentials

`Pot` collects the point-evaluation methods every galpy potential offers
(`galpy/potential/Potential.py`, methods `__call__`, `Rforce`, `zforce`,
`phitorque`, `R2deriv`, `z2deriv`, `Rzderiv`, `phi2deriv`, `Rphideriv`,
`phizderiv`, `dens`), as real functions of `(R, z, phi, t)`.

The predicates below are the independent specification: they only use
Mathlib's `HasDerivAt` and `deriv`.
-/

namespace Verif

/-- The evaluation methods of a potential, arguments in the order `R z phi t`. -/
structure Pot where
  val : ℝ → ℝ → ℝ → ℝ → ℝ
  Rforce : ℝ → ℝ → ℝ → ℝ → ℝ
  zforce : ℝ → ℝ → ℝ → ℝ → ℝ
  phitorque : ℝ → ℝ → ℝ → ℝ → ℝ
  R2deriv : ℝ → ℝ → ℝ → ℝ → ℝ
  z2deriv : ℝ → ℝ → ℝ → ℝ → ℝ
  Rzderiv : ℝ → ℝ → ℝ → ℝ → ℝ
  phi2deriv : ℝ → ℝ → ℝ → ℝ → ℝ
  Rphideriv : ℝ → ℝ → ℝ → ℝ → ℝ
  phizderiv : ℝ → ℝ → ℝ → ℝ → ℝ
  dens : ℝ → ℝ → ℝ → ℝ → ℝ

/-- At the point `(R,z,phi)` and time `t` the three force components are minus
the three cylindrical partial derivatives of the potential value. -/
structure GradAt (P : Pot) (R z φ t : ℝ) : Prop where
  dR : HasDerivAt (fun x => P.val x z φ t) (-(P.Rforce R z φ t)) R
  dz : HasDerivAt (fun x => P.val R x φ t) (-(P.zforce R z φ t)) z
  dphi : HasDerivAt (fun x => P.val R z x t) (-(P.phitorque R z φ t)) φ

/-- The six second-derivative methods are the second partial derivatives of the
potential *value* (each mixed one in both orders of differentiation). -/
structure HessAt (P : Pot) (R z φ t : ℝ) : Prop where
  RR : HasDerivAt (fun x => deriv (fun y => P.val y z φ t) x) (P.R2deriv R z φ t) R
  Rz : HasDerivAt (fun x => deriv (fun y => P.val y x φ t) R) (P.Rzderiv R z φ t) z
  Rp : HasDerivAt (fun x => deriv (fun y => P.val y z x t) R) (P.Rphideriv R z φ t) φ
  zR : HasDerivAt (fun x => deriv (fun y => P.val x y φ t) z) (P.Rzderiv R z φ t) R
  zz : HasDerivAt (fun x => deriv (fun y => P.val R y φ t) x) (P.z2deriv R z φ t) z
  zp : HasDerivAt (fun x => deriv (fun y => P.val R y x t) z) (P.phizderiv R z φ t) φ
  pR : HasDerivAt (fun x => deriv (fun y => P.val x z y t) φ) (P.Rphideriv R z φ t) R
  pz : HasDerivAt (fun x => deriv (fun y => P.val R x y t) φ) (P.phizderiv R z φ t) z
  pp : HasDerivAt (fun x => deriv (fun y => P.val R z y t) x) (P.phi2deriv R z φ t) φ

/-- Poisson's equation `4 π ρ = Φ_RR + Φ_R/R + Φ_φφ/R² + Φ_zz`, with the
derivatives of the value `Φ` itself (not of the force methods). -/
def PoissonAt (P : Pot) (R z φ t : ℝ) : Prop :=
  4 * Real.pi * P.dens R z φ t
    = deriv (fun x => deriv (fun y => P.val y z φ t) x) R
      + deriv (fun x => P.val x z φ t) R / R
      + deriv (fun x => deriv (fun y => P.val R z y t) x) φ / R ^ 2
      + deriv (fun x => deriv (fun y => P.val R y φ t) x) z

end Verif
