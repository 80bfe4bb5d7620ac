import Mathlib.Analysis.SpecialFunctions.Trigonometric.Basic
import Mathlib.LinearAlgebra.CrossProduct
import Mathlib.Analysis.SpecialFunctions.Trigonometric.Deriv
import Mathlib.Analysis.Calculus.Deriv.Prod
import Mathlib.Analysis.Calculus.Deriv.Pi
import Mathlib.Analysis.Calculus.Deriv.Abs
import Mathlib.Analysis.Calculus.Deriv.Mul
import Verif.Model.OrbitState

set_option autoImplicit false

/-!
# What a phase-space state denotes

Position and velocity in space of a state with azimuth, written with the rectangular coordinates
of a moving point `(R(t) cos φ(t), R(t) sin φ(t), z(t))`.
-/

namespace Verif.Spec

open Real

/-- Rectangular position of the point with cylindrical coordinates `R, φ, z`; `R` may be negative. -/
noncomputable def cyl (R phi z : ℝ) : Fin 3 → ℝ := ![R * cos phi, R * sin phi, z]

/-- Rectangular velocity of a point moving with `R', φ', z'`. -/
noncomputable def cylVel (R phi dR dphi dz : ℝ) : Fin 3 → ℝ :=
  ![dR * cos phi - R * sin phi * dphi, dR * sin phi + R * cos phi * dphi, dz]

/-- `cylVel` is the velocity of a moving point. -/
theorem cylVel_hasDerivAt {R phi z : ℝ → ℝ} {dR dphi dz t : ℝ} (hR : HasDerivAt R dR t)
    (hphi : HasDerivAt phi dphi t) (hz : HasDerivAt z dz t) :
    HasDerivAt (fun s => cyl (R s) (phi s) (z s)) (cylVel (R t) (phi t) dR dphi dz) t := by
  rw [hasDerivAt_pi]
  intro i
  fin_cases i
  · exact (hR.mul hphi.cos).congr_deriv (by simp [cylVel]; ring)
  · exact (hR.mul hphi.sin).congr_deriv (by simp [cylVel]; ring)
  · simpa [cyl, cylVel] using hz

/-- Rectangular position and velocity that a state with azimuth stands for: components along the
unit vectors `(cos φ, sin φ, 0)`, `(-sin φ, cos φ, 0)`, `(0, 0, 1)`. -/
inductive Denotes : Orb.State → (Fin 3 → ℝ) → (Fin 3 → ℝ) → Prop
  | planar (R vR vT phi : ℝ) : Denotes (.pl4 R vR vT phi) (cyl R phi 0)
      (vR • ![cos phi, sin phi, 0] + vT • ![-sin phi, cos phi, 0])
  | full (R vR vT z vz phi : ℝ) : Denotes (.fu6 R vR vT z vz phi) (cyl R phi z)
      (vR • ![cos phi, sin phi, 0] + vT • ![-sin phi, cos phi, 0] + vz • ![0, 0, 1])

end Verif.Spec
