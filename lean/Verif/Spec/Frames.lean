import Mathlib.Analysis.Calculus.Deriv.Basic
import Mathlib.Analysis.SpecialFunctions.Trigonometric.Basic
import Mathlib.LinearAlgebra.Matrix.Notation
import Mathlib.LinearAlgebra.Matrix.Determinant.Basic

set_option autoImplicit false

/-!
# Directions, rotations and covariances

What the statements about coordinates use: the unit vector of a longitude and latitude, the Euclidean length,
rotations, and the covariance matrix of a finite sample.
-/

noncomputable section
namespace Verif.Spec
open Real

/-- A vector of three components. -/
abbrev Vec : Type := Fin 3 → ℝ

/-- The unit vector with a given longitude and latitude. -/
def dir (lon lat : ℝ) : Vec := ![cos lat * cos lon, cos lat * sin lon, sin lat]

/-- Square of the Euclidean length. -/
def sq (v : Vec) : ℝ := v 0 ^ 2 + v 1 ^ 2 + v 2 ^ 2

/-- A right-handed orthonormal frame. -/
def IsRotation (T : Matrix (Fin 3) (Fin 3) ℝ) : Prop := T * T.transpose = 1 ∧ T.det = 1

/-- The rotation onto the frame whose north pole has longitude `ra` and latitude `dec`, and in which the old
north pole has longitude `theta`. -/
structure IsFrame (theta ra dec : ℝ) (T : Matrix (Fin 3) (Fin 3) ℝ) : Prop where
  rotation : IsRotation T
  newPole : T.mulVec (dir ra dec) = ![0, 0, 1]
  oldPole : T.mulVec ![0, 0, 1] = dir theta dec

/-- Covariance matrix of a finite sample of vectors. -/
def sampleCov {n m : ℕ} (x : Fin n → Fin m → ℝ) : Matrix (Fin m) (Fin m) ℝ := fun i j =>
  (∑ k, (x k i - (∑ k', x k' i) / n) * (x k j - (∑ k', x k' j) / n)) / n

/-- `J` is the matrix of partial derivatives of `f` at `x`: along every curve through `x` with a velocity,
`f` has the velocity that `J` gives. -/
def IsJacobian {n m : ℕ} (f : (Fin n → ℝ) → Fin m → ℝ) (x : Fin n → ℝ) (J : Matrix (Fin m) (Fin n) ℝ) : Prop :=
  ∀ (c : ℝ → Fin n → ℝ) (c' : Fin n → ℝ) (t : ℝ), c t = x → (∀ i, HasDerivAt (fun s => c s i) (c' i) t) →
    ∀ i, HasDerivAt (fun s => f (c s) i) (∑ j, J i j * c' j) t

end Verif.Spec
