import Verif.Spec.Pot
import Mathlib.Analysis.Calculus.FDeriv.Basic
import Mathlib.Analysis.Calculus.Deriv.Basic
import Mathlib.Topology.Constructions
import Mathlib.Data.Matrix.Mul

set_option autoImplicit false

/-!
# Specification vocabulary for motion in a potential
-/

namespace Verif

/-- The potential value is differentiable as a function of the three coordinates together. -/
def DiffAt (P : Pot) (R z φ t : ℝ) : Prop :=
  DifferentiableAt ℝ (fun p : ℝ × ℝ × ℝ => P.val p.1 p.2.1 p.2.2 t) (R, z, φ)

/-- In the plane `z = 0`: radial force and torque are minus the derivatives of the value. -/
structure PlanarGradAt (P : Pot) (R φ t : ℝ) : Prop where
  dR : HasDerivAt (fun x => P.val x 0 φ t) (-(P.Rforce R 0 φ t)) R
  dphi : HasDerivAt (fun x => P.val R 0 x t) (-(P.phitorque R 0 φ t)) φ

/-- In the plane `z = 0`: the value is differentiable as a function of the two coordinates. -/
def PlanarDiffAt (P : Pot) (R φ t : ℝ) : Prop :=
  DifferentiableAt ℝ (fun p : ℝ × ℝ => P.val p.1 0 p.2 t) (R, φ)

/-- The three force methods are differentiable as functions of the three coordinates together. -/
structure ForceDiffAt (P : Pot) (R z φ t : ℝ) : Prop where
  dR : DifferentiableAt ℝ (fun p : ℝ × ℝ × ℝ => P.Rforce p.1 p.2.1 p.2.2 t) (R, z, φ)
  dz : DifferentiableAt ℝ (fun p : ℝ × ℝ × ℝ => P.zforce p.1 p.2.1 p.2.2 t) (R, z, φ)
  dphi : DifferentiableAt ℝ (fun p : ℝ × ℝ × ℝ => P.phitorque p.1 p.2.1 p.2.2 t) (R, z, φ)

/-- A potential that is smooth on a region and whose methods are its derivatives there. -/
structure SmoothOn (P : Pot) (D : Set (ℝ × ℝ × ℝ)) : Prop where
  isOpen : IsOpen D
  grad : ∀ R z φ t, (R, z, φ) ∈ D → GradAt P R z φ t
  hess : ∀ R z φ t, (R, z, φ) ∈ D → HessAt P R z φ t
  diff : ∀ R z φ t, (R, z, φ) ∈ D → DiffAt P R z φ t
  fdiff : ∀ R z φ t, (R, z, φ) ∈ D → ForceDiffAt P R z φ t

/-- The potential value does not depend on time. -/
def Static (P : Pot) : Prop := ∀ R z φ s t, P.val R z φ s = P.val R z φ t

/-- Values and forces have period `2 π` in azimuth. -/
structure Periodic (P : Pot) : Prop where
  val : ∀ R z φ t, P.val R z (φ + 2 * Real.pi) t = P.val R z φ t
  Rforce : ∀ R z φ t, P.Rforce R z (φ + 2 * Real.pi) t = P.Rforce R z φ t
  zforce : ∀ R z φ t, P.zforce R z (φ + 2 * Real.pi) t = P.zforce R z φ t
  phitorque : ∀ R z φ t, P.phitorque R z (φ + 2 * Real.pi) t = P.phitorque R z φ t

/-- `g` is the potential as a function of rectangular coordinates (off the axis). -/
def IsCart (P : Pot) (t : ℝ) (g : (Fin 3 → ℝ) → ℝ) : Prop :=
  ∀ R z φ, 0 < R → g ![R * Real.cos φ, R * Real.sin φ, z] = P.val R z φ t

/-- `y` solves `y' = f t y` at every time of the set `I`. -/
def Solves {E : Type*} [NormedAddCommGroup E] [NormedSpace ℝ E] (f : ℝ → E → E) (y : ℝ → E)
    (I : Set ℝ) : Prop := ∀ s ∈ I, HasDerivAt y (f s (y s)) s

/-- `x'' = f t x x'` as a first-order system. -/
def Newton {n : ℕ} (f : ℝ → (Fin n → ℝ) → (Fin n → ℝ) → (Fin n → ℝ)) (x v : ℝ → Fin n → ℝ)
    (I : Set ℝ) : Prop := ∀ s ∈ I, HasDerivAt x (v s) s ∧ HasDerivAt v (f s (x s) (v s)) s

end Verif
