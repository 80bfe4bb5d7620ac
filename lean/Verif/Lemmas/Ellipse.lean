import Verif.Lemmas.Smooth
import Verif.Model.EOM

set_option autoImplicit false

/-!
# Orbits in a homogeneous sphere

Closed-form solutions of the equations of motion, used as concrete cases beside the theorems about
solutions.
-/

noncomputable section
namespace Verif
open Real Filter Topology

theorem HomogeneousSphere.smoothOn_in (a : ℝ) :
    SmoothOn (HomogeneousSphere.pot a) {p : ℝ × ℝ × ℝ | p.1 ^ 2 + p.2.1 ^ 2 < a ^ 2} := by
  have ho : IsOpen {p : ℝ × ℝ × ℝ | p.1 ^ 2 + p.2.1 ^ 2 < a ^ 2} :=
    isOpen_lt (by fun_prop) (by fun_prop)
  refine (HomogeneousSphere.consistent_in a).smoothOn_axi ho fun R z φ h => ?_
  have ev : ∀ᶠ p : ℝ × ℝ × ℝ in 𝓝 (R, z, φ), p.1 ^ 2 + p.2.1 ^ 2 < a ^ 2 := ho.mem_nhds h
  refine ⟨?_, ?_, ?_⟩
  · refine DifferentiableAt.congr_of_eventuallyEq (f := fun p => p.1 ^ 2 + p.2.1 ^ 2 - 3 * a ^ 2)
      (by fun_prop) (ev.mono fun p k => by simp [HomogeneousSphere.evaluate, k])
  · refine DifferentiableAt.congr_of_eventuallyEq (f := fun p => -2 * p.1)
      (by fun_prop) (ev.mono fun p k => by simp [HomogeneousSphere.Rforce, k])
  · refine DifferentiableAt.congr_of_eventuallyEq (f := fun p => -2 * p.2.1)
      (by fun_prop) (ev.mono fun p k => by simp [HomogeneousSphere.zforce, k])

namespace Ellipse

/-- The sphere of radius 10. -/
def P : Pot := HomogeneousSphere.pot 10

/-- The region inside the sphere. -/
def D : Set (ℝ × ℝ × ℝ) := {p | p.1 ^ 2 + p.2.1 ^ 2 < 10 ^ 2}

theorem smoothOn : SmoothOn P D := HomogeneousSphere.smoothOn_in 10
theorem periodic : Periodic P := periodic_axi _ _ _ _ _ _ _
theorem static : Static P := static_axi _ _ _ _ _ _ _

/-- Angular frequency. -/
def w : ℝ := √2
theorem w_sq : w * w = 2 := Real.mul_self_sqrt (by norm_num)

theorem dcos (s : ℝ) : HasDerivAt (fun s => cos (w * s)) (-(w * sin (w * s))) s := by
  have := ((hasDerivAt_id s).const_mul w).cos
  exact this.congr_deriv (by simp; ring)
theorem dsin (s : ℝ) : HasDerivAt (fun s => sin (w * s)) (w * cos (w * s)) s := by
  have := ((hasDerivAt_id s).const_mul w).sin
  exact this.congr_deriv (by simp; ring)

/-- The ellipse with semi-axes 2 and 1, inclined to the plane. -/
def x (s : ℝ) : Fin 3 → ℝ := ![2 * cos (w * s), sin (w * s), 3 * sin (w * s)]
/-- Its velocity. -/
def v (s : ℝ) : Fin 3 → ℝ := ![-(2 * w * sin (w * s)), w * cos (w * s), 3 * w * cos (w * s)]

theorem pos (s : ℝ) : 0 < x s 0 ^ 2 + x s 1 ^ 2 := by
  have h := cos_sq_add_sin_sq (w * s)
  simp only [x, Matrix.cons_val_zero, Matrix.cons_val_one]
  nlinarith [sq_nonneg (cos (w * s))]

theorem mem_D (s : ℝ) (φ : ℝ) : (√(x s 0 ^ 2 + x s 1 ^ 2), x s 2, φ) ∈ D := by
  have h := cos_sq_add_sin_sq (w * s)
  simp only [D, Set.mem_setOf_eq]
  rw [sq_sqrt (pos s).le]
  simp only [x, Matrix.cons_val_zero, Matrix.cons_val_one, Matrix.cons_val]
  nlinarith [sq_nonneg (cos (w * s)), sq_nonneg (sin (w * s))]

theorem Rforce_in {R z φ t : ℝ} (h : (R, z, φ) ∈ D) : P.Rforce R z φ t = -2 * R := by
  have h' : R ^ 2 + z ^ 2 < 10 ^ 2 := h
  simp [P, HomogeneousSphere.pot, Pot.axi, HomogeneousSphere.Rforce, h']
theorem zforce_in {R z φ t : ℝ} (h : (R, z, φ) ∈ D) : P.zforce R z φ t = -2 * z := by
  have h' : R ^ 2 + z ^ 2 < 10 ^ 2 := h
  simp [P, HomogeneousSphere.pot, Pot.axi, HomogeneousSphere.zforce, h']

theorem force (t s : ℝ) : EOM.rectForce P t (x s) = fun i => -2 * x s i := by
  have h := (Real.sqrt_pos.2 (pos s)).ne'
  have hD := mem_D s (EOM.azimuth (x s 0) (x s 1))
  have hp : ∀ R z φ t, P.phitorque R z φ t = 0 := fun _ _ _ _ => rfl
  funext i
  obtain rfl | rfl | rfl : i = 0 ∨ i = 1 ∨ i = 2 := by fin_cases i <;> simp
  all_goals
    simp only [EOM.rectForce, EOM.rectForceV, Pot.force, Matrix.cons_val_zero, Matrix.cons_val_one,
      Matrix.cons_val, Rforce_in hD, zforce_in hD, hp]
    try field_simp
    try ring

theorem hasDerivAt_x (s : ℝ) : HasDerivAt x (v s) s := by
  rw [hasDerivAt_pi]
  intro i
  fin_cases i
  · exact ((dcos s).const_mul 2).congr_deriv (by simp [v]; ring)
  · exact (dsin s).congr_deriv (by simp [v])
  · exact ((dsin s).const_mul 3).congr_deriv (by simp [v]; ring)

theorem hasDerivAt_v (s : ℝ) : HasDerivAt v (fun i => -2 * x s i) s := by
  rw [hasDerivAt_pi]
  intro i
  fin_cases i
  · exact ((dsin s).const_mul (2 * w)).neg.congr_deriv (by simp [x, ← w_sq]; ring)
  · exact ((dcos s).const_mul w).congr_deriv (by simp [x, ← w_sq]; ring)
  · exact ((dcos s).const_mul (3 * w)).congr_deriv (by simp [x, ← w_sq]; ring)

theorem newton : Newton (fun t x _ => EOM.rectForce P t x) x v Set.univ :=
  fun s _ => ⟨hasDerivAt_x s, by simpa only [force] using hasDerivAt_v s⟩

/-- A circular motion in the plane together with a vertical oscillation, in cylindrical
coordinates. -/
def y (s : ℝ) : Fin 6 → ℝ := ![1, 0, w * s, w, sin (w * s), w * cos (w * s)]

theorem y_mem (s : ℝ) : (y s 0, y s 4, y s 2) ∈ D := by
  simp only [D, y, Set.mem_setOf_eq, Matrix.cons_val_zero, Matrix.cons_val]
  nlinarith [sin_sq_le_one (w * s)]

theorem solves : Solves (EOM.full P.force) y Set.univ := by
  intro s _
  have hD := y_mem s
  have hp : ∀ R z φ t, P.phitorque R z φ t = 0 := fun _ _ _ _ => rfl
  rw [hasDerivAt_pi]
  intro i
  simp only [EOM.full, Pot.force, Rforce_in hD, zforce_in hD, hp]
  fin_cases i
  · exact (hasDerivAt_const s (1 : ℝ)).congr_deriv (by simp [y])
  · exact (hasDerivAt_const s (0 : ℝ)).congr_deriv (by simp [y, ← w_sq]; ring)
  · exact ((hasDerivAt_id s).const_mul w).congr_deriv (by simp [y])
  · exact (hasDerivAt_const s w).congr_deriv (by simp [y])
  · exact (dsin s).congr_deriv (by simp [y])
  · exact ((dcos s).const_mul w).congr_deriv (by simp [y, ← w_sq]; ring)

/-- The same motion without the azimuth. -/
def yz (s : ℝ) : Fin 4 → ℝ := ![1, 0, sin (w * s), w * cos (w * s)]

theorem yz_mem (s : ℝ) : (yz s 0, yz s 2, 0) ∈ D := by
  simp only [D, yz, Set.mem_setOf_eq, Matrix.cons_val_zero, Matrix.cons_val]
  nlinarith [sin_sq_le_one (w * s)]

theorem solves_rz : Solves (EOM.rz P 2) yz Set.univ := by
  intro s _
  have hD := yz_mem s
  rw [hasDerivAt_pi]
  intro i
  simp only [EOM.rz, Rforce_in hD, zforce_in hD]
  fin_cases i
  · exact (hasDerivAt_const s (1 : ℝ)).congr_deriv (by simp [yz])
  · exact (hasDerivAt_const s (0 : ℝ)).congr_deriv (by simp [yz])
  · exact (dsin s).congr_deriv (by simp [yz])
  · exact ((dcos s).const_mul w).congr_deriv (by simp [yz, ← w_sq]; ring)

/-- The circular motion in the plane. -/
def yp (s : ℝ) : Fin 4 → ℝ := ![1, 0, w * s, w]

theorem yp_mem (s : ℝ) : (yp s 0, 0, yp s 2) ∈ D := by
  simp only [D, yp, Set.mem_setOf_eq, Matrix.cons_val_zero]
  norm_num

theorem solves_planar : Solves (EOM.planar P.force) yp Set.univ := by
  intro s _
  have hD := yp_mem s
  have hp : ∀ R z φ t, P.phitorque R z φ t = 0 := fun _ _ _ _ => rfl
  rw [hasDerivAt_pi]
  intro i
  simp only [EOM.planar, Pot.force, Rforce_in hD, hp]
  fin_cases i
  · exact (hasDerivAt_const s (1 : ℝ)).congr_deriv (by simp [yp])
  · exact (hasDerivAt_const s (0 : ℝ)).congr_deriv (by simp [yp, ← w_sq]; ring)
  · exact ((hasDerivAt_id s).const_mul w).congr_deriv (by simp [yp])
  · exact (hasDerivAt_const s w).congr_deriv (by simp [yp])

/-- One-dimensional oscillator. -/
def yl (s : ℝ) : Fin 2 → ℝ := ![sin (w * s), w * cos (w * s)]

theorem solves_linear : Solves (EOM.linear fun x _ => -2 * x) yl Set.univ := by
  intro s _
  rw [hasDerivAt_pi]
  intro i
  simp only [EOM.linear]
  fin_cases i
  · exact (dsin s).congr_deriv (by simp [yl])
  · exact ((dcos s).const_mul w).congr_deriv (by simp [yl, ← w_sq]; ring)

end Ellipse
end Verif
