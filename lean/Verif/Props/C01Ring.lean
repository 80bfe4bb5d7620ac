import Verif.Lemmas.Pot.Ring
import Verif.Lemmas.Pot.Ops

set_option autoImplicit false

/-! # C01, C02, C03: RingPotential -/

noncomputable section
namespace Verif
open Real Ring

namespace C01Ringaux
theorem ok {a R z : ℝ} (hR : 0 < R) (h : ¬ (R = a ∧ z = 0)) : Ok a R z := by
  refine ⟨hR, ?_⟩
  unfold Q
  rcases eq_or_ne z 0 with hz | hz
  · have : R - a ≠ 0 := fun k => h ⟨by linarith, hz⟩
    positivity
  · positivity
end C01Ringaux
open C01Ringaux

/-- Ring, everywhere off the ring and off the axis. -/
theorem C01_Ring (amp : ℝ) {a R z : ℝ} (ha : 0 < a) (hR : 0 < R) (h : ¬ (R = a ∧ z = 0)) (φ t : ℝ) :
    GradAt ((Ring.pot a).scale (initAmp amp a)) R z φ t :=
  ((Ring.consistent ha).scale _).grad R z φ t (ok hR h)

/-- Ring, second derivatives. -/
theorem C02_Ring (amp : ℝ) {a R z : ℝ} (ha : 0 < a) (hR : 0 < R) (h : ¬ (R = a ∧ z = 0)) (φ t : ℝ) :
    HessAt ((Ring.pot a).scale (initAmp amp a)) R z φ t :=
  ((Ring.consistent ha).scale _).hess R z φ t (ok hR h)

/-- Ring: the density off the ring vanishes and satisfies Poisson's equation, so the potential is harmonic there. -/
theorem C03_Ring (amp : ℝ) {a R z : ℝ} (ha : 0 < a) (hR : 0 < R) (h : ¬ (R = a ∧ z = 0)) (φ t : ℝ) :
    PoissonAt ((Ring.pot a).scale (initAmp amp a)) R z φ t ∧ ((Ring.pot a).scale (initAmp amp a)).dens R z φ t = 0 := by
  refine ⟨((Ring.consistent ha).scale _).poisson R z φ t (ok hR h) hR.ne', ?_⟩
  have := Ring.laplace ha (ok hR h)
  have e : Ring.dens a R z = 0 := by
    unfold Ring.dens
    rw [show -Ring.Rforce a R z / R + Ring.R2deriv a R z + 0 / R ^ 2 + Ring.z2deriv a R z
      = Ring.R2deriv a R z - Ring.Rforce a R z / R + Ring.z2deriv a R z by ring, this]
    simp
  simp [Pot.scale, Ring.pot, Pot.axi, e]

/-- The potential is that of a mass `amp` spread evenly over the circle of radius `a` in the plane. -/
theorem C03_Ring_source (amp : ℝ) {a R z : ℝ} (ha : 0 < a) (hR : 0 < R) (h : ¬ (R = a ∧ z = 0)) (φ t : ℝ) :
    ((Ring.pot a).scale (initAmp amp a)).val R z φ t =
      -(∫ θ in (0 : ℝ)..(2 * π), amp / (2 * π) / √((R - a * cos θ) ^ 2 + (0 - a * sin θ) ^ 2 + z ^ 2)) := by
  have e : ∀ θ, amp / (2 * π) / √((R - a * cos θ) ^ 2 + (0 - a * sin θ) ^ 2 + z ^ 2)
      = initAmp amp a * (a / √((R - a * cos θ) ^ 2 + (0 - a * sin θ) ^ 2 + z ^ 2)) := fun θ => by
    unfold initAmp
    have := pi_pos.ne'
    field_simp
  simp_rw [e]
  rw [intervalIntegral.integral_const_mul, ← mul_neg, ← Ring.evaluate_integral ha (ok hR h)]
  simp [Pot.scale, Ring.pot, Pot.axi]

/-- Half the radius, in the plane. -/
example : GradAt ((Ring.pot 1).scale (initAmp 1 1)) (1 / 2) 0 0 0 ∧ HessAt ((Ring.pot 1).scale (initAmp 1 1)) (1 / 2) 0 0 0 ∧
    PoissonAt ((Ring.pot 1).scale (initAmp 1 1)) (1 / 2) 0 0 0 :=
  ⟨C01_Ring 1 one_pos (by norm_num) (by norm_num) 0 0, C02_Ring 1 one_pos (by norm_num) (by norm_num) 0 0,
    (C03_Ring 1 one_pos (by norm_num) (by norm_num) 0 0).1⟩

end Verif
