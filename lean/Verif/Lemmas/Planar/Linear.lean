import Verif.Model.Planar.Linear
import Verif.Util.PlanarLemmas
import Verif.Util.PotLemmas

set_option autoImplicit false

noncomputable section
namespace Verif
open Real Filter Topology

namespace KG

theorem grad {K F D x : ℝ} (t : ℝ) (h : 0 < x ^ 2 + D ^ 2) : LGradAt (pot K F D) x t := by
  have hs : 0 < √(x ^ 2 + D ^ 2) := sqrt_pos.2 h
  dsimp only [LGradAt, pot, evaluate, force]
  apply HasDerivAt.congr_deriv
  · hasderiv
    exact h.ne'
  · field_simp
    try ring

theorem hess {K F D x : ℝ} (t : ℝ) (h : 0 < x ^ 2 + D ^ 2) : LHessAt (pot K F D) x t := by
  refine LHessAt.of_force ?_ ?_
  · exact (ev_pos (f := fun y => y ^ 2 + D ^ 2) (by fun_prop) h).mono fun y hy => grad t hy
  · have hs : 0 < √(x ^ 2 + D ^ 2) := sqrt_pos.2 h
    have hq : √(x ^ 2 + D ^ 2) ^ 2 = x ^ 2 + D ^ 2 := sq_sqrt h.le
    dsimp only [pot, force, force2deriv]
    apply HasDerivAt.congr_deriv
    · hasderiv
      · exact h.ne'
      · exact hs.ne'
    · rw [rpow_three_half h]
      generalize √(x ^ 2 + D ^ 2) = s at *
      have hx : x ^ 2 = s ^ 2 - D ^ 2 := by linarith
      rw [← hq]
      field_simp
      linear_combination -2 * K * hq

end KG

namespace IsoDisk

theorem grad {amp σ x : ℝ} (t : ℝ) (ha : 0 < amp) (hσ : 0 < σ) : LGradAt (pot amp σ) x t := by
  have hH : 0 < height amp σ := div_pos hσ (sqrt_pos.2 (by positivity))
  dsimp only [LGradAt, pot, evaluate, force]
  generalize height amp σ = H at *
  apply HasDerivAt.congr_deriv
  · hasderiv
    exact (cosh_pos _).ne'
  · rw [tanh_eq_sinh_div_cosh]
    have := (cosh_pos (1 / 2 * x / H)).ne'
    field_simp

theorem hess {amp σ x : ℝ} (t : ℝ) (ha : 0 < amp) (hσ : 0 < σ) : LHessAt (pot amp σ) x t := by
  refine LHessAt.of_force (Eventually.of_forall fun y => grad t ha hσ) ?_
  have hH : 0 < height amp σ := div_pos hσ (sqrt_pos.2 (by positivity))
  dsimp only [pot, force, force2deriv]
  generalize height amp σ = H at *
  apply HasDerivAt.congr_deriv
  · hasderiv
  · field_simp

theorem height_sq {amp σ : ℝ} (ha : 0 < amp) : height amp σ ^ 2 * (8 * π * amp) = σ ^ 2 := by
  have h : 0 < 8 * π * amp := by positivity
  rw [height, div_pow, sq_sqrt h.le]
  field_simp

/-- `sech²` as the Boltzmann factor. -/
theorem boltzmann {σ H x : ℝ} (hσ : 0 < σ) :
    exp (-evaluate σ H x / σ ^ 2) = 1 - tanh (1 / 2 * x / H) ^ 2 := by
  have hc := cosh_pos (1 / 2 * x / H)
  have e : -evaluate σ H x / σ ^ 2 = -(log (cosh (1 / 2 * x / H)) + log (cosh (1 / 2 * x / H))) := by
    unfold evaluate; field_simp; ring
  rw [e, exp_neg, exp_add, exp_log hc, tanh_eq_sinh_div_cosh]
  have := cosh_sq (1 / 2 * x / H)
  generalize cosh (1 / 2 * x / H) = c at *
  generalize sinh (1 / 2 * x / H) = s at *
  field_simp
  linarith

end IsoDisk
end Verif
