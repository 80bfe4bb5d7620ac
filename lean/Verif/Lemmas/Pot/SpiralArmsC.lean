import Verif.Lemmas.Pot.SpiralArmsSum

set_option autoImplicit false

/-! The C functions are the Python methods times the amplitude. -/

noncomputable section
namespace Verif.SpiralArms
open Real

theorem cB_eq (p : Par) : cB p = B p := rfl
theorem cD_eq (p : Par) : cD p = D p := by funext n R; simp only [cD, D, HNn]; ring
theorem cdK_eq (p : Par) : cdK p = dK p := by funext n R; simp only [cdK, dK]; ring
theorem cdB_eq (p : Par) : cdB p = dB p := by funext n R; simp only [cdB, dB, HNn]; ring
theorem cdD_eq (p : Par) : cdD p = dD p := by funext n R; simp only [cdD, dD, HNn]; ring
theorem cd2B_eq (p : Par) : cd2B p = d2B p := by funext n R; simp only [cd2B, d2B, HNn]; ring
theorem cd2D_eq (p : Par) : cd2D p = d2D p := by
  funext n R
  simp only [cd2D, d2D, HNn]
  generalize R * (0.3 * (p.H * p.N * n / (R * sina p)) + 1) * sina p = x
  generalize p.H * p.N * n / (R * sina p) = h
  generalize R * sina p = y
  ring

theorem pull (a b c : ℝ) {n : ℕ} {f g : Fin n → ℝ} (h : ∀ i, c * f i = a * (b * g i)) :
    c * ∑ i, f i = a * (b * ∑ i, g i) := by
  rw [Finset.mul_sum, Finset.mul_sum, Finset.mul_sum]
  exact Finset.sum_congr rfl fun i _ => h i

variable (p : Par) (amp R z φ t : ℝ)

theorem cEval_eq : cEval p amp R z φ t = amp * evaluate p R z φ t := by
  simp only [cEval, evaluate, total, cB_eq, cD_eq]
  exact pull _ _ _ fun i => by ring
theorem cRforce_eq : cRforce p amp R z φ t = amp * Rforce p R z φ t := by
  simp only [cRforce, Rforce, total, cB_eq, cD_eq, cdK_eq, cdB_eq, cdD_eq]
  exact pull _ _ _ fun i => by ring
theorem czforce_eq : czforce p amp R z φ t = amp * zforce p R z φ t := by
  simp only [czforce, zforce, total, cB_eq, cD_eq]
  exact pull _ _ _ fun i => by ring
theorem cphitorque_eq : cphitorque p amp R z φ t = amp * phitorque p R z φ t := by
  simp only [cphitorque, phitorque, total, cB_eq, cD_eq]
  exact pull _ _ _ fun i => by ring
theorem cR2deriv_eq : cR2deriv p amp R z φ t = amp * R2deriv p R z φ t := by
  simp only [cR2deriv, R2deriv, total, cB_eq, cD_eq, cdK_eq, cdB_eq, cdD_eq, cd2B_eq, cd2D_eq, d2K, d2gamma]
  exact pull _ _ _ fun i => by ring
theorem cz2deriv_eq : cz2deriv p amp R z φ t = amp * z2deriv p R z φ t := by
  simp only [cz2deriv, z2deriv, total, cB_eq, cD_eq]
  exact pull _ _ _ fun i => by ring
theorem cphi2deriv_eq : cphi2deriv p amp R z φ t = amp * phi2deriv p R z φ t := by
  simp only [cphi2deriv, phi2deriv, total, cB_eq, cD_eq]
  exact pull _ _ _ fun i => by ring
theorem cRzderiv_eq : cRzderiv p amp R z φ t = amp * Rzderiv p R z φ t := by
  simp only [cRzderiv, Rzderiv, total, cB_eq, cD_eq, cdK_eq, cdB_eq, cdD_eq]
  exact pull _ _ _ fun i => by ring
theorem cRphideriv_eq : cRphideriv p amp R z φ t = amp * Rphideriv p R z φ t := by
  simp only [cRphideriv, Rphideriv, total, cB_eq, cD_eq, cdK_eq, cdB_eq, cdD_eq]
  exact pull _ _ _ fun i => by ring
theorem czphideriv_eq : czphideriv p amp R z φ t = amp * phizderiv p R z φ t := by
  simp only [czphideriv, phizderiv, total, cB_eq, cD_eq]
  exact pull _ _ _ fun i => by ring

theorem cPlanarRforce_eq : cPlanarRforce p amp R φ t = amp * Rforce p R 0 φ t := by
  simp only [cPlanarRforce, Rforce, total, cD_eq, cdK_eq, cdD_eq, zero_mul, zero_div, cosh_zero, tanh_zero, div_one,
    one_rpow, log_one]
  exact pull _ _ _ fun i => by ring
theorem cPlanarphitorque_eq : cPlanarphitorque p amp R φ t = amp * phitorque p R 0 φ t := by
  simp only [cPlanarphitorque, phitorque, total, cD_eq, zero_mul, zero_div, cosh_zero, div_one, one_rpow]
  exact pull _ _ _ fun i => by ring
theorem cPlanarR2deriv_eq : cPlanarR2deriv p amp R φ t = amp * R2deriv p R 0 φ t := by
  simp only [cPlanarR2deriv, R2deriv, total, cD_eq, cdK_eq, cdD_eq, cd2D_eq, d2K, d2gamma, zero_mul, zero_div, cosh_zero,
    tanh_zero, div_one, one_rpow, log_one]
  exact pull _ _ _ fun i => by ring
theorem cPlanarphi2deriv_eq : cPlanarphi2deriv p amp R φ t = amp * phi2deriv p R 0 φ t := by
  simp only [cPlanarphi2deriv, phi2deriv, total, cD_eq, zero_mul, zero_div, cosh_zero, div_one, one_rpow]
  exact pull _ _ _ fun i => by ring
theorem cPlanarRphideriv_eq : cPlanarRphideriv p amp R φ t = amp * Rphideriv p R 0 φ t := by
  simp only [cPlanarRphideriv, Rphideriv, total, cD_eq, cdK_eq, cdD_eq, zero_mul, zero_div, cosh_zero, tanh_zero, div_one,
    one_rpow, log_one]
  exact pull _ _ _ fun i => by ring

end Verif.SpiralArms
