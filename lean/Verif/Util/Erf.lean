import Mathlib.Analysis.SpecialFunctions.Integrals.Basic
import Mathlib.Analysis.SpecialFunctions.Trigonometric.Bounds
import Mathlib.MeasureTheory.Integral.IntervalIntegral.FundThmCalculus
import Mathlib.NumberTheory.Harmonic.EulerMascheroni

set_option autoImplicit false

/-!
# The error function and the cosine integral

`scipy.special.erf` (C `erf`) and `scipy.special.sici(x)[1]` (`gsl_sf_Ci`) as the integrals that define them.
-/

noncomputable section
namespace Verif
open Real MeasureTheory Set Filter
open scoped Topology

/-- The error function. -/
def erf (x : ℝ) : ℝ := 2 / √π * ∫ t in (0 : ℝ)..x, exp (-t ^ 2)

/-- The cosine integral of a positive number. -/
def Ci (x : ℝ) : ℝ := eulerMascheroniConstant + log x + ∫ t in (0 : ℝ)..x, (cos t - 1) / t

theorem erf_zero : erf 0 = 0 := by simp [erf]

theorem erf_deriv (x : ℝ) : HasDerivAt erf (2 / √π * exp (-x ^ 2)) x := by
  have hc : Continuous fun t : ℝ => exp (-t ^ 2) := by fun_prop
  exact (hc.integral_hasStrictDerivAt 0 x).hasDerivAt.const_mul _

/-- `erf X - 2 X exp(-X²) / √π`. -/
def erfFac (X : ℝ) : ℝ := erf X - 2 / √π * (X * exp (-X ^ 2))

theorem erfFac_deriv (X : ℝ) : HasDerivAt erfFac (4 / √π * X ^ 2 * exp (-X ^ 2)) X := by
  have h1 : HasDerivAt (fun X : ℝ => exp (-X ^ 2)) (exp (-X ^ 2) * -(2 * X)) X := by
    have := (((hasDerivAt_id X).pow 2).neg).exp
    refine this.congr_deriv ?_
    simp
  have h2 := ((hasDerivAt_id X).mul h1).const_mul (2 / √π)
  refine ((erf_deriv X).sub h2).congr_deriv ?_
  simp only [id]
  ring

theorem erfFac_lt {a b : ℝ} (h0 : 0 ≤ a) (h : a < b) : erfFac a < erfFac b := by
  have hm : StrictMonoOn erfFac (Ici 0) := by
    refine strictMonoOn_of_deriv_pos (convex_Ici 0) (fun x _ => (erfFac_deriv x).continuousAt.continuousWithinAt) fun x hx => ?_
    rw [interior_Ici] at hx
    have hx' : (0 : ℝ) < x := hx
    rw [(erfFac_deriv x).deriv]
    have := sqrt_pos.2 pi_pos
    positivity
  exact hm (mem_Ici.2 h0) (mem_Ici.2 (h0.trans h.le)) h

theorem erfFac_pos {X : ℝ} (h : 0 < X) : 0 < erfFac X := by
  have := erfFac_lt le_rfl h
  simpa [erfFac, erf_zero] using this

theorem cosm1_cont : Continuous fun t : ℝ => (cos t - 1) / t := by
  rw [continuous_iff_continuousAt]
  intro t
  by_cases h : t = 0
  · subst h
    rw [ContinuousAt, div_zero]
    have hb : ∀ t : ℝ, |(cos t - 1) / t| ≤ |t| := by
      intro t
      by_cases h0 : t = 0
      · simp [h0]
      have hp : 0 < |t| := abs_pos.2 h0
      rw [abs_div, div_le_iff₀ hp, abs_of_nonpos (by linarith [cos_le_one t]), ← abs_mul, ← sq, abs_of_nonneg (sq_nonneg t)]
      nlinarith [one_sub_sq_div_two_le_cos (x := t), sq_nonneg t]
    exact squeeze_zero_norm hb (by simpa using (continuous_abs.tendsto (0 : ℝ)))
  · exact ContinuousAt.div (by fun_prop) continuousAt_id h

theorem Ci_deriv {x : ℝ} (h : 0 < x) : HasDerivAt Ci (cos x / x) x := by
  have h1 := (cosm1_cont.integral_hasStrictDerivAt 0 x).hasDerivAt
  refine (((hasDerivAt_log h.ne').const_add eulerMascheroniConstant).add h1).congr_deriv ?_
  field_simp
  ring

/-- `-Ci x + log x + γ + sin x / x - 1`. -/
def zvFac (x : ℝ) : ℝ := -Ci x + log x + eulerMascheroniConstant + sin x / x - 1

theorem zvFac_deriv {x : ℝ} (h : 0 < x) : HasDerivAt zvFac ((1 - sin x / x) / x) x := by
  have h1 := (hasDerivAt_sin x).div (hasDerivAt_id x) h.ne'
  refine (((((Ci_deriv h).neg.add (hasDerivAt_log h.ne')).add_const eulerMascheroniConstant).add h1).sub_const 1).congr_deriv ?_
  simp only [id]
  field_simp
  ring

theorem zvFac_nonneg {x : ℝ} (h : 0 < x) : 0 ≤ zvFac x := by
  have e : zvFac x = (∫ t in (0 : ℝ)..x, -((cos t - 1) / t)) - ∫ t in (0 : ℝ)..x, (1 - cos t) / x := by
    have hs : (∫ t in (0 : ℝ)..x, (1 - cos t) / x) = 1 - sin x / x := by
      rw [intervalIntegral.integral_div, intervalIntegral.integral_sub (by simp) (continuous_cos.intervalIntegrable _ _)]
      simp only [intervalIntegral.integral_const, integral_cos, smul_eq_mul, sin_zero]
      field_simp
      ring
    rw [hs, intervalIntegral.integral_neg, zvFac, Ci]
    ring
  rw [e, sub_nonneg]
  refine intervalIntegral.integral_mono_on h.le ?_ ?_ fun t ht => ?_
  · exact Continuous.intervalIntegrable (by fun_prop) _ _
  · exact cosm1_cont.neg.intervalIntegrable _ _
  · rcases ht.1.eq_or_lt with h0 | h0
    · rw [← h0]; simp
    · rw [← neg_div, neg_sub]
      exact div_le_div_of_nonneg_left (by linarith [cos_le_one t]) h0 ht.2

end Verif
