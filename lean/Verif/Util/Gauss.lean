import Verif.Util.Erf
import Mathlib.Analysis.SpecialFunctions.Gaussian.GaussianIntegral
import Mathlib.Analysis.SpecialFunctions.Gaussian.PoissonSummation
import Mathlib.MeasureTheory.Integral.IntegralEqImproper

set_option autoImplicit false

/-! # Truncated moments of a Gaussian in terms of the error function -/

noncomputable section
namespace Verif.Gauss
open Real MeasureTheory Set Filter Topology

theorem erf_atTop : Tendsto erf atTop (𝓝 1) := by
  have h1 : Tendsto (fun x : ℝ => ∫ t in (0 : ℝ)..x, exp (-t ^ 2)) atTop (𝓝 (∫ t in Ioi (0 : ℝ), exp (-t ^ 2))) := by
    refine intervalIntegral_tendsto_integral_Ioi 0 ?_ tendsto_id
    have := (integrable_exp_neg_mul_sq one_pos).integrableOn (s := Ioi 0)
    simpa using this
  have h2 : ∫ t in Ioi (0 : ℝ), exp (-t ^ 2) = √π / 2 := by
    have := integral_gaussian_Ioi 1
    simpa using this
  rw [h2] at h1
  have := h1.const_mul (2 / √π)
  have hp := sqrt_pos.2 pi_pos
  rw [show 2 / √π * (√π / 2) = 1 by field_simp] at this
  exact this

theorem erf_neg (x : ℝ) : erf (-x) = -erf x := by
  unfold erf
  have : ∫ t in (0 : ℝ)..(-x), exp (-t ^ 2) = -∫ t in (0 : ℝ)..x, exp (-t ^ 2) := by
    have h := intervalIntegral.integral_comp_neg (a := 0) (b := x) (fun t : ℝ => exp (-t ^ 2))
    simp only [neg_sq, neg_zero] at h
    rw [h, intervalIntegral.integral_symm]
  rw [this]; ring

theorem erf_atBot : Tendsto erf atBot (𝓝 (-1)) := by
  have := (erf_atTop.comp tendsto_neg_atBot_atTop).neg
  refine this.congr fun x => ?_
  simp only [Function.comp, erf_neg, neg_neg]

theorem erf_strictMono : StrictMono erf := by
  refine strictMono_of_deriv_pos fun x => ?_
  rw [(erf_deriv x).deriv]
  have := sqrt_pos.2 pi_pos
  positivity

theorem erf_gt (x : ℝ) : -1 < erf x := by
  have h : erf (x - 1) < erf x := erf_strictMono (by linarith)
  have : -1 ≤ erf (x - 1) := le_of_tendsto erf_atBot (by
    filter_upwards [eventually_le_atBot (x - 1)] with y hy using erf_strictMono.monotone hy)
  linarith

/-- Unnormalised Gaussian. -/
def g (μ v x : ℝ) : ℝ := exp (-((x - μ) ^ 2) / (2 * v))

theorem g_pos (μ v x : ℝ) : 0 < g μ v x := exp_pos _
theorem g_cont (μ v : ℝ) : Continuous (g μ v) := by unfold g; fun_prop

section
variable {μ v : ℝ} (hv : 0 < v)
include hv

theorem g_deriv (x : ℝ) : HasDerivAt (g μ v) (-(x - μ) / v * g μ v x) x := by
  unfold g
  have h : HasDerivAt (fun x => -((x - μ) ^ 2) / (2 * v)) (-(x - μ) / v) x := by
    refine ((((hasDerivAt_id x).sub_const μ).pow 2).neg.div_const (2 * v)).congr_deriv ?_
    simp only [id]
    field_simp
    simp [mul_comm]
  exact h.exp.congr_deriv (mul_comm _ _)

theorem int_pow (n : ℕ) : Integrable fun x : ℝ => (x - μ) ^ n * g μ v x := by
  have h := integrable_rpow_mul_exp_neg_mul_sq (b := 1 / (2 * v)) (by positivity) (s := n) (by
    have : (0 : ℝ) ≤ n := Nat.cast_nonneg n
    linarith)
  have h2 := h.comp_sub_right μ
  refine h2.congr (Eventually.of_forall fun x => ?_)
  simp only [rpow_natCast, g]
  congr 2
  ring

theorem int0 : Integrable (g μ v) := by simpa using int_pow (μ := μ) hv 0
theorem int1 : Integrable fun x : ℝ => x * g μ v x := by
  have := (int_pow (μ := μ) hv 1).add ((int0 (μ := μ) hv).const_mul μ)
  refine this.congr (Eventually.of_forall fun x => ?_)
  simp only [Pi.add_apply]; ring
theorem int2 : Integrable fun x : ℝ => x ^ 2 * g μ v x := by
  have := (int_pow (μ := μ) hv 2).add (((int1 (μ := μ) hv).const_mul (2 * μ)).sub ((int0 (μ := μ) hv).const_mul (μ ^ 2)))
  refine this.congr (Eventually.of_forall fun x => ?_)
  simp only [Pi.add_apply, Pi.sub_apply]; ring

/-- Antiderivative of the Gaussian. -/
theorem anti0 (x : ℝ) : HasDerivAt (fun x => √(2 * π * v) / 2 * erf ((x - μ) / √(2 * v))) (g μ v x) x := by
  have hs := sqrt_pos.2 (show 0 < 2 * v by positivity)
  have hp := sqrt_pos.2 pi_pos
  have h1 := ((erf_deriv ((x - μ) / √(2 * v))).comp x (((hasDerivAt_id x).sub_const μ).div_const (√(2 * v)))).const_mul
    (√(2 * π * v) / 2)
  refine h1.congr_deriv ?_
  have e : √(2 * π * v) = √π * √(2 * v) := by rw [← sqrt_mul pi_pos.le]; congr 1; ring
  rw [e, div_pow, sq_sqrt (by positivity)]
  unfold g
  rw [neg_div]
  field_simp

theorem intvl0 (a b : ℝ) : ∫ x in a..b, g μ v x
    = √(2 * π * v) / 2 * (erf ((b - μ) / √(2 * v)) - erf ((a - μ) / √(2 * v))) := by
  rw [intervalIntegral.integral_eq_sub_of_hasDerivAt (fun x _ => anti0 hv x) ((g_cont μ v).intervalIntegrable _ _)]
  ring

theorem intvl1 (a b : ℝ) : ∫ x in a..b, x * g μ v x
    = μ * (∫ x in a..b, g μ v x) + v * (g μ v a - g μ v b) := by
  have hd : ∀ x ∈ uIcc a b, HasDerivAt (fun x => -v * g μ v x) ((x - μ) * g μ v x) x := fun x _ => by
    refine ((g_deriv hv x).const_mul (-v)).congr_deriv ?_
    field_simp
  have hc : Continuous fun x => (x - μ) * g μ v x := by have := g_cont μ v; fun_prop
  have h := intervalIntegral.integral_eq_sub_of_hasDerivAt hd (hc.intervalIntegrable _ _)
  have e : ∀ x : ℝ, x * g μ v x = (x - μ) * g μ v x + μ * g μ v x := fun x => by ring
  simp_rw [e]
  rw [intervalIntegral.integral_add (hc.intervalIntegrable _ _) (((g_cont μ v).const_mul μ).intervalIntegrable _ _), h,
    intervalIntegral.integral_const_mul]
  ring

theorem g_atTop : Tendsto (g μ v) atTop (𝓝 0) := by
  unfold g
  refine tendsto_exp_atBot.comp ?_
  have h1 : Tendsto (fun x : ℝ => x - μ) atTop atTop := tendsto_atTop_add_const_right _ _ tendsto_id
  have h2 : Tendsto (fun x : ℝ => (x - μ) ^ 2) atTop atTop := (tendsto_pow_atTop two_ne_zero).comp h1
  have h3 := (tendsto_neg_atTop_atBot.comp h2).atBot_div_const (show 0 < 2 * v by positivity)
  exact h3

theorem tail0 (l : ℝ) : ∫ x in Ioi l, g μ v x = √(2 * π * v) * (0.5 * (1 + erf ((μ - l) / √(2 * v)))) := by
  have hs := sqrt_pos.2 (show 0 < 2 * v by positivity)
  have ht : Tendsto (fun x => √(2 * π * v) / 2 * erf ((x - μ) / √(2 * v))) atTop (𝓝 (√(2 * π * v) / 2 * 1)) := by
    refine Tendsto.const_mul _ (erf_atTop.comp ?_)
    exact (tendsto_atTop_add_const_right _ _ tendsto_id).atTop_div_const hs
  rw [integral_Ioi_of_hasDerivAt_of_tendsto' (fun x _ => anti0 hv x) (int0 hv).integrableOn ht,
    show (μ - l) / √(2 * v) = -((l - μ) / √(2 * v)) by ring, erf_neg]
  ring

theorem tail1 (l : ℝ) : ∫ x in Ioi l, x * g μ v x = μ * (∫ x in Ioi l, g μ v x) + v * g μ v l := by
  have hd : ∀ x ∈ Ici l, HasDerivAt (fun x => -v * g μ v x) ((x - μ) * g μ v x) x := fun x _ => by
    refine ((g_deriv hv x).const_mul (-v)).congr_deriv ?_
    field_simp
  have hi : Integrable fun x : ℝ => (x - μ) * g μ v x := by simpa using int_pow (μ := μ) hv 1
  have ht := (g_atTop (μ := μ) hv).const_mul (-v)
  rw [mul_zero] at ht
  have h := integral_Ioi_of_hasDerivAt_of_tendsto' hd hi.integrableOn ht
  have e : ∀ x : ℝ, x * g μ v x = (x - μ) * g μ v x + μ * g μ v x := fun x => by ring
  simp_rw [e]
  rw [integral_add hi.integrableOn ((int0 hv).const_mul μ).integrableOn, h, integral_const_mul]
  ring

theorem xg_atTop : Tendsto (fun x => (x - μ) * g μ v x) atTop (𝓝 0) := by
  have h1 : Tendsto (fun x : ℝ => x - μ) atTop atTop := tendsto_atTop_add_const_right _ _ tendsto_id
  have h := (tendsto_rpow_abs_mul_exp_neg_mul_sq_cocompact (a := 1 / (2 * v)) (by positivity) 1)
  have h2 := (h.mono_left atTop_le_cocompact).comp h1
  refine (h2.congr' ?_)
  filter_upwards [eventually_ge_atTop μ] with x hx
  simp only [Function.comp, rpow_one, abs_of_nonneg (sub_nonneg.2 hx), g]
  congr 2
  ring

theorem tail2 (l : ℝ) : ∫ x in Ioi l, x ^ 2 * g μ v x
    = (μ ^ 2 + v) * (∫ x in Ioi l, g μ v x) + v * (μ + l) * g μ v l := by
  have hd : ∀ x ∈ Ici l, HasDerivAt (fun x => -v * ((x - μ) * g μ v x + 2 * μ * g μ v x))
      ((x ^ 2 - μ ^ 2 - v) * g μ v x) x := fun x _ => by
    refine (((((hasDerivAt_id x).sub_const μ).mul (g_deriv hv x)).add ((g_deriv hv x).const_mul (2 * μ))).const_mul (-v)).congr_deriv ?_
    simp only [id]
    field_simp
    ring
  have hi : Integrable fun x : ℝ => (x ^ 2 - μ ^ 2 - v) * g μ v x := by
    refine ((int2 (μ := μ) hv).sub ((int0 (μ := μ) hv).const_mul (μ ^ 2 + v))).congr (Eventually.of_forall fun x => ?_)
    simp only [Pi.sub_apply]; ring
  have ht := ((xg_atTop (μ := μ) hv).add ((g_atTop (μ := μ) hv).const_mul (2 * μ))).const_mul (-v)
  rw [mul_zero, add_zero, mul_zero] at ht
  have h := integral_Ioi_of_hasDerivAt_of_tendsto' hd hi.integrableOn ht
  have e : ∀ x : ℝ, x ^ 2 * g μ v x = (x ^ 2 - μ ^ 2 - v) * g μ v x + (μ ^ 2 + v) * g μ v x := fun x => by ring
  simp_rw [e]
  rw [integral_add hi.integrableOn ((int0 hv).const_mul _).integrableOn, h, integral_const_mul]
  ring

theorem tail0_pos (l : ℝ) : 0 < ∫ x in Ioi l, g μ v x := by
  rw [tail0 hv]
  have := erf_gt ((μ - l) / √(2 * v))
  have : 0 < √(2 * π * v) := sqrt_pos.2 (by positivity)
  nlinarith
end

end Verif.Gauss
