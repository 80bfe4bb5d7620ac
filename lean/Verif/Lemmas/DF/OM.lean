import Verif.Util.BetaInt
import Mathlib.MeasureTheory.Integral.Prod

set_option autoImplicit false

/-! The velocity integral of a function of `v² + k v_t²`. -/

noncomputable section
namespace Verif.OMaux
open Real MeasureTheory Set Filter

/-- Angular part: an even power of the tangential velocity, any power of the radial one. -/
theorem angular {k : ℝ} (hk : 0 ≤ k) (n j : ℕ) :
    (1 + k) ^ (j + 1) * ∫ η in (0 : ℝ)..π, (cos η ^ n * sin η ^ (2 * j + 1)) / √(1 + k * sin η ^ 2) ^ (2 * j + n + 3)
      = ∫ x in (-1 : ℝ)..1, x ^ n * (1 - x ^ 2) ^ j := by
  have hpos : ∀ η : ℝ, 0 < 1 + k * sin η ^ 2 := fun η => by positivity
  have hd : ∀ η : ℝ, HasDerivAt (fun η => -(cos η / √(1 + k * sin η ^ 2)))
      ((1 + k) * sin η / √(1 + k * sin η ^ 2) ^ 3) η := by
    intro η
    have h1 : HasDerivAt (fun η => 1 + k * sin η ^ 2) (k * (2 * sin η * cos η)) η := by
      have := (((hasDerivAt_sin η).pow 2).const_mul k).const_add 1
      refine this.congr_deriv (by push_cast; ring)
    have h2 := h1.sqrt (hpos η).ne'
    have h3 := ((hasDerivAt_cos η).fun_div h2 (sqrt_pos.2 (hpos η)).ne').fun_neg
    refine h3.congr_deriv ?_
    have hs := sqrt_pos.2 (hpos η)
    have hq := sq_sqrt (hpos η).le
    have hcs := sin_sq_add_cos_sq η
    generalize √(1 + k * sin η ^ 2) = w at *
    field_simp
    rw [hq]
    linear_combination (k * sin η) * hcs
  have hc : Continuous fun η => (1 + k) * sin η / √(1 + k * sin η ^ 2) ^ 3 := by
    refine Continuous.div (by fun_prop) (by fun_prop) fun η => ?_
    exact (pow_pos (sqrt_pos.2 (hpos η)) 3).ne'
  have h := intervalIntegral.integral_comp_mul_deriv (a := 0) (b := π) (f := fun η => -(cos η / √(1 + k * sin η ^ 2)))
    (f' := fun η => (1 + k) * sin η / √(1 + k * sin η ^ 2) ^ 3) (g := fun x => (-x) ^ n * (1 - x ^ 2) ^ j)
    (fun η _ => hd η) hc.continuousOn (by fun_prop)
  simp only [Function.comp_def, cos_zero, sin_zero, cos_pi, sin_pi, ne_eq, OfNat.ofNat_ne_zero, not_false_eq_true,
    zero_pow, mul_zero, add_zero, sqrt_one, div_one, neg_neg] at h
  have hneg : ∫ x in (-1 : ℝ)..1, (-x) ^ n * (1 - x ^ 2) ^ j = ∫ x in (-1 : ℝ)..1, x ^ n * (1 - x ^ 2) ^ j := by
    have := intervalIntegral.integral_comp_neg (a := -1) (b := 1) (fun x : ℝ => x ^ n * (1 - x ^ 2) ^ j)
    simpa using this
  rw [← hneg, ← h, ← intervalIntegral.integral_const_mul]
  refine intervalIntegral.integral_congr fun η _ => ?_
  beta_reduce
  have hs := sqrt_pos.2 (hpos η)
  have hq := sq_sqrt (hpos η).le
  have hcs := sin_sq_add_cos_sq η
  generalize √(1 + k * sin η ^ 2) = w at *
  have e : 1 - (-(cos η / w)) ^ 2 = (1 + k) * sin η ^ 2 / w ^ 2 := by
    field_simp
    rw [hq]
    linear_combination -hcs
  rw [e, div_pow, div_pow, mul_pow, ← pow_mul, ← pow_mul]
  field_simp
  ring

theorem scale_integral {w V : ℝ} (hw : 1 ≤ w) (hV : 0 ≤ V) (N : ℕ) (g : ℝ → ℝ) (hg : ∀ x, V < x → g x = 0) :
    ∫ v in Ioc 0 V, v ^ N * g (v * w) = (1 / w ^ (N + 1)) * ∫ x in Ioc 0 V, x ^ N * g x := by
  have hw0 : 0 < w := by linarith
  have h := intervalIntegral.integral_comp_mul_right (a := 0) (b := V) (fun x => x ^ N * g x) hw0.ne'
  have e : ∫ x in (0 * w)..(V * w), x ^ N * g x = ∫ x in Ioc 0 V, x ^ N * g x := by
    rw [zero_mul, intervalIntegral.integral_of_le (by positivity)]
    refine setIntegral_eq_of_subset_of_forall_diff_eq_zero measurableSet_Ioc
      (Ioc_subset_Ioc_right (by nlinarith)) ?_
    rintro x ⟨hx, hx'⟩
    have : V < x := by
      by_contra hc
      exact hx' ⟨hx.1, not_lt.1 hc⟩
    rw [hg x this, mul_zero]
  rw [e, intervalIntegral.integral_of_le hV, smul_eq_mul] at h
  have e2 : ∫ v in Ioc 0 V, (v * w) ^ N * g (v * w) = w ^ N * ∫ v in Ioc 0 V, v ^ N * g (v * w) := by
    rw [← MeasureTheory.integral_const_mul]
    refine setIntegral_congr_fun measurableSet_Ioc fun v _ => ?_
    ring
  rw [e2] at h
  have : w ^ N ≠ 0 := (pow_pos hw0 N).ne'
  have e3 : ∫ v in Ioc 0 V, v ^ N * g (v * w) = (w ^ N)⁻¹ * (w⁻¹ * ∫ x in Ioc 0 V, x ^ N * g x) := by
    rw [← h, inv_mul_cancel_left₀ this]
  rw [e3, pow_succ]
  field_simp

theorem scale_integrable {w V : ℝ} (hw : 1 ≤ w) (hV : 0 ≤ V) (N : ℕ) (g : ℝ → ℝ) (hg : ∀ x, V < x → g x = 0)
    (hi : IntegrableOn (fun x => x ^ N * g x) (Ioc 0 V)) : IntegrableOn (fun v => v ^ N * g (v * w)) (Ioc 0 V) := by
  have hw0 : 0 < w := by linarith
  have h1 : IntegrableOn (fun x => x ^ N * g x) (Ioc 0 (V * w)) := by
    refine hi.of_forall_diff_eq_zero measurableSet_Ioc ?_
    rintro x ⟨hx, hx'⟩
    have : V < x := by
      by_contra hc
      exact hx' ⟨hx.1, not_lt.1 hc⟩
    rw [hg x this, mul_zero]
  have h2 := ((intervalIntegrable_iff_integrableOn_Ioc_of_le (by positivity)).2 h1).comp_mul_right (c := w)
  rw [zero_div, mul_div_cancel_right₀ _ hw0.ne', intervalIntegrable_iff_integrableOn_Ioc_of_le hV] at h2
  have h3 := h2.const_mul (1 / w ^ N)
  refine IntegrableOn.congr_fun h3 (fun v _ => ?_) measurableSet_Ioc
  beta_reduce
  have : w ^ N ≠ 0 := (pow_pos hw0 N).ne'
  rw [mul_pow]; field_simp

/-- The double integral of an Osipkov-Merritt distribution function. -/
theorem double {k V : ℝ} (hk : 0 ≤ k) (hV : 0 ≤ V) (n m : ℕ) (g : ℝ → ℝ) (hm : Measurable g)
    (hg : ∀ x, V < x → g x = 0) (hi : IntegrableOn (fun x => x ^ (2 + m + n) * g x) (Ioc 0 V)) :
    (∫ v in (0 : ℝ)..V, ∫ η in (0 : ℝ)..π, cos η ^ n * sin η ^ (m + 1) * (v ^ (2 + m + n) * g (v * √(1 + k * sin η ^ 2))))
      = (∫ η in (0 : ℝ)..π, (cos η ^ n * sin η ^ (m + 1)) / √(1 + k * sin η ^ 2) ^ (m + n + 3))
        * ∫ x in (0 : ℝ)..V, x ^ (2 + m + n) * g x := by
  have hw : ∀ η : ℝ, 1 ≤ √(1 + k * sin η ^ 2) := fun η => by
    rw [one_le_sqrt]; nlinarith [mul_nonneg hk (sq_nonneg (sin η))]
  have hw0 : ∀ η : ℝ, 0 < √(1 + k * sin η ^ 2) := fun η => lt_of_lt_of_le one_pos (hw η)
  simp only [intervalIntegral.integral_of_le hV, intervalIntegral.integral_of_le pi_pos.le]
  rw [integral_integral_swap, ← MeasureTheory.integral_mul_const]
  · refine setIntegral_congr_fun measurableSet_Ioc fun η _ => ?_
    beta_reduce
    rw [MeasureTheory.integral_const_mul, scale_integral (hw η) hV _ g hg]
    rw [show 2 + m + n + 1 = m + n + 3 by ring]
    ring
  have hmeas : AEStronglyMeasurable (Function.uncurry fun v η =>
      cos η ^ n * sin η ^ (m + 1) * (v ^ (2 + m + n) * g (v * √(1 + k * sin η ^ 2))))
      ((volume.restrict (Ioc 0 V)).prod (volume.restrict (Ioc 0 π))) := by
    refine Measurable.aestronglyMeasurable ?_
    refine Measurable.mul (by fun_prop) (Measurable.mul (by fun_prop) (hm.comp ?_))
    fun_prop
  rw [integrable_prod_iff' hmeas]
  refine ⟨Eventually.of_forall fun η => ?_, ?_⟩
  · exact (scale_integrable (hw η) hV _ g hg hi).const_mul (cos η ^ n * sin η ^ (m + 1))
  · have e : ∀ η, ∫ v in Ioc 0 V, ‖(Function.uncurry fun v η =>
        cos η ^ n * sin η ^ (m + 1) * (v ^ (2 + m + n) * g (v * √(1 + k * sin η ^ 2)))) (v, η)‖
        = |cos η ^ n * sin η ^ (m + 1)| * ((1 / √(1 + k * sin η ^ 2) ^ (2 + m + n + 1))
          * ∫ x in Ioc 0 V, x ^ (2 + m + n) * |g x|) := by
      intro η
      rw [← scale_integral (hw η) hV _ (fun x => |g x|) (fun x hx => by rw [hg x hx, abs_zero]),
        ← MeasureTheory.integral_const_mul]
      refine setIntegral_congr_fun measurableSet_Ioc fun v hv => ?_
      simp only [Function.uncurry, norm_mul, norm_eq_abs, abs_mul]
      rw [abs_of_nonneg (show 0 ≤ v ^ (2 + m + n) from pow_nonneg hv.1.le _)]
    simp only [e]
    refine Continuous.integrableOn_Ioc ?_
    refine Continuous.mul (by fun_prop) (Continuous.mul (Continuous.div continuous_const (by fun_prop) fun η => ?_)
      continuous_const)
    exact (pow_pos (hw0 η) _).ne'

end Verif.OMaux
