import Mathlib.Analysis.SpecialFunctions.ImproperIntegrals
import Mathlib.Analysis.SpecialFunctions.ExpDeriv
import Mathlib.MeasureTheory.Integral.IntervalIntegral.FundThmCalculus
import Mathlib.Analysis.Calculus.Deriv.MeanValue

set_option autoImplicit false

/-!
# The exponential integral `E1`

`scipy.special.exp1` and `gsl_sf_expint_E1` for positive arguments, as the integral that defines it.
-/

noncomputable section
namespace Verif
open Real MeasureTheory Set Filter
open scoped Topology

/-- The exponential integral. -/
def E1 (x : ℝ) : ℝ := ∫ t in Ioi x, exp (-t) / t

namespace ExpInt

theorem integrable {x : ℝ} (hx : 0 < x) : IntegrableOn (fun t : ℝ => exp (-t) / t) (Ioi x) := by
  refine Integrable.mono' ((integrableOn_exp_neg_Ioi x).div_const x) ?_ ?_
  · refine ContinuousOn.aestronglyMeasurable (ContinuousOn.div (by fun_prop) continuousOn_id fun t ht => ?_) measurableSet_Ioi
    exact (hx.trans ht).ne'
  · refine (ae_restrict_iff' measurableSet_Ioi).2 (Eventually.of_forall fun t ht => ?_)
    have ht' : x < t := ht
    have t0 : 0 < t := hx.trans ht'
    rw [norm_eq_abs, abs_of_pos (by positivity)]
    exact div_le_div_of_nonneg_left (exp_pos _).le hx ht'.le

theorem E1_nonneg {x : ℝ} (hx : 0 < x) : 0 ≤ E1 x :=
  setIntegral_nonneg measurableSet_Ioi fun t ht => div_nonneg (exp_pos _).le (hx.trans ht).le

theorem E1_le {x : ℝ} (hx : 0 < x) : E1 x ≤ exp (-x) / x := by
  have : ∫ t in Ioi x, exp (-t) / x = exp (-x) / x := by rw [integral_div, integral_exp_neg_Ioi]
  rw [← this, E1]
  refine setIntegral_mono_on (integrable hx) ((integrableOn_exp_neg_Ioi x).div_const x) measurableSet_Ioi fun t ht => ?_
  exact div_le_div_of_nonneg_left (exp_pos _).le hx (le_of_lt ht)

theorem E1_split {x y : ℝ} (hx : 0 < x) (hxy : x ≤ y) : E1 x = (∫ t in x..y, exp (-t) / t) + E1 y := by
  rw [E1, E1, intervalIntegral.integral_of_le hxy, ← setIntegral_union (Ioc_disjoint_Ioi le_rfl) measurableSet_Ioi
    ((integrable hx).mono_set Ioc_subset_Ioi_self) (integrable (hx.trans_le hxy)), Ioc_union_Ioi_eq_Ioi hxy]

theorem E1_deriv {x : ℝ} (hx : 0 < x) : HasDerivAt E1 (-(exp (-x) / x)) x := by
  have h2 : 0 < x / 2 := by positivity
  have c : ContinuousOn (fun t : ℝ => exp (-t) / t) (Ioi 0) := ContinuousOn.div (by fun_prop) continuousOn_id fun t ht => ne_of_gt ht
  have i : IntervalIntegrable (fun t : ℝ => exp (-t) / t) volume (x / 2) x := by
    refine (c.mono fun t ht => ?_).intervalIntegrable
    rw [uIcc_of_le (by linarith)] at ht
    exact h2.trans_le ht.1
  have d := intervalIntegral.integral_hasDerivAt_right i (c.stronglyMeasurableAtFilter isOpen_Ioi x hx) (c.continuousAt (Ioi_mem_nhds hx))
  refine (d.const_sub (E1 (x / 2))).congr_of_eventuallyEq ?_
  filter_upwards [Ioi_mem_nhds (show x / 2 < x by linarith)] with y hy
  rw [E1_split h2 (le_of_lt hy)]
  ring

theorem E1_tendsto : Tendsto E1 atTop (𝓝 0) := by
  refine tendsto_of_tendsto_of_tendsto_of_le_of_le' tendsto_const_nhds (h := fun x => exp (-x)) ?_ ?_ ?_
  · exact tendsto_exp_atBot.comp tendsto_neg_atTop_atBot
  · filter_upwards [eventually_gt_atTop 0] with x hx using E1_nonneg hx
  · filter_upwards [eventually_ge_atTop 1] with x hx
    refine (E1_le (by linarith)).trans (div_le_self (exp_pos _).le hx)

/-- The upper bound that makes the total mass decrease with the sharpness of the cut. -/
theorem E1_lt {x : ℝ} (hx : 0 < x) : E1 x < exp (-x) * ((1 + x) / (x * (2 + x))) := by
  have d : ∀ y, 0 < y → HasDerivAt (fun y => exp (-y) * ((1 + y) / (y * (2 + y))) - E1 y) (-(2 * exp (-y) / (y * (2 + y)) ^ 2)) y := fun y hy => by
    have h1 : HasDerivAt (fun y : ℝ => exp (-y)) (-exp (-y)) y := by simpa using (hasDerivAt_neg y).exp
    have h2 : HasDerivAt (fun y : ℝ => (1 + y) / (y * (2 + y))) ((1 * (y * (2 + y)) - (1 + y) * (1 * (2 + y) + y * 1)) / (y * (2 + y)) ^ 2) y :=
      ((hasDerivAt_id y).const_add 1).div ((hasDerivAt_id y).mul ((hasDerivAt_id y).const_add 2)) (by positivity)
    refine ((h1.mul h2).sub (E1_deriv hy)).congr_deriv ?_
    field_simp
    ring
  have sa : StrictAntiOn (fun y => exp (-y) * ((1 + y) / (y * (2 + y))) - E1 y) (Ioi 0) := by
    refine strictAntiOn_of_deriv_neg (convex_Ioi 0) (fun y hy => (d y hy).continuousAt.continuousWithinAt) fun y hy => ?_
    rw [interior_Ioi] at hy
    have hy' : 0 < y := hy
    rw [(d y hy).deriv]
    have : 0 < 2 * exp (-y) / (y * (2 + y)) ^ 2 := by positivity
    linarith
  have lim : Tendsto (fun y => exp (-y) * ((1 + y) / (y * (2 + y))) - E1 y) atTop (𝓝 0) := by
    have a : Tendsto (fun y : ℝ => exp (-y) * ((1 + y) / (y * (2 + y)))) atTop (𝓝 0) := by
      refine tendsto_of_tendsto_of_tendsto_of_le_of_le' tendsto_const_nhds (h := fun x => exp (-x)) (tendsto_exp_atBot.comp tendsto_neg_atTop_atBot) ?_ ?_
      · filter_upwards [eventually_gt_atTop 0] with y hy
        positivity
      · filter_upwards [eventually_ge_atTop 1] with y hy
        refine mul_le_of_le_one_right (exp_pos _).le ((div_le_one (by positivity)).2 ?_)
        nlinarith
    simpa using a.sub E1_tendsto
  have mid : 0 ≤ exp (-(x + 1)) * ((1 + (x + 1)) / ((x + 1) * (2 + (x + 1)))) - E1 (x + 1) := by
    refine le_of_tendsto lim ?_
    filter_upwards [eventually_ge_atTop (x + 1)] with y hy
    exact sa.antitoneOn (show (0 : ℝ) < x + 1 by linarith) (show 0 < y by linarith) hy
  have := sa hx (show (0 : ℝ) < x + 1 by linarith) (show x < x + 1 by linarith)
  simp only [] at this
  linarith

/-- Bounds for small arguments. -/
theorem E1_small {x : ℝ} (hx : 0 < x) (h1 : x ≤ 1) : exp (-1) * -log x ≤ E1 x ∧ E1 x ≤ -log x + 1 := by
  have L : ∫ t in x..1, 1 / t = -log x := by
    rw [integral_one_div_of_pos hx one_pos, one_div, log_inv]
  have c : ContinuousOn (fun t : ℝ => exp (-t) / t) (uIcc x 1) := by
    refine ContinuousOn.div (by fun_prop) continuousOn_id fun t ht => ?_
    rw [uIcc_of_le h1] at ht
    exact (hx.trans_le ht.1).ne'
  have c' : ContinuousOn (fun t : ℝ => 1 / t) (uIcc x 1) := by
    refine ContinuousOn.div (by fun_prop) continuousOn_id fun t ht => ?_
    rw [uIcc_of_le h1] at ht
    exact (hx.trans_le ht.1).ne'
  rw [E1_split hx h1, ← L]
  constructor
  · have : ∫ t in x..1, exp (-1) * (1 / t) ≤ ∫ t in x..1, exp (-t) / t := by
      refine intervalIntegral.integral_mono_on h1 (c'.intervalIntegrable.const_mul _) c.intervalIntegrable fun t ht => ?_
      rw [mul_one_div]
      have : 0 < t := hx.trans_le ht.1
      exact div_le_div_of_nonneg_right (exp_le_exp.2 (by linarith [ht.2])) this.le
    rw [intervalIntegral.integral_const_mul] at this
    linarith [E1_nonneg one_pos]
  · have : ∫ t in x..1, exp (-t) / t ≤ ∫ t in x..1, 1 / t := by
      refine intervalIntegral.integral_mono_on h1 c.intervalIntegrable c'.intervalIntegrable fun t ht => ?_
      have : 0 < t := hx.trans_le ht.1
      exact div_le_div_of_nonneg_right (exp_le_one_iff.2 (by linarith)) this.le
    have b : E1 1 ≤ 1 := (E1_le one_pos).trans (by rw [div_one]; exact exp_le_one_iff.2 (by norm_num))
    linarith

end ExpInt
end Verif
