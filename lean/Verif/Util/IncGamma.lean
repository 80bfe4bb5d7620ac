import Verif.Util.Hyper
import Mathlib.Analysis.SpecialFunctions.Gamma.Basic
import Mathlib.MeasureTheory.Integral.DominatedConvergence
import Mathlib.MeasureTheory.Integral.IntervalIntegral.FundThmCalculus

set_option autoImplicit false

/-! # The incomplete Gamma function and `1F1(s; s+1; -x)` -/

noncomputable section
namespace Verif
open Real MeasureTheory Set Filter Topology Hyper

/-- The lower incomplete Gamma function. -/
def lowerGamma (s x : ℝ) : ℝ := ∫ t in (0:ℝ)..x, t ^ (s - 1) * exp (-t)
/-- The regularised one, `scipy.special.gammainc` and `gsl_sf_gamma_inc_P`. -/
def gammainc (s x : ℝ) : ℝ := lowerGamma s x / Gamma s
/-- The upper one, `gsl_sf_gamma_inc`. -/
def upperGamma (s x : ℝ) : ℝ := ∫ t in Ioi x, t ^ (s - 1) * exp (-t)
/-- Kummer's function, `scipy.special.hyp1f1`, as its power series. -/
def hyp1f1 (a b x : ℝ) : ℝ := ∑' n : ℕ, poch a n / poch b n * x ^ n / n.factorial

theorem igamma_int {s : ℝ} (hs : 0 < s) : IntegrableOn (fun t : ℝ => t ^ (s - 1) * exp (-t)) (Ioi 0) := by
  have := GammaIntegral_convergent hs
  simpa only [mul_comm] using this

theorem igamma_int' {s : ℝ} (hs : 0 < s) {a b : ℝ} (ha : 0 ≤ a) (hb : 0 ≤ b) :
    IntervalIntegrable (fun t : ℝ => t ^ (s - 1) * exp (-t)) volume a b := by
  rw [intervalIntegrable_iff]
  refine (igamma_int hs).mono_set fun t ht => ?_
  rw [uIoc, mem_Ioc] at ht
  exact lt_of_le_of_lt (le_min ha hb) ht.1

theorem gammainc_mul {s : ℝ} (hs : 0 < s) (x : ℝ) : Gamma s * gammainc s x = lowerGamma s x := by
  unfold gammainc
  have := (Gamma_pos_of_pos hs).ne'
  field_simp

theorem upper_lower {s : ℝ} (hs : 0 < s) {x : ℝ} (hx : 0 ≤ x) : Gamma s - upperGamma s x = lowerGamma s x := by
  have e : Gamma s = ∫ t in Ioi (0:ℝ), t ^ (s - 1) * exp (-t) := by
    rw [Gamma_eq_integral hs]
    simp only [mul_comm]
  rw [e, sub_eq_iff_eq_add]
  unfold upperGamma lowerGamma
  exact (intervalIntegral.integral_interval_add_Ioi (igamma_int hs) ((igamma_int hs).mono_set (Ioi_subset_Ioi hx))).symm

theorem lowerGamma_deriv {s : ℝ} (hs : 0 < s) {x : ℝ} (hx : 0 < x) :
    HasDerivAt (lowerGamma s) (x ^ (s - 1) * exp (-x)) x := by
  refine intervalIntegral.integral_hasDerivAt_right (igamma_int' hs le_rfl hx.le) ?_ ?_
  · refine ContinuousOn.stronglyMeasurableAtFilter isOpen_Ioi (s := Ioi 0) ?_ x hx
    exact (continuousOn_id.rpow_const fun t ht => Or.inl (ne_of_gt ht)).mul (by fun_prop)
  · exact (continuousAt_id.rpow_const (Or.inl hx.ne')).mul (by fun_prop)

theorem lowerGamma_pos {s : ℝ} (hs : 0 < s) {x : ℝ} (hx : 0 < x) : 0 < lowerGamma s x :=
  intervalIntegral.intervalIntegral_pos_of_pos_on (igamma_int' hs le_rfl hx.le)
    (fun t ht => mul_pos (rpow_pos_of_pos ht.1 _) (exp_pos _)) hx

theorem lowerGamma_le {s : ℝ} (hs : 0 < s) {x : ℝ} (hx : 0 ≤ x) : lowerGamma s x ≤ x ^ s / s := by
  have e : ∫ t in (0:ℝ)..x, t ^ (s - 1) = x ^ s / s := by
    rw [integral_rpow (Or.inl (by linarith)), sub_add_cancel, zero_rpow hs.ne', sub_zero]
  rw [← e]
  refine intervalIntegral.integral_mono_on hx (igamma_int' hs le_rfl hx)
    (intervalIntegral.intervalIntegrable_rpow' (by linarith)) fun t ht => ?_
  have h1 : exp (-t) ≤ 1 := exp_le_one_iff.2 (by linarith [ht.1])
  exact mul_le_of_le_one_right (rpow_nonneg ht.1 _) h1

theorem lowerGamma_lim {s : ℝ} (hs : 0 < s) : Tendsto (lowerGamma s) atTop (𝓝 (Gamma s)) := by
  rw [Gamma_eq_integral hs]
  have := intervalIntegral_tendsto_integral_Ioi 0 (igamma_int hs) tendsto_id
  unfold lowerGamma
  simpa only [mul_comm, id] using this

theorem poch_ratio {s : ℝ} (hs : 0 < s) (n : ℕ) : poch s n / poch (s + 1) n = s / (s + n) := by
  induction n with
  | zero => simp [poch_zero, div_self hs.ne']
  | succ n ih =>
    have h1 := poch_pos hs n
    have h2 := poch_pos (by linarith : 0 < s + 1) n
    rw [poch_succ, poch_succ]
    have h3 : 0 < s + n := by positivity
    have h4 : 0 < s + 1 + n := by positivity
    rw [mul_div_mul_comm, ih]
    push_cast
    field_simp
    ring

/-- `x^s/s · 1F1(s; s+1; -x)` is the lower incomplete Gamma function. -/
theorem hyp1f1_lower {s : ℝ} (hs : 0 < s) {x : ℝ} (hx : 0 < x) :
    x ^ s / s * hyp1f1 s (s + 1) (-x) = lowerGamma s x := by
  have hF : ∀ n : ℕ, ∀ t ∈ Ioc (0:ℝ) x, t ^ (s - 1) * ((-t) ^ n / n.factorial) = (-1) ^ n / n.factorial * t ^ (s - 1 + n) := by
    intro n t ht
    rw [rpow_add ht.1, rpow_natCast, neg_pow]
    ring
  have hint : ∀ n : ℕ, IntegrableOn (fun t : ℝ => t ^ (s - 1) * ((-t) ^ n / n.factorial)) (Ioc 0 x) := by
    intro n
    have : IntegrableOn (fun t : ℝ => (-1) ^ n / n.factorial * t ^ (s - 1 + n)) (Ioc 0 x) := by
      have := (intervalIntegral.intervalIntegrable_rpow' (a := 0) (b := x) (r := s - 1 + n)
        (by have : (0:ℝ) ≤ n := n.cast_nonneg; linarith)).const_mul ((-1) ^ n / n.factorial)
      rwa [intervalIntegrable_iff_integrableOn_Ioc_of_le hx.le] at this
    exact this.congr_fun (fun t ht => (hF n t ht).symm) measurableSet_Ioc
  have hval : ∀ (n : ℕ) , ∫ t in Ioc (0:ℝ) x, t ^ (s - 1 + n) = x ^ (s + n) / (s + n) := by
    intro n
    rw [← intervalIntegral.integral_of_le hx.le, integral_rpow (Or.inl (by have : (0:ℝ) ≤ n := n.cast_nonneg; linarith)),
      show s - 1 + (n:ℝ) + 1 = s + n by ring, zero_rpow (by positivity)]
    ring
  have hnorm : ∀ n : ℕ, ∫ t in Ioc (0:ℝ) x, ‖t ^ (s - 1) * ((-t) ^ n / n.factorial)‖ = x ^ (s + n) / (s + n) / n.factorial := by
    intro n
    rw [← hval n, ← integral_div]
    refine setIntegral_congr_fun measurableSet_Ioc fun t ht => ?_
    beta_reduce
    rw [hF n t ht, norm_mul, norm_div, norm_pow, norm_neg, norm_one, one_pow, Real.norm_eq_abs, Real.norm_eq_abs,
      abs_of_nonneg (rpow_nonneg ht.1.le _), abs_of_nonneg (Nat.cast_nonneg _)]
    ring
  have hsum : Summable fun n : ℕ => ∫ t in Ioc (0:ℝ) x, ‖t ^ (s - 1) * ((-t) ^ n / n.factorial)‖ := by
    simp only [hnorm]
    refine Summable.of_nonneg_of_le (fun n => by positivity) (fun n => ?_)
      ((summable_pow_div_factorial x).mul_left (x ^ s / s))
    rw [rpow_add hx, rpow_natCast]
    have : (0:ℝ) ≤ n := n.cast_nonneg
    calc x ^ s * x ^ n / (s + n) / n.factorial ≤ x ^ s * x ^ n / s / n.factorial := by gcongr; linarith
      _ = _ := by ring
  have H := hasSum_integral_of_summable_integral_norm hint hsum
  have e1 : ∫ t in Ioc (0:ℝ) x, ∑' n : ℕ, t ^ (s - 1) * ((-t) ^ n / n.factorial) = lowerGamma s x := by
    unfold lowerGamma
    rw [intervalIntegral.integral_of_le hx.le]
    refine integral_congr_ae (Eventually.of_forall fun t => ?_)
    beta_reduce
    rw [tsum_mul_left, Real.exp_eq_exp_ℝ, NormedSpace.exp_eq_tsum_div]
  rw [e1] at H
  have H' := H.tsum_eq
  rw [← H', hyp1f1, ← tsum_mul_left]
  congr 1
  funext n
  have : ∫ t in Ioc (0:ℝ) x, t ^ (s - 1) * ((-t) ^ n / n.factorial) = (-1) ^ n / n.factorial * (x ^ (s + n) / (s + n)) := by
    rw [← hval n, ← integral_const_mul]
    exact setIntegral_congr_fun measurableSet_Ioc (hF n)
  rw [this, poch_ratio hs, rpow_add hx, rpow_natCast, neg_pow]
  have : 0 < s + n := by positivity
  field_simp

end Verif
