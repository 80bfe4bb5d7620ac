import Verif.Lemmas.Pot.EllipsoidalProfiles
import Verif.Lemmas.Mass
import Verif.Util.EllipsoidMass
import Mathlib.Analysis.SpecialFunctions.Trigonometric.ArctanDeriv

set_option autoImplicit false

/-! # Masses within the ellipsoids -/

open Set MeasureTheory Filter Topology Real

namespace Verif.Ellipsoidal

theorem zero_lim {f : ℝ → ℝ} (h : ContinuousAt f 0) (h0 : f 0 = 0) : Tendsto f (𝓝[>] 0) (𝓝 0) := by
  have := h.tendsto
  rw [h0] at this
  exact this.mono_left nhdsWithin_le_nhds

theorem shell_perfect {a : ℝ} (ha : 0 < a) :
    EnclosedMass (perfect a).mdens fun R => 2 * π / a * (arctan (R / a) - R * a / (a ^ 2 + R ^ 2)) := by
  have h : ∀ m : ℝ, a ^ 2 + m ^ 2 ≠ 0 := fun m => by positivity
  refine EnclosedMass.of_deriv (fun r _ => by simp only [perfect]; positivity) (fun r _ => ?_) (zero_lim ?_ (by simp))
  · have d2 : HasDerivAt (fun m : ℝ => a ^ 2 + m ^ 2) (2 * r) r := by
      simpa using (hasDerivAt_pow 2 r).const_add (a ^ 2)
    have d1 := ((hasDerivAt_id r).div_const a).arctan
    have d3 := (((hasDerivAt_id r).mul_const a).fun_div d2 (h r))
    refine ((d1.fun_sub d3).const_mul (2 * π / a)).congr_deriv ?_
    have h1 := h r
    have h2 : 1 + (r / a) ^ 2 ≠ 0 := by positivity
    simp only [perfect, id, zpow_neg]
    norm_cast
    rw [show 1 + (r / a) ^ 2 = (a ^ 2 + r ^ 2) / a ^ 2 by field_simp]
    field_simp
    ring
  · refine ContinuousAt.mul continuousAt_const (ContinuousAt.sub ?_ ?_)
    · exact continuous_arctan.continuousAt.comp (by fun_prop)
    · exact ContinuousAt.div (by fun_prop) (by fun_prop) (h 0)

theorem shell_hernquist {a : ℝ} (ha : 0 < a) :
    EnclosedMass (hernquist a).mdens fun R => 4 * π * a ^ 4 / a / (1 + a / R) ^ 2 / 2 := by
  refine EnclosedMass.of_deriv (fun r _ => by simp only [hernquist]; positivity) (fun r hr => ?_) ?_
  · have e : (fun R : ℝ => 4 * π * a ^ 4 / a / (1 + a / R) ^ 2 / 2) =ᶠ[𝓝 r] fun R => 2 * π * a ^ 3 * (R ^ 2 / (R + a) ^ 2) := by
      filter_upwards [lt_mem_nhds hr] with x hx
      have : x + a ≠ 0 := by positivity
      field_simp
      norm_num
    refine HasDerivAt.congr_of_eventuallyEq ?_ e
    have h : r + a ≠ 0 := by positivity
    refine ((((hasDerivAt_id r).fun_pow 2).fun_div (((hasDerivAt_id r).add_const a).fun_pow 2)
      (pow_ne_zero 2 h)).const_mul (2 * π * a ^ 3)).congr_deriv ?_
    simp only [hernquist, id]
    field_simp
    norm_num
    ring
  · have := ((ratio_zero ha).pow 2).const_mul (2 * π * a ^ 3)
    simp only [ne_eq, OfNat.ofNat_ne_zero, not_false_eq_true, zero_pow, mul_zero] at this
    refine this.congr' ?_
    filter_upwards [self_mem_nhdsWithin] with x hx
    have hx : 0 < x := hx
    have : x + a ≠ 0 := by positivity
    field_simp
    norm_num

theorem shell_jaffe {a : ℝ} (ha : 0 < a) :
    EnclosedMass (jaffe a).mdens fun R => 4 * π * a * a ^ 2 / (1 + a / R) := by
  refine EnclosedMass.of_deriv (fun r _ => by simp only [jaffe]; positivity) (fun r hr => ?_) ?_
  · have e : (fun R : ℝ => 4 * π * a * a ^ 2 / (1 + a / R)) =ᶠ[𝓝 r] fun R => 4 * π * a ^ 3 * (R / (R + a)) := by
      filter_upwards [lt_mem_nhds hr] with x hx
      have : x + a ≠ 0 := by positivity
      field_simp
    refine HasDerivAt.congr_of_eventuallyEq ?_ e
    have h : r + a ≠ 0 := by positivity
    refine (((hasDerivAt_id r).fun_div ((hasDerivAt_id r).add_const a) h).const_mul (4 * π * a ^ 3)).congr_deriv ?_
    simp only [jaffe, id]
    field_simp
    ring
  · have := (ratio_zero ha).const_mul (4 * π * a ^ 3)
    simp only [mul_zero] at this
    refine this.congr' ?_
    filter_upwards [self_mem_nhdsWithin] with x hx
    have hx : 0 < x := hx
    have : x + a ≠ 0 := by positivity
    field_simp

theorem shell_nfw {a : ℝ} (ha : 0 < a) :
    EnclosedMass (nfw a).mdens fun R => 4 * π * a ^ 3 * (log (1 + R / a) - R / a / (1 + R / a)) := by
  refine EnclosedMass.of_deriv (fun r hr => by simp only [nfw]; positivity) (fun r hr => ?_) (zero_lim ?_ (by simp))
  · have h : 1 + r / a ≠ 0 := by positivity
    have d := ((hasDerivAt_id r).div_const a)
    have d1 := d.const_add 1
    refine (((d1.log h).fun_sub (d.fun_div d1 h)).const_mul (4 * π * a ^ 3)).congr_deriv ?_
    simp only [nfw, id]
    field_simp
    ring
  · have h : (1 : ℝ) + 0 / a ≠ 0 := by simp
    refine ContinuousAt.mul continuousAt_const (ContinuousAt.sub ?_ ?_)
    · exact ContinuousAt.log (by fun_prop) h
    · exact ContinuousAt.div (by fun_prop) (by fun_prop) h

theorem erf_deriv (x : ℝ) : HasDerivAt erf (2 / √π * exp (-x ^ 2)) x := by
  have hc : Continuous fun t : ℝ => exp (-t ^ 2) := by fun_prop
  exact (intervalIntegral.integral_hasDerivAt_right (hc.intervalIntegrable _ _)
    (hc.stronglyMeasurableAtFilter _ _) hc.continuousAt).const_mul _

theorem shell_gaussian {σ : ℝ} (hσ : 0 < σ) :
    EnclosedMass (gaussian σ).mdens fun R => π * (2 * σ ^ 2) * σ * (√(2 * π) * erf (R / σ / √2) - 2 * R / σ * exp (-R ^ 2 / (2 * σ ^ 2))) := by
  have dE : ∀ m : ℝ, HasDerivAt (fun m : ℝ => exp (-m ^ 2 / (2 * σ ^ 2))) (exp (-m ^ 2 / (2 * σ ^ 2)) * (-(2 * m) / (2 * σ ^ 2))) m := by
    intro m
    have : HasDerivAt (fun m : ℝ => -m ^ 2 / (2 * σ ^ 2)) (-(2 * m) / (2 * σ ^ 2)) m := by
      simpa using (((hasDerivAt_pow 2 m).neg).div_const (2 * σ ^ 2))
    exact this.exp
  have de : ∀ R : ℝ, HasDerivAt (fun R => erf (R / σ / √2)) (2 / √π * exp (-(R / σ / √2) ^ 2) * (1 / σ / √2)) R := fun R =>
    HasDerivAt.comp (h₂ := erf) R (erf_deriv (R / σ / √2)) (((hasDerivAt_id R).div_const σ).div_const √2)
  have d : ∀ r : ℝ, HasDerivAt (fun R => π * (2 * σ ^ 2) * σ * (√(2 * π) * erf (R / σ / √2) - 2 * R / σ * exp (-R ^ 2 / (2 * σ ^ 2))))
      (4 * π * r ^ 2 * (gaussian σ).mdens r) r := by
    intro r
    refine ((((de r).const_mul (√(2 * π))).fun_sub ((((hasDerivAt_id r).const_mul 2).div_const σ).fun_mul (dE r))).const_mul
      (π * (2 * σ ^ 2) * σ)).congr_deriv ?_
    have h2 : √2 ^ 2 = 2 := sq_sqrt (by norm_num)
    have e : -(r / σ / √2) ^ 2 = -r ^ 2 / (2 * σ ^ 2) := by
      rw [div_pow, div_pow, h2]; field_simp
    have hp : √π ≠ 0 := (sqrt_pos.2 pi_pos).ne'
    have hp2 : √2 ≠ 0 := by positivity
    simp only [gaussian, e, id]
    rw [sqrt_mul (by norm_num)]
    generalize exp (-r ^ 2 / (2 * σ ^ 2)) = E
    field_simp
    ring
  refine EnclosedMass.of_deriv (fun r _ => by simp only [gaussian]; positivity) (fun r _ => d r)
    (zero_lim (d 0).continuousAt ?_)
  simp [erf]

/-- The quadrature of the base class. -/
theorem shell_int {P : Profile} (h : ∀ R : ℝ, 0 < R → IntervalIntegrable (fun m => m ^ 2 * P.mdens m) volume 0 R) :
    EnclosedMass P.mdens fun R => 4 * π * ∫ m in (0:ℝ)..R, m ^ 2 * P.mdens m := by
  intro R hR
  refine ⟨?_, ?_⟩
  · simpa only [mul_assoc] using (h R hR).const_mul (4 * π)
  · beta_reduce
    rw [← intervalIntegral.integral_const_mul]
    refine intervalIntegral.integral_congr fun m _ => ?_
    ring

theorem power_int {α : ℝ} (h : α < 3) {R : ℝ} (hR : 0 < R) :
    IntervalIntegrable (fun m => m ^ 2 * (power α).mdens m) volume 0 R := by
  have h0 : IntervalIntegrable (fun m : ℝ => m ^ (2 - α)) volume 0 R :=
    intervalIntegral.intervalIntegrable_rpow' (by linarith)
  refine h0.congr fun m hm => ?_
  rw [uIoc_of_le hR.le] at hm
  simp only [power]
  rw [rpow_sub hm.1, rpow_neg hm.1.le, rpow_two]
  rfl

end Verif.Ellipsoidal
