import Verif.Util.Gauss
import Verif.Model.DF.StreamGap
import Verif.Lemmas.Stream
import Mathlib.MeasureTheory.Integral.IntegralEqImproper

set_option autoImplicit false

/-!
# streamgapdf: the closed forms as integrals
-/

noncomputable section
namespace Verif.StreamGap
open Real MeasureTheory Set Gauss Stream

/-! ### one interval -/

section
variable {μ v : ℝ} (hv : 0 < v)
include hv

/-- Density of one interval: frequencies `O` between `L` and `B` were `O - c0 - c1 (B - O)` before the kick. -/
theorem seg0 {c0 c1 B L : ℝ} (hq : 1 + c1 ≠ 0) :
    ∫ O in L..B, g μ v (O - (c0 + c1 * (B - O)))
      = √(2 * π * v) * (0.5 / (1 + c1) * (erf (1 / √(2 * v) * (B - c0 - μ))
        - erf (1 / √(2 * v) * (L - c0 - μ - c1 * (B - L))))) := by
  have e : (fun O : ℝ => g μ v (O - (c0 + c1 * (B - O)))) = fun O => g μ v ((1 + c1) * O - (c0 + c1 * B)) := by
    funext O
    congr 1
    ring
  rw [e, intervalIntegral.integral_comp_mul_sub (g μ v) hq, intvl0 hv, smul_eq_mul]
  have e1 : ((1 + c1) * B - (c0 + c1 * B) - μ) / √(2 * v) = 1 / √(2 * v) * (B - c0 - μ) := by ring
  have e2 : ((1 + c1) * L - (c0 + c1 * B) - μ) / √(2 * v) = 1 / √(2 * v) * (L - c0 - μ - c1 * (B - L)) := by ring
  rw [e1, e2]
  ring

/-- First moment of one interval. -/
theorem seg1 {c0 c1 B L : ℝ} (hq : 1 + c1 ≠ 0) :
    ∫ O in L..B, O * g μ v (O - (c0 + c1 * (B - O)))
      = (B + (μ + c0 - B) / (1 + c1)) * (∫ O in L..B, g μ v (O - (c0 + c1 * (B - O))))
        + v / (1 + c1) ^ 2 * (g μ v (B - c0 - (1 + c1) * (B - L)) - g μ v (B - c0)) := by
  have e : (fun O : ℝ => O * g μ v (O - (c0 + c1 * (B - O))))
      = fun O => (fun z => (z + (c0 + c1 * B)) / (1 + c1) * g μ v z) ((1 + c1) * O - (c0 + c1 * B)) := by
    funext O
    have h1 : O - (c0 + c1 * (B - O)) = (1 + c1) * O - (c0 + c1 * B) := by ring
    have h2 : ((1 + c1) * O - (c0 + c1 * B) + (c0 + c1 * B)) / (1 + c1) = O := by
      rw [sub_add_cancel, mul_div_cancel_left₀ _ hq]
    simp only [h1, h2]
  have e0 : (fun O : ℝ => g μ v (O - (c0 + c1 * (B - O)))) = fun O => g μ v ((1 + c1) * O - (c0 + c1 * B)) := by
    funext O
    congr 1
    ring
  rw [e, e0, intervalIntegral.integral_comp_mul_sub (fun z => (z + (c0 + c1 * B)) / (1 + c1) * g μ v z) hq,
    intervalIntegral.integral_comp_mul_sub (g μ v) hq]
  have hc := g_cont μ v
  have e3 : ∀ x y : ℝ, ∫ z in x..y, (z + (c0 + c1 * B)) / (1 + c1) * g μ v z
      = ((∫ z in x..y, z * g μ v z) + (c0 + c1 * B) * ∫ z in x..y, g μ v z) / (1 + c1) := by
    intro x y
    rw [← intervalIntegral.integral_const_mul, ← intervalIntegral.integral_add, ← intervalIntegral.integral_div]
    · congr 1
      funext z
      ring
    · exact (continuous_id.mul hc).intervalIntegrable _ _
    · exact (hc.const_mul _).intervalIntegrable _ _
  rw [e3, intvl1 hv]
  have b1 : (1 + c1) * L - (c0 + c1 * B) = B - c0 - (1 + c1) * (B - L) := by ring
  have b2 : (1 + c1) * B - (c0 + c1 * B) = B - c0 := by ring
  rw [b1, b2]
  generalize (∫ z in (B - c0 - (1 + c1) * (B - L))..(B - c0), g μ v z) = I
  simp only [smul_eq_mul]
  field_simp
  ring

end

/-! ### moments of the Gaussian between two limits -/

theorem gaussx_eq (l u : ℝ) : ∀ j, gaussxpolyInt l u j = 2 / √π * ∫ x in l..u, x ^ (j + 1) * exp (-x ^ 2) := by
  have hp := (sqrt_pos.2 pi_pos).ne'
  have d0 : ∀ x : ℝ, HasDerivAt (fun x : ℝ => exp (-x ^ 2)) (exp (-x ^ 2) * -(2 * x)) x := fun x => by
    have := (((hasDerivAt_id x).pow 2).neg).exp
    refine this.congr_deriv ?_
    simp
  -- integration by parts
  have parts : ∀ k : ℕ, ∫ x in l..u, x ^ (k + 2) * exp (-x ^ 2)
      = 0.5 * (l ^ (k + 1) * exp (-l ^ 2) - u ^ (k + 1) * exp (-u ^ 2)) + 0.5 * (k + 1) * ∫ x in l..u, x ^ k * exp (-x ^ 2) := by
    intro k
    have hd : ∀ x ∈ uIcc l u, HasDerivAt (fun x : ℝ => x ^ (k + 1) * exp (-x ^ 2))
        ((k + 1) * (x ^ k * exp (-x ^ 2)) - 2 * (x ^ (k + 2) * exp (-x ^ 2))) x := fun x _ => by
      refine ((hasDerivAt_pow (k + 1) x).mul (d0 x)).congr_deriv ?_
      simp only [Nat.add_sub_cancel]
      push_cast
      ring
    have hi1 : IntervalIntegrable (fun x : ℝ => x ^ k * exp (-x ^ 2)) volume l u :=
      (by fun_prop : Continuous fun x : ℝ => x ^ k * exp (-x ^ 2)).intervalIntegrable _ _
    have hi2 : IntervalIntegrable (fun x : ℝ => x ^ (k + 2) * exp (-x ^ 2)) volume l u :=
      (by fun_prop : Continuous fun x : ℝ => x ^ (k + 2) * exp (-x ^ 2)).intervalIntegrable _ _
    have := intervalIntegral.integral_eq_sub_of_hasDerivAt hd ((hi1.const_mul _).sub (hi2.const_mul _))
    rw [intervalIntegral.integral_sub (hi1.const_mul _) (hi2.const_mul _), intervalIntegral.integral_const_mul,
      intervalIntegral.integral_const_mul] at this
    norm_num
    linarith
  have one : ∫ x in l..u, x ^ 1 * exp (-x ^ 2) = 0.5 * (exp (-l ^ 2) - exp (-u ^ 2)) := by
    have hd : ∀ x ∈ uIcc l u, HasDerivAt (fun x : ℝ => -0.5 * exp (-x ^ 2)) (x ^ 1 * exp (-x ^ 2)) x := fun x _ => by
      refine ((d0 x).const_mul (-0.5)).congr_deriv ?_
      ring
    rw [intervalIntegral.integral_eq_sub_of_hasDerivAt hd
      ((by fun_prop : Continuous fun x : ℝ => x ^ 1 * exp (-x ^ 2)).intervalIntegrable _ _)]
    ring
  have zero : ∫ x in l..u, x ^ 0 * exp (-x ^ 2) = √π / 2 * (erf u - erf l) := by
    have hd : ∀ x ∈ uIcc l u, HasDerivAt (fun x : ℝ => √π / 2 * erf x) (x ^ 0 * exp (-x ^ 2)) x := fun x _ => by
      refine ((erf_deriv x).const_mul (√π / 2)).congr_deriv ?_
      field_simp
      try ring
    rw [intervalIntegral.integral_eq_sub_of_hasDerivAt hd
      ((by fun_prop : Continuous fun x : ℝ => x ^ 0 * exp (-x ^ 2)).intervalIntegrable _ _)]
    ring
  intro j
  induction j using Nat.strong_induction_on with
  | _ j ih =>
    match j with
    | 0 =>
      rw [gaussxpolyInt, zero_add, one]
      ring
    | 1 =>
      rw [gaussxpolyInt, parts 0, zero]
      push_cast
      field_simp
      ring
    | j + 2 =>
      rw [gaussxpolyInt, ih j (by omega), show j + 2 + 1 = (j + 1) + 2 by ring, parts (j + 1)]
      push_cast
      field_simp
      ring

/-! ### higher orders, one interval -/

/-- The integral over the frequencies of one interval in terms of `x = (O_before - μ) / √(2 v)`. -/
theorem subst_x {μ v c0 c1 B L : ℝ} (hv : 0 < v) (hq : 1 + c1 ≠ 0) (F : ℝ → ℝ) :
    ∫ O in L..B, F ((O - (c0 + c1 * (B - O)) - μ) / √(2 * v))
      = √(2 * v) / (1 + c1) * ∫ x in ((L - c0 - μ - c1 * (B - L)) / √(2 * v))..((B - c0 - μ) / √(2 * v)), F x := by
  have hs := (sqrt_pos.2 (show 0 < 2 * v by positivity)).ne'
  have e : (fun O : ℝ => F ((O - (c0 + c1 * (B - O)) - μ) / √(2 * v)))
      = fun O => F ((1 + c1) / √(2 * v) * O - (c0 + c1 * B + μ) / √(2 * v)) := by
    funext O
    congr 1
    ring
  rw [e, intervalIntegral.integral_comp_mul_sub F (div_ne_zero hq hs), smul_eq_mul]
  have b1 : (1 + c1) / √(2 * v) * L - (c0 + c1 * B + μ) / √(2 * v) = (L - c0 - μ - c1 * (B - L)) / √(2 * v) := by ring
  have b2 : (1 + c1) / √(2 * v) * B - (c0 + c1 * B + μ) / √(2 * v) = (B - c0 - μ) / √(2 * v) := by ring
  rw [b1, b2, inv_div]

/-- One power of the angle: the sum over the rows is the first-order change of the density. -/
theorem power_eq {μ v c0 c1 B L : ℝ} (hv : 0 < v) (hq : 1 + c1 ≠ 0) (m K : ℕ) (hm : m ≤ K) (cm : ℝ) :
    ∑ j ∈ Finset.range (K + 1), gaussxpolyInt ((L - c0 - μ - c1 * (B - L)) / √(2 * v)) ((B - c0 - μ) / √(2 * v)) j
        * (-0.5 * (-√2) ^ (j + 1) * v ^ (0.5 * ((j : ℝ) - 1)))
        * (cm / (1 + c1) ^ (m + 1) * (m.choose j : ℝ) * (B - c0 - μ) ^ (m - j))
      = cm / √(2 * π) * ∫ O in L..B, (B - O) ^ m * ((O - (c0 + c1 * (B - O)) - μ) / v)
          * (g μ v (O - (c0 + c1 * (B - O))) / √v) := by
  have hs0 := sqrt_pos.2 (show 0 < 2 * v by positivity)
  have hs := hs0.ne'
  have hsq : √(2 * v) ^ 2 = 2 * v := sq_sqrt (by positivity)
  have hsv : √(2 * v) = √2 * √v := sqrt_mul (by norm_num) _
  have hv2 : √v ^ 2 = v := sq_sqrt hv.le
  have hv0 := sqrt_pos.2 hv
  have h20 : 0 < √(2 : ℝ) := sqrt_pos.2 (by norm_num)
  have h22 : √(2 : ℝ) ^ 2 = 2 := sq_sqrt (by norm_num)
  have hp0 := sqrt_pos.2 pi_pos
  have h2p : √(2 * π) = √2 * √π := sqrt_mul (by norm_num) _
  have hpow : ∀ j : ℕ, v ^ (0.5 * ((j : ℝ) - 1)) = √v ^ j / √v := by
    intro j
    rw [sqrt_eq_rpow, ← rpow_natCast, ← rpow_mul hv.le, ← rpow_sub hv]
    congr 1
    ring
  -- to the variable x
  have e : ∀ O : ℝ, (B - O) ^ m * ((O - (c0 + c1 * (B - O)) - μ) / v) * (g μ v (O - (c0 + c1 * (B - O))) / √v)
      = (fun x => ((B - c0 - μ - √(2 * v) * x) / (1 + c1)) ^ m * (√(2 * v) * x / v) * (exp (-x ^ 2) / √v))
        ((O - (c0 + c1 * (B - O)) - μ) / √(2 * v)) := by
    intro O
    have h1 : √(2 * v) * ((O - (c0 + c1 * (B - O)) - μ) / √(2 * v)) = O - (c0 + c1 * (B - O)) - μ := by field_simp
    have h2 : (B - c0 - μ - (O - (c0 + c1 * (B - O)) - μ)) / (1 + c1) = B - O := by
      rw [div_eq_iff hq]
      ring
    have h3 : -((O - (c0 + c1 * (B - O)) - μ) / √(2 * v)) ^ 2 = -(O - (c0 + c1 * (B - O)) - μ) ^ 2 / (2 * v) := by
      rw [div_pow, hsq, neg_div]
    simp only
    rw [h1, h2, h3]
    rfl
  have key := (intervalIntegral.integral_congr (a := L) (b := B) (μ := volume) fun O _ => e O).trans (subst_x (μ := μ) (c0 := c0)
    (c1 := c1) (B := B) (L := L) hv hq
    fun x => ((B - c0 - μ - √(2 * v) * x) / (1 + c1)) ^ m * (√(2 * v) * x / v) * (exp (-x ^ 2) / √v))
  rw [key]
  clear key e
  generalize (L - c0 - μ - c1 * (B - L)) / √(2 * v) = l
  generalize (B - c0 - μ) / √(2 * v) = u
  generalize B - c0 - μ = A
  -- expand the power
  have ex : ∀ x : ℝ, ((A - √(2 * v) * x) / (1 + c1)) ^ m * (√(2 * v) * x / v) * (exp (-x ^ 2) / √v)
      = ∑ j ∈ Finset.range (K + 1), ((-√(2 * v)) ^ j * A ^ (m - j) * (m.choose j : ℝ) / (1 + c1) ^ m * √(2 * v) / v / √v)
        * (x ^ (j + 1) * exp (-x ^ 2)) := by
    intro x
    have hbin : (A - √(2 * v) * x) ^ m = ∑ j ∈ Finset.range (K + 1), (-√(2 * v) * x) ^ j * A ^ (m - j) * (m.choose j : ℝ) := by
      rw [show A - √(2 * v) * x = -√(2 * v) * x + A by ring, add_pow]
      refine Finset.sum_subset (Finset.range_mono (by omega)) fun j _ hj => ?_
      have : m < j := by
        simp only [Finset.mem_range, not_lt] at hj
        omega
      rw [Nat.choose_eq_zero_of_lt this, Nat.cast_zero, mul_zero]
    rw [div_pow, hbin, Finset.sum_div, Finset.sum_mul, Finset.sum_mul]
    refine Finset.sum_congr rfl fun j _ => ?_
    rw [mul_pow]
    ring
  simp_rw [ex]
  rw [intervalIntegral.integral_finset_sum fun j _ =>
    (by fun_prop : Continuous fun x : ℝ => ((-√(2 * v)) ^ j * A ^ (m - j) * (m.choose j : ℝ) / (1 + c1) ^ m * √(2 * v) / v / √v)
        * (x ^ (j + 1) * exp (-x ^ 2))).intervalIntegrable _ _]
  rw [Finset.mul_sum, Finset.mul_sum]
  refine Finset.sum_congr rfl fun j _ => ?_
  rw [intervalIntegral.integral_const_mul, gaussx_eq, hpow]
  generalize (∫ x in l..u, x ^ (j + 1) * exp (-x ^ 2)) = I
  have hneg : (-√(2 * v)) ^ j = (-√2) ^ j * √v ^ j := by rw [hsv, ← mul_pow]; ring
  rw [hneg, h2p, pow_succ (-√2) j, pow_succ (1 + c1) m, hsv]
  generalize (-√2) ^ j = S
  generalize √v ^ j = W
  generalize A ^ (m - j) = A'
  generalize (m.choose j : ℝ) = C'
  generalize (1 + c1) ^ m = Q at *
  rw [← hv2]
  by_cases hQ : Q = 0
  · simp [hQ]
  generalize √v = V at *
  generalize √π = P at *
  generalize √2 = R at *
  field_simp
  rw [sqrt_sq hv0.le]
  ring

end Verif.StreamGap
