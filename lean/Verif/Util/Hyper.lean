import Verif.Util.Abel
import Mathlib.Analysis.SpecialFunctions.OrdinaryHypergeometric
import Mathlib.Analysis.Analytic.Binomial
import Mathlib.MeasureTheory.Integral.DominatedConvergence

set_option autoImplicit false

/-!
# Integrals of hypergeometric functions, term by term
-/

noncomputable section
open Real MeasureTheory Set Filter Topology

namespace Verif
namespace Hyper

/-- Rising factorials. -/
def poch (b : ℝ) (n : ℕ) : ℝ := (ascPochhammer ℝ n).eval b

theorem poch_succ (b : ℝ) (n : ℕ) : poch b (n + 1) = poch b n * (b + n) := ascPochhammer_succ_eval n b
theorem poch_zero (b : ℝ) : poch b 0 = 1 := by simp [poch]

theorem poch_pos {b : ℝ} (hb : 0 < b) (n : ℕ) : 0 < poch b n := ascPochhammer_pos n b hb

theorem Gamma_poch {b : ℝ} (hb : 0 < b) (n : ℕ) : Gamma (b + n) = poch b n * Gamma b := by
  induction n with
  | zero => simp [poch_zero]
  | succ n ih =>
    have : b + n ≠ 0 := by positivity
    rw [Nat.cast_succ, ← add_assoc, Gamma_add_one this, ih, poch_succ]
    ring

theorem hyp_eq (a b c x : ℝ) :
    ordinaryHypergeometric a b c x = ∑' n : ℕ, (n.factorial : ℝ)⁻¹ * poch a n * poch b n * (poch c n)⁻¹ * x ^ n := by
  rw [ordinaryHypergeometric_eq_tsum]
  rfl

theorem poch_one (n : ℕ) : poch 1 n = n.factorial := by
  simp [poch]

theorem binom_hasSum (b : ℝ) {t : ℝ} (ht : |t| < 1) :
    HasSum (fun n : ℕ => (n.factorial : ℝ)⁻¹ * poch b n * t ^ n) ((1 - t) ^ (-b)) := by
  have h := (one_add_rpow_hasFPowerSeriesOnBall_zero (a := -b)).hasSum (y := -t) (by
    rw [Metric.mem_eball, edist_zero_right, enorm_neg]
    simpa [enorm_eq_nnnorm, ← NNReal.coe_lt_coe] using ht)
  rw [zero_add, ← sub_eq_add_neg] at h
  refine (?_ : (fun n : ℕ => (n.factorial : ℝ)⁻¹ * poch b n * t ^ n) = _) ▸ h
  funext n
  rw [binomialSeries_eq_ordinaryHypergeometricSeries (b := (1 : ℝ)) (by intro k hk; have : (0:ℝ) ≤ k := k.cast_nonneg; linarith)]
  rw [FormalMultilinearSeries.compContinuousLinearMap_apply]
  have := ordinaryHypergeometricSeries_apply_eq (𝕂 := ℝ) b 1 1 t n
  simp only [neg_neg]
  have e : ((-ContinuousLinearMap.id ℝ ℝ : ℝ →L[ℝ] ℝ) ∘ fun _ : Fin n => -t) = fun _ => t := by
    funext i
    simp
  rw [e, this]
  have h1 := poch_one n
  simp only [poch] at h1 ⊢
  rw [h1, smul_eq_mul]
  have : (n.factorial : ℝ) ≠ 0 := by positivity
  field_simp

/-- Term-by-term integration of `(x-ε)^(p-1) ε^(c-1) ₂F₁(p+c, b; c; ε)`. -/
theorem bateman {p c : ℝ} (b : ℝ) {x : ℝ} (hp : 0 < p) (hc : 0 < c) (h0 : 0 < x) (h1 : x < 1) :
    ∫ e in (0 : ℝ)..x, e ^ (c - 1) * (x - e) ^ (p - 1) * ordinaryHypergeometric (p + c) b c e
      = B c p * x ^ (p + c - 1) * (1 - x) ^ (-b) := by
  set k : ℕ → ℝ := fun n => (n.factorial : ℝ)⁻¹ * poch (p + c) n * poch b n * (poch c n)⁻¹ with hk
  have hint : ∀ n : ℕ, IntervalIntegrable (fun e : ℝ => e ^ (c + n - 1) * (x - e) ^ (p - 1)) volume 0 x :=
    fun n => beta_integrable (by positivity) hp h0
  have hval : ∀ n : ℕ, ∫ e in (0 : ℝ)..x, e ^ (c + n - 1) * (x - e) ^ (p - 1) = x ^ (c + n + p - 1) * B (c + n) p :=
    fun n => beta_integral (by positivity) hp h0
  have hterm : ∀ n : ℕ, k n * (x ^ (c + n + p - 1) * B (c + n) p)
      = B c p * x ^ (p + c - 1) * ((n.factorial : ℝ)⁻¹ * poch b n * x ^ n) := by
    intro n
    have e1 : x ^ (c + n + p - 1) = x ^ (p + c - 1) * x ^ n := by
      rw [← rpow_natCast x n, ← rpow_add h0]
      congr 1
      ring
    have e2 : B (c + n) p = B c p * poch c n / poch (p + c) n := by
      unfold B
      rw [Gamma_poch hc, show c + n + p = (p + c) + n by ring, Gamma_poch (by linarith), add_comm c p]
      have := (poch_pos (show 0 < p + c by linarith) n).ne'
      have := (Gamma_pos_of_pos (show 0 < p + c by linarith)).ne'
      field_simp
    rw [e1, e2]
    simp only [k]
    have := (poch_pos (show 0 < p + c by linarith) n).ne'
    have := (poch_pos hc n).ne'
    field_simp
  have hS := (binom_hasSum b (t := x) (by rw [abs_of_pos h0]; exact h1)).mul_left (B c p * x ^ (p + c - 1))
  have key := hasSum_integral_of_summable_integral_norm (μ := volume.restrict (Ioc 0 x))
    (F := fun (n : ℕ) (e : ℝ) => k n * (e ^ (c + n - 1) * (x - e) ^ (p - 1)))
    (fun n => ((intervalIntegrable_iff_integrableOn_Ioc_of_le h0.le).1 (hint n)).const_mul _) (by
      refine hS.summable.norm.congr fun n => ?_
      rw [← hterm n, ← hval n, intervalIntegral.integral_of_le h0.le, norm_mul]
      simp only [norm_mul (k n)]
      rw [MeasureTheory.integral_const_mul]
      congr 1
      rw [Real.norm_eq_abs, abs_of_nonneg]
      · refine setIntegral_congr_fun measurableSet_Ioc fun e he => ?_
        beta_reduce
        rw [Real.norm_eq_abs, abs_of_nonneg]
        exact mul_nonneg (rpow_nonneg he.1.le _) (rpow_nonneg (by linarith [he.2]) _)
      · refine setIntegral_nonneg measurableSet_Ioc fun e he => ?_
        exact mul_nonneg (rpow_nonneg he.1.le _) (rpow_nonneg (by linarith [he.2]) _))
  have h2 : HasSum (fun n : ℕ => ∫ e in Ioc 0 x, k n * (e ^ (c + n - 1) * (x - e) ^ (p - 1)))
      (B c p * x ^ (p + c - 1) * (1 - x) ^ (-b)) := by
    refine (?_ : _ = (fun n : ℕ => ∫ e in Ioc 0 x, k n * (e ^ (c + n - 1) * (x - e) ^ (p - 1)))) ▸ hS
    funext n
    rw [MeasureTheory.integral_const_mul, ← intervalIntegral.integral_of_le h0.le, hval, hterm]
  rw [intervalIntegral.integral_of_le h0.le, h2.unique key]
  refine setIntegral_congr_fun measurableSet_Ioc fun e he => ?_
  beta_reduce
  rw [hyp_eq, ← tsum_mul_left]
  refine tsum_congr fun n => ?_
  have e1 : e ^ (c + n - 1) = e ^ (c - 1) * e ^ n := by
    rw [← rpow_natCast e n, ← rpow_add he.1]
    congr 1
    ring
  rw [e1]
  simp only [k]
  ring

theorem poch_half (n : ℕ) : poch (1 / 2) n * (2 * n + 1) = poch (3 / 2) n := by
  induction n with
  | zero => simp [poch_zero]
  | succ n ih =>
    rw [poch_succ, poch_succ, ← ih]
    push_cast
    ring

/-- `x ₂F₁(1/2, β; 3/2; x²) = ∫₀ˣ (1-t²)^(-β) dt`. -/
theorem arc {x : ℝ} (b : ℝ) (h : |x| < 1) :
    x * ordinaryHypergeometric (1 / 2) b (3 / 2) (x ^ 2) = ∫ t in (0 : ℝ)..x, (1 - t ^ 2) ^ (-b) := by
  have sq : ∀ t : ℝ, |t| < 1 → |t ^ 2| < 1 := fun t ht => by
    rw [abs_pow]
    nlinarith [abs_nonneg t]
  have hS := (binom_hasSum b (sq x h)).mul_left x
  have key := intervalIntegral.hasSum_integral_of_dominated_convergence (a := 0) (b := x) (μ := volume)
    (F := fun (n : ℕ) (t : ℝ) => (n.factorial : ℝ)⁻¹ * poch b n * (t ^ 2) ^ n)
    (f := fun t => (1 - t ^ 2) ^ (-b))
    (fun n _ => |(n.factorial : ℝ)⁻¹ * poch b n * (x ^ 2) ^ n|)
    (fun n => (by fun_prop : Continuous fun t : ℝ => (n.factorial : ℝ)⁻¹ * poch b n * (t ^ 2) ^ n).aestronglyMeasurable)
    (fun n => by
      refine Eventually.of_forall fun t ht => ?_
      rw [Real.norm_eq_abs, abs_mul, abs_mul _ ((x ^ 2) ^ n)]
      refine mul_le_mul_of_nonneg_left ?_ (abs_nonneg _)
      rw [← pow_mul, ← pow_mul, abs_pow, abs_pow]
      refine pow_le_pow_left₀ (abs_nonneg _) ?_ _
      rcases le_total 0 x with h0 | h0
      · rw [uIoc_of_le h0] at ht
        rw [abs_of_pos ht.1, abs_of_nonneg h0]; exact ht.2
      · rw [uIoc_of_ge h0] at ht
        rw [abs_of_nonpos ht.2, abs_of_nonpos h0]; linarith [ht.1])
    (Eventually.of_forall fun t _ => (binom_hasSum b (sq x h)).summable.abs)
    (intervalIntegrable_const)
    (Eventually.of_forall fun t ht => binom_hasSum b (sq t (by
      rcases le_total 0 x with h0 | h0
      · rw [uIoc_of_le h0] at ht
        rw [abs_of_nonneg h0] at h
        rw [abs_of_pos ht.1]; linarith [ht.2]
      · rw [uIoc_of_ge h0] at ht
        rw [abs_of_nonpos h0] at h
        rw [abs_of_nonpos ht.2]; linarith [ht.1])))
  rw [← key.tsum_eq, hyp_eq, ← tsum_mul_left]
  refine tsum_congr fun n => ?_
  simp only [← pow_mul]
  rw [intervalIntegral.integral_const_mul, integral_pow]
  rw [← poch_half n]
  have := (poch_pos (show (0 : ℝ) < 1 / 2 by norm_num) n).ne'
  have h3 : (2 * (n : ℝ) + 1) ≠ 0 := by positivity
  push_cast
  rw [zero_pow (by omega), sub_zero]
  field_simp
  ring

end Hyper
end Verif
