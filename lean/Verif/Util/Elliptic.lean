import Mathlib.Analysis.Calculus.ParametricIntervalIntegral
import Mathlib.Analysis.SpecialFunctions.Sqrt
import Mathlib.Analysis.SpecialFunctions.Trigonometric.Deriv
import Mathlib.Analysis.SpecialFunctions.Integrals.Basic
import Mathlib.MeasureTheory.Integral.DominatedConvergence
import Mathlib.MeasureTheory.Integral.IntervalIntegral.FundThmCalculus

set_option autoImplicit false

/-!
# Complete elliptic integrals

`scipy.special.ellipk` and `ellipe` as the integrals that define them (argument the parameter `m`), and their derivatives.
-/

noncomputable section
namespace Verif
open Real MeasureTheory Set Filter Topology

/-- `scipy.special.ellipk`. -/
def ellipk (m : ℝ) : ℝ := ∫ θ in (0 : ℝ)..(π / 2), 1 / √(1 - m * sin θ ^ 2)
/-- `scipy.special.ellipe`. -/
def ellipe (m : ℝ) : ℝ := ∫ θ in (0 : ℝ)..(π / 2), √(1 - m * sin θ ^ 2)

/-- Differentiation under an interval integral on an open set of parameters. -/
theorem leibniz_on {f f' : ℝ → ℝ → ℝ} {U : Set ℝ} (hU : IsOpen U)
    (h : ∀ x ∈ U, ∀ y, HasDerivAt (fun x => f x y) (f' x y) x) (hf : ∀ x ∈ U, Continuous (f x))
    (hc : ContinuousOn (Function.uncurry f') (U ×ˢ univ)) (a b : ℝ) {x : ℝ} (hx : x ∈ U) :
    HasDerivAt (fun x => ∫ y in a..b, f x y) (∫ y in a..b, f' x y) x := by
  obtain ⟨δ, hδ, hs⟩ := Metric.isOpen_iff.1 hU x hx
  have hsub : Icc (x - δ / 2) (x + δ / 2) ⊆ U := fun u hu => hs (by
    rw [Metric.mem_ball, Real.dist_eq, abs_lt]; constructor <;> linarith [hu.1, hu.2])
  have hk : IsCompact ((Icc (x - δ / 2) (x + δ / 2)) ×ˢ (uIcc a b)) := isCompact_Icc.prod isCompact_uIcc
  have hcs : ContinuousOn (fun q => ‖Function.uncurry f' q‖) ((Icc (x - δ / 2) (x + δ / 2)) ×ˢ (uIcc a b)) :=
    (hc.mono (prod_mono hsub (subset_univ _))).norm
  obtain ⟨C, hC⟩ := (hk.image_of_continuousOn hcs).isBounded.subset_closedBall 0
  have hbd : ∀ u ∈ Icc (x - δ / 2) (x + δ / 2), ∀ y ∈ uIcc a b, ‖f' u y‖ ≤ C := by
    intro u hu y hy
    have := hC ⟨(u, y), ⟨hu, hy⟩, rfl⟩
    simpa [Function.uncurry, mem_closedBall_zero_iff] using this
  have hc' : ∀ u ∈ U, Continuous (f' u) := fun u hu => by
    rw [← continuousOn_univ]
    exact hc.comp (Continuous.prodMk_right u).continuousOn fun y _ => ⟨hu, mem_univ _⟩
  have hm : Icc (x - δ / 2) (x + δ / 2) ∈ 𝓝 x := Icc_mem_nhds (by linarith) (by linarith)
  refine (intervalIntegral.hasDerivAt_integral_of_dominated_loc_of_deriv_le (bound := fun _ => C) hm ?_ ?_ ?_ ?_ ?_ ?_).2
  · filter_upwards [hm] with u hu
    exact (hf u (hsub hu)).aestronglyMeasurable
  · exact (hf x hx).intervalIntegrable a b
  · exact (hc' x hx).aestronglyMeasurable
  · exact Eventually.of_forall fun y hy u hu => hbd u hu y (uIoc_subset_uIcc hy)
  · exact intervalIntegrable_const
  · exact Eventually.of_forall fun y _ u hu => h u (hsub hu) y

theorem ell_pos {m : ℝ} (hm : m < 1) (θ : ℝ) : 0 < 1 - m * sin θ ^ 2 := by
  have h1 := sin_sq_le_one θ
  have h0 := sq_nonneg (sin θ)
  rcases le_or_gt m 0 with h | h
  · nlinarith [mul_nonneg (neg_nonneg.2 h) h0]
  · nlinarith [mul_le_mul_of_nonneg_left h1 h.le]

theorem ellipe_pos {m : ℝ} (hm : m < 1) : 0 < ellipe m := by
  unfold ellipe
  refine intervalIntegral.intervalIntegral_pos_of_pos ?_ (fun θ => sqrt_pos.2 (ell_pos hm θ)) (by positivity)
  exact Continuous.intervalIntegrable (by fun_prop) _ _

theorem ellipe_deriv_raw {m : ℝ} (hm : m < 1) :
    HasDerivAt ellipe (∫ θ in (0 : ℝ)..(π / 2), -(sin θ ^ 2) / (2 * √(1 - m * sin θ ^ 2))) m := by
  unfold ellipe
  refine leibniz_on (f := fun m θ => √(1 - m * sin θ ^ 2)) (f' := fun m θ => -(sin θ ^ 2) / (2 * √(1 - m * sin θ ^ 2)))
    (isOpen_Iio (a := (1 : ℝ))) ?_ ?_ ?_ _ _ hm
  · intro x hx y
    have h : HasDerivAt (fun x => 1 - x * sin y ^ 2) (-(sin y ^ 2)) x := by
      simpa using ((hasDerivAt_id x).mul_const (sin y ^ 2)).const_sub 1
    exact h.sqrt (ell_pos hx y).ne'
  · intro x hx; fun_prop
  · refine ContinuousOn.div (by fun_prop) (by fun_prop) ?_
    rintro ⟨x, y⟩ ⟨hx, -⟩
    have := sqrt_pos.2 (ell_pos hx y)
    positivity

theorem ellipk_deriv_raw {m : ℝ} (hm : m < 1) :
    HasDerivAt ellipk (∫ θ in (0 : ℝ)..(π / 2), sin θ ^ 2 / (2 * ((1 - m * sin θ ^ 2) * √(1 - m * sin θ ^ 2)))) m := by
  unfold ellipk
  refine leibniz_on (f := fun m θ => 1 / √(1 - m * sin θ ^ 2))
    (f' := fun m θ => sin θ ^ 2 / (2 * ((1 - m * sin θ ^ 2) * √(1 - m * sin θ ^ 2))))
    (isOpen_Iio (a := (1 : ℝ))) ?_ ?_ ?_ _ _ hm
  · intro x hx y
    have h : HasDerivAt (fun x => 1 - x * sin y ^ 2) (-(sin y ^ 2)) x := by
      simpa using ((hasDerivAt_id x).mul_const (sin y ^ 2)).const_sub 1
    have hp := ell_pos hx y
    have hq := sqrt_pos.2 hp
    refine ((hasDerivAt_const x (1 : ℝ)).div (h.sqrt hp.ne') hq.ne').congr_deriv ?_
    have e : √(1 - x * sin y ^ 2) ^ 2 = 1 - x * sin y ^ 2 := sq_sqrt hp.le
    rw [e]
    field_simp
    ring
  · intro x hx
    refine Continuous.div (by fun_prop) (by fun_prop) fun y => (sqrt_pos.2 (ell_pos hx y)).ne'
  · refine ContinuousOn.div (by fun_prop) (by fun_prop) ?_
    rintro ⟨x, y⟩ ⟨hx, -⟩
    have h1 := ell_pos hx y
    have := sqrt_pos.2 h1
    exact (mul_pos two_pos (mul_pos h1 this)).ne'

theorem ellip_int32 {m : ℝ} (hm : m < 1) :
    (1 - m) * ∫ θ in (0 : ℝ)..(π / 2), 1 / ((1 - m * sin θ ^ 2) * √(1 - m * sin θ ^ 2)) = ellipe m := by
  have hG : ∀ θ, HasDerivAt (fun θ => m * (sin θ * cos θ) / √(1 - m * sin θ ^ 2))
      (√(1 - m * sin θ ^ 2) - (1 - m) * (1 / ((1 - m * sin θ ^ 2) * √(1 - m * sin θ ^ 2)))) θ := by
    intro θ
    have hp := ell_pos hm θ
    have hq := sqrt_pos.2 hp
    have hu : HasDerivAt (fun θ => 1 - m * sin θ ^ 2) (-(m * (2 * sin θ * cos θ))) θ := by
      have := (((hasDerivAt_sin θ).pow 2).const_mul m).const_sub 1
      refine this.congr_deriv ?_
      simp
    have hs : HasDerivAt (fun θ => m * (sin θ * cos θ)) (m * (cos θ * cos θ - sin θ * sin θ)) θ := by
      have := ((hasDerivAt_sin θ).mul (hasDerivAt_cos θ)).const_mul m
      refine this.congr_deriv ?_
      ring
    refine (hs.div (hu.sqrt hp.ne') hq.ne').congr_deriv ?_
    have e : √(1 - m * sin θ ^ 2) ^ 2 = 1 - m * sin θ ^ 2 := sq_sqrt hp.le
    have hc : cos θ ^ 2 = 1 - sin θ ^ 2 := by linarith [sin_sq_add_cos_sq θ]
    generalize hw : √(1 - m * sin θ ^ 2) = w at *
    rw [← e]
    field_simp
    have e4 : w ^ 4 = (1 - m * sin θ ^ 2) ^ 2 := by rw [← e]; ring
    rw [e4, e, hc]
    ring
  have hcont : Continuous fun θ => 1 / ((1 - m * sin θ ^ 2) * √(1 - m * sin θ ^ 2)) := by
    refine Continuous.div (by fun_prop) (by fun_prop) fun y => ?_
    have h1 := ell_pos hm y
    exact (mul_pos h1 (sqrt_pos.2 h1)).ne'
  have hi := intervalIntegral.integral_eq_sub_of_hasDerivAt (a := 0) (b := π / 2) (fun θ _ => hG θ)
    (Continuous.intervalIntegrable (by fun_prop) _ _)
  rw [intervalIntegral.integral_sub (Continuous.intervalIntegrable (by fun_prop) _ _)
    (Continuous.intervalIntegrable (by fun_prop) _ _), intervalIntegral.integral_const_mul] at hi
  simp only [sin_zero, cos_pi_div_two, mul_zero, zero_mul, zero_div, sub_zero] at hi
  unfold ellipe
  linarith

theorem ellipe_deriv {m : ℝ} (hm : m < 1) (h0 : m ≠ 0) : HasDerivAt ellipe ((ellipe m - ellipk m) / (2 * m)) m := by
  refine (ellipe_deriv_raw hm).congr_deriv ?_
  have e : ∀ θ, -(sin θ ^ 2) / (2 * √(1 - m * sin θ ^ 2))
      = 1 / (2 * m) * (√(1 - m * sin θ ^ 2) - 1 / √(1 - m * sin θ ^ 2)) := by
    intro θ
    have hp := ell_pos hm θ
    have hq := sqrt_pos.2 hp
    have e : √(1 - m * sin θ ^ 2) ^ 2 = 1 - m * sin θ ^ 2 := sq_sqrt hp.le
    generalize √(1 - m * sin θ ^ 2) = w at *
    field_simp
    linear_combination -e
  simp only [e]
  have hk : Continuous fun θ => 1 / √(1 - m * sin θ ^ 2) :=
    Continuous.div (by fun_prop) (by fun_prop) fun y => (sqrt_pos.2 (ell_pos hm y)).ne'
  rw [intervalIntegral.integral_const_mul, intervalIntegral.integral_sub
    (Continuous.intervalIntegrable (by fun_prop) _ _) (hk.intervalIntegrable _ _)]
  unfold ellipe ellipk
  ring

theorem ellipk_deriv {m : ℝ} (hm : m < 1) (h0 : m ≠ 0) :
    HasDerivAt ellipk ((ellipe m / (1 - m) - ellipk m) / (2 * m)) m := by
  refine (ellipk_deriv_raw hm).congr_deriv ?_
  have e : ∀ θ, sin θ ^ 2 / (2 * ((1 - m * sin θ ^ 2) * √(1 - m * sin θ ^ 2)))
      = 1 / (2 * m) * (1 / ((1 - m * sin θ ^ 2) * √(1 - m * sin θ ^ 2)) - 1 / √(1 - m * sin θ ^ 2)) := by
    intro θ
    have hp := ell_pos hm θ
    have hq := sqrt_pos.2 hp
    generalize √(1 - m * sin θ ^ 2) = w at *
    generalize hu : 1 - m * sin θ ^ 2 = u at *
    have hp' := hp.ne'
    field_simp
    linarith
  simp only [e]
  have hk : Continuous fun θ => 1 / √(1 - m * sin θ ^ 2) :=
    Continuous.div (by fun_prop) (by fun_prop) fun y => (sqrt_pos.2 (ell_pos hm y)).ne'
  have hcont : Continuous fun θ => 1 / ((1 - m * sin θ ^ 2) * √(1 - m * sin θ ^ 2)) := by
    refine Continuous.div (by fun_prop) (by fun_prop) fun y => ?_
    have h1 := ell_pos hm y
    exact (mul_pos h1 (sqrt_pos.2 h1)).ne'
  rw [intervalIntegral.integral_const_mul, intervalIntegral.integral_sub (hcont.intervalIntegrable _ _)
    (hk.intervalIntegrable _ _), ← ellip_int32 hm]
  have : (1 - m) ≠ 0 := by linarith
  unfold ellipk
  field_simp

end Verif
