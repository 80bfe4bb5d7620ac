import Mathlib.Analysis.SpecialFunctions.ImproperIntegrals
import Mathlib.Analysis.SpecialFunctions.Trigonometric.Arctan
import Mathlib.Analysis.SpecialFunctions.Trigonometric.ArctanDeriv
import Mathlib.Analysis.SpecialFunctions.Sqrt
import Mathlib.MeasureTheory.Function.JacobianOneDim
import Mathlib.MeasureTheory.Measure.Haar.NormedSpace
import Verif.Util.PotLemmas

set_option autoImplicit false

/-! # Integrals along straight lines -/

noncomputable section
namespace Verif.Impulse
open Real MeasureTheory Filter Topology Set

/-- An odd function has no integral. -/
theorem integral_odd {f : ℝ → ℝ} (h : ∀ u, f (-u) = -f u) : ∫ u, f u = 0 := by
  have := integral_neg_eq_self f volume
  simp only [h] at this
  rw [integral_neg] at this
  linarith

/-- A radial force along a straight line: only the component at closest approach survives. -/
theorem line {h : ℝ → ℝ} {W2 bw q d2 : ℝ} (hW : 0 < W2) (hd : d2 = q - bw ^ 2 / W2)
    (hi : Integrable fun u => h (u ^ 2 + d2)) (hi' : Integrable fun u => h (u ^ 2 + d2) * u) (p k : ℝ) :
    ∫ t, h (W2 * t ^ 2 + 2 * bw * t + q) * (p + k * t) = (p - bw * k / W2) / √W2 * ∫ u, h (u ^ 2 + d2) := by
  have hs := sqrt_pos.2 hW
  have e2 : √W2 ^ 2 = W2 := sq_sqrt hW.le
  have e : ∀ t, h (W2 * t ^ 2 + 2 * bw * t + q) * (p + k * t) =
      (fun u => h (u ^ 2 + d2) * ((p - bw * k / W2) + k / √W2 * u)) (√W2 * (t + bw / W2)) := by
    intro t
    simp only
    have e1 : (√W2 * (t + bw / W2)) ^ 2 + d2 = W2 * t ^ 2 + 2 * bw * t + q := by
      rw [mul_pow, e2, hd]
      field_simp
      ring
    rw [e1]
    congr 1
    field_simp
    ring
  simp_rw [e]
  rw [integral_add_right_eq_self (fun t => (fun u => h (u ^ 2 + d2) * ((p - bw * k / W2) + k / √W2 * u)) (√W2 * t)) (bw / W2),
    Measure.integral_comp_mul_left (fun u => h (u ^ 2 + d2) * ((p - bw * k / W2) + k / √W2 * u)) √W2, abs_of_pos (inv_pos.2 hs)]
  have e3 : ∀ u, h (u ^ 2 + d2) * ((p - bw * k / W2) + k / √W2 * u) =
      (p - bw * k / W2) * h (u ^ 2 + d2) + k / √W2 * (h (u ^ 2 + d2) * u) := fun u => by ring
  simp_rw [e3]
  rw [integral_add (hi.const_mul _) (hi'.const_mul _), integral_const_mul, integral_const_mul,
    integral_odd (f := fun u => h (u ^ 2 + d2) * u) (fun u => by rw [neg_sq]; ring)]
  simp only [smul_eq_mul]
  ring

theorem line_integrable {h : ℝ → ℝ} {W2 bw q d2 : ℝ} (hW : 0 < W2) (hd : d2 = q - bw ^ 2 / W2)
    (hi : Integrable fun u => h (u ^ 2 + d2)) (hi' : Integrable fun u => h (u ^ 2 + d2) * u) (p k : ℝ) :
    Integrable fun t => h (W2 * t ^ 2 + 2 * bw * t + q) * (p + k * t) := by
  have hs := sqrt_pos.2 hW
  have e2 : √W2 ^ 2 = W2 := sq_sqrt hW.le
  have e : ∀ t, h (W2 * t ^ 2 + 2 * bw * t + q) * (p + k * t) =
      (fun u => (p - bw * k / W2) * h (u ^ 2 + d2) + k / √W2 * (h (u ^ 2 + d2) * u)) (√W2 * (t + bw / W2)) := by
    intro t
    simp only
    have e1 : (√W2 * (t + bw / W2)) ^ 2 + d2 = W2 * t ^ 2 + 2 * bw * t + q := by
      rw [mul_pow, e2, hd]
      field_simp
      ring
    rw [e1]
    field_simp
    ring
  simp_rw [e]
  have h1 : Integrable (fun u => (p - bw * k / W2) * h (u ^ 2 + d2) + k / √W2 * (h (u ^ 2 + d2) * u)) :=
    (hi.const_mul _).add (hi'.const_mul _)
  exact (h1.comp_mul_left' hs.ne').comp_add_right (bw / W2)

theorem tendsto_ratio (D c : ℝ) (hD : 0 ≤ D) : Tendsto (fun u : ℝ => u / (√(u ^ 2 + D) + c)) atTop (𝓝 1) := by
  have h1 : Tendsto (fun u : ℝ => 1 / (√(1 + D * (u⁻¹) ^ 2) + c * u⁻¹)) atTop (𝓝 (1 / (√(1 + D * 0 ^ 2) + c * 0))) := by
    refine Tendsto.div tendsto_const_nhds ?_ (by simp)
    exact ((tendsto_const_nhds.add ((tendsto_inv_atTop_zero.pow 2).const_mul D)).sqrt).add (tendsto_inv_atTop_zero.const_mul c)
  simp only [ne_eq, OfNat.ofNat_ne_zero, not_false_eq_true, zero_pow, mul_zero, add_zero, sqrt_one, div_one] at h1
  refine h1.congr' ?_
  filter_upwards [eventually_gt_atTop 0] with u hu
  have e : √(u ^ 2 + D) = u * √(1 + D * (u⁻¹) ^ 2) := by
    nth_rewrite 2 [← sqrt_sq hu.le]
    rw [← sqrt_mul (sq_nonneg u)]
    congr 1
    field_simp
  rw [e]
  rw [show u * √(1 + D * u⁻¹ ^ 2) + c = u * (√(1 + D * u⁻¹ ^ 2) + c * u⁻¹) by field_simp]
  rw [← div_div, div_self hu.ne']

theorem tendsto_ratio_bot (D c : ℝ) (hD : 0 ≤ D) : Tendsto (fun u : ℝ => u / (√(u ^ 2 + D) + c)) atBot (𝓝 (-1)) := by
  have := ((tendsto_ratio D c hD).comp tendsto_neg_atBot_atTop).neg
  refine this.congr fun u => ?_
  simp only [Function.comp, neg_sq]
  ring

theorem integrable_inv {D : ℝ} (hD : 0 < D) : Integrable fun u : ℝ => 1 / (u ^ 2 + D) := by
  refine (integrable_inv_one_add_sq.const_mul (1 / min 1 D)).mono' ?_ ?_
  · exact (continuous_const.div (by fun_prop) fun u => by positivity).aestronglyMeasurable
  · refine ae_of_all _ fun u => ?_
    have hm : 0 < min 1 D := lt_min one_pos hD
    have h2 : min 1 D * (1 + u ^ 2) ≤ u ^ 2 + D := by
      have h3 := mul_le_mul_of_nonneg_right (min_le_left 1 D) (sq_nonneg u)
      have h4 := min_le_right 1 D
      linarith
    have h5 : (0 : ℝ) < u ^ 2 + D := by positivity
    rw [norm_eq_abs, abs_of_pos (by positivity), ← one_div, div_mul_div_comm, one_mul]
    exact div_le_div_of_nonneg_left zero_le_one (by positivity) h2

/-- A continuous function below a multiple of `1 / (u^2 + D)`. -/
theorem integrable_of_le {f : ℝ → ℝ} {D C : ℝ} (hD : 0 < D) (hf : Continuous f) (h : ∀ u, |f u| ≤ C / (u ^ 2 + D)) : Integrable f := by
  refine ((integrable_inv hD).const_mul C).mono' hf.aestronglyMeasurable (ae_of_all _ fun u => ?_)
  rw [norm_eq_abs, mul_one_div]
  exact h u

section plummer
variable {D : ℝ}
theorem plummer_cont (hD : 0 < D) : Continuous fun u : ℝ => (u ^ 2 + D) ^ (-(3 / 2) : ℝ) := by
  refine Continuous.rpow_const (by fun_prop) fun u => Or.inl ?_
  positivity
theorem plummer_int (hD : 0 < D) : Integrable fun u : ℝ => (u ^ 2 + D) ^ (-(3 / 2) : ℝ) := by
  refine integrable_of_le (C := 1 / √D) hD (plummer_cont hD) fun u => ?_
  have h : 0 < u ^ 2 + D := by positivity
  have hs := sqrt_pos.2 hD
  rw [rpow_neg_three_half h, abs_of_pos (by positivity), div_div]
  refine div_le_div_of_nonneg_left zero_le_one (by positivity) ?_
  rw [mul_comm]
  exact mul_le_mul_of_nonneg_left (sqrt_le_sqrt (by nlinarith [sq_nonneg u])) h.le
theorem plummer_int' (hD : 0 < D) : Integrable fun u : ℝ => (u ^ 2 + D) ^ (-(3 / 2) : ℝ) * u := by
  refine integrable_of_le (C := 1) hD ((plummer_cont hD).mul continuous_id) fun u => ?_
  have h : 0 < u ^ 2 + D := by positivity
  have hs := sqrt_pos.2 h
  rw [rpow_neg_three_half h, abs_mul, abs_of_pos (by positivity), div_mul_eq_mul_div, one_mul, ← div_div, div_right_comm]
  refine div_le_div_of_nonneg_right ?_ h.le
  rw [div_le_one hs]
  exact abs_le_sqrt (by linarith)
theorem plummer_integral (hD : 0 < D) : ∫ u : ℝ, (u ^ 2 + D) ^ (-(3 / 2) : ℝ) = 2 / D := by
  have hd : ∀ u : ℝ, HasDerivAt (fun u => 1 / D * (u / (√(u ^ 2 + D) + 0))) ((u ^ 2 + D) ^ (-(3 / 2) : ℝ)) u := by
    intro u
    have h : 0 < u ^ 2 + D := by positivity
    have hs := sqrt_pos.2 h
    have e : √(u ^ 2 + D) ^ 2 = u ^ 2 + D := sq_sqrt h.le
    have h1 : HasDerivAt (fun u : ℝ => u ^ 2 + D) (2 * u) u := by simpa using ((hasDerivAt_id u).pow 2).add_const D
    refine (((hasDerivAt_id u).div ((h1.sqrt h.ne').add_const 0) (by simpa using hs.ne')).const_mul (1 / D)).congr_deriv ?_
    rw [rpow_neg_three_half h]
    simp only [id, add_zero]
    rw [e]
    field_simp
    rw [e]
    ring
  rw [integral_of_hasDerivAt_of_tendsto hd (plummer_int hD) ((tendsto_ratio_bot D 0 hD.le).const_mul (1 / D))
    ((tendsto_ratio D 0 hD.le).const_mul (1 / D))]
  ring
end plummer

section hernquist
variable {B a : ℝ}
theorem hern_cont (hB : 0 < B) (ha : 0 < a) : Continuous fun u : ℝ => 1 / (√(u ^ 2 + B ^ 2) * (√(u ^ 2 + B ^ 2) + a) ^ 2) := by
  refine continuous_const.div (by fun_prop) fun u => ?_
  have : 0 < √(u ^ 2 + B ^ 2) := sqrt_pos.2 (by positivity)
  positivity
theorem hern_int (hB : 0 < B) (ha : 0 < a) : Integrable fun u : ℝ => 1 / (√(u ^ 2 + B ^ 2) * (√(u ^ 2 + B ^ 2) + a) ^ 2) := by
  refine integrable_of_le (D := B ^ 2) (C := 1 / B) (by positivity) (hern_cont hB ha) fun u => ?_
  have h : 0 < u ^ 2 + B ^ 2 := by positivity
  have hs := sqrt_pos.2 h
  have e := sq_sqrt h.le
  have hb : B ≤ √(u ^ 2 + B ^ 2) := le_sqrt_of_sq_le (by nlinarith [sq_nonneg u])
  rw [abs_of_pos (by positivity), div_div]
  refine div_le_div_of_nonneg_left zero_le_one (by positivity) ?_
  refine mul_le_mul hb ?_ h.le hs.le
  nlinarith
theorem hern_int' (hB : 0 < B) (ha : 0 < a) :
    Integrable fun u : ℝ => 1 / (√(u ^ 2 + B ^ 2) * (√(u ^ 2 + B ^ 2) + a) ^ 2) * u := by
  refine integrable_of_le (D := B ^ 2) (C := 1) (by positivity) ((hern_cont hB ha).mul continuous_id) fun u => ?_
  have h : 0 < u ^ 2 + B ^ 2 := by positivity
  have hs := sqrt_pos.2 h
  have e := sq_sqrt h.le
  have hu : |u| ≤ √(u ^ 2 + B ^ 2) := abs_le_sqrt (by nlinarith [sq_nonneg B])
  rw [abs_mul, abs_of_pos (by positivity), div_mul_eq_mul_div, one_mul, div_le_div_iff₀ (by positivity) h, one_mul]
  refine mul_le_mul hu ?_ h.le hs.le
  nlinarith

/-- `tanh` of half the hyperbolic angle. -/
def tau (B u : ℝ) : ℝ := u / (√(u ^ 2 + B ^ 2) + B)

theorem tau_deriv (hB : 0 < B) (u : ℝ) : HasDerivAt (tau B) (B / (√(u ^ 2 + B ^ 2) * (√(u ^ 2 + B ^ 2) + B))) u := by
  have h : 0 < u ^ 2 + B ^ 2 := by positivity
  have hs := sqrt_pos.2 h
  have e := sq_sqrt h.le
  have h1 : HasDerivAt (fun u : ℝ => u ^ 2 + B ^ 2) (2 * u) u := by simpa using ((hasDerivAt_id u).pow 2).add_const (B ^ 2)
  have := ((hasDerivAt_id u).div ((h1.sqrt h.ne').add_const B) (by positivity))
  refine this.congr_deriv ?_
  simp only [id]
  generalize √(u ^ 2 + B ^ 2) = r at *
  field_simp
  linear_combination e
theorem tau_sq (hB : 0 < B) (u : ℝ) : tau B u ^ 2 = (√(u ^ 2 + B ^ 2) - B) / (√(u ^ 2 + B ^ 2) + B) := by
  have h : 0 < u ^ 2 + B ^ 2 := by positivity
  have hs := sqrt_pos.2 h
  have e := sq_sqrt h.le
  unfold tau
  generalize √(u ^ 2 + B ^ 2) = r at *
  have : r + B ≠ 0 := by positivity
  field_simp
  linear_combination -e
theorem tau_lt (hB : 0 < B) (u : ℝ) : tau B u ^ 2 < 1 := by
  have h : 0 < u ^ 2 + B ^ 2 := by positivity
  have hs := sqrt_pos.2 h
  rw [tau_sq hB, div_lt_one (by positivity)]
  linarith

/-- An antiderivative of `1 / (r (r + a))`, from one of `1 / (1 - k T^2)`. -/
theorem j_deriv {A : ℝ → ℝ} (hB : 0 < B) (ha : 0 < a)
    (hA : ∀ T : ℝ, T ^ 2 < 1 → HasDerivAt A (1 / (1 - (a - B) / (a + B) * T ^ 2)) T) (u : ℝ) :
    HasDerivAt (fun u => 2 / (a + B) * A (tau B u)) (1 / (√(u ^ 2 + B ^ 2) * (√(u ^ 2 + B ^ 2) + a))) u := by
  have h : 0 < u ^ 2 + B ^ 2 := by positivity
  have hs := sqrt_pos.2 h
  have h1 := (HasDerivAt.comp u (hA _ (tau_lt hB u)) (tau_deriv hB u)).const_mul (2 / (a + B))
  refine h1.congr_deriv ?_
  rw [tau_sq hB]
  generalize √(u ^ 2 + B ^ 2) = r at *
  have e : 1 - (a - B) / (a + B) * ((r - B) / (r + B)) = 2 * B * (r + a) / ((a + B) * (r + B)) := by
    field_simp; ring
  rw [e]
  field_simp

theorem hern_integral {A : ℝ → ℝ} (hB : 0 < B) (ha : 0 < a) (hab : B ≠ a)
    (hA : ∀ T : ℝ, T ^ 2 < 1 → HasDerivAt A (1 / (1 - (a - B) / (a + B) * T ^ 2)) T)
    (hc : ContinuousAt A 1) (hodd : ∀ T, A (-T) = -A T) :
    ∫ u : ℝ, 1 / (√(u ^ 2 + B ^ 2) * (√(u ^ 2 + B ^ 2) + a) ^ 2) = 2 / (B ^ 2 - a ^ 2) * (1 - 2 * a / (a + B) * A 1) := by
  have hne : B ^ 2 - a ^ 2 ≠ 0 := by
    have : B ^ 2 - a ^ 2 = (B - a) * (B + a) := by ring
    rw [this]
    exact mul_ne_zero (sub_ne_zero.2 hab) (by positivity)
  have hd : ∀ u : ℝ, HasDerivAt (fun u => 1 / (B ^ 2 - a ^ 2) * (u / (√(u ^ 2 + B ^ 2) + a) - a * (2 / (a + B) * A (tau B u))))
      (1 / (√(u ^ 2 + B ^ 2) * (√(u ^ 2 + B ^ 2) + a) ^ 2)) u := by
    intro u
    have h : 0 < u ^ 2 + B ^ 2 := by positivity
    have hs := sqrt_pos.2 h
    have e := sq_sqrt h.le
    have h1 : HasDerivAt (fun u : ℝ => u ^ 2 + B ^ 2) (2 * u) u := by simpa using ((hasDerivAt_id u).pow 2).add_const (B ^ 2)
    have h2 := ((hasDerivAt_id u).div ((h1.sqrt h.ne').add_const a) (by positivity))
    refine ((h2.sub ((j_deriv hB ha hA u).const_mul a)).const_mul (1 / (B ^ 2 - a ^ 2))).congr_deriv ?_
    simp only [id]
    generalize √(u ^ 2 + B ^ 2) = r at *
    field_simp
    linear_combination e
  have t1 : Tendsto (tau B) atTop (𝓝 1) := tendsto_ratio (B ^ 2) B (by positivity)
  have t2 : Tendsto (tau B) atBot (𝓝 (-1)) := tendsto_ratio_bot (B ^ 2) B (by positivity)
  have hc' : ContinuousAt A (-1) := by
    have h0 : ContinuousAt (fun x : ℝ => -A (-x)) (-1) := by
      refine ContinuousAt.neg (ContinuousAt.comp (f := fun x : ℝ => -x) (g := A) (by simpa using hc) (by fun_prop))
    refine h0.congr (Eventually.of_forall fun x => ?_)
    simp only [hodd, neg_neg]
  have l1 := ((tendsto_ratio (B ^ 2) a (by positivity)).sub (((hc.tendsto.comp t1).const_mul (2 / (a + B))).const_mul a)).const_mul
    (1 / (B ^ 2 - a ^ 2))
  have l2 := ((tendsto_ratio_bot (B ^ 2) a (by positivity)).sub (((hc'.tendsto.comp t2).const_mul (2 / (a + B))).const_mul a)).const_mul
    (1 / (B ^ 2 - a ^ 2))
  rw [integral_of_hasDerivAt_of_tendsto hd (hern_int hB ha) l2 l1, hodd]
  ring
end hernquist

/-- The substitution `t = T / (1 - T^2)` maps `(-1, 1)` onto the line. -/
theorem substitution (f : ℝ → ℝ) :
    ∫ T in (-1 : ℝ)..1, (1 + T * T) / (1 - T * T) ^ 2 * f (T / (1 - T * T)) = ∫ t, f t := by
  have hpos : ∀ T ∈ Ioo (-1 : ℝ) 1, 0 < 1 - T * T := fun T hT => by nlinarith [hT.1, hT.2]
  have hd : ∀ T ∈ Ioo (-1 : ℝ) 1, HasDerivWithinAt (fun T : ℝ => T / (1 - T * T)) ((1 + T * T) / (1 - T * T) ^ 2) (Ioo (-1) 1) T := by
    intro T hT
    have h := hpos T hT
    have h1 : HasDerivAt (fun T : ℝ => 1 - T * T) (-(2 * T)) T := by
      have := ((hasDerivAt_id T).mul (hasDerivAt_id T)).const_sub 1
      refine this.congr_deriv ?_
      simp; ring
    refine (((hasDerivAt_id T).div h1 h.ne').congr_deriv ?_).hasDerivWithinAt
    simp only [id]
    congr 1
    ring
  have hinj : InjOn (fun T : ℝ => T / (1 - T * T)) (Ioo (-1) 1) := by
    intro x hx y hy h
    have h1 := hpos x hx
    have h2 := hpos y hy
    simp only at h
    rw [div_eq_div_iff h1.ne' h2.ne'] at h
    have : (x - y) * (1 + x * y) = 0 := by linear_combination h
    have h3 : 0 < 1 + x * y := by nlinarith [hx.1, hx.2, hy.1, hy.2]
    linarith [(mul_eq_zero.1 this).resolve_right h3.ne']
  have himg : (fun T : ℝ => T / (1 - T * T)) '' Ioo (-1) 1 = univ := by
    refine eq_univ_of_forall fun t => ?_
    refine ⟨2 * t / (1 + √(1 + 4 * t ^ 2)), ?_, ?_⟩
    · have h : (0 : ℝ) < 1 + 4 * t ^ 2 := by positivity
      have hs : |2 * t| < √(1 + 4 * t ^ 2) := by
        rw [← sqrt_sq_eq_abs]; exact sqrt_lt_sqrt (sq_nonneg _) (by nlinarith)
      have hs' := abs_lt.1 hs
      have hp : 0 < 1 + √(1 + 4 * t ^ 2) := by positivity
      exact ⟨by rw [lt_div_iff₀ hp]; linarith [hs'.1], by rw [div_lt_one hp]; linarith [hs'.2]⟩
    · have h : (0 : ℝ) < 1 + 4 * t ^ 2 := by positivity
      have e := sq_sqrt h.le
      have hs := sqrt_pos.2 h
      simp only
      generalize √(1 + 4 * t ^ 2) = r at *
      have e2 : 1 - 2 * t / (1 + r) * (2 * t / (1 + r)) = 2 / (1 + r) := by
        field_simp
        linear_combination e
      rw [e2]
      field_simp
  have := integral_image_eq_integral_abs_deriv_smul measurableSet_Ioo hd hinj f
  rw [himg, setIntegral_univ] at this
  rw [this, intervalIntegral.integral_of_le (by norm_num), integral_Ioc_eq_integral_Ioo]
  refine setIntegral_congr_fun measurableSet_Ioo fun T hT => ?_
  have h := hpos T hT
  simp only [smul_eq_mul]
  rw [abs_of_pos]
  have : 0 ≤ T * T := mul_self_nonneg T
  positivity

end Verif.Impulse
