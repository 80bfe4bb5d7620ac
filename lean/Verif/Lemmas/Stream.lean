import Verif.Util.Gauss
import Verif.Model.DF.Stream
import Mathlib.MeasureTheory.Function.JacobianOneDim
import Mathlib.MeasureTheory.Integral.IntegralEqImproper

set_option autoImplicit false

/-!
# streamdf: integrals of the frequency and stripping-time distributions
-/

noncomputable section
namespace Verif.Stream
open Real MeasureTheory Set Gauss

variable {p : Par}

theorem exp_eq (he : 0 < p.e2) (O : ℝ) : exp (-0.5 * (O - p.meandO) ^ 2 / p.e2) = g p.meandO p.e2 O := by
  unfold g
  congr 1
  field_simp
  norm_num
  try ring

theorem pO_eq {a T : ℝ} (he : 0 < p.e2) (ha : 0 < a) (hT : 0 < T) (O : ℝ) :
    pOparapar p O a T = (Ioi (a / T)).indicator (fun O => g p.meandO p.e2 O / √p.e2) O := by
  unfold pOparapar
  by_cases h : a / T < O
  · have hO : 0 < O := (div_pos ha hT).trans h
    rw [indicator_of_mem (mem_Ioi.2 h), if_pos, exp_eq he]
    refine ⟨hO.ne', ?_, (div_pos ha hO).le⟩
    rw [div_lt_iff₀ hO]
    rw [div_lt_iff₀ hT] at h
    linarith
  · rw [indicator_of_notMem (by simpa using h), if_neg]
    rintro ⟨h0, h1, h2⟩
    have hO : 0 < O := by
      rcases lt_or_gt_of_ne h0 with h0 | h0
      · exact absurd h2 (not_le.2 (div_neg_of_pos_of_neg ha h0))
      · exact h0
    rw [div_lt_iff₀ hO] at h1
    rw [div_lt_iff₀ hT] at h
    exact h (by linarith)

theorem pO_int {a T : ℝ} (he : 0 < p.e2) (ha : 0 < a) (hT : 0 < T) (f : ℝ → ℝ) :
    ∫ O, f O * pOparapar p O a T = (∫ O in Ioi (a / T), f O * g p.meandO p.e2 O) / √p.e2 := by
  rw [← integral_div, ← integral_indicator measurableSet_Ioi]
  refine integral_congr_ae (Filter.Eventually.of_forall fun O => ?_)
  simp only [pO_eq he ha hT, indicator]
  split_ifs <;> ring

theorem pO_int_one {a T : ℝ} (he : 0 < p.e2) (ha : 0 < a) (hT : 0 < T) :
    ∫ O, pOparapar p O a T = (∫ O in Ioi (a / T), g p.meandO p.e2 O) / √p.e2 := by
  have := pO_int he ha hT fun _ => 1
  simpa using this

theorem pO_int_pos {a T : ℝ} (he : 0 < p.e2) (ha : 0 < a) (hT : 0 < T) : 0 < ∫ O, pOparapar p O a T := by
  rw [pO_int_one he ha hT]
  exact div_pos (tail0_pos he _) (sqrt_pos.2 he)

theorem mean_eq {a T : ℝ} (he : 0 < p.e2) :
    meanOmega1 p a T = (∫ O in Ioi (a / T), O * g p.meandO p.e2 O) / ∫ O in Ioi (a / T), g p.meandO p.e2 O := by
  have hp := tail0_pos (μ := p.meandO) he (a / T)
  rw [tail1 he, add_div, mul_div_cancel_right₀ _ hp.ne', tail0 he]
  unfold meanOmega1
  simp only
  have e1 : exp (-0.5 * (p.meandO - a / T) ^ 2 / p.e2) = g p.meandO p.e2 (a / T) := by
    rw [← exp_eq he, ← neg_sub p.meandO, neg_sq]
  rw [e1, add_comm]
  congr 1
  have h1 := erf_gt ((p.meandO - a / T) / √(2 * p.e2))
  generalize erf ((p.meandO - a / T) / √(2 * p.e2)) = E at *
  generalize g p.meandO p.e2 (a / T) = G
  have hE : 1 + E ≠ 0 := by linarith
  have e2 : √(2 * π * p.e2) = √(2 * π) * √p.e2 := sqrt_mul (by positivity) _
  have e3 : √(2 / π) * √(2 * π) = 2 := by
    rw [← sqrt_mul (by positivity)]
    have : 2 / π * (2 * π) = 2 ^ 2 := by field_simp
    rw [this, sqrt_sq (by norm_num)]
  have h2 : 0 < √(2 * π) := sqrt_pos.2 (by positivity)
  have h3 : 0 < √p.e2 := sqrt_pos.2 he
  have h4 : √p.e2 * √p.e2 = p.e2 := mul_self_sqrt he.le
  rw [e2, div_eq_div_iff hE (by positivity)]
  calc _ = (√(2 / π) * √(2 * π)) * (√p.e2 * √p.e2) * G * (0.5 * (1 + E)) := by ring
    _ = _ := by rw [e3, h4]; ring

theorem second_eq {a T : ℝ} (he : 0 < p.e2) :
    √(2 / π) * √p.e2 * (p.meandO + a / T) * exp (-0.5 * (p.meandO - a / T) ^ 2 / p.e2)
      / (1 + erf ((p.meandO - a / T) / √(2 * p.e2))) + p.meandO ^ 2 + p.e2
    = (∫ O in Ioi (a / T), O ^ 2 * g p.meandO p.e2 O) / ∫ O in Ioi (a / T), g p.meandO p.e2 O := by
  have hp := tail0_pos (μ := p.meandO) he (a / T)
  have hm := mean_eq (p := p) (a := a) (T := T) he
  rw [tail1 he, add_div, mul_div_cancel_right₀ _ hp.ne'] at hm
  unfold meanOmega1 at hm
  simp only at hm
  rw [tail2 he, add_div, mul_div_cancel_right₀ _ hp.ne']
  have h5 : √(2 / π) * √p.e2 * exp (-0.5 * (p.meandO - a / T) ^ 2 / p.e2) / (1 + erf ((p.meandO - a / T) / √(2 * p.e2)))
    = p.e2 * g p.meandO p.e2 (a / T) / ∫ O in Ioi (a / T), g p.meandO p.e2 O := by linarith
  calc _ = (p.meandO + a / T) * (√(2 / π) * √p.e2 * exp (-0.5 * (p.meandO - a / T) ^ 2 / p.e2)
        / (1 + erf ((p.meandO - a / T) / √(2 * p.e2)))) + p.meandO ^ 2 + p.e2 := by ring
    _ = _ := by rw [h5]; ring

/-- The variance of a truncated Gaussian is positive. -/
theorem var_pos {μ v : ℝ} (hv : 0 < v) (l m : ℝ) : 0 < ∫ O in Ioi l, (O - m) ^ 2 * g μ v O := by
  have hi : Integrable fun O : ℝ => (O - m) ^ 2 * g μ v O := by
    have := ((int2 (μ := μ) hv).sub ((int1 (μ := μ) hv).const_mul (2 * m))).add ((int0 (μ := μ) hv).const_mul (m ^ 2))
    refine this.congr (Filter.Eventually.of_forall fun x => ?_)
    simp only [Pi.add_apply, Pi.sub_apply]; ring
  rw [setIntegral_pos_iff_support_of_nonneg_ae]
  · have hs : Ioi (max l m) ⊆ (Function.support fun O : ℝ => (O - m) ^ 2 * g μ v O) ∩ Ioi l := by
      intro x hx
      have hx' := max_lt_iff.1 (mem_Ioi.1 hx)
      refine ⟨?_, hx'.1⟩
      have : 0 < (x - m) ^ 2 * g μ v x := mul_pos (pow_pos (sub_pos.2 hx'.2) 2) (g_pos _ _ _)
      exact this.ne'
    refine lt_of_lt_of_le ?_ (measure_mono hs)
    rw [Real.volume_Ioi]
    exact ENNReal.zero_lt_top
  · exact Filter.Eventually.of_forall fun x => mul_nonneg (sq_nonneg _) (g_pos _ _ _).le
  · exact hi.integrableOn

theorem var_eq {μ v : ℝ} (hv : 0 < v) (l m : ℝ) : ∫ O in Ioi l, (O - m) ^ 2 * g μ v O
    = (∫ O in Ioi l, O ^ 2 * g μ v O) - 2 * m * (∫ O in Ioi l, O * g μ v O) + m ^ 2 * ∫ O in Ioi l, g μ v O := by
  rw [← integral_const_mul, ← integral_const_mul, ← integral_sub, ← integral_add]
  · congr 1
    funext x
    ring
  · exact ((int2 hv).integrableOn.sub ((int1 hv).const_mul _).integrableOn)
  · exact ((int0 hv).const_mul _).integrableOn
  · exact (int2 hv).integrableOn
  · exact ((int1 hv).const_mul _).integrableOn

/-! ### stripping time -/

/-- `t ↦ a / t` maps `(0, T)` onto the frequencies above `a / T`. -/
theorem inv_image {a T : ℝ} (ha : 0 < a) (hT : 0 < T) : (fun t => a / t) '' Ioo 0 T = Ioi (a / T) := by
  ext O
  constructor
  · rintro ⟨t, ⟨h0, h1⟩, rfl⟩
    exact div_lt_div_of_pos_left ha h0 h1
  · intro h
    have h' : a / T < O := h
    have hO : 0 < O := (div_pos ha hT).trans h'
    refine ⟨a / O, ⟨div_pos ha hO, ?_⟩, by simp only; field_simp⟩
    rw [div_lt_iff₀ hO]
    rw [div_lt_iff₀ hT] at h'
    linarith

theorem inv_injOn {a : ℝ} (ha : 0 < a) {S : Set ℝ} (hS : S ⊆ Ioi 0) : InjOn (fun t => a / t) S := by
  intro x hx y hy h
  have h1 := mem_Ioi.1 (hS hx)
  have h2 := mem_Ioi.1 (hS hy)
  simp only at h
  rw [div_eq_div_iff h1.ne' h2.ne'] at h
  have := mul_left_cancel₀ ha.ne' h
  exact this.symm

theorem inv_deriv {a t : ℝ} (ht : 0 < t) : HasDerivAt (fun t => a / t) (-(a / t ^ 2)) t := by
  have := (hasDerivAt_inv ht.ne').const_mul a
  refine (this.congr_deriv (by field_simp)).congr_of_eventuallyEq ?_
  exact Filter.Eventually.of_forall fun x => by simp [div_eq_mul_inv]

theorem ptd_eq {a t : ℝ} (he : 0 < p.e2) (ha : 0 < a) (ht : t ∈ Ioo 0 p.tdisrupt) :
    ptdAngle p t a = |-(a / t ^ 2)| * (g p.meandO p.e2 (a / t) / √p.e2) := by
  unfold ptdAngle
  rw [if_pos (mem_Ioo.1 ht)]
  simp only
  rw [exp_eq he, abs_neg, abs_of_pos (div_pos ha (pow_pos ht.1 2))]
  have := ht.1.ne'
  field_simp

/-- Times of stripping in a part of `(0, T)` and frequencies in its image under `a / t`. -/
theorem ptd_change {a : ℝ} (he : 0 < p.e2) (ha : 0 < a) (f : ℝ → ℝ) {S : Set ℝ} (hm : MeasurableSet S) (hS : S ⊆ Ioo 0 p.tdisrupt) :
    ∫ t in S, f t * ptdAngle p t a = ∫ O in (fun t => a / t) '' S, f (a / O) * (g p.meandO p.e2 O / √p.e2) := by
  rw [integral_image_eq_integral_abs_deriv_smul hm (fun t ht => (inv_deriv (hS ht).1).hasDerivWithinAt)
    (inv_injOn ha fun t ht => (hS ht).1)]
  refine setIntegral_congr_fun hm fun t ht => ?_
  rw [ptd_eq he ha (hS ht)]
  have h1 := (hS ht).1.ne'
  have e : a / (a / t) = t := by field_simp
  simp only [smul_eq_mul]
  rw [e]
  ring

theorem ptd_integrable {a : ℝ} (he : 0 < p.e2) (ha : 0 < a) (hT : 0 < p.tdisrupt) : Integrable fun t => ptdAngle p t a := by
  have h1 : IntegrableOn (fun t => |-(a / t ^ 2)| • (g p.meandO p.e2 (a / t) / √p.e2)) (Ioo 0 p.tdisrupt) := by
    have := (integrableOn_image_iff_integrableOn_abs_deriv_smul (s := Ioo 0 p.tdisrupt) measurableSet_Ioo
      (fun t ht => (inv_deriv (a := a) ht.1).hasDerivWithinAt) (inv_injOn ha fun t ht => ht.1)
      (fun O => g p.meandO p.e2 O / √p.e2)).1 ?_
    · exact this
    · rw [inv_image ha hT]
      exact ((int0 he).div_const _).integrableOn
  rw [← integrableOn_univ]
  have h2 : IntegrableOn (fun t => ptdAngle p t a) (Ioo 0 p.tdisrupt) := by
    refine IntegrableOn.congr_fun h1 (fun t ht => ?_) measurableSet_Ioo
    simp only [smul_eq_mul]
    rw [ptd_eq he ha ht]
  have h3 : IntegrableOn (fun t => ptdAngle p t a) (Ioo 0 p.tdisrupt)ᶜ := by
    refine IntegrableOn.congr_fun (integrableOn_zero) (fun t ht => ?_) measurableSet_Ioo.compl
    simp only [ptdAngle]
    rw [if_neg (fun h => ht (mem_Ioo.2 h))]
  have := h2.union h3
  rwa [union_compl_self] at this

theorem ptd_nonneg {a : ℝ} (ha : 0 ≤ a) (t : ℝ) : 0 ≤ ptdAngle p t a := by
  unfold ptdAngle
  split_ifs
  · simp only
    positivity
  · exact le_rfl

theorem ptd_pos {a t : ℝ} (he : 0 < p.e2) (ha : 0 < a) (ht : t ∈ Ioo 0 p.tdisrupt) : 0 < ptdAngle p t a := by
  rw [ptd_eq he ha ht]
  have h1 := ht.1
  have := sqrt_pos.2 he
  have := g_pos p.meandO p.e2 (a / t)
  have : 0 < |-(a / t ^ 2)| := by rw [abs_neg]; positivity
  positivity

theorem ptd_off {a t : ℝ} (ht : t ∉ Ioo 0 p.tdisrupt) : ptdAngle p t a = 0 := by
  unfold ptdAngle
  rw [if_neg (fun h => ht (mem_Ioo.2 h))]


/-! ### perpendicular angle -/

theorem eig_nonneg (h0 : 0 ≤ p.e0) (h1 : 0 ≤ p.e1) (b : Bool) : 0 ≤ eig p b := by
  unfold eig; split_ifs <;> assumption

/-- Variance of the perpendicular angle at stripping time `t`. -/
def V (p : Par) (b : Bool) (t : ℝ) : ℝ := t ^ 2 * eig p b + p.sigangle ^ 2

theorem V_ge {b : Bool} (hb : 0 ≤ eig p b) (t : ℝ) : p.sigangle ^ 2 ≤ V p b t := by
  unfold V
  nlinarith [mul_nonneg (sq_nonneg t) hb]

theorem V_le {b : Bool} (hb : 0 ≤ eig p b) {t : ℝ} (ht : t ∈ Ioo 0 p.tdisrupt) :
    V p b t ≤ p.tdisrupt ^ 2 * eig p b + p.sigangle ^ 2 := by
  unfold V
  have : t ^ 2 ≤ p.tdisrupt ^ 2 := pow_le_pow_left₀ ht.1.le ht.2.le 2
  nlinarith [mul_le_mul_of_nonneg_right this hb]

/-- The integrand of `pangledAngle`. -/
theorem pt_eq {b : Bool} (hs : 0 < p.sigangle) (hb : 0 ≤ eig p b) (t x a : ℝ) :
    pangledAnglet p t x a b = g 0 (V p b t) x / √(V p b t) * ptdAngle p t a := by
  have hV : 0 < V p b t := (pow_pos hs 2).trans_le (V_ge hb t)
  unfold pangledAnglet
  split_ifs with h
  · change exp (-0.5 * x ^ 2 / V p b t) / √(V p b t) * ptdAngle p t a = _
    congr 3
    field_simp
    norm_num
    try ring
  · rw [ptd_off (fun hh => h hh.2), mul_zero]

theorem pangled_eq {b : Bool} (hs : 0 < p.sigangle) (hb : 0 ≤ eig p b) (hT : 0 < p.tdisrupt) (x a : ℝ) :
    pangledAngle p x a b = ∫ t, g 0 (V p b t) x / √(V p b t) * ptdAngle p t a := by
  unfold pangledAngle
  rw [intervalIntegral.integral_of_le hT.le, ← integral_indicator measurableSet_Ioc]
  refine integral_congr_ae (Filter.Eventually.of_forall fun t => ?_)
  simp only [indicator, pt_eq hs hb]
  split_ifs with h
  · rfl
  · rw [ptd_off (fun hh => h ⟨hh.1, hh.2.le⟩), mul_zero]

theorem meas {b : Bool} (n : ℕ) : Measurable fun z : ℝ × ℝ => z.1 ^ n * (g 0 (V p b z.2) z.1 / √(V p b z.2)) := by
  unfold g V
  fun_prop

/-- The distribution of perpendicular angle and stripping time is integrable, with any power of the angle. -/
theorem joint {a : ℝ} {b : Bool} (he : 0 < p.e2) (ha : 0 < a) (hs : 0 < p.sigangle) (hb : 0 ≤ eig p b) (hT : 0 < p.tdisrupt)
    (n : ℕ) :
    Integrable (fun z : ℝ × ℝ => z.1 ^ n * (g 0 (V p b z.2) z.1 / √(V p b z.2)) * ptdAngle p z.2 a) (volume.prod volume) := by
  have hM : 0 < p.tdisrupt ^ 2 * eig p b + p.sigangle ^ 2 := by positivity
  generalize hMe : p.tdisrupt ^ 2 * eig p b + p.sigangle ^ 2 = M at hM
  have hx : Integrable fun x : ℝ => |x ^ n * g 0 M x| / p.sigangle := by
    have := (int_pow (μ := 0) hM n).abs.div_const p.sigangle
    simpa using this
  have hb' := hx.mul_prod (ptd_integrable he ha hT)
  refine hb'.mono' ?_ (Filter.Eventually.of_forall fun z => ?_)
  · exact (meas n).aestronglyMeasurable.mul ((ptd_integrable he ha hT).aestronglyMeasurable.comp_snd)
  · rw [norm_eq_abs, abs_mul, abs_of_nonneg (ptd_nonneg ha.le z.2)]
    by_cases ht : z.2 ∈ Ioo 0 p.tdisrupt
    · refine mul_le_mul_of_nonneg_right ?_ (ptd_nonneg ha.le z.2)
      have hV : 0 < V p b z.2 := (pow_pos hs 2).trans_le (V_ge hb _)
      have h1 : g 0 (V p b z.2) z.1 ≤ g 0 M z.1 := by
        unfold g
        refine exp_le_exp.2 ?_
        rw [neg_div, neg_div, neg_le_neg_iff]
        refine div_le_div_of_nonneg_left (sq_nonneg _) (by positivity) ?_
        have := V_le hb ht
        linarith
      have h2 : p.sigangle ≤ √(V p b z.2) := by
        rw [← sqrt_sq hs.le]
        exact sqrt_le_sqrt (V_ge hb _)
      rw [abs_mul, abs_mul, abs_div, abs_of_pos (g_pos _ _ _), abs_of_pos (g_pos _ _ _), abs_of_nonneg (sqrt_nonneg _),
        mul_div_assoc]
      refine mul_le_mul_of_nonneg_left ?_ (abs_nonneg _)
      exact div_le_div₀ (g_pos _ _ _).le h1 hs h2
    · rw [ptd_off ht, mul_zero, mul_zero]

theorem swap {a : ℝ} {b : Bool} (he : 0 < p.e2) (ha : 0 < a) (hs : 0 < p.sigangle) (hb : 0 ≤ eig p b) (hT : 0 < p.tdisrupt)
    (n : ℕ) : ∫ x, x ^ n * pangledAngle p x a b
      = ∫ t, (∫ x, x ^ n * g 0 (V p b t) x) / √(V p b t) * ptdAngle p t a := by
  have := integral_integral_swap (f := fun x t => x ^ n * (g 0 (V p b t) x / √(V p b t)) * ptdAngle p t a) (joint he ha hs hb hT n)
  calc _ = ∫ x, ∫ t, x ^ n * (g 0 (V p b t) x / √(V p b t)) * ptdAngle p t a := by
        congr 1
        funext x
        rw [pangled_eq hs hb hT, ← integral_const_mul]
        congr 1
        funext t
        ring
    _ = _ := this
    _ = _ := by
        congr 1
        funext t
        rw [integral_mul_const, ← integral_div]
        congr 2
        funext x
        ring

theorem full0 {v : ℝ} (hv : 0 < v) : ∫ x, g 0 v x = √(2 * π * v) := by
  have h := integral_gaussian (1 / (2 * v))
  have e : (fun x : ℝ => exp (-(1 / (2 * v)) * x ^ 2)) = g 0 v := by
    funext x
    unfold g
    congr 1
    simp only [sub_zero]
    ring
  rw [e] at h
  rw [h]
  congr 1
  field_simp

theorem full2 {v : ℝ} (hv : 0 < v) : ∫ x, x ^ 2 * g 0 v x = v * √(2 * π * v) := by
  have h1 : (∫ x in Iic (0 : ℝ), x ^ 2 * g 0 v x) = ∫ x in Ioi (0 : ℝ), x ^ 2 * g 0 v x := by
    have := integral_comp_neg_Iic (0 : ℝ) (fun x => x ^ 2 * g 0 v x)
    rw [neg_zero] at this
    rw [← this]
    refine setIntegral_congr_fun measurableSet_Iic fun x _ => ?_
    simp [g]
  have h2 := intervalIntegral.integral_Iic_add_Ioi (b := (0 : ℝ)) (int2 (μ := 0) hv).integrableOn (int2 (μ := 0) hv).integrableOn
  rw [← h2, h1, tail2 hv, tail0 hv]
  simp [erf_zero]
  ring

theorem mass_eq {a : ℝ} {b : Bool} (he : 0 < p.e2) (ha : 0 < a) (hs : 0 < p.sigangle) (hb : 0 ≤ eig p b) (hT : 0 < p.tdisrupt) :
    ∫ x, pangledAngle p x a b = √(2 * π) * ∫ t, ptdAngle p t a := by
  have := swap he ha hs hb hT 0
  simp only [pow_zero, one_mul] at this
  rw [this, ← integral_const_mul]
  congr 1
  funext t
  have hV : 0 < V p b t := (pow_pos hs 2).trans_le (V_ge hb t)
  rw [full0 hV, sqrt_mul (by positivity), mul_div_cancel_right₀ _ (sqrt_pos.2 hV).ne']

theorem second_moment_eq {a : ℝ} {b : Bool} (he : 0 < p.e2) (ha : 0 < a) (hs : 0 < p.sigangle) (hb : 0 ≤ eig p b)
    (hT : 0 < p.tdisrupt) :
    ∫ x, x ^ 2 * pangledAngle p x a b = √(2 * π) * ∫ t, (t ^ 2 * eig p b + p.sigangle ^ 2) * ptdAngle p t a := by
  rw [swap he ha hs hb hT 2, ← integral_const_mul]
  congr 1
  funext t
  have hV : 0 < V p b t := (pow_pos hs 2).trans_le (V_ge hb t)
  rw [full2 hV, sqrt_mul (by positivity)]
  change _ = √(2 * π) * (V p b t * ptdAngle p t a)
  have := (sqrt_pos.2 hV).ne'
  field_simp

/-- `pangledAngle` falls off with the distance from zero. -/
theorem pangled_anti {a : ℝ} {b : Bool} (he : 0 < p.e2) (ha : 0 < a) (hs : 0 < p.sigangle) (hb : 0 ≤ eig p b)
    (hT : 0 < p.tdisrupt) : AntitoneOn (fun x => pangledAngle p x a b) (Ici 0) := by
  have hi : ∀ x, Integrable fun t => g 0 (V p b t) x / √(V p b t) * ptdAngle p t a := fun x => by
    refine ((ptd_integrable he ha hT).const_mul (1 / p.sigangle)).mono' ?_ (Filter.Eventually.of_forall fun t => ?_)
    · have : Measurable fun t => g 0 (V p b t) x / √(V p b t) := by unfold g V; fun_prop
      exact this.aestronglyMeasurable.mul (ptd_integrable he ha hT).aestronglyMeasurable
    · have hV : 0 < V p b t := (pow_pos hs 2).trans_le (V_ge hb t)
      rw [norm_eq_abs, abs_mul, abs_of_nonneg (ptd_nonneg ha.le t), abs_of_pos (div_pos (g_pos _ _ _) (sqrt_pos.2 hV))]
      refine mul_le_mul_of_nonneg_right ?_ (ptd_nonneg ha.le t)
      refine div_le_div₀ zero_le_one ?_ hs ?_
      · unfold g
        rw [exp_le_one_iff, neg_div]
        exact neg_nonpos.2 (by positivity)
      · rw [← sqrt_sq hs.le]
        exact sqrt_le_sqrt (V_ge hb _)
  intro x hx y hy hxy
  simp only
  rw [pangled_eq hs hb hT, pangled_eq hs hb hT]
  refine integral_mono (hi y) (hi x) fun t => ?_
  have hV : 0 < V p b t := (pow_pos hs 2).trans_le (V_ge hb t)
  refine mul_le_mul_of_nonneg_right (div_le_div_of_nonneg_right ?_ (sqrt_nonneg _)) (ptd_nonneg ha.le t)
  unfold g
  refine exp_le_exp.2 (div_le_div_of_nonneg_right ?_ (by positivity))
  have : x ^ 2 ≤ y ^ 2 := pow_le_pow_left₀ hx hxy 2
  simpa using this

theorem pangled_even (x a : ℝ) (b : Bool) : pangledAngle p (-x) a b = pangledAngle p x a b := by
  unfold pangledAngle pangledAnglet
  simp only [neg_sq]

theorem pangled_pos {a : ℝ} {b : Bool} (he : 0 < p.e2) (ha : 0 < a) (hs : 0 < p.sigangle) (hb : 0 ≤ eig p b)
    (hT : 0 < p.tdisrupt) (x : ℝ) : 0 < pangledAngle p x a b := by
  have hc : ∀ t, pangledAnglet p t x a b = g 0 (V p b t) x / √(V p b t) * ptdAngle p t a := fun t => pt_eq hs hb t x a
  have hV : ∀ t, 0 < V p b t := fun t => (pow_pos hs 2).trans_le (V_ge hb t)
  unfold pangledAngle
  refine intervalIntegral.intervalIntegral_pos_of_pos_on ?_ (fun t ht => ?_) hT
  · rw [intervalIntegrable_iff]
    refine (((ptd_integrable he ha hT).const_mul (1 / p.sigangle)).mono' ?_ (Filter.Eventually.of_forall fun t => ?_)).integrableOn
    · have : Measurable fun t => g 0 (V p b t) x / √(V p b t) := by unfold g V; fun_prop
      exact (this.aestronglyMeasurable.mul (ptd_integrable he ha hT).aestronglyMeasurable).congr
        (Filter.Eventually.of_forall fun t => (hc t).symm)
    · rw [hc, norm_eq_abs, abs_mul, abs_of_nonneg (ptd_nonneg ha.le t), abs_of_pos (div_pos (g_pos _ _ _) (sqrt_pos.2 (hV t)))]
      refine mul_le_mul_of_nonneg_right ?_ (ptd_nonneg ha.le t)
      refine div_le_div₀ zero_le_one ?_ hs ?_
      · unfold g
        rw [exp_le_one_iff, neg_div]
        have := hV t
        exact neg_nonpos.2 (by positivity)
      · rw [← sqrt_sq hs.le]
        exact sqrt_le_sqrt (V_ge hb _)
  · rw [hc]
    exact mul_pos (div_pos (g_pos _ _ _) (sqrt_pos.2 (hV t))) (ptd_pos he ha ht)

/-- A density that falls off on `[0, s]` has at most the second moment of the uniform one. -/
theorem unif_bound {f : ℝ → ℝ} {s : ℝ} (hs : 0 < s) (hf : AntitoneOn f (Icc 0 s)) :
    ∫ x in (0 : ℝ)..s, x ^ 2 * f x ≤ s ^ 2 / 3 * ∫ x in (0 : ℝ)..s, f x := by
  have hfi : IntervalIntegrable f volume 0 s := by
    refine AntitoneOn.intervalIntegrable ?_
    rwa [uIcc_of_le hs.le]
  have hc : 0 < √(s ^ 2 / 3) := sqrt_pos.2 (by positivity)
  have hc2 : √(s ^ 2 / 3) ^ 2 = s ^ 2 / 3 := sq_sqrt (by positivity)
  generalize √(s ^ 2 / 3) = c at *
  have hcs : c ≤ s := by nlinarith
  have h2 : IntervalIntegrable (fun x : ℝ => x ^ 2) volume 0 s := (by fun_prop : Continuous fun x : ℝ => x ^ 2).intervalIntegrable _ _
  have h2f : IntervalIntegrable (fun x : ℝ => x ^ 2 * f x) volume 0 s := hfi.continuousOn_mul (by fun_prop)
  have key : ∫ x in (0 : ℝ)..s, (x ^ 2 * f x - c ^ 2 * f x) ≤ ∫ x in (0 : ℝ)..s, (x ^ 2 * f c - c ^ 2 * f c) := by
    refine intervalIntegral.integral_mono_on hs.le (h2f.sub (hfi.const_mul _)) ((h2.mul_const _).sub (by simp)) fun x hx => ?_
    rcases le_total x c with h | h
    · have a1 : f c ≤ f x := hf hx ⟨hc.le, hcs⟩ h
      have a2 : x ^ 2 ≤ c ^ 2 := pow_le_pow_left₀ hx.1 h 2
      nlinarith
    · have a1 : f x ≤ f c := hf ⟨hc.le, hcs⟩ hx h
      have a2 : c ^ 2 ≤ x ^ 2 := pow_le_pow_left₀ hc.le h 2
      nlinarith
  rw [intervalIntegral.integral_sub h2f (hfi.const_mul _), intervalIntegral.integral_const_mul,
    intervalIntegral.integral_sub (h2.mul_const _) (by simp), intervalIntegral.integral_mul_const] at key
  simp only [integral_pow, intervalIntegral.integral_const, smul_eq_mul, sub_zero, hc2] at key
  norm_num at key
  nlinarith [key]

end Verif.Stream
