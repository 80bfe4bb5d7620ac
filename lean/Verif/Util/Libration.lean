import Mathlib.Analysis.Calculus.DSlope
import Mathlib.Analysis.Calculus.FDeriv.Extend
import Mathlib.Analysis.SpecialFunctions.Integrals.Basic
import Mathlib.MeasureTheory.Function.Jacobian

set_option autoImplicit false

/-!
# Motion between two turning points

`W` is positive between simple zeros `a < b`. A motion with `v² = 2 W(x)`, `v' = W'(x)` goes back and forth; integrals of
functions of `x` over time become integrals against `dx / √(2W)`.
-/

noncomputable section
namespace Verif
open Real Set Filter MeasureTheory
open scoped Topology

/-- `W`, with derivative `W'`, is positive between its simple zeros `a` and `b`. -/
structure Well (W W' : ℝ → ℝ) (a b : ℝ) : Prop where
  lt : a < b
  deriv : ∀ x ∈ Icc a b, HasDerivAt W (W' x) x
  cont : ContinuousOn W' (Icc a b)
  za : W a = 0
  zb : W b = 0
  pos : ∀ x ∈ Ioo a b, 0 < W x
  da : 0 < W' a
  db : W' b < 0

namespace Well
variable {W W' : ℝ → ℝ} {a b : ℝ}

theorem contW (h : Well W W' a b) : ContinuousOn W (Icc a b) := fun x hx => (h.deriv x hx).continuousAt.continuousWithinAt

theorem nonneg (h : Well W W' a b) {x : ℝ} (hx : x ∈ Icc a b) : 0 ≤ W x := by
  rcases eq_or_lt_of_le hx.1 with e | e
  · rw [← e, h.za]
  rcases eq_or_lt_of_le hx.2 with e' | e'
  · rw [e', h.zb]
  exact (h.pos x ⟨e, e'⟩).le

/-- Below by a multiple of the distance from both zeros. -/
theorem lower (h : Well W W' a b) : ∃ c > 0, ∀ x ∈ Icc a b, c * ((x - a) * (b - x)) ≤ W x := by
  -- near a
  have hL := h.lt
  obtain ⟨c1, hc1, hb1⟩ : ∃ c > 0, ∀ x ∈ Icc a ((a + b) / 2), c * (x - a) ≤ W x := by
    have hm : a ≤ (a + b) / 2 := by linarith
    have hc : ContinuousOn (dslope W a) (Icc a ((a + b) / 2)) := by
      intro x hx
      rcases eq_or_ne x a with e | e
      · rw [e]; exact (continuousAt_dslope_same.2 (h.deriv a ⟨le_rfl, hL.le⟩).differentiableAt).continuousWithinAt
      · exact ((continuousAt_dslope_of_ne e).2 (h.deriv x ⟨hx.1, by linarith [hx.2]⟩).continuousAt).continuousWithinAt
    obtain ⟨y, hy, hmin⟩ := isCompact_Icc.exists_isMinOn (nonempty_Icc.2 hm) hc
    refine ⟨dslope W a y, ?_, fun x hx => ?_⟩
    · rcases eq_or_ne y a with e | e
      · rw [e, dslope_same, (h.deriv a ⟨le_rfl, hL.le⟩).deriv]; exact h.da
      · have hya : a < y := lt_of_le_of_ne hy.1 (Ne.symm e)
        rw [dslope_of_ne _ e, slope_def_field, h.za, sub_zero]
        exact div_pos (h.pos y ⟨hya, by linarith [hy.2]⟩) (by linarith)
    · rcases eq_or_ne x a with e | e
      · rw [e, h.za]; simp
      · have hxa : a < x := lt_of_le_of_ne hx.1 (Ne.symm e)
        have := hmin hx
        simp only [mem_setOf_eq] at this
        rw [dslope_of_ne _ e, slope_def_field, h.za, sub_zero, le_div_iff₀ (by linarith)] at this
        exact this
  obtain ⟨c2, hc2, hb2⟩ : ∃ c > 0, ∀ x ∈ Icc ((a + b) / 2) b, c * (b - x) ≤ W x := by
    have hm : (a + b) / 2 ≤ b := by linarith
    have hc : ContinuousOn (fun x => -dslope W b x) (Icc ((a + b) / 2) b) := by
      intro x hx
      refine ContinuousWithinAt.neg ?_
      rcases eq_or_ne x b with e | e
      · rw [e]; exact (continuousAt_dslope_same.2 (h.deriv b ⟨hL.le, le_rfl⟩).differentiableAt).continuousWithinAt
      · exact ((continuousAt_dslope_of_ne e).2 (h.deriv x ⟨by linarith [hx.1], hx.2⟩).continuousAt).continuousWithinAt
    obtain ⟨y, hy, hmin⟩ := isCompact_Icc.exists_isMinOn (nonempty_Icc.2 hm) hc
    refine ⟨-dslope W b y, ?_, fun x hx => ?_⟩
    · rcases eq_or_ne y b with e | e
      · rw [e, dslope_same, (h.deriv b ⟨hL.le, le_rfl⟩).deriv]; linarith [h.db]
      · have hyb : y < b := lt_of_le_of_ne hy.2 e
        rw [dslope_of_ne _ e, slope_def_field, h.zb, sub_zero, gt_iff_lt, neg_pos]
        exact div_neg_of_pos_of_neg (h.pos y ⟨by linarith [hy.1], hyb⟩) (by linarith)
    · rcases eq_or_ne x b with e | e
      · rw [e, h.zb]; simp
      · have hxb : x < b := lt_of_le_of_ne hx.2 e
        have := hmin hx
        simp only [mem_setOf_eq] at this
        rw [dslope_of_ne _ e, slope_def_field, h.zb, sub_zero, show -(W x / (x - b)) = W x / (b - x) by
          rw [← div_neg, neg_sub], le_div_iff₀ (by linarith)] at this
        exact this
  have hba : 0 < b - a := by linarith
  refine ⟨min c1 c2 / (b - a), by have := lt_min hc1 hc2; positivity, fun x hx => ?_⟩
  have hmin0 : 0 < min c1 c2 := lt_min hc1 hc2
  rw [div_mul_eq_mul_div, div_le_iff₀ hba]
  have h1 := hx.1
  have h2 := hx.2
  rcases le_total x ((a + b) / 2) with hm | hm
  · have := hb1 x ⟨h1, hm⟩
    have e1 : min c1 c2 * ((x - a) * (b - x)) ≤ c1 * ((x - a) * (b - x)) :=
      mul_le_mul_of_nonneg_right (min_le_left _ _) (mul_nonneg (by linarith) (by linarith))
    nlinarith [mul_nonneg (mul_nonneg hc1.le (by linarith : 0 ≤ x - a)) (by linarith : 0 ≤ x - a)]
  · have := hb2 x ⟨hm, h2⟩
    have e1 : min c1 c2 * ((x - a) * (b - x)) ≤ c2 * ((x - a) * (b - x)) :=
      mul_le_mul_of_nonneg_right (min_le_right _ _) (mul_nonneg (by linarith) (by linarith))
    nlinarith [mul_nonneg (mul_nonneg hc2.le (by linarith : 0 ≤ b - x)) (by linarith : 0 ≤ b - x)]

/-- `dx / √(2W)`. -/
def w (W : ℝ → ℝ) (x : ℝ) : ℝ := 1 / √(2 * W x)

theorem w_cont (h : Well W W' a b) : ContinuousOn (w W) (Ioo a b) := by
  refine ContinuousOn.div continuousOn_const (ContinuousOn.sqrt ?_) fun x hx => ?_
  · exact continuousOn_const.mul (h.contW.mono Ioo_subset_Icc_self)
  · have := h.pos x hx
    positivity

theorem w_int (h : Well W W' a b) : IntegrableOn (w W) (Ioo a b) := by
  obtain ⟨c, hc, hlow⟩ := h.lower
  have hL := h.lt
  have hd : 0 < b - a := by linarith
  -- dominated by a multiple of `(x-a)^(-1/2) + (b-x)^(-1/2)`
  have i1 : IntervalIntegrable (fun x : ℝ => (x - a) ^ (-(1 / 2) : ℝ)) volume a b := by
    have := (intervalIntegral.intervalIntegrable_rpow' (r := (-(1 / 2) : ℝ)) (a := 0) (b := b - a) (by norm_num)).comp_sub_right a
    simpa using this
  have i2 : IntervalIntegrable (fun x : ℝ => (b - x) ^ (-(1 / 2) : ℝ)) volume a b := by
    have := (intervalIntegral.intervalIntegrable_rpow' (r := (-(1 / 2) : ℝ)) (a := 0) (b := b - a) (by norm_num)).comp_sub_left b
    simpa using this.symm
  have i3 := ((i1.add i2).const_mul (1 / √(c * (b - a)))).1.mono_set Ioo_subset_Ioc_self
  refine Integrable.mono' i3 (h.w_cont.aestronglyMeasurable measurableSet_Ioo) ?_
  refine (ae_restrict_iff' measurableSet_Ioo).2 (Eventually.of_forall fun x hx => ?_)
  have h1 : 0 < x - a := by linarith [hx.1]
  have h2 : 0 < b - x := by linarith [hx.2]
  have hW := h.pos x hx
  have hlo := hlow x ⟨hx.1.le, hx.2.le⟩
  simp only [w]
  rw [norm_of_nonneg (by positivity), rpow_neg h1.le, rpow_neg h2.le, ← sqrt_eq_rpow, ← sqrt_eq_rpow]
  have s1 := sqrt_pos.2 h1
  have s2 := sqrt_pos.2 h2
  have sc := sqrt_pos.2 (mul_pos hc hd)
  -- compare squares
  have hb1 : 1 / √(2 * W x) ≤ 1 / (√2 * √(c * ((x - a) * (b - x)))) := by
    rw [← sqrt_mul two_pos.le]
    exact one_div_le_one_div_of_le (sqrt_pos.2 (by positivity)) (sqrt_le_sqrt (by linarith))
  refine hb1.trans ?_
  have hsq : √(c * ((x - a) * (b - x))) = √c * (√(x - a) * √(b - x)) := by
    rw [sqrt_mul hc.le, sqrt_mul h1.le]
  have hsc : √(c * (b - a)) = √c * √(b - a) := sqrt_mul hc.le _
  have hc' := sqrt_pos.2 hc
  have hd' := sqrt_pos.2 hd
  have h2' : 1 ≤ √2 := by rw [show (1 : ℝ) = √1 by simp]; exact sqrt_le_sqrt (by norm_num)
  have hsum : √(b - a) ≤ √(x - a) + √(b - x) := by
    rw [show b - a = (x - a) + (b - x) by ring]
    refine sqrt_le_iff.2 ⟨by positivity, ?_⟩
    nlinarith [sq_sqrt h1.le, sq_sqrt h2.le, mul_pos s1 s2]
  rw [hsq, hsc]
  have e : 1 / (√c * √(b - a)) * ((√(x - a))⁻¹ + (√(b - x))⁻¹)
      = (√(x - a) + √(b - x)) / (√c * √(b - a) * (√(x - a) * √(b - x))) := by
    field_simp
    ring
  rw [e, div_le_div_iff₀ (by positivity) (by positivity)]
  have : 1 * (√c * √(b - a) * (√(x - a) * √(b - x))) ≤ √2 * √c * (√(x - a) * √(b - x)) * (√(x - a) + √(b - x)) := by
    have a1 : √(b - a) ≤ √2 * (√(x - a) + √(b - x)) := by nlinarith
    have a2 : 0 ≤ √c * (√(x - a) * √(b - x)) := by positivity
    nlinarith [mul_le_mul_of_nonneg_left a1 a2]
  nlinarith

theorem kw_int (h : Well W W' a b) {k : ℝ → ℝ} (hk : ContinuousOn k (Icc a b)) : IntegrableOn (fun x => k x * w W x) (Ioo a b) := by
  obtain ⟨M, hM⟩ := isCompact_Icc.exists_bound_of_continuousOn hk
  refine Integrable.mono' (h.w_int.const_mul M)
    (((hk.mono Ioo_subset_Icc_self).mul h.w_cont).aestronglyMeasurable measurableSet_Ioo) ?_
  refine (ae_restrict_iff' measurableSet_Ioo).2 (Eventually.of_forall fun x hx => ?_)
  rw [norm_mul]
  have hw : 0 ≤ w W x := by unfold w; positivity
  rw [norm_of_nonneg hw]
  exact mul_le_mul_of_nonneg_right (hM x ⟨hx.1.le, hx.2.le⟩) hw

theorem kw_ii (h : Well W W' a b) {k : ℝ → ℝ} (hk : ContinuousOn k (Icc a b)) {x y : ℝ} (hx : x ∈ Icc a b) (hy : y ∈ Icc a b) :
    IntervalIntegrable (fun x => k x * w W x) volume x y := by
  have : IntervalIntegrable (fun x => k x * w W x) volume a b :=
    (intervalIntegrable_iff_integrableOn_Ioo_of_le h.lt.le).2 (h.kw_int hk)
  refine this.mono_set ?_
  rw [uIcc_of_le h.lt.le]
  exact uIcc_subset_Icc hx hy

/-- `∫ k dx / √(2W)` from the lower turning point. -/
def T (W k : ℝ → ℝ) (a x : ℝ) : ℝ := ∫ y in a..x, k y * w W y

theorem T_cont (h : Well W W' a b) {k : ℝ → ℝ} (hk : ContinuousOn k (Icc a b)) : ContinuousOn (T W k a) (Icc a b) := by
  have := intervalIntegral.continuousOn_primitive_interval (μ := volume) (f := fun x => k x * w W x) (a := a) (b := b) ?_
  · rwa [uIcc_of_le h.lt.le] at this
  · rw [uIcc_of_le h.lt.le, integrableOn_Icc_iff_integrableOn_Ioo]
    exact h.kw_int hk

theorem T_deriv (h : Well W W' a b) {k : ℝ → ℝ} (hk : ContinuousOn k (Icc a b)) {x : ℝ} (hx : x ∈ Ioo a b) :
    HasDerivAt (T W k a) (k x * w W x) x := by
  have hc : ContinuousOn (fun x => k x * w W x) (Ioo a b) := (hk.mono Ioo_subset_Icc_self).mul h.w_cont
  refine intervalIntegral.integral_hasDerivAt_right
    (h.kw_ii hk ⟨le_rfl, h.lt.le⟩ ⟨hx.1.le, hx.2.le⟩) ?_ (hc.continuousAt (Ioo_mem_nhds hx.1 hx.2))
  exact hc.stronglyMeasurableAtFilter isOpen_Ioo x hx

theorem T_split (h : Well W W' a b) {k : ℝ → ℝ} (hk : ContinuousOn k (Icc a b)) {x : ℝ} (hx : x ∈ Icc a b) :
    ∫ y in x..b, k y * w W y = T W k a b - T W k a x := by
  have := intervalIntegral.integral_add_adjacent_intervals (h.kw_ii hk ⟨le_rfl, h.lt.le⟩ hx) (h.kw_ii hk hx ⟨h.lt.le, le_rfl⟩)
  unfold T
  linarith

theorem half_pos (h : Well W W' a b) : 0 < T W (fun _ => 1) a b := by
  refine intervalIntegral.intervalIntegral_pos_of_pos_on (h.kw_ii continuousOn_const ⟨le_rfl, h.lt.le⟩ ⟨h.lt.le, le_rfl⟩)
    (fun x hx => ?_) h.lt
  have := h.pos x hx
  simp only [w, one_mul]
  positivity

/-! ### Substitutions that remove the singularity -/

theorem small (h : Well W W' a b) (k : ℝ → ℝ) {x : ℝ} (hx : x ∈ Icc a b) :
    ∫ t in (0 : ℝ)..√(x - a), 2 * t * (k (a + t ^ 2) * w W (a + t ^ 2)) = T W k a x := by
  have hx0 : 0 ≤ x - a := by linarith [hx.1]
  have himg : (fun t => a + t ^ 2) '' Ioo 0 (√(x - a)) = Ioo a x := by
    ext y
    constructor
    · rintro ⟨t, ht, rfl⟩
      refine ⟨by nlinarith [ht.1], ?_⟩
      have : t ^ 2 < √(x - a) ^ 2 := by nlinarith [ht.1, ht.2]
      rw [sq_sqrt hx0] at this
      show a + t ^ 2 < x
      linarith
    · intro hy
      have hy0 : 0 < y - a := by linarith [hy.1]
      refine ⟨√(y - a), ⟨sqrt_pos.2 hy0, sqrt_lt_sqrt hy0.le (by linarith [hy.2])⟩, ?_⟩
      simp only
      rw [sq_sqrt hy0.le]
      ring
  have hinj : InjOn (fun t : ℝ => a + t ^ 2) (Ioo 0 (√(x - a))) := by
    intro s hs t ht e
    simp only at e
    have : s ^ 2 = t ^ 2 := by linarith
    exact (pow_left_inj₀ hs.1.le ht.1.le two_ne_zero).1 this
  have key := integral_image_eq_integral_abs_deriv_smul (s := Ioo 0 (√(x - a))) (f := fun t => a + t ^ 2) (f' := fun t => 2 * t)
    measurableSet_Ioo (fun t _ => by
      have := ((hasDerivAt_id t).pow 2).const_add a
      simpa using this.hasDerivWithinAt) hinj (fun y => k y * w W y)
  rw [himg] at key
  unfold T
  rw [intervalIntegral.integral_of_le (sqrt_nonneg _), intervalIntegral.integral_of_le hx.1, integral_Ioc_eq_integral_Ioo,
    integral_Ioc_eq_integral_Ioo, key]
  refine setIntegral_congr_fun measurableSet_Ioo fun t ht => ?_
  simp only [smul_eq_mul]
  rw [abs_of_pos (by linarith [ht.1])]

theorem large (h : Well W W' a b) (k : ℝ → ℝ) (hk : ContinuousOn k (Icc a b)) {x : ℝ} (hx : x ∈ Icc a b) :
    ∫ t in (0 : ℝ)..√(b - x), 2 * t * (k (b - t ^ 2) * w W (b - t ^ 2)) = T W k a b - T W k a x := by
  rw [← h.T_split hk hx]
  have hx0 : 0 ≤ b - x := by linarith [hx.2]
  have himg : (fun t => b - t ^ 2) '' Ioo 0 (√(b - x)) = Ioo x b := by
    ext y
    constructor
    · rintro ⟨t, ht, rfl⟩
      refine ⟨?_, by nlinarith [ht.1]⟩
      have : t ^ 2 < √(b - x) ^ 2 := by nlinarith [ht.1, ht.2]
      rw [sq_sqrt hx0] at this
      show x < b - t ^ 2
      linarith
    · intro hy
      have hy0 : 0 < b - y := by linarith [hy.2]
      refine ⟨√(b - y), ⟨sqrt_pos.2 hy0, sqrt_lt_sqrt hy0.le (by linarith [hy.1])⟩, ?_⟩
      simp only
      rw [sq_sqrt hy0.le]
      ring
  have hinj : InjOn (fun t : ℝ => b - t ^ 2) (Ioo 0 (√(b - x))) := by
    intro s hs t ht e
    simp only at e
    have : s ^ 2 = t ^ 2 := by linarith
    exact (pow_left_inj₀ hs.1.le ht.1.le two_ne_zero).1 this
  have key := integral_image_eq_integral_abs_deriv_smul (s := Ioo 0 (√(b - x))) (f := fun t => b - t ^ 2) (f' := fun t => -(2 * t))
    measurableSet_Ioo (fun t _ => by
      have := ((hasDerivAt_id t).pow 2).const_sub b
      simpa using this.hasDerivWithinAt) hinj (fun y => k y * w W y)
  rw [himg] at key
  rw [intervalIntegral.integral_of_le (sqrt_nonneg _), intervalIntegral.integral_of_le hx.2, integral_Ioc_eq_integral_Ioo,
    integral_Ioc_eq_integral_Ioo, key]
  refine setIntegral_congr_fun measurableSet_Ioo fun t ht => ?_
  simp only [smul_eq_mul]
  rw [abs_neg, abs_of_pos (by linarith [ht.1])]

/-! ### The motion -/

/-- A motion in the well. -/
structure Moves (W W' : ℝ → ℝ) (a b : ℝ) (x v : ℝ → ℝ) : Prop where
  mem : ∀ t, x t ∈ Icc a b
  dx : ∀ t, HasDerivAt x (v t) t
  dv : ∀ t, HasDerivAt v (W' (x t)) t
  energy : ∀ t, v t ^ 2 = 2 * W (x t)

/-- A continuous function that has the derivative `g` except at simple zeros of `v` has it everywhere. -/
theorem turn {f g v v' : ℝ → ℝ} (hf : Continuous f) (hg : Continuous g) (hv : ∀ t, HasDerivAt v (v' t) t)
    (hz : ∀ t, v t = 0 → v' t ≠ 0) (h : ∀ t, v t ≠ 0 → HasDerivAt f (g t) t) (t : ℝ) : HasDerivAt f (g t) t := by
  by_cases hvt : v t = 0
  · have hne : ∀ᶠ s in 𝓝[≠] t, v s ≠ 0 := by
      have := (hv t).eventually_ne (c := 0) (hz t hvt)
      exact this
    have hr : ∀ᶠ s in 𝓝[>] t, v s ≠ 0 := hne.filter_mono (nhdsWithin_mono t fun s hs => (ne_of_gt hs))
    have hl : ∀ᶠ s in 𝓝[<] t, v s ≠ 0 := hne.filter_mono (nhdsWithin_mono t fun s hs => (ne_of_lt hs))
    have r := hasDerivWithinAt_Ici_of_tendsto_deriv (f := f) (s := {s | v s ≠ 0}) (e := g t) (a := t)
      (fun s hs => (h s hs).differentiableAt.differentiableWithinAt) hf.continuousWithinAt hr
      ((hg.continuousAt.tendsto.mono_left nhdsWithin_le_nhds).congr' (by
        filter_upwards [hr] with s hs
        exact (h s hs).deriv.symm))
    have l := hasDerivWithinAt_Iic_of_tendsto_deriv (f := f) (s := {s | v s ≠ 0}) (e := g t) (a := t)
      (fun s hs => (h s hs).differentiableAt.differentiableWithinAt) hf.continuousWithinAt hl
      ((hg.continuousAt.tendsto.mono_left nhdsWithin_le_nhds).congr' (by
        filter_upwards [hl] with s hs
        exact (h s hs).deriv.symm))
    have := l.union r
    rw [Iic_union_Ici] at this
    exact this.hasDerivAt Filter.univ_mem
  · exact h t hvt

/-- `1` while moving up, `-1` while moving down. -/
def sgn (v : ℝ) : ℝ := if v < 0 then -1 else 1

theorem sgn_sq (v : ℝ) : sgn v * sgn v = 1 := by unfold sgn; split_ifs <;> norm_num

theorem abs_sgn (v : ℝ) : |sgn v| = 1 := by unfold sgn; split_ifs <;> norm_num

theorem sgn_mul (v : ℝ) : sgn v * |v| = v := by
  unfold sgn
  split_ifs with h
  · rw [abs_of_neg h]; ring
  · rw [abs_of_nonneg (not_lt.1 h)]; ring

namespace Moves
variable {x v : ℝ → ℝ}

theorem contx (m : Moves W W' a b x v) : Continuous x := continuous_iff_continuousAt.2 fun t => (m.dx t).continuousAt

theorem contv (m : Moves W W' a b x v) : Continuous v := continuous_iff_continuousAt.2 fun t => (m.dv t).continuousAt

theorem at_end (h : Well W W' a b) (m : Moves W W' a b x v) {t : ℝ} (hv : v t = 0) : x t = a ∨ x t = b := by
  have e := m.energy t
  rw [hv] at e
  have hW : W (x t) = 0 := by nlinarith
  by_contra hn
  push Not at hn
  have := h.pos (x t) ⟨lt_of_le_of_ne (m.mem t).1 (Ne.symm hn.1), lt_of_le_of_ne (m.mem t).2 hn.2⟩
  linarith

theorem inside (h : Well W W' a b) (m : Moves W W' a b x v) {t : ℝ} (hv : v t ≠ 0) : x t ∈ Ioo a b := by
  have e := m.energy t
  have hp : 0 < v t ^ 2 := by positivity
  refine ⟨lt_of_le_of_ne (m.mem t).1 fun e' => ?_, lt_of_le_of_ne (m.mem t).2 fun e' => ?_⟩
  · rw [← e', h.za] at e; linarith
  · rw [e', h.zb] at e; linarith

theorem simple (h : Well W W' a b) (m : Moves W W' a b x v) (t : ℝ) (hv : v t = 0) : W' (x t) ≠ 0 := by
  rcases at_end h m hv with e | e
  · rw [e]; exact h.da.ne'
  · rw [e]; exact h.db.ne

theorem sgn_cont (m : Moves W W' a b x v) {d : ℝ → ℝ} (hd : Continuous d) (h0 : ∀ t, v t = 0 → d t = 0) :
    Continuous fun t => sgn (v t) * d t := by
  refine continuous_iff_continuousAt.2 fun t => ?_
  by_cases hv : v t = 0
  · have h1 : Tendsto (fun s => |d s|) (𝓝 t) (𝓝 0) := by
      have := (hd.abs).continuousAt (x := t)
      rw [ContinuousAt, h0 t hv, abs_zero] at this
      exact this
    rw [ContinuousAt, h0 t hv, mul_zero]
    refine squeeze_zero_norm (fun s => ?_) h1
    rw [norm_mul, Real.norm_eq_abs, abs_sgn, one_mul, Real.norm_eq_abs]
  · rcases lt_or_gt_of_ne hv with hn | hp
    · have : ∀ᶠ s in 𝓝 t, sgn (v s) * d s = -d s := by
        filter_upwards [m.contv.continuousAt.eventually_lt continuousAt_const hn] with s hs
        simp [sgn, hs]
      exact (hd.neg.continuousAt).congr (this.mono fun s hs => hs.symm)
    · have : ∀ᶠ s in 𝓝 t, sgn (v s) * d s = d s := by
        filter_upwards [continuousAt_const.eventually_lt m.contv.continuousAt hp] with s hs
        simp [sgn, not_lt.2 hs.le]
      exact (hd.continuousAt).congr (this.mono fun s hs => hs.symm)

theorem comp_cont (m : Moves W W' a b x v) {d : ℝ → ℝ} (hd : ContinuousOn d (Icc a b)) : Continuous fun t => d (x t) :=
  hd.comp_continuous m.contx m.mem

theorem sgn_ev (m : Moves W W' a b x v) {t : ℝ} (hv : v t ≠ 0) : ∀ᶠ s in 𝓝 t, sgn (v s) = sgn (v t) := by
  rcases lt_or_gt_of_ne hv with hn | hp
  · filter_upwards [m.contv.continuousAt.eventually_lt continuousAt_const hn] with s hs
    simp [sgn, hs, hn]
  · filter_upwards [continuousAt_const.eventually_lt m.contv.continuousAt hp] with s hs
    simp [sgn, not_lt.2 hs.le, not_lt.2 hp.le]

theorem w_v (h : Well W W' a b) (m : Moves W W' a b x v) {t : ℝ} (hv : v t ≠ 0) : w W (x t) * v t = sgn (v t) := by
  have hi := inside h m hv
  have hW := h.pos _ hi
  have hs : √(2 * W (x t)) = |v t| := by rw [← m.energy t, sqrt_sq_eq_abs]
  unfold w
  rw [hs]
  have ha : |v t| ≠ 0 := abs_ne_zero.2 hv
  rw [div_mul_eq_mul_div, one_mul, div_eq_iff ha, sgn_mul]

/-- A function that vanishes at the turning points, with derivative `g / √(2W)` in between, taken with the sign of the velocity:
its time derivative is `g`. -/
theorem odd (h : Well W W' a b) (m : Moves W W' a b x v) {d g : ℝ → ℝ} (hd : ContinuousOn d (Icc a b))
    (hg : ContinuousOn g (Icc a b)) (da : d a = 0) (db : d b = 0) (hdd : ∀ y ∈ Ioo a b, HasDerivAt d (g y * w W y) y) (t : ℝ) :
    HasDerivAt (fun t => sgn (v t) * d (x t)) (g (x t)) t := by
  refine turn (sgn_cont m (comp_cont m hd) fun t hv => ?_) (comp_cont m hg) m.dv (simple h m) (fun t hv => ?_) t
  · rcases at_end h m hv with e | e <;> rw [e] <;> assumption
  · have hk : HasDerivAt (fun s => sgn (v t) * d (x s)) (sgn (v t) * (g (x t) * w W (x t) * v t)) t :=
      ((hdd (x t) (inside h m hv)).comp t (m.dx t)).const_mul _
    refine (hk.congr_of_eventuallyEq ?_).congr_deriv ?_
    · filter_upwards [sgn_ev m hv] with s hs
      rw [hs]
    · rw [mul_assoc (g (x t)), w_v h m hv]
      linear_combination g (x t) * sgn_sq (v t)

/-- A function of the position whose derivative is `g / √(2W)` with `g` vanishing at the turning points: its time derivative is
`g` with the sign of the velocity. -/
theorem even (h : Well W W' a b) (m : Moves W W' a b x v) {d g : ℝ → ℝ} (hd : ContinuousOn d (Icc a b))
    (hg : ContinuousOn g (Icc a b)) (ga : g a = 0) (gb : g b = 0) (hdd : ∀ y ∈ Ioo a b, HasDerivAt d (g y * w W y) y) (t : ℝ) :
    HasDerivAt (fun t => d (x t)) (sgn (v t) * g (x t)) t := by
  refine turn (g := fun t => sgn (v t) * g (x t)) (comp_cont m hd) (sgn_cont m (comp_cont m hg) fun t hv => ?_) m.dv (simple h m)
    (fun t hv => ?_) t
  · rcases at_end h m hv with e | e <;> rw [e] <;> assumption
  · refine ((hdd (x t) (inside h m hv)).comp t (m.dx t)).congr_deriv ?_
    rw [mul_assoc (g (x t)), w_v h m hv]
    ring

end Moves
end Well
end Verif
