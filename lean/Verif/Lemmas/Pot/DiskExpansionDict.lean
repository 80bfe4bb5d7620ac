import Verif.Lemmas.Pot.DiskExpansionMass
import Mathlib.Analysis.SpecialFunctions.Exp

set_option autoImplicit false

noncomputable section
namespace Verif.DiskExp
open Real Filter Topology Set

/-- A function that is `f` for `z ≥ 0` and `g` for `z ≤ 0`. -/
theorem glue {F F' f g : ℝ → ℝ} (ef : ∀ x, 0 ≤ x → F x = f x) (eg : ∀ x, x ≤ 0 → F x = g x)
    (df : ∀ x, 0 ≤ x → HasDerivAt f (F' x) x) (dg : ∀ x, x ≤ 0 → HasDerivAt g (F' x) x) (z : ℝ) : HasDerivAt F (F' z) z := by
  rcases lt_trichotomy z 0 with h | rfl | h
  · exact (dg z h.le).congr_of_eventuallyEq ((gt_mem_nhds h).mono fun x hx => eg x (le_of_lt hx))
  · have h1 : HasDerivWithinAt F (F' 0) (Ici 0) 0 :=
      (df 0 le_rfl).hasDerivWithinAt.congr (fun x hx => ef x hx) (ef 0 le_rfl)
    have h2 : HasDerivWithinAt F (F' 0) (Iic 0) 0 :=
      (dg 0 le_rfl).hasDerivWithinAt.congr (fun x hx => eg x hx) (eg 0 le_rfl)
    have := h2.union h1
    rw [Iic_union_Ici] at this
    exact hasDerivWithinAt_univ.1 this
  · exact (df z h.le).congr_of_eventuallyEq ((lt_mem_nhds h).mono fun x hx => ef x (le_of_lt hx))

/-! ### Vertical profiles -/

/-- Scale heights are positive. -/
def HzDict.Pos (d : HzDict) : Prop := ∀ x ∈ d.h, 0 < x
/-- Scale lengths are positive and holes are not negative. -/
def SigDict.Pos (d : SigDict) : Prop := (∀ x ∈ d.h, 0 < x) ∧ ∀ x ∈ d.Rhole, 0 < x

theorem getD_pos {o : Option ℝ} (h : ∀ x ∈ o, 0 < x) {d : ℝ} (hd : 0 < d) : 0 < o.getD d := by
  cases o with
  | none => exact hd
  | some x => exact h x rfl

/-- What is needed of a vertical triple. -/
def HzOk (h : (ℝ → ℝ) × (ℝ → ℝ) × (ℝ → ℝ)) : Prop :=
  (∀ z, HasDerivAt h.2.1 (h.2.2 z) z) ∧ (∀ z, HasDerivAt h.2.2 (h.1 z) z) ∧ Continuous h.1 ∧ h.2.1 0 = 0 ∧ h.2.2 0 = 0

theorem hzOk_exp {zd : ℝ} (hz : 0 < zd) :
    HzOk (fun z => 1 / 2 / zd * exp (-|z| / zd), fun z => (exp (-|z| / zd) - 1 + |z| / zd) * zd / 2,
      fun z => 1 / 2 * SignType.sign z * (1 - exp (-|z| / zd))) := by
  refine ⟨?_, ?_, ?_, by simp, by simp⟩
  · refine glue (f := fun z => (exp (-z / zd) - 1 + z / zd) * zd / 2) (g := fun z => (exp (z / zd) - 1 + -z / zd) * zd / 2)
      (fun x h => ?_) (fun x h => ?_) (fun x h => ?_) (fun x h => ?_)
    · simp only [abs_of_nonneg h]
    · simp only [abs_of_nonpos h, neg_neg]
    · have e : (1 / 2 * SignType.sign x * (1 - exp (-|x| / zd)) : ℝ) = 1 / 2 * (1 - exp (-x / zd)) := by
        rcases h.eq_or_lt with rfl | h
        · simp
        · simp [sign_pos h, abs_of_pos h]
      refine HasDerivAt.congr_deriv (f' := (exp (-x / zd) * (-1 / zd) + 1 / zd) * zd / 2) ?_ ?_
      · apply HasDerivAt.congr_deriv
        · hasderiv
        · ring
      · refine Eq.trans ?_ e.symm
        field_simp; ring
    · have e : (1 / 2 * SignType.sign x * (1 - exp (-|x| / zd)) : ℝ) = -(1 / 2 * (1 - exp (x / zd))) := by
        rcases h.eq_or_lt with rfl | h
        · simp
        · simp [sign_neg h, abs_of_neg h]
      refine HasDerivAt.congr_deriv (f' := (exp (x / zd) * (1 / zd) + -1 / zd) * zd / 2) ?_ ?_
      · apply HasDerivAt.congr_deriv
        · hasderiv
        · ring
      · refine Eq.trans ?_ e.symm
        field_simp; ring
  · refine glue (f := fun z => 1 / 2 * (1 - exp (-z / zd))) (g := fun z => -(1 / 2 * (1 - exp (z / zd))))
      (fun x h => ?_) (fun x h => ?_) (fun x h => ?_) (fun x h => ?_)
    · rcases h.eq_or_lt with rfl | h
      · simp
      · simp [sign_pos h, abs_of_pos h]
    · rcases h.eq_or_lt with rfl | h
      · simp
      · simp [sign_neg h, abs_of_neg h]
    · apply HasDerivAt.congr_deriv
      · hasderiv
      · simp only [abs_of_nonneg h]; ring
    · apply HasDerivAt.congr_deriv
      · hasderiv
      · simp only [abs_of_nonpos h, neg_neg]; ring
  · fun_prop

theorem sech_h (zd z : ℝ) : exp (-log (exp (z / zd) + exp (-z / zd) + exp (log 2))) / zd
    = 1 / (4 * zd * cosh (z / 2 / zd) ^ 2) := by
  rw [exp_log two_pos, exp_neg, exp_log (by positivity), cosh_eq]
  have e1 : exp (z / zd) = exp (z / 2 / zd) ^ 2 := by rw [← exp_nat_mul]; congr 1; push_cast; ring
  have e2 : exp (-z / zd) = exp (-(z / 2 / zd)) ^ 2 := by rw [← exp_nat_mul]; congr 1; push_cast; ring
  have e3 : exp (z / 2 / zd) * exp (-(z / 2 / zd)) = 1 := by rw [← exp_add]; simp
  rw [e1, e2]
  generalize exp (z / 2 / zd) = u at *
  generalize exp (-(z / 2 / zd)) = v at *
  rw [show u ^ 2 + v ^ 2 + 2 = (u + v) ^ 2 by linear_combination -2 * e3, div_eq_mul_inv, one_div, ← mul_inv]
  congr 1
  ring

theorem sech_H (zd z : ℝ) : zd * (log (exp (z / 2 / zd) + exp (-z / 2 / zd)) - log 2) = zd * log (cosh (z / 2 / zd)) := by
  rw [cosh_eq, log_div (by positivity) two_ne_zero]
  congr 4
  ring

theorem hzOk_sech {zd : ℝ} (hz : 0 < zd) :
    HzOk (fun z => exp (-log (exp (z / zd) + exp (-z / zd) + exp (log 2))) / zd,
      fun z => zd * (log (exp (z / 2 / zd) + exp (-z / 2 / zd)) - log 2), fun z => tanh (z / 2 / zd) / 2) := by
  have hc : ∀ z : ℝ, 0 < cosh (z / 2 / zd) := fun z => cosh_pos _
  refine ⟨fun z => ?_, fun z => ?_, ?_, ?_, by simp⟩
  · simp only [sech_H]
    apply HasDerivAt.congr_deriv
    · hasderiv
      exact (hc z).ne'
    · rw [tanh_eq_sinh_div_cosh]
      have := hc z
      field_simp
  · simp only [sech_h]
    apply HasDerivAt.congr_deriv
    · hasderiv
    · rw [tanh_eq_sinh_div_cosh]
      have h1 := hc z
      have h2 := cosh_sq_sub_sinh_sq (z / 2 / zd)
      generalize cosh (z / 2 / zd) = c at *
      generalize sinh (z / 2 / zd) = s at *
      field_simp
      linear_combination 4 * h2
  · simp only [sech_h]
    refine continuous_const.div (by fun_prop) fun z => ?_
    have := hc z
    positivity
  · simp only [sech_H]
    simp

theorem parseHz_ok {d : HzDict} (k : d.Pos) {h : (ℝ → ℝ) × (ℝ → ℝ) × (ℝ → ℝ)} (e : parseHz d = .ok h) : HzOk h := by
  have hz : 0 < d.h.getD 0.0375 := getD_pos k (by norm_num)
  unfold parseHz at e
  simp only [] at e
  split_ifs at e
  · cases e; exact hzOk_exp hz
  · cases e; exact hzOk_sech hz

/-! ### Surface densities -/

/-- What is needed of a surface density with its derivatives. -/
def SigOk (s : ℝ × (ℝ → ℝ) × (ℝ → ℝ) × (ℝ → ℝ)) : Prop :=
  (∀ r, 0 < r → HasDerivAt s.2.1 (s.2.2.1 r) r) ∧ (∀ r, 0 < r → HasDerivAt s.2.2.1 (s.2.2.2 r) r) ∧ ContinuousOn s.2.2.2 (Ioi 0)
  ∧ ∃ c0 c1 c2, Tendsto s.2.1 (𝓝[>] 0) (𝓝 c0) ∧ Tendsto s.2.2.1 (𝓝[>] 0) (𝓝 c1) ∧ Tendsto s.2.2.2 (𝓝[>] 0) (𝓝 c2)

theorem sigOk_exp (a : ℝ) {rd : ℝ} (hr : 0 < rd) :
    SigOk (a, fun R => exp (-R / rd), fun R => -exp (-R / rd) / rd, fun R => exp (-R / rd) / rd ^ 2) := by
  refine ⟨fun r _ => ?_, fun r _ => ?_, by fun_prop, exp (-0 / rd), -exp (-0 / rd) / rd, exp (-0 / rd) / rd ^ 2, ?_, ?_, ?_⟩
  · apply HasDerivAt.congr_deriv
    · hasderiv
    · ring
  · apply HasDerivAt.congr_deriv
    · hasderiv
    · field_simp
  · exact (by fun_prop : Continuous fun R : ℝ => exp (-R / rd)).continuousAt.continuousWithinAt
  · exact (by fun_prop : Continuous fun R : ℝ => -exp (-R / rd) / rd).continuousAt.continuousWithinAt
  · exact (by fun_prop : Continuous fun R : ℝ => exp (-R / rd) / rd ^ 2).continuousAt.continuousWithinAt

/-- `r⁻ⁿ e^{-m/r}` vanishes at the centre. -/
theorem hole_lim {m : ℝ} (hm : 0 < m) (n : ℕ) : Tendsto (fun r : ℝ => r⁻¹ ^ n * exp (-m / r)) (𝓝[>] 0) (𝓝 0) := by
  have h := (Real.tendsto_pow_mul_exp_neg_atTop_nhds_zero n).comp (tendsto_inv_nhdsGT_zero.const_mul_atTop hm)
  have h2 := h.const_mul (m⁻¹ ^ n)
  rw [mul_zero] at h2
  refine h2.congr fun r => ?_
  simp only [Function.comp]
  rw [mul_pow, ← mul_assoc, ← mul_assoc, ← mul_pow, inv_mul_cancel₀ hm.ne', one_pow, one_mul]
  congr 2
  rw [div_eq_mul_inv]
  ring

theorem sigOk_hole (a : ℝ) {rd rm : ℝ} (hr : 0 < rd) (hm : 0 < rm) :
    SigOk (a, fun R => exp (-rm / R - R / rd), fun R => (rm / R ^ 2 - 1 / rd) * exp (-rm / R - R / rd),
      fun R => ((rm / R ^ 2 - 1 / rd) ^ 2 - 2 * rm / R ^ 3) * exp (-rm / R - R / rd)) := by
  have ne : ∀ r : ℝ, r ∈ Ioi (0 : ℝ) → r ≠ 0 := fun r h => (mem_Ioi.1 h).ne'
  have cexp : Tendsto (fun R : ℝ => exp (-R / rd)) (𝓝[>] 0) (𝓝 (exp (-0 / rd))) :=
    (by fun_prop : Continuous fun R : ℝ => exp (-R / rd)).continuousAt.continuousWithinAt
  have sp : ∀ R : ℝ, exp (-rm / R - R / rd) = exp (-rm / R) * exp (-R / rd) := fun R => by
    rw [← exp_add]; congr 1; ring
  refine ⟨fun r h => ?_, fun r h => ?_, ?_, 0, 0, 0, ?_, ?_, ?_⟩
  · have h0 := h.ne'
    apply HasDerivAt.congr_deriv
    · hasderiv
    · field_simp; ring
  · have h0 := h.ne'
    apply HasDerivAt.congr_deriv
    · hasderiv
      all_goals first | exact h0 | exact pow_ne_zero _ h0
    · simp only [Nat.cast_ofNat, Nat.reduceSub]
      generalize exp (-rm / r - r / rd) = e
      field_simp
      try ring
  · refine ContinuousOn.mul (ContinuousOn.sub (ContinuousOn.pow (ContinuousOn.sub ?_ continuousOn_const) 2) ?_) (ContinuousOn.rexp ?_)
    · exact continuousOn_const.div (by fun_prop) fun r h => pow_ne_zero _ (ne r h)
    · exact continuousOn_const.div (by fun_prop) fun r h => pow_ne_zero _ (ne r h)
    · exact (continuousOn_const.div continuousOn_id fun r h => ne r h).sub (by fun_prop)
  · have := (hole_lim hm 0).mul cexp
    rw [zero_mul] at this
    refine this.congr fun R => ?_
    simp only [sp, pow_zero, one_mul]
  · have := (((hole_lim hm 2).const_mul rm).sub ((hole_lim hm 0).const_mul (1 / rd))).mul cexp
    rw [mul_zero, mul_zero, sub_zero, zero_mul] at this
    refine this.congr fun R => ?_
    simp only [sp]
    rw [inv_pow]
    ring
  · have := (((((hole_lim hm 4).const_mul (rm ^ 2)).sub ((hole_lim hm 2).const_mul (2 * rm / rd))).add
      ((hole_lim hm 0).const_mul (1 / rd ^ 2))).sub ((hole_lim hm 3).const_mul (2 * rm))).mul cexp
    rw [mul_zero, mul_zero, mul_zero, mul_zero, sub_zero, add_zero, sub_zero, zero_mul] at this
    refine this.congr fun R => ?_
    simp only [sp]
    ring

theorem parseSigma_ok {d : SigDict} (k : d.Pos) {s : ℝ × (ℝ → ℝ) × (ℝ → ℝ) × (ℝ → ℝ)} (e : parseSigma d = .ok s) : SigOk s := by
  have hr : 0 < d.h.getD (1 / 3) := getD_pos k.1 (by norm_num)
  have hm : 0 < d.Rhole.getD (1 / 2) := getD_pos k.2 (by norm_num)
  unfold parseSigma at e
  simp only [] at e
  split_ifs at e
  · cases e; exact sigOk_exp _ hr
  · cases e; exact sigOk_hole _ hr hm

end Verif.DiskExp
