import Verif.Util.Libration
import Verif.Props.C50Example

set_option autoImplicit false

/-!
# The phase of a motion between two turning points
-/

noncomputable section
namespace Verif.Well
open Real Set MeasureTheory

variable {W W' : ℝ → ℝ} {a b : ℝ} {x v : ℝ → ℝ}

/-- Half the period. -/
def half (W : ℝ → ℝ) (a b : ℝ) : ℝ := T W (fun _ => 1) a b

theorem half_mono (h : Well W W' a b) : StrictMonoOn (T W (fun _ => 1) a) (Icc a b) := by
  refine strictMonoOn_of_deriv_pos (convex_Icc a b) (h.T_cont continuousOn_const) fun x hx => ?_
  rw [interior_Icc] at hx
  rw [(h.T_deriv continuousOn_const hx).deriv]
  have := h.pos x hx
  simp only [w, one_mul]
  positivity

theorem T_self (k : ℝ → ℝ) : T W k a a = 0 := by simp [T]

theorem cos_sgn (v x : ℝ) : cos (sgn v * x) = cos x := by
  unfold sgn; split_ifs <;> simp

theorem sin_sgn (v x : ℝ) : sin (sgn v * x) = sgn v * sin x := by
  unfold sgn; split_ifs <;> simp

theorem same_cos {x y : ℝ} (h : C50Spec.Same x y) : cos x = cos y := by
  obtain ⟨n, rfl⟩ := h
  rw [show y + 2 * π * n = y + n * (2 * π) by ring]
  exact cos_add_int_mul_two_pi y n

namespace Moves

theorem phase (h : Well W W' a b) (m : Moves W W' a b x v) (t : ℝ) :
    C50Spec.Same (sgn (v t) * (π / half W a b * T W (fun _ => 1) a (x t)))
      (sgn (v 0) * (π / half W a b * T W (fun _ => 1) a (x 0)) + π / half W a b * t) := by
  have ht : half W a b ≠ 0 := h.half_pos.ne'
  set τ := T W (fun _ => 1) a with hτ
  have hc : ContinuousOn τ (Icc a b) := h.T_cont continuousOn_const
  have hd : ∀ y ∈ Ioo a b, HasDerivAt τ (1 * w W y) y := fun y hy => h.T_deriv continuousOn_const hy
  have wb : π / half W a b * τ b = π := div_mul_cancel₀ _ ht
  have wa : π / half W a b * τ a = 0 := by rw [hτ, T_self, mul_zero]
  generalize π / half W a b = ω at *
  have hX := Moves.even h m (d := fun y => cos (ω * τ y)) (g := fun y => -(ω * sin (ω * τ y)))
    (continuous_cos.comp_continuousOn (continuousOn_const.mul hc))
    ((continuousOn_const.mul (continuous_sin.comp_continuousOn (continuousOn_const.mul hc))).neg)
    (by rw [wa, sin_zero]; ring) (by rw [wb, sin_pi]; ring)
    (fun y hy => (hd_cos ((hd y hy).const_mul ω)).congr_deriv (by ring))
  have hY := Moves.odd h m (d := fun y => sin (ω * τ y)) (g := fun y => ω * cos (ω * τ y))
    (continuous_sin.comp_continuousOn (continuousOn_const.mul hc))
    (continuousOn_const.mul (continuous_cos.comp_continuousOn (continuousOn_const.mul hc)))
    (by rw [wa, sin_zero]) (by rw [wb, sin_pi])
    (fun y hy => (hd_sin ((hd y hy).const_mul ω)).congr_deriv (by ring))
  have := C50aux.lift (fun t => cos (ω * τ (x t))) (fun t => sgn (v t) * sin (ω * τ (x t))) (fun _ => ω)
    (fun t => sgn (v 0) * (ω * τ (x 0)) + ω * t)
    (fun t => (hX t).congr_deriv (by ring)) (fun t => (hY t).congr_deriv (by ring))
    (fun t => (((hasDerivAt_id t).const_mul ω).const_add _).congr_deriv (by ring))
    (by rw [mul_zero, add_zero, cos_sgn]) (by rw [mul_zero, add_zero, sin_sgn]) t
  refine C50aux.same_symm (C50aux.same_of_cos_sin ?_ ?_)
  · rw [this.1, cos_sgn]
  · rw [this.2, sin_sgn]

/-- The cosine of the phase determines the position. -/
theorem of_cos (h : Well W W' a b) {x y : ℝ} (hx : x ∈ Icc a b) (hy : y ∈ Icc a b)
    (e : cos (π / half W a b * T W (fun _ => 1) a x) = cos (π / half W a b * T W (fun _ => 1) a y)) : x = y := by
  have ht : 0 < half W a b := h.half_pos
  have hmem : ∀ z ∈ Icc a b, π / half W a b * T W (fun _ => 1) a z ∈ Icc 0 π := fun z hz => by
    have hm := h.half_mono.monotoneOn
    have h1 := hm ⟨le_rfl, h.lt.le⟩ hz hz.1
    have h2 := hm hz ⟨h.lt.le, le_rfl⟩ hz.2
    rw [T_self] at h1
    refine ⟨by positivity, ?_⟩
    rw [div_mul_eq_mul_div, div_le_iff₀ ht]
    exact mul_le_mul_of_nonneg_left h2 pi_pos.le
  have := injOn_cos (hmem x hx) (hmem y hy) e
  have hne : π / half W a b ≠ 0 := by positivity
  exact h.half_mono.injOn hx hy (mul_left_cancel₀ hne this)

theorem period (h : Well W W' a b) (m : Moves W W' a b x v) (t : ℝ) : x (t + 2 * half W a b) = x t := by
  have ht : 0 < half W a b := h.half_pos
  refine of_cos h (m.mem _) (m.mem _) ?_
  have h1 := same_cos (m.phase h (t + 2 * half W a b))
  have h2 := same_cos (m.phase h t)
  rw [cos_sgn] at h1 h2
  refine h1.trans (Eq.trans ?_ h2.symm)
  rw [mul_add, show π / half W a b * (2 * half W a b) = 2 * π by field_simp, ← add_assoc, cos_add_two_pi]

theorem period_v (h : Well W W' a b) (m : Moves W W' a b x v) (t : ℝ) : v (t + 2 * half W a b) = v t := by
  have h1 : HasDerivAt (fun s => x (s + 2 * half W a b)) (v (t + 2 * half W a b)) t := (m.dx _).comp_add_const t _
  have h2 : (fun s => x (s + 2 * half W a b)) = x := funext (m.period h)
  rw [h2] at h1
  exact h1.unique (m.dx t)

/-- The average of a function of the position over a period. -/
theorem mean (h : Well W W' a b) (m : Moves W W' a b x v) {k : ℝ → ℝ} (hk : ContinuousOn k (Icc a b)) :
    ∫ t in (0 : ℝ)..2 * half W a b, k (x t) = 2 * T W k a b := by
  have ht : half W a b ≠ 0 := h.half_pos.ne'
  have hD := Moves.odd h m (d := fun y => T W k a y - T W k a b / half W a b * T W (fun _ => 1) a y)
    (g := fun y => k y - T W k a b / half W a b)
    ((h.T_cont hk).sub (continuousOn_const.mul (h.T_cont continuousOn_const))) (hk.sub continuousOn_const)
    (by rw [T_self, T_self]; ring) (by rw [show T W (fun _ => 1) a b = half W a b from rfl]; field_simp; ring)
    (fun y hy => (hd_sub (h.T_deriv hk hy) ((h.T_deriv continuousOn_const hy).const_mul _)).congr_deriv (by ring))
  have hc : Continuous fun t => k (x t) := m.comp_cont hk
  have h1 := intervalIntegral.integral_eq_sub_of_hasDerivAt (a := 0) (b := 2 * half W a b) (fun t _ => hD t)
    ((hc.sub continuous_const).intervalIntegrable _ _)
  have h2 := m.period h 0
  have h3 := m.period_v h 0
  rw [zero_add] at h2 h3
  rw [h2, h3, sub_self, intervalIntegral.integral_sub (hc.intervalIntegrable _ _) (by simp), intervalIntegral.integral_const,
    sub_zero, smul_eq_mul] at h1
  have h4 : 2 * half W a b * (T W k a b / half W a b) = 2 * T W k a b := by field_simp
  linarith

end Moves

end Verif.Well
