import Verif.Lemmas.LibPhase

set_option autoImplicit false

/-!
# Motion between two turning points at a varying rate

Like `Well.Moves`, with `x' = g v`, `v' = g W'(x)` for a positive rate `g(t)`.  The number of cycles is the same for all integrals
along the motion.
-/

noncomputable section
namespace Verif.Well
open Real Set Filter MeasureTheory
open scoped Topology

variable {W W' : ℝ → ℝ} {a b : ℝ}

/-- A motion in the well at the rate `g`. -/
structure MovesG (W W' : ℝ → ℝ) (a b : ℝ) (g x v : ℝ → ℝ) : Prop where
  rate : Continuous g
  pos : ∀ t, 0 < g t
  mem : ∀ t, x t ∈ Icc a b
  dx : ∀ t, HasDerivAt x (g t * v t) t
  dv : ∀ t, HasDerivAt v (g t * W' (x t)) t
  energy : ∀ t, v t ^ 2 = 2 * W (x t)

namespace MovesG
variable {g x v : ℝ → ℝ}
theorem contx (m : MovesG W W' a b g x v) : Continuous x := continuous_iff_continuousAt.2 fun t => (m.dx t).continuousAt

theorem contv (m : MovesG W W' a b g x v) : Continuous v := continuous_iff_continuousAt.2 fun t => (m.dv t).continuousAt

theorem at_end (h : Well W W' a b) (m : MovesG W W' a b g x v) {t : ℝ} (hv : v t = 0) : x t = a ∨ x t = b := by
  have e := m.energy t
  rw [hv] at e
  have hW : W (x t) = 0 := by nlinarith
  by_contra hn
  push Not at hn
  have := h.pos (x t) ⟨lt_of_le_of_ne (m.mem t).1 (Ne.symm hn.1), lt_of_le_of_ne (m.mem t).2 hn.2⟩
  linarith

theorem inside (h : Well W W' a b) (m : MovesG W W' a b g x v) {t : ℝ} (hv : v t ≠ 0) : x t ∈ Ioo a b := by
  have e := m.energy t
  have hp : 0 < v t ^ 2 := by positivity
  refine ⟨lt_of_le_of_ne (m.mem t).1 fun e' => ?_, lt_of_le_of_ne (m.mem t).2 fun e' => ?_⟩
  · rw [← e', h.za] at e; linarith
  · rw [e', h.zb] at e; linarith

theorem simple (h : Well W W' a b) (m : MovesG W W' a b g x v) (t : ℝ) (hv : v t = 0) : g t * W' (x t) ≠ 0 := by
  refine mul_ne_zero (m.pos t).ne' ?_
  rcases at_end h m hv with e | e
  · rw [e]; exact h.da.ne'
  · rw [e]; exact h.db.ne

theorem sgn_cont (m : MovesG W W' a b g x v) {d : ℝ → ℝ} (hd : Continuous d) (h0 : ∀ t, v t = 0 → d t = 0) :
    Continuous fun t => sgn (v t) * d t := by
  refine continuous_iff_continuousAt.2 fun t => ?_
  by_cases hv : v t = 0
  · have h1 : Tendsto (fun s => |d s|) (𝓝 t) (𝓝 0) := by
      have := (hd.abs).continuousAt (x := t)
      rw [ContinuousAt, h0 t hv, abs_zero] at this
      exact this
    rw [ContinuousAt, h0 t hv, mul_zero]
    refine squeeze_zero_norm (fun s => ?_) h1
    rw [norm_mul, Real.norm_eq_abs, abs_sgn, one_mul, Real.norm_eq_abs]
  · rcases lt_or_gt_of_ne hv with hn | hp
    · have : ∀ᶠ s in 𝓝 t, sgn (v s) * d s = -d s := by
        filter_upwards [m.contv.continuousAt.eventually_lt continuousAt_const hn] with s hs
        simp [sgn, hs]
      exact (hd.neg.continuousAt).congr (this.mono fun s hs => hs.symm)
    · have : ∀ᶠ s in 𝓝 t, sgn (v s) * d s = d s := by
        filter_upwards [continuousAt_const.eventually_lt m.contv.continuousAt hp] with s hs
        simp [sgn, not_lt.2 hs.le]
      exact (hd.continuousAt).congr (this.mono fun s hs => hs.symm)

theorem comp_cont (m : MovesG W W' a b g x v) {d : ℝ → ℝ} (hd : ContinuousOn d (Icc a b)) : Continuous fun t => d (x t) :=
  hd.comp_continuous m.contx m.mem

theorem sgn_ev (m : MovesG W W' a b g x v) {t : ℝ} (hv : v t ≠ 0) : ∀ᶠ s in 𝓝 t, sgn (v s) = sgn (v t) := by
  rcases lt_or_gt_of_ne hv with hn | hp
  · filter_upwards [m.contv.continuousAt.eventually_lt continuousAt_const hn] with s hs
    simp [sgn, hs, hn]
  · filter_upwards [continuousAt_const.eventually_lt m.contv.continuousAt hp] with s hs
    simp [sgn, not_lt.2 hs.le, not_lt.2 hp.le]

theorem w_v (h : Well W W' a b) (m : MovesG W W' a b g x v) {t : ℝ} (hv : v t ≠ 0) : w W (x t) * v t = sgn (v t) := by
  have hi := inside h m hv
  have hW := h.pos _ hi
  have hs : √(2 * W (x t)) = |v t| := by rw [← m.energy t, sqrt_sq_eq_abs]
  unfold w
  rw [hs]
  have ha : |v t| ≠ 0 := abs_ne_zero.2 hv
  rw [div_mul_eq_mul_div, one_mul, div_eq_iff ha, sgn_mul]

/-- A function that vanishes at the turning points, with derivative `k / √(2W)` in between, taken with the sign of the velocity:
its time derivative is `g k`. -/
theorem odd (h : Well W W' a b) (m : MovesG W W' a b g x v) {d k : ℝ → ℝ} (hd : ContinuousOn d (Icc a b))
    (hk : ContinuousOn k (Icc a b)) (da : d a = 0) (db : d b = 0) (hdd : ∀ y ∈ Ioo a b, HasDerivAt d (k y * w W y) y) (t : ℝ) :
    HasDerivAt (fun t => sgn (v t) * d (x t)) (g t * k (x t)) t := by
  refine turn (g := fun t => g t * k (x t)) (sgn_cont m (comp_cont m hd) fun t hv => ?_) (m.rate.mul (comp_cont m hk)) m.dv
    (simple h m) (fun t hv => ?_) t
  · rcases at_end h m hv with e | e <;> rw [e] <;> assumption
  · have hk : HasDerivAt (fun s => sgn (v t) * d (x s)) (sgn (v t) * (k (x t) * w W (x t) * (g t * v t))) t :=
      ((hdd (x t) (inside h m hv)).comp t (m.dx t)).const_mul _
    refine (hk.congr_of_eventuallyEq ?_).congr_deriv ?_
    · filter_upwards [sgn_ev m hv] with s hs
      rw [hs]
    · linear_combination sgn (v t) * (k (x t) * g t) * w_v h m hv + k (x t) * g t * sgn_sq (v t)

/-- A function of the position whose derivative is `k / √(2W)` with `k` vanishing at the turning points: its time derivative is
`g k` with the sign of the velocity. -/
theorem even (h : Well W W' a b) (m : MovesG W W' a b g x v) {d k : ℝ → ℝ} (hd : ContinuousOn d (Icc a b))
    (hk : ContinuousOn k (Icc a b)) (ka : k a = 0) (kb : k b = 0) (hdd : ∀ y ∈ Ioo a b, HasDerivAt d (k y * w W y) y) (t : ℝ) :
    HasDerivAt (fun t => d (x t)) (g t * (sgn (v t) * k (x t))) t := by
  refine turn (g := fun t => g t * (sgn (v t) * k (x t))) (comp_cont m hd)
    (m.rate.mul (sgn_cont m (comp_cont m hk) fun t hv => ?_)) m.dv (simple h m) (fun t hv => ?_) t
  · rcases at_end h m hv with e | e <;> rw [e] <;> assumption
  · refine ((hdd (x t) (inside h m hv)).comp t (m.dx t)).congr_deriv ?_
    linear_combination k (x t) * g t * w_v h m hv

theorem phase (h : Well W W' a b) (m : MovesG W W' a b g x v) {G : ℝ → ℝ} (hG : ∀ t, HasDerivAt G (g t) t) (hG0 : G 0 = 0) (t : ℝ) :
    C50Spec.Same (sgn (v t) * (π / half W a b * T W (fun _ => 1) a (x t)))
      (sgn (v 0) * (π / half W a b * T W (fun _ => 1) a (x 0)) + π / half W a b * G t) := by
  have ht : half W a b ≠ 0 := h.half_pos.ne'
  set τ := T W (fun _ => 1) a with hτ
  have hc : ContinuousOn τ (Icc a b) := h.T_cont continuousOn_const
  have hd : ∀ y ∈ Ioo a b, HasDerivAt τ (1 * w W y) y := fun y hy => h.T_deriv continuousOn_const hy
  have wb : π / half W a b * τ b = π := div_mul_cancel₀ _ ht
  have wa : π / half W a b * τ a = 0 := by rw [hτ, T_self, mul_zero]
  generalize π / half W a b = ω at *
  have hX := even h m (d := fun y => cos (ω * τ y)) (k := fun y => -(ω * sin (ω * τ y)))
    (continuous_cos.comp_continuousOn (continuousOn_const.mul hc))
    ((continuousOn_const.mul (continuous_sin.comp_continuousOn (continuousOn_const.mul hc))).neg)
    (by rw [wa, sin_zero]; ring) (by rw [wb, sin_pi]; ring)
    (fun y hy => (hd_cos ((hd y hy).const_mul ω)).congr_deriv (by ring))
  have hY := odd h m (d := fun y => sin (ω * τ y)) (k := fun y => ω * cos (ω * τ y))
    (continuous_sin.comp_continuousOn (continuousOn_const.mul hc))
    (continuousOn_const.mul (continuous_cos.comp_continuousOn (continuousOn_const.mul hc)))
    (by rw [wa, sin_zero]) (by rw [wb, sin_pi])
    (fun y hy => (hd_sin ((hd y hy).const_mul ω)).congr_deriv (by ring))
  have := C50aux.lift (fun t => cos (ω * τ (x t))) (fun t => sgn (v t) * sin (ω * τ (x t))) (fun t => ω * g t)
    (fun t => sgn (v 0) * (ω * τ (x 0)) + ω * G t)
    (fun t => (hX t).congr_deriv (by ring)) (fun t => (hY t).congr_deriv (by ring))
    (fun t => ((hG t).const_mul ω).const_add _)
    (by rw [hG0, mul_zero, add_zero, cos_sgn]) (by rw [hG0, mul_zero, add_zero, sin_sgn]) t
  refine C50aux.same_symm (C50aux.same_of_cos_sin ?_ ?_)
  · rw [this.1, cos_sgn]
  · rw [this.2, sin_sgn]

/-- All integrals along the motion agree with the integrals over the position, up to the same number of full cycles. -/
theorem cycles (h : Well W W' a b) (m : MovesG W W' a b g x v) (t : ℝ) :
    ∃ n : ℤ, ∀ k K : ℝ → ℝ, ContinuousOn k (Icc a b) → (∀ s, HasDerivAt K (g s * k (x s)) s) →
      sgn (v t) * T W k a (x t) = sgn (v 0) * T W k a (x 0) + (K t - K 0) + 2 * n * T W k a b := by
  have ht : half W a b ≠ 0 := h.half_pos.ne'
  obtain ⟨G, hG, hG0⟩ : ∃ G : ℝ → ℝ, (∀ t, HasDerivAt G (g t) t) ∧ G 0 = 0 :=
    ⟨fun t => ∫ s in (0 : ℝ)..t, g s, fun t => m.rate.integral_hasStrictDerivAt 0 t |>.hasDerivAt, by simp⟩
  obtain ⟨n, hn⟩ := m.phase h hG hG0 t
  have hn' : sgn (v t) * T W (fun _ => 1) a (x t) = sgn (v 0) * T W (fun _ => 1) a (x 0) + G t + 2 * n * half W a b := by
    have hp := pi_ne_zero
    field_simp at hn
    linear_combination hn
  refine ⟨n, fun k K hk hK => ?_⟩
  have hD := odd h m (d := fun y => T W k a y - T W k a b / half W a b * T W (fun _ => 1) a y)
    (k := fun y => k y - T W k a b / half W a b)
    ((h.T_cont hk).sub (continuousOn_const.mul (h.T_cont continuousOn_const))) (hk.sub continuousOn_const)
    (by rw [T_self, T_self]; ring) (by rw [show T W (fun _ => 1) a b = half W a b from rfl]; field_simp; ring)
    (fun y hy => (hd_sub (h.T_deriv hk hy) ((h.T_deriv continuousOn_const hy).const_mul _)).congr_deriv (by ring))
  have hc := C50aux.const_of_deriv (fun t => sgn (v t) * (T W k a (x t) - T W k a b / half W a b * T W (fun _ => 1) a (x t))
      - (K t - T W k a b / half W a b * G t))
    (fun t => (hd_sub (hD t) (hd_sub (hK t) ((hG t).const_mul _))).congr_deriv (by ring)) t 0
  have e : T W k a b / half W a b * half W a b = T W k a b := div_mul_cancel₀ _ ht
  simp only [hG0] at hc
  linear_combination hc + T W k a b / half W a b * hn' + 2 * n * e

end MovesG
end Verif.Well
