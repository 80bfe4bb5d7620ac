import Verif.Model.Harmonic
import Verif.Lemmas.Coords
import Verif.Util.Deriv

set_option autoImplicit false

/-!
# C49: harmonic-oscillator actions and angles

Specification: the oscillator `x'' = -omega^2 x` with energy `(v^2 + omega^2 x^2) / 2`.
-/

noncomputable section
namespace Verif

open Real Coords Harmonic

/-- The energy. -/
def C49Spec.energy (omega x v : ℝ) : ℝ := v ^ 2 / 2 + omega ^ 2 * x ^ 2 / 2

/-- A motion of the oscillator, at all times. -/
structure C49Spec.Motion (omega : ℝ) (x v : ℝ → ℝ) : Prop where
  pos : ∀ t, HasDerivAt x (v t) t
  vel : ∀ t, HasDerivAt v (-(omega ^ 2) * x t) t

/-- **C49 (energy).** The action is the energy over the frequency, it is nonnegative, and zero only at rest in the centre; all three
methods return the same action, and both frequencies are `dE/dJ`. -/
theorem C49_energy (omega : ℝ) (h : 0 < omega) (x v : ℝ) :
    action omega x v * omega = C49Spec.energy omega x v ∧ 0 ≤ action omega x v
      ∧ (action omega x v = 0 ↔ x = 0 ∧ v = 0)
      ∧ (actionsFreqs omega x v).1 = action omega x v ∧ (actionsFreqsAngles omega x v).1 = action omega x v
      ∧ (actionsFreqs omega x v).2 = omega ∧ (actionsFreqsAngles omega x v).2.1 = omega
      ∧ ∀ j θ, 0 ≤ j → C49Spec.energy omega (xv omega j θ).1 (xv omega j θ).2 = freqs omega j * j := by
  have h0 := h.ne'
  have hnn : 0 ≤ action omega x v := by unfold action; positivity
  refine ⟨?_, hnn, ?_, rfl, rfl, mul_one _, mul_one _, ?_⟩
  · unfold action C49Spec.energy
    field_simp
  · constructor
    · intro e
      have e1 : v ^ 2 / omega + omega * x ^ 2 = 0 := by
        unfold action at e
        linarith
      have e2 : 0 ≤ v ^ 2 / omega := by positivity
      have e3 : 0 ≤ omega * x ^ 2 := by positivity
      have e4 : omega * x ^ 2 = 0 := by linarith
      have e5 : v ^ 2 / omega = 0 := by linarith
      constructor
      · simpa [h0] using e4
      · simpa [h0] using e5
    · rintro ⟨rfl, rfl⟩
      simp [action]
  · intro j θ hj
    have e : √(2 * j / omega) ^ 2 = 2 * j / omega := sq_sqrt (by positivity)
    simp only [C49Spec.energy, xv, xvFreqs, freqs, mul_pow, e]
    have := sin_sq_add_cos_sq θ
    field_simp
    linear_combination j * this

/-- **C49 (inverse after forward).** From the action and angle the inverse gives back the point, for every point, including
the centre. -/
theorem C49_inverse (omega : ℝ) (h : 0 < omega) (x v : ℝ) :
    xv omega (actionsFreqsAngles omega x v).1 (actionsFreqsAngles omega x v).2.2 = (x, v) := by
  have h0 := h.ne'
  have e : √(2 * ((v ^ 2 / omega + omega * x ^ 2) / 2) / omega) = √(v ^ 2 + (omega * x) ^ 2) / omega := by
    rw [← sqrt_sq (show 0 ≤ omega from h.le), ← sqrt_div (by positivity), sqrt_sq h.le]
    congr 1
    field_simp
  have e1 := polar_sin v (omega * x)
  have e2 := polar_cos v (omega * x)
  simp only [xv, xvFreqs, actionsFreqsAngles, e]
  refine Prod.ext ?_ ?_
  · dsimp only
    rw [div_mul_eq_mul_div, e1]
    field_simp
  · dsimp only
    rw [div_mul_cancel₀ _ h0, e2]

/-- **C49 (forward after inverse).** The point of a positive action and an angle in `(-pi, pi]` has that action and angle. -/
theorem C49_forward (omega : ℝ) (h : 0 < omega) (j θ : ℝ) (hj : 0 < j) (h1 : -π < θ) (h2 : θ ≤ π) :
    actionsFreqsAngles omega (xv omega j θ).1 (xv omega j θ).2 = (j, omega, θ) := by
  have h0 := h.ne'
  have hp : 0 < √(2 * j / omega) := sqrt_pos.2 (by positivity)
  have e : √(2 * j / omega) ^ 2 = 2 * j / omega := sq_sqrt (by positivity)
  refine Prod.ext ?_ (Prod.ext ?_ ?_)
  · have := sin_sq_add_cos_sq θ
    simp only [actionsFreqsAngles, xv, xvFreqs, mul_pow, e]
    field_simp
    linear_combination this
  · simp [actionsFreqsAngles]
  · simp only [actionsFreqsAngles, xv, xvFreqs]
    have := atan2_polar (r := √(2 * j / omega) * omega) (by positivity) h1 h2
    rw [show omega * (√(2 * j / omega) * sin θ) = √(2 * j / omega) * omega * sin θ by ring]
    exact this

theorem C49aux.solution (omega : ℝ) (h : 0 < omega) (x v : ℝ → ℝ) (hm : C49Spec.Motion omega x v) (s t : ℝ) :
    omega * x (s + t) = omega * x s * cos (omega * t) + v s * sin (omega * t)
      ∧ v (s + t) = v s * cos (omega * t) - omega * x s * sin (omega * t) := by
  -- the point turned back by `omega t` does not move
  have key : ∀ u, HasDerivAt (fun u => omega * x (s + u) * cos (omega * u) - v (s + u) * sin (omega * u)) 0 u
      ∧ HasDerivAt (fun u => v (s + u) * cos (omega * u) + omega * x (s + u) * sin (omega * u)) 0 u := by
    intro u
    have hx : HasDerivAt (fun u => x (s + u)) (v (s + u)) u := (hm.pos (s + u)).comp_const_add s u
    have hv : HasDerivAt (fun u => v (s + u)) (-(omega ^ 2) * x (s + u)) u := (hm.vel (s + u)).comp_const_add s u
    have hl : HasDerivAt (fun u => omega * u) omega u := by simpa using (hasDerivAt_id u).const_mul omega
    constructor
    · refine (hd_sub (hd_mul (hd_const_mul omega hx) (hd_cos hl)) (hd_mul hv (hd_sin hl))).congr_deriv ?_
      ring
    · refine (hd_add (hd_mul hv (hd_cos hl)) (hd_mul (hd_const_mul omega hx) (hd_sin hl))).congr_deriv ?_
      ring
  have c1 := is_const_of_deriv_eq_zero (fun u => (key u).1.differentiableAt) (fun u => (key u).1.deriv) t 0
  have c2 := is_const_of_deriv_eq_zero (fun u => (key u).2.differentiableAt) (fun u => (key u).2.deriv) t 0
  simp only [add_zero, mul_zero, cos_zero, mul_one, sin_zero, sub_zero] at c1 c2
  have := sin_sq_add_cos_sq (omega * t)
  constructor
  · linear_combination cos (omega * t) * c1 + sin (omega * t) * c2 - omega * x (s + t) * this
  · linear_combination -sin (omega * t) * c1 + cos (omega * t) * c2 - v (s + t) * this

/-- **C49 (motion).** Along every motion the action is constant and the angle advances at the rate omega: the point at time
`s + t` is the one the inverse gives for the same action and the angle increased by `omega t`. -/
theorem C49_motion (omega : ℝ) (h : 0 < omega) (x v : ℝ → ℝ) (hm : C49Spec.Motion omega x v) (s t : ℝ) :
    action omega (x (s + t)) (v (s + t)) = action omega (x s) (v s)
      ∧ (x (s + t), v (s + t))
        = xv omega (action omega (x s) (v s)) ((actionsFreqsAngles omega (x s) (v s)).2.2 + omega * t) := by
  have h0 := h.ne'
  obtain ⟨e1, e2⟩ := C49aux.solution omega h x v hm s t
  have hi := C49_inverse omega h (x s) (v s)
  have hx : (xv omega (actionsFreqsAngles omega (x s) (v s)).1 (actionsFreqsAngles omega (x s) (v s)).2.2).1 = x s := by
    rw [hi]
  have hv : (xv omega (actionsFreqsAngles omega (x s) (v s)).1 (actionsFreqsAngles omega (x s) (v s)).2.2).2 = v s := by
    rw [hi]
  have ea : (actionsFreqsAngles omega (x s) (v s)).1 = action omega (x s) (v s) := rfl
  rw [ea] at hx hv
  simp only [xv, xvFreqs] at hx hv
  have hc := sin_sq_add_cos_sq (omega * t)
  constructor
  · have : action omega (x (s + t)) (v (s + t)) = ((v (s + t)) ^ 2 + (omega * x (s + t)) ^ 2) / (2 * omega) := by
      unfold action
      field_simp
    rw [this, e1, e2]
    unfold action
    field_simp
    linear_combination (v s ^ 2 + omega ^ 2 * x s ^ 2) * hc
  · simp only [xv, xvFreqs, sin_add, cos_add]
    refine Prod.ext ?_ ?_
    · dsimp only
      apply mul_left_cancel₀ h0
      rw [e1]
      linear_combination (-(omega * cos (omega * t))) * hx - sin (omega * t) * hv
    · dsimp only
      rw [e2]
      linear_combination (-(cos (omega * t))) * hv + omega * sin (omega * t) * hx

/-- **C49 (canonical).** The map from angle and action to position and velocity preserves area: its Jacobian is one. -/
theorem C49_canonical (omega : ℝ) (h : 0 < omega) (j θ : ℝ) (hj : 0 < j) :
    ∃ xθ vθ xj vj, HasDerivAt (fun a => (xv omega j a).1) xθ θ ∧ HasDerivAt (fun a => (xv omega j a).2) vθ θ
      ∧ HasDerivAt (fun a => (xv omega a θ).1) xj j ∧ HasDerivAt (fun a => (xv omega a θ).2) vj j
      ∧ xθ * vj - xj * vθ = 1 := by
  have h0 := h.ne'
  have hp : 0 < √(2 * j / omega) := sqrt_pos.2 (by positivity)
  have e : √(2 * j / omega) ^ 2 = 2 * j / omega := sq_sqrt (by positivity)
  have hs : HasDerivAt (fun a => √(2 * a / omega)) (2 / omega / (2 * √(2 * j / omega))) j := by
    refine hd_sqrt ?_ (by positivity)
    simpa using ((hasDerivAt_id j).const_mul 2).div_const omega
  refine ⟨_, _, _, _, (hasDerivAt_sin θ).const_mul _, (hasDerivAt_cos θ).const_mul _, hs.mul_const (sin θ),
    (hs.mul_const omega).mul_const (cos θ), ?_⟩
  have := sin_sq_add_cos_sq θ
  field_simp
  linear_combination this

/-- A motion, its action and its angle. -/
example : C49Spec.Motion 2 (fun t => sin (2 * t)) (fun t => 2 * cos (2 * t)) ∧ action 2 (sin (2 * 0)) (2 * cos (2 * 0)) = 1 := by
  refine ⟨⟨fun t => ?_, fun t => ?_⟩, by norm_num [action]⟩
  · refine ((hasDerivAt_sin (2 * t)).comp t ((hasDerivAt_id t).const_mul 2)).congr_deriv ?_
    ring
  · refine (((hasDerivAt_cos (2 * t)).comp t ((hasDerivAt_id t).const_mul 2)).const_mul 2).congr_deriv ?_
    ring

end Verif
