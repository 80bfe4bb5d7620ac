import Verif.Lemmas.LibPhase
import Verif.Model.VerticalAA
import Verif.Model.Harmonic
import Verif.Lemmas.Coords
import Verif.Props.C14Actions
import Verif.Props.C50Inverse
import Mathlib.Analysis.SpecialFunctions.Integrals.Basic

set_option autoImplicit false

/-!
# C77: action-angle coordinates of one-dimensional potentials

Along every oscillation in a symmetric one-dimensional potential the action and frequency of `actionAngleVertical` stay the same
and the angle advances at the frequency.
-/

noncomputable section
namespace Verif
open Real Set MeasureTheory
open RootSearch NFWVirial VerticalAA
open IsochroneAA (mod2pi)

/-- A symmetric potential that increases away from `0`. -/
structure C77Spec.Symmetric (phi phi' : ℝ → ℝ) : Prop where
  deriv : ∀ y, HasDerivAt phi (phi' y) y
  cont : Continuous phi'
  even : ∀ y, phi (-y) = phi y
  restoring : ∀ y, 0 < y → 0 < phi' y

/-- A motion `x` with velocity `v` and amplitude `b`. -/
structure C77Spec.Oscillation (phi phi' : ℝ → ℝ) (b : ℝ) (x v : ℝ → ℝ) : Prop where
  dx : ∀ t, HasDerivAt x (v t) t
  dv : ∀ t, HasDerivAt v (-phi' (x t)) t
  pos : 0 < b
  energy : v 0 ^ 2 / 2 + phi (x 0) = phi b

namespace C77aux

section vertical
variable {phi phi' : ℝ → ℝ} {b : ℝ}

theorem phi_mono (s : C77Spec.Symmetric phi phi') : StrictMonoOn phi (Ici 0) := by
  refine strictMonoOn_of_deriv_pos (convex_Ici 0) (fun y _ => (s.deriv y).continuousAt.continuousWithinAt) fun y hy => ?_
  rw [interior_Ici] at hy
  rw [(s.deriv y).deriv]
  exact s.restoring y hy

theorem phi_abs (s : C77Spec.Symmetric phi phi') (y : ℝ) : phi y = phi |y| := by
  rcases abs_cases y with ⟨h, -⟩ | ⟨h, -⟩ <;> rw [h]
  exact (s.even y).symm

theorem phi_lt (s : C77Spec.Symmetric phi phi') {y z : ℝ} (hz : 0 ≤ z) : phi y < phi z ↔ |y| < z := by
  rw [phi_abs s y]
  exact (phi_mono s).lt_iff_lt (abs_nonneg y) hz

theorem phi_le (s : C77Spec.Symmetric phi phi') {y z : ℝ} (hz : 0 ≤ z) : phi y ≤ phi z ↔ |y| ≤ z := by
  rw [phi_abs s y]
  exact (phi_mono s).le_iff_le (abs_nonneg y) hz

theorem phi'_neg (s : C77Spec.Symmetric phi phi') (y : ℝ) : phi' (-y) = -phi' y := by
  have h1 : HasDerivAt (fun y => phi (-y)) (phi' (-y) * -1) y := (s.deriv (-y)).comp y (hasDerivAt_neg y)
  have h2 : (fun y => phi (-y)) = phi := funext s.even
  rw [h2] at h1
  have := h1.unique (s.deriv y)
  linarith

theorem vwell (s : C77Spec.Symmetric phi phi') (hb : 0 < b) : Well (fun y => phi b - phi y) (fun y => -phi' y) (-b) b := by
  refine ⟨by linarith, fun y _ => ((s.deriv y).const_sub _), s.cont.neg.continuousOn, ?_, ?_, fun y hy => ?_, ?_, ?_⟩
  · rw [s.even, sub_self]
  · exact sub_self _
  · exact sub_pos.2 ((phi_lt s hb.le).2 (abs_lt.2 hy))
  · rw [phi'_neg s, neg_neg]; exact s.restoring b hb
  · exact neg_lt_zero.2 (s.restoring b hb)

variable {x v : ℝ → ℝ}

theorem venergy (s : C77Spec.Symmetric phi phi') (o : C77Spec.Oscillation phi phi' b x v) (t : ℝ) :
    v t ^ 2 / 2 + phi (x t) = phi b := by
  rw [← o.energy]
  refine is_const_of_deriv_eq_zero (f := fun t => v t ^ 2 / 2 + phi (x t)) ?_ ?_ t 0
  · exact fun t => ((((o.dv t).pow 2).div_const 2).add ((s.deriv _).comp t (o.dx t))).differentiableAt
  · intro t
    have := (((o.dv t).pow 2).div_const 2).add ((s.deriv (x t)).comp t (o.dx t))
    refine (this.congr_deriv (f' := _) ?_).deriv
    push_cast
    ring

theorem vmoves (s : C77Spec.Symmetric phi phi') (o : C77Spec.Oscillation phi phi' b x v) :
    Well.Moves (fun y => phi b - phi y) (fun y => -phi' y) (-b) b x v := by
  refine ⟨fun t => ?_, o.dx, o.dv, fun t => ?_⟩
  · have := venergy s o t
    have h : phi (x t) ≤ phi b := by nlinarith [sq_nonneg (v t)]
    exact abs_le.1 ((phi_le s o.pos.le).1 h)
  · have := venergy s o t
    linarith

/-- The search for the amplitude. -/
theorem xmax (s : C77Spec.Symmetric phi phi') (hb : 0 < b) (hb' : b ≤ 50) {y u : ℝ} (e : u ^ 2 / 2 + phi y = phi b) (xm : Option ℝ) :
    XmaxOut phi y u xm ↔ xm = some b := by
  have hc : Continuous phi := continuous_iff_continuousAt.2 fun y => (s.deriv y).continuousAt
  have key : ∀ out, XmaxOut phi y u out → out = some b := by
    rintro out ⟨n, r, hr, ho⟩
    have h := (C14_xmax phi hc y u).2 n r hr
    cases r with
    | value z =>
      simp only at h ho
      rw [ho]
      rcases h with ⟨h1, h2⟩ | ⟨-, z, hz, h2⟩
      · rw [h2]
        have : phi |y| = phi |b| := by rw [← phi_abs s, ← phi_abs s, ← e, h1]; ring
        have := (phi_mono s).injOn (abs_nonneg y) (abs_nonneg b) this
        rw [this, abs_of_pos hb]
      · rw [e] at h2
        have := (phi_lt s hb.le).1 h2
        have := le_abs_self z
        linarith
    | interval lo hi =>
      simp only at h ho
      obtain ⟨h1, h2, h3, h4, h5, -⟩ := h
      rw [e] at h4 h5 ho
      cases out with
      | none =>
        simp only [Brentq] at ho
        nlinarith
      | some z =>
        simp only [Brentq] at ho
        obtain ⟨-, g1, g2, g3⟩ := ho
        have hz : phi |z| = phi |b| := by rw [← phi_abs s, ← phi_abs s]; linarith
        have hz := (phi_mono s).injOn (abs_nonneg z) (abs_nonneg b) hz
        rw [abs_of_pos hb] at hz
        have h6 := (phi_lt s hb.le).1 h4
        rw [h1] at h6 g1
        have h7 := (abs_lt.1 h6).1
        rcases abs_cases z with ⟨h8, -⟩ | ⟨h8, -⟩
        · rw [← hz, h8]
        · exfalso; linarith
  constructor
  · exact key xm
  · rintro rfl
    obtain ⟨n, r, hr⟩ := (C14_xmax phi hc y u).1
    have hr := hr n le_rfl
    cases r with
    | value z =>
      have := key (some z) ⟨n, _, hr, rfl⟩
      exact ⟨n, _, hr, this.symm⟩
    | interval lo hi =>
      have h := (C14_xmax phi hc y u).2 n _ hr
      simp only at h
      obtain ⟨-, -, -, h4, h5, z, h6, h7, h8⟩ := h
      have hz : Brentq (fun xm => u ^ 2 / 2 + phi y - phi xm) lo hi (some z) := by
        refine ⟨?_, h6, h7, ?_⟩
        · exact mul_nonpos_of_nonneg_of_nonpos (by linarith) (by linarith)
        · simp only; linarith
      have := key (some z) ⟨n, _, hr, hz⟩
      rw [this] at hz
      exact ⟨n, _, hr, hz⟩

theorem T_mid (s : C77Spec.Symmetric phi phi') (hb : 0 < b) :
    2 * Well.T (fun y => phi b - phi y) (fun _ => 1) (-b) 0 = Well.half (fun y => phi b - phi y) (-b) b := by
  have h := vwell s hb
  have h1 := h.T_split (k := fun _ => 1) continuousOn_const (x := 0) ⟨by linarith, hb.le⟩
  have h2 : ∫ y in (0 : ℝ)..b, 1 * Well.w (fun y => phi b - phi y) y = Well.T (fun y => phi b - phi y) (fun _ => 1) (-b) 0 := by
    unfold Well.T
    have := intervalIntegral.integral_comp_neg (a := 0) (b := b) (fun y => 1 * Well.w (fun y => phi b - phi y) y)
    rw [neg_zero] at this
    rw [← this]
    refine intervalIntegral.integral_congr fun y _ => ?_
    simp only [Well.w, s.even]
  unfold Well.half
  linarith

theorem omega_eq (s : C77Spec.Symmetric phi phi') (hb : 0 < b) :
    calcOmega phi (phi b) b = π / Well.half (fun y => phi b - phi y) (-b) b := by
  have h := vwell s hb
  have h1 := h.large (fun _ => 1) continuousOn_const (x := 0) ⟨by linarith, hb.le⟩
  rw [sub_zero] at h1
  have h2 := T_mid s hb
  have h3 : ∫ t in (0 : ℝ)..√b, 2 * t / √(2 * (phi b - phi (b - t ^ 2))) = Well.half (fun y => phi b - phi y) (-b) b / 2 := by
    have : Well.T (fun y => phi b - phi y) (fun _ => 1) (-b) b = Well.half (fun y => phi b - phi y) (-b) b := rfl
    rw [this, ← h2] at h1
    rw [← h2, mul_div_cancel_left₀ _ two_ne_zero]
    rw [show 2 * Well.T (fun y => phi b - phi y) (fun _ => 1) (-b) 0 - Well.T (fun y => phi b - phi y) (fun _ => 1) (-b) 0
      = Well.T (fun y => phi b - phi y) (fun _ => 1) (-b) 0 by ring] at h1
    rw [← h1]
    refine intervalIntegral.integral_congr fun t _ => ?_
    simp only [Well.w]
    ring
  unfold calcOmega
  rw [h3, div_div_div_cancel_right₀ two_ne_zero]

theorem action_eq (s : C77Spec.Symmetric phi phi') (hb : 0 < b) :
    2 * π * calcJ phi (phi b) b
      = 2 * Well.T (fun y => phi b - phi y) (fun y => 2 * (phi b - phi y)) (-b) b := by
  have hc : Continuous fun y => √(2 * (phi b - phi y)) := by
    have : Continuous phi := continuous_iff_continuousAt.2 fun y => (s.deriv y).continuousAt
    fun_prop
  have h1 : Well.T (fun y => phi b - phi y) (fun y => 2 * (phi b - phi y)) (-b) b = ∫ y in (-b)..b, √(2 * (phi b - phi y)) := by
    unfold Well.T
    refine intervalIntegral.integral_congr fun y _ => ?_
    simp only [Well.w]
    rw [mul_one_div, div_sqrt]
  have h2 := intervalIntegral.integral_comp_neg (a := 0) (b := b) (fun y => √(2 * (phi b - phi y)))
  simp only [s.even, neg_zero] at h2
  rw [h1, ← intervalIntegral.integral_add_adjacent_intervals (hc.intervalIntegrable _ 0) (hc.intervalIntegrable 0 _), ← h2]
  unfold calcJ
  have := pi_pos.ne'
  field_simp
  ring

theorem angle_int (s : C77Spec.Symmetric phi phi') (hb : 0 < b) {y : ℝ} (hy : y ∈ Icc (-b) b) :
    ∫ xi in (0 : ℝ)..y, 1 / √(2 * (phi b - phi xi))
      = Well.T (fun y => phi b - phi y) (fun _ => 1) (-b) y - Well.half (fun y => phi b - phi y) (-b) b / 2 := by
  have h := vwell s hb
  have h0 : (0 : ℝ) ∈ Icc (-b) b := ⟨by linarith, hb.le⟩
  have h1 := intervalIntegral.integral_add_adjacent_intervals (h.kw_ii (k := fun _ => 1) continuousOn_const ⟨le_rfl, h.lt.le⟩ h0)
    (h.kw_ii continuousOn_const h0 hy)
  have h2 := T_mid s hb
  unfold Well.T at h2 ⊢
  simp only [Well.w, one_mul] at h1 h2 ⊢
  linarith

/-- The angle, modulo `2 pi`. -/
theorem angle_eq (s : C77Spec.Symmetric phi phi') (hb : 0 < b) {y u : ℝ} (e : u ^ 2 / 2 + phi y = phi b) :
    C50Spec.Same (calcAngle phi y u (phi b) (calcOmega phi (phi b) b))
      (Well.sgn u * (π / Well.half (fun y => phi b - phi y) (-b) b * Well.T (fun y => phi b - phi y) (fun _ => 1) (-b) y) - π / 2) := by
  have h := vwell s hb
  have hh : Well.half (fun y => phi b - phi y) (-b) b ≠ 0 := h.half_pos.ne'
  have hy : y ∈ Icc (-b) b := abs_le.1 ((phi_le s hb.le).1 (by nlinarith [sq_nonneg u]))
  have hpos : ∫ xi in (0 : ℝ)..|y|, 1 / √(2 * (phi b - phi xi))
      = if y < 0 then -(Well.T (fun y => phi b - phi y) (fun _ => 1) (-b) y - Well.half (fun y => phi b - phi y) (-b) b / 2)
        else Well.T (fun y => phi b - phi y) (fun _ => 1) (-b) y - Well.half (fun y => phi b - phi y) (-b) b / 2 := by
    rw [← angle_int s hb hy]
    split_ifs with hn
    · rw [abs_of_neg hn]
      have := intervalIntegral.integral_comp_neg (a := 0) (b := -y) (fun xi => 1 / √(2 * (phi b - phi xi)))
      simp only [s.even, neg_zero, neg_neg] at this
      rw [this, intervalIntegral.integral_symm]
    · rw [abs_of_nonneg (not_lt.1 hn)]
  unfold calcAngle
  rw [hpos, omega_eq s hb]
  refine C50aux.same_trans (C50aux.same_mod _) ?_
  have e2 : ∀ τ : ℝ, (τ - Well.half (fun y => phi b - phi y) (-b) b / 2) * (π / Well.half (fun y => phi b - phi y) (-b) b)
      = π / Well.half (fun y => phi b - phi y) (-b) b * τ - π / 2 := fun τ => by field_simp
  rcases lt_or_ge y 0 with hn | hn
  · have hn' : ¬ y ≥ 0 := not_le.2 hn
    simp only [if_pos hn, neg_mul, e2, hn', false_and, if_false]
    rcases lt_trichotomy u 0 with hu | hu | hu
    · rw [if_neg (fun h => absurd h.2 (by linarith)), if_pos ⟨hn, hu.le⟩, Well.sgn, if_pos hu]
      exact ⟨1, by push_cast; ring⟩
    · have hyb : y = -b := by
        have h1 : phi |y| = phi |b| := by rw [← phi_abs s, ← phi_abs s, ← e, hu]; ring
        have h2 := (phi_mono s).injOn (abs_nonneg y) (abs_nonneg b) h1
        rw [abs_of_neg hn, abs_of_pos hb] at h2
        linarith
      rw [if_neg (fun h => absurd h.2 (by linarith)), if_pos ⟨hn, hu.le⟩, hyb, Well.T_self]
      exact ⟨1, by push_cast; ring⟩
    · rw [if_pos ⟨hn, hu⟩, if_neg (fun h => absurd h.2 (by linarith)), Well.sgn, if_neg (by linarith)]
      exact ⟨1, by push_cast; ring⟩
  · simp only [if_neg (not_lt.2 hn), e2]
    simp only [not_lt.2 hn, false_and, if_false]
    by_cases hu : u < 0
    · rw [if_pos ⟨hn, hu⟩, Well.sgn, if_pos hu]
      exact ⟨1, by push_cast; ring⟩
    · rw [if_neg (fun h => hu h.2), Well.sgn, if_neg hu]
      exact ⟨0, by push_cast; ring⟩

theorem angles_iff (s : C77Spec.Symmetric phi phi') (hb : 0 < b) (hb' : b ≤ 50) {y u : ℝ} (e : u ^ 2 / 2 + phi y = phi b)
    (out : Option (ℝ × ℝ × ℝ)) : VerticalAA.Angles phi y u out
      ↔ out = some (calcJ phi (phi b) b, calcOmega phi (phi b) b, calcAngle phi y u (phi b) (calcOmega phi (phi b) b)) := by
  unfold VerticalAA.Angles
  simp only [xmax s hb hb' e, VerticalAA.E, e]
  rw [exists_eq_left, Option.map_some, if_neg (by intro h; rw [h] at hb; norm_num at hb)]

end vertical
end C77aux

/-- **C77 (one dimension).** In a symmetric potential that increases away from the centre, along every oscillation of amplitude at
most 50, `actionsFreqsAngles` has exactly one result at every time.  Action and frequency are positive and the same at all times,
the angle is in `[0, 2 pi)` and advances linearly in time at the frequency, position and velocity return after `2 pi / Omega`,
and the action is the integral of the squared velocity over that period, divided by `2 pi`. -/
theorem C77_vertical {phi phi' : ℝ → ℝ} {b : ℝ} {x v : ℝ → ℝ} (s : C77Spec.Symmetric phi phi')
    (o : C77Spec.Oscillation phi phi' b x v) (hb : b ≤ 50) :
    ∃ (J Omega : ℝ) (angle : ℝ → ℝ), 0 < J ∧ 0 < Omega
      ∧ (∀ t out, VerticalAA.Angles phi (x t) (v t) out ↔ out = some (J, Omega, angle t))
      ∧ (∀ t out, VerticalAA.Action phi (x t) (v t) out ↔ out = some J)
      ∧ (∀ t, 0 ≤ angle t ∧ angle t < 2 * π ∧ C50Spec.Same (angle t) (angle 0 + Omega * t))
      ∧ (∀ t, x (t + 2 * π / Omega) = x t ∧ v (t + 2 * π / Omega) = v t)
      ∧ 2 * π * J = ∫ t in (0 : ℝ)..2 * π / Omega, v t ^ 2 := by
  have hw := C77aux.vwell s o.pos
  have m := C77aux.vmoves s o
  have hh : 0 < Well.half (fun y => phi b - phi y) (-b) b := hw.half_pos
  have hO := C77aux.omega_eq s o.pos
  have hP : 2 * π / calcOmega phi (phi b) b = 2 * Well.half (fun y => phi b - phi y) (-b) b := by
    rw [hO]
    have := pi_pos.ne'
    field_simp
  have hsame : ∀ t, C50Spec.Same (calcAngle phi (x t) (v t) (phi b) (calcOmega phi (phi b) b)) _ := fun t =>
    C77aux.angle_eq s o.pos (C77aux.venergy s o t)
  refine ⟨calcJ phi (phi b) b, calcOmega phi (phi b) b,
    fun t => calcAngle phi (x t) (v t) (phi b) (calcOmega phi (phi b) b), ?_, ?_, fun t out => ?_, fun t out => ?_, fun t => ?_,
    fun t => ?_, ?_⟩
  · unfold calcJ
    refine div_pos (mul_pos two_pos ?_) pi_pos
    have hc : Continuous phi := continuous_iff_continuousAt.2 fun y => (s.deriv y).continuousAt
    refine intervalIntegral.intervalIntegral_pos_of_pos_on (Continuous.intervalIntegrable (by fun_prop) _ _) (fun y hy => ?_) o.pos
    have := hw.pos y ⟨by linarith [hy.1, o.pos], hy.2⟩
    exact sqrt_pos.2 (by linarith)
  · rw [hO]
    positivity
  · exact C77aux.angles_iff s o.pos hb (C77aux.venergy s o t) out
  · unfold VerticalAA.Action
    simp only [C77aux.xmax s o.pos hb (C77aux.venergy s o t), VerticalAA.E, C77aux.venergy s o t]
    rw [exists_eq_left, Option.map_some, if_neg (by intro h; have := o.pos; rw [h] at this; norm_num at this)]
  · refine ⟨(C50aux.mod2pi_range _).1, (C50aux.mod2pi_range _).2, ?_⟩
    refine C50aux.same_trans (hsame t) ?_
    have h1 := C50aux.same_add (m.phase hw t) (C50aux.same_refl (-(π / 2)))
    have h2 := C50aux.same_add (C50aux.same_symm (hsame 0)) (C50aux.same_refl (calcOmega phi (phi b) b * t))
    refine C50aux.same_trans (by simpa only [sub_eq_add_neg] using h1) (C50aux.same_trans ⟨0, ?_⟩ h2)
    rw [hO]
    push_cast
    ring
  · rw [hP]
    exact ⟨m.period hw t, m.period_v hw t⟩
  · rw [hP, C77aux.action_eq s o.pos, ← m.mean hw (k := fun y => 2 * (phi b - phi y))
      (continuousOn_const.mul hw.contW)]
    refine intervalIntegral.integral_congr fun t _ => ?_
    exact (m.energy t).symm

/-! ### The harmonic oscillator -/

/-- The potential of the harmonic oscillator. -/
def C77Spec.harm (omega : ℝ) (x : ℝ) : ℝ := omega ^ 2 * x ^ 2 / 2

namespace C77aux

theorem harm_sym {omega : ℝ} (ho : 0 < omega) : C77Spec.Symmetric (C77Spec.harm omega) fun y => omega ^ 2 * y := by
  refine ⟨fun y => ?_, by fun_prop, fun y => by unfold C77Spec.harm; ring, fun y hy => by positivity⟩
  exact ((((hasDerivAt_pow 2 y).const_mul (omega ^ 2)).div_const 2)).congr_deriv (by push_cast; ring)

theorem harm_w {omega b y : ℝ} (ho : 0 < omega) (hb : 0 < b) :
    √(2 * (C77Spec.harm omega b - C77Spec.harm omega y)) = omega * b * √(1 - (y / b) ^ 2) := by
  rw [show 2 * (C77Spec.harm omega b - C77Spec.harm omega y) = (omega * b) ^ 2 * (1 - (y / b) ^ 2) by
    unfold C77Spec.harm; field_simp, sqrt_mul (by positivity), sqrt_sq (by positivity)]

theorem harm_T {omega b y : ℝ} (ho : 0 < omega) (hb : 0 < b) (hy : y ∈ Icc (-b) b) :
    Well.T (fun y => C77Spec.harm omega b - C77Spec.harm omega y) (fun _ => 1) (-b) y = (arcsin (y / b) + π / 2) / omega := by
  have h := vwell (harm_sym ho) hb
  have hd : ∀ z ∈ Ioo (-b) y, HasDerivAt (fun z => arcsin (z / b) / omega)
      (1 * Well.w (fun y => C77Spec.harm omega b - C77Spec.harm omega y) z) z := fun z hz => by
    have h1 : z / b ≠ -1 := by
      rw [Ne, div_eq_iff hb.ne']; intro e; linarith [hz.1]
    have h2 : z / b ≠ 1 := by
      rw [Ne, div_eq_iff hb.ne']; intro e; linarith [hz.2, hy.2]
    refine (((hasDerivAt_arcsin h1 h2).comp z ((hasDerivAt_id z).div_const b)).div_const omega).congr_deriv ?_
    simp only [Well.w, harm_w ho hb]
    field_simp
  have := intervalIntegral.integral_eq_sub_of_hasDerivAt_of_le hy.1 ?_ hd
    (h.kw_ii (k := fun _ => 1) continuousOn_const ⟨le_rfl, h.lt.le⟩ hy)
  · unfold Well.T
    rw [this, neg_div, div_self hb.ne', arcsin_neg, arcsin_one]
    ring
  · exact ((continuous_arcsin.comp (continuous_id.div_const b)).div_const omega).continuousOn

theorem harm_half {omega b : ℝ} (ho : 0 < omega) (hb : 0 < b) :
    Well.half (fun y => C77Spec.harm omega b - C77Spec.harm omega y) (-b) b = π / omega := by
  unfold Well.half
  rw [harm_T ho hb ⟨by linarith, le_rfl⟩, div_self hb.ne', arcsin_one, add_halves]

theorem quarter : ∫ y in (0 : ℝ)..1, √(1 - y ^ 2) = π / 4 := by
  have h := integral_sqrt_one_sub_sq
  have hc : Continuous fun y : ℝ => √(1 - y ^ 2) := by fun_prop
  rw [← intervalIntegral.integral_add_adjacent_intervals (hc.intervalIntegrable (-1) 0) (hc.intervalIntegrable 0 1)] at h
  have h2 := intervalIntegral.integral_comp_neg (a := 0) (b := 1) (fun y : ℝ => √(1 - y ^ 2))
  simp only [neg_sq, neg_zero] at h2
  linarith

theorem harm_J {omega b : ℝ} (ho : 0 < omega) (hb : 0 < b) : calcJ (C77Spec.harm omega) (C77Spec.harm omega b) b = omega * b ^ 2 / 2 := by
  unfold calcJ
  have h1 : ∫ xi in (0 : ℝ)..b, √(2 * (C77Spec.harm omega b - C77Spec.harm omega xi))
      = ∫ xi in (0 : ℝ)..b, omega * b * √(1 - (xi / b) ^ 2) :=
    intervalIntegral.integral_congr fun xi _ => harm_w ho hb
  have h2 := intervalIntegral.integral_comp_div (a := 0) (b := b) (fun y : ℝ => √(1 - y ^ 2)) hb.ne'
  rw [zero_div, div_self hb.ne', quarter, smul_eq_mul] at h2
  rw [h1, intervalIntegral.integral_const_mul, h2]
  have := pi_pos.ne'
  field_simp
  norm_num

end C77aux

/-- **C77 (harmonic oscillator).** In a harmonic potential `actionAngleVertical` gives the action, frequency and (modulo `2 pi`) angle of
`actionAngleHarmonic`, for every body that is not at rest at the centre and has an amplitude of at most 50. -/
theorem C77_harmonic (omega x vx : ℝ) (ho : 0 < omega) (h0 : x ≠ 0 ∨ vx ≠ 0) (hmax : vx ^ 2 + (omega * x) ^ 2 ≤ (50 * omega) ^ 2) :
    ∃ angle : ℝ, (∀ out, VerticalAA.Angles (C77Spec.harm omega) x vx out
        ↔ out = some ((Harmonic.actionsFreqsAngles omega x vx).1, (Harmonic.actionsFreqsAngles omega x vx).2.1, angle))
      ∧ C50Spec.Same angle (Harmonic.actionsFreqsAngles omega x vx).2.2 := by
  have hp : 0 < vx ^ 2 + (omega * x) ^ 2 := by
    rcases h0 with h | h <;> positivity
  set r := √(vx ^ 2 + (omega * x) ^ 2) with hr
  have hr0 : 0 < r := sqrt_pos.2 hp
  have hr2 : r ^ 2 = vx ^ 2 + (omega * x) ^ 2 := sq_sqrt hp.le
  have hb : 0 < r / omega := by positivity
  have hb' : r / omega ≤ 50 := by
    rw [div_le_iff₀ ho]
    exact abs_le_of_sq_le_sq' (by rw [hr2]; exact hmax) (by positivity) |>.2
  have e : vx ^ 2 / 2 + C77Spec.harm omega x = C77Spec.harm omega (r / omega) := by
    unfold C77Spec.harm
    rw [div_pow, hr2]
    field_simp
  have s := C77aux.harm_sym ho
  have hO : calcOmega (C77Spec.harm omega) (C77Spec.harm omega (r / omega)) (r / omega) = omega := by
    rw [C77aux.omega_eq s hb, C77aux.harm_half ho hb, div_div_cancel₀ pi_pos.ne']
  have hJ := C77aux.harm_J ho hb
  refine ⟨calcAngle (C77Spec.harm omega) x vx (C77Spec.harm omega (r / omega))
    (calcOmega (C77Spec.harm omega) (C77Spec.harm omega (r / omega)) (r / omega)), fun out => ?_, ?_⟩
  · rw [C77aux.angles_iff s hb hb' e out, hJ]
    have hj : omega * (r / omega) ^ 2 / 2 = (Harmonic.actionsFreqsAngles omega x vx).1 := by
      simp only [Harmonic.actionsFreqsAngles]
      rw [div_pow, hr2]
      field_simp
    have ho' : calcOmega (C77Spec.harm omega) (C77Spec.harm omega (r / omega)) (r / omega)
        = (Harmonic.actionsFreqsAngles omega x vx).2.1 := by
      rw [hO]; simp [Harmonic.actionsFreqsAngles]
    rw [hj, ← ho']
  · have hy : x ∈ Icc (-(r / omega)) (r / omega) := abs_le.1 ((C77aux.phi_le s hb.le).1 (by nlinarith [sq_nonneg vx]))
    refine C50aux.same_trans (C77aux.angle_eq s hb e) ?_
    rw [C77aux.harm_half ho hb, C77aux.harm_T ho hb hy,
      show π / (π / omega) * ((arcsin (x / (r / omega)) + π / 2) / omega) = arcsin (x / (r / omega)) + π / 2 by
        have := pi_pos.ne'
        field_simp]
    have hlo : -1 ≤ x / (r / omega) := by rw [le_div_iff₀ hb]; linarith [hy.1]
    have hhi : x / (r / omega) ≤ 1 := by rw [div_le_one hb]; exact hy.2
    have hs := Coords.polar_sin vx (omega * x)
    have hc := Coords.polar_cos vx (omega * x)
    rw [← hr] at hs hc
    have hcos : cos (arcsin (x / (r / omega))) = |vx| / r := by
      rw [cos_arcsin, ← sqrt_sq_eq_abs, eq_div_iff hr0.ne', ← sqrt_sq hr0.le, ← sqrt_mul' _ (by positivity), sqrt_sq hr0.le]
      congr 1
      field_simp
      rw [hr2]
      ring
    refine C50aux.same_of_cos_sin ?_ ?_
    · show cos (Well.sgn vx * _ - _) = cos (Coords.atan2 (omega * x) vx)
      rw [cos_sub_pi_div_two, Well.sin_sgn, sin_add_pi_div_two, hcos, mul_div_assoc', Well.sgn_mul, eq_comm, eq_div_iff hr0.ne', mul_comm]
      exact hc
    · show sin (Well.sgn vx * _ - _) = sin (Coords.atan2 (omega * x) vx)
      rw [sin_sub_pi_div_two, Well.cos_sgn, cos_add_pi_div_two, neg_neg, sin_arcsin hlo hhi]
      have : x / (r / omega) = omega * x / r := by field_simp
      rw [this, eq_comm, eq_div_iff hr0.ne', mul_comm]
      exact hs

/-- A case of `C77_harmonic`. -/
example : ∃ angle : ℝ, (∀ out, VerticalAA.Angles (C77Spec.harm 2) 1 (-1) out ↔ out = some (5 / 4, 2, angle)) := by
  obtain ⟨a, h, -⟩ := C77_harmonic 2 1 (-1) two_pos (Or.inl one_ne_zero) (by norm_num)
  refine ⟨a, fun out => (h out).trans ?_⟩
  norm_num [Harmonic.actionsFreqsAngles]

/-- A case of `C77_vertical`: an oscillation of amplitude 3. -/
example : C77Spec.Symmetric (C77Spec.harm 2) (fun y => 2 ^ 2 * y)
    ∧ C77Spec.Oscillation (C77Spec.harm 2) (fun y => 2 ^ 2 * y) 3 (fun t => 3 * sin (2 * t)) (fun t => 6 * cos (2 * t)) := by
  refine ⟨C77aux.harm_sym two_pos, fun t => ?_, fun t => ?_, by norm_num, by norm_num [C77Spec.harm]⟩
  · exact ((hd_sin ((hasDerivAt_id t).const_mul 2)).const_mul 3).congr_deriv (by simp; ring)
  · exact ((hd_cos ((hasDerivAt_id t).const_mul 2)).const_mul 6).congr_deriv (by simp; ring)

namespace C77aux

theorem int_f {p q : ℝ} (hp : 0 ≤ p) (hpq : p ≤ q) (hq : q ≤ 1) :
    IntervalIntegrable (fun t : ℝ => 2 / √(2 - t ^ 2)) volume p q := by
  refine ContinuousOn.intervalIntegrable ?_
  rw [uIcc_of_le hpq]
  refine continuousOn_const.div (by fun_prop) fun t ht => ?_
  have : 0 < 2 - t ^ 2 := by nlinarith [ht.1, ht.2]
  positivity

theorem f_form {t : ℝ} (h0 : 0 < t) (h1 : t ≤ 1) :
    2 * t / √(2 * (C77Spec.harm 1 1 - C77Spec.harm 1 (1 - t ^ 2))) = 2 / √(2 - t ^ 2) := by
  have : 0 < 2 - t ^ 2 := by nlinarith
  have hs : 0 < √(2 - t ^ 2) := sqrt_pos.2 this
  rw [show 2 * (C77Spec.harm 1 1 - C77Spec.harm 1 (1 - t ^ 2)) = t ^ 2 * (2 - t ^ 2) by unfold C77Spec.harm; ring,
    sqrt_mul (by positivity), sqrt_sq h0.le]
  field_simp

end C77aux

/-- `actionsFreqs` and `actionsFreqsAngles` of `actionAngleVertical` give different frequencies, even with exact integrals: the first
leaves out the velocity in the part of the integral next to the turning point (where its variable is at most `10^-6`).  For the
oscillator of frequency 1 and amplitude 1 the first frequency is too large. -/
theorem C77_vertical_freqs_fails : ∃ J O angle : ℝ, VerticalAA.Freqs (C77Spec.harm 1) 1 0 (some (J, O))
    ∧ VerticalAA.Angles (C77Spec.harm 1) 1 0 (some (J, 1, angle)) ∧ 1 < O := by
  have s := C77aux.harm_sym one_pos
  have e : (0 : ℝ) ^ 2 / 2 + C77Spec.harm 1 1 = C77Spec.harm 1 1 := by ring
  have hO : calcOmega (C77Spec.harm 1) (C77Spec.harm 1 1) 1 = 1 := by
    rw [C77aux.omega_eq s one_pos, C77aux.harm_half one_pos one_pos, div_div_cancel₀ pi_pos.ne']
  have hA := (C77aux.angles_iff s one_pos (by norm_num) e _).2 rfl
  rw [hO] at hA
  refine ⟨_, calcOmegaFreqs (C77Spec.harm 1) (C77Spec.harm 1 1) 1, _, ?_, hA, ?_⟩
  · refine ⟨some 1, (C77aux.xmax s one_pos (by norm_num) e _).2 rfl, ?_⟩
    rw [Option.map_some, if_neg (by norm_num), VerticalAA.E, e]
  · have ht : ∫ t in (0 : ℝ)..1, 2 / √(2 - t ^ 2) = π / 2 := by
      have h1 : ∫ t in (0 : ℝ)..√1, 2 * t / √(2 * (C77Spec.harm 1 1 - C77Spec.harm 1 (1 - t ^ 2))) = ∫ t in (0 : ℝ)..1, 2 / √(2 - t ^ 2) := by
        rw [sqrt_one]
        refine intervalIntegral.integral_congr_ae (Filter.Eventually.of_forall fun t ht => ?_)
        rw [uIoc_of_le zero_le_one] at ht
        exact C77aux.f_form ht.1 ht.2
      unfold calcOmega at hO
      rw [h1] at hO
      have hne : ∫ t in (0 : ℝ)..1, 2 / √(2 - t ^ 2) ≠ 0 := fun h0 => by
        rw [h0, div_zero] at hO; norm_num at hO
      rw [div_eq_one_iff_eq hne] at hO
      exact hO.symm
    have hδ : (0 : ℝ) < 1 / 10 ^ 6 := by norm_num
    have hδ1 : (1 : ℝ) / 10 ^ 6 ≤ 1 := by norm_num
    set δ : ℝ := 1 / 10 ^ 6 with hδd
    have g1 : EqOn (fun t : ℝ => 2 * t / (if t > δ then √(2 * (C77Spec.harm 1 1 - C77Spec.harm 1 (1 - t ^ 2))) else 1)) (fun t => 2 * t)
        (uIcc 0 δ) := fun t ht => by
      rw [uIcc_of_le hδ.le] at ht
      simp only
      rw [if_neg (not_lt.2 ht.2), div_one]
    have g2 : ∀ t ∈ Ioc δ 1, 2 * t / (if t > δ then √(2 * (C77Spec.harm 1 1 - C77Spec.harm 1 (1 - t ^ 2))) else 1) = 2 / √(2 - t ^ 2) :=
      fun t ht => by
        rw [if_pos ht.1]
        exact C77aux.f_form (hδ.trans ht.1) ht.2
    have i1 : IntervalIntegrable (fun t : ℝ => 2 * t / (if t > δ then √(2 * (C77Spec.harm 1 1 - C77Spec.harm 1 (1 - t ^ 2))) else 1))
        volume 0 δ := by
      refine IntervalIntegrable.congr (f := fun t => 2 * t) (fun t ht => (g1 (uIoc_subset_uIcc ht)).symm) (Continuous.intervalIntegrable (by fun_prop) _ _)
    have i2 : IntervalIntegrable (fun t : ℝ => 2 * t / (if t > δ then √(2 * (C77Spec.harm 1 1 - C77Spec.harm 1 (1 - t ^ 2))) else 1))
        volume δ 1 := by
      refine IntervalIntegrable.congr (f := fun t : ℝ => 2 / √(2 - t ^ 2)) (fun t ht => ?_) (C77aux.int_f hδ.le hδ1 le_rfl)
      rw [uIoc_of_le hδ1] at ht
      exact (g2 t ht).symm
    have hsplit : ∫ t in (0 : ℝ)..1, 2 * t / (if t > δ then √(2 * (C77Spec.harm 1 1 - C77Spec.harm 1 (1 - t ^ 2))) else 1)
        = δ ^ 2 + ∫ t in δ..1, 2 / √(2 - t ^ 2) := by
      rw [← intervalIntegral.integral_add_adjacent_intervals i1 i2, intervalIntegral.integral_congr g1]
      congr 1
      · rw [intervalIntegral.integral_const_mul, integral_id]; ring
      · refine intervalIntegral.integral_congr_ae (Filter.Eventually.of_forall fun t ht => ?_)
        rw [uIoc_of_le hδ1] at ht
        exact g2 t ht
    have hge : δ ≤ ∫ t in (0 : ℝ)..δ, 2 / √(2 - t ^ 2) := by
      have : ∫ t in (0 : ℝ)..δ, (1 : ℝ) ≤ ∫ t in (0 : ℝ)..δ, 2 / √(2 - t ^ 2) := by
        refine intervalIntegral.integral_mono_on hδ.le (by simp) (C77aux.int_f le_rfl hδ.le hδ1) fun t ht => ?_
        have h2 : 0 < 2 - t ^ 2 := by nlinarith [ht.1, ht.2]
        rw [le_div_iff₀ (sqrt_pos.2 h2), one_mul, sqrt_le_iff]
        exact ⟨by norm_num, by nlinarith [sq_nonneg t]⟩
      simpa using this
    have htot := intervalIntegral.integral_add_adjacent_intervals (C77aux.int_f le_rfl hδ.le hδ1) (C77aux.int_f hδ.le hδ1 le_rfl)
    rw [ht] at htot
    have hpos : 0 ≤ ∫ t in δ..1, 2 / √(2 - t ^ 2) := intervalIntegral.integral_nonneg hδ1 fun t _ => by positivity
    unfold calcOmegaFreqs
    rw [sqrt_one, hsplit, one_lt_div (by positivity)]
    nlinarith

end Verif
