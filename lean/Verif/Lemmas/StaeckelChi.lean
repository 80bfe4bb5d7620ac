import Verif.Model.StaeckelAA
import Verif.Util.Libration
import Verif.Lemmas.LibPhase

set_option autoImplicit false

/-!
# The quadratures over `chi`
-/

noncomputable section
namespace Verif.C78aux
open Real Set MeasureTheory
open StaeckelAA

theorem clip_id {x : ℝ} (h0 : 0 ≤ x) (h1 : x ≤ 1) : clip01 x = x := by
  unfold clip01
  rw [max_eq_left h0, min_eq_left h1]

theorem chiOf_range {x a D : ℝ} : 0 ≤ chiOf x a D ∧ chiOf x a D ≤ π := by
  unfold chiOf
  constructor
  · have := arcsin_nonneg.2 (sqrt_nonneg (clip01 ((x - a) / D)))
    linarith
  · linarith [arcsin_le_pi_div_two (√(clip01 ((x - a) / D)))]

theorem chiOf_sin {x a D : ℝ} (hD : 0 < D) (hx : x ∈ Icc a (a + D)) : a + D * sin (chiOf x a D / 2) ^ 2 = x := by
  have h0 : 0 ≤ (x - a) / D := div_nonneg (by linarith [hx.1]) hD.le
  have h1 : (x - a) / D ≤ 1 := by rw [div_le_one hD]; linarith [hx.2]
  unfold chiOf
  rw [clip_id h0 h1, show 2 * arcsin √((x - a) / D) / 2 = arcsin √((x - a) / D) by ring,
    sin_arcsin (by linarith [sqrt_nonneg ((x - a) / D)]) (sqrt_le_one.2 h1), sq_sqrt h0]
  field_simp
  ring

theorem chi_subst {x a D : ℝ} (hD : 0 < D) (hx : x ∈ Icc a (a + D)) (F G : ℝ → ℝ)
    (hG : ∀ chi, 0 < chi → chi < π → a < a + D * sin (chi / 2) ^ 2 → a + D * sin (chi / 2) ^ 2 < x →
      G chi = D / 2 * sin chi * F (a + D * sin (chi / 2) ^ 2)) :
    ∫ chi in (0 : ℝ)..chiOf x a D, G chi = ∫ y in a..x, F y := by
  obtain ⟨hX0, hX1⟩ := chiOf_range (x := x) (a := a) (D := D)
  have hend := chiOf_sin hD hx
  set X := chiOf x a D
  have mono : StrictMonoOn (fun t : ℝ => a + D * sin (t / 2) ^ 2) (Icc 0 π) := by
    intro s hs t ht hst
    have h1 : sin (s / 2) < sin (t / 2) :=
      sin_lt_sin_of_lt_of_le_pi_div_two (by linarith [hs.1, pi_pos]) (by linarith [ht.2]) (by linarith)
    have h2 : 0 ≤ sin (s / 2) := sin_nonneg_of_nonneg_of_le_pi (by linarith [hs.1]) (by linarith [hs.2, hs.1])
    simp only
    have : sin (s / 2) ^ 2 < sin (t / 2) ^ 2 := pow_lt_pow_left₀ h1 h2 two_ne_zero
    nlinarith
  have hcont : Continuous (fun t : ℝ => a + D * sin (t / 2) ^ 2) := by fun_prop
  have himg : (fun t : ℝ => a + D * sin (t / 2) ^ 2) '' Ioo 0 X = Ioo a x := by
    ext y
    constructor
    · rintro ⟨t, ht, rfl⟩
      constructor
      · have := mono ⟨le_rfl, pi_pos.le⟩ ⟨ht.1.le, by linarith [ht.2]⟩ ht.1
        simpa using this
      · have := mono ⟨ht.1.le, by linarith [ht.2]⟩ ⟨hX0, hX1⟩ ht.2
        simp only at this
        rw [hend] at this
        exact this
    · intro hy
      have := intermediate_value_Icc hX0 hcont.continuousOn
      simp only [hend, zero_div, sin_zero] at this
      obtain ⟨t, ht, e⟩ := this (show y ∈ Icc (a + D * 0 ^ 2) x from ⟨by linarith [hy.1], hy.2.le⟩)
      simp only at e
      refine ⟨t, ⟨lt_of_le_of_ne ht.1 fun e0 => ?_, lt_of_le_of_ne ht.2 fun e0 => ?_⟩, e⟩
      · rw [← e0] at e
        simp at e
        linarith [hy.1]
      · rw [e0, hend] at e
        linarith [hy.2]
  have key := integral_image_eq_integral_abs_deriv_smul (s := Ioo 0 X) (f := fun t => a + D * sin (t / 2) ^ 2)
    (f' := fun t => D / 2 * sin t) measurableSet_Ioo (fun t _ => by
      have h1 : HasDerivAt (fun t : ℝ => sin (t / 2)) (cos (t / 2) * (1 / 2)) t := ((hasDerivAt_id' t).div_const 2).sin
      have h2 := ((h1.pow 2).const_mul D).const_add a
      refine (h2.congr_deriv ?_).hasDerivWithinAt
      have : sin t = 2 * sin (t / 2) * cos (t / 2) := by rw [← sin_two_mul]; congr 1; ring
      rw [this]
      push_cast
      ring) (mono.injOn.mono fun t (ht : t ∈ Ioo 0 X) => (⟨ht.1.le, by linarith [ht.2]⟩ : t ∈ Icc 0 π)) F
  rw [himg] at key
  rw [intervalIntegral.integral_of_le hX0, intervalIntegral.integral_of_le hx.1, integral_Ioc_eq_integral_Ioo,
    integral_Ioc_eq_integral_Ioo, key]
  refine setIntegral_congr_fun measurableSet_Ioo fun t ht => ?_
  have hm : a + D * sin (t / 2) ^ 2 ∈ Ioo a x := by rw [← himg]; exact ⟨t, ht, rfl⟩
  simp only [smul_eq_mul]
  rw [hG t ht.1 (by linarith [ht.2]) hm.1 hm.2, abs_of_nonneg]
  have := sin_nonneg_of_nonneg_of_le_pi ht.1.le (by linarith [ht.2])
  positivity

theorem y_form (t : ℝ) : sin (t / 2) ^ 2 * (1 - sin (t / 2) ^ 2) = (sin t / 2) ^ 2 := by
  have : sin t = 2 * sin (t / 2) * cos (t / 2) := by rw [← sin_two_mul]; congr 1; ring
  rw [this, ← cos_sq']
  ring

theorem chiWeight_eq {x a D : ℝ} (hD : 0 < D) (hx : x ∈ Icc a (a + D)) (S S' f : ℝ → ℝ) (hS : ∀ y, a < y → y < x → S y = S' y) :
    chiWeight S f a D (chiOf x a D) = ∫ y in a..x, f y / √(S' y) := by
  unfold chiWeight
  rw [← intervalIntegral.integral_const_mul]
  refine chi_subst hD hx _ _ fun t h0 h1 hl hr => ?_
  have hs := sin_pos_of_pos_of_lt_pi h0 h1
  simp only
  rw [y_form, sqrt_div' _ (by positivity), sqrt_sq (by positivity), hS _ hl hr]
  rcases eq_or_ne (√(S' (a + D * sin (t / 2) ^ 2))) 0 with e | e
  · simp [e]
  · field_simp

theorem chiAction_eq {x a D : ℝ} (hD : 0 < D) (hx : x ∈ Icc a (a + D)) (S S' : ℝ → ℝ) (hS : ∀ y, a < y → y < x → S y = S' y) :
    chiAction S a D (chiOf x a D) = ∫ y in a..x, √(S' y) := by
  unfold chiAction
  rw [← intervalIntegral.integral_const_mul]
  refine chi_subst hD hx _ _ fun t h0 h1 hl hr => ?_
  have hs := sin_pos_of_pos_of_lt_pi h0 h1
  simp only
  rw [y_form, sqrt_div' _ (by positivity), sqrt_sq (by positivity), hS _ hl hr]
  field_simp
  ring

theorem chi_full {a D : ℝ} (hD : 0 < D) : π = chiOf (a + D) a D := by
  unfold chiOf
  rw [show (a + D - a) / D = 1 by field_simp; ring, clip_id zero_le_one le_rfl, sqrt_one, arcsin_one]
  ring

theorem chi_half {a D : ℝ} (hD : 0 < D) : π / 2 = chiOf (a + D / 2) a D := by
  unfold chiOf
  rw [show (a + D / 2 - a) / D = 1 / 2 by field_simp; ring, clip_id (by norm_num) (by norm_num)]
  have : arcsin √(1 / 2) = π / 4 := by
    refine arcsin_eq_of_sin_eq ?_ ⟨by linarith [pi_pos], by linarith [pi_pos]⟩
    rw [sin_pi_div_four, sqrt_div' _ (by norm_num), sqrt_one]
    have h2 : √2 * √2 = 2 := mul_self_sqrt (by norm_num)
    field_simp
    linarith
  rw [this]
  ring

/-- The integrals in terms of those along the motion. -/
theorem weight_T {δ : ℝ} (hδ : 0 < δ) (S f : ℝ → ℝ) (a x : ℝ) :
    ∫ y in a..x, f y / √(S y) = √2 * δ * Well.T (fun y => δ ^ 2 * S y) f a x := by
  unfold Well.T Well.w
  rw [← intervalIntegral.integral_const_mul]
  congr 1
  funext y
  rw [show 2 * (δ ^ 2 * S y) = (2 * δ ^ 2) * S y by ring, sqrt_mul (by positivity), sqrt_mul two_pos.le, sqrt_sq hδ.le]
  have h2 : √2 ≠ 0 := by positivity
  rcases eq_or_ne (√(S y)) 0 with e | e
  · simp [e]
  · field_simp

end Verif.C78aux
