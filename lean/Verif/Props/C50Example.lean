import Verif.Props.C50Motion

set_option autoImplicit false

/-!
# C50: a concrete orbit for the theorem about the angles

An inclined Kepler ellipse with eccentricity `3/5` and semimajor axis one.
-/

noncomputable section
namespace Verif

open Real IsochroneAA

/-- A motion in Cartesian coordinates, away from the axis, is a motion in cylindrical coordinates. -/
theorem C50aux.cartesian (amp b : ℝ) (x y z vx vy vz : ℝ → ℝ) (hR : ∀ t, 0 < x t ^ 2 + y t ^ 2)
    (hx : ∀ t, HasDerivAt x (vx t) t) (hy : ∀ t, HasDerivAt y (vy t) t) (hz : ∀ t, HasDerivAt z (vz t) t)
    (g : ℝ → ℝ)
    (hg : ∀ t, g t = amp / (√(b ^ 2 + (x t ^ 2 + y t ^ 2 + z t ^ 2)) * (b + √(b ^ 2 + (x t ^ 2 + y t ^ 2 + z t ^ 2))) ^ 2))
    (hvx : ∀ t, HasDerivAt vx (-(g t * x t)) t) (hvy : ∀ t, HasDerivAt vy (-(g t * y t)) t)
    (hvz : ∀ t, HasDerivAt vz (-(g t * z t)) t) :
    ∃ p : ℝ → Point, C50Spec.Motion amp b p ∧ ∀ t, (p t).R = √(x t ^ 2 + y t ^ 2) ∧ (p t).z = z t
      ∧ (p t).vR = (x t * vx t + y t * vy t) / √(x t ^ 2 + y t ^ 2)
      ∧ (p t).vT = (x t * vy t - y t * vx t) / √(x t ^ 2 + y t ^ 2) ∧ (p t).vz = vz t := by
  have hs : ∀ t, 0 < √(x t ^ 2 + y t ^ 2) := fun t => sqrt_pos.2 (hR t)
  have hs2 : ∀ t, √(x t ^ 2 + y t ^ 2) ^ 2 = x t ^ 2 + y t ^ 2 := fun t => sq_sqrt (hR t).le
  have hdR : ∀ t, HasDerivAt (fun t => √(x t ^ 2 + y t ^ 2)) ((x t * vx t + y t * vy t) / √(x t ^ 2 + y t ^ 2)) t :=
    fun t => by
    refine (hd_sqrt (hd_add (hd_pow 2 (hx t)) (hd_pow 2 (hy t))) (hR t).ne').congr_deriv ?_
    have := hs t
    norm_num
    field_simp
  have hcx : Continuous x := continuous_iff_continuousAt.2 fun t => (hx t).continuousAt
  have hcy : Continuous y := continuous_iff_continuousAt.2 fun t => (hy t).continuousAt
  have hcvx : Continuous vx := continuous_iff_continuousAt.2 fun t => (hvx t).continuousAt
  have hcvy : Continuous vy := continuous_iff_continuousAt.2 fun t => (hvy t).continuousAt
  obtain ⟨f, _, hf⟩ := C50aux.antideriv (fun t => (x t * vy t - y t * vx t) / (x t ^ 2 + y t ^ 2))
    (((hcx.mul hcvy).sub (hcy.mul hcvx)).div ((hcx.pow 2).add (hcy.pow 2)) fun t => (hR t).ne') 0
  refine ⟨fun t => ⟨√(x t ^ 2 + y t ^ 2), (x t * vx t + y t * vy t) / √(x t ^ 2 + y t ^ 2),
    (x t * vy t - y t * vx t) / √(x t ^ 2 + y t ^ 2), z t, vz t, f t⟩, ⟨hs, hdR, hz, fun t => ?_, fun t => ?_,
    fun t => ?_, fun t => ?_⟩, fun t => ⟨rfl, rfl, rfl, rfl, rfl⟩⟩
  · refine (hf t).congr_deriv ?_
    rw [div_div, ← sq, hs2]
  · refine (hd_div (hd_add (hd_mul (hx t) (hvx t)) (hd_mul (hy t) (hvy t))) (hdR t) (hs t).ne').congr_deriv ?_
    rw [mul_div_right_comm amp, hs2 t, ← hg t]
    have h0 := hs t
    have h2 := hs2 t
    generalize √(x t ^ 2 + y t ^ 2) = s at *
    rw [← h2]
    field_simp
    linear_combination (vx t ^ 2 + vy t ^ 2 + g t * s ^ 2) * h2
  · refine (hd_div (hd_sub (hd_mul (hx t) (hvy t)) (hd_mul (hy t) (hvx t))) (hdR t) (hs t).ne').congr_deriv ?_
    have h0 := hs t
    field_simp
    ring
  · refine (hvz t).congr_deriv ?_
    rw [mul_div_right_comm amp, hs2 t, ← hg t]

/-- Kepler's equation with eccentricity `3/5` has a smooth solution. -/
theorem C50aux.kepler : ∃ g : ℝ → ℝ, g 0 = 0 ∧ ∀ t, HasDerivAt g (1 / (1 - 3 / 5 * cos (g t))) t := by
  have hd : ∀ y, HasDerivAt (fun y => y - 3 / 5 * sin y) (1 - 3 / 5 * cos y) y := fun y =>
    (hasDerivAt_id y).sub ((hasDerivAt_sin y).const_mul _)
  have hpos : ∀ y, 0 < 1 - 3 / 5 * cos y := fun y => by linarith [cos_le_one y]
  have hmono : StrictMono fun y : ℝ => y - 3 / 5 * sin y :=
    strictMono_of_deriv_pos fun y => by rw [(hd y).deriv]; exact hpos y
  have hcont : Continuous fun y : ℝ => y - 3 / 5 * sin y :=
    continuous_id.sub (continuous_const.mul continuous_sin)
  have hsurj : Function.Surjective fun y : ℝ => y - 3 / 5 * sin y := by
    refine hcont.surjective ?_ ?_
    · refine Filter.tendsto_atTop_mono (fun y => ?_) (Filter.tendsto_atTop_add_const_right _ (-1) Filter.tendsto_id)
      simp only [id]
      linarith [sin_le_one y]
    · refine Filter.tendsto_atBot_mono (fun y => ?_) (Filter.tendsto_atBot_add_const_right _ 1 Filter.tendsto_id)
      simp only [id]
      linarith [neg_one_le_sin y]
  set o := hmono.orderIsoOfSurjective _ hsurj with ho
  refine ⟨o.symm, ?_, fun t => ?_⟩
  · rw [OrderIso.symm_apply_eq]
    change (0 : ℝ) = 0 - 3 / 5 * sin 0
    simp
  · rw [one_div]
    refine HasDerivAt.of_local_left_inverse o.symm.continuous.continuousAt (hd _) (hpos _).ne' ?_
    exact Filter.Eventually.of_forall fun s => o.apply_symm_apply s

/-- The ellipse, starting at its pericentre. -/
theorem C50aux.ellipse : ∃ p : ℝ → Point, C50Spec.Motion 1 0 p ∧ (p 0).R = 2 / 5 ∧ (p 0).z = 0 ∧ (p 0).vR = 0
    ∧ (p 0).vT = 6 / 5 ∧ (p 0).vz = 8 / 5 := by
  obtain ⟨g, g0, hg⟩ := C50aux.kepler
  have hpos : ∀ y, 0 < 1 - 3 / 5 * cos y := fun y => by linarith [cos_le_one y]
  have hsc := fun t => sin_sq_add_cos_sq (g t)
  have hr2 : ∀ t, (cos (g t) - 3 / 5) ^ 2 + (12 / 25 * sin (g t)) ^ 2 + (16 / 25 * sin (g t)) ^ 2
      = (1 - 3 / 5 * cos (g t)) ^ 2 := fun t => by
    have h := hsc t
    linear_combination (16 / 25) * h
  have hr : ∀ t, √(0 ^ 2 + ((cos (g t) - 3 / 5) ^ 2 + (12 / 25 * sin (g t)) ^ 2 + (16 / 25 * sin (g t)) ^ 2))
      = 1 - 3 / 5 * cos (g t) := fun t => by
    rw [hr2, zero_pow two_ne_zero, zero_add, sqrt_sq (hpos _).le]
  obtain ⟨p, hp, hv⟩ := C50aux.cartesian 1 0 (fun t => cos (g t) - 3 / 5) (fun t => 12 / 25 * sin (g t))
    (fun t => 16 / 25 * sin (g t)) (fun t => -sin (g t) / (1 - 3 / 5 * cos (g t)))
    (fun t => 12 / 25 * cos (g t) / (1 - 3 / 5 * cos (g t))) (fun t => 16 / 25 * cos (g t) / (1 - 3 / 5 * cos (g t)))
    (fun t => by
      have h := hsc t
      by_contra hn
      have h1 : cos (g t) - 3 / 5 = 0 := by nlinarith [sq_nonneg (cos (g t) - 3 / 5), sq_nonneg (12 / 25 * sin (g t))]
      have h2 : 12 / 25 * sin (g t) = 0 := by
        nlinarith [sq_nonneg (cos (g t) - 3 / 5), sq_nonneg (12 / 25 * sin (g t))]
      have h3 : sin (g t) = 0 := by linarith
      have h4 : cos (g t) = 3 / 5 := by linarith
      rw [h3, h4] at h
      norm_num at h)
    (fun t => by
      refine ((hd_cos (hg t)).sub_const _).congr_deriv ?_
      ring)
    (fun t => by
      refine ((hd_sin (hg t)).const_mul _).congr_deriv ?_
      ring)
    (fun t => by
      refine ((hd_sin (hg t)).const_mul _).congr_deriv ?_
      ring)
    (fun t => 1 / (1 - 3 / 5 * cos (g t)) ^ 3) (fun t => by
      rw [hr]
      have := hpos (g t)
      field_simp
      ring)
    (fun t => by
      have h0 := (hpos (g t)).ne'
      have h := hsc t
      refine (hd_div (hd_neg (hd_sin (hg t))) (((hd_cos (hg t)).const_mul (3 / 5)).const_sub 1) h0).congr_deriv ?_
      generalize hrr : 1 - 3 / 5 * cos (g t) = r at *
      field_simp
      first | linear_combination 3 * h + 5 * cos (g t) * hrr | linear_combination 3 * h - 5 * cos (g t) * hrr
            | linear_combination h + cos (g t) * hrr)
    (fun t => by
      have h0 := (hpos (g t)).ne'
      refine (hd_div ((hd_cos (hg t)).const_mul (12 / 25)) (((hd_cos (hg t)).const_mul (3 / 5)).const_sub 1) h0).congr_deriv ?_
      field_simp
      ring)
    (fun t => by
      have h0 := (hpos (g t)).ne'
      refine (hd_div ((hd_cos (hg t)).const_mul (16 / 25)) (((hd_cos (hg t)).const_mul (3 / 5)).const_sub 1) h0).congr_deriv ?_
      field_simp
      ring)
  refine ⟨p, hp, ?_⟩
  have h0 := hv 0
  simp only [g0, cos_zero, sin_zero] at h0
  have hs : √((1 - 3 / 5 : ℝ) ^ 2 + (12 / 25 * 0) ^ 2) = 2 / 5 := by
    rw [show ((1 - 3 / 5 : ℝ) ^ 2 + (12 / 25 * 0) ^ 2) = (2 / 5) ^ 2 by norm_num, sqrt_sq (by norm_num)]
  rw [hs] at h0
  norm_num at h0
  exact h0

/-- A motion meeting the hypotheses of `C50_angles`. -/
example : ∃ p : ℝ → Point, C50Spec.Motion 1 0 p ∧ C50Spec.energy 1 0 (p 0) < 0 ∧ 0 < (actions 1 0 (p 0)).1
    ∧ (actions 1 0 (p 0)).2.1 ≠ 0 ∧ 0 < (actions 1 0 (p 0)).2.2 := by
  obtain ⟨p, hp, h1, h2, h3, h4, h5⟩ := C50aux.ellipse
  refine ⟨p, hp, ?_⟩
  have e25 : √(4 / 25 : ℝ) = 2 / 5 := by
    rw [show (4 / 25 : ℝ) = (2 / 5) ^ 2 by norm_num, sqrt_sq (by norm_num)]
  have hE : C50Spec.energy 1 0 (p 0) = -(1 / 2) := by
    unfold C50Spec.energy
    rw [h1, h2, h3, h4, h5]
    norm_num [e25]
  have hL2 : L2 (p 0) = (4 / 5) ^ 2 := by
    unfold L2 Lz
    rw [h1, h2, h3, h4, h5]
    norm_num
  have hLz : Lz (p 0) = 12 / 25 := by
    unfold Lz
    rw [h1, h4]
    norm_num
  have hL : L (p 0) = 4 / 5 := by
    unfold L
    rw [hL2, sqrt_sq (by norm_num)]
  refine ⟨by rw [hE]; norm_num, ?_, ?_, ?_⟩
  · simp only [actions, Jr, C50aux.E_eq, hE, hL, hL2]
    rw [show (-2 * -(1 / 2) : ℝ) = 1 by norm_num, sqrt_one, mul_zero, add_zero, sqrt_sq (by norm_num)]
    norm_num
  · simp only [actions, hLz]
    norm_num
  · simp only [actions, Jz, hL, hLz]
    norm_num [abs_of_pos]

end Verif
