import Verif.Lemmas.Coords
import Mathlib.Analysis.Real.Pi.Bounds

set_option autoImplicit false

/-!
# C26: sky positions and velocities to rectangular coordinates
-/

noncomputable section
namespace Verif
open Real Coords

/-- The rectangular position is the distance times the direction. -/
theorem C26_position (l b d : ℝ) : lbd_to_XYZ l b d = d • Spec.dir l b := by
  apply vec_ext <;> simp [lbd_to_XYZ, Spec.dir] <;> ring

theorem C26aux.pos_of_ne {x : Fin 3 → ℝ} (h : x ≠ 0) : 0 < x 0 ^ 2 + x 1 ^ 2 + x 2 ^ 2 := by
  by_contra hle
  have h0 : x 0 = 0 := by nlinarith [sq_nonneg (x 0), sq_nonneg (x 1), sq_nonneg (x 2)]
  have h1 : x 1 = 0 := by nlinarith [sq_nonneg (x 0), sq_nonneg (x 1), sq_nonneg (x 2)]
  have h2 : x 2 = 0 := by nlinarith [sq_nonneg (x 0), sq_nonneg (x 1), sq_nonneg (x 2)]
  exact h (vec_ext h0 h1 h2)

/-- Round trip from rectangular coordinates, with the ranges of the result: the distance is the length. -/
theorem C26_round_trip_rectangular (x : Fin 3 → ℝ) (h : x ≠ 0) :
    let q := XYZ_to_lbd (x 0) (x 1) (x 2);
    lbd_to_XYZ (q 0) (q 1) (q 2) = x ∧ q 2 ^ 2 = Spec.sq x ∧ 0 < q 2 ∧ (0 ≤ q 0 ∧ q 0 < 2 * π) ∧
      -(π / 2) ≤ q 1 ∧ q 1 ≤ π / 2 := by
  have hpos := C26aux.pos_of_ne h
  simp only [XYZ_to_lbd, Matrix.cons_val_zero, Matrix.cons_val_one, Matrix.cons_val]
  have hd := Real.sqrt_pos.2 hpos
  have hdd := Real.sq_sqrt hpos.le
  refine ⟨?_, hdd, hd, wrap_atan2_mem _ _, Real.neg_pi_div_two_le_arcsin _, Real.arcsin_le_pi_div_two _⟩
  have hw : wrap (atan2 (x 1) (x 0)) = wrap (atan2 ((sqrt (x 0 ^ 2 + x 1 ^ 2 + x 2 ^ 2))⁻¹ * x 1)
      ((sqrt (x 0 ^ 2 + x 1 ^ 2 + x 2 ^ 2))⁻¹ * x 0)) := by rw [atan2_scale (inv_pos.2 hd)]
  rw [C26_position, hw]
  generalize sqrt (x 0 ^ 2 + x 1 ^ 2 + x 2 ^ 2) = d at *
  have hu : Spec.sq (d⁻¹ • x) = 1 := by
    simp only [Spec.sq, Pi.smul_apply, smul_eq_mul]; field_simp; linarith
  have := dir_of_unit hu
  simp only [Pi.smul_apply, smul_eq_mul] at this
  rw [show x 2 / d = d⁻¹ * x 2 by ring, this, smul_smul, mul_inv_cancel₀ hd.ne', one_smul]

/-- Round trip from sky coordinates. -/
theorem C26_round_trip_sky (l b d : ℝ) (hd : 0 < d) (h1 : 0 ≤ l) (h2 : l < 2 * π) (h3 : -(π / 2) < b)
    (h4 : b < π / 2) :
    XYZ_to_lbd (lbd_to_XYZ l b d 0) (lbd_to_XYZ l b d 1) (lbd_to_XYZ l b d 2) = ![l, b, d] := by
  have hs := sq_dir l b
  have hr : sqrt (lbd_to_XYZ l b d 0 ^ 2 + lbd_to_XYZ l b d 1 ^ 2 + lbd_to_XYZ l b d 2 ^ 2) = d := by
    conv_rhs => rw [← Real.sqrt_sq hd.le]
    congr 1
    rw [C26_position]; unfold Spec.sq at hs
    simp only [Pi.smul_apply, smul_eq_mul]; linear_combination d ^ 2 * hs
  simp only [XYZ_to_lbd, hr]
  rw [C26_position]
  obtain ⟨e1, e2⟩ := dir_inj (v := Spec.dir l b) rfl h1 h2 h3 h4
  simp only [Pi.smul_apply, smul_eq_mul]
  rw [atan2_scale hd, e1, mul_div_cancel_left₀ _ hd.ne', e2]

/-- The velocity is the time derivative of the position: a body with line-of-sight velocity `d'` and proper
motions `l' cos b / K`, `b' / K` moves with the velocity that is returned. -/
theorem C26_velocity (K : ℝ) (hK : K ≠ 0) {l b d : ℝ → ℝ} {l' b' d' t : ℝ} (hl : HasDerivAt l l' t)
    (hb : HasDerivAt b b' t) (hd : HasDerivAt d d' t) (i : Fin 3) :
    HasDerivAt (fun s => lbd_to_XYZ (l s) (b s) (d s) i)
      (vrpmllpmbb_to_vxvyvz K d' (l' * cos (b t) / K) (b' / K) (l t) (b t) (d t) i) t := by
  fin_cases i <;> simp only [lbd_to_XYZ, vrpmllpmbb_to_vxvyvz, lbR, Fin.zero_eta, Fin.mk_one, Fin.reduceFinMk,
    Matrix.cons_val_zero, Matrix.cons_val_one, Matrix.cons_val, Matrix.of_apply]
  all_goals
    apply HasDerivAt.congr_deriv
    · hasderiv
    · field_simp
      try ring

/-- Along every motion, the converse conversion of the velocity returns the rates of distance, longitude and
latitude. -/
theorem C26_velocity_converse (K : ℝ) (hK : K ≠ 0) {l b d : ℝ → ℝ} {l' b' d' t : ℝ} {v : Fin 3 → ℝ}
    (hl : HasDerivAt l l' t) (hb : HasDerivAt b b' t) (hd : HasDerivAt d d' t) (hd0 : d t ≠ 0)
    (hv : ∀ i, HasDerivAt (fun s => lbd_to_XYZ (l s) (b s) (d s) i) (v i) t) :
    vxvyvz_to_vrpmllpmbb K (v 0) (v 1) (v 2) (l t) (b t) (d t) = ![d', l' * cos (b t) / K, b' / K] := by
  have e := fun i => (hv i).unique (C26_velocity K hK hl hb hd i)
  have sl := Real.sin_sq_add_cos_sq (l t)
  have sb := Real.sin_sq_add_cos_sq (b t)
  rw [e 0, e 1, e 2]
  apply vec_ext <;> simp [vxvyvz_to_vrpmllpmbb, vrpmllpmbb_to_vxvyvz, lbR]
  all_goals
    generalize cos (l t) = cl at *; generalize sin (l t) = sl' at *
    generalize cos (b t) = cb at *; generalize sin (b t) = sb' at *
    field_simp
  · linear_combination d' * sb + cb ^ 2 * d' * sl + (-(cb * d t * b' * sb')) * sl
  · linear_combination d t * cb * l' * sl
  · linear_combination d t * b' * sb + d t * b' * sb' ^ 2 * sl - cb * d' * sb' * sl

/-- The two velocity conversions are inverse, and the velocity has length
`sqrt(vr^2 + (K d)^2 (pmll^2 + pmbb^2))`. -/
theorem C26_velocity_round_trip (K vr pmll pmbb l b d : ℝ) (hK : K ≠ 0) (hd : d ≠ 0) :
    let v := vrpmllpmbb_to_vxvyvz K vr pmll pmbb l b d;
    vxvyvz_to_vrpmllpmbb K (v 0) (v 1) (v 2) l b d = ![vr, pmll, pmbb] ∧
      Spec.sq v = vr ^ 2 + (K * d) ^ 2 * (pmll ^ 2 + pmbb ^ 2) := by
  have sl := Real.sin_sq_add_cos_sq l
  have sb := Real.sin_sq_add_cos_sq b
  constructor
  · apply vec_ext <;> simp [vxvyvz_to_vrpmllpmbb, vrpmllpmbb_to_vxvyvz, lbR]
    all_goals
      generalize cos l = cl at *; generalize sin l = sl' at *
      generalize cos b = cb at *; generalize sin b = sb' at *
      try field_simp
    · linear_combination vr * sb + cb ^ 2 * vr * sl + (-(cb * (d * pmbb * K) * sb')) * sl
    · linear_combination d * K * pmll * sl
    · linear_combination d * K * pmbb * sb + d * K * pmbb * sb' ^ 2 * sl - cb * vr * sb' * sl
  · simp [Spec.sq, vrpmllpmbb_to_vxvyvz, lbR]
    generalize cos l = cl at *; generalize sin l = sl' at *
    generalize cos b = cb at *; generalize sin b = sb' at *
    linear_combination (vr ^ 2 * cb ^ 2 + (d * pmll * K) ^ 2 + sb' ^ 2 * (d * pmbb * K) ^ 2 -
      2 * cb * sb' * vr * (d * pmbb * K)) * sl + (vr ^ 2 + (d * pmbb * K) ^ 2) * sb

/-- And in the other order. -/
theorem C26_velocity_round_trip_rectangular (K vx vy vz l b d : ℝ) (hK : K ≠ 0) (hd : d ≠ 0) :
    let q := vxvyvz_to_vrpmllpmbb K vx vy vz l b d;
    vrpmllpmbb_to_vxvyvz K (q 0) (q 1) (q 2) l b d = ![vx, vy, vz] := by
  have sl := Real.sin_sq_add_cos_sq l
  have sb := Real.sin_sq_add_cos_sq b
  apply vec_ext <;> simp [vxvyvz_to_vrpmllpmbb, vrpmllpmbb_to_vxvyvz, lbR]
  all_goals
    generalize cos l = cl at *; generalize sin l = sl' at *
    generalize cos b = cb at *; generalize sin b = sb' at *
    field_simp
  · linear_combination vx * sl + cl ^ 2 * vx * sb + cl * sl' * vy * sb
  · linear_combination vy * sl + sl' ^ 2 * vy * sb + cl * sl' * vx * sb
  · linear_combination vz * sb

/-- Full phase-space round trip of `rectgal_to_sphergal` and `sphergal_to_rectgal`. -/
theorem C26_phase_space (K : ℝ) (hK : K ≠ 0) (x v : Fin 3 → ℝ) (h : x ≠ 0) :
    let q := rectgal_to_sphergal K (x 0) (x 1) (x 2) (v 0) (v 1) (v 2);
    sphergal_to_rectgal K (q.1 0) (q.1 1) (q.1 2) (q.2 0) (q.2 1) (q.2 2) = (x, v) := by
  obtain ⟨h1, h2, h3, -⟩ := C26_round_trip_rectangular x h
  simp only [rectgal_to_sphergal, sphergal_to_rectgal]
  rw [h1]
  congr 1
  have := C26_velocity_round_trip_rectangular K (v 0) (v 1) (v 2) (XYZ_to_lbd (x 0) (x 1) (x 2) 0)
    (XYZ_to_lbd (x 0) (x 1) (x 2) 1) (XYZ_to_lbd (x 0) (x 1) (x 2) 2) hK h3.ne'
  simp only [vxvyvz_to_vrpmllpmbb_XYZ]
  rw [this]
  apply vec_ext <;> simp

/-- With `XYZ=True` the position may be given in rectangular coordinates instead. -/
theorem C26_xyz_keyword (K : ℝ) (w : Fin 3 → ℝ) (l b d : ℝ) (hd : 0 < d) (h1 : 0 ≤ l) (h2 : l < 2 * π)
    (h3 : -(π / 2) < b) (h4 : b < π / 2) :
    let x := lbd_to_XYZ l b d;
    vrpmllpmbb_to_vxvyvz_XYZ K (w 0) (w 1) (w 2) (x 0) (x 1) (x 2) =
        vrpmllpmbb_to_vxvyvz K (w 0) (w 1) (w 2) l b d ∧
      vxvyvz_to_vrpmllpmbb_XYZ K (w 0) (w 1) (w 2) (x 0) (x 1) (x 2) =
        vxvyvz_to_vrpmllpmbb K (w 0) (w 1) (w 2) l b d := by
  have h := C26_round_trip_sky l b d hd h1 h2 h3 h4
  simp only [vrpmllpmbb_to_vxvyvz_XYZ, vxvyvz_to_vrpmllpmbb_XYZ, h]
  simp

example : XYZ_to_lbd (lbd_to_XYZ 4 (-1) 8 0) (lbd_to_XYZ 4 (-1) 8 1) (lbd_to_XYZ 4 (-1) 8 2) = ![4, -1, 8] := by
  have := Real.pi_gt_three
  exact C26_round_trip_sky 4 (-1) 8 (by norm_num) (by norm_num) (by linarith) (by linarith) (by linarith)

example : Spec.sq (vrpmllpmbb_to_vxvyvz 4.74047 3 1 2 4 (-1) 8) = 3 ^ 2 + (4.74047 * 8) ^ 2 * (1 ^ 2 + 2 ^ 2) :=
  (C26_velocity_round_trip 4.74047 3 1 2 4 (-1) 8 (by norm_num) (by norm_num)).2

example : (sphergal_to_rectgal 4.74047
    (rectgal_to_sphergal 4.74047 (-8) 0 1 1 2 3 |>.1 0) (rectgal_to_sphergal 4.74047 (-8) 0 1 1 2 3 |>.1 1)
    (rectgal_to_sphergal 4.74047 (-8) 0 1 1 2 3 |>.1 2) (rectgal_to_sphergal 4.74047 (-8) 0 1 1 2 3 |>.2 0)
    (rectgal_to_sphergal 4.74047 (-8) 0 1 1 2 3 |>.2 1) (rectgal_to_sphergal 4.74047 (-8) 0 1 1 2 3 |>.2 2)) =
    (![-8, 0, 1], ![1, 2, 3]) :=
  C26_phase_space 4.74047 (by norm_num) ![-8, 0, 1] ![1, 2, 3] (by intro h; simpa using congrFun h 2)

end Verif
