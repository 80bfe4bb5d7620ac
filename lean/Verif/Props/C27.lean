import Verif.Lemmas.Coords

set_option autoImplicit false

/-!
# C27: heliocentric and Galactocentric coordinates

`E` is the additional rotation (`none` when `_extra_rot=False`); the statements hold for every orthogonal one.
-/

noncomputable section
namespace Verif
open Real Coords

/-- The additional rotation is off or orthogonal. -/
def C27aux.Ortho (E : Option (Matrix (Fin 3) (Fin 3) ℝ)) : Prop := ∀ M, E = some M → M * M.transpose = 1

open C27aux (Ortho)

theorem C27aux.rot_rotT {E : Option (Matrix (Fin 3) (Fin 3) ℝ)} (h : Ortho E) (v : Fin 3 → ℝ) :
    rot E (rotT E v) = v ∧ rotT E (rot E v) = v ∧ Spec.sq (rot E v) = Spec.sq v ∧ Spec.sq (rotT E v) = Spec.sq v := by
  cases E with
  | none => exact ⟨rfl, rfl, rfl, rfl⟩
  | some M =>
    have hM := h M rfl
    have hM' : M.transpose * M = 1 := mul_eq_one_comm.1 hM
    refine ⟨?_, ?_, sq_mulVec hM v, ?_⟩
    · simp only [rot, rotT, Matrix.mulVec_mulVec, hM, Matrix.one_mulVec]
    · simp only [rot, rotT, Matrix.mulVec_mulVec, hM', Matrix.one_mulVec]
    · exact sq_mulVec (by rw [Matrix.transpose_transpose]; exact hM') v

theorem C27aux.rotT_sub (E : Option (Matrix (Fin 3) (Fin 3) ℝ)) (u v : Fin 3 → ℝ) :
    rotT E (u - v) = rotT E u - rotT E v := by
  cases E with
  | none => rfl
  | some M => simp only [rotT, Matrix.mulVec_sub]

theorem C27aux.rot_sub (E : Option (Matrix (Fin 3) (Fin 3) ℝ)) (u v : Fin 3 → ℝ) :
    rot E (u - v) = rot E u - rot E v := by
  cases E with
  | none => rfl
  | some M => simp only [rot, Matrix.mulVec_sub]

theorem C27aux.facts {Xsun : ℝ} (hX : Xsun ≠ 0) (Zsun : ℝ) :
    0 < sqrt (Xsun ^ 2 + Zsun ^ 2) ∧ sqrt (Xsun ^ 2 + Zsun ^ 2) ^ 2 = Xsun ^ 2 + Zsun ^ 2 ∧ sgn Xsun ^ 2 = 1 := by
  have h : 0 < Xsun ^ 2 + Zsun ^ 2 := by positivity
  refine ⟨Real.sqrt_pos.2 h, Real.sq_sqrt h.le, ?_⟩
  unfold sgn
  rcases lt_or_gt_of_ne hX with h | h
  · simp [h, h.not_gt]
  · simp [h]

/-- The linear part of the conversion. -/
def C27aux.lin (Xsun Zsun : ℝ) : Matrix (Fin 3) (Fin 3) ℝ := (gcRinv Xsun Zsun).transpose

open C27aux (lin)

theorem C27aux.lin_ortho {Xsun : ℝ} (hX : Xsun ≠ 0) (Zsun : ℝ) :
    lin Xsun Zsun * (lin Xsun Zsun).transpose = 1 ∧ gcRinv Xsun Zsun * (gcRinv Xsun Zsun).transpose = 1 := by
  obtain ⟨hd, hdd, hs⟩ := C27aux.facts hX Zsun
  have h : gcRinv Xsun Zsun * (gcRinv Xsun Zsun).transpose = 1 := by
    simp only [gcRinv]
    generalize sqrt (Xsun ^ 2 + Zsun ^ 2) = d at *
    generalize sgn Xsun = g at *
    ext i j; fin_cases i <;> fin_cases j <;>
      simp [Matrix.mul_apply, Fin.sum_univ_three, Matrix.one_apply] <;> field_simp <;> try linarith
    linear_combination (Xsun ^ 2 + Zsun ^ 2) * hs - hdd
  refine ⟨?_, h⟩
  rw [C27aux.lin, Matrix.transpose_transpose]
  exact mul_eq_one_comm.1 h

theorem C27aux.pos_eq (E : Option (Matrix (Fin 3) (Fin 3) ℝ)) {Xsun : ℝ} (hX : Xsun ≠ 0) (Zsun : ℝ) (x : Fin 3 → ℝ) :
    XYZ_to_galcenrect E Xsun Zsun x = (lin Xsun Zsun).mulVec (rot E x) + ![Xsun, 0, Zsun] := by
  obtain ⟨hd, hdd, hs⟩ := C27aux.facts hX Zsun
  simp only [XYZ_to_galcenrect]
  generalize rot E x = y
  apply vec_ext <;> simp only [Pi.add_apply, mulVec3, gcR, gcRinv, C27aux.lin, Matrix.transpose_apply] <;> simp
  all_goals
    generalize sqrt (Xsun ^ 2 + Zsun ^ 2) = d at *
    field_simp
    ring

theorem C27aux.vel_eq (E : Option (Matrix (Fin 3) (Fin 3) ℝ)) (vsun : Fin 3 → ℝ) (Xsun Zsun : ℝ) (v : Fin 3 → ℝ) :
    vxvyvz_to_galcenrect E vsun Xsun Zsun v = (lin Xsun Zsun).mulVec (rot E v) + vsun := by
  simp only [vxvyvz_to_galcenrect]
  congr 1
  generalize rot E v = y
  apply vec_ext <;> simp only [mulVec3, gcR, gcRinv, C27aux.lin, Matrix.transpose_apply] <;> simp <;> ring

theorem C27aux.vel_inv_eq (E : Option (Matrix (Fin 3) (Fin 3) ℝ)) (vsun : Fin 3 → ℝ) (Xsun Zsun : ℝ) (v : Fin 3 → ℝ) :
    galcenrect_to_vxvyvz E vsun Xsun Zsun v = rotT E ((lin Xsun Zsun).transpose.mulVec (v - vsun)) := by
  simp only [galcenrect_to_vxvyvz, C27aux.lin, Matrix.transpose_transpose]
  congr 2
  apply vec_ext <;> simp

theorem C27aux.pos_inv_eq (E : Option (Matrix (Fin 3) (Fin 3) ℝ)) {Xsun : ℝ} (hX : Xsun ≠ 0) (Zsun : ℝ)
    (x : Fin 3 → ℝ) : galcenrect_to_XYZ E Xsun Zsun x = rotT E ((lin Xsun Zsun).transpose.mulVec (x - ![Xsun, 0, Zsun])) := by
  obtain ⟨hd, hdd, hs⟩ := C27aux.facts hX Zsun
  simp only [galcenrect_to_XYZ, C27aux.lin, Matrix.transpose_transpose]
  congr 1
  apply vec_ext <;> simp only [Pi.add_apply, Pi.sub_apply, mulVec3, gcRinv] <;> simp
  all_goals
    generalize sqrt (Xsun ^ 2 + Zsun ^ 2) = d at *
    field_simp
    try ring_nf
  linear_combination hdd

/-- Positions: inverse in both orders. -/
theorem C27_position_inverse (E : Option (Matrix (Fin 3) (Fin 3) ℝ)) (hE : Ortho E) (Xsun Zsun : ℝ) (hX : Xsun ≠ 0)
    (x : Fin 3 → ℝ) :
    galcenrect_to_XYZ E Xsun Zsun (XYZ_to_galcenrect E Xsun Zsun x) = x ∧
      XYZ_to_galcenrect E Xsun Zsun (galcenrect_to_XYZ E Xsun Zsun x) = x := by
  obtain ⟨h1, -⟩ := C27aux.lin_ortho hX Zsun
  have h2 : (lin Xsun Zsun).transpose * lin Xsun Zsun = 1 := mul_eq_one_comm.1 h1
  constructor
  · rw [C27aux.pos_inv_eq E hX, C27aux.pos_eq E hX, add_sub_cancel_right, Matrix.mulVec_mulVec, h2,
      Matrix.one_mulVec, (C27aux.rot_rotT hE x).2.1]
  · rw [C27aux.pos_inv_eq E hX, C27aux.pos_eq E hX, (C27aux.rot_rotT hE _).1, Matrix.mulVec_mulVec, h1,
      Matrix.one_mulVec, sub_add_cancel]

/-- Distances between points do not change. -/
theorem C27_position_isometry (E : Option (Matrix (Fin 3) (Fin 3) ℝ)) (hE : Ortho E) (Xsun Zsun : ℝ) (hX : Xsun ≠ 0)
    (x y : Fin 3 → ℝ) :
    Spec.sq (XYZ_to_galcenrect E Xsun Zsun x - XYZ_to_galcenrect E Xsun Zsun y) = Spec.sq (x - y) ∧
      Spec.sq (galcenrect_to_XYZ E Xsun Zsun x - galcenrect_to_XYZ E Xsun Zsun y) = Spec.sq (x - y) := by
  obtain ⟨h1, h2⟩ := C27aux.lin_ortho hX Zsun
  constructor
  · rw [C27aux.pos_eq E hX, C27aux.pos_eq E hX, add_sub_add_right_eq_sub, ← Matrix.mulVec_sub, sq_mulVec h1,
      ← C27aux.rot_sub, (C27aux.rot_rotT hE _).2.2.1]
  · rw [C27aux.pos_inv_eq E hX, C27aux.pos_inv_eq E hX, ← C27aux.rotT_sub, (C27aux.rot_rotT hE _).2.2.2,
      ← Matrix.mulVec_sub, C27aux.lin, Matrix.transpose_transpose, sq_mulVec h2, sub_sub_sub_cancel_right]

/-- The Sun is at `(Xsun, 0, Zsun)`, and the Galactic centre, in the direction `l = b = 0` without the additional
rotation, is the origin. -/
theorem C27_sun (E : Option (Matrix (Fin 3) (Fin 3) ℝ)) (Xsun Zsun : ℝ) (hX : Xsun ≠ 0) :
    XYZ_to_galcenrect E Xsun Zsun 0 = ![Xsun, 0, Zsun] ∧
      XYZ_to_galcenrect none Xsun Zsun ![sqrt (Xsun ^ 2 + Zsun ^ 2), 0, 0] = 0 := by
  obtain ⟨hd, hdd, hs⟩ := C27aux.facts hX Zsun
  constructor
  · have : rot E 0 = 0 := by cases E <;> simp [rot]
    rw [C27aux.pos_eq E hX, this, Matrix.mulVec_zero, zero_add]
  · apply vec_ext <;> simp [XYZ_to_galcenrect, rot, mulVec3]

/-- For a Sun in the plane the axes are kept, `x` pointing from the centre to the Sun when `Xsun > 0`. -/
theorem C27_in_plane (Xsun : ℝ) (x : Fin 3 → ℝ) :
    (0 < Xsun → XYZ_to_galcenrect none Xsun 0 x = ![Xsun - x 0, x 1, x 2]) ∧
      (Xsun < 0 → XYZ_to_galcenrect none Xsun 0 x = ![Xsun + x 0, x 1, x 2]) := by
  constructor
  · intro h
    have e : sqrt (Xsun ^ 2) = Xsun := Real.sqrt_sq h.le
    apply vec_ext <;> simp [XYZ_to_galcenrect, rot, mulVec3, gcR, sgn, h, e, h.ne']
    ring
  · intro h
    have e : sqrt (Xsun ^ 2) = -Xsun := by rw [← neg_sq]; exact Real.sqrt_sq (by linarith)
    apply vec_ext <;> simp [XYZ_to_galcenrect, rot, mulVec3, gcR, sgn, h, h.not_gt, e, h.ne, div_neg]

/-- Velocities: inverse in both orders, and velocity differences keep their size. -/
theorem C27_velocity_inverse (E : Option (Matrix (Fin 3) (Fin 3) ℝ)) (hE : Ortho E) (vsun : Fin 3 → ℝ)
    (Xsun Zsun : ℝ) (hX : Xsun ≠ 0) (v w : Fin 3 → ℝ) :
    galcenrect_to_vxvyvz E vsun Xsun Zsun (vxvyvz_to_galcenrect E vsun Xsun Zsun v) = v ∧
      vxvyvz_to_galcenrect E vsun Xsun Zsun (galcenrect_to_vxvyvz E vsun Xsun Zsun v) = v ∧
      Spec.sq (vxvyvz_to_galcenrect E vsun Xsun Zsun v - vxvyvz_to_galcenrect E vsun Xsun Zsun w) = Spec.sq (v - w) := by
  obtain ⟨h1, -⟩ := C27aux.lin_ortho hX Zsun
  have h2 : (lin Xsun Zsun).transpose * lin Xsun Zsun = 1 := mul_eq_one_comm.1 h1
  refine ⟨?_, ?_, ?_⟩
  · rw [C27aux.vel_inv_eq, C27aux.vel_eq, add_sub_cancel_right, Matrix.mulVec_mulVec, h2, Matrix.one_mulVec,
      (C27aux.rot_rotT hE v).2.1]
  · rw [C27aux.vel_inv_eq, C27aux.vel_eq, (C27aux.rot_rotT hE _).1, Matrix.mulVec_mulVec, h1, Matrix.one_mulVec,
      sub_add_cancel]
  · rw [C27aux.vel_eq, C27aux.vel_eq, add_sub_add_right_eq_sub, ← Matrix.mulVec_sub, sq_mulVec h1, ← C27aux.rot_sub,
      (C27aux.rot_rotT hE _).2.2.1]

theorem C27aux.hd_mulVec (M : Matrix (Fin 3) (Fin 3) ℝ) {x : ℝ → Fin 3 → ℝ} {v : Fin 3 → ℝ} {t : ℝ}
    (h : ∀ i, HasDerivAt (fun s => x s i) (v i) t) (i : Fin 3) :
    HasDerivAt (fun s => M.mulVec (x s) i) (M.mulVec v i) t := by
  simp only [mulVec3]
  have h0 := h 0; have h1 := h 1; have h2 := h 2
  apply HasDerivAt.congr_deriv
  · hasderiv
  · ring

/-- The Galactocentric velocity is the rate of change of the Galactocentric position plus the velocity of the
Sun, and likewise back. -/
theorem C27_velocity_is_rate (E : Option (Matrix (Fin 3) (Fin 3) ℝ)) (vsun : Fin 3 → ℝ) (Xsun Zsun : ℝ)
    (hX : Xsun ≠ 0) {x : ℝ → Fin 3 → ℝ} {v : Fin 3 → ℝ} {t : ℝ} (h : ∀ i, HasDerivAt (fun s => x s i) (v i) t)
    (i : Fin 3) :
    HasDerivAt (fun s => XYZ_to_galcenrect E Xsun Zsun (x s) i) (vxvyvz_to_galcenrect E vsun Xsun Zsun v i - vsun i) t ∧
      HasDerivAt (fun s => galcenrect_to_XYZ E Xsun Zsun (x s) i)
        (galcenrect_to_vxvyvz E vsun Xsun Zsun (v + vsun) i) t := by
  constructor
  · simp only [C27aux.pos_eq E hX, C27aux.vel_eq, Pi.add_apply, add_sub_cancel_right]
    have hr : ∀ i, HasDerivAt (fun s => rot E (x s) i) (rot E v i) t := by
      intro i
      cases E with
      | none => exact h i
      | some M => exact C27aux.hd_mulVec M h i
    exact (C27aux.hd_mulVec _ hr i).add_const _
  · simp only [C27aux.pos_inv_eq E hX, C27aux.vel_inv_eq, add_sub_cancel_right]
    have hs : ∀ i, HasDerivAt (fun s => (x s - ![Xsun, 0, Zsun]) i) (v i) t := by
      intro i; simp only [Pi.sub_apply]; exact (h i).sub_const _
    have hm := C27aux.hd_mulVec (lin Xsun Zsun).transpose hs
    cases E with
    | none => exact hm i
    | some M => exact C27aux.hd_mulVec _ hm i

/-- Composition with cylindrical coordinates: round trip through Galactocentric cylindrical coordinates. -/
theorem C27_cylindrical (E : Option (Matrix (Fin 3) (Fin 3) ℝ)) (hE : Ortho E) (Xsun Zsun : ℝ) (hX : Xsun ≠ 0)
    (x : Fin 3 → ℝ) :
    let q := XYZ_to_galcencyl E Xsun Zsun x;
    galcencyl_to_XYZ E Xsun Zsun q.1 q.2.1 q.2.2 = x := by
  simp only [XYZ_to_galcencyl, galcencyl_to_XYZ, rect_to_cyl, cyl_to_rect, polar_cos, polar_sin]
  have e : ![XYZ_to_galcenrect E Xsun Zsun x 0, XYZ_to_galcenrect E Xsun Zsun x 1, XYZ_to_galcenrect E Xsun Zsun x 2] =
      XYZ_to_galcenrect E Xsun Zsun x := by apply vec_ext <;> simp
  rw [e]
  exact (C27_position_inverse E hE Xsun Zsun hX x).1

/-- The same for velocities, at any Galactocentric position. -/
theorem C27_cylindrical_velocity (E : Option (Matrix (Fin 3) (Fin 3) ℝ)) (hE : Ortho E) (vsun : Fin 3 → ℝ)
    (Xsun Zsun : ℝ) (hX : Xsun ≠ 0) (v : Fin 3 → ℝ) (X Y Z : ℝ) :
    let q := vxvyvz_to_galcencyl E vsun Xsun Zsun v X Y Z;
    galcencyl_to_vxvyvz E vsun Xsun Zsun q.1 q.2.1 q.2.2 (rect_to_cyl X Y Z).2.1 = v := by
  simp only [vxvyvz_to_galcencyl, galcencyl_to_vxvyvz, rect_to_cyl_vec, cyl_to_rect_vec]
  generalize (rect_to_cyl X Y Z).2.1 = a
  have hs := Real.sin_sq_add_cos_sq a
  generalize hg : vxvyvz_to_galcenrect E vsun Xsun Zsun v = g
  have e : ![(g 0 * cos a + g 1 * sin a) * cos a - (-g 0 * sin a + g 1 * cos a) * sin a,
      (g 0 * cos a + g 1 * sin a) * sin a + (-g 0 * sin a + g 1 * cos a) * cos a, g 2] = g := by
    apply vec_ext <;> simp
    · linear_combination g 0 * hs
    · linear_combination g 1 * hs
  rw [e, ← hg]
  exact (C27_velocity_inverse E hE vsun Xsun Zsun hX v 0).1

/-- For `Xsun = 0` the sign in the formulas is zero and the conversion forgets the height above the plane. -/
theorem C27_sun_on_axis_fails : ∃ (Zsun : ℝ) (x y : Fin 3 → ℝ), Zsun ≠ 0 ∧ x ≠ y ∧
    XYZ_to_galcenrect none 0 Zsun x = XYZ_to_galcenrect none 0 Zsun y := by
  refine ⟨1, ![0, 0, 1], ![0, 0, 2], one_ne_zero, ?_, ?_⟩
  · intro h; have := congrFun h 2; simp at this
  · apply vec_ext <;> simp [XYZ_to_galcenrect, rot, mulVec3, gcR, sgn]

example : galcenrect_to_XYZ none (-8) (1 / 50) (XYZ_to_galcenrect none (-8) (1 / 50) ![1, 2, 3]) = ![1, 2, 3] :=
  (C27_position_inverse none (by intro M h; cases h) (-8) (1 / 50) (by norm_num) _).1

/-- A non-trivial additional rotation. -/
example : galcenrect_to_XYZ (some !![0, 1, 0; -1, 0, 0; 0, 0, 1]) 8 1
    (XYZ_to_galcenrect (some !![0, 1, 0; -1, 0, 0; 0, 0, 1]) 8 1 ![1, 2, 3]) = ![1, 2, 3] := by
  refine (C27_position_inverse _ ?_ 8 1 (by norm_num) _).1
  intro M h
  cases h
  ext i j; fin_cases i <;> fin_cases j <;> simp [Matrix.mul_apply, Fin.sum_univ_three]

end Verif
