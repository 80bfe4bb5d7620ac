import Verif.Model.Coords
import Verif.Spec.Frames
import Verif.Util.Deriv
import Mathlib.Analysis.SpecialFunctions.Complex.LogDeriv
import Mathlib.Analysis.SpecialFunctions.Trigonometric.InverseDeriv
import Mathlib.Data.Matrix.Mul
import Mathlib.LinearAlgebra.Matrix.Adjugate
import Mathlib.LinearAlgebra.Matrix.NonsingularInverse
import Mathlib.Algebra.BigOperators.Fin

set_option autoImplicit false

/-!
# Lemmas on angles
-/

noncomputable section
namespace Verif.Coords
open Real

theorem norm_mk (x y : ℝ) : ‖(⟨x, y⟩ : ℂ)‖ = sqrt (x ^ 2 + y ^ 2) := by
  rw [Complex.norm_def, Complex.normSq_mk]; congr 1; ring

theorem polar_cos (x y : ℝ) : sqrt (x ^ 2 + y ^ 2) * cos (atan2 y x) = x := by
  have := Complex.norm_mul_cos_arg ⟨x, y⟩
  rwa [norm_mk] at this

theorem polar_sin (x y : ℝ) : sqrt (x ^ 2 + y ^ 2) * sin (atan2 y x) = y := by
  have := Complex.norm_mul_sin_arg ⟨x, y⟩
  rwa [norm_mk] at this

theorem atan2_mem (y x : ℝ) : -π < atan2 y x ∧ atan2 y x ≤ π := Complex.arg_mem_Ioc _

theorem atan2_polar {r a : ℝ} (hr : 0 < r) (h : -π < a) (h' : a ≤ π) : atan2 (r * sin a) (r * cos a) = a := by
  have := Complex.arg_mul_cos_add_sin_mul_I hr ⟨h, h'⟩
  unfold atan2
  convert this using 2
  apply Complex.ext <;> simp [Complex.cos_ofReal_re, Complex.sin_ofReal_re, Complex.cos_ofReal_im,
    Complex.sin_ofReal_im]

theorem cos_wrap (a : ℝ) : cos (wrap a) = cos a := by
  unfold wrap; split_ifs
  · exact Real.cos_add_two_pi a
  · rfl

theorem sin_wrap (a : ℝ) : sin (wrap a) = sin a := by
  unfold wrap; split_ifs
  · exact Real.sin_add_two_pi a
  · rfl

theorem wrap_atan2_mem (y x : ℝ) : 0 ≤ wrap (atan2 y x) ∧ wrap (atan2 y x) < 2 * π := by
  obtain ⟨h1, h2⟩ := atan2_mem y x
  have := Real.pi_pos
  unfold wrap; split_ifs <;> constructor <;> linarith

theorem wrap_atan2_polar {r a : ℝ} (hr : 0 < r) (h : 0 ≤ a) (h' : a < 2 * π) :
    wrap (atan2 (r * sin a) (r * cos a)) = a := by
  have := Real.pi_pos
  rcases le_or_gt a π with h1 | h1
  · rw [atan2_polar hr (by linarith) h1, wrap, if_neg (not_lt.2 h)]
  · have e : atan2 (r * sin a) (r * cos a) = a - 2 * π := by
      rw [← Real.sin_sub_two_pi a, ← Real.cos_sub_two_pi a]
      exact atan2_polar hr (by linarith) (by linarith)
    rw [e, wrap, if_pos (by linarith)]; ring

/-- Two numbers with the same polar form have the same wrapped angle. -/
theorem wrap_eq_of_polar {r a x y : ℝ} (hr : 0 < r) (h : 0 ≤ a) (h' : a < 2 * π) (hx : x = r * cos a)
    (hy : y = r * sin a) : wrap (atan2 y x) = a := by
  rw [hx, hy]; exact wrap_atan2_polar hr h h'

theorem atan2_scale {r : ℝ} (hr : 0 < r) (y x : ℝ) : atan2 (r * y) (r * x) = atan2 y x := by
  unfold atan2
  rw [← Complex.arg_real_mul ⟨x, y⟩ hr]
  congr 1
  apply Complex.ext <;> simp

theorem hd_atan2 {x y : ℝ → ℝ} {x' y' t : ℝ} (hx : HasDerivAt x x' t) (hy : HasDerivAt y y' t)
    (h : 0 < x t ∨ y t ≠ 0) :
    HasDerivAt (fun s => atan2 (y s) (x s)) ((x t * y' - y t * x') / (x t ^ 2 + y t ^ 2)) t := by
  have hz : HasDerivAt (fun s => (⟨x s, y s⟩ : ℂ)) ⟨x', y'⟩ t := by
    have := (hx.ofReal_comp).add ((hy.ofReal_comp).mul_const Complex.I)
    have e : (fun s => (⟨x s, y s⟩ : ℂ)) = (fun s => (x s : ℂ)) + fun s => (y s : ℂ) * Complex.I := by
      funext s; apply Complex.ext <;> simp
    have e' : (⟨x', y'⟩ : ℂ) = x' + y' * Complex.I := by apply Complex.ext <;> simp
    rw [e, e']; exact this
  have hl := hz.clog_real (by simpa [Complex.mem_slitPlane_iff] using h)
  have := (Complex.imCLM.hasFDerivAt.comp_hasDerivAt t hl)
  have e : (Complex.imCLM ∘ fun s => Complex.log ⟨x s, y s⟩) = fun s => atan2 (y s) (x s) := by
    funext s; simp [Complex.log_im, atan2]
  rw [e] at this
  refine this.congr_deriv ?_
  simp [Complex.div_im, Complex.normSq_mk]
  ring

theorem wrap_atan2_eq {x y : ℝ} (h : x < 0 ∨ y ≠ 0) : wrap (atan2 y x) = π + atan2 (-y) (-x) := by
  have hp := Real.pi_pos
  unfold wrap atan2
  have e : (⟨-x, -y⟩ : ℂ) = -⟨x, y⟩ := by apply Complex.ext <;> simp
  rw [e]
  rcases lt_trichotomy y 0 with hy | hy | hy
  · rw [if_pos (Complex.arg_neg_iff.2 hy), Complex.arg_neg_eq_arg_add_pi_of_im_neg hy]; ring
  · subst hy
    have hx : x < 0 := h.resolve_right (by simp)
    have e1 : Complex.arg ⟨x, 0⟩ = π := Complex.arg_eq_pi_iff.2 ⟨hx, rfl⟩
    have e2 : Complex.arg (-⟨x, 0⟩) = 0 := Complex.arg_eq_zero_iff.2 ⟨by simpa using hx.le, by simp⟩
    rw [e1, e2, if_neg (by linarith)]; ring
  · rw [if_neg (not_lt.2 (Complex.arg_nonneg_iff.2 hy.le)), Complex.arg_neg_eq_arg_sub_pi_of_im_pos hy]; ring

theorem hd_wrap_atan2 {x y : ℝ → ℝ} {x' y' t : ℝ} (hx : HasDerivAt x x' t) (hy : HasDerivAt y y' t)
    (h : x t < 0 ∨ y t ≠ 0) :
    HasDerivAt (fun s => wrap (atan2 (y s) (x s))) ((x t * y' - y t * x') / (x t ^ 2 + y t ^ 2)) t := by
  have h1 : HasDerivAt (fun s => π + atan2 (-y s) (-x s)) ((x t * y' - y t * x') / (x t ^ 2 + y t ^ 2)) t := by
    have := (hd_atan2 hx.neg hy.neg (by simpa using h)).const_add π
    refine this.congr_deriv ?_
    simp [neg_sq]
  refine h1.congr_of_eventuallyEq ?_
  have hev : ∀ᶠ s in nhds t, x s < 0 ∨ y s ≠ 0 := by
    rcases h with h | h
    · exact (hx.continuousAt.eventually_lt continuousAt_const h).mono fun s hs => Or.inl hs
    · exact (hy.continuousAt.eventually_ne h).mono fun s hs => Or.inr hs
  exact hev.mono fun s hs => wrap_atan2_eq hs

theorem hd_arcsin {x : ℝ → ℝ} {x' t : ℝ} (hx : HasDerivAt x x' t) (h : x t ^ 2 < 1) :
    HasDerivAt (fun s => arcsin (x s)) (x' / sqrt (1 - x t ^ 2)) t := by
  have h1 : x t ≠ -1 := by rintro e; rw [e] at h; norm_num at h
  have h2 : x t ≠ 1 := by rintro e; rw [e] at h; norm_num at h
  refine ((Real.hasDerivAt_arcsin h1 h2).comp t hx).congr_deriv ?_
  ring

/-! ### Three dimensional vectors -/

theorem mulVec3 (T : Matrix (Fin 3) (Fin 3) ℝ) (v : Fin 3 → ℝ) (i : Fin 3) :
    T.mulVec v i = T i 0 * v 0 + T i 1 * v 1 + T i 2 * v 2 := by
  simp [Matrix.mulVec, dotProduct, Fin.sum_univ_three]

theorem vec_ext {u v : Fin 3 → ℝ} (h0 : u 0 = v 0) (h1 : u 1 = v 1) (h2 : u 2 = v 2) : u = v := by
  funext i; fin_cases i <;> assumption

theorem rot_rows {T : Matrix (Fin 3) (Fin 3) ℝ} (h : T * T.transpose = 1) (i j : Fin 3) :
    T i 0 * T j 0 + T i 1 * T j 1 + T i 2 * T j 2 = if i = j then 1 else 0 := by
  have := congrFun (congrFun h i) j
  simpa [Matrix.mul_apply, Fin.sum_univ_three, Matrix.one_apply] using this

theorem rot_cols {T : Matrix (Fin 3) (Fin 3) ℝ} (h : T * T.transpose = 1) (i j : Fin 3) :
    T 0 i * T 0 j + T 1 i * T 1 j + T 2 i * T 2 j = if i = j then 1 else 0 := by
  have h' : T.transpose * T = 1 := mul_eq_one_comm.1 h
  have := congrFun (congrFun h' i) j
  simpa [Matrix.mul_apply, Fin.sum_univ_three, Matrix.one_apply] using this

theorem rot_cross {T : Matrix (Fin 3) (Fin 3) ℝ} (h : Spec.IsRotation T) :
    T 2 0 = T 0 1 * T 1 2 - T 0 2 * T 1 1 ∧ T 2 1 = T 0 2 * T 1 0 - T 0 0 * T 1 2 ∧
      T 2 2 = T 0 0 * T 1 1 - T 0 1 * T 1 0 := by
  have e : T.adjugate = T.transpose := by
    calc T.adjugate = T.adjugate * (T * T.transpose) := by rw [h.1, mul_one]
      _ = (T.adjugate * T) * T.transpose := by rw [mul_assoc]
      _ = T.transpose := by rw [Matrix.adjugate_mul, h.2, one_smul, one_mul]
  rw [Matrix.adjugate_fin_three] at e
  have e0 := congrFun (congrFun e 0) 2
  have e1 := congrFun (congrFun e 1) 2
  have e2 := congrFun (congrFun e 2) 2
  simp at e0 e1 e2
  refine ⟨?_, ?_, ?_⟩ <;> linarith

theorem rot_transpose {T : Matrix (Fin 3) (Fin 3) ℝ} (h : Spec.IsRotation T) : Spec.IsRotation T.transpose :=
  ⟨by rw [Matrix.transpose_transpose]; exact mul_eq_one_comm.1 h.1, by rw [Matrix.det_transpose]; exact h.2⟩

theorem sq_mulVec {T : Matrix (Fin 3) (Fin 3) ℝ} (h : T * T.transpose = 1) (v : Fin 3 → ℝ) :
    Spec.sq (T.mulVec v) = Spec.sq v := by
  simp only [Spec.sq, mulVec3]
  have c := rot_cols h
  have c00 := c 0 0; have c11 := c 1 1; have c22 := c 2 2
  have c01 := c 0 1; have c02 := c 0 2; have c12 := c 1 2
  simp at c00 c11 c22 c01 c02 c12
  linear_combination v 0 ^ 2 * c00 + v 1 ^ 2 * c11 + v 2 ^ 2 * c22 + 2 * v 0 * v 1 * c01 +
    2 * v 0 * v 2 * c02 + 2 * v 1 * v 2 * c12

theorem sq_dir (a d : ℝ) : Spec.sq (Spec.dir a d) = 1 := by
  simp [Spec.sq, Spec.dir]
  linear_combination cos d ^ 2 * Real.sin_sq_add_cos_sq a + Real.sin_sq_add_cos_sq d

/-- The longitude and latitude read off a unit vector. -/
theorem dir_of_unit {v : Fin 3 → ℝ} (h : Spec.sq v = 1) :
    Spec.dir (wrap (atan2 (v 1) (v 0))) (arcsin (v 2)) = v := by
  have h2 : v 2 ^ 2 ≤ 1 := by unfold Spec.sq at h; nlinarith [sq_nonneg (v 0), sq_nonneg (v 1)]
  have h3 := abs_le_one_iff_mul_self_le_one.2 (by nlinarith : v 2 * v 2 ≤ 1)
  rw [abs_le] at h3
  have e : cos (arcsin (v 2)) = sqrt (v 0 ^ 2 + v 1 ^ 2) := by
    rw [Real.cos_arcsin]; congr 1; unfold Spec.sq at h; linarith
  apply vec_ext
  · simp only [Spec.dir, Matrix.cons_val_zero]; rw [e, cos_wrap, polar_cos]
  · simp only [Spec.dir, Matrix.cons_val_one, Matrix.cons_val_zero]; rw [e, sin_wrap, polar_sin]
  · simp [Spec.dir, Real.sin_arcsin h3.1 h3.2]

/-- Off the poles a direction determines longitude and latitude. -/
theorem dir_inj {a d : ℝ} {v : Fin 3 → ℝ} (h : v = Spec.dir a d) (ha : 0 ≤ a) (ha' : a < 2 * π)
    (hd : -(π / 2) < d) (hd' : d < π / 2) : wrap (atan2 (v 1) (v 0)) = a ∧ arcsin (v 2) = d := by
  subst h
  constructor
  · simpa [Spec.dir] using wrap_atan2_polar (Real.cos_pos_of_mem_Ioo ⟨hd, hd'⟩) ha ha'
  · simpa [Spec.dir] using Real.arcsin_sin hd.le hd'.le

/-! ### Rates on the sky -/

/-- Unnormalised cosine of the angle between the two meridians, for a pole `(rap, decp)`. -/
def kap (rap decp ra dec : ℝ) : ℝ := sin decp * cos dec - cos decp * sin dec * cos (ra - rap)
/-- Unnormalised sine. -/
def sig (rap decp ra : ℝ) : ℝ := sin (ra - rap) * cos decp
/-- Sine of the new latitude. -/
def newLat (rap decp ra dec : ℝ) : ℝ := cos decp * cos dec * cos (ra - rap) + sin decp * sin dec

theorem kap_sig (rap decp ra dec : ℝ) :
    kap rap decp ra dec ^ 2 + sig rap decp ra ^ 2 = 1 - newLat rap decp ra dec ^ 2 := by
  unfold kap sig newLat
  have h1 := Real.sin_sq_add_cos_sq decp
  have h2 := Real.sin_sq_add_cos_sq dec
  have h3 := Real.sin_sq_add_cos_sq (ra - rap)
  linear_combination (exp := 1) cos decp ^ 2 * h3 + (sin decp ^ 2 + cos decp ^ 2 * cos (ra - rap) ^ 2) * h2 + h1

section
variable {T : Matrix (Fin 3) (Fin 3) ℝ} {rap decp : ℝ} (hn : ∀ i, T 2 i = Spec.dir rap decp i)
include hn

theorem sky_lat (ra dec : ℝ) : T.mulVec (skyXYZ ra dec) 2 = newLat rap decp ra dec := by
  rw [mulVec3, hn, hn, hn]
  simp [Spec.dir, skyXYZ, newLat, Real.cos_sub]
  ring

theorem sky_norm (hT : Spec.IsRotation T) (ra dec : ℝ) :
    T.mulVec (skyXYZ ra dec) 0 ^ 2 + T.mulVec (skyXYZ ra dec) 1 ^ 2 = 1 - newLat rap decp ra dec ^ 2 := by
  have h := sq_mulVec hT.1 (skyXYZ ra dec)
  have h1 : Spec.sq (skyXYZ ra dec) = 1 := sq_dir ra dec
  rw [h1, Spec.sq, sky_lat hn] at h
  linarith

end

theorem hd_sky {T : Matrix (Fin 3) (Fin 3) ℝ} {ra dec : ℝ → ℝ} {ra' dec' t : ℝ} (hra : HasDerivAt ra ra' t)
    (hdec : HasDerivAt dec dec' t) (i : Fin 3) :
    HasDerivAt (fun s => T.mulVec (skyXYZ (ra s) (dec s)) i)
      (T i 0 * (-sin (dec t) * dec' * cos (ra t) + cos (dec t) * (-sin (ra t) * ra')) +
        T i 1 * (-sin (dec t) * dec' * sin (ra t) + cos (dec t) * (cos (ra t) * ra')) +
        T i 2 * (cos (dec t) * dec')) t := by
  simp only [mulVec3, skyXYZ, Matrix.cons_val_zero, Matrix.cons_val_one, Matrix.cons_val]
  apply HasDerivAt.congr_deriv
  · hasderiv
  · ring

/-- The rate of the new longitude times the square of the cosine of the new latitude. -/
theorem cross_rate {T : Matrix (Fin 3) (Fin 3) ℝ} {rap decp : ℝ} (hn : ∀ i, T 2 i = Spec.dir rap decp i)
    (hT : Spec.IsRotation T) (ra dec ra' dec' : ℝ) :
    T.mulVec (skyXYZ ra dec) 0 *
        (T 1 0 * (-sin dec * dec' * cos ra + cos dec * (-sin ra * ra')) +
          T 1 1 * (-sin dec * dec' * sin ra + cos dec * (cos ra * ra')) + T 1 2 * (cos dec * dec')) -
      T.mulVec (skyXYZ ra dec) 1 *
        (T 0 0 * (-sin dec * dec' * cos ra + cos dec * (-sin ra * ra')) +
          T 0 1 * (-sin dec * dec' * sin ra + cos dec * (cos ra * ra')) + T 0 2 * (cos dec * dec')) =
      kap rap decp ra dec * (cos dec * ra') + sig rap decp ra * dec' := by
  obtain ⟨c0, c1, c2⟩ := rot_cross hT
  rw [hn] at c0 c1 c2
  simp only [Spec.dir, Matrix.cons_val_zero, Matrix.cons_val_one, Matrix.cons_val] at c0 c1 c2
  simp only [mulVec3, skyXYZ, Matrix.cons_val_zero, Matrix.cons_val_one, Matrix.cons_val, kap, sig, Real.cos_sub,
    Real.sin_sub]
  have h1 := Real.sin_sq_add_cos_sq ra
  have h2 := Real.sin_sq_add_cos_sq dec
  generalize T 0 0 = a at *; generalize T 0 1 = b at *; generalize T 0 2 = c at *
  generalize T 1 0 = d at *; generalize T 1 1 = e at *; generalize T 1 2 = f at *
  generalize cos ra = ca at *; generalize sin ra = sa at *
  generalize cos dec = cd at *; generalize sin dec = sd at *
  linear_combination (exp := 1) -(cd * sa * (cd * dec') - sd * (-sd * dec' * sa + cd * (ca * ra'))) * c0 -
    (sd * (-sd * dec' * ca + cd * (-sa * ra')) - cd * ca * (cd * dec')) * c1 -
    (cd * ca * (-sd * dec' * sa + cd * (ca * ra')) - cd * sa * (-sd * dec' * ca + cd * (-sa * ra'))) * c2 +
    (sin decp * cd ^ 2 * ra') * h1 + (cos decp * cos rap * sa * dec' - cos decp * sin rap * ca * dec') * h2

/-- The rate of the sine of the new latitude. -/
theorem lat_rate {T : Matrix (Fin 3) (Fin 3) ℝ} {rap decp : ℝ} (hn : ∀ i, T 2 i = Spec.dir rap decp i)
    (ra dec ra' dec' : ℝ) :
    T 2 0 * (-sin dec * dec' * cos ra + cos dec * (-sin ra * ra')) +
          T 2 1 * (-sin dec * dec' * sin ra + cos dec * (cos ra * ra')) + T 2 2 * (cos dec * dec') =
      -sig rap decp ra * (cos dec * ra') + kap rap decp ra dec * dec' := by
  rw [hn, hn, hn]
  simp only [Spec.dir, Matrix.cons_val_zero, Matrix.cons_val_one, Matrix.cons_val, kap, sig, Real.cos_sub,
    Real.sin_sub]
  ring

theorem hd_newlon {T : Matrix (Fin 3) (Fin 3) ℝ} {rap decp : ℝ} (hn : ∀ i, T 2 i = Spec.dir rap decp i)
    (hT : Spec.IsRotation T) {ra dec : ℝ → ℝ} {ra' dec' t : ℝ} (hra : HasDerivAt ra ra' t)
    (hdec : HasDerivAt dec dec' t)
    (hc : T.mulVec (skyXYZ (ra t) (dec t)) 0 < 0 ∨ T.mulVec (skyXYZ (ra t) (dec t)) 1 ≠ 0) :
    HasDerivAt (fun s => wrap (atan2 (T.mulVec (skyXYZ (ra s) (dec s)) 1) (T.mulVec (skyXYZ (ra s) (dec s)) 0)))
      ((kap rap decp (ra t) (dec t) * (cos (dec t) * ra') + sig rap decp (ra t) * dec') /
        (1 - newLat rap decp (ra t) (dec t) ^ 2)) t := by
  refine (hd_wrap_atan2 (hd_sky hra hdec 0) (hd_sky hra hdec 1) hc).congr_deriv ?_
  rw [sky_norm hn hT, cross_rate hn hT]

theorem hd_newlat {T : Matrix (Fin 3) (Fin 3) ℝ} {rap decp : ℝ} (hn : ∀ i, T 2 i = Spec.dir rap decp i)
    {ra dec : ℝ → ℝ} {ra' dec' t : ℝ} (hra : HasDerivAt ra ra' t) (hdec : HasDerivAt dec dec' t)
    (hp : newLat rap decp (ra t) (dec t) ^ 2 < 1) :
    HasDerivAt (fun s => arcsin (T.mulVec (skyXYZ (ra s) (dec s)) 2))
      ((-sig rap decp (ra t) * (cos (dec t) * ra') + kap rap decp (ra t) (dec t) * dec') /
        sqrt (1 - newLat rap decp (ra t) (dec t) ^ 2)) t := by
  refine (hd_arcsin (hd_sky hra hdec 2) (by rwa [sky_lat hn])).congr_deriv ?_
  rw [sky_lat hn, lat_rate hn]

/-- Rates of any longitude and latitude that follow a rotated direction. -/
theorem rates_of_dir {T : Matrix (Fin 3) (Fin 3) ℝ} {rap decp : ℝ} (hn : ∀ i, T 2 i = Spec.dir rap decp i)
    (hT : Spec.IsRotation T) {ra dec l b : ℝ → ℝ} {ra' dec' l' b' t : ℝ} (hra : HasDerivAt ra ra' t)
    (hdec : HasDerivAt dec dec' t) (hl : HasDerivAt l l' t) (hb : HasDerivAt b b' t)
    (h : ∀ s, Spec.dir (l s) (b s) = T.mulVec (skyXYZ (ra s) (dec s))) :
    cos (b t) ^ 2 = kap rap decp (ra t) (dec t) ^ 2 + sig rap decp (ra t) ^ 2 ∧
      cos (b t) ^ 2 * l' = kap rap decp (ra t) (dec t) * (cos (dec t) * ra') + sig rap decp (ra t) * dec' ∧
      cos (b t) * b' = -sig rap decp (ra t) * (cos (dec t) * ra') + kap rap decp (ra t) (dec t) * dec' := by
  have e0 : (fun s => Spec.dir (l s) (b s) 0) = fun s => T.mulVec (skyXYZ (ra s) (dec s)) 0 := by
    funext s; rw [h]
  have e1 : (fun s => Spec.dir (l s) (b s) 1) = fun s => T.mulVec (skyXYZ (ra s) (dec s)) 1 := by
    funext s; rw [h]
  have e2 : (fun s => Spec.dir (l s) (b s) 2) = fun s => T.mulVec (skyXYZ (ra s) (dec s)) 2 := by
    funext s; rw [h]
  have d0 := hd_sky (T := T) hra hdec 0
  have d1 := hd_sky (T := T) hra hdec 1
  have d2 := hd_sky (T := T) hra hdec 2
  rw [← e0] at d0; rw [← e1] at d1; rw [← e2] at d2
  have f0 : HasDerivAt (fun s => Spec.dir (l s) (b s) 0)
      (-sin (b t) * b' * cos (l t) + cos (b t) * (-sin (l t) * l')) t := by
    simp only [Spec.dir, Matrix.cons_val_zero]; hasderiv
  have f1 : HasDerivAt (fun s => Spec.dir (l s) (b s) 1)
      (-sin (b t) * b' * sin (l t) + cos (b t) * (cos (l t) * l')) t := by
    simp only [Spec.dir, Matrix.cons_val_zero, Matrix.cons_val_one]; hasderiv
  have f2 : HasDerivAt (fun s => Spec.dir (l s) (b s) 2) (cos (b t) * b') t := by
    simp only [Spec.dir, Matrix.cons_val]; hasderiv
  have u0 := d0.unique f0
  have u1 := d1.unique f1
  have u2 := d2.unique f2
  rw [lat_rate hn] at u2
  have hc := cross_rate hn hT (ra t) (dec t) ra' dec'
  have v0 := congrFun e0 t
  have v1 := congrFun e1 t
  have v2 := congrFun e2 t
  rw [u0, u1, ← v0, ← v1] at hc
  rw [sky_lat hn] at v2
  refine ⟨?_, ?_, u2.symm⟩
  · rw [kap_sig, ← v2, Real.cos_sq']; simp [Spec.dir]
  · rw [← hc]
    simp only [Spec.dir, Matrix.cons_val_zero, Matrix.cons_val_one]
    linear_combination (-cos (b t) ^ 2 * l') * Real.sin_sq_add_cos_sq (l t)

theorem skyXYZ_eq : skyXYZ = Spec.dir := rfl

theorem unit_dot {u n : Fin 3 → ℝ} (hu : Spec.sq u = 1) (hn : Spec.sq n = 1) (h : u ≠ n) (h' : u ≠ -n) :
    (u 0 * n 0 + u 1 * n 1 + u 2 * n 2) ^ 2 < 1 := by
  set c := u 0 * n 0 + u 1 * n 1 + u 2 * n 2 with hc
  have pos : ∀ v : Fin 3 → ℝ, v ≠ 0 → 0 < Spec.sq v := by
    intro v hv
    by_contra hle
    unfold Spec.sq at hle
    have h0 : v 0 = 0 := by nlinarith [sq_nonneg (v 0), sq_nonneg (v 1), sq_nonneg (v 2)]
    have h1 : v 1 = 0 := by nlinarith [sq_nonneg (v 0), sq_nonneg (v 1), sq_nonneg (v 2)]
    have h2 : v 2 = 0 := by nlinarith [sq_nonneg (v 0), sq_nonneg (v 1), sq_nonneg (v 2)]
    exact hv (vec_ext h0 h1 h2)
  have a := pos (u - n) (sub_ne_zero.2 h)
  have b := pos (u + n) (by intro e; exact h' (eq_neg_of_add_eq_zero_left e))
  unfold Spec.sq at a b hu hn
  simp only [Pi.sub_apply, Pi.add_apply] at a b
  have a' : c < 1 := by rw [hc]; nlinarith
  have b' : -1 < c := by rw [hc]; nlinarith
  nlinarith

/-- `newLat` is the product of the two directions. -/
theorem newLat_lt {rap decp ra dec : ℝ} (h : Spec.dir ra dec ≠ Spec.dir rap decp)
    (h' : Spec.dir ra dec ≠ -Spec.dir rap decp) : newLat rap decp ra dec ^ 2 < 1 := by
  have := unit_dot (sq_dir ra dec) (sq_dir rap decp) h h'
  convert this using 2
  simp [newLat, Spec.dir, Real.cos_sub]; ring

theorem wrap_atan2_ne {y x : ℝ} (h : wrap (atan2 y x) ≠ 0) : x < 0 ∨ y ≠ 0 := by
  by_contra hc
  push Not at hc
  obtain ⟨hx, hy⟩ := hc
  subst hy
  apply h
  have : atan2 0 x = 0 := Complex.arg_eq_zero_iff.2 ⟨hx, rfl⟩
  rw [this, wrap, if_neg (lt_irrefl _)]

/-! ### The two matrices -/

theorem rot_mul {A B : Matrix (Fin 3) (Fin 3) ℝ} (hA : A * A.transpose = 1) (hB : B * B.transpose = 1) :
    (A * B) * (A * B).transpose = 1 := by
  rw [Matrix.transpose_mul]
  calc A * B * (B.transpose * A.transpose) = A * (B * B.transpose) * A.transpose := by simp only [mul_assoc]
    _ = 1 := by rw [hB, mul_one, hA]

theorem radecT_rotation (e : Epoch) : Spec.IsRotation (radecT e) := by
  have h1 := Real.sin_sq_add_cos_sq e.theta
  have h2 := Real.sin_sq_add_cos_sq e.dec_ngp
  have h3 := Real.sin_sq_add_cos_sq e.ra_ngp
  constructor
  · refine rot_mul ?_ (rot_mul ?_ ?_) <;> ext i j <;> fin_cases i <;> fin_cases j <;>
      simp [Matrix.mul_apply, Fin.sum_univ_three, Matrix.one_apply] <;> nlinarith
  · simp only [radecT, Matrix.det_mul, Matrix.det_fin_three]
    simp
    linear_combination (sin e.dec_ngp ^ 2 + cos e.dec_ngp ^ 2) * (cos e.ra_ngp ^ 2 + sin e.ra_ngp ^ 2) * h1 +
      (cos e.ra_ngp ^ 2 + sin e.ra_ngp ^ 2) * h2 + h3

theorem lbT_eq (e : Epoch) : lbT e = (radecT e).transpose := by
  ext i j
  fin_cases i <;> fin_cases j <;> simp [lbT, radecT, Matrix.mul_apply, Fin.sum_univ_three] <;> ring

theorem radecT_row (e : Epoch) (i : Fin 3) : radecT e 2 i = Spec.dir e.ra_ngp e.dec_ngp i := by
  fin_cases i <;> simp [radecT, Matrix.mul_apply, Fin.sum_univ_three, Spec.dir]

theorem radecT_col (e : Epoch) (i : Fin 3) : radecT e i 2 = Spec.dir e.theta e.dec_ngp i := by
  fin_cases i <;> simp [radecT, Matrix.mul_apply, Fin.sum_univ_three, Spec.dir] <;> ring

theorem radecT_frame (e : Epoch) : Spec.IsFrame e.theta e.ra_ngp e.dec_ngp (radecT e) where
  rotation := radecT_rotation e
  newPole := by
    have h := radecT_rotation e
    have r : ∀ i, (radecT e).mulVec (Spec.dir e.ra_ngp e.dec_ngp) i = if i = 2 then 1 else 0 := by
      intro i
      rw [mulVec3, ← radecT_row, ← radecT_row, ← radecT_row, rot_rows h.1]
    apply vec_ext <;> rw [r] <;> simp
  oldPole := by
    funext i; rw [mulVec3, ← radecT_col]; simp

/-- Off the pole the clipping and the divisions do nothing. -/
theorem radec_to_lb_eq (e : Epoch) (ra dec : ℝ) (h : newLat e.ra_ngp e.dec_ngp ra dec ^ 2 < 1) :
    radec_to_lb e ra dec = radec_to_custom (radecT e) ra dec := by
  simp only [radec_to_lb, radec_to_custom]
  have h2 := sky_lat (radecT_row e) ra dec
  generalize (radecT e).mulVec (skyXYZ ra dec) = g at *
  have e2 : g 2 ^ 2 < 1 := by rwa [h2]
  have l1 : ¬ 1 < g 2 := by nlinarith
  have l2 : ¬ g 2 < -1 := by nlinarith
  rw [if_neg l1, if_neg l2]
  have hc : 0 < cos (arcsin (g 2)) := by rw [Real.cos_arcsin]; exact Real.sqrt_pos.2 (by linarith)
  rw [div_eq_inv_mul, div_eq_inv_mul, atan2_scale (inv_pos.2 hc)]

theorem lb_to_radec_eq (e : Epoch) (l b : ℝ) : lb_to_radec e l b = radec_to_custom (radecT e).transpose l b := by
  simp only [lb_to_radec, radec_to_custom, lbT_eq]

theorem custom_dir {T : Matrix (Fin 3) (Fin 3) ℝ} (h : T * T.transpose = 1) (ra dec : ℝ) :
    Spec.dir (radec_to_custom T ra dec).1 (radec_to_custom T ra dec).2 = T.mulVec (Spec.dir ra dec) := by
  have := dir_of_unit (v := T.mulVec (Spec.dir ra dec)) (by rw [sq_mulVec h, sq_dir])
  exact this

theorem custom_range (T : Matrix (Fin 3) (Fin 3) ℝ) (ra dec : ℝ) :
    (0 ≤ (radec_to_custom T ra dec).1 ∧ (radec_to_custom T ra dec).1 < 2 * π) ∧
      -(π / 2) ≤ (radec_to_custom T ra dec).2 ∧ (radec_to_custom T ra dec).2 ≤ π / 2 :=
  ⟨wrap_atan2_mem _ _, Real.neg_pi_div_two_le_arcsin _, Real.arcsin_le_pi_div_two _⟩

theorem custom_inverse {T : Matrix (Fin 3) (Fin 3) ℝ} (h : T * T.transpose = 1) {ra dec l b : ℝ}
    (hd : Spec.dir l b = T.mulVec (Spec.dir ra dec)) (h1 : 0 ≤ ra) (h2 : ra < 2 * π) (h3 : -(π / 2) < dec)
    (h4 : dec < π / 2) : radec_to_custom T.transpose l b = (ra, dec) := by
  have ht : T.transpose * T = 1 := mul_eq_one_comm.1 h
  have e : T.transpose.mulVec (skyXYZ l b) = Spec.dir ra dec := by
    rw [skyXYZ_eq, hd, Matrix.mulVec_mulVec, ht, Matrix.one_mulVec]
  have := dir_inj e h1 h2 h3 h4
  simp only [radec_to_custom, this.1, this.2]

/-- The tangent vector with components `x` to the east and `y` to the north. -/
def tangent (ra dec x y : ℝ) : Fin 3 → ℝ :=
  ![-sin ra * x - sin dec * cos ra * y, cos ra * x - sin dec * sin ra * y, cos dec * y]

theorem tangent_inj {ra dec x y x' y' : ℝ} (h : tangent ra dec x y = tangent ra dec x' y') : x = x' ∧ y = y' := by
  have h0 := congrFun h 0
  have h1 := congrFun h 1
  have h2 := congrFun h 2
  simp [tangent] at h0 h1 h2
  have a := Real.sin_sq_add_cos_sq ra
  have b := Real.sin_sq_add_cos_sq dec
  refine ⟨?_, ?_⟩
  · linear_combination -sin ra * h0 + cos ra * h1 - (x - x') * a
  · have h2' : cos dec * y = cos dec * y' := by
      rcases h2 with h2 | h2 <;> simp [h2]
    linear_combination -sin dec * cos ra * h0 - sin dec * sin ra * h1 + cos dec * h2' - (y - y') * b -
      sin dec ^ 2 * (y - y') * a

/-- A rotation turns tangent vectors by the angle of `kap` and `sig`. -/
theorem tangent_rot {T : Matrix (Fin 3) (Fin 3) ℝ} {rap decp : ℝ} (hn : ∀ i, T 2 i = Spec.dir rap decp i)
    (hT : Spec.IsRotation T) {ra dec l b : ℝ} (x y : ℝ) (hb : 0 < cos b)
    (h : Spec.dir l b = T.mulVec (Spec.dir ra dec)) :
    cos b ^ 2 = kap rap decp ra dec ^ 2 + sig rap decp ra ^ 2 ∧
    T.mulVec (tangent ra dec x y) = tangent l b ((kap rap decp ra dec * x + sig rap decp ra * y) / cos b)
      ((-sig rap decp ra * x + kap rap decp ra dec * y) / cos b) := by
  have w0 := congrFun h 0
  have w1 := congrFun h 1
  have w2 := congrFun h 2
  rw [mulVec3] at w0 w1 w2
  have hcos : cos b ^ 2 = kap rap decp ra dec ^ 2 + sig rap decp ra ^ 2 := by
    rw [kap_sig, ← sky_lat hn, skyXYZ_eq, ← h, Real.cos_sq']; simp [Spec.dir]
  refine ⟨hcos, ?_⟩
  have z : T.mulVec (tangent ra dec x y) 2 = -sig rap decp ra * x + kap rap decp ra dec * y := by
    rw [mulVec3, hn, hn, hn]
    simp only [tangent, Spec.dir, Matrix.cons_val_zero, Matrix.cons_val_one, Matrix.cons_val, kap, sig,
      Real.cos_sub, Real.sin_sub]
    ring
  have cr : Spec.dir l b 0 * T.mulVec (tangent ra dec x y) 1 - Spec.dir l b 1 * T.mulVec (tangent ra dec x y) 0 =
      kap rap decp ra dec * x + sig rap decp ra * y := by
    rw [w0, w1, mulVec3, mulVec3]
    obtain ⟨c0, c1, c2⟩ := rot_cross hT
    rw [hn] at c0 c1 c2
    simp only [Spec.dir, Matrix.cons_val_zero, Matrix.cons_val_one, Matrix.cons_val] at c0 c1 c2
    simp only [tangent, Spec.dir, Matrix.cons_val_zero, Matrix.cons_val_one, Matrix.cons_val, kap, sig,
      Real.cos_sub, Real.sin_sub]
    have h1 := Real.sin_sq_add_cos_sq ra
    have h2 := Real.sin_sq_add_cos_sq dec
    generalize T 0 0 = a at *; generalize T 0 1 = b at *; generalize T 0 2 = c at *
    generalize T 1 0 = d at *; generalize T 1 1 = e at *; generalize T 1 2 = f at *
    generalize cos ra = ca at *; generalize sin ra = sa at *
    generalize cos dec = cd at *; generalize sin dec = sd at *
    linear_combination (exp := 1) -(cd * sa * (cd * y) - sd * (-sd * y * sa + (ca * x))) * c0 -
      (sd * (-sd * y * ca + (-sa * x)) - cd * ca * (cd * y)) * c1 -
      (cd * ca * (-sd * y * sa + (ca * x)) - cd * sa * (-sd * y * ca + (-sa * x))) * c2 +
      (sin decp * cd * x) * h1 + (cos decp * cos rap * sa * y - cos decp * sin rap * ca * y) * h2
  have orth : Spec.dir l b 0 * T.mulVec (tangent ra dec x y) 0 + Spec.dir l b 1 * T.mulVec (tangent ra dec x y) 1 +
      Spec.dir l b 2 * T.mulVec (tangent ra dec x y) 2 = 0 := by
    have c := rot_cols hT.1
    have c00 := c 0 0; have c11 := c 1 1; have c22 := c 2 2
    have c01 := c 0 1; have c02 := c 0 2; have c12 := c 1 2
    simp at c00 c11 c22 c01 c02 c12
    rw [w0, w1, w2, mulVec3, mulVec3, mulVec3]
    have t0 : Spec.dir ra dec 0 * tangent ra dec x y 0 + Spec.dir ra dec 1 * tangent ra dec x y 1 +
        Spec.dir ra dec 2 * tangent ra dec x y 2 = 0 := by
      simp only [tangent, Spec.dir, Matrix.cons_val_zero, Matrix.cons_val_one, Matrix.cons_val]
      linear_combination (-cos dec * sin dec * y) * Real.sin_sq_add_cos_sq ra
    generalize Spec.dir ra dec 0 = u0 at *; generalize Spec.dir ra dec 1 = u1 at *
    generalize Spec.dir ra dec 2 = u2 at *
    generalize tangent ra dec x y 0 = v0 at *; generalize tangent ra dec x y 1 = v1 at *
    generalize tangent ra dec x y 2 = v2 at *
    linear_combination u0 * v0 * c00 + u1 * v1 * c11 + u2 * v2 * c22 + (u0 * v1 + u1 * v0) * c01 +
      (u0 * v2 + u2 * v0) * c02 + (u1 * v2 + u2 * v1) * c12 + t0
  generalize T.mulVec (tangent ra dec x y) = W at *
  simp only [Spec.dir, Matrix.cons_val_zero, Matrix.cons_val_one, Matrix.cons_val] at cr orth
  have sl := Real.sin_sq_add_cos_sq l
  have sb := Real.sin_sq_add_cos_sq b
  have hcr : -sin l * W 0 + cos l * W 1 = (kap rap decp ra dec * x + sig rap decp ra * y) / cos b := by
    rw [eq_div_iff hb.ne']; linarith
  have hor : cos l * W 0 + sin l * W 1 = -(sin b * W 2) / cos b := by
    rw [eq_div_iff hb.ne']; linarith
  have hbb : cos b / cos b = 1 := div_self hb.ne'
  rw [← hcr, ← z]
  apply vec_ext
  · simp only [tangent, Matrix.cons_val_zero]
    have : sin b * cos l * (W 2 / cos b) = -cos l * (cos l * W 0 + sin l * W 1) := by rw [hor]; ring
    rw [this]; linear_combination -W 0 * sl
  · simp only [tangent, Matrix.cons_val_zero, Matrix.cons_val_one]
    have : sin b * sin l * (W 2 / cos b) = -sin l * (cos l * W 0 + sin l * W 1) := by rw [hor]; ring
    rw [this]; linear_combination -W 1 * sl
  · simp only [tangent, Matrix.cons_val]
    field_simp

/-- The pole found by `custom_to_radec(0, pi/2)` is the third row. -/
theorem custom_pole {T : Matrix (Fin 3) (Fin 3) ℝ} (h : T * T.transpose = 1) (i : Fin 3) :
    T 2 i = Spec.dir (custom_to_radec T 0 (π / 2)).1 (custom_to_radec T 0 (π / 2)).2 i := by
  have ht : T.transpose * T.transpose.transpose = 1 := by
    rw [Matrix.transpose_transpose]; exact mul_eq_one_comm.1 h
  rw [custom_to_radec, custom_dir ht, mulVec3]
  simp [Spec.dir]

end Verif.Coords
