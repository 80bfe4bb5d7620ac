import Verif.Lemmas.Coords
import Verif.Props.C25
import Verif.Props.C26
import Verif.Props.C27

set_option autoImplicit false

/-!
# C29: the Jacobian functions

`Spec.IsJacobian f x J`: along every curve through `x` that has a velocity, `f` has the velocity given by `J`.
-/

noncomputable section
namespace Verif
open Real Coords

/-- `cyl_to_rect_jac` at every point, for `(R, vR, vT, Z, vZ, phi)` to `(x, y, z, vx, vy, vz)`. -/
theorem C29_cyl_to_rect (q : Fin 6 → ℝ) :
    Spec.IsJacobian (fun q : Fin 6 → ℝ => galcencyl_to_galcenrect (q 0) (q 1) (q 2) (q 3) (q 4) (q 5)) q
      (cyl_to_rect_jac (q 0) (q 1) (q 2) (q 3) (q 4) (q 5)) := by
  intro c c' t hc h i
  subst hc
  have h0 := h 0; have h1 := h 1; have h2 := h 2; have h3 := h 3; have h4 := h 4; have h5 := h 5
  fin_cases i <;> simp [galcencyl_to_galcenrect, cyl_to_rect, cyl_to_rect_vec, cyl_to_rect_jac, Fin.sum_univ_six] <;>
    (apply HasDerivAt.congr_deriv
     · hasderiv
     · ring)

/-- With three arguments, `(R, phi, Z)` to `(x, y, z)`. -/
theorem C29_cyl_to_rect_position (q : Fin 3 → ℝ) :
    Spec.IsJacobian (fun q : Fin 3 → ℝ => ![(cyl_to_rect (q 0) (q 1) (q 2)).1, (cyl_to_rect (q 0) (q 1) (q 2)).2.1,
      (cyl_to_rect (q 0) (q 1) (q 2)).2.2]) q (cyl_to_rect_jac3 (q 0) (q 1) (q 2)) := by
  intro c c' t hc h i
  subst hc
  have h0 := h 0; have h1 := h 1; have h2 := h 2
  fin_cases i <;> simp [cyl_to_rect, cyl_to_rect_jac, cyl_to_rect_jac3, Fin.sum_univ_three] <;>
    (apply HasDerivAt.congr_deriv
     · hasderiv
     · ring)

/-- Positions and velocities of `galcenrect_to_XYZ` and `galcenrect_to_vxvyvz` together. -/
def C29aux.galcenToSun (E : Option (Matrix (Fin 3) (Fin 3) ℝ)) (vsun : Fin 3 → ℝ) (Xsun Zsun : ℝ)
    (q : Fin 6 → ℝ) : Fin 6 → ℝ :=
  let x := galcenrect_to_XYZ E Xsun Zsun ![q 0, q 1, q 2];
  let v := galcenrect_to_vxvyvz E vsun Xsun Zsun ![q 3, q 4, q 5];
  ![x 0, x 1, x 2, v 0, v 1, v 2]

/-- `galcenrect_to_XYZ_jac` at every point, without the additional rotation. -/
theorem C29_galcenrect_to_XYZ (Xsun Zsun : ℝ) (vsun : Fin 3 → ℝ) (q : Fin 6 → ℝ) :
    Spec.IsJacobian (C29aux.galcenToSun none vsun Xsun Zsun) q (galcenrect_to_XYZ_jac Xsun Zsun) := by
  intro c c' t hc h i
  have h0 := h 0; have h1 := h 1; have h2 := h 2; have h3 := h 3; have h4 := h 4; have h5 := h 5
  fin_cases i <;> simp only [C29aux.galcenToSun, galcenrect_to_XYZ, galcenrect_to_vxvyvz, rotT, Pi.add_apply,
    mulVec3] <;> simp [gcRinv, galcenrect_to_XYZ_jac, Fin.sum_univ_six] <;>
    (apply HasDerivAt.congr_deriv
     · hasderiv
     · ring)

/-! ### Spherical Galactic coordinates -/

/-- `lbd_to_XYZ` and `vrpmllpmbb_to_vxvyvz` together, of `(l, b, D, vlos, pmll, pmbb)`. -/
def C29aux.galRect (K : ℝ) (degree : Bool) (q : Fin 6 → ℝ) : Fin 6 → ℝ := fun i =>
  (degreeDecorator [0, 1] [] lbd_to_XYZ_list degree [q 0, q 1, q 2] [] ++
    degreeDecorator [3, 4] [] (vrpmllpmbb_to_vxvyvz_list K) degree [q 3, q 4, q 5, q 0, q 1, q 2] []).getD i 0

/-- `lbd_to_XYZ_jac` at every point, in radians and in degrees. -/
theorem C29_lbd_to_XYZ (K : ℝ) (degree : Bool) (q : Fin 6 → ℝ) :
    Spec.IsJacobian (C29aux.galRect K degree) q
      (lbd_to_XYZ_jac K degree (q 0) (q 1) (q 2) (q 3) (q 4) (q 5)) := by
  intro c c' t hc h i
  subst hc
  have h0 := h 0; have h1 := h 1; have h2 := h 2; have h3 := h 3; have h4 := h 4; have h5 := h 5
  cases degree <;> fin_cases i <;> simp [C29aux.galRect, degreeDecorator, lbd_to_XYZ_list,
    vrpmllpmbb_to_vxvyvz_list, lbd_to_XYZ, vrpmllpmbb_to_vxvyvz, lbR, List.ofFn_succ,
    lbd_to_XYZ_jac, scaleCols, DEGTORAD, Fin.sum_univ_six] <;>
    (apply HasDerivAt.congr_deriv
     · hasderiv
     · try simp only [mul_div_assoc]
       ring)

/-- `XYZ_to_lbd` and `vxvyvz_to_vrpmllpmbb` with `XYZ=True` together, of `(X, Y, Z, vX, vY, vZ)`. -/
def C29aux.rectGal (K : ℝ) (degree : Bool) (q : Fin 6 → ℝ) : Fin 6 → ℝ := fun i =>
  (degreeDecorator [] [0, 1] XYZ_to_lbd_list degree [q 0, q 1, q 2] [] ++
    List.ofFn (vxvyvz_to_vrpmllpmbb_XYZ K (q 3) (q 4) (q 5) (q 0) (q 1) (q 2))).getD i 0

/-- Block triangular systems. -/
theorem C29aux.block_inv {P P1 Q M M1 : Matrix (Fin 3) (Fin 3) ℝ} (hP : P * P1 = 1) (hM : M * M1 = 1)
    {u w x v : Fin 3 → ℝ} (hx : x = P1.mulVec u) (hv : v = Q.mulVec u + M1.mulVec w) :
    P.mulVec x = u ∧ (-M * Q * P).mulVec x + M.mulVec v = w := by
  have h1 : P.mulVec x = u := by rw [hx, Matrix.mulVec_mulVec, hP, Matrix.one_mulVec]
  refine ⟨h1, ?_⟩
  rw [← Matrix.mulVec_mulVec, h1, hv, Matrix.mulVec_add, Matrix.mulVec_mulVec, Matrix.mulVec_mulVec, hM,
    Matrix.one_mulVec, neg_mul, Matrix.neg_mulVec]
  abel

theorem C29aux.P_inv {D cb sb cl sl : ℝ} (hD : 0 < D) (hb : 0 < cb) (h1 : sl ^ 2 + cl ^ 2 = 1)
    (h2 : sb ^ 2 + cb ^ 2 = 1) : XYZ_to_lbd_P D cb sb cl sl *
      !![-D * cb * sl, -D * sb * cl, cb * cl; D * cb * cl, -D * sb * sl, cb * sl; 0, D * cb, sb] = 1 := by
  ext i j
  fin_cases i <;> fin_cases j <;>
    simp [Matrix.mul_apply, Fin.sum_univ_three, Matrix.one_apply, XYZ_to_lbd_P, hb.ne'] <;> field_simp <;> grind

theorem C29aux.M_inv {K D cb sb cl sl : ℝ} (hK : K ≠ 0) (hD : 0 < D) (h1 : sl ^ 2 + cl ^ 2 = 1)
    (h2 : sb ^ 2 + cb ^ 2 = 1) : XYZ_to_lbd_M (K * D) cb sb cl sl *
      !![cl * cb, -sl * K * D, -cl * sb * K * D; sl * cb, cl * K * D, -sl * sb * K * D; sb, 0, cb * K * D] = 1 := by
  ext i j
  fin_cases i <;> fin_cases j <;>
    simp [Matrix.mul_apply, Fin.sum_univ_three, Matrix.one_apply, XYZ_to_lbd_M, hD.ne', hK] <;> field_simp <;> grind

/-- In radians. -/
theorem C29aux.XYZ_to_lbd_rad (K : ℝ) (hK : K ≠ 0) (q : Fin 6 → ℝ) (h : q 0 < 0 ∨ q 1 ≠ 0) :
    Spec.IsJacobian (C29aux.rectGal K false) q
      (XYZ_to_lbd_jac K false (q 0) (q 1) (q 2) (q 3) (q 4) (q 5)) := by
  intro c c' t hc hd i
  subst hc
  have h0 := hd 0; have h1 := hd 1; have h2 := hd 2; have h3 := hd 3; have h4 := hd 4; have h5 := hd 5
  have hr2 : 0 < c t 0 ^ 2 + c t 1 ^ 2 := by
    rcases h with h | h
    · have := h.ne; positivity
    · positivity
  have hD2 : 0 < c t 0 ^ 2 + c t 1 ^ 2 + c t 2 ^ 2 := by positivity
  have hDp := Real.sqrt_pos.2 hD2
  have hDD := Real.sq_sqrt hD2.le
  -- the sky coordinates of the curve have velocities
  obtain ⟨l, hl⟩ : ∃ l : ℝ → ℝ, l = fun s => XYZ_to_lbd (c s 0) (c s 1) (c s 2) 0 := ⟨_, rfl⟩
  obtain ⟨b, hb⟩ : ∃ b : ℝ → ℝ, b = fun s => XYZ_to_lbd (c s 0) (c s 1) (c s 2) 1 := ⟨_, rfl⟩
  obtain ⟨d, hdd⟩ : ∃ d : ℝ → ℝ, d = fun s => XYZ_to_lbd (c s 0) (c s 1) (c s 2) 2 := ⟨_, rfl⟩
  obtain ⟨l', dl⟩ : ∃ l', HasDerivAt l l' t := by rw [hl]; exact ⟨_, hd_wrap_atan2 h0 h1 h⟩
  obtain ⟨d', dd⟩ : ∃ d', HasDerivAt d d' t := by
    rw [hdd]
    exact ⟨_, hd_sqrt (hd_add (hd_add (hd_pow 2 h0) (hd_pow 2 h1)) (hd_pow 2 h2)) hD2.ne'⟩
  have hdt : d t = sqrt (c t 0 ^ 2 + c t 1 ^ 2 + c t 2 ^ 2) := by rw [hdd]; rfl
  have hd0 : 0 < d t := by rw [hdt]; exact hDp
  obtain ⟨b', db⟩ : ∃ b', HasDerivAt b b' t := by
    have e : b = fun s => arcsin (c s 2 / d s) := by rw [hb, hdd]; rfl
    rw [e]
    refine ⟨_, hd_arcsin (hd_div h2 dd hd0.ne') ?_⟩
    rw [div_pow, hdt, hDD, div_lt_one hD2]; linarith
  obtain ⟨w, hw⟩ : ∃ w : ℝ → Fin 3 → ℝ, w = fun s => vxvyvz_to_vrpmllpmbb K (c s 3) (c s 4) (c s 5) (l s) (b s) (d s) :=
    ⟨_, rfl⟩
  obtain ⟨w', dw⟩ : ∃ w' : Fin 3 → ℝ, ∀ i, HasDerivAt (fun s => w s i) (w' i) t := by
    refine ⟨fun i => deriv (fun s => w s i) t, fun i => DifferentiableAt.hasDerivAt ?_⟩
    have dl := dl.differentiableAt
    have db := db.differentiableAt
    have dd := dd.differentiableAt
    have h3 := h3.differentiableAt
    have h4 := h4.differentiableAt
    have h5 := h5.differentiableAt
    have hn : d t * K ≠ 0 := mul_ne_zero hd0.ne' hK
    rw [hw]
    fin_cases i <;> simp only [vxvyvz_to_vrpmllpmbb, Matrix.cons_val_zero, Matrix.cons_val_one, Matrix.cons_val,
      Matrix.of_apply, Fin.zero_eta, Fin.mk_one, Fin.reduceFinMk] <;> fun_prop (disch := assumption)
  -- the curve is the image of its sky coordinates
  have hback := C29_lbd_to_XYZ K false ![l t, b t, d t, w t 0, w t 1, w t 2]
    (fun s => ![l s, b s, d s, w s 0, w s 1, w s 2]) ![l', b', d', w' 0, w' 1, w' 2] t rfl (by
      intro i; fin_cases i
      · exact dl
      · exact db
      · exact dd
      · exact dw 0
      · exact dw 1
      · exact dw 2)
  have hev : ∀ᶠ s in nhds t, ∀ i, C29aux.galRect K false ![l s, b s, d s, w s 0, w s 1, w s 2] i = c s i := by
    have hc : ContinuousAt (fun s => c s 0 ^ 2 + c s 1 ^ 2) t := by
      have c0 := h0.continuousAt
      have c1 := h1.continuousAt
      fun_prop
    refine (continuousAt_const.eventually_lt hc hr2).mono fun s hs => ?_
    have hne : (![c s 0, c s 1, c s 2] : Fin 3 → ℝ) ≠ 0 := by
      intro e
      have e0 := congrFun e 0
      have e1 := congrFun e 1
      simp at e0 e1
      rw [e0, e1] at hs; norm_num at hs
    obtain ⟨k1, k2, k3, -⟩ := C26_round_trip_rectangular _ hne
    simp only [Matrix.cons_val_zero, Matrix.cons_val_one, Matrix.cons_val] at k1 k3
    have k4 := C26_velocity_round_trip_rectangular K (c s 3) (c s 4) (c s 5) (l s) (b s) (d s) hK (by
      rw [hdd]; exact k3.ne')
    have k5 : lbd_to_XYZ (l s) (b s) (d s) = ![c s 0, c s 1, c s 2] := by rw [hl, hb, hdd]; exact k1
    have k6 : vrpmllpmbb_to_vxvyvz K (w s 0) (w s 1) (w s 2) (l s) (b s) (d s) = ![c s 3, c s 4, c s 5] := by
      rw [hw]; exact k4
    intro i
    fin_cases i <;> simp [C29aux.galRect, degreeDecorator, lbd_to_XYZ_list, vrpmllpmbb_to_vxvyvz_list, k5, k6,
      List.ofFn_succ]
  have hlin : ∀ i, c' i = ∑ j, lbd_to_XYZ_jac K false (l t) (b t) (d t) (w t 0) (w t 1) (w t 2) i j *
      ![l', b', d', w' 0, w' 1, w' 2] j := fun i =>
    ((hd i).congr_of_eventuallyEq (hev.mono fun s hs => hs i)).unique (hback i)
  -- the values the code computes from the position
  have hx := fun i => hev.self_of_nhds i
  have x0 := hx 0; have x1 := hx 1; have x2 := hx 2
  simp [C29aux.galRect, degreeDecorator, lbd_to_XYZ_list, lbd_to_XYZ, List.ofFn_succ] at x0 x1 x2
  have hcl := Real.sin_sq_add_cos_sq (l t)
  have hcb := Real.sin_sq_add_cos_sq (b t)
  have hcbp : 0 < cos (b t) := by
    have h1 : 0 ≤ cos (b t) := by
      rw [hb]
      exact Real.cos_nonneg_of_mem_Icc ⟨Real.neg_pi_div_two_le_arcsin _, Real.arcsin_le_pi_div_two _⟩
    rcases h1.lt_or_eq with h1 | h1
    · exact h1
    · rw [← x0, ← x1, ← h1] at hr2; norm_num at hr2
  have hw0 : w t = vxvyvz_to_vrpmllpmbb K (c t 3) (c t 4) (c t 5) (l t) (b t) (d t) := by rw [hw]
  have hval : ∀ s j, C29aux.rectGal K false (c s) j = ![l s, b s, d s, w s 0, w s 1, w s 2] j := by
    intro s j
    fin_cases j <;> simp [C29aux.rectGal, degreeDecorator, XYZ_to_lbd_list, vxvyvz_to_vrpmllpmbb_XYZ, hw, hl, hb,
      hdd, List.ofFn_succ]
  have hR : sqrt (c t 0 * c t 0 + c t 1 * c t 1) = d t * cos (b t) := by
    rw [← x0, ← x1, show d t * cos (b t) * cos (l t) * (d t * cos (b t) * cos (l t)) +
      d t * cos (b t) * sin (l t) * (d t * cos (b t) * sin (l t)) = (d t * cos (b t)) ^ 2 by
        linear_combination (d t * cos (b t)) ^ 2 * hcl]
    exact Real.sqrt_sq (by positivity)
  have hD : sqrt (c t 0 * c t 0 + c t 1 * c t 1 + c t 2 * c t 2) = d t := by
    rw [hdt]; congr 1; ring
  have hJ : XYZ_to_lbd_jac K false (c t 0) (c t 1) (c t 2) (c t 3) (c t 4) (c t 5) =
      blocks (XYZ_to_lbd_P (d t) (cos (b t)) (sin (b t)) (cos (l t)) (sin (l t)))
        (-XYZ_to_lbd_M (K * d t) (cos (b t)) (sin (b t)) (cos (l t)) (sin (l t)) *
          XYZ_to_lbd_Q K (d t) (cos (b t)) (sin (b t)) (cos (l t)) (sin (l t)) (c t 3) (c t 4) (c t 5) *
          XYZ_to_lbd_P (d t) (cos (b t)) (sin (b t)) (cos (l t)) (sin (l t)))
        (XYZ_to_lbd_M (K * d t) (cos (b t)) (sin (b t)) (cos (l t)) (sin (l t))) := by
    have e1 : d t * cos (b t) / d t = cos (b t) := by field_simp
    have e2 : c t 2 / d t = sin (b t) := by rw [← x2]; field_simp
    have e3 : c t 0 / (d t * cos (b t)) = cos (l t) := by rw [← x0]; field_simp
    have e4 : c t 1 / (d t * cos (b t)) = sin (l t) := by rw [← x1]; field_simp
    have e5 : ¬ d t * cos (b t) = 0 := by positivity
    simp only [XYZ_to_lbd_jac, Bool.false_eq_true, if_false, hR, hD, e1, e2, e3, e4, if_neg e5]
  have hsum := C29aux.block_inv (P := XYZ_to_lbd_P (d t) (cos (b t)) (sin (b t)) (cos (l t)) (sin (l t)))
    (P1 := !![-d t * cos (b t) * sin (l t), -d t * sin (b t) * cos (l t), cos (b t) * cos (l t);
      d t * cos (b t) * cos (l t), -d t * sin (b t) * sin (l t), cos (b t) * sin (l t);
      0, d t * cos (b t), sin (b t)])
    (Q := XYZ_to_lbd_Q K (d t) (cos (b t)) (sin (b t)) (cos (l t)) (sin (l t)) (c t 3) (c t 4) (c t 5))
    (M := XYZ_to_lbd_M (K * d t) (cos (b t)) (sin (b t)) (cos (l t)) (sin (l t)))
    (M1 := !![cos (l t) * cos (b t), -sin (l t) * K * d t, -cos (l t) * sin (b t) * K * d t;
      sin (l t) * cos (b t), cos (l t) * K * d t, -sin (l t) * sin (b t) * K * d t;
      sin (b t), 0, cos (b t) * K * d t])
    (u := ![l', b', d']) (w := w') (x := ![c' 0, c' 1, c' 2]) (v := ![c' 3, c' 4, c' 5])
    (C29aux.P_inv hd0 hcbp hcl hcb) (C29aux.M_inv hK hd0 hcl hcb)
    (by
      apply vec_ext <;> rw [mulVec3] <;> simp [hlin, lbd_to_XYZ_jac, Fin.sum_univ_six])
    (by
      have hn : ¬ K * d t = 0 := by positivity
      apply vec_ext <;> rw [Pi.add_apply, mulVec3, mulVec3] <;>
        simp only [hlin, lbd_to_XYZ_jac, Fin.sum_univ_six, XYZ_to_lbd_Q, hw0, vxvyvz_to_vrpmllpmbb] <;>
        simp [hK, hd0.ne'] <;> field_simp <;> ring)
  obtain ⟨hp, hv⟩ := hsum
  have p0 := congrFun hp 0; have p1 := congrFun hp 1; have p2 := congrFun hp 2
  have v0 := congrFun hv 0; have v1 := congrFun hv 1; have v2 := congrFun hv 2
  rw [mulVec3] at p0 p1 p2
  rw [Pi.add_apply, mulVec3, mulVec3] at v0 v1 v2
  rw [hJ]
  generalize XYZ_to_lbd_P (d t) (cos (b t)) (sin (b t)) (cos (l t)) (sin (l t)) = P at *
  generalize XYZ_to_lbd_M (K * d t) (cos (b t)) (sin (b t)) (cos (l t)) (sin (l t)) = M at *
  generalize -M * XYZ_to_lbd_Q K (d t) (cos (b t)) (sin (b t)) (cos (l t)) (sin (l t)) (c t 3) (c t 4) (c t 5) * P =
    B at *
  simp only [Matrix.cons_val_zero, Matrix.cons_val_one, Matrix.cons_val] at p0 p1 p2 v0 v1 v2
  have key : ∀ i, ∑ j, blocks P B M i j * c' j = ![l', b', d', w' 0, w' 1, w' 2] i := by
    intro i
    fin_cases i <;> simp [blocks, Fin.sum_univ_six] <;> linarith
  rw [key]
  simp only [hval]
  fin_cases i
  · exact dl
  · exact db
  · exact dd
  · exact dw 0
  · exact dw 1
  · exact dw 2

/-- `XYZ_to_lbd_jac` off the axis and off the jump of the longitude, in radians and in degrees. -/
theorem C29_XYZ_to_lbd (K : ℝ) (hK : K ≠ 0) (degree : Bool) (q : Fin 6 → ℝ) (h : q 0 < 0 ∨ q 1 ≠ 0) :
    Spec.IsJacobian (C29aux.rectGal K degree) q
      (XYZ_to_lbd_jac K degree (q 0) (q 1) (q 2) (q 3) (q 4) (q 5)) := by
  cases degree with
  | false => exact C29aux.XYZ_to_lbd_rad K hK q h
  | true =>
    intro c c' t hc hd i
    have hr := C29aux.XYZ_to_lbd_rad K hK q h c c' t hc hd i
    have e1 : ∀ q, C29aux.rectGal K true q i =
        C29aux.rectGal K false q i * (if i = 0 ∨ i = 1 then 1 / DEGTORAD else 1) := by
      intro q
      fin_cases i <;> simp [C29aux.rectGal, degreeDecorator, XYZ_to_lbd_list, List.ofFn_succ, DEGTORAD]
    have e2 : ∀ j, XYZ_to_lbd_jac K true (q 0) (q 1) (q 2) (q 3) (q 4) (q 5) i j =
        XYZ_to_lbd_jac K false (q 0) (q 1) (q 2) (q 3) (q 4) (q 5) i j *
          (if i = 0 ∨ i = 1 then 1 / DEGTORAD else 1) := by
      intro j
      simp only [XYZ_to_lbd_jac, if_true, Bool.false_eq_true, if_false, scaleRows]
      split_ifs <;> simp
    simp only [e1, e2]
    refine (hr.mul_const _).congr_deriv ?_
    rw [Finset.sum_mul]
    exact Finset.sum_congr rfl fun j _ => by ring

/-! ### Galactocentric cylindrical coordinates -/

/-- `galcenrect_to_galcencyl_jac` for `(x, y, z, vx, vy, vz)` to `(R, vR, vT, z, vz, phi)`, off the axis and
off the jump of the azimuth. -/
theorem C29_galcenrect_to_galcencyl (q : Fin 6 → ℝ) (h : 0 < q 0 ∨ q 1 ≠ 0) :
    Spec.IsJacobian (fun q : Fin 6 → ℝ =>
      let x := rect_to_cyl (q 0) (q 1) (q 2);
      let v := rect_to_cyl_vec (q 3) (q 4) (q 5) (q 0) (q 1) (q 2);
      ![x.1, v.1, v.2.1, x.2.2, v.2.2, x.2.1]) q
      (galcenrect_to_galcencyl_jac (q 0) (q 1) (q 3) (q 4)) := by
  intro c c' t hc hd i
  subst hc
  have h0 := hd 0; have h1 := hd 1; have h2 := hd 2; have h3 := hd 3; have h4 := hd 4; have h5 := hd 5
  have hr2 : 0 < c t 0 ^ 2 + c t 1 ^ 2 := by
    rcases h with h | h <;> positivity
  have hR := Real.sqrt_pos.2 hr2
  have hRR := Real.sq_sqrt hr2.le
  have e1 : c t 0 * c t 0 + c t 1 * c t 1 = c t 0 ^ 2 + c t 1 ^ 2 := by ring
  have dp := hd_atan2 h0 h1 h
  have dR := hd_sqrt (hd_add (hd_pow 2 h0) (hd_pow 2 h1)) hr2.ne'
  have xp := polar_cos (c t 0) (c t 1)
  have yp := polar_sin (c t 0) (c t 1)
  have hcs := Real.sin_sq_add_cos_sq (atan2 (c t 1) (c t 0))
  simp only [rect_to_cyl, rect_to_cyl_vec]
  obtain ⟨phi, hphi⟩ : ∃ phi : ℝ → ℝ, phi = fun s => atan2 (c s 1) (c s 0) := ⟨_, rfl⟩
  have hpt : phi t = atan2 (c t 1) (c t 0) := by rw [hphi]
  have hps : ∀ s, atan2 (c s 1) (c s 0) = phi s := fun s => by rw [hphi]
  simp only [hps] at dp xp yp hcs ⊢
  rw [← hRR] at dp
  fin_cases i <;> simp [galcenrect_to_galcencyl_jac, Fin.sum_univ_six, e1, hR.ne']
  · refine dR.congr_deriv ?_
    field_simp; ring
  · apply HasDerivAt.congr_deriv
    · hasderiv
    · generalize sqrt (c t 0 ^ 2 + c t 1 ^ 2) = R at *
      rw [show cos (phi t) = c t 0 / R by field_simp; linarith, show sin (phi t) = c t 1 / R by field_simp; linarith]
      field_simp; ring
  · apply HasDerivAt.congr_deriv
    · hasderiv
    · generalize sqrt (c t 0 ^ 2 + c t 1 ^ 2) = R at *
      rw [show cos (phi t) = c t 0 / R by field_simp; linarith, show sin (phi t) = c t 1 / R by field_simp; linarith]
      field_simp; ring
  · exact h2
  · exact h5
  · refine dp.congr_deriv ?_
    generalize sqrt (c t 0 ^ 2 + c t 1 ^ 2) = R at *
    field_simp; ring

/-! ### Sky coordinates -/

/-- Rate of a normalised pair. -/
theorem C29aux.hd_norm {k m : ℝ → ℝ} {k' m' t : ℝ} (hk : HasDerivAt k k' t) (hm : HasDerivAt m m' t)
    (hp : 0 < k t ^ 2 + m t ^ 2) :
    HasDerivAt (fun s => k s / sqrt (k s ^ 2 + m s ^ 2))
        (-(m t / sqrt (k t ^ 2 + m t ^ 2)) * ((k t * m' - m t * k') / (k t ^ 2 + m t ^ 2))) t ∧
      HasDerivAt (fun s => m s / sqrt (k s ^ 2 + m s ^ 2))
        ((k t / sqrt (k t ^ 2 + m t ^ 2)) * ((k t * m' - m t * k') / (k t ^ 2 + m t ^ 2))) t := by
  have hR := Real.sqrt_pos.2 hp
  have hRR := Real.sq_sqrt hp.le
  constructor
  all_goals
    apply HasDerivAt.congr_deriv
    · hasderiv
      · exact hp.ne'
      · exact hR.ne'
    · generalize sqrt (k t ^ 2 + m t ^ 2) = R at *
      rw [← hRR]; field_simp
      rw [hRR]; ring

theorem C29aux.hd_kap {rap decp : ℝ} {ra dec : ℝ → ℝ} {ra' dec' t : ℝ} (hra : HasDerivAt ra ra' t)
    (hdec : HasDerivAt dec dec' t) :
    HasDerivAt (fun s => kap rap decp (ra s) (dec s))
        (cos decp * sin (dec t) * sin (ra t - rap) * ra' +
          (-sin decp * sin (dec t) - cos decp * cos (dec t) * cos (ra t - rap)) * dec') t ∧
      HasDerivAt (fun s => sig rap decp (ra s)) (cos decp * cos (ra t - rap) * ra') t := by
  constructor <;> (simp only [kap, sig]; apply HasDerivAt.congr_deriv; hasderiv; ring)

/-- The part common to both sky conversions. -/
def C29aux.inDeg (q : Fin 6 → ℝ) : Fin 6 → ℝ := ![q 0 * π / 180, q 1 * π / 180, q 2, q 3, q 4, q 5]

/-- From radians to degrees. -/
theorem C29aux.degree_sky {f : Bool → (Fin 6 → ℝ) → Fin 6 → ℝ} {J : Matrix (Fin 6) (Fin 6) ℝ} {q : Fin 6 → ℝ}
    (hf : ∀ q i, f true q i = f false (C29aux.inDeg q) i * (if i = 0 ∨ i = 1 then 180 / π else 1))
    (hJ : Spec.IsJacobian (f false) (C29aux.inDeg q) J)
    (h0 : ∀ i j : Fin 6, (i = 0 ∨ i = 1) → (j ≠ 0 ∧ j ≠ 1) → J i j = 0)
    (h1 : ∀ i j : Fin 6, (i = 2 ∨ i = 5) → (j = 0 ∨ j = 1) → J i j = 0) :
    Spec.IsJacobian (f true) q (scaleBlock DEGTORAD J) := by
  intro c c' t hc hd i
  subst hc
  have h := hJ (fun s => C29aux.inDeg (c s)) (C29aux.inDeg c') t rfl (by
    intro i
    fin_cases i <;> simp [C29aux.inDeg]
    · exact ((hd 0).mul_const π).div_const 180
    · exact ((hd 1).mul_const π).div_const 180
    · exact hd 2
    · exact hd 3
    · exact hd 4
    · exact hd 5) i
  simp only [hf]
  refine (h.mul_const _).congr_deriv ?_
  have hpi := Real.pi_pos
  fin_cases i <;> simp [Fin.sum_univ_six, C29aux.inDeg, scaleBlock, h0, h1, DEGTORAD] <;> (try field_simp) <;> (try ring)

/-- `lb_to_radec` and `pmllpmbb_to_pmrapmdec` together, of `(l, b, D, pmll, pmbb, vlos)`. -/
def C29aux.galSky (e : Epoch) (degree : Bool) (q : Fin 6 → ℝ) : Fin 6 → ℝ := fun i =>
  (degreeDecorator [0, 1] [0, 1] (lb_to_radec_list e) degree [q 0, q 1] [] ++ [q 2] ++
    degreeDecorator [2, 3] [] (pmllpmbb_to_pmrapmdec_list e) degree [q 3, q 4, q 0, q 1] [] ++ [q 5]).getD i 0

theorem C29aux.galsky_rad (e : Epoch) (q : Fin 6 → ℝ) (hb1 : -(π / 2) < q 1) (hb2 : q 1 < π / 2)
    (hra : (lb_to_radec e (q 0) (q 1)).1 ≠ 0) (hpole : cos (lb_to_radec e (q 0) (q 1)).2 ≠ 0)
    (hd : (lb_to_radec e (q 0) (q 1)).2 ≠ e.dec_ngp) :
    Spec.IsJacobian (C29aux.galSky e false) q (galsky_to_sky_jac e e false (q 0) (q 1) (q 3) (q 4)) := by
  intro c c' t hc h i
  subst hc
  have h0 := h 0; have h1 := h 1; have h2 := h 2; have h3 := h 3; have h4 := h 4; have h5 := h 5
  obtain ⟨r1, r2⟩ := C25_proper_motion_galactic e h0 h1 hb1 hb2 hra hpole hd
  obtain ⟨ra, era⟩ : ∃ ra : ℝ → ℝ, ra = fun s => (lb_to_radec e (c s 0) (c s 1)).1 := ⟨_, rfl⟩
  obtain ⟨dec, edec⟩ : ∃ dec : ℝ → ℝ, dec = fun s => (lb_to_radec e (c s 0) (c s 1)).2 := ⟨_, rfl⟩
  have era' : ∀ s, (lb_to_radec e (c s 0) (c s 1)).1 = ra s := fun s => by rw [era]
  have edec' : ∀ s, (lb_to_radec e (c s 0) (c s 1)).2 = dec s := fun s => by rw [edec]
  have hpos := (C25aux.offPole_of_lb e (c t 0) (c t 1) hb1 hb2).2
  simp only [pmllpmbb_to_pmrapmdec, era', edec'] at r1 r2 hpole hd hpos
  rw [C25aux.pmAngles_eq hd] at r1 r2
  simp only at r1 r2
  have hks := kap_sig e.ra_ngp e.dec_ngp (ra t) (dec t)
  have hN : 0 < kap e.ra_ngp e.dec_ngp (ra t) (dec t) ^ 2 + sig e.ra_ngp e.dec_ngp (ra t) ^ 2 := by
    rw [hks]; linarith
  obtain ⟨k1, k2⟩ := C29aux.hd_kap (rap := e.ra_ngp) (decp := e.dec_ngp) r1 r2
  obtain ⟨n1, n2⟩ := C29aux.hd_norm k1 k2 hN
  have hev : ∀ᶠ s in nhds t, dec s ≠ e.dec_ngp := r2.continuousAt.eventually_ne hd
  have hw := Real.sqrt_pos.2 hN
  fin_cases i <;> simp [C29aux.galSky, degreeDecorator, lb_to_radec_list, pmllpmbb_to_pmrapmdec_list,
    galsky_to_sky_jac, Fin.sum_univ_six, era', edec', pmllpmbb_to_pmrapmdec]
  · refine r1.congr_deriv ?_
    simp only [kap, sig, ← sq]
    ring
  · refine r2.congr_deriv ?_
    simp only [kap, sig, ← sq]
    ring
  · exact h2
  · refine HasDerivAt.congr_of_eventuallyEq (f := fun s =>
      kap e.ra_ngp e.dec_ngp (ra s) (dec s) / sqrt (kap e.ra_ngp e.dec_ngp (ra s) (dec s) ^ 2 +
        sig e.ra_ngp e.dec_ngp (ra s) ^ 2) * c s 3 +
      -(sig e.ra_ngp e.dec_ngp (ra s) / sqrt (kap e.ra_ngp e.dec_ngp (ra s) (dec s) ^ 2 +
        sig e.ra_ngp e.dec_ngp (ra s) ^ 2) * c s 4)) ?_ (hev.mono fun s hs => by
          simp only [C25aux.pmAngles_eq hs])
    refine ((n1.mul h3).add (n2.mul h4).neg).congr_deriv ?_
    simp only [kap, sig, ← sq]
    ring
  · refine HasDerivAt.congr_of_eventuallyEq (f := fun s =>
      sig e.ra_ngp e.dec_ngp (ra s) / sqrt (kap e.ra_ngp e.dec_ngp (ra s) (dec s) ^ 2 +
        sig e.ra_ngp e.dec_ngp (ra s) ^ 2) * c s 3 +
      kap e.ra_ngp e.dec_ngp (ra s) (dec s) / sqrt (kap e.ra_ngp e.dec_ngp (ra s) (dec s) ^ 2 +
        sig e.ra_ngp e.dec_ngp (ra s) ^ 2) * c s 4) ?_ (hev.mono fun s hs => by
          simp only [C25aux.pmAngles_eq hs])
    refine ((n2.mul h3).add (n1.mul h4)).congr_deriv ?_
    simp only [kap, sig, ← sq]
    ring
  · exact h5

/-- `galsky_to_sky_jac` for the default epoch, in radians and in degrees: off the Galactic poles, the celestial
poles, the jump at `ra = 0` and the declination of the Galactic pole. -/
theorem C29_galsky_to_sky (e : Epoch) (degree : Bool) (q : Fin 6 → ℝ) :
    let k : ℝ := if degree then π / 180 else 1;
    -(π / 2) < q 1 * k → q 1 * k < π / 2 → (lb_to_radec e (q 0 * k) (q 1 * k)).1 ≠ 0 →
    cos (lb_to_radec e (q 0 * k) (q 1 * k)).2 ≠ 0 → (lb_to_radec e (q 0 * k) (q 1 * k)).2 ≠ e.dec_ngp →
    Spec.IsJacobian (C29aux.galSky e degree) q (galsky_to_sky_jac e e degree (q 0) (q 1) (q 3) (q 4)) := by
  intro k h1 h2 h3 h4 h5
  cases degree with
  | false =>
    simp only [k, Bool.false_eq_true, if_false, mul_one] at h1 h2 h3 h4 h5
    exact C29aux.galsky_rad e q h1 h2 h3 h4 h5
  | true =>
    simp only [k, if_true] at h1 h2 h3 h4 h5
    have e0 : ∀ x : ℝ, x * π / 180 = x * (π / 180) := fun x => by ring
    have := C29aux.galsky_rad e (C29aux.inDeg q) (by simpa [C29aux.inDeg, e0] using h1)
      (by simpa [C29aux.inDeg, e0] using h2) (by simpa [C29aux.inDeg, e0] using h3)
      (by simpa [C29aux.inDeg, e0] using h4) (by simpa [C29aux.inDeg, e0] using h5)
    have key := C29aux.degree_sky (f := C29aux.galSky e) (q := q) (by
      intro q i
      fin_cases i <;> simp [C29aux.galSky, C29aux.inDeg, degreeDecorator, lb_to_radec_list,
        pmllpmbb_to_pmrapmdec_list]) this
      (by
        intro i j hi hj
        rcases hi with rfl | rfl <;> fin_cases j <;> simp [galsky_to_sky_jac] at hj ⊢)
      (by
        intro i j hi hj
        rcases hi with rfl | rfl <;> rcases hj with rfl | rfl <;> simp [galsky_to_sky_jac])
    have e1 : galsky_to_sky_jac e e true (q 0) (q 1) (q 3) (q 4) = scaleBlock DEGTORAD
        (galsky_to_sky_jac e e false (C29aux.inDeg q 0) (C29aux.inDeg q 1) (C29aux.inDeg q 3) (C29aux.inDeg q 4)) := by
      simp only [galsky_to_sky_jac, if_true, Bool.false_eq_true, if_false, C29aux.inDeg, DEGTORAD, e0,
        Matrix.cons_val_zero, Matrix.cons_val_one, Matrix.cons_val]
    rw [e1]
    exact key

/-- `radec_to_custom` and `pmrapmdec_to_custom` together, of `(ra, dec, D, pmra, pmdec, vlos)`. -/
def C29aux.customSky (T : Matrix (Fin 3) (Fin 3) ℝ) (degree : Bool) (q : Fin 6 → ℝ) : Fin 6 → ℝ := fun i =>
  (degreeDecorator [0, 1] [0, 1] (radec_to_custom_list T) degree [q 0, q 1] [] ++ [q 2] ++
    degreeDecorator [2, 3] [] (pmrapmdec_to_custom_list T) degree [q 3, q 4, q 0, q 1] [] ++ [q 5]).getD i 0

theorem C29aux.custom_rad (T : Matrix (Fin 3) (Fin 3) ℝ) (hT : Spec.IsRotation T) (q : Fin 6 → ℝ)
    (hp : cos (radec_to_custom T (q 0) (q 1)).2 ≠ 0) (hl : (radec_to_custom T (q 0) (q 1)).1 ≠ 0)
    (hd : q 1 ≠ (custom_to_radec T 0 (π / 2)).2) :
    Spec.IsJacobian (C29aux.customSky T false) q (sky_to_customsky_jac T false (q 0) (q 1) (q 3) (q 4)) := by
  intro c c' t hc h i
  subst hc
  have h0 := h 0; have h1 := h 1; have h2 := h 2; have h3 := h 3; have h4 := h 4; have h5 := h 5
  obtain ⟨r1, r2⟩ := C25_custom_proper_motion T hT h0 h1 hp hl hd
  have hb : cos (radec_to_custom T (c t 0) (c t 1)).2 ^ 2 =
      1 - newLat (custom_to_radec T 0 (π / 2)).1 (custom_to_radec T 0 (π / 2)).2 (c t 0) (c t 1) ^ 2 := by
    have hn := custom_pole hT.1
    simp only [radec_to_custom, sky_lat hn, Real.cos_arcsin]
    rw [Real.sq_sqrt]
    have := sky_norm hn hT (c t 0) (c t 1)
    rw [← this]; positivity
  have hpos : 0 < cos (radec_to_custom T (c t 0) (c t 1)).2 ^ 2 := by positivity
  simp only [pmrapmdec_to_custom, C25aux.pmAngles_eq hd] at r1 r2
  have hev : ∀ᶠ s in nhds t, c s 1 ≠ (custom_to_radec T 0 (π / 2)).2 := h1.continuousAt.eventually_ne hd
  generalize hrap : (custom_to_radec T 0 (π / 2)).1 = rap at *
  generalize hdecp : (custom_to_radec T 0 (π / 2)).2 = decp at *
  have hks := kap_sig rap decp (c t 0) (c t 1)
  have hN : 0 < kap rap decp (c t 0) (c t 1) ^ 2 + sig rap decp (c t 0) ^ 2 := by
    rw [hks, ← hb]; exact hpos
  obtain ⟨k1, k2⟩ := C29aux.hd_kap (rap := rap) (decp := decp) h0 h1
  obtain ⟨n1, n2⟩ := C29aux.hd_norm k1 k2 hN
  have hw := Real.sqrt_pos.2 hN
  fin_cases i <;> simp [C29aux.customSky, degreeDecorator, radec_to_custom_list, pmrapmdec_to_custom_list,
    sky_to_customsky_jac, Fin.sum_univ_six, pmrapmdec_to_custom, hrap, hdecp]
  · refine r1.congr_deriv ?_
    simp only [kap, sig, ← sq]
    ring
  · refine r2.congr_deriv ?_
    simp only [kap, sig, ← sq]
    ring
  · exact h2
  · refine HasDerivAt.congr_of_eventuallyEq (f := fun s =>
      kap rap decp (c s 0) (c s 1) / sqrt (kap rap decp (c s 0) (c s 1) ^ 2 + sig rap decp (c s 0) ^ 2) * c s 3 +
      sig rap decp (c s 0) / sqrt (kap rap decp (c s 0) (c s 1) ^ 2 + sig rap decp (c s 0) ^ 2) * c s 4) ?_
        (hev.mono fun s hs => by simp only [C25aux.pmAngles_eq hs])
    refine ((n1.mul h3).add (n2.mul h4)).congr_deriv ?_
    simp only [kap, sig, ← sq]
    ring
  · refine HasDerivAt.congr_of_eventuallyEq (f := fun s =>
      -(sig rap decp (c s 0) / sqrt (kap rap decp (c s 0) (c s 1) ^ 2 + sig rap decp (c s 0) ^ 2) * c s 3) +
      kap rap decp (c s 0) (c s 1) / sqrt (kap rap decp (c s 0) (c s 1) ^ 2 + sig rap decp (c s 0) ^ 2) * c s 4) ?_
        (hev.mono fun s hs => by simp only [C25aux.pmAngles_eq hs])
    refine ((n2.mul h3).neg.add (n1.mul h4)).congr_deriv ?_
    simp only [kap, sig, ← sq]
    ring
  · exact h5

/-- `sky_to_customsky_jac` for every rotation, in radians and in degrees. -/
theorem C29_sky_to_customsky (T : Matrix (Fin 3) (Fin 3) ℝ) (hT : Spec.IsRotation T) (degree : Bool)
    (q : Fin 6 → ℝ) :
    let k : ℝ := if degree then π / 180 else 1;
    cos (radec_to_custom T (q 0 * k) (q 1 * k)).2 ≠ 0 → (radec_to_custom T (q 0 * k) (q 1 * k)).1 ≠ 0 →
    q 1 * k ≠ (custom_to_radec T 0 (π / 2)).2 →
    Spec.IsJacobian (C29aux.customSky T degree) q (sky_to_customsky_jac T degree (q 0) (q 1) (q 3) (q 4)) := by
  intro k h1 h2 h3
  cases degree with
  | false =>
    simp only [k, Bool.false_eq_true, if_false, mul_one] at h1 h2 h3
    exact C29aux.custom_rad T hT q h1 h2 h3
  | true =>
    simp only [k, if_true] at h1 h2 h3
    have e0 : ∀ x : ℝ, x * π / 180 = x * (π / 180) := fun x => by ring
    have := C29aux.custom_rad T hT (C29aux.inDeg q) (by simpa [C29aux.inDeg, e0] using h1)
      (by simpa [C29aux.inDeg, e0] using h2) (by simpa [C29aux.inDeg, e0] using h3)
    have key := C29aux.degree_sky (f := C29aux.customSky T) (q := q) (by
      intro q i
      fin_cases i <;> simp [C29aux.customSky, C29aux.inDeg, degreeDecorator, radec_to_custom_list,
        pmrapmdec_to_custom_list]) this
      (by
        intro i j hi hj
        rcases hi with rfl | rfl <;> fin_cases j <;> simp [sky_to_customsky_jac] at hj ⊢)
      (by
        intro i j hi hj
        rcases hi with rfl | rfl <;> rcases hj with rfl | rfl <;> simp [sky_to_customsky_jac])
    have e1 : sky_to_customsky_jac T true (q 0) (q 1) (q 3) (q 4) = scaleBlock DEGTORAD
        (sky_to_customsky_jac T false (C29aux.inDeg q 0) (C29aux.inDeg q 1) (C29aux.inDeg q 3)
          (C29aux.inDeg q 4)) := by
      simp only [sky_to_customsky_jac, if_true, Bool.false_eq_true, if_false, C29aux.inDeg, DEGTORAD, e0,
        Matrix.cons_val_zero, Matrix.cons_val_one, Matrix.cons_val]
    rw [e1]
    exact key

/-! ### Where the Jacobians are wrong -/

/-- With the additional rotation, which is on by default in the conversions, `galcenrect_to_XYZ_jac` is not their
Jacobian: at no point, whenever the rotation is not the identity. -/
theorem C29_extra_rot_fails (E : Matrix (Fin 3) (Fin 3) ℝ) (hE : E ≠ 1) (vsun : Fin 3 → ℝ) (Xsun Zsun : ℝ)
    (hX : Xsun ≠ 0) (q : Fin 6 → ℝ) :
    ¬ Spec.IsJacobian (C29aux.galcenToSun (some E) vsun Xsun Zsun) q (galcenrect_to_XYZ_jac Xsun Zsun) := by
  intro h
  apply hE
  have hR2 : 0 < Xsun ^ 2 + Zsun ^ 2 := by positivity
  have hR := Real.sqrt_pos.2 hR2
  have hRR := Real.sq_sqrt hR2.le
  have hs : sgn Xsun ^ 2 = 1 := by
    unfold sgn; rcases lt_or_gt_of_ne hX with h | h
    · simp [h, h.not_gt]
    · simp [h]
  -- every direction is reached
  have hsurj : ∀ y : Fin 3 → ℝ, ∃ w : Fin 3 → ℝ, (gcRinv Xsun Zsun).mulVec w = y := by
    intro y
    refine ⟨![-(Xsun / sqrt (Xsun ^ 2 + Zsun ^ 2)) * y 0 - sgn Xsun * (Zsun / sqrt (Xsun ^ 2 + Zsun ^ 2)) * y 2, y 1,
      -(Zsun / sqrt (Xsun ^ 2 + Zsun ^ 2)) * y 0 + sgn Xsun * (Xsun / sqrt (Xsun ^ 2 + Zsun ^ 2)) * y 2], ?_⟩
    apply vec_ext <;> rw [mulVec3] <;> simp [gcRinv]
    all_goals
      generalize sqrt (Xsun ^ 2 + Zsun ^ 2) = r at *
      field_simp
    · linear_combination (-y 0) * hRR
    · linear_combination (-y 2) * hRR + (y 2) * (Xsun ^ 2 + Zsun ^ 2) * hs
  have key : ∀ y : Fin 3 → ℝ, E.transpose.mulVec y = y := by
    intro y
    obtain ⟨w, hw⟩ := hsurj y
    let c : ℝ → Fin 6 → ℝ := fun s => ![q 0 + s * w 0, q 1 + s * w 1, q 2 + s * w 2, q 3, q 4, q 5]
    let c' : Fin 6 → ℝ := ![w 0, w 1, w 2, 0, 0, 0]
    have hc : c 0 = q := by funext i; fin_cases i <;> simp [c]
    have hcd : ∀ i, HasDerivAt (fun s => c s i) (c' i) 0 := by
      intro i
      fin_cases i <;> simp only [c, c', Fin.zero_eta, Fin.mk_one, Fin.reduceFinMk, Matrix.cons_val_zero,
        Matrix.cons_val_one, Matrix.cons_val] <;>
        (apply HasDerivAt.congr_deriv
         · hasderiv
         · ring)
    have hj := h c c' 0 hc hcd
    have hlin : ∀ i : Fin 3, HasDerivAt (fun s => galcenrect_to_XYZ (some E) Xsun Zsun ![c s 0, c s 1, c s 2] i)
        (E.transpose.mulVec y i) 0 := by
      intro i
      have e : ∀ s, galcenrect_to_XYZ (some E) Xsun Zsun ![c s 0, c s 1, c s 2] i =
          galcenrect_to_XYZ (some E) Xsun Zsun ![q 0, q 1, q 2] i + s * E.transpose.mulVec y i := by
        intro s
        simp only [galcenrect_to_XYZ, rotT, ← hw]
        have e1 : (![c s 0, c s 1, c s 2] : Fin 3 → ℝ) = ![q 0, q 1, q 2] + s • w := by
          apply vec_ext <;> simp [c]
        simp only [e1, Matrix.mulVec_add, Matrix.mulVec_smul, Pi.add_apply, Pi.smul_apply, smul_eq_mul]
        ring
      simp only [e]
      apply HasDerivAt.congr_deriv
      · hasderiv
      · ring
    have h0 := (hlin 0).unique (hj 0)
    have h1 := (hlin 1).unique (hj 1)
    have h2 := (hlin 2).unique (hj 2)
    rw [← hw] at h0 h1 h2 ⊢
    apply vec_ext
    · rw [h0, mulVec3]; simp [galcenrect_to_XYZ_jac, Fin.sum_univ_six, c', gcRinv]
    · rw [h1, mulVec3]; simp [galcenrect_to_XYZ_jac, Fin.sum_univ_six, c', gcRinv]
    · rw [h2, mulVec3]; simp [galcenrect_to_XYZ_jac, Fin.sum_univ_six, c', gcRinv]
  have : E.transpose = 1 := by
    ext i j
    have := congrFun (key (Pi.single j 1)) i
    simpa [Matrix.mulVec_single, Matrix.one_apply, Pi.single_apply] using this
  rw [← Matrix.transpose_transpose E, this, Matrix.transpose_one]

/-- For another epoch `galsky_to_sky_jac` converts the position with the default epoch: for `epoch=1950` it is not
the Jacobian of the conversions with `epoch=1950`. -/
theorem C29_epoch_fails (D pmll pmbb vlos : ℝ) :
    ¬ Spec.IsJacobian (C29aux.galSky epoch1950 false) ![epoch1950.theta, 0, D, pmll, pmbb, vlos]
      (galsky_to_sky_jac epoch2000 epoch1950 false epoch1950.theta 0 pmll pmbb) := by
  intro h
  have hpi := Real.pi_pos
  have hj := h (fun s => ![s, 0, D, pmll, pmbb, vlos]) ![1, 0, 0, 0, 0, 0] epoch1950.theta rfl (by
    intro i
    fin_cases i <;> simp only [Fin.zero_eta, Fin.mk_one, Fin.reduceFinMk, Matrix.cons_val_zero,
        Matrix.cons_val_one, Matrix.cons_val] <;> hasderiv) 1
  -- the declination is stationary there
  have hn : ∀ i, (radecT epoch1950).transpose 2 i = Spec.dir epoch1950.theta epoch1950.dec_ngp i := fun i => by
    rw [Matrix.transpose_apply, radecT_col]
  have hcd : 0 < cos epoch1950.dec_ngp := Real.cos_pos_of_mem_Ioo (by
    simp only [epoch1950]; constructor <;> nlinarith)
  have hsd : 0 < sin epoch1950.dec_ngp := Real.sin_pos_of_mem_Ioo (by
    simp only [epoch1950]; constructor <;> nlinarith)
  have hn1 : newLat epoch1950.theta epoch1950.dec_ngp epoch1950.theta 0 ^ 2 < 1 := by
    have e : newLat epoch1950.theta epoch1950.dec_ngp epoch1950.theta 0 = cos epoch1950.dec_ngp := by simp [newLat]
    rw [e]
    nlinarith [Real.sin_sq_add_cos_sq epoch1950.dec_ngp]
  have hst := hd_newlat hn (hd_id epoch1950.theta) (hd_const 0 epoch1950.theta) hn1
  have e1 : (fun s => C29aux.galSky epoch1950 false ![s, 0, D, pmll, pmbb, vlos] 1) =
      fun s => arcsin ((radecT epoch1950).transpose.mulVec (skyXYZ s 0) 2) := by
    funext s
    simp [C29aux.galSky, degreeDecorator, lb_to_radec_list, lb_to_radec_eq, radec_to_custom]
  rw [e1] at hj
  have heq := hj.unique hst
  -- but not for the position that is used
  have hsin : sin ((lb_to_radec epoch2000 epoch1950.theta 0).1 - epoch1950.ra_ngp) ≠ 0 := by
    intro h0
    have hw : (lb_to_radec epoch2000 epoch1950.theta 0).1 = wrap (atan2 ((lbT epoch2000).mulVec
      (skyXYZ epoch1950.theta 0) 1) ((lbT epoch2000).mulVec (skyXYZ epoch1950.theta 0) 0)) := rfl
    rw [hw, Real.sin_sub, cos_wrap, sin_wrap] at h0
    have hc := polar_cos ((lbT epoch2000).mulVec (skyXYZ epoch1950.theta 0) 0)
      ((lbT epoch2000).mulVec (skyXYZ epoch1950.theta 0) 1)
    have hs := polar_sin ((lbT epoch2000).mulVec (skyXYZ epoch1950.theta 0) 0)
      ((lbT epoch2000).mulVec (skyXYZ epoch1950.theta 0) 1)
    have h1 : (lbT epoch2000).mulVec (skyXYZ epoch1950.theta 0) 1 * cos epoch1950.ra_ngp -
        (lbT epoch2000).mulVec (skyXYZ epoch1950.theta 0) 0 * sin epoch1950.ra_ngp = 0 := by
      have := congrArg (fun x => sqrt (((lbT epoch2000).mulVec (skyXYZ epoch1950.theta 0) 0) ^ 2 +
        ((lbT epoch2000).mulVec (skyXYZ epoch1950.theta 0) 1) ^ 2) * x) h0
      simp only [mul_zero] at this
      linear_combination this - cos epoch1950.ra_ngp * hs + sin epoch1950.ra_ngp * hc
    have h2 : (lbT epoch2000).mulVec (skyXYZ epoch1950.theta 0) 1 * cos epoch1950.ra_ngp -
        (lbT epoch2000).mulVec (skyXYZ epoch1950.theta 0) 0 * sin epoch1950.ra_ngp =
        -(sin epoch2000.dec_ngp * cos (epoch1950.theta - epoch2000.theta) *
            sin (epoch2000.ra_ngp - epoch1950.ra_ngp) +
          sin (epoch1950.theta - epoch2000.theta) * cos (epoch2000.ra_ngp - epoch1950.ra_ngp)) := by
      rw [mulVec3, mulVec3]
      simp [lbT, Matrix.mul_apply, Fin.sum_univ_three, skyXYZ, Real.cos_sub, Real.sin_sub]
      ring
    rw [h1] at h2
    have a1 : 0 < sin epoch2000.dec_ngp := Real.sin_pos_of_mem_Ioo (by
      simp only [epoch2000]; constructor <;> nlinarith)
    have a2 : 0 < cos (epoch1950.theta - epoch2000.theta) := Real.cos_pos_of_mem_Ioo (by
      simp only [epoch2000, epoch1950]; constructor <;> nlinarith)
    have a3 : 0 < sin (epoch1950.theta - epoch2000.theta) := Real.sin_pos_of_mem_Ioo (by
      simp only [epoch2000, epoch1950]; constructor <;> nlinarith)
    have a4 : 0 < sin (epoch2000.ra_ngp - epoch1950.ra_ngp) := Real.sin_pos_of_mem_Ioo (by
      simp only [epoch2000, epoch1950]; constructor <;> nlinarith)
    have a5 : 0 < cos (epoch2000.ra_ngp - epoch1950.ra_ngp) := Real.cos_pos_of_mem_Ioo (by
      simp only [epoch2000, epoch1950]; constructor <;> nlinarith)
    have : 0 < sin epoch2000.dec_ngp * cos (epoch1950.theta - epoch2000.theta) *
            sin (epoch2000.ra_ngp - epoch1950.ra_ngp) +
          sin (epoch1950.theta - epoch2000.theta) * cos (epoch2000.ra_ngp - epoch1950.ra_ngp) := by positivity
    linarith
  have e2 : sig epoch1950.theta epoch1950.dec_ngp epoch1950.theta = 0 := by simp [sig]
  rw [e2] at heq
  simp only [galsky_to_sky_jac, Bool.false_eq_true, if_false, Fin.sum_univ_six] at heq
  simp [hcd.ne'] at heq
  generalize (lb_to_radec epoch2000 epoch1950.theta 0).1 = ra at *
  generalize (lb_to_radec epoch2000 epoch1950.theta 0).2 = dec at *
  rcases heq with heq | heq
  · exact hsin heq
  · have hpos : 0 < (sin (ra - epoch1950.ra_ngp) * cos epoch1950.dec_ngp) *
        (sin (ra - epoch1950.ra_ngp) * cos epoch1950.dec_ngp) := mul_self_pos.2 (mul_ne_zero hsin hcd.ne')
    have := Real.sqrt_eq_zero'.1 heq
    nlinarith [mul_self_nonneg (sin epoch1950.dec_ngp * cos dec -
      cos epoch1950.dec_ngp * sin dec * cos (ra - epoch1950.ra_ngp))]

/-! ### Concrete cases -/

/-- A point in the second quadrant meets the hypotheses of `C29_XYZ_to_lbd` and `C29_galcenrect_to_galcencyl`. -/
example : ((![-1, 2, 3, 10, 20, 30] : Fin 6 → ℝ) 0 < 0 ∨ (![-1, 2, 3, 10, 20, 30] : Fin 6 → ℝ) 1 ≠ 0) ∧
    (0 < (![-1, 2, 3, 10, 20, 30] : Fin 6 → ℝ) 0 ∨ (![-1, 2, 3, 10, 20, 30] : Fin 6 → ℝ) 1 ≠ 0) := by
  constructor <;> right <;> norm_num

/-- The direction `dec = 0`, `ra = 1` for the rotation by a quarter turn about the third axis. -/
example : ∃ T : Matrix (Fin 3) (Fin 3) ℝ, Spec.IsRotation T ∧ cos (radec_to_custom T 1 0).2 ≠ 0 ∧
    (radec_to_custom T 1 0).1 ≠ 0 ∧ (0 : ℝ) ≠ (custom_to_radec T 0 (π / 2)).2 := by
  have hpi := Real.pi_pos
  have h3 := Real.pi_gt_three
  refine ⟨!![0, -1, 0; 1, 0, 0; 0, 0, 1], ⟨?_, ?_⟩, ?_, ?_, ?_⟩
  · ext i j; fin_cases i <;> fin_cases j <;> simp [Matrix.mul_apply, Fin.sum_univ_three]
  · simp [Matrix.det_fin_three]
  · simp [radec_to_custom, mulVec3, skyXYZ, -Matrix.cons_mulVec]
  · have h1 : 0 < sin 1 := Real.sin_pos_of_pos_of_lt_pi one_pos (by linarith)
    have hd : Spec.dir (1 + π / 2) 0 = (!![0, -1, 0; 1, 0, 0; 0, 0, 1] : Matrix (Fin 3) (Fin 3) ℝ).mulVec
        (skyXYZ 1 0) := by
      apply vec_ext <;> rw [mulVec3] <;> simp [Spec.dir, skyXYZ, Real.cos_add_pi_div_two, Real.sin_add_pi_div_two]
    have := (dir_inj hd.symm (by linarith) (by linarith) (by linarith) (by linarith)).1
    simp only [radec_to_custom, this]
    positivity
  · simp [custom_to_radec, radec_to_custom, mulVec3, skyXYZ, -Matrix.cons_mulVec]
    exact (by positivity : (0 : ℝ) < π / 2).ne

/-- A Galactic direction meeting the hypotheses of `C29_galsky_to_sky` for `epoch=2000`: the Galactic plane, at the
longitude of the celestial pole plus a right angle. -/
example : ∃ l b : ℝ, -(π / 2) < b ∧ b < π / 2 ∧ (lb_to_radec epoch2000 l b).1 ≠ 0 ∧
    cos (lb_to_radec epoch2000 l b).2 ≠ 0 ∧ (lb_to_radec epoch2000 l b).2 ≠ epoch2000.dec_ngp := by
  have hpi := Real.pi_pos
  have hd : Spec.dir (epoch2000.ra_ngp - π / 2) 0 = (radecT epoch2000).transpose.mulVec
      (skyXYZ (epoch2000.theta + π / 2) 0) := by
    rw [← lbT_eq]
    have h1 := Real.sin_sq_add_cos_sq epoch2000.theta
    apply vec_ext <;> rw [mulVec3] <;>
      simp [Spec.dir, skyXYZ, Real.cos_add_pi_div_two, Real.sin_add_pi_div_two, Real.cos_sub_pi_div_two,
        Real.sin_sub_pi_div_two, lbT, Matrix.mul_apply, Fin.sum_univ_three]
    · linear_combination (-sin epoch2000.ra_ngp) * h1
    · linear_combination (cos epoch2000.ra_ngp) * h1
    · ring
  obtain ⟨e1, e2⟩ := dir_inj hd.symm (by simp only [epoch2000]; nlinarith) (by simp only [epoch2000]; nlinarith)
    (by linarith) (by linarith)
  have e3 : lb_to_radec epoch2000 (epoch2000.theta + π / 2) 0 = (epoch2000.ra_ngp - π / 2, 0) := by
    rw [lb_to_radec_eq]; simp only [radec_to_custom, e1, e2]
  refine ⟨epoch2000.theta + π / 2, 0, by linarith, by linarith, ?_, ?_, ?_⟩ <;> rw [e3]
  · simp only [epoch2000]; nlinarith
  · simp
  · simp only [epoch2000]; nlinarith

/-- A rotation other than the identity, for `C29_extra_rot_fails`. -/
example : (!![0, -1, 0; 1, 0, 0; 0, 0, 1] : Matrix (Fin 3) (Fin 3) ℝ) ≠ 1 := by
  intro h
  have := congrFun (congrFun h 0) 0
  norm_num at this

end Verif
