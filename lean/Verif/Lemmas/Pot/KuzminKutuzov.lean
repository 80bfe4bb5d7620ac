import Verif.Model.Pot.KuzminKutuzov

set_option autoImplicit false

noncomputable section
namespace Verif.KuzminKutuzov
open Real Filter Topology Coords

/-- Discriminant. -/
def disc (D R z : ℝ) : ℝ := (R ^ 2 + z ^ 2 - D ^ 2) ^ 2 + 4 * D ^ 2 * R ^ 2

theorem disc_nonneg (D R z : ℝ) : 0 ≤ disc D R z := by unfold disc; positivity

/-- `lambda` and `nu`. -/
def lam (ac D R z : ℝ) : ℝ :=
  0.5 * (R ^ 2 + z ^ 2 - (D ^ 2 / (1 - ac ^ 2) - D ^ 2) - D ^ 2 / (1 - ac ^ 2) + √(disc D R z))
def nu (ac D R z : ℝ) : ℝ :=
  0.5 * (R ^ 2 + z ^ 2 - (D ^ 2 / (1 - ac ^ 2) - D ^ 2) - D ^ 2 / (1 - ac ^ 2) - √(disc D R z))

theorem lambdanu_eq (ac D R z : ℝ) : Rz_to_lambdanu R z ac D = (lam ac D R z, nu ac D R z) := by
  simp only [Rz_to_lambdanu, lam, nu, disc]
  split_ifs with h
  · subst h
    have : (R ^ 2 + 0 ^ 2 - D ^ 2) ^ 2 + 4 * D ^ 2 * R ^ 2 = (R ^ 2 + D ^ 2) ^ 2 := by ring
    rw [this, sqrt_sq (by positivity)]
    ext <;> ring
  · rfl

theorem neg_gamma_pos {ac D : ℝ} (hac : 1 < ac) (hD : D ≠ 0) : D ^ 2 / (1 - ac ^ 2) < 0 :=
  div_neg_of_pos_of_neg (by positivity) (by nlinarith)

theorem nu_pos {ac D : ℝ} (R z : ℝ) (hac : 1 < ac) (hD : D ≠ 0) : 0 < nu ac D R z := by
  have hg := neg_gamma_pos hac hD
  have hs : √(disc D R z) ≤ R ^ 2 + z ^ 2 + D ^ 2 := by
    apply sqrt_le_iff.2 ⟨by positivity, ?_⟩
    unfold disc
    nlinarith [mul_nonneg (sq_nonneg z) (sq_nonneg D), mul_nonneg (sq_nonneg z) (sq_nonneg D)]
  unfold nu
  generalize D ^ 2 / (1 - ac ^ 2) = g at *
  linarith

theorem lam_pos {ac D : ℝ} (R z : ℝ) (hac : 1 < ac) (hD : D ≠ 0) : 0 < lam ac D R z := by
  have := nu_pos R z hac hD
  have hs := sqrt_nonneg (disc D R z)
  unfold lam; unfold nu at this
  linarith

section
variable {l n : ℝ → ℝ} {l' n' s : ℝ} (hl : HasDerivAt l l' s) (hn : HasDerivAt n n' s) (pl : 0 < l s) (pn : 0 < n s)
include hl hn pl pn

theorem hd_value : HasDerivAt (fun s => -1 / (√(l s) + √(n s))) (l' * lderiv (l s) (n s) + n' * nderiv (l s) (n s)) s := by
  have h1 := sqrt_pos.2 pl; have h2 := sqrt_pos.2 pn
  unfold lderiv nderiv
  apply HasDerivAt.congr_deriv
  · hasderiv
    all_goals positivity
  · field_simp; ring

theorem hd_lderiv : HasDerivAt (fun s => lderiv (l s) (n s))
    (l' * l2deriv (l s) (n s) + n' * lnderiv (l s) (n s)) s := by
  have h1 := sqrt_pos.2 pl; have h2 := sqrt_pos.2 pn
  have e1 := sq_sqrt pl.le
  unfold lderiv l2deriv lnderiv
  simp only [rpow_three_half pl]
  apply HasDerivAt.congr_deriv
  · hasderiv
    all_goals positivity
  · generalize √(l s) = a at *; generalize √(n s) = b at *
    rw [← e1]; field_simp; ring

theorem hd_nderiv : HasDerivAt (fun s => nderiv (l s) (n s))
    (l' * lnderiv (l s) (n s) + n' * n2deriv (l s) (n s)) s := by
  have h1 := sqrt_pos.2 pl; have h2 := sqrt_pos.2 pn
  have e1 := sq_sqrt pn.le
  unfold nderiv n2deriv lnderiv
  simp only [rpow_three_half pn]
  apply HasDerivAt.congr_deriv
  · hasderiv
    all_goals positivity
  · generalize √(l s) = a at *; generalize √(n s) = b at *
    rw [← e1]; field_simp; ring
end

section
variable {ac D R z : ℝ} (h : 0 < disc D R z)
include h

theorem hd_lam_R : HasDerivAt (fun x => lam ac D x z) (Rz_to_lambdanu_jac R z D 0 0) R := by
  have hs := sqrt_pos.2 h
  unfold lam disc at *
  simp only [Rz_to_lambdanu_jac, Matrix.of_apply, Matrix.cons_val', Matrix.cons_val_zero, Matrix.cons_val_one]
  apply HasDerivAt.congr_deriv
  · hasderiv
    all_goals positivity
  · field_simp; ring
theorem hd_lam_z : HasDerivAt (fun x => lam ac D R x) (Rz_to_lambdanu_jac R z D 0 1) z := by
  have hs := sqrt_pos.2 h
  unfold lam disc at *
  simp only [Rz_to_lambdanu_jac, Matrix.of_apply, Matrix.cons_val', Matrix.cons_val_zero, Matrix.cons_val_one]
  apply HasDerivAt.congr_deriv
  · hasderiv
    all_goals positivity
  · field_simp; ring
theorem hd_nu_R : HasDerivAt (fun x => nu ac D x z) (Rz_to_lambdanu_jac R z D 1 0) R := by
  have hs := sqrt_pos.2 h
  unfold nu disc at *
  simp only [Rz_to_lambdanu_jac, Matrix.of_apply, Matrix.cons_val', Matrix.cons_val_zero, Matrix.cons_val_one]
  apply HasDerivAt.congr_deriv
  · hasderiv
    all_goals positivity
  · field_simp; ring
theorem hd_nu_z : HasDerivAt (fun x => nu ac D R x) (Rz_to_lambdanu_jac R z D 1 1) z := by
  have hs := sqrt_pos.2 h
  unfold nu disc at *
  simp only [Rz_to_lambdanu_jac, Matrix.of_apply, Matrix.cons_val', Matrix.cons_val_zero, Matrix.cons_val_one]
  apply HasDerivAt.congr_deriv
  · hasderiv
    all_goals positivity
  · field_simp; ring

theorem hd_jac_R (i j : Fin 2) : HasDerivAt (fun x => Rz_to_lambdanu_jac x z D i j)
    (if i = 0 then (Rz_to_lambdanu_hess R z D).1 0 j else (Rz_to_lambdanu_hess R z D).2 0 j) R := by
  have hs := sqrt_pos.2 h
  have hss := sq_sqrt h.le
  unfold disc at *
  fin_cases i <;> fin_cases j <;> simp [Rz_to_lambdanu_jac, Rz_to_lambdanu_hess] <;>
    (apply HasDerivAt.congr_deriv
     · hasderiv
       all_goals positivity
     · generalize √((R ^ 2 + z ^ 2 - D ^ 2) ^ 2 + 4 * D ^ 2 * R ^ 2) = s at *
       try rw [← hss]
       field_simp
       grind)
theorem hd_jac_z (i j : Fin 2) : HasDerivAt (fun x => Rz_to_lambdanu_jac R x D i j)
    (if i = 0 then (Rz_to_lambdanu_hess R z D).1 1 j else (Rz_to_lambdanu_hess R z D).2 1 j) z := by
  have hs := sqrt_pos.2 h
  have hss := sq_sqrt h.le
  unfold disc at *
  fin_cases i <;> fin_cases j <;> simp [Rz_to_lambdanu_jac, Rz_to_lambdanu_hess] <;>
    (apply HasDerivAt.congr_deriv
     · hasderiv
       all_goals positivity
     · generalize √((R ^ 2 + z ^ 2 - D ^ 2) ^ 2 + 4 * D ^ 2 * R ^ 2) = s at *
       try rw [← hss]
       field_simp
       grind)
end

theorem consistent {ac D : ℝ} (hac : 1 < ac) (hD : D ≠ 0) :
    Consistent (pot ac D) (fun R z _ => 0 < disc D R z) := by
  have eH : ∀ R z, (Rz_to_lambdanu_hess R z D).1 1 0 = (Rz_to_lambdanu_hess R z D).1 0 1 ∧
      (Rz_to_lambdanu_hess R z D).2 1 0 = (Rz_to_lambdanu_hess R z D).2 0 1 := fun R z => ⟨rfl, rfl⟩
  refine Consistent.axi (D := fun R z => 0 < disc D R z) ?_ ?_ ?_ ?_ ?_ ?_ ?_ ?_ ?_
  · exact fun R z h => ev_pos (f := fun x => disc D x z) (by unfold disc; fun_prop) h
  · exact fun R z h => ev_pos (f := fun x => disc D R x) (by unfold disc; fun_prop) h
  all_goals
    intro R z h; try intro h'
    have pl := lam_pos R z hac hD
    have pn := nu_pos R z hac hD
    try unfold dens
    try unfold evaluate
    try unfold Rforce
    try unfold zforce
    try unfold R2deriv
    try unfold z2deriv
    try unfold Rzderiv
    simp only [lambdanu_eq]
  · exact (hd_value (hd_lam_R h) (hd_nu_R h) pl pn).congr_deriv (by ring)
  · exact (hd_value (hd_lam_z h) (hd_nu_z h) pl pn).congr_deriv (by ring)
  · exact (((hd_jac_R h 0 0).fun_mul (hd_lderiv (hd_lam_R h) (hd_nu_R h) pl pn)).fun_add
      ((hd_jac_R h 1 0).fun_mul (hd_nderiv (hd_lam_R h) (hd_nu_R h) pl pn))).fun_neg.congr_deriv (by simp; ring)
  · exact (((hd_jac_z h 0 0).fun_mul (hd_lderiv (hd_lam_z h) (hd_nu_z h) pl pn)).fun_add
      ((hd_jac_z h 1 0).fun_mul (hd_nderiv (hd_lam_z h) (hd_nu_z h) pl pn))).fun_neg.congr_deriv
        (by simp [(eH R z).1, (eH R z).2]; ring)
  · exact (((hd_jac_R h 0 1).fun_mul (hd_lderiv (hd_lam_R h) (hd_nu_R h) pl pn)).fun_add
      ((hd_jac_R h 1 1).fun_mul (hd_nderiv (hd_lam_R h) (hd_nu_R h) pl pn))).fun_neg.congr_deriv (by simp; ring)
  · exact (((hd_jac_z h 0 1).fun_mul (hd_lderiv (hd_lam_z h) (hd_nu_z h) pl pn)).fun_add
      ((hd_jac_z h 1 1).fun_mul (hd_nderiv (hd_lam_z h) (hd_nu_z h) pl pn))).fun_neg.congr_deriv
        (by simp; ring)
  · field_simp; ring

/-! ### C -/

theorem cln_eq (ac D R z : ℝ) : cln ac D R z = (lam ac D R z, nu ac D R z) := by
  simp only [cln, lam, nu, disc, ← sq]
  rw [show 4 * D * D * R * R = 4 * D ^ 2 * R ^ 2 by ring]

theorem cEval_eq (amp : ℝ) {ac D : ℝ} (R z : ℝ) (hac : 1 < ac) (hD : D ≠ 0) :
    cEval amp ac D R z = amp * evaluate ac D R z := by
  simp only [cEval, evaluate, cln_eq, lambdanu_eq, nu_pos R z hac hD, if_true]
  ring

theorem cRforce_eq (amp ac D R z : ℝ) : cRforce amp ac D R z = amp * Rforce ac D R z := by
  simp only [cRforce, Rforce, cln_eq, lambdanu_eq, lderiv, nderiv, Rz_to_lambdanu_jac, Matrix.of_apply,
    Matrix.cons_val', Matrix.cons_val_zero, Matrix.cons_val_one, ← sq]
  rw [show 4 * D * D * R * R = 4 * D ^ 2 * R ^ 2 by ring]
  ring

theorem czforce_eq (amp ac D R z : ℝ) : czforce amp ac D R z = amp * zforce ac D R z := by
  simp only [czforce, zforce, cln_eq, lambdanu_eq, lderiv, nderiv, Rz_to_lambdanu_jac, Matrix.of_apply,
    Matrix.cons_val', Matrix.cons_val_zero, Matrix.cons_val_one, ← sq]
  rw [show 4 * D * D * R * R = 4 * D ^ 2 * R ^ 2 by ring]
  ring

theorem cComb_eq {l n : ℝ} (pl : 0 < l) (pn : 0 < n) (a₁ a₂ a₃ a₄ a₅ : ℝ) :
    cComb l n a₁ a₂ a₃ a₄ a₅
      = a₁ * lderiv l n + a₂ * nderiv l n + a₃ * l2deriv l n + a₄ * n2deriv l n + a₅ * lnderiv l n := by
  have h1 := sqrt_pos.2 pl; have h2 := sqrt_pos.2 pn
  simp only [cComb, lderiv, nderiv, l2deriv, n2deriv, lnderiv, rpow_three_half pl, rpow_three_half pn]
  field_simp

theorem disc_c (D R z : ℝ) : (R * R + z * z - D * D) * (R * R + z * z - D * D) + 4 * (D * D) * (R * R) = disc D R z := by
  unfold disc; ring
theorem lam_c (ac D R z : ℝ) : 0.5 * (R * R + z * z - (D * D / (1 - ac * ac) - D * D) - D * D / (1 - ac * ac) + √(disc D R z))
    = lam ac D R z := by simp only [lam, ← sq]
theorem nu_c (ac D R z : ℝ) : 0.5 * (R * R + z * z - (D * D / (1 - ac * ac) - D * D) - D * D / (1 - ac * ac) - √(disc D R z))
    = nu ac D R z := by simp only [nu, ← sq]
theorem disc_py (D R z : ℝ) : (R ^ 2 + z ^ 2 - D ^ 2) ^ 2 + 4 * D ^ 2 * R ^ 2 = disc D R z := rfl

section
variable (amp : ℝ) {ac D R z : ℝ} (hac : 1 < ac) (hD : D ≠ 0) (h : 0 < disc D R z)
include hac hD h

theorem cR2deriv_eq : cR2deriv amp ac D R z = amp * R2deriv ac D R z := by
  have hs := sqrt_pos.2 h
  have hss := sq_sqrt h.le
  simp only [cR2deriv, R2deriv, disc_c, lam_c, nu_c, cComb_eq (lam_pos R z hac hD) (nu_pos R z hac hD), lambdanu_eq,
    Rz_to_lambdanu_jac, Rz_to_lambdanu_hess, disc_py, Matrix.of_apply, Matrix.cons_val', Matrix.cons_val_zero,
    Matrix.cons_val_one]
  generalize √(disc D R z) = s at *
  rw [← hss]
  congr 1
  field_simp
  try ring
theorem cz2deriv_eq : cz2deriv amp ac D R z = amp * z2deriv ac D R z := by
  have hs := sqrt_pos.2 h
  have hss := sq_sqrt h.le
  simp only [cz2deriv, z2deriv, disc_c, lam_c, nu_c, cComb_eq (lam_pos R z hac hD) (nu_pos R z hac hD), lambdanu_eq,
    Rz_to_lambdanu_jac, Rz_to_lambdanu_hess, disc_py, Matrix.of_apply, Matrix.cons_val', Matrix.cons_val_zero,
    Matrix.cons_val_one]
  generalize √(disc D R z) = s at *
  rw [← hss]
  congr 1
  field_simp
  try ring
theorem cRzderiv_eq : cRzderiv amp ac D R z = amp * Rzderiv ac D R z := by
  have hs := sqrt_pos.2 h
  have hss := sq_sqrt h.le
  simp only [cRzderiv, Rzderiv, disc_c, lam_c, nu_c, cComb_eq (lam_pos R z hac hD) (nu_pos R z hac hD), lambdanu_eq,
    Rz_to_lambdanu_jac, Rz_to_lambdanu_hess, disc_py, Matrix.of_apply, Matrix.cons_val', Matrix.cons_val_zero,
    Matrix.cons_val_one]
  generalize √(disc D R z) = s at *
  rw [← hss]
  congr 1
  field_simp
  try ring
end

theorem planar_ln (ac D R : ℝ) : Rz_to_lambdanu R 0 ac D
    = (R * R - (D * D / (1 - ac * ac) - D * D), -(D * D / (1 - ac * ac))) := by
  simp only [Rz_to_lambdanu, if_true, ← sq]

theorem disc_planar (D R : ℝ) (hD : D ≠ 0) : √(disc D R 0) = R ^ 2 + D ^ 2 := by
  have : disc D R 0 = (R ^ 2 + D ^ 2) ^ 2 := by unfold disc; ring
  rw [this, sqrt_sq (by positivity)]

theorem cPlanarRforce_eq (amp : ℝ) {ac D : ℝ} (R : ℝ) (hD : D ≠ 0) :
    cPlanarRforce amp ac D R = amp * Rforce ac D R 0 := by
  have hp : R ^ 2 + D ^ 2 ≠ 0 := by positivity
  simp only [cPlanarRforce, Rforce, planar_ln, lderiv, nderiv, Rz_to_lambdanu_jac, disc_py, disc_planar D R hD,
    Matrix.of_apply, Matrix.cons_val', Matrix.cons_val_zero, Matrix.cons_val_one]
  rw [show R ^ 2 + 0 ^ 2 + D ^ 2 = R ^ 2 + D ^ 2 by ring, div_self hp]
  ring

theorem cPlanarR2deriv_eq (amp : ℝ) {ac D : ℝ} (R : ℝ) (hD : D ≠ 0) :
    cPlanarR2deriv amp ac D R = amp * R2deriv ac D R 0 := by
  have hp : R ^ 2 + D ^ 2 ≠ 0 := by positivity
  simp only [cPlanarR2deriv, R2deriv, planar_ln, lderiv, l2deriv, Rz_to_lambdanu_jac, Rz_to_lambdanu_hess, disc_py,
    disc_planar D R hD, Matrix.of_apply, Matrix.cons_val', Matrix.cons_val_zero, Matrix.cons_val_one]
  rw [show R ^ 2 + 0 ^ 2 + D ^ 2 = R ^ 2 + D ^ 2 by ring, div_self hp,
    show 2 * R ^ 2 * (R ^ 2 + D ^ 2) ^ 2 / (R ^ 2 + D ^ 2) ^ 3 = 2 * R ^ 2 / (R ^ 2 + D ^ 2) by field_simp,
    show 1 + (3 * R ^ 2 + 0 ^ 2 + D ^ 2) / (R ^ 2 + D ^ 2) - 2 * R ^ 2 / (R ^ 2 + D ^ 2) = 2 by field_simp; ring,
    show 1 - (3 * R ^ 2 + 0 ^ 2 + D ^ 2) / (R ^ 2 + D ^ 2) + 2 * R ^ 2 / (R ^ 2 + D ^ 2) = 0 by field_simp; ring]
  ring

end Verif.KuzminKutuzov
