import Verif.Model.Pot.PowerSpherical

set_option autoImplicit false

noncomputable section
namespace Verif.PowerSpherical
open Real Filter Topology

theorem consistent (α : ℝ) : Consistent (pot α) (fun R z _ => 0 < R ^ 2 + z ^ 2) := by
  have key : ∀ R z : ℝ, 0 < R ^ 2 + z ^ 2 → ∃ p : ℝ, 0 < p ∧ (R ^ 2 + z ^ 2) ^ (α / 2) = p ∧
      (R ^ 2 + z ^ 2) ^ (α / 2 + 1) = p * (R ^ 2 + z ^ 2) ∧
      (R ^ 2 + z ^ 2) ^ (-1 - α / 2) = 1 / (p * (R ^ 2 + z ^ 2)) ∧
      (R ^ 2 + z ^ 2) ^ (1 - α / 2) = (R ^ 2 + z ^ 2) / p ∧
      √(R ^ 2 + z ^ 2) ^ α = p := by
    intro R z h
    refine ⟨_, rpow_pos_of_pos h _, rfl, ?_, ?_, ?_, ?_⟩
    · rw [rpow_add h, rpow_one]
    · rw [rpow_sub h, rpow_neg_one]; field_simp
    · rw [rpow_sub h, rpow_one]
    · rw [sqrt_eq_rpow, ← rpow_mul h.le]; congr 1; ring
  refine Consistent.axi (D := fun R z => 0 < R ^ 2 + z ^ 2) ?_ ?_ ?_ ?_ ?_ ?_ ?_ ?_ ?_
  · exact fun R z h => ev_pos (f := fun x => x ^ 2 + z ^ 2) (by fun_prop) h
  · exact fun R z h => ev_pos (f := fun x => R ^ 2 + x ^ 2) (by fun_prop) h
  all_goals
    intro R z h; try intro h'
    obtain ⟨p, hp, e1, e2, e3, e4, e5⟩ := key R z h
    have h1 := h.ne'
  · unfold evaluate Rforce
    by_cases ha : α = 2
    · simp only [ha, if_true]
      apply HasDerivAt.congr_deriv
      · hasderiv; all_goals exact h1
      · simp only [ne_eq, OfNat.ofNat_ne_zero, not_false_eq_true, div_self, rpow_one]
        field_simp; ring
    · have ha' : α - 2 ≠ 0 := sub_ne_zero.2 ha
      simp only [ha, if_false]
      apply HasDerivAt.congr_deriv
      · hasderiv; all_goals exact h
      · simp only [e1, e4]; field_simp; ring
  · unfold evaluate zforce
    by_cases ha : α = 2
    · simp only [ha, if_true]
      apply HasDerivAt.congr_deriv
      · hasderiv; all_goals exact h1
      · simp only [ne_eq, OfNat.ofNat_ne_zero, not_false_eq_true, div_self, rpow_one]
        field_simp; ring
    · have ha' : α - 2 ≠ 0 := sub_ne_zero.2 ha
      simp only [ha, if_false]
      apply HasDerivAt.congr_deriv
      · hasderiv; all_goals exact h
      · simp only [e1, e4]; field_simp; ring
  all_goals
    try unfold dens
    try unfold Rforce
    try unfold zforce
    try unfold z2deriv
    try unfold R2deriv
    try unfold Rzderiv
    try simp only [add_comm (z ^ 2) (R ^ 2)]
  all_goals
    try apply HasDerivAt.congr_deriv
    try · hasderiv
          all_goals first | exact h | (rw [e1]; exact hp.ne')
  all_goals
    simp only [e1, e2, e3, e5]
    field_simp
    try ring

section
variable (amp α : ℝ) {R z : ℝ}

private theorem npow (h : 0 ≤ R ^ 2 + z ^ 2) :
    (R ^ 2 + z ^ 2) ^ (-(1 / 2) * α) = 1 / (R ^ 2 + z ^ 2) ^ (α / 2) := by
  rw [show -(1 / 2) * α = -(α / 2) by ring, rpow_neg h, one_div]

theorem cEval_eq : cEval amp α R z = amp * evaluate α R z := by
  unfold cEval evaluate
  simp only [← sq]
  split_ifs
  · ring
  · rw [show 1 - 1 / 2 * α = 1 - α / 2 by ring]; ring
theorem cRforce_eq : cRforce amp α R z = amp * Rforce α R z := by
  unfold cRforce Rforce; simp only [← sq]; rw [npow α (by positivity)]; ring
theorem czforce_eq : czforce amp α R z = amp * zforce α R z := by
  unfold czforce zforce; simp only [← sq]; rw [npow α (by positivity)]; ring
theorem cDens_eq : cDens amp α R z = amp * dens α R z := by
  unfold cDens dens; simp only [← sq]; rw [npow α (by positivity)]
  rw [sqrt_eq_rpow, ← rpow_mul (by positivity), show 1 / 2 * α = α / 2 by ring]; ring
theorem cPlanarRforce_eq (hR : 0 < R) : cPlanarRforce amp α R = amp * Rforce α R 0 := by
  unfold cPlanarRforce Rforce
  rw [zero_pow two_ne_zero, add_zero, ← rpow_natCast, ← rpow_mul hR.le, rpow_add hR, rpow_one,
    rpow_neg hR.le, show ((2 : ℕ) : ℝ) * (α / 2) = α by push_cast; ring]
  ring
theorem cPlanarR2deriv_eq (hR : 0 < R) : cPlanarR2deriv amp α R = amp * R2deriv α R 0 := by
  unfold cPlanarR2deriv R2deriv
  have e : (R ^ 2) ^ (α / 2) = R ^ α := by
    rw [← rpow_natCast, ← rpow_mul hR.le, show ((2 : ℕ) : ℝ) * (α / 2) = α by push_cast; ring]
  have hp := rpow_pos_of_pos hR α
  rw [zero_pow two_ne_zero, add_zero, rpow_add (by positivity), rpow_one, e, rpow_neg hR.le]
  field_simp

private theorem csec (h : 0 < R ^ 2 + z ^ 2) :
    ∃ r p : ℝ, 0 < r ∧ 0 < p ∧ √(R ^ 2 + z ^ 2) = r ∧ R ^ 2 + z ^ 2 = r ^ 2 ∧ r ^ (-α) = 1 / p ∧
      r ^ (-α + 1) = r / p ∧ (r ^ 2) ^ (α / 2) = p ∧ (r ^ 2) ^ (α / 2 + 1) = p * r ^ 2 ∧
      (r ^ 2) ^ (-1 - α / 2) = 1 / (p * r ^ 2) ∧ R ^ 2 = r ^ 2 - z ^ 2 := by
  have hr := sqrt_pos.2 h
  have e0 : √(R ^ 2 + z ^ 2) ^ 2 = R ^ 2 + z ^ 2 := sq_sqrt h.le
  have e : (√(R ^ 2 + z ^ 2) ^ 2) ^ (α / 2) = √(R ^ 2 + z ^ 2) ^ α := by
    rw [← rpow_natCast, ← rpow_mul hr.le, show ((2 : ℕ) : ℝ) * (α / 2) = α by push_cast; ring]
  refine ⟨√(R ^ 2 + z ^ 2), √(R ^ 2 + z ^ 2) ^ α, hr, rpow_pos_of_pos hr _, rfl, e0.symm, ?_, ?_,
    e, ?_, ?_, ?_⟩
  · rw [rpow_neg hr.le, one_div]
  · rw [rpow_add hr, rpow_one, rpow_neg hr.le]; ring
  · rw [rpow_add (by positivity), rpow_one, e]
  · rw [rpow_sub (by positivity), rpow_neg_one, e]; field_simp
  · rw [e0]; ring

theorem cR2deriv_eq (h : 0 < R ^ 2 + z ^ 2) : cR2deriv amp α R z = amp * R2deriv α R z := by
  obtain ⟨r, p, hr, hp, e1, e2, e3, e4, e5, e6, e7, e8⟩ := csec α h
  unfold cR2deriv R2deriv cPlanarR2deriv cPlanarRforce
  simp only [← sq, e1]; simp only [e2, e3, e4, e5, e6]
  field_simp
  elimsq e8
  ring
theorem cz2deriv_eq (h : 0 < R ^ 2 + z ^ 2) : cz2deriv amp α R z = amp * z2deriv α R z := by
  obtain ⟨r, p, hr, hp, e1, e2, e3, e4, e5, e6, e7, e8⟩ := csec α h
  unfold cz2deriv z2deriv R2deriv cPlanarR2deriv cPlanarRforce
  simp only [← sq, add_comm (z ^ 2) (R ^ 2)]
  simp only [e1]; simp only [e2, e3, e4, e5, e6]
  field_simp
  elimsq e8
  ring
theorem cRzderiv_eq (h : 0 < R ^ 2 + z ^ 2) : cRzderiv amp α R z = amp * Rzderiv α R z := by
  obtain ⟨r, p, hr, hp, e1, e2, e3, e4, e5, e6, e7, e8⟩ := csec α h
  unfold cRzderiv Rzderiv cPlanarR2deriv cPlanarRforce
  simp only [← sq, e1]; simp only [e2, e3, e4, e7]
  field_simp
  ring
end
end Verif.PowerSpherical
