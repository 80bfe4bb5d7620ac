import Verif.Model.Pot.FlattenedPower

set_option autoImplicit false

noncomputable section
namespace Verif.FlattenedPower
open Real Filter Topology

theorem consistent (α c2 : ℝ) {q2 : ℝ} (hq : q2 ≠ 0) :
    Consistent (pot α q2 c2) (fun R z _ => 0 < c2 + R ^ 2 + z ^ 2 / q2) := by
  have key : ∀ R z : ℝ, 0 < c2 + R ^ 2 + z ^ 2 / q2 → ∃ p : ℝ,
      0 < p ∧ (c2 + R ^ 2 + z ^ 2 / q2) ^ (-α / 2) = p ∧
      (c2 + R ^ 2 + z ^ 2 / q2) ^ (-α / 2 - 1) = p / (c2 + R ^ 2 + z ^ 2 / q2) ∧
      (c2 + R ^ 2 + z ^ 2 / q2) ^ (-α / 2 - 2) = p / (c2 + R ^ 2 + z ^ 2 / q2) ^ 2 := by
    intro R z h
    refine ⟨_, rpow_pos_of_pos h _, rfl, ?_, ?_⟩
    · rw [rpow_sub h, rpow_one]
    · rw [rpow_sub h, rpow_two]
  refine Consistent.axi (D := fun R z => 0 < c2 + R ^ 2 + z ^ 2 / q2) ?_ ?_ ?_ ?_ ?_ ?_ ?_ ?_ ?_
  · exact fun R z h => ev_pos (f := fun x => c2 + x ^ 2 + z ^ 2 / q2) (by fun_prop) h
  · exact fun R z h => ev_pos (f := fun x => c2 + R ^ 2 + x ^ 2 / q2) (by fun_prop) h
  all_goals
    intro R z h; try intro h'
    obtain ⟨p, hp, e1, e2, e3⟩ := key R z h
    try unfold dens
    try unfold evaluate
    try unfold Rforce
    try unfold zforce
    try unfold z2deriv
    try unfold R2deriv
    try unfold Rzderiv
    have h1 : R ^ 2 + z ^ 2 / q2 + c2 ≠ 0 := by
      intro h0; apply h.ne'; linear_combination h0
    by_cases ha : α = 0 <;> simp only [ha, if_true, if_false]
  all_goals
    try apply HasDerivAt.congr_deriv
    try · hasderiv
          all_goals first | exact h | exact h1
  all_goals
    try simp only [e1, e2, e3]
    have ez : ∃ w, z ^ 2 / q2 = w ∧ z ^ 2 = w * q2 := ⟨z ^ 2 / q2, rfl, by field_simp⟩
    obtain ⟨w, ew, ez⟩ := ez
    rw [ew] at h h1
    rw [ew]
    have h2 := h.ne'
    try field_simp
    elimsq ez
    try ring

section
variable (amp α q2 c2 R z : ℝ)
theorem cEval_eq : cEval amp α q2 c2 R z = amp * evaluate α q2 c2 R z := by
  unfold cEval evaluate; simp only [← sq, show -(1/2) * α = -α / 2 by ring]; split_ifs <;> ring
theorem cRforce_eq : cRforce amp α q2 c2 R z = amp * Rforce α q2 c2 R z := by
  unfold cRforce Rforce; simp only [← sq, show -(1/2) * α = -α / 2 by ring]; split_ifs <;> ring
theorem cPlanarRforce_eq : cPlanarRforce amp α c2 R = amp * Rforce α q2 c2 R 0 := by
  unfold cPlanarRforce Rforce
  simp only [← sq, show -(1/2) * α = -α / 2 by ring, zero_pow two_ne_zero, zero_div, add_zero]
  split_ifs <;> ring
theorem czforce_eq : czforce amp α q2 c2 R z = amp * zforce α q2 c2 R z := by
  unfold czforce zforce; simp only [← sq, show -(1/2) * α = -α / 2 by ring]; split_ifs <;> ring
theorem cPlanarR2deriv_eq : cPlanarR2deriv amp α c2 R = amp * R2deriv α q2 c2 R 0 := by
  unfold cPlanarR2deriv R2deriv
  simp only [mul_assoc, ← sq, show -(1/2) * α = -α / 2 by ring, zero_pow two_ne_zero, zero_div,
    add_zero]
  split_ifs <;> ring
theorem cR2deriv_eq : cR2deriv amp α q2 c2 R z = amp * R2deriv α q2 c2 R z := by
  unfold cR2deriv R2deriv
  simp only [mul_assoc, ← sq, show -(1/2) * α = -α / 2 by ring]; split_ifs <;> ring
theorem cz2deriv_eq : cz2deriv amp α q2 c2 R z = amp * z2deriv α q2 c2 R z := by
  unfold cz2deriv z2deriv
  simp only [mul_assoc, ← sq, show -(1/2) * α = -α / 2 by ring]; split_ifs <;> ring
theorem cRzderiv_eq : cRzderiv amp α q2 c2 R z = amp * Rzderiv α q2 c2 R z := by
  unfold cRzderiv Rzderiv
  simp only [← sq, show -(1/2) * α = -α / 2 by ring]; split_ifs <;> ring
theorem cDens_eq : cDens amp α q2 c2 R z = amp * dens α q2 c2 R z := by
  unfold cDens dens
  simp only [← sq, zpow_neg, zpow_ofNat,
    show R ^ 2 + z ^ 2 / q2 + c2 = c2 + R ^ 2 + z ^ 2 / q2 by ring]
  split_ifs <;> ring
end
end Verif.FlattenedPower
