import Verif.Model.Pot.Plummer

set_option autoImplicit false

noncomputable section
namespace Verif.Plummer
open Real Filter Topology

theorem consistent (b : ℝ) :
    Consistent (pot b) (fun R z _ => 0 < R ^ 2 + z ^ 2 + b ^ 2 ) := by
  have key : ∀ R z : ℝ, 0 < R ^ 2 + z ^ 2 + b ^ 2 →
      ∃ s, 0 < s ∧ √(R ^ 2 + z ^ 2 + b ^ 2) = s ∧ R ^ 2 + z ^ 2 + b ^ 2 = s ^ 2 ∧
        b ^ 2 = s ^ 2 - R ^ 2 - z ^ 2 := by
    intro R z h
    exact ⟨_, sqrt_pos.2 h, rfl, by rw [sq_sqrt h.le], by rw [sq_sqrt h.le]; ring⟩
  refine Consistent.axi (D := fun R z => 0 < R ^ 2 + z ^ 2 + b ^ 2) ?_ ?_ ?_ ?_ ?_ ?_ ?_ ?_ ?_
  · exact fun R z h => ev_pos (f := fun x => x ^ 2 + z ^ 2 + b ^ 2) (by fun_prop) h
  · exact fun R z h => ev_pos (f := fun x => R ^ 2 + x ^ 2 + b ^ 2) (by fun_prop) h
  all_goals
    intro R z h; try intro h'
    obtain ⟨s, hs, e1, e2, e3⟩ := key R z h
    try unfold evaluate
    try unfold dens
    try unfold Rforce
    try unfold zforce
    try unfold R2deriv
    try unfold z2deriv
    try unfold Rzderiv
  all_goals
    try apply HasDerivAt.congr_deriv
    try · hasderiv
          all_goals positivity
  all_goals
    simp only [rpow_neg_three_half h, rpow_neg_five_half h]
    rw [e1, e2]
    try rw [e3]
    field_simp
    try ring
end Verif.Plummer

namespace Verif.Plummer

theorem cEval_eq (amp b R z : ℝ) : cEval amp b R z = amp * evaluate b R z := by
  unfold cEval evaluate; simp only [← sq]; ring
theorem cRforce_eq (amp b R z : ℝ) : cRforce amp b R z = amp * Rforce b R z := by
  unfold cRforce Rforce; simp only [← sq]; ring
theorem czforce_eq (amp b R z : ℝ) : czforce amp b R z = amp * zforce b R z := by
  unfold czforce zforce; simp only [← sq]; ring
theorem cPlanarRforce_eq (amp b R : ℝ) : cPlanarRforce amp b R = amp * Rforce b R 0 := by
  unfold cPlanarRforce Rforce; simp only [← sq]; simp; ring
theorem cPlanarR2deriv_eq (amp b R : ℝ) : cPlanarR2deriv amp b R = amp * R2deriv b R 0 := by
  unfold cPlanarR2deriv R2deriv; simp only [← sq]; simp; ring
theorem cR2deriv_eq (amp b R z : ℝ) : cR2deriv amp b R z = amp * R2deriv b R z := by
  unfold cR2deriv R2deriv; simp only [← sq]; ring
theorem cz2deriv_eq (amp b R z : ℝ) : cz2deriv amp b R z = amp * z2deriv b R z := by
  unfold cz2deriv z2deriv; simp only [← sq]; ring
theorem cRzderiv_eq (amp b R z : ℝ) : cRzderiv amp b R z = amp * Rzderiv b R z := by
  unfold cRzderiv Rzderiv; simp only [← sq]
theorem cDens_eq (amp b R z : ℝ) : cDens amp b R z = amp * dens b R z := by
  unfold cDens dens; simp only [← sq]; ring
end Verif.Plummer
