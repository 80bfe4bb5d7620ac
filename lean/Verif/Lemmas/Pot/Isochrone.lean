import Verif.Model.Pot.Isochrone

set_option autoImplicit false

noncomputable section
namespace Verif.Isochrone
open Real Filter Topology

theorem consistent {b : ℝ} (hb : 0 ≤ b) :
    Consistent (pot b) (fun R z _ => 0 < R ^ 2 + z ^ 2 + b ^ 2) := by
  have key : ∀ R z : ℝ, 0 < R ^ 2 + z ^ 2 + b ^ 2 →
      ∃ s, 0 < s ∧ √(R ^ 2 + z ^ 2 + b ^ 2) = s ∧ R ^ 2 + z ^ 2 + b ^ 2 = s ^ 2 ∧
        R ^ 2 = s ^ 2 - b ^ 2 - z ^ 2 := by
    intro R z h
    exact ⟨_, sqrt_pos.2 h, rfl, by rw [sq_sqrt h.le], by rw [sq_sqrt h.le]; ring⟩
  refine Consistent.axi (D := fun R z => 0 < R ^ 2 + z ^ 2 + b ^ 2) ?_ ?_ ?_ ?_ ?_ ?_ ?_ ?_ ?_
  · exact fun R z h => ev_pos (f := fun x => x ^ 2 + z ^ 2 + b ^ 2) (by fun_prop) h
  · exact fun R z h => ev_pos (f := fun x => R ^ 2 + x ^ 2 + b ^ 2) (by fun_prop) h
  all_goals
    intro R z h; try intro h'
    obtain ⟨s, hs, e1, e2, e3⟩ := key R z h
    have hbs : 0 < b + √(R ^ 2 + z ^ 2 + b ^ 2) := by rw [e1]; linarith
    try unfold evaluate
    try unfold dens
    try unfold Rforce
    try unfold zforce
    try unfold R2deriv
    try unfold z2deriv
    try unfold Rzderiv
    try dsimp only
  all_goals
    try apply HasDerivAt.congr_deriv
    try · hasderiv
          all_goals positivity
  all_goals
    rw [e1] at hbs ⊢
    field_simp
    elimsq e3
    try ring
end Verif.Isochrone

namespace Verif.Isochrone

theorem cEval_eq (amp b R z : ℝ) : cEval amp b R z = amp * evaluate b R z := by
  unfold cEval evaluate; simp only [← sq]; ring
theorem cRforce_eq (amp b R z : ℝ) : cRforce amp b R z = amp * Rforce b R z := by
  unfold cRforce Rforce; simp only [← sq, zpow_neg, zpow_ofNat]; ring
theorem czforce_eq (amp b R z : ℝ) : czforce amp b R z = amp * zforce b R z := by
  unfold czforce zforce; simp only [← sq, zpow_neg, zpow_ofNat]; ring
theorem cPlanarRforce_eq (amp b R : ℝ) : cPlanarRforce amp b R = amp * Rforce b R 0 := by
  unfold cPlanarRforce Rforce; simp only [← sq, zpow_neg, zpow_ofNat]; simp; ring
theorem cPlanarR2deriv_eq (amp b R : ℝ) : cPlanarR2deriv amp b R = amp * R2deriv b R 0 := by
  unfold cPlanarR2deriv R2deriv; simp only [← sq, zpow_neg, zpow_ofNat]
  simp only [mul_pow, mul_inv, ne_eq, OfNat.ofNat_ne_zero, not_false_eq_true, zero_pow, add_zero, mul_zero,
    sub_zero]
  generalize √(R ^ 2 + b ^ 2) = s
  rw [div_div, div_eq_mul_inv, mul_inv]
  generalize ((b + s) ^ 3)⁻¹ = q
  generalize (s ^ 3)⁻¹ = q'
  ring
theorem cDens_eq (amp b R z : ℝ) : cDens amp b R z = amp * dens b R z := by
  unfold cDens dens; simp only [← sq, zpow_neg, zpow_ofNat, mul_pow, mul_inv, div_eq_mul_inv]
  generalize √(R ^ 2 + z ^ 2 + b ^ 2) = s
  generalize ((b + s) ^ 3)⁻¹ = q
  generalize (s ^ 3)⁻¹ = q'
  ring

private theorem csec {b R z : ℝ} (hb : 0 ≤ b) (h : 0 < R ^ 2 + z ^ 2) :
    ∃ r s, 0 < r ∧ 0 < s ∧ 0 < b + s ∧ √(R ^ 2 + z ^ 2) = r ∧ R ^ 2 + z ^ 2 = r ^ 2 ∧
      √(r ^ 2 + b ^ 2) = s ∧ s ^ 2 = r ^ 2 + b ^ 2 ∧ R ^ 2 = r ^ 2 - z ^ 2 := by
  have h2 : 0 < √(R ^ 2 + z ^ 2) ^ 2 + b ^ 2 := by rw [Real.sq_sqrt h.le]; positivity
  refine ⟨√(R ^ 2 + z ^ 2), √(√(R ^ 2 + z ^ 2) ^ 2 + b ^ 2), Real.sqrt_pos.2 h,
    Real.sqrt_pos.2 h2, ?_, rfl, ?_, rfl, ?_, ?_⟩
  · have := Real.sqrt_pos.2 h2; positivity
  · rw [Real.sq_sqrt h.le]
  · rw [Real.sq_sqrt h2.le]
  · rw [Real.sq_sqrt h.le]; ring

theorem cR2deriv_eq (amp : ℝ) {b R z : ℝ} (hb : 0 ≤ b) (h : 0 < R ^ 2 + z ^ 2) :
    cR2deriv amp b R z = amp * R2deriv b R z := by
  obtain ⟨r, s, hr, hs, hbs, e1, e2, e3, e4, e5⟩ := csec hb h
  unfold cR2deriv R2deriv cPlanarR2deriv cPlanarRforce
  simp only [← sq, zpow_neg, zpow_ofNat]
  rw [e1, e2, e3]
  field_simp
  elimsq e5; elimsq e4
  ring
theorem cz2deriv_eq (amp : ℝ) {b R z : ℝ} (hb : 0 ≤ b) (h : 0 < R ^ 2 + z ^ 2) :
    cz2deriv amp b R z = amp * z2deriv b R z := by
  obtain ⟨r, s, hr, hs, hbs, e1, e2, e3, e4, e5⟩ := csec hb h
  unfold cz2deriv z2deriv cPlanarR2deriv cPlanarRforce
  simp only [← sq, zpow_neg, zpow_ofNat]
  rw [e1, e2, e3]
  field_simp
  elimsq e5; elimsq e4
  ring
theorem cRzderiv_eq (amp : ℝ) {b R z : ℝ} (hb : 0 ≤ b) (h : 0 < R ^ 2 + z ^ 2) :
    cRzderiv amp b R z = amp * Rzderiv b R z := by
  obtain ⟨r, s, hr, hs, hbs, e1, e2, e3, e4, e5⟩ := csec hb h
  unfold cRzderiv Rzderiv cPlanarR2deriv cPlanarRforce
  simp only [← sq, zpow_neg, zpow_ofNat]
  rw [e1, e2, e3]
  field_simp
  elimsq e4
  ring
end Verif.Isochrone
