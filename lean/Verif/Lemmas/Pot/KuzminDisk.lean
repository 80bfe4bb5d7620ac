import Verif.Model.Pot.KuzminDisk
import Mathlib.Analysis.Calculus.Deriv.Abs

set_option autoImplicit false

noncomputable section
namespace Verif.KuzminDisk
open Real Filter Topology

theorem sign_mul_sign {z : ℝ} (h : z ≠ 0) : Real.sign z * Real.sign z = 1 := by
  rcases lt_or_gt_of_ne h with h | h
  · rw [Real.sign_of_neg h]; norm_num
  · rw [Real.sign_of_pos h]; norm_num

theorem hd_abs {z : ℝ} (h : z ≠ 0) : HasDerivAt (fun x : ℝ => |x|) (Real.sign z) z := by
  rcases lt_or_gt_of_ne h with h | h
  · rw [Real.sign_of_neg h]; exact hasDerivAt_abs_neg h
  · rw [Real.sign_of_pos h]; exact hasDerivAt_abs_pos h

theorem hd_sign {z : ℝ} (h : z ≠ 0) : HasDerivAt (fun x : ℝ => Real.sign x) 0 z := by
  rcases lt_or_gt_of_ne h with h | h
  · refine (hd_const (-1) z).congr_of_eventuallyEq ?_
    filter_upwards [gt_mem_nhds h] with x hx using Real.sign_of_neg hx
  · refine (hd_const 1 z).congr_of_eventuallyEq ?_
    filter_upwards [lt_mem_nhds h] with x hx using Real.sign_of_pos hx

theorem csign_eq (z : ℝ) : csign z = Real.sign z := by
  unfold csign
  rcases lt_trichotomy z 0 with h | h | h
  · rw [Real.sign_of_neg h]; simp [h, h.le]
  · subst h; simp
  · rw [Real.sign_of_pos h]; simp [h, h.le]

theorem denom_pos {a R z : ℝ} (ha : 0 ≤ a) (hz : z ≠ 0) : 0 < denom a R z := by
  unfold denom
  have : 0 < a + |z| := by positivity
  positivity

theorem consistent {a : ℝ} (ha : 0 ≤ a) :
    Consistent (pot a) (fun _ z _ => z ≠ 0) := by
  have key : ∀ R z : ℝ, z ≠ 0 →
      ∃ w, 0 < w ∧ √(R ^ 2 + (a + |z|) ^ 2) = w ∧ R ^ 2 + (a + |z|) ^ 2 = w ^ 2 ∧
        w ^ 2 = R ^ 2 + (a + |z|) ^ 2 ∧ 0 < R ^ 2 + (a + |z|) ^ 2:= by
    intro R z h
    have := denom_pos (R := R) ha h
    unfold denom at this
    refine ⟨_, sqrt_pos.2 this, rfl, ?_, ?_, this⟩ <;> rw [sq_sqrt this.le]
  refine Consistent.axi (D := fun _ z => z ≠ 0) ?_ ?_ ?_ ?_ ?_ ?_ ?_ ?_ ?_
  · exact fun R z h => Eventually.of_forall fun _ => h
  · exact fun R z h => isOpen_ne.mem_nhds h
  all_goals
    intro R z h; try intro h'
    have da := hd_abs h
    have ds := hd_sign h
    have e5 : Real.sign z ^ 2 = 1 := by rw [sq]; exact sign_mul_sign h
    obtain ⟨w, hw, e1, e2, e3, hp⟩ := key R z h
    try unfold dens
    try unfold evaluate
    try unfold Rforce
    try unfold zforce
    try unfold R2deriv
    try unfold z2deriv
    try unfold Rzderiv
    unfold denom
  all_goals
    try apply HasDerivAt.congr_deriv
    try · hasderiv
          all_goals exact hp
  all_goals
    simp only [rpow_neg_half hp, rpow_neg_three_half hp, rpow_neg_five_half hp]
    rw [e1, e2]
    field_simp
    elimsq e3
    elimsq e5
    try ring

/-- Off the plane the Kuzmin disk has no mass: the density computed from the
Poisson equation vanishes. -/
theorem dens_eq_zero {a R z : ℝ} (ha : 0 ≤ a) (hz : z ≠ 0) (hR : R ≠ 0) : dens a R z = 0 := by
  have hp := denom_pos (R := R) ha hz
  unfold dens Rforce R2deriv z2deriv
  rw [rpow_neg_three_half hp, rpow_neg_five_half hp]
  have hw := sqrt_pos.2 hp
  unfold denom at *
  field_simp
  ring

theorem cEval_eq (amp a R z : ℝ) : cEval amp a R z = amp * evaluate a R z := by
  unfold cEval evaluate denom; rw [← sq]; ring
theorem cRforce_eq (amp a R z : ℝ) : cRforce amp a R z = amp * Rforce a R z := by
  unfold cRforce Rforce denom; rw [← sq]; ring
theorem cPlanarRforce_eq (amp a R : ℝ) : cPlanarRforce amp a R = amp * Rforce a R 0 := by
  unfold cPlanarRforce Rforce denom; simp only [abs_zero, add_zero, ← sq]; ring
theorem czforce_eq (amp a R z : ℝ) : czforce amp a R z = amp * zforce a R z := by
  unfold czforce zforce denom; rw [← sq, csign_eq]; ring
theorem cR2deriv_eq (amp : ℝ) {a R z : ℝ} (h : 0 < denom a R z) :
    cR2deriv amp a R z = amp * R2deriv a R z := by
  unfold cR2deriv R2deriv
  rw [rpow_neg_three_half h, rpow_neg_five_half h]
  unfold denom at *
  simp only [← sq]
  have hw := sqrt_pos.2 h
  field_simp
theorem cz2deriv_eq (amp : ℝ) {a R z : ℝ} (h : 0 < denom a R z) :
    cz2deriv amp a R z = amp * z2deriv a R z := by
  unfold cz2deriv z2deriv
  rw [rpow_neg_three_half h, rpow_neg_five_half h]
  unfold denom at *
  simp only [← sq]
  have hw := sqrt_pos.2 h
  field_simp
theorem cRzderiv_eq (amp : ℝ) {a R z : ℝ} (h : 0 < denom a R z) :
    cRzderiv amp a R z = amp * Rzderiv a R z := by
  unfold cRzderiv Rzderiv
  rw [rpow_neg_five_half h, csign_eq]
  unfold denom at *
  simp only [← sq]
/-- The C function used for planar variational integration has the opposite sign. -/
theorem cPlanarR2deriv_eq_neg (amp a R : ℝ) :
    cPlanarR2deriv amp a R = -(amp * R2deriv a R 0) := by
  unfold cPlanarR2deriv R2deriv denom; simp only [abs_zero, add_zero, ← sq]; ring

end Verif.KuzminDisk
