import Verif.Model.Pot.MiyamotoNagai

set_option autoImplicit false

noncomputable section
namespace Verif.MiyamotoNagai
open Real Filter Topology

/-- The two branches of the Python code give the same function where `z^2+b^2>0`. -/
theorem zforce_eq {s : Bool} {a b R z : ℝ} (h : 0 < z ^ 2 + b ^ 2) :
    zforce s a b R z = -z * (a + √(z ^ 2 + b ^ 2)) / √(z ^ 2 + b ^ 2)
      / (R ^ 2 + (a + √(z ^ 2 + b ^ 2)) ^ 2) ^ (3/2 : ℝ) := by
  have hs := sqrt_pos.2 h
  unfold zforce
  rw [add_comm (b ^ 2)]
  dsimp only
  split_ifs with hc
  · rw [← hc.2]; field_simp
  · rfl

theorem Rzderiv_eq {s : Bool} {a b R z : ℝ} (h : 0 < z ^ 2 + b ^ 2) :
    Rzderiv s a b R z = -(3 * R * z * (a + √(z ^ 2 + b ^ 2)) / √(z ^ 2 + b ^ 2)
      / (R ^ 2 + (a + √(z ^ 2 + b ^ 2)) ^ 2) ^ (5/2 : ℝ)) := by
  have hs := sqrt_pos.2 h
  unfold Rzderiv
  rw [add_comm (b ^ 2)]
  dsimp only
  split_ifs with hc
  · rw [← hc.2]; field_simp
  · rfl

theorem z2deriv_eq {s : Bool} {a b R z : ℝ} (h : 0 < z ^ 2 + b ^ 2) :
    z2deriv s a b R z = (a ^ 3 * b ^ 2 + a ^ 2 * (3 * b ^ 2 - 2 * z ^ 2) * √(z ^ 2 + b ^ 2)
      + (b ^ 2 + R ^ 2 - 2 * z ^ 2) * (z ^ 2 + b ^ 2) ^ (3/2 : ℝ)
      + a * (3 * (b ^ 2) ^ 2 - 4 * z ^ 4 + b ^ 2 * (R ^ 2 - z ^ 2)))
      / ((z ^ 2 + b ^ 2) ^ (3/2 : ℝ) * (R ^ 2 + (a + √(z ^ 2 + b ^ 2)) ^ 2) ^ (5/2 : ℝ)) := by
  have hs := sqrt_pos.2 h
  unfold z2deriv
  rw [add_comm (b ^ 2) (z ^ 2)]
  dsimp only
  split_ifs with hc
  · have ha : a = 0 := by linarith [hc.2]
    have hu : 0 < R ^ 2 + √(z ^ 2 + b ^ 2) ^ 2 := by positivity
    have hw : b ^ 2 + R ^ 2 + z ^ 2 = R ^ 2 + √(z ^ 2 + b ^ 2) ^ 2 := by rw [sq_sqrt h.le]; ring
    have h3 : (z ^ 2 + b ^ 2) ^ (3/2 : ℝ) ≠ 0 := (rpow_pos_of_pos h _).ne'
    rw [ha, hw, zero_add, rpow_neg hu.le]
    have h5 : (R ^ 2 + √(z ^ 2 + b ^ 2) ^ 2) ^ (5/2 : ℝ) ≠ 0 := (rpow_pos_of_pos hu _).ne'
    field_simp
    ring
  · rfl

theorem dens_eq {s : Bool} {a b R z : ℝ} (h : 0 < z ^ 2 + b ^ 2) :
    dens s a b R z = (a * R ^ 2 + (a + 3 * √(z ^ 2 + b ^ 2)) * (a + √(z ^ 2 + b ^ 2)) ^ 2)
      / (R ^ 2 + (a + √(z ^ 2 + b ^ 2)) ^ 2) ^ (5/2 : ℝ) / √(z ^ 2 + b ^ 2) ^ 3 / 4 / π * b ^ 2 := by
  have hs := sqrt_pos.2 h
  unfold dens
  rw [add_comm (b ^ 2) (z ^ 2)]
  dsimp only
  split_ifs with hc
  · have ha : a = 0 := by linarith [hc.2]
    have hu : 0 < R ^ 2 + √(z ^ 2 + b ^ 2) ^ 2 := by positivity
    rw [ha]
    simp only [zero_add, zero_mul]
    field_simp
  · rfl

theorem consistent (scalar : Bool) (a b : ℝ) :
    Consistent (pot scalar a b) (fun R z _ => 0 < z ^ 2 + b ^ 2 ∧
      0 < R ^ 2 + (a + √(z ^ 2 + b ^ 2)) ^ 2) := by
  have key : ∀ R z : ℝ, 0 < z ^ 2 + b ^ 2 ∧ 0 < R ^ 2 + (a + √(z ^ 2 + b ^ 2)) ^ 2 →
      ∃ s w, 0 < s ∧ 0 < w ∧ √(z ^ 2 + b ^ 2) = s ∧ √(R ^ 2 + (a + s) ^ 2) = w ∧
        z ^ 2 + b ^ 2 = s ^ 2 ∧ R ^ 2 + (a + s) ^ 2 = w ^ 2 ∧ b ^ 2 = s ^ 2 - z ^ 2 ∧
        w ^ 2 = R ^ 2 + (a + s) ^ 2 := by
    intro R z ⟨h, h'⟩
    refine ⟨_, _, sqrt_pos.2 h, sqrt_pos.2 h', rfl, rfl, ?_, ?_, ?_, ?_⟩
    · rw [sq_sqrt h.le]
    · rw [sq_sqrt h'.le]
    · rw [sq_sqrt h.le]; ring
    · rw [sq_sqrt h'.le]
  have opR : ∀ R z : ℝ, 0 < z ^ 2 + b ^ 2 ∧ 0 < R ^ 2 + (a + √(z ^ 2 + b ^ 2)) ^ 2 →
      ∀ᶠ x in 𝓝 R, 0 < z ^ 2 + b ^ 2 ∧ 0 < x ^ 2 + (a + √(z ^ 2 + b ^ 2)) ^ 2 :=
    fun R z h => (Eventually.of_forall fun _ => h.1).and
      (ev_pos (f := fun x => x ^ 2 + (a + √(z ^ 2 + b ^ 2)) ^ 2) (by fun_prop) h.2)
  have opz : ∀ R z : ℝ, 0 < z ^ 2 + b ^ 2 ∧ 0 < R ^ 2 + (a + √(z ^ 2 + b ^ 2)) ^ 2 →
      ∀ᶠ x in 𝓝 z, 0 < x ^ 2 + b ^ 2 ∧ 0 < R ^ 2 + (a + √(x ^ 2 + b ^ 2)) ^ 2 :=
    fun R z h => (ev_pos (f := fun x => x ^ 2 + b ^ 2) (by fun_prop) h.1).and
      (ev_pos (f := fun x => R ^ 2 + (a + √(x ^ 2 + b ^ 2)) ^ 2) (by fun_prop) h.2)
  refine Consistent.axi (D := fun R z => 0 < z ^ 2 + b ^ 2 ∧
      0 < R ^ 2 + (a + √(z ^ 2 + b ^ 2)) ^ 2) opR opz ?_ ?_ ?_ ?_ ?_ ?_ ?_
  rotate_left 4
  · intro R z h
    refine HasDerivAt.congr_of_eventuallyEq ?_ ((opR R z h).mono fun x k => zforce_eq k.1)
    rw [Rzderiv_eq h.1]
    obtain ⟨s, w, hs, hw, e1, e2, e3, e4, e5, e6⟩ := key R z h
    apply HasDerivAt.congr_deriv
    · hasderiv
      all_goals first | positivity | exact h.1.ne' | exact h.2 | exact (rpow_pos_of_pos h.2 _).ne'
    · simp only [rpow_three_half h.2, rpow_five_half h.2]; simp only [e1, e2]
      rw [e4]
      field_simp
      elimsq e6
      try ring
  · intro R z h
    refine HasDerivAt.congr_of_eventuallyEq ?_ ((opz R z h).mono fun x k => zforce_eq k.1)
    rw [z2deriv_eq h.1]
    obtain ⟨s, w, hs, hw, e1, e2, e3, e4, e5, e6⟩ := key R z h
    apply HasDerivAt.congr_deriv
    · hasderiv
      all_goals first
        | exact h.1.ne'
        | exact h.2
        | exact (rpow_pos_of_pos h.2 _).ne'
        | exact (sqrt_pos.2 h.1).ne'
    · simp only [rpow_three_half h.1, rpow_three_half h.2, rpow_five_half h.2]; simp only [e1, e2]
      rw [e4, e3]
      field_simp
      elimsq e6
      elimsq e5
      try ring
  · intro R z h h'
    rw [z2deriv_eq h.1, dens_eq h.1]
    unfold Rforce R2deriv
    obtain ⟨s, w, hs, hw, e1, e2, e3, e4, e5, e6⟩ := key R z h
    simp only [rpow_three_half h.1, rpow_three_half h.2, rpow_five_half h.2]; simp only [e1, e2]
    rw [e4, e3]
    field_simp
    elimsq e6
    elimsq e5
    try ring
  all_goals
    intro R z h
    try rw [zforce_eq h.1]
    try rw [Rzderiv_eq h.1]
    try unfold evaluate
    try unfold Rforce
    try unfold R2deriv
    obtain ⟨s, w, hs, hw, e1, e2, e3, e4, e5, e6⟩ := key R z h
  all_goals
    apply HasDerivAt.congr_deriv
    · hasderiv
      all_goals first
        | exact h.1.ne'
        | exact h.2
        | exact h.2.ne'
        | exact (rpow_pos_of_pos h.2 _).ne'
        | exact (sqrt_pos.2 h.1).ne'
        | exact (sqrt_pos.2 h.2).ne'
    · simp only [rpow_three_half h.1, rpow_three_half h.2, rpow_five_half h.2]; simp only [e1, e2]
      rw [e4]
      field_simp
      elimsq e6
      try ring
end Verif.MiyamotoNagai

namespace Verif.MiyamotoNagai
variable {s : Bool} (amp : ℝ) {a b R z : ℝ}

theorem cEval_eq (hu : 0 < R ^ 2 + (a + √(z ^ 2 + b ^ 2)) ^ 2) :
    cEval amp a b R z = amp * evaluate a b R z := by
  unfold cEval evaluate; simp only [← sq]; rw [rpow_neg_half hu]; ring
theorem cRforce_eq (hu : 0 < R ^ 2 + (a + √(z ^ 2 + b ^ 2)) ^ 2) :
    cRforce amp a b R z = amp * Rforce a b R z := by
  unfold cRforce Rforce; simp only [← sq]; rw [Real.rpow_neg hu.le]; ring
theorem czforce_eq (h : 0 < z ^ 2 + b ^ 2) (hu : 0 < R ^ 2 + (a + √(z ^ 2 + b ^ 2)) ^ 2) :
    czforce amp a b R z = amp * zforce s a b R z := by
  have hs := Real.sqrt_pos.2 h
  rw [zforce_eq h]
  unfold czforce
  simp only [← sq]
  rw [add_comm (b ^ 2), Real.rpow_neg hu.le]
  split_ifs with ha
  · subst ha; rw [zero_add] at *; field_simp
  · ring
theorem cR2deriv_eq (hu : 0 < R ^ 2 + (a + √(z ^ 2 + b ^ 2)) ^ 2) :
    cR2deriv amp a b R z = amp * R2deriv a b R z := by
  unfold cR2deriv R2deriv; simp only [mul_assoc, ← sq]
  rw [add_comm (b ^ 2), Real.rpow_neg hu.le, Real.rpow_neg hu.le]; ring
theorem cRzderiv_eq (h : 0 < z ^ 2 + b ^ 2) (hu : 0 < R ^ 2 + (a + √(z ^ 2 + b ^ 2)) ^ 2) :
    cRzderiv amp a b R z = amp * Rzderiv s a b R z := by
  have hs := Real.sqrt_pos.2 h
  rw [Rzderiv_eq h]
  unfold cRzderiv
  simp only [← sq]
  rw [add_comm (b ^ 2), Real.rpow_neg hu.le]
  split_ifs with ha
  · subst ha; rw [zero_add] at *; field_simp
  · ring
theorem cz2deriv_eq (h : 0 < z ^ 2 + b ^ 2) (hu : 0 < R ^ 2 + (a + √(z ^ 2 + b ^ 2)) ^ 2) :
    cz2deriv amp a b R z = amp * z2deriv s a b R z := by
  have hs := Real.sqrt_pos.2 h
  rw [z2deriv_eq h]
  unfold cz2deriv
  simp only [mul_assoc, ← sq]
  rw [add_comm (b ^ 2) (z ^ 2)]
  split_ifs with ha
  · subst ha
    rw [zero_add] at *
    have hw : b ^ 2 + R ^ 2 + z ^ 2 = R ^ 2 + √(z ^ 2 + b ^ 2) ^ 2 := by
      rw [Real.sq_sqrt h.le]; ring
    have h3 : (z ^ 2 + b ^ 2) ^ (3/2 : ℝ) ≠ 0 := (Real.rpow_pos_of_pos h _).ne'
    rw [hw, Real.rpow_neg hu.le]
    have h5 : (R ^ 2 + √(z ^ 2 + b ^ 2) ^ 2) ^ (5/2 : ℝ) ≠ 0 := (Real.rpow_pos_of_pos hu _).ne'
    field_simp
    ring
  · ring
theorem cDens_eq (h : 0 < z ^ 2 + b ^ 2) (hu : 0 < R ^ 2 + (a + √(z ^ 2 + b ^ 2)) ^ 2) :
    cDens amp a b R z = amp * dens s a b R z := by
  have hs := Real.sqrt_pos.2 h
  rw [dens_eq h]
  unfold cDens
  simp only [mul_assoc, ← sq]
  rw [add_comm (b ^ 2) (z ^ 2), Real.rpow_neg hu.le]
  split_ifs with ha
  · subst ha; rw [zero_add] at *
    rw [Real.rpow_neg hu.le]
    have h5 : (R ^ 2 + √(z ^ 2 + b ^ 2) ^ 2) ^ (5/2 : ℝ) ≠ 0 := (Real.rpow_pos_of_pos hu _).ne'
    field_simp
    ring
  · simp only [zpow_neg, zpow_ofNat]; ring
theorem cPlanarRforce_eq (hb : 0 ≤ b) (hu : 0 < R ^ 2 + (a + b) ^ 2) :
    cPlanarRforce amp a b R = amp * Rforce a b R 0 := by
  unfold cPlanarRforce Rforce
  have : √(0 ^ 2 + b ^ 2) = b := by rw [zero_pow two_ne_zero, zero_add, Real.sqrt_sq hb]
  rw [this, ← sq, Real.rpow_neg hu.le]; ring
theorem cPlanarR2deriv_eq (hb : 0 ≤ b) (hu : 0 < R ^ 2 + (a + b) ^ 2) :
    cPlanarR2deriv amp a b R = amp * R2deriv a b R 0 := by
  unfold cPlanarR2deriv R2deriv
  have : √(0 ^ 2 + b ^ 2) = b := by rw [zero_pow two_ne_zero, zero_add, Real.sqrt_sq hb]
  simp only [mul_assoc, ← sq]
  rw [this, Real.rpow_neg hu.le, Real.rpow_neg hu.le]; ring
end Verif.MiyamotoNagai
