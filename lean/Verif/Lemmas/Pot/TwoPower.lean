import Verif.Model.Pot.TwoPower
import Verif.Lemmas.Pot.Spherical

set_option autoImplicit false

noncomputable section
namespace Verif
open Real Filter Topology

/-! ## Dehnen -/
namespace Dehnen

/-- The radial profile (organises the proof). -/
def radial (a α : ℝ) : Spherical.Radial := Spherical.stat
  (fun r => -(1 - r ^ 2 / (r + a) ^ 2 * ((r + a) ^ α / r ^ α)) / (a * (2 - α) * (3 - α)))
  (fun r => -r / r ^ α * ((r + a) ^ α / (r + a) ^ 3) / (3 - α))
  (fun r => (r + a) ^ α / r ^ α / (r + a) ^ 4 * (2 * r + a * (α - 1)) / (α - 3))
  (fun r => (r + a) ^ α / r ^ α * a / (r + a) ^ 4 / 4 / π)

theorem radialOK {a α : ℝ} (ha : 0 < a) (h2 : α ≠ 2) (h3 : α ≠ 3) :
    Spherical.RadialOK (radial a α) (Set.Ioi 0) := by
  have h2' : 2 - α ≠ 0 := sub_ne_zero.2 h2.symm
  have h3' : 3 - α ≠ 0 := sub_ne_zero.2 h3.symm
  have h3'' : α - 3 ≠ 0 := sub_ne_zero.2 h3
  refine Spherical.RadialOK.stat isOpen_Ioi (fun r h => h) ?_ ?_ ?_
  all_goals
    intro r hr
    have hr : 0 < r := hr
    have h1 : r ≠ 0 := hr.ne'
    have k1 : 0 < r + a := by positivity
    have k2 := k1.ne'
    have p1 := rpow_pos_of_pos hr α
    have p2 := rpow_pos_of_pos k1 α
  · apply HasDerivAt.congr_deriv
    · hasderiv; all_goals first | assumption | exact pow_ne_zero _ k2 | exact p1.ne'
    · generalize r ^ α = p at *
      generalize (r + a) ^ α = q at *
      field_simp
      ring
  · apply HasDerivAt.congr_deriv
    · hasderiv; all_goals first | assumption | exact pow_ne_zero _ k2 | exact p1.ne'
    · generalize r ^ α = p at *
      generalize (r + a) ^ α = q at *
      rw [← neg_sub 3 α]
      field_simp
      ring
  · generalize r ^ α = p at *
    generalize (r + a) ^ α = q at *
    have := pi_ne_zero
    rw [← neg_sub 3 α]
    field_simp; ring

theorem pows {a r : ℝ} (α : ℝ) (ha : 0 < a) (hr : 0 < r) :
    (1 + a / r) ^ (2 - α) = (r + a) ^ 2 / r ^ 2 / ((r + a) ^ α / r ^ α) ∧
    (r + a) ^ (α - 3) = (r + a) ^ α / (r + a) ^ 3 ∧
    (r + a) ^ (α - 4) = (r + a) ^ α / (r + a) ^ 4 ∧
    r ^ (-2 - α) = 1 / (r ^ 2 * r ^ α) ∧
    (a / r) ^ α = a ^ α / r ^ α ∧ (1 + r / a) ^ (4 - α) = (r + a) ^ 4 / a ^ 4 / ((r + a) ^ α / a ^ α) ∧
    (1 + a / r) ^ α = (r + a) ^ α / r ^ α ∧
    (r / (r + a)) ^ (2 - α) = r ^ 2 / (r + a) ^ 2 / (r ^ α / (r + a) ^ α) ∧
    (1 + r / a) ^ (α - 4) = (r + a) ^ α / a ^ α / ((r + a) ^ 4 / a ^ 4) ∧ a ^ (α - 3) = a ^ α / a ^ 3 ∧
    r ^ (-α) = 1 / r ^ α := by
  have hk : 0 < r + a := by positivity
  have e1 : 1 + a / r = (r + a) / r := by field_simp
  have e2 : 1 + r / a = (r + a) / a := by field_simp; ring
  refine ⟨?_, ?_, ?_, ?_, ?_, ?_, ?_, ?_, ?_, ?_, ?_⟩
  · rw [e1, rpow_sub (by positivity), div_rpow hk.le hr.le α, rpow_two, div_pow]
  · rw [rpow_sub hk, show (3 : ℝ) = ((3 : ℕ) : ℝ) by norm_num, rpow_natCast]
  · rw [rpow_sub hk, show (4 : ℝ) = ((4 : ℕ) : ℝ) by norm_num, rpow_natCast]
  · rw [rpow_sub hr, rpow_neg hr.le, rpow_two]; field_simp
  · rw [div_rpow ha.le hr.le]
  · rw [e2, rpow_sub (by positivity), div_rpow hk.le ha.le α, show (4 : ℝ) = ((4 : ℕ) : ℝ) by norm_num,
      rpow_natCast, div_pow]
  · rw [e1, div_rpow hk.le hr.le]
  · rw [rpow_sub (by positivity), div_rpow hr.le hk.le α, rpow_two, div_pow]
  · rw [e2, rpow_sub (by positivity), div_rpow hk.le ha.le α, show (4 : ℝ) = ((4 : ℕ) : ℝ) by norm_num,
      rpow_natCast, div_pow]
  · rw [rpow_sub ha, show (3 : ℝ) = ((3 : ℕ) : ℝ) by norm_num, rpow_natCast]
  · rw [rpow_neg hr.le, one_div]

theorem dens_radial {a : ℝ} (α : ℝ) (ha : 0 < a) {r R z : ℝ} (hr : 0 < r) (e1 : √(R ^ 2 + z ^ 2) = r) :
    dens a α R z = (r + a) ^ α / r ^ α * a / (r + a) ^ 4 / 4 / π := by
  obtain ⟨q1, q2, q3, q4, q5, q6, q7, q8, q9, q10, q11⟩ := pows α ha hr
  have k1 : 0 < r + a := by positivity
  have p1 := rpow_pos_of_pos hr α
  have p2 := rpow_pos_of_pos k1 α
  have p3 := rpow_pos_of_pos ha α
  simp only [dens, e1, q5, q6]
  field_simp

theorem consistent {a α : ℝ} (ha : 0 < a) (h2 : α ≠ 2) (h3 : α ≠ 3) :
    Consistent (pot a α) (Spherical.Dom (Set.Ioi 0)) := by
  have h2' : 2 - α ≠ 0 := sub_ne_zero.2 h2.symm
  have h3' : 3 - α ≠ 0 := sub_ne_zero.2 h3.symm
  have h3'' : α - 3 ≠ 0 := sub_ne_zero.2 h3
  refine Spherical.consistent_axi (radialOK ha h2 h3) (fun _ _ => ⟨rfl, rfl, rfl, rfl⟩)
    ?_ ?_ ?_ ?_ ?_ ?_ ?_
  all_goals
    intro R z r _ hr e1 e2
    have k1 : 0 < r + a := by positivity
    have p1 := rpow_pos_of_pos hr α
    have p2 := rpow_pos_of_pos k1 α
    obtain ⟨q1, q2, q3, q4, q5, q6, q7, q8, q9, q10, q11⟩ := pows α ha hr
    try simp only [Rforce, zforce, R2deriv, z2deriv, Rzderiv, radial, Spherical.stat]
    try simp only [add_comm (z ^ 2) (R ^ 2), add_comm a r, e1, q2, q3, q4]
  · simp only [evaluate, e1, q1]
    generalize r ^ α = p at *
    generalize (r + a) ^ α = q at *
    field_simp
  · generalize r ^ α = p at *
    generalize (r + a) ^ α = q at *
    field_simp
  · generalize r ^ α = p at *
    generalize (r + a) ^ α = q at *
    field_simp
  · generalize r ^ α = p at *
    generalize (r + a) ^ α = q at *
    rw [← neg_sub 3 α]
    field_simp; elimsq e2; ring
  · generalize r ^ α = p at *
    generalize (r + a) ^ α = q at *
    rw [← neg_sub 3 α]
    field_simp; elimsq e2; ring
  · generalize r ^ α = p at *
    generalize (r + a) ^ α = q at *
    rw [← neg_sub 3 α]
    field_simp; ring
  · exact dens_radial α ha hr e1

section C
variable (amp : ℝ) {a α R z : ℝ}
private theorem csec (ha : 0 < a) (h : 0 < R ^ 2 + z ^ 2) :
    ∃ r, 0 < r ∧ 0 < r + a ∧ √(R ^ 2 + z ^ 2) = r ∧ R ^ 2 + z ^ 2 = r ^ 2 ∧ z ^ 2 = r ^ 2 - R ^ 2 := by
  have hr := sqrt_pos.2 h
  exact ⟨_, hr, by positivity, rfl, (sq_sqrt h.le).symm, by rw [sq_sqrt h.le]; ring⟩
theorem cEval_eq (ha : 0 < a) (h : 0 < R ^ 2 + z ^ 2) : cEval amp a α R z = amp * evaluate a α R z := by
  obtain ⟨r, hr, k1, e1, e2, e3⟩ := csec ha h
  obtain ⟨q1, q2, q3, q4, q5, q6, q7, q8, q9, q10, q11⟩ := pows α ha hr
  have p1 := rpow_pos_of_pos hr α
  have p2 := rpow_pos_of_pos k1 α
  simp only [cEval, evaluate, ← sq, e1, q1, q8]
  generalize r ^ α = p at *
  generalize (r + a) ^ α = q at *
  have : r ^ 2 / (r + a) ^ 2 / (p / q) = 1 / ((r + a) ^ 2 / r ^ 2 / (q / p)) := by field_simp
  rw [this]; ring
theorem cRforce_eq (ha : 0 < a) (h : 0 < R ^ 2 + z ^ 2) :
    cRforce amp a α R z = amp * Rforce a α R z := by
  obtain ⟨r, hr, k1, e1, e2, e3⟩ := csec ha h
  obtain ⟨q1, q2, q3, q4, q5, q6, q7, q8, q9, q10, q11⟩ := pows α ha hr
  simp only [cRforce, Rforce, ← sq, e1, add_comm a r, q7, q2]
  ring
theorem czforce_eq (ha : 0 < a) (h : 0 < R ^ 2 + z ^ 2) :
    czforce amp a α R z = amp * zforce a α R z := by
  obtain ⟨r, hr, k1, e1, e2, e3⟩ := csec ha h
  obtain ⟨q1, q2, q3, q4, q5, q6, q7, q8, q9, q10, q11⟩ := pows α ha hr
  simp only [czforce, zforce, ← sq, e1, add_comm a r, q7, q2]
  ring
theorem cDens_eq (ha : 0 < a) (h : 0 < R ^ 2 + z ^ 2) : cDens amp a α R z = amp * dens a α R z := by
  obtain ⟨r, hr, k1, e1, e2, e3⟩ := csec ha h
  obtain ⟨q1, q2, q3, q4, q5, q6, q7, q8, q9, q10, q11⟩ := pows α ha hr
  have p1 := rpow_pos_of_pos hr α
  have p2 := rpow_pos_of_pos k1 α
  have p3 := rpow_pos_of_pos ha α
  rw [dens_radial α ha hr e1]
  simp only [cDens, ← sq, e1, q9, q10, q11]
  have := pi_ne_zero
  field_simp
theorem planarRforce {r : ℝ} (ha : 0 < a) (hr : 0 < r) :
    cPlanarRforce amp a α r = amp * (radial a α).force r 0 := by
  obtain ⟨q1, q2, q3, q4, q5, q6, q7, q8, q9, q10, q11⟩ := pows α ha hr
  simp only [cPlanarRforce, radial, Spherical.stat, add_comm a r, q7]
  ring
theorem planarR2deriv {r : ℝ} (ha : 0 < a) (hr : 0 < r) (h3 : α ≠ 3) :
    cPlanarR2deriv amp a α r = amp * (radial a α).d2 r 0 := by
  obtain ⟨q1, q2, q3, q4, q5, q6, q7, q8, q9, q10, q11⟩ := pows α ha hr
  have h3' : 3 - α ≠ 0 := sub_ne_zero.2 h3.symm
  have p1 := rpow_pos_of_pos hr α
  have k1 : 0 < r + a := by positivity
  simp only [cPlanarR2deriv, radial, Spherical.stat, add_comm a r, q7, zpow_neg]
  rw [← neg_sub 3 α, show (4 : ℤ) = ((4 : ℕ) : ℤ) by norm_num, zpow_natCast]
  field_simp
theorem R2deriv_radial (ha : 0 < a) (h3 : α ≠ 3) (h : 0 < R ^ 2 + z ^ 2) :
    R2deriv a α R z = Spherical.R2deriv (radial a α) R z 0 ∧
    z2deriv a α R z = Spherical.z2deriv (radial a α) R z 0 ∧
    Rzderiv a α R z = Spherical.Rzderiv (radial a α) R z 0 ∧
    Rforce a α R z = Spherical.Rforce (radial a α) R z 0 := by
  have h3' : 3 - α ≠ 0 := sub_ne_zero.2 h3.symm
  obtain ⟨r, hr, k1, e1, e2, e3⟩ := csec ha h
  obtain ⟨q1, q2, q3, q4, q5, q6, q7, q8, q9, q10, q11⟩ := pows α ha hr
  have p1 := rpow_pos_of_pos hr α
  have p2 := rpow_pos_of_pos k1 α
  refine ⟨?_, ?_, ?_, ?_⟩
  all_goals
    simp only [R2deriv, z2deriv, Rzderiv, Rforce, Spherical.R2deriv, Spherical.z2deriv,
      Spherical.Rzderiv, Spherical.Rforce, radial, Spherical.stat]
    simp only [add_comm (z ^ 2) (R ^ 2), add_comm a r, e1, q2, q3, q4]
    generalize r ^ α = p at *
    generalize (r + a) ^ α = q at *
    try rw [← neg_sub 3 α]
    field_simp
    try elimsq e3
    try ring
theorem cR2deriv_eq (ha : 0 < a) (h3 : α ≠ 3) (h : 0 < R ^ 2 + z ^ 2) :
    cR2deriv amp a α R z = amp * R2deriv a α R z := by
  rw [(R2deriv_radial ha h3 h).1]
  exact Spherical.cR2_eq amp _ R z 0 h (planarR2deriv amp ha (sqrt_pos.2 h) h3)
    (planarRforce amp ha (sqrt_pos.2 h))
theorem cz2deriv_eq (ha : 0 < a) (h3 : α ≠ 3) (h : 0 < R ^ 2 + z ^ 2) :
    cz2deriv amp a α R z = amp * z2deriv a α R z := by
  rw [(R2deriv_radial ha h3 h).2.1]
  exact Spherical.cz2_eq amp _ R z 0 h (planarR2deriv amp ha (sqrt_pos.2 h) h3)
    (planarRforce amp ha (sqrt_pos.2 h))
theorem cRzderiv_eq (ha : 0 < a) (h3 : α ≠ 3) (h : 0 < R ^ 2 + z ^ 2) :
    cRzderiv amp a α R z = amp * Rzderiv a α R z := by
  rw [(R2deriv_radial ha h3 h).2.2.1]
  exact Spherical.cRz_eq amp _ R z 0 h (planarR2deriv amp ha (sqrt_pos.2 h) h3)
    (planarRforce amp ha (sqrt_pos.2 h))
theorem cPlanarRforce_eq (ha : 0 < a) (h3 : α ≠ 3) (hR : 0 < R) :
    cPlanarRforce amp a α R = amp * Rforce a α R 0 := by
  rw [(R2deriv_radial ha h3 (by positivity)).2.2.2, planarRforce amp ha hR,
    ← Spherical.cPlanarRforce_eq _ _ _ _ hR]; rfl
theorem cPlanarR2deriv_eq (ha : 0 < a) (h3 : α ≠ 3) (hR : 0 < R) :
    cPlanarR2deriv amp a α R = amp * R2deriv a α R 0 := by
  rw [(R2deriv_radial ha h3 (by positivity)).1, planarR2deriv amp ha hR h3,
    ← Spherical.cPlanarR2deriv_eq _ _ _ _ hR]; rfl
end C
end Dehnen

/-! ## DehnenCore -/
namespace DehnenCore
/-- The radial profile (organises the proof). -/
def radial (a : ℝ) : Spherical.Radial := Spherical.stat
  (fun r => -(1 - r ^ 2 / (r + a) ^ 2) / (6 * a)) (fun r => -r / (r + a) ^ 3 / 3)
  (fun r => -(2 * r - a) / (3 * (r + a) ^ 4)) (fun r => a / (r + a) ^ 4 / 4 / π)

theorem radialOK {a : ℝ} (ha : 0 < a) : Spherical.RadialOK (radial a) (Set.Ioi 0) := by
  refine Spherical.RadialOK.stat isOpen_Ioi (fun r h => h) ?_ ?_ ?_
  all_goals
    intro r hr
    have hr : 0 < r := hr
    have h1 : r ≠ 0 := hr.ne'
    have k2 : r + a ≠ 0 := by positivity
  · apply HasDerivAt.congr_deriv
    · hasderiv; all_goals exact pow_ne_zero _ k2
    · field_simp; ring
  · apply HasDerivAt.congr_deriv
    · hasderiv; all_goals exact pow_ne_zero _ k2
    · field_simp; ring
  · have := pi_ne_zero
    field_simp; ring

theorem consistent {a : ℝ} (ha : 0 < a) : Consistent (pot a) (Spherical.Dom (Set.Ioi 0)) := by
  refine Spherical.consistent_axi (radialOK ha) (fun _ _ => ⟨rfl, rfl, rfl, rfl⟩) ?_ ?_ ?_ ?_ ?_ ?_ ?_
  all_goals
    intro R z r _ hr e1 e2
    have k1 : 0 < r + a := by positivity
    have q1 : 1 + a / r = (r + a) / r := by field_simp
    have q2 : 1 + r / a = (r + a) / a := by field_simp; ring
    simp only [evaluate, Rforce, zforce, R2deriv, z2deriv, Rzderiv, dens, radial, Spherical.stat]
    simp only [add_comm (z ^ 2) (R ^ 2), add_comm a r, e1, q1, q2]
    field_simp
    try elimsq e2
    try ring

section C
variable (amp : ℝ) {a R z : ℝ}
private theorem csec (ha : 0 < a) (h : 0 < R ^ 2 + z ^ 2) :
    ∃ r, 0 < r ∧ 0 < r + a ∧ √(R ^ 2 + z ^ 2) = r ∧ R ^ 2 + z ^ 2 = r ^ 2 ∧ z ^ 2 = r ^ 2 - R ^ 2 ∧
      1 + a / r = (r + a) / r ∧ 1 + r / a = (r + a) / a := by
  have hr := sqrt_pos.2 h
  exact ⟨_, hr, by positivity, rfl, (sq_sqrt h.le).symm, by rw [sq_sqrt h.le]; ring,
    by field_simp, by field_simp; ring⟩
theorem cEval_eq (ha : 0 < a) (h : 0 < R ^ 2 + z ^ 2) : cEval amp a R z = amp * evaluate a R z := by
  obtain ⟨r, hr, k1, e1, e2, e3, q1, q2⟩ := csec ha h
  simp only [cEval, evaluate, ← sq, e1, q1]; field_simp
theorem cRforce_eq : cRforce amp a R z = amp * Rforce a R z := by
  simp only [cRforce, Rforce, ← sq, add_comm a]; ring
theorem czforce_eq : czforce amp a R z = amp * zforce a R z := by
  simp only [czforce, zforce, ← sq, add_comm a]; ring
theorem cDens_eq : cDens amp a R z = amp * dens a R z := by
  simp only [cDens, dens, ← sq, zpow_neg]
  rw [show (4 : ℤ) = ((4 : ℕ) : ℤ) by norm_num, show (3 : ℤ) = ((3 : ℕ) : ℤ) by norm_num,
    zpow_natCast, zpow_natCast]
  generalize 1 + √(R ^ 2 + z ^ 2) / a = u
  simp only [div_eq_mul_inv, ← inv_pow]; ring
theorem cPlanarRforce_eq (hR : 0 < R) : cPlanarRforce amp a R = amp * Rforce a R 0 := by
  simp only [cPlanarRforce, Rforce, ne_eq, OfNat.ofNat_ne_zero, not_false_eq_true, zero_pow, add_zero,
    sqrt_sq hR.le, add_comm a]; ring
theorem cPlanarR2deriv_eq (ha : 0 < a) (hR : 0 < R) : cPlanarR2deriv amp a R = amp * R2deriv a R 0 := by
  have k1 : 0 < R + a := by positivity
  simp only [cPlanarR2deriv, R2deriv, ne_eq, OfNat.ofNat_ne_zero, not_false_eq_true, zero_pow, add_zero,
    sqrt_sq hR.le, add_comm a, zpow_neg]
  rw [show (4 : ℤ) = ((4 : ℕ) : ℤ) by norm_num, zpow_natCast]
  field_simp; ring
theorem cR2deriv_eq (ha : 0 < a) (h : 0 < R ^ 2 + z ^ 2) :
    cR2deriv amp a R z = amp * R2deriv a R z := by
  obtain ⟨r, hr, k1, e1, e2, e3, q1, q2⟩ := csec ha h
  simp only [cR2deriv, Spherical.cR2, cPlanarR2deriv, cPlanarRforce, R2deriv, ← sq, e1, add_comm a,
    zpow_neg]
  rw [show (4 : ℤ) = ((4 : ℕ) : ℤ) by norm_num, zpow_natCast]
  simp only [e2]
  field_simp; elimsq e3; ring
theorem cz2deriv_eq (ha : 0 < a) (h : 0 < R ^ 2 + z ^ 2) :
    cz2deriv amp a R z = amp * z2deriv a R z := by
  obtain ⟨r, hr, k1, e1, e2, e3, q1, q2⟩ := csec ha h
  simp only [cz2deriv, Spherical.cz2, cPlanarR2deriv, cPlanarRforce, z2deriv, R2deriv, ← sq,
    add_comm (z ^ 2) (R ^ 2), e1, add_comm a, zpow_neg]
  rw [show (4 : ℤ) = ((4 : ℕ) : ℤ) by norm_num, zpow_natCast]
  simp only [e2]
  field_simp; elimsq e3; ring
theorem cRzderiv_eq (ha : 0 < a) (h : 0 < R ^ 2 + z ^ 2) :
    cRzderiv amp a R z = amp * Rzderiv a R z := by
  obtain ⟨r, hr, k1, e1, e2, e3, q1, q2⟩ := csec ha h
  simp only [cRzderiv, Spherical.cRz, cPlanarR2deriv, cPlanarRforce, Rzderiv, ← sq, e1, add_comm a,
    zpow_neg]
  rw [show (4 : ℤ) = ((4 : ℕ) : ℤ) by norm_num, zpow_natCast]
  simp only [e2]
  field_simp; ring
end C
end DehnenCore

/-! ## Hernquist -/
namespace Hernquist
/-- The radial profile (organises the proof). -/
def radial (a : ℝ) : Spherical.Radial := Spherical.stat
  (fun r => -1 / (r + a) / 2) (fun r => -1 / (r + a) ^ 2 / 2)
  (fun r => -1 / (r + a) ^ 3) (fun r => a / r / (r + a) ^ 3 / 4 / π)

theorem radialOK {a : ℝ} (ha : 0 < a) : Spherical.RadialOK (radial a) (Set.Ioi 0) := by
  refine Spherical.RadialOK.stat isOpen_Ioi (fun r h => h) ?_ ?_ ?_
  all_goals
    intro r hr
    have hr : 0 < r := hr
    have h1 : r ≠ 0 := hr.ne'
    have k2 : r + a ≠ 0 := by positivity
  · apply HasDerivAt.congr_deriv
    · hasderiv
    · field_simp; ring
  · apply HasDerivAt.congr_deriv
    · hasderiv; all_goals first | exact k2 | exact pow_ne_zero _ k2
    · field_simp; ring
  · have := pi_ne_zero
    field_simp; ring

theorem consistent {a : ℝ} (ha : 0 < a) : Consistent (pot a) (Spherical.Dom (Set.Ioi 0)) := by
  refine Spherical.consistent_axi (radialOK ha) (fun _ _ => ⟨rfl, rfl, rfl, rfl⟩) ?_ ?_ ?_ ?_ ?_ ?_ ?_
  all_goals
    intro R z r _ hr e1 e2
    have k1 : 0 < r + a := by positivity
    have q1 : 1 + a / r = (r + a) / r := by field_simp
    have q2 : 1 + r / a = (r + a) / a := by field_simp; ring
    try simp only [evaluate, Rforce, zforce, R2deriv, z2deriv, Rzderiv, radial, Spherical.stat, zpow_neg]
    try rw [show (3 : ℤ) = ((3 : ℕ) : ℤ) by norm_num, zpow_natCast]
    try simp only [add_comm (z ^ 2) (R ^ 2), add_comm a r, e1, q1, q2]
  case refine_7 =>
    rw [dens, Dehnen.dens_radial 1 ha hr e1]
    simp only [rpow_one]; field_simp
  all_goals
    field_simp
    try elimsq e2
    try ring

section C
variable (amp : ℝ) {a R z : ℝ}
private theorem csec (ha : 0 < a) (h : 0 < R ^ 2 + z ^ 2) :
    ∃ r, 0 < r ∧ 0 < r + a ∧ √(R ^ 2 + z ^ 2) = r ∧ R ^ 2 + z ^ 2 = r ^ 2 ∧ z ^ 2 = r ^ 2 - R ^ 2 ∧
      1 + a / r = (r + a) / r ∧ 1 + r / a = (r + a) / a := by
  have hr := sqrt_pos.2 h
  exact ⟨_, hr, by positivity, rfl, (sq_sqrt h.le).symm, by rw [sq_sqrt h.le]; ring,
    by field_simp, by field_simp; ring⟩
private theorem z2' (x : ℝ) : x ^ (-2 : ℤ) = (x ^ 2)⁻¹ := by
  rw [zpow_neg, show (2 : ℤ) = ((2 : ℕ) : ℤ) by norm_num, zpow_natCast]
private theorem z3' (x : ℝ) : x ^ (-3 : ℤ) = (x ^ 3)⁻¹ := by
  rw [zpow_neg, show (3 : ℤ) = ((3 : ℕ) : ℤ) by norm_num, zpow_natCast]
theorem cEval_eq : cEval amp a R z = amp * evaluate a R z := by
  simp only [cEval, evaluate, ← sq]; ring
theorem cRforce_eq : cRforce amp a R z = amp * Rforce a R z := by
  simp only [cRforce, Rforce, ← sq, z2']; ring
theorem czforce_eq : czforce amp a R z = amp * zforce a R z := by
  simp only [czforce, zforce, ← sq, z2']; ring
theorem cDens_eq (ha : 0 < a) (h : 0 < R ^ 2 + z ^ 2) : cDens amp a R z = amp * dens a R z := by
  obtain ⟨r, hr, k1, e1, e2, e3, q1, q2⟩ := csec ha h
  rw [dens, Dehnen.dens_radial 1 ha hr e1]
  simp only [cDens, ← sq, z3', e1, q2, rpow_one]
  have := pi_ne_zero
  field_simp
theorem cPlanarRforce_eq (hR : 0 < R) : cPlanarRforce amp a R = amp * Rforce a R 0 := by
  simp only [cPlanarRforce, Rforce, ne_eq, OfNat.ofNat_ne_zero, not_false_eq_true, zero_pow, add_zero,
    sqrt_sq hR.le, z2']
  generalize 1 + R / a = u
  rw [show -R / a / R = -1 / a by field_simp]; ring
theorem cPlanarR2deriv_eq (ha : 0 < a) (hR : 0 < R) : cPlanarR2deriv amp a R = amp * R2deriv a R 0 := by
  have k1 : 0 < R + a := by positivity
  have q2 : 1 + R / a = (R + a) / a := by field_simp; ring
  simp only [cPlanarR2deriv, R2deriv, ne_eq, OfNat.ofNat_ne_zero, not_false_eq_true, zero_pow, add_zero,
    sqrt_sq hR.le, add_comm a R, z3', q2]
  field_simp; ring
theorem cR2deriv_eq (ha : 0 < a) (h : 0 < R ^ 2 + z ^ 2) :
    cR2deriv amp a R z = amp * R2deriv a R z := by
  obtain ⟨r, hr, k1, e1, e2, e3, q1, q2⟩ := csec ha h
  simp only [cR2deriv, cSphR2, cdphi, cd2phi, R2deriv, ← sq, e1, add_comm a, z2', z3', q2]
  field_simp; elimsq e3; try ring
theorem cz2deriv_eq (ha : 0 < a) (h : 0 < R ^ 2 + z ^ 2) :
    cz2deriv amp a R z = amp * z2deriv a R z := by
  obtain ⟨r, hr, k1, e1, e2, e3, q1, q2⟩ := csec ha h
  simp only [cz2deriv, cSphz2, cdphi, cd2phi, z2deriv, R2deriv, ← sq, add_comm (z ^ 2) (R ^ 2), e1,
    add_comm a, z2', z3', q2]
  field_simp; elimsq e3; try ring
theorem cRzderiv_eq (ha : 0 < a) (h : 0 < R ^ 2 + z ^ 2) :
    cRzderiv amp a R z = amp * Rzderiv a R z := by
  obtain ⟨r, hr, k1, e1, e2, e3, q1, q2⟩ := csec ha h
  simp only [cRzderiv, cSphRz, cdphi, cd2phi, Rzderiv, ← sq, e1, add_comm a, z2', z3', q2]
  field_simp; ring
end C
end Hernquist

/-! ## Jaffe -/
namespace Jaffe
/-- The radial profile (organises the proof). -/
def radial (a : ℝ) : Spherical.Radial := Spherical.stat
  (fun r => -log (1 + a / r) / a) (fun r => -1 / r / (r + a))
  (fun r => -(a + 2 * r) / r ^ 2 / (r + a) ^ 2) (fun r => a / r ^ 2 / (r + a) ^ 2 / 4 / π)

theorem radialOK {a : ℝ} (ha : 0 < a) : Spherical.RadialOK (radial a) (Set.Ioi 0) := by
  refine Spherical.RadialOK.stat isOpen_Ioi (fun r h => h) ?_ ?_ ?_
  all_goals
    intro r hr
    have hr : 0 < r := hr
    have h1 : r ≠ 0 := hr.ne'
    have k2 : r + a ≠ 0 := by positivity
    have k3 : 1 + a / r ≠ 0 := by positivity
  · apply HasDerivAt.congr_deriv
    · hasderiv
    · field_simp; ring
  · apply HasDerivAt.congr_deriv
    · hasderiv
    · field_simp; ring
  · have := pi_ne_zero
    field_simp; ring

theorem consistent {a : ℝ} (ha : 0 < a) : Consistent (pot a) (Spherical.Dom (Set.Ioi 0)) := by
  refine Spherical.consistent_axi (radialOK ha) (fun _ _ => ⟨rfl, rfl, rfl, rfl⟩) ?_ ?_ ?_ ?_ ?_ ?_ ?_
  all_goals
    intro R z r _ hr e1 e2
    have k1 : 0 < r + a := by positivity
    have q1 : 1 + a / r = (r + a) / r := by field_simp
    have q2 : 1 + r / a = (r + a) / a := by field_simp; ring
    try simp only [evaluate, Rforce, zforce, R2deriv, z2deriv, Rzderiv, radial, Spherical.stat, zpow_neg]
    try rw [show (4 : ℤ) = ((4 : ℕ) : ℤ) by norm_num, show (2 : ℤ) = ((2 : ℕ) : ℤ) by norm_num,
      zpow_natCast, zpow_natCast]
    try simp only [add_comm (z ^ 2) (R ^ 2), add_comm a r, e1, q1, q2]
  case refine_7 =>
    rw [dens, Dehnen.dens_radial 2 ha hr e1]
    simp only [rpow_two]; field_simp
  all_goals
    field_simp
    try elimsq e2
    try ring

section C
variable (amp : ℝ) {a R z : ℝ}
private theorem csec (ha : 0 < a) (h : 0 < R ^ 2 + z ^ 2) :
    ∃ r, 0 < r ∧ 0 < r + a ∧ √(R ^ 2 + z ^ 2) = r ∧ R ^ 2 + z ^ 2 = r ^ 2 ∧ z ^ 2 = r ^ 2 - R ^ 2 ∧
      1 + a / r = (r + a) / r ∧ 1 + r / a = (r + a) / a := by
  have hr := sqrt_pos.2 h
  exact ⟨_, hr, by positivity, rfl, (sq_sqrt h.le).symm, by rw [sq_sqrt h.le]; ring,
    by field_simp, by field_simp; ring⟩
private theorem z2' (x : ℝ) : x ^ (-2 : ℤ) = (x ^ 2)⁻¹ := by
  rw [zpow_neg, show (2 : ℤ) = ((2 : ℕ) : ℤ) by norm_num, zpow_natCast]
private theorem z3' (x : ℝ) : x ^ (-3 : ℤ) = (x ^ 3)⁻¹ := by
  rw [zpow_neg, show (3 : ℤ) = ((3 : ℕ) : ℤ) by norm_num, zpow_natCast]
private theorem z4' (x : ℝ) : x ^ (-4 : ℤ) = (x ^ 4)⁻¹ := by
  rw [zpow_neg, show (4 : ℤ) = ((4 : ℕ) : ℤ) by norm_num, zpow_natCast]
theorem cEval_eq : cEval amp a R z = amp * evaluate a R z := by
  simp only [cEval, evaluate, ← sq]; ring
theorem cRforce_eq : cRforce amp a R z = amp * Rforce a R z := by
  simp only [cRforce, Rforce, ← sq, z3']; ring
theorem czforce_eq : czforce amp a R z = amp * zforce a R z := by
  simp only [czforce, zforce, ← sq, z3']; ring
theorem cDens_eq (ha : 0 < a) (h : 0 < R ^ 2 + z ^ 2) : cDens amp a R z = amp * dens a R z := by
  obtain ⟨r, hr, k1, e1, e2, e3, q1, q2⟩ := csec ha h
  rw [dens, Dehnen.dens_radial 2 ha hr e1]
  simp only [cDens, ← sq, z2', e1, q2, rpow_two]
  have := pi_ne_zero
  field_simp
theorem cPlanarRforce_eq (ha : 0 < a) (hR : 0 < R) : cPlanarRforce amp a R = amp * Rforce a R 0 := by
  have k1 : 0 < R + a := by positivity
  have q1 : 1 + a / R = (R + a) / R := by field_simp
  simp only [cPlanarRforce, Rforce, ne_eq, OfNat.ofNat_ne_zero, not_false_eq_true, zero_pow, add_zero,
    sqrt_sq hR.le, z2', q1]
  field_simp
theorem cPlanarR2deriv_eq (ha : 0 < a) (hR : 0 < R) : cPlanarR2deriv amp a R = amp * R2deriv a R 0 := by
  have k1 : 0 < R + a := by positivity
  have q1 : 1 + a / R = (R + a) / R := by field_simp
  simp only [cPlanarR2deriv, R2deriv, ne_eq, OfNat.ofNat_ne_zero, not_false_eq_true, zero_pow, add_zero,
    sqrt_sq hR.le, add_comm a R, z2', z4', q1]
  field_simp; ring
theorem cR2deriv_eq (ha : 0 < a) (h : 0 < R ^ 2 + z ^ 2) :
    cR2deriv amp a R z = amp * R2deriv a R z := by
  obtain ⟨r, hr, k1, e1, e2, e3, q1, q2⟩ := csec ha h
  simp only [cR2deriv, cSphR2, cdphi, cd2phi, R2deriv, ← sq, e1, add_comm a r, z2', z4', q1]
  field_simp; elimsq e3; try ring
theorem cz2deriv_eq (ha : 0 < a) (h : 0 < R ^ 2 + z ^ 2) :
    cz2deriv amp a R z = amp * z2deriv a R z := by
  obtain ⟨r, hr, k1, e1, e2, e3, q1, q2⟩ := csec ha h
  simp only [cz2deriv, cSphz2, cdphi, cd2phi, z2deriv, R2deriv, ← sq, add_comm (z ^ 2) (R ^ 2), e1,
    add_comm a r, z2', z4', q1]
  field_simp; elimsq e3; try ring
theorem cRzderiv_eq (ha : 0 < a) (h : 0 < R ^ 2 + z ^ 2) :
    cRzderiv amp a R z = amp * Rzderiv a R z := by
  obtain ⟨r, hr, k1, e1, e2, e3, q1, q2⟩ := csec ha h
  simp only [cRzderiv, cSphRz, cdphi, cd2phi, Rzderiv, ← sq, e1, add_comm a r, z2', z4', q1]
  field_simp; ring
end C
end Jaffe

/-! ## NFW -/
namespace NFW
/-- The radial profile (organises the proof). -/
def radial (a : ℝ) : Spherical.Radial := Spherical.stat
  (fun r => -(1 / r * log (1 + r / a))) (fun r => 1 / r / (r + a) - log (1 + r / a) / r ^ 2)
  (fun r => (r * (2 * a + 3 * r) - 2 * (r + a) ^ 2 * log (1 + r / a)) / r ^ 3 / (r + a) ^ 2)
  (fun r => 1 / r / (r + a) ^ 2 / 4 / π)

theorem radialOK {a : ℝ} (ha : 0 < a) : Spherical.RadialOK (radial a) (Set.Ioi 0) := by
  refine Spherical.RadialOK.stat isOpen_Ioi (fun r h => h) ?_ ?_ ?_
  all_goals
    intro r hr
    have hr : 0 < r := hr
    have h1 : r ≠ 0 := hr.ne'
    have k2 : r + a ≠ 0 := by positivity
    have k3 : 1 + r / a ≠ 0 := by positivity
  · apply HasDerivAt.congr_deriv
    · hasderiv
    · generalize log (1 + r / a) = L
      have q2 : 1 + r / a = (r + a) / a := by field_simp; ring
      rw [q2]
      field_simp; ring
  · apply HasDerivAt.congr_deriv
    · hasderiv; all_goals first | assumption | exact pow_ne_zero _ h1
    · generalize log (1 + r / a) = L
      have q2 : 1 + r / a = (r + a) / a := by field_simp; ring
      rw [q2]
      field_simp; ring
  · generalize log (1 + r / a) = L
    have := pi_ne_zero
    field_simp; ring

theorem consistent {a : ℝ} (ha : 0 < a) : Consistent (pot a) (Spherical.Dom (Set.Ioi 0)) := by
  refine Spherical.consistent_axi (radialOK ha) (fun _ _ => ⟨rfl, rfl, rfl, rfl⟩) ?_ ?_ ?_ ?_ ?_ ?_ ?_
  all_goals
    intro R z r _ hr e1 e2
    have k1 : 0 < r + a := by positivity
    have e0 : R ^ 2 + z ^ 2 = r ^ 2 := by rw [e2]; ring
    have q2 : 1 + r / a = (r + a) / a := by field_simp; ring
    have hu : 0 < R ^ 2 + z ^ 2 := by rw [e0]; positivity
    have q5 := rpow_five_half hu
    have q6 := rpow_neg_five_half hu
    have h1 := hr.ne'
    simp only [evaluate, Rforce, zforce, R2deriv, z2deriv, Rzderiv, dens, radial, Spherical.stat, zpow_neg,
      sq_abs, show (3 - 1 : ℝ) = 2 by norm_num, rpow_one, rpow_two]
    try rw [show (2 : ℤ) = ((2 : ℕ) : ℤ) by norm_num, zpow_natCast]
    simp only [add_comm (z ^ 2) (R ^ 2), q5, q6, e1, h1, if_false]
    try simp only [e0, add_comm a r]
    try generalize log (1 + r / a) = L
    try rw [q2]
  · field_simp
  · field_simp
  · generalize |z| ^ 4 = w at *
    field_simp; elimsq e2; ring
  · have : |z| ^ 4 = z ^ 4 := by rw [show 4 = 2 * 2 by norm_num, pow_mul, sq_abs, ← pow_mul]
    try rw [this]
    field_simp; elimsq e2; ring
  · field_simp; ring
  · field_simp

section C
variable (amp : ℝ) {a R z : ℝ}
private theorem csec (ha : 0 < a) (h : 0 < R ^ 2 + z ^ 2) :
    ∃ r, 0 < r ∧ 0 < r + a ∧ √(R ^ 2 + z ^ 2) = r ∧ R ^ 2 + z ^ 2 = r ^ 2 ∧ z ^ 2 = r ^ 2 - R ^ 2 ∧
      (R ^ 2 + z ^ 2) ^ (5/2 : ℝ) = (R ^ 2 + z ^ 2) ^ 2 * √(R ^ 2 + z ^ 2) ∧
      (R ^ 2 + z ^ 2) ^ (-(5/2) : ℝ) = 1 / ((R ^ 2 + z ^ 2) ^ 2 * √(R ^ 2 + z ^ 2)) := by
  have hr := sqrt_pos.2 h
  exact ⟨_, hr, by positivity, rfl, (sq_sqrt h.le).symm, by rw [sq_sqrt h.le]; ring,
    rpow_five_half h, rpow_neg_five_half h⟩
theorem cEval_eq (h : 0 < R ^ 2 + z ^ 2) : cEval amp a R z = amp * evaluate a R z := by
  have := (sqrt_pos.2 h).ne'
  simp only [cEval, evaluate, ← sq, this, if_false]; ring
theorem cRforce_eq : cRforce amp a R z = amp * Rforce a R z := by
  simp only [cRforce, Rforce, ← sq]; ring
theorem czforce_eq : czforce amp a R z = amp * zforce a R z := by
  simp only [czforce, zforce, ← sq]; ring
theorem cDens_eq (ha : 0 < a) (h : 0 < R ^ 2 + z ^ 2) : cDens amp a R z = amp * dens a R z := by
  obtain ⟨r, hr, k1, e1, e2, e3, -, -⟩ := csec ha h
  simp only [cDens, dens, ← sq, e1, show (3 - 1 : ℝ) = 2 by norm_num, rpow_one, rpow_two]
  have := pi_ne_zero
  field_simp
theorem cPlanarRforce_eq (ha : 0 < a) (hR : 0 < R) : cPlanarRforce amp a R = amp * Rforce a R 0 := by
  have k1 : 0 < R + a := by positivity
  simp only [cPlanarRforce, Rforce, ne_eq, OfNat.ofNat_ne_zero, not_false_eq_true, zero_pow, add_zero,
    sqrt_sq hR.le, add_comm a R]
  generalize log (1 + R / a) = L
  field_simp
private theorem r5 {R : ℝ} (hR : 0 < R) : (R ^ 2) ^ (5/2 : ℝ) = R ^ 5 := by
  rw [rpow_five_half (by positivity), sqrt_sq hR.le]; ring
theorem cPlanarR2deriv_eq (ha : 0 < a) (hR : 0 < R) : cPlanarR2deriv amp a R = amp * R2deriv a R 0 := by
  have k1 : 0 < R + a := by positivity
  simp only [cPlanarR2deriv, R2deriv, ne_eq, OfNat.ofNat_ne_zero, not_false_eq_true, zero_pow, add_zero,
    sqrt_sq hR.le, add_comm a R, r5 hR]
  generalize log (1 + R / a) = L
  field_simp; ring
theorem cR2deriv_eq (ha : 0 < a) (h : 0 < R ^ 2 + z ^ 2) :
    cR2deriv amp a R z = amp * R2deriv a R z := by
  obtain ⟨r, hr, k1, e1, e2, e3, q5, q6⟩ := csec ha h
  simp only [cR2deriv, cSphR2, cdphi, cd2phi, R2deriv, ← sq, q5, e1, add_comm a r]
  simp only [e2]
  generalize log (1 + r / a) = L
  field_simp; elimsq e3; ring
theorem cz2deriv_eq (ha : 0 < a) (h : 0 < R ^ 2 + z ^ 2) :
    cz2deriv amp a R z = amp * z2deriv a R z := by
  obtain ⟨r, hr, k1, e1, e2, e3, q5, q6⟩ := csec ha h
  have : |z| ^ 4 = z ^ 4 := by rw [show 4 = 2 * 2 by norm_num, pow_mul, sq_abs, ← pow_mul]
  simp only [cz2deriv, cSphz2, cdphi, cd2phi, z2deriv, R2deriv, ← sq, sq_abs, this,
    add_comm (z ^ 2) (R ^ 2), q5, e1, add_comm a r]
  simp only [e2]
  generalize log (1 + r / a) = L
  field_simp; elimsq e3; ring
theorem cRzderiv_eq (ha : 0 < a) (h : 0 < R ^ 2 + z ^ 2) :
    cRzderiv amp a R z = amp * Rzderiv a R z := by
  obtain ⟨r, hr, k1, e1, e2, e3, q5, q6⟩ := csec ha h
  simp only [cRzderiv, cSphRz, cdphi, cd2phi, Rzderiv, ← sq, q6, e1, add_comm a r]
  rw [zpow_neg, show (2 : ℤ) = ((2 : ℕ) : ℤ) by norm_num, zpow_natCast]
  simp only [e2]
  generalize log (1 + r / a) = L
  field_simp; ring
end C
end NFW
end Verif
