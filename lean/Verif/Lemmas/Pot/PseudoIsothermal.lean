import Verif.Model.Pot.PseudoIsothermal
import Verif.Lemmas.Pot.Spherical

set_option autoImplicit false

noncomputable section
namespace Verif.PseudoIsothermal
open Real Filter Topology

/-- The radial profile of the potential (used only to organise the proof). -/
def radial (a : ℝ) : Spherical.Radial := Spherical.stat
  (fun r => (1 / 2 * log (1 + r ^ 2 / a ^ 2) + a / r * arctan (r / a)) / a)
  (fun r => -(1 / r - a / r ^ 2 * arctan (r / a)) / a)
  (fun r => (2 * a / r * arctan (r / a) - (2 * a ^ 2 + r ^ 2) / (a ^ 2 + r ^ 2)) / r ^ 2 / a)
  (fun r => 1 / (1 + r ^ 2 / a ^ 2) / 4 / π / a ^ 3)

theorem radialOK {a : ℝ} (ha : 0 < a) : Spherical.RadialOK (radial a) (Set.Ioi 0) := by
  refine Spherical.RadialOK.stat isOpen_Ioi (fun r h => h) ?_ ?_ ?_
  all_goals
    intro r hr
    have hr : 0 < r := hr
    have h1 : r ≠ 0 := hr.ne'
    have h2 : 1 + r ^ 2 / a ^ 2 ≠ 0 := by positivity
    have h3 : 1 + (r / a) ^ 2 ≠ 0 := by positivity
    have h4 : a ^ 2 + r ^ 2 ≠ 0 := by positivity
    have h5 : r ^ 2 + a ^ 2 ≠ 0 := by positivity
  · apply HasDerivAt.congr_deriv
    · hasderiv
    · generalize arctan (r / a) = A
      field_simp
      ring
  · apply HasDerivAt.congr_deriv
    · hasderiv; all_goals first | assumption | exact pow_ne_zero _ h1
    · generalize arctan (r / a) = A
      field_simp
      ring
  · generalize arctan (r / a) = A
    have := pi_ne_zero
    field_simp; ring

theorem consistent {a : ℝ} (ha : 0 < a) : Consistent (pot a) (Spherical.Dom (Set.Ioi 0)) := by
  refine Spherical.consistent_axi (radialOK ha) (fun _ _ => ⟨rfl, rfl, rfl, rfl⟩) ?_ ?_ ?_ ?_ ?_ ?_ ?_
  all_goals
    intro R z r _ hr e1 e2
    have e3 : R ^ 2 + z ^ 2 = r ^ 2 := by rw [e2]; ring
    have h1 : r ≠ 0 := hr.ne'
    have h4 : a ^ 2 + r ^ 2 ≠ 0 := by positivity
    have h5 : r ^ 2 + a ^ 2 ≠ 0 := by positivity
  · simp only [evaluate, radial, Spherical.stat, e1, h1, if_false]; rw [e3]
  all_goals
    simp only [Rforce, zforce, R2deriv, z2deriv, Rzderiv, dens, radial, Spherical.stat, e1]
    simp only [e3]
  all_goals
    try generalize arctan (r / a) = A
    field_simp
    try elimsq e2
    try ring

section C
variable (amp : ℝ) {a R z : ℝ}
theorem cEval_eq (h : 0 < R ^ 2 + z ^ 2) : cEval amp a R z = amp * evaluate a R z := by
  have := (sqrt_pos.2 h).ne'
  simp only [cEval, evaluate, ← sq, this, if_false]; ring
theorem cRforce_eq : cRforce amp a R z = amp * Rforce a R z := by
  simp only [cRforce, Rforce, ← sq]; ring
theorem czforce_eq : czforce amp a R z = amp * zforce a R z := by
  simp only [czforce, zforce, ← sq]; ring
theorem cDens_eq : cDens amp a R z = amp * dens a R z := by
  simp only [cDens, dens, ← sq]
  generalize 1 + (R ^ 2 + z ^ 2) / a ^ 2 = u
  simp only [div_eq_mul_inv, mul_pow, mul_inv, ← inv_pow]; ring
theorem cPlanarRforce_eq (hR : 0 < R) : cPlanarRforce amp a R = amp * Rforce a R 0 := by
  simp only [cPlanarRforce, Rforce, ne_eq, OfNat.ofNat_ne_zero, not_false_eq_true, zero_pow, add_zero,
    sqrt_sq hR.le]; have := hR.ne'; field_simp
theorem cPlanarR2deriv_eq (ha : 0 < a) (hR : 0 < R) : cPlanarR2deriv amp a R = amp * R2deriv a R 0 := by
  simp only [cPlanarR2deriv, R2deriv, ne_eq, OfNat.ofNat_ne_zero, not_false_eq_true, zero_pow, add_zero,
    sqrt_sq hR.le]
  have := hR.ne'
  have h4 : a ^ 2 + R ^ 2 ≠ 0 := by positivity
  generalize arctan (R / a) = A
  field_simp; ring
private theorem csec (h : 0 < R ^ 2 + z ^ 2) (ha : 0 < a) :
    ∃ r, 0 < r ∧ √(R ^ 2 + z ^ 2) = r ∧ R ^ 2 + z ^ 2 = r ^ 2 ∧ z ^ 2 = r ^ 2 - R ^ 2 ∧
      a ^ 2 + r ^ 2 ≠ 0 ∧ r ^ 2 + a ^ 2 ≠ 0 := by
  have hr := sqrt_pos.2 h
  exact ⟨_, hr, rfl, (sq_sqrt h.le).symm, by rw [sq_sqrt h.le]; ring, by positivity, by positivity⟩
theorem cR2deriv_eq (ha : 0 < a) (h : 0 < R ^ 2 + z ^ 2) :
    cR2deriv amp a R z = amp * R2deriv a R z := by
  obtain ⟨r, hr, e1, e2, e3, h4, h5⟩ := csec h ha
  simp only [cR2deriv, Spherical.cR2, cPlanarR2deriv, cPlanarRforce, R2deriv, ← sq, e1]
  simp only [e2]
  generalize arctan (r / a) = A
  field_simp; elimsq e3; ring
theorem cz2deriv_eq (ha : 0 < a) (h : 0 < R ^ 2 + z ^ 2) :
    cz2deriv amp a R z = amp * z2deriv a R z := by
  obtain ⟨r, hr, e1, e2, e3, h4, h5⟩ := csec h ha
  simp only [cz2deriv, Spherical.cz2, cPlanarR2deriv, cPlanarRforce, z2deriv, ← sq, e1]
  simp only [e2]
  generalize arctan (r / a) = A
  field_simp; elimsq e3; ring
theorem cRzderiv_eq (ha : 0 < a) (h : 0 < R ^ 2 + z ^ 2) :
    cRzderiv amp a R z = amp * Rzderiv a R z := by
  obtain ⟨r, hr, e1, e2, e3, h4, h5⟩ := csec h ha
  simp only [cRzderiv, Spherical.cRz, cPlanarR2deriv, cPlanarRforce, Rzderiv, ← sq, e1]
  simp only [e2]
  generalize arctan (r / a) = A
  field_simp; ring
end C
end Verif.PseudoIsothermal
