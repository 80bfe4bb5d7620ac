import Verif.Model.Pot.Burkert
import Verif.Lemmas.Pot.Spherical

set_option autoImplicit false

noncomputable section
namespace Verif.Burkert
open Real Filter Topology

theorem revaluate_eq {a r : ℝ} (ha : 0 < a) (hr : 0 < r) :
    revaluate a r = -(a ^ 2) * π / (r / a) * (-π + 2 * (1 + r / a) * arctan (1 / (r / a))
      + 2 * (1 + r / a) * log (1 + r / a) + (1 - r / a) * log (1 + (r / a) ^ 2)) := by
  have hx : 0 < r / a := div_pos hr ha
  unfold revaluate
  generalize r / a = x at *
  have e : (1 + 1 / x) ^ 2 / (1 + 1 / x ^ 2) = (1 + x) ^ 2 / (1 + x ^ 2) := by
    field_simp; ring
  simp only [e]
  rw [log_div (by positivity) (by positivity), log_pow]
  field_simp; push_cast; ring

theorem radialOK {a : ℝ} (ha : 0 < a) : Spherical.RadialOK (radial a) (Set.Ioi 0) := by
  refine Spherical.RadialOK.stat isOpen_Ioi (fun r h => h) ?_ ?_ ?_
  · intro r hr
    have hr : 0 < r := hr
    have h1 : r / a ≠ 0 := (div_pos hr ha).ne'
    have h2 : 1 + r / a ≠ 0 := by positivity
    have h3 : 1 + (r / a) ^ 2 ≠ 0 := by positivity
    have ev : ∀ᶠ x in 𝓝 r, revaluate a x = _ := (lt_mem_nhds hr).mono fun x hx => revaluate_eq ha hx
    refine HasDerivAt.congr_of_eventuallyEq ?_ ev
    apply HasDerivAt.congr_deriv
    · hasderiv
    · unfold rforce
      simp only
      generalize log (1 + r / a) = L1
      generalize log (1 + (r / a) ^ 2) = L2
      generalize arctan (1 / (r / a)) = A
      have h4 : 1 + (1 / (r / a)) ^ 2 ≠ 0 := by positivity
      obtain ⟨x, rfl⟩ : ∃ x, r = a * x := ⟨r / a, by field_simp⟩
      rw [mul_div_cancel_left₀ x ha.ne'] at *
      have h5 : x ^ 2 + 1 ≠ 0 := by positivity
      field_simp
      ring
  · intro r hr
    have hr : 0 < r := hr
    have h1 : r / a ≠ 0 := (div_pos hr ha).ne'
    have h2 : 1 + r / a ≠ 0 := by positivity
    have h3 : 1 + (r / a) ^ 2 ≠ 0 := by positivity
    unfold r2deriv rforce
    apply HasDerivAt.congr_deriv
    · hasderiv; all_goals first | assumption | exact pow_ne_zero _ h1
    · simp only
      generalize log (1 + r / a) = L1
      generalize log (1 + (r / a) ^ 2) = L2
      generalize arctan (1 / (r / a)) = A
      have h4 : 1 + (1 / (r / a)) ^ 2 ≠ 0 := by positivity
      obtain ⟨x, rfl⟩ : ∃ x, r = a * x := ⟨r / a, by field_simp⟩
      rw [mul_div_cancel_left₀ x ha.ne'] at *
      have h5 : x ^ 2 + 1 ≠ 0 := by positivity
      field_simp
      ring
  · intro r hr
    have hr : 0 < r := hr
    have h1 : r / a ≠ 0 := (div_pos hr ha).ne'
    unfold rdens r2deriv
    simp only
    generalize rforce a r = f
    field_simp; ring

theorem consistent {a : ℝ} (ha : 0 < a) : Consistent (pot a) (Spherical.Dom (Set.Ioi 0)) :=
  Spherical.consistent (radialOK ha)

section C
variable (amp : ℝ) {a R z : ℝ}
theorem cEval_eq (t : ℝ) (ha : 0 < a) (h : 0 < R ^ 2 + z ^ 2) :
    cEval amp a R z = amp * Spherical.evaluate (radial a) R z t := by
  simp only [Spherical.evaluate, radial, cEval, ← sq]
  rw [revaluate_eq ha (sqrt_pos.2 h)]; ring
theorem cRforce_eq (t : ℝ) : cRforce amp a R z = amp * Spherical.Rforce (radial a) R z t := by
  simp only [Spherical.Rforce, radial, cRforce, rforce, ← sq, div_div, div_pow]; ring
theorem czforce_eq (t : ℝ) : czforce amp a R z = amp * Spherical.zforce (radial a) R z t := by
  simp only [Spherical.zforce, radial, czforce, rforce, ← sq, div_div, div_pow]; ring
theorem cDens_eq (t : ℝ) : cDens amp a R z = amp * Spherical.dens (radial a) R z t := by
  simp only [Spherical.dens, radial, cDens, rdens, ← sq]; ring
theorem planarRforce (r : ℝ) : cPlanarRforce amp a r = amp * rforce a r := by
  simp only [cPlanarRforce, rforce, ← sq, div_div, div_pow]; ring
theorem planarR2deriv {r : ℝ} (ha : 0 < a) (hr : 0 < r) :
    cPlanarR2deriv amp a r = amp * r2deriv a r := by
  simp only [cPlanarR2deriv, r2deriv, rforce, ← sq]
  generalize log (1 + r / a) = L1
  generalize log (1 + (r / a) ^ 2) = L2
  generalize arctan (1 / (r / a)) = A
  obtain ⟨x, rfl⟩ : ∃ x, r = a * x := ⟨r / a, by field_simp⟩
  have hx : 0 < x := by
    by_contra k; push Not at k; nlinarith
  rw [mul_div_cancel_left₀ x ha.ne']
  have h5 : a ^ 2 + (a * x) ^ 2 ≠ 0 := by positivity
  have h6 : a + a * x ≠ 0 := by positivity
  rw [show a ^ 2 + (a * x) ^ 2 = a ^ 2 * (1 + x ^ 2) by ring, show a + a * x = a * (1 + x) by ring]
  field_simp
  ring
theorem cPlanarRforce_eq (t : ℝ) (hR : 0 < R) :
    cPlanarRforce amp a R = amp * Spherical.Rforce (radial a) R 0 t := by
  rw [planarRforce, ← Spherical.cPlanarRforce_eq _ _ _ _ hR]; rfl
theorem cPlanarR2deriv_eq (t : ℝ) (ha : 0 < a) (hR : 0 < R) :
    cPlanarR2deriv amp a R = amp * Spherical.R2deriv (radial a) R 0 t := by
  rw [planarR2deriv amp ha hR, ← Spherical.cPlanarR2deriv_eq _ _ _ _ hR]; rfl
theorem cR2deriv_eq (t : ℝ) (ha : 0 < a) (h : 0 < R ^ 2 + z ^ 2) :
    cR2deriv amp a R z = amp * Spherical.R2deriv (radial a) R z t :=
  Spherical.cR2_eq amp _ R z t h (planarR2deriv amp ha (sqrt_pos.2 h)) (planarRforce amp _)
theorem cz2deriv_eq (t : ℝ) (ha : 0 < a) (h : 0 < R ^ 2 + z ^ 2) :
    cz2deriv amp a R z = amp * Spherical.z2deriv (radial a) R z t :=
  Spherical.cz2_eq amp _ R z t h (planarR2deriv amp ha (sqrt_pos.2 h)) (planarRforce amp _)
theorem cRzderiv_eq (t : ℝ) (ha : 0 < a) (h : 0 < R ^ 2 + z ^ 2) :
    cRzderiv amp a R z = amp * Spherical.Rzderiv (radial a) R z t :=
  Spherical.cRz_eq amp _ R z t h (planarR2deriv amp ha (sqrt_pos.2 h)) (planarRforce amp _)
end C
end Verif.Burkert
