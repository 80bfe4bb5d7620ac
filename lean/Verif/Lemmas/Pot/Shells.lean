import Verif.Model.Pot.Shells
import Verif.Lemmas.Pot.Spherical

set_option autoImplicit false

noncomputable section
namespace Verif
open Real Filter Topology

namespace SphericalShell

theorem radialOK {a : ℝ} (ha : 0 < a) : Spherical.RadialOK (radial a) {r | 0 < r ∧ r ≠ a} := by
  refine Spherical.RadialOK.stat ?_ (fun r h => h.1) ?_ ?_ ?_
  · exact (isOpen_lt continuous_const continuous_id).inter isOpen_ne
  · rintro r ⟨hr, hne⟩
    rcases lt_or_gt_of_ne hne with h | h
    · have ev : ∀ᶠ x in 𝓝 r, revaluate a x = -1 / a := (gt_mem_nhds h).mono fun x hx => by
        simp only [revaluate, if_pos (le_of_lt hx)]
      refine HasDerivAt.congr_of_eventuallyEq ?_ ev
      simpa [rforce, h.le] using hd_const (-1 / a) r
    · have ev : ∀ᶠ x in 𝓝 r, revaluate a x = -1 / x := (lt_mem_nhds h).mono fun x hx => by
        simp only [revaluate, if_neg (not_le.2 hx)]
      refine HasDerivAt.congr_of_eventuallyEq ?_ ev
      apply HasDerivAt.congr_deriv
      · hasderiv; exact hr.ne'
      · simp only [rforce, if_neg (not_le.2 h)]; field_simp; ring
  · rintro r ⟨hr, hne⟩
    rcases lt_or_gt_of_ne hne with h | h
    · have ev : ∀ᶠ x in 𝓝 r, rforce a x = 0 := (gt_mem_nhds h).mono fun x hx => by
        simp only [rforce, if_pos (le_of_lt hx)]
      refine HasDerivAt.congr_of_eventuallyEq ?_ ev
      simpa [r2deriv, h.le] using hd_const (0 : ℝ) r
    · have ev : ∀ᶠ x in 𝓝 r, rforce a x = -1 / x ^ 2 := (lt_mem_nhds h).mono fun x hx => by
        simp only [rforce, if_neg (not_le.2 hx)]
      refine HasDerivAt.congr_of_eventuallyEq ?_ ev
      apply HasDerivAt.congr_deriv
      · hasderiv; exact pow_ne_zero _ hr.ne'
      · simp only [r2deriv, if_neg (not_le.2 h)]; field_simp; ring
  · rintro r ⟨hr, hne⟩
    simp only [rdens, r2deriv, rforce]
    split_ifs
    · simp
    · field_simp; ring

theorem consistent {a : ℝ} (ha : 0 < a) :
    Consistent (pot a) (Spherical.Dom {r | 0 < r ∧ r ≠ a}) := Spherical.consistent (radialOK ha)

end SphericalShell

namespace HomogeneousSphere

/-- Inside part. -/
private def inside (a : ℝ) : Pot :=
  Pot.axi (fun R z => R ^ 2 + z ^ 2 - 3 * a ^ 2) (fun R _ => -2 * R) (fun _ z => -2 * z) (fun _ _ => 2)
    (fun _ _ => 2) (fun _ _ => 0) (fun _ _ => 3 / 2 / π)

private theorem inside_ok (a : ℝ) : Consistent (inside a) (fun R z _ => R ^ 2 + z ^ 2 < a ^ 2) := by
  refine Consistent.axi (D := fun R z => R ^ 2 + z ^ 2 < a ^ 2) ?_ ?_ ?_ ?_ ?_ ?_ ?_ ?_ ?_
  · intro R z h
    exact (show ContinuousAt (fun x : ℝ => x ^ 2 + z ^ 2) R by fun_prop).eventually (gt_mem_nhds h)
  · intro R z h
    exact (show ContinuousAt (fun x : ℝ => R ^ 2 + x ^ 2) z by fun_prop).eventually (gt_mem_nhds h)
  · intro R z h
    apply HasDerivAt.congr_deriv
    · hasderiv
    · ring
  · intro R z h
    apply HasDerivAt.congr_deriv
    · hasderiv
    · ring
  · intro R z h
    apply HasDerivAt.congr_deriv
    · hasderiv
    · ring
  · intro R z h
    apply HasDerivAt.congr_deriv
    · hasderiv
    · ring
  · intro R z h
    apply HasDerivAt.congr_deriv
    · hasderiv
    · ring
  · intro R z h
    apply HasDerivAt.congr_deriv
    · hasderiv
    · ring
  · intro R z h h'; have := pi_ne_zero; field_simp; ring

/-- Outside radial profile. -/
private def outR (a : ℝ) : Spherical.Radial := Spherical.stat (fun r => -2 * a ^ 3 / r)
  (fun r => -2 * a ^ 3 / r ^ 2) (fun r => -4 * a ^ 3 / r ^ 3) (fun _ => 0)

private theorem outR_ok {a : ℝ} (ha : 0 < a) : Spherical.RadialOK (outR a) (Set.Ioi a) := by
  refine Spherical.RadialOK.stat isOpen_Ioi (fun r h => ha.trans h) ?_ ?_ ?_
  · intro r hr
    have h1 := (ha.trans hr).ne'
    apply HasDerivAt.congr_deriv
    · hasderiv
    · field_simp; ring
  · intro r hr
    have h1 := (ha.trans hr).ne'
    apply HasDerivAt.congr_deriv
    · hasderiv; exact pow_ne_zero _ h1
    · field_simp; ring
  · intro r hr
    have h1 := (ha.trans hr).ne'
    field_simp; ring

private theorem axIn (a : ℝ) : AxisOpen (fun R z _ => R ^ 2 + z ^ 2 < a ^ 2) where
  oR := fun R z _ h =>
    (show ContinuousAt (fun x : ℝ => x ^ 2 + z ^ 2) R by fun_prop).eventually (gt_mem_nhds h)
  oz := fun R z _ h =>
    (show ContinuousAt (fun x : ℝ => R ^ 2 + x ^ 2) z by fun_prop).eventually (gt_mem_nhds h)
  op := fun _ _ _ h => Eventually.of_forall fun _ => h

theorem consistent_in (a : ℝ) : Consistent (pot a) (fun R z _ => R ^ 2 + z ^ 2 < a ^ 2) := by
  refine Consistent.congr (axIn a) (inside_ok a) ?_ ?_ ?_ ?_ ?_ ?_ ?_ ?_ ?_ ?_ ?_
  all_goals
    intro R z φ t h; try intro _
    simp only [pot, inside, Pot.axi, evaluate, Rforce, zforce, R2deriv, z2deriv, Rzderiv, dens, h, if_true]

theorem consistent_out {a : ℝ} (ha : 0 < a) : Consistent (pot a) (Spherical.Dom (Set.Ioi a)) := by
  refine Spherical.consistent_axi (outR_ok ha) (fun _ _ => ⟨rfl, rfl, rfl, rfl⟩) ?_ ?_ ?_ ?_ ?_ ?_ ?_
  all_goals
    intro R z r hS hr e1 e2
    have e3 : R ^ 2 + z ^ 2 = r ^ 2 := by rw [e2]; ring
    have hS : a < r := hS
    have hn : ¬ (R ^ 2 + z ^ 2 < a ^ 2) := by
      rw [e3]; exact not_lt.2 (pow_le_pow_left₀ ha.le hS.le 2)
    have hu : 0 < R ^ 2 + z ^ 2 := by rw [e3]; positivity
    have q3 := rpow_three_half hu
    have q5 := rpow_five_half hu
    simp only [evaluate, Rforce, zforce, R2deriv, z2deriv, Rzderiv, dens, outR, Spherical.stat, hn,
      if_false, q3, q5, e1]
    try simp only [e3]
    try (field_simp; done)
    try (field_simp; ring_nf; done)
    try (field_simp; elimsq e2; ring)

theorem consistent {a : ℝ} (ha : 0 < a) :
    Consistent (pot a) (fun R z _ => R ^ 2 + z ^ 2 ≠ a ^ 2) := by
  refine ((consistent_in a).or (consistent_out ha)).mono fun R z φ h => ?_
  rcases lt_or_gt_of_ne h with k | k
  · exact Or.inl k
  · exact Or.inr ((lt_sqrt ha.le).2 k)

/-- On the surface of the sphere the two pieces match to first order: the force is the gradient
there as well. -/
theorem grad_boundary {a : ℝ} (ha : 0 < a) (R z φ t : ℝ) (h : R ^ 2 + z ^ 2 = a ^ 2) :
    GradAt (pot a) R z φ t := by
  have hu : ∀ x y : ℝ, x ^ 2 + y ^ 2 = a ^ 2 → (x ^ 2 + y ^ 2) ^ (3/2 : ℝ) = a ^ 3 := fun x y e => by
    rw [rpow_three_half (by rw [e]; positivity), e, sqrt_sq ha.le]; ring
  have main : ∀ x y : ℝ, x ^ 2 + y ^ 2 = a ^ 2 →
      HasDerivAt (fun s : ℝ => if s ^ 2 + y ^ 2 < a ^ 2 then s ^ 2 + y ^ 2 - 3 * a ^ 2
        else -2 * a ^ 3 / √(s ^ 2 + y ^ 2)) (2 * x) x := by
    intro x y e
    have hs : √(x ^ 2 + y ^ 2) = a := by rw [e, sqrt_sq ha.le]
    have d1 : HasDerivAt (fun s : ℝ => s ^ 2 + y ^ 2 - 3 * a ^ 2) (2 * x) x := by
      apply HasDerivAt.congr_deriv
      · hasderiv
      · ring
    have d2 : HasDerivAt (fun s : ℝ => -2 * a ^ 3 / √(s ^ 2 + y ^ 2)) (2 * x) x := by
      apply HasDerivAt.congr_deriv
      · hasderiv
        · rw [e]; positivity
        · rw [hs]; exact ha.ne'
      · rw [hs]; field_simp; ring
    have v : x ^ 2 + y ^ 2 - 3 * a ^ 2 = -2 * a ^ 3 / √(x ^ 2 + y ^ 2) := by
      rw [hs, e]; field_simp; ring
    rw [hasDerivAt_iff_isLittleO] at d1 d2 ⊢
    have e0 : ¬ (x ^ 2 + y ^ 2 < a ^ 2) := by rw [e]; exact lt_irrefl _
    rw [if_neg e0]
    refine Asymptotics.IsLittleO.of_bound fun c hc => ?_
    filter_upwards [d1.def hc, d2.def hc] with s k1 k2
    by_cases k : s ^ 2 + y ^ 2 < a ^ 2
    · simp only [k, if_true]; rw [← v]; exact k1
    · simp only [k, if_false]; exact k2
  refine ⟨?_, ?_, by simpa [pot, Pot.axi] using hd_const _ _⟩
  · refine (main R z h).congr_deriv ?_
    have e0 : ¬ (R ^ 2 + z ^ 2 < a ^ 2) := by rw [h]; exact lt_irrefl _
    simp only [pot, Pot.axi, Rforce, e0, if_false, hu R z h]; field_simp
  · have e0 : ¬ (R ^ 2 + z ^ 2 < a ^ 2) := by rw [h]; exact lt_irrefl _
    have := main z R (by rw [add_comm]; exact h)
    simp only [pot, Pot.axi, evaluate, zforce, e0, if_false, hu R z h]
    simp only [add_comm _ (R ^ 2)] at this
    refine this.congr_deriv ?_
    field_simp

section C
variable (amp : ℝ) {a R z : ℝ}
theorem cEval_eq : cEval amp (a ^ 2) (a ^ 3) R z = amp * evaluate a R z := by
  simp only [cEval, evaluate, ← sq]; split_ifs <;> ring
theorem cRforce_eq : cRforce amp (a ^ 2) (a ^ 3) R z = amp * Rforce a R z := by
  simp only [cRforce, Rforce, ← sq]; split_ifs <;> ring
theorem czforce_eq : czforce amp (a ^ 2) (a ^ 3) R z = amp * zforce a R z := by
  simp only [czforce, zforce, ← sq]; split_ifs <;> ring
theorem cDens_eq : cDens amp (a ^ 2) R z = amp * dens a R z := by
  simp only [cDens, dens, ← sq]; split_ifs <;> ring
private theorem r3 {x : ℝ} (hx : 0 < x) : (x ^ 2) ^ (3/2 : ℝ) = x ^ 3 := by
  rw [rpow_three_half (by positivity), sqrt_sq hx.le]; ring
private theorem r5 {x : ℝ} (hx : 0 < x) : (x ^ 2) ^ (5/2 : ℝ) = x ^ 5 := by
  rw [rpow_five_half (by positivity), sqrt_sq hx.le]; ring
theorem cPlanarRforce_eq (hR : 0 < R) :
    cPlanarRforce amp (a ^ 2) (a ^ 3) R = amp * Rforce a R 0 := by
  simp only [cPlanarRforce, Rforce, ← sq, zero_pow two_ne_zero, add_zero, r3 hR]
  split_ifs
  · ring
  · field_simp
theorem cPlanarR2deriv_eq (hR : 0 < R) :
    cPlanarR2deriv amp (a ^ 2) (a ^ 3) R = amp * R2deriv a R 0 := by
  simp only [cPlanarR2deriv, R2deriv, ← sq, zero_pow two_ne_zero, add_zero, r3 hR, r5 hR]
  split_ifs
  · ring
  · field_simp; ring
private theorem csec (h : 0 < R ^ 2 + z ^ 2) :
    ∃ r, 0 < r ∧ √(R ^ 2 + z ^ 2) = r ∧ R ^ 2 + z ^ 2 = r ^ 2 ∧ z ^ 2 = r ^ 2 - R ^ 2 := by
  have hr := sqrt_pos.2 h
  exact ⟨_, hr, rfl, (sq_sqrt h.le).symm, by rw [sq_sqrt h.le]; ring⟩
theorem cR2deriv_eq (h : 0 < R ^ 2 + z ^ 2) :
    cR2deriv amp (a ^ 2) (a ^ 3) R z = amp * R2deriv a R z := by
  obtain ⟨r, hr, e1, e2, e3⟩ := csec h
  simp only [cR2deriv, Spherical.cR2, cPlanarR2deriv, cPlanarRforce, R2deriv, ← sq, e1]
  simp only [e2, r3 hr, r5 hr]
  split_ifs
  all_goals (field_simp; elimsq e3; try ring)
theorem cz2deriv_eq (h : 0 < R ^ 2 + z ^ 2) :
    cz2deriv amp (a ^ 2) (a ^ 3) R z = amp * z2deriv a R z := by
  obtain ⟨r, hr, e1, e2, e3⟩ := csec h
  simp only [cz2deriv, Spherical.cz2, cPlanarR2deriv, cPlanarRforce, z2deriv, ← sq, e1]
  simp only [e2, r3 hr, r5 hr]
  split_ifs
  all_goals (field_simp; elimsq e3; try ring)
theorem cRzderiv_eq (h : 0 < R ^ 2 + z ^ 2) :
    cRzderiv amp (a ^ 2) (a ^ 3) R z = amp * Rzderiv a R z := by
  obtain ⟨r, hr, e1, e2, e3⟩ := csec h
  simp only [cRzderiv, Spherical.cRz, cPlanarR2deriv, cPlanarRforce, Rzderiv, ← sq, e1]
  simp only [e2, r3 hr, r5 hr]
  split_ifs
  all_goals (field_simp; try ring)
end C
end HomogeneousSphere
end Verif
