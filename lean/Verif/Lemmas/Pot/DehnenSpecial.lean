import Verif.Lemmas.Pot.TwoPower

set_option autoImplicit false

/-! # The class `DehnenSphericalPotential` including its special cases -/

noncomputable section
namespace Verif.Dehnen
open Real

theorem consistent_cls {a α : ℝ} (ha : 0 < a) (h3 : α ≠ 3) :
    Consistent (cls a α) (Spherical.Dom (Set.Ioi 0)) := by
  by_cases h0 : α = 0
  · subst h0
    refine (DehnenCore.consistent ha).congr (Spherical.Dom.axisOpen isOpen_Ioi) ?_ ?_ ?_ ?_ ?_ ?_ ?_ ?_ ?_ ?_ ?_
    all_goals intro R z φ t h
    all_goals try simp [cls, Pot.axi, special, DehnenCore.pot, DehnenCore.z2deriv]
    intro _
    have hr : 0 < √(R ^ 2 + z ^ 2) := h
    rw [dens_radial 0 ha hr rfl]
    simp only [DehnenCore.dens]
    generalize √(R ^ 2 + z ^ 2) = r at *
    simp only [rpow_zero]
    have := pi_ne_zero
    field_simp
    try ring
  by_cases h1 : α = 1
  · subst h1
    have e : cls a 1 = Hernquist.pot a := by
      simp only [cls, special, Hernquist.pot, if_neg (one_ne_zero), if_pos]; rfl
    rw [e]; exact Hernquist.consistent ha
  by_cases h2 : α = 2
  · subst h2
    have e : cls a 2 = Jaffe.pot a := by
      simp only [cls, special, Jaffe.pot, if_neg h0, if_neg h1, if_pos]; rfl
    rw [e]; exact Jaffe.consistent ha
  · have e : cls a α = pot a α := by
      simp only [cls, special, pot, if_neg h0, if_neg h1, if_neg h2]; rfl
    rw [e]; exact consistent ha h2 h3


/-- The values of the generic formulas in terms of the spherical radius. -/
theorem gen_r {a α R z r : ℝ} (ha : 0 < a) (hr : 0 < r) (e1 : √(R ^ 2 + z ^ 2) = r) :
    Rforce a α R z = -R / r ^ α * ((r + a) ^ α / (r + a) ^ 3) / (3 - α) ∧
    zforce a α R z = -z / r ^ α * ((r + a) ^ α / (r + a) ^ 3) / (3 - α) ∧
    evaluate a α R z = -(1 - 1 / ((r + a) ^ 2 / r ^ 2 / ((r + a) ^ α / r ^ α))) / (a * (2 - α) * (3 - α)) ∧
    R2deriv a α R z = 1 / (r ^ 2 * r ^ α) * ((r + a) ^ α / (r + a) ^ 4) *
      (-a * r ^ 2 + (2 * R ^ 2 - z ^ 2) * r + a * α * R ^ 2) / (α - 3) ∧
    z2deriv a α R z = 1 / (r ^ 2 * r ^ α) * ((r + a) ^ α / (r + a) ^ 4) *
      (-a * r ^ 2 + (2 * z ^ 2 - R ^ 2) * r + a * α * z ^ 2) / (α - 3) ∧
    Rzderiv a α R z = R * z * (1 / (r ^ 2 * r ^ α)) * ((r + a) ^ α / (r + a) ^ 4) *
      (3 * r + a * α) / (α - 3) := by
  obtain ⟨q1, q2, q3, q4, q5, q6, q7, q8, q9, q10, q11⟩ := pows α ha hr
  refine ⟨?_, ?_, ?_, ?_, ?_, ?_⟩
  all_goals
    simp only [Rforce, zforce, evaluate, R2deriv, z2deriv, Rzderiv, add_comm (z ^ 2) (R ^ 2), e1,
      add_comm a r, q1, q2, q3, q4]

theorem special_core {a R z : ℝ} (ha : 0 < a) (h : 0 < R ^ 2 + z ^ 2) :
    evaluate a 0 R z = DehnenCore.evaluate a R z ∧ Rforce a 0 R z = DehnenCore.Rforce a R z ∧
    zforce a 0 R z = DehnenCore.zforce a R z ∧ R2deriv a 0 R z = DehnenCore.R2deriv a R z ∧
    z2deriv a 0 R z = DehnenCore.z2deriv a R z ∧ Rzderiv a 0 R z = DehnenCore.Rzderiv a R z := by
  obtain ⟨r, hr, e1, e2⟩ : ∃ r, 0 < r ∧ √(R ^ 2 + z ^ 2) = r ∧ z ^ 2 = r ^ 2 - R ^ 2 :=
    ⟨_, sqrt_pos.2 h, rfl, by rw [sq_sqrt h.le]; ring⟩
  obtain ⟨g1, g2, g3, g4, g5, g6⟩ := gen_r (α := 0) ha hr e1
  have k1 : 0 < r + a := by positivity
  refine ⟨?_, ?_, ?_, ?_, ?_, ?_⟩
  all_goals simp only [g1, g2, g3, g4, g5, g6, rpow_zero]
  all_goals
    simp only [DehnenCore.evaluate, DehnenCore.Rforce, DehnenCore.zforce, DehnenCore.R2deriv,
      DehnenCore.z2deriv, DehnenCore.Rzderiv, add_comm (z ^ 2) (R ^ 2), e1, add_comm a r]
  · have e3 : 1 + a / r = (r + a) / r := by field_simp
    rw [e3]; field_simp; ring
  all_goals try field_simp
  all_goals try norm_num
  all_goals try field_simp
  all_goals first | ring1 | (elimsq e2; ring1)

theorem special_hern {a R z : ℝ} (ha : 0 < a) (h : 0 < R ^ 2 + z ^ 2) :
    evaluate a 1 R z = Hernquist.evaluate a R z ∧ Rforce a 1 R z = Hernquist.Rforce a R z ∧
    zforce a 1 R z = Hernquist.zforce a R z ∧ R2deriv a 1 R z = Hernquist.R2deriv a R z ∧
    z2deriv a 1 R z = Hernquist.z2deriv a R z ∧ Rzderiv a 1 R z = Hernquist.Rzderiv a R z := by
  obtain ⟨r, hr, e1, e2⟩ : ∃ r, 0 < r ∧ √(R ^ 2 + z ^ 2) = r ∧ z ^ 2 = r ^ 2 - R ^ 2 :=
    ⟨_, sqrt_pos.2 h, rfl, by rw [sq_sqrt h.le]; ring⟩
  obtain ⟨g1, g2, g3, g4, g5, g6⟩ := gen_r (α := 1) ha hr e1
  have k1 : 0 < r + a := by positivity
  have e3 : 1 + r / a = (r + a) / a := by field_simp; ring
  refine ⟨?_, ?_, ?_, ?_, ?_, ?_⟩
  all_goals simp only [g1, g2, g3, g4, g5, g6, rpow_one]
  all_goals
    simp only [Hernquist.evaluate, Hernquist.Rforce, Hernquist.zforce, Hernquist.R2deriv,
      Hernquist.z2deriv, Hernquist.Rzderiv, add_comm (z ^ 2) (R ^ 2), e1, add_comm a r, e3]
  all_goals try norm_num
  all_goals try field_simp
  all_goals first | ring1 | (elimsq e2; ring1)

theorem special_jaffe {a R z : ℝ} (ha : 0 < a) (h : 0 < R ^ 2 + z ^ 2) :
    Rforce a 2 R z = Jaffe.Rforce a R z ∧
    zforce a 2 R z = Jaffe.zforce a R z ∧ R2deriv a 2 R z = Jaffe.R2deriv a R z ∧
    z2deriv a 2 R z = Jaffe.z2deriv a R z ∧ Rzderiv a 2 R z = Jaffe.Rzderiv a R z := by
  obtain ⟨r, hr, e1, e2⟩ : ∃ r, 0 < r ∧ √(R ^ 2 + z ^ 2) = r ∧ z ^ 2 = r ^ 2 - R ^ 2 :=
    ⟨_, sqrt_pos.2 h, rfl, by rw [sq_sqrt h.le]; ring⟩
  obtain ⟨g1, g2, g3, g4, g5, g6⟩ := gen_r (α := 2) ha hr e1
  have k1 : 0 < r + a := by positivity
  have e3 : 1 + a / r = (r + a) / r := by field_simp
  refine ⟨?_, ?_, ?_, ?_, ?_⟩
  all_goals simp only [g1, g2, g3, g4, g5, g6, rpow_two]
  all_goals
    simp only [Jaffe.Rforce, Jaffe.zforce, Jaffe.R2deriv,
      Jaffe.z2deriv, Jaffe.Rzderiv, add_comm (z ^ 2) (R ^ 2), e1, add_comm a r, e3]
  all_goals try norm_num
  all_goals try field_simp
  all_goals first | ring1 | (elimsq e2; ring1)


/-- Dispatch: if the C function agrees with the generic formula and the generic formula with each
special class, the C function agrees with the dispatching method. -/
theorem special_eq {α c amp R z : ℝ} {core hern jaffe gen : ℝ → ℝ → ℝ}
    (hg : c = amp * gen R z) (h0 : α = 0 → gen R z = core R z) (h1 : α = 1 → gen R z = hern R z)
    (h2 : α = 2 → gen R z = jaffe R z) : c = amp * special α core hern jaffe gen R z := by
  unfold special; split_ifs with a b d
  · rw [hg, h0 a]
  · rw [hg, h1 b]
  · rw [hg, h2 d]
  · exact hg

variable (amp : ℝ) {a α R z : ℝ}
theorem cls_cEval (ha : 0 < a) (h : 0 < R ^ 2 + z ^ 2) (h2 : α ≠ 2) :
    cEval amp a α R z = amp * (cls a α).val R z 0 0 :=
  special_eq (cEval_eq amp ha h) (fun e => by subst e; exact (special_core ha h).1)
    (fun e => by subst e; exact (special_hern ha h).1) (fun e => absurd e h2)
theorem cls_cRforce (ha : 0 < a) (h : 0 < R ^ 2 + z ^ 2) :
    cRforce amp a α R z = amp * (cls a α).Rforce R z 0 0 :=
  special_eq (cRforce_eq amp ha h) (fun e => by subst e; exact (special_core ha h).2.1)
    (fun e => by subst e; exact (special_hern ha h).2.1) (fun e => by subst e; exact (special_jaffe ha h).1)
theorem cls_czforce (ha : 0 < a) (h : 0 < R ^ 2 + z ^ 2) :
    czforce amp a α R z = amp * (cls a α).zforce R z 0 0 :=
  special_eq (czforce_eq amp ha h) (fun e => by subst e; exact (special_core ha h).2.2.1)
    (fun e => by subst e; exact (special_hern ha h).2.2.1)
    (fun e => by subst e; exact (special_jaffe ha h).2.1)
theorem cls_cR2deriv (ha : 0 < a) (h3 : α ≠ 3) (h : 0 < R ^ 2 + z ^ 2) :
    cR2deriv amp a α R z = amp * (cls a α).R2deriv R z 0 0 :=
  special_eq (cR2deriv_eq amp ha h3 h) (fun e => by subst e; exact (special_core ha h).2.2.2.1)
    (fun e => by subst e; exact (special_hern ha h).2.2.2.1)
    (fun e => by subst e; exact (special_jaffe ha h).2.2.1)
theorem cls_cz2deriv (ha : 0 < a) (h3 : α ≠ 3) (h : 0 < R ^ 2 + z ^ 2) :
    cz2deriv amp a α R z = amp * (cls a α).z2deriv R z 0 0 := by
  have := special_eq (α := α) (R := R) (z := z) (gen := z2deriv a α) (core := DehnenCore.z2deriv a)
    (hern := Hernquist.z2deriv a) (jaffe := Jaffe.z2deriv a) (cz2deriv_eq amp ha h3 h)
    (fun e => by subst e; exact (special_core ha h).2.2.2.2.1)
    (fun e => by subst e; exact (special_hern ha h).2.2.2.2.1)
    (fun e => by subst e; exact (special_jaffe ha h).2.2.2.1)
  rw [this]
  simp only [cls, Pot.axi, special]; split_ifs <;> rfl
theorem cls_cRzderiv (ha : 0 < a) (h3 : α ≠ 3) (h : 0 < R ^ 2 + z ^ 2) :
    cRzderiv amp a α R z = amp * (cls a α).Rzderiv R z 0 0 :=
  special_eq (cRzderiv_eq amp ha h3 h) (fun e => by subst e; exact (special_core ha h).2.2.2.2.2)
    (fun e => by subst e; exact (special_hern ha h).2.2.2.2.2)
    (fun e => by subst e; exact (special_jaffe ha h).2.2.2.2)
theorem cls_cDens (ha : 0 < a) (h : 0 < R ^ 2 + z ^ 2) :
    cDens amp a α R z = amp * (cls a α).dens R z 0 0 := cDens_eq amp ha h
theorem cls_cPlanarRforce (ha : 0 < a) (h3 : α ≠ 3) (hR : 0 < R) :
    cPlanarRforce amp a α R = amp * (cls a α).Rforce R 0 0 0 :=
  have h : 0 < R ^ 2 + 0 ^ 2 := by positivity
  special_eq (cPlanarRforce_eq amp ha h3 hR) (fun e => by subst e; exact (special_core ha h).2.1)
    (fun e => by subst e; exact (special_hern ha h).2.1) (fun e => by subst e; exact (special_jaffe ha h).1)
theorem cls_cPlanarR2deriv (ha : 0 < a) (h3 : α ≠ 3) (hR : 0 < R) :
    cPlanarR2deriv amp a α R = amp * (cls a α).R2deriv R 0 0 0 :=
  have h : 0 < R ^ 2 + 0 ^ 2 := by positivity
  special_eq (cPlanarR2deriv_eq amp ha h3 hR) (fun e => by subst e; exact (special_core ha h).2.2.2.1)
    (fun e => by subst e; exact (special_hern ha h).2.2.2.1)
    (fun e => by subst e; exact (special_jaffe ha h).2.2.1)

end Verif.Dehnen
