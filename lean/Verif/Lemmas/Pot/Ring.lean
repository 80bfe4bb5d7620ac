import Verif.Model.Pot.Ring
import Mathlib.MeasureTheory.Integral.IntervalIntegral.Periodic

set_option autoImplicit false

/-! # The potential of a ring -/

noncomputable section
namespace Verif.Ring
open Real Filter Topology

/-- Squared largest distance to the ring. -/
def P (a R z : ℝ) : ℝ := (R + a) ^ 2 + z ^ 2
/-- Squared smallest distance to the ring. -/
def Q (a R z : ℝ) : ℝ := (R - a) ^ 2 + z ^ 2
/-- The parameter of the elliptic integrals. -/
def mm (a R z : ℝ) : ℝ := 4 * R * a / P a R z
def κ (a R z : ℝ) : ℝ := ellipk (mm a R z)
def ε (a R z : ℝ) : ℝ := ellipe (mm a R z)
def iw (a R z : ℝ) : ℝ := 1 / √(P a R z)

/-- Off the ring and off the axis. -/
def Ok (a R z : ℝ) : Prop := 0 < R ∧ 0 < Q a R z

section
variable {a R z : ℝ}
theorem Ppos (ha : 0 < a) (h : Ok a R z) : 0 < P a R z := by
  have := h.1; unfold P; positivity
theorem PQ (a R z : ℝ) : P a R z - 4 * R * a = Q a R z := by unfold P Q; ring
theorem one_sub (ha : 0 < a) (h : Ok a R z) : 1 - mm a R z = Q a R z / P a R z := by
  have := (Ppos ha h).ne'
  unfold mm; rw [← PQ]; field_simp
theorem m_lt (ha : 0 < a) (h : Ok a R z) : mm a R z < 1 := by
  have := div_pos h.2 (Ppos ha h)
  have := one_sub ha h
  linarith
theorem m_pos (ha : 0 < a) (h : Ok a R z) : 0 < mm a R z := by
  have := Ppos ha h
  have := h.1
  unfold mm; positivity
theorem ε_pos (ha : 0 < a) (h : Ok a R z) : 0 < ε a R z := ellipe_pos (m_lt ha h)

theorem P_R : HasDerivAt (fun x => P a x z) (2 * (R + a)) R := by
  unfold P
  have := (((hasDerivAt_id R).add_const a).pow 2).add_const (z ^ 2)
  refine this.congr_deriv ?_
  simp
theorem P_z : HasDerivAt (fun x => P a R x) (2 * z) z := by
  unfold P
  have := ((hasDerivAt_id z).pow 2).const_add ((R + a) ^ 2)
  refine this.congr_deriv ?_
  simp
theorem Q_R : HasDerivAt (fun x => Q a x z) (2 * (R - a)) R := by
  unfold Q
  have := (((hasDerivAt_id R).sub_const a).pow 2).add_const (z ^ 2)
  refine this.congr_deriv ?_
  simp
theorem Q_z : HasDerivAt (fun x => Q a R x) (2 * z) z := by
  unfold Q
  have := ((hasDerivAt_id z).pow 2).const_add ((R - a) ^ 2)
  refine this.congr_deriv ?_
  simp
theorem m_R (ha : 0 < a) (h : Ok a R z) :
    HasDerivAt (fun x => mm a x z) (4 * a * (a ^ 2 + z ^ 2 - R ^ 2) / P a R z ^ 2) R := by
  have hp := (Ppos ha h).ne'
  have := (((hasDerivAt_id R).const_mul 4).mul_const a).div (P_R (a := a) (z := z)) hp
  refine this.congr_deriv ?_
  simp only [id]
  congr 1
  unfold P; ring
theorem m_z (ha : 0 < a) (h : Ok a R z) :
    HasDerivAt (fun x => mm a R x) (-(8 * a * R * z) / P a R z ^ 2) z := by
  have hp := (Ppos ha h).ne'
  have := (hasDerivAt_const z (4 * R * a)).div (P_z (a := a) (R := R)) hp
  refine this.congr_deriv ?_
  congr 1
  ring
theorem iw_R (ha : 0 < a) (h : Ok a R z) : HasDerivAt (fun x => iw a x z) (-(R + a) * iw a R z / P a R z) R := by
  have hp := Ppos ha h
  have hs := sqrt_pos.2 hp
  refine ((hasDerivAt_const R (1 : ℝ)).div ((P_R (a := a) (z := z)).sqrt hp.ne') hs.ne').congr_deriv ?_
  unfold iw
  rw [sq_sqrt hp.le]
  field_simp
  ring
theorem iw_z (ha : 0 < a) (h : Ok a R z) : HasDerivAt (fun x => iw a R x) (-z * iw a R z / P a R z) z := by
  have hp := Ppos ha h
  have hs := sqrt_pos.2 hp
  refine ((hasDerivAt_const z (1 : ℝ)).div ((P_z (a := a) (R := R)).sqrt hp.ne') hs.ne').congr_deriv ?_
  unfold iw
  rw [sq_sqrt hp.le]
  field_simp
  ring

theorem cmp {f g : ℝ → ℝ} {x g' f' : ℝ} (hg : HasDerivAt g g' x) (hf : HasDerivAt f f' (g x)) :
    HasDerivAt (fun y => f (g y)) (f' * g') x := hf.comp x hg

theorem κ_R (ha : 0 < a) (h : Ok a R z) : HasDerivAt (fun x => κ a x z)
    ((ε a R z * P a R z / Q a R z - κ a R z) * (a ^ 2 + z ^ 2 - R ^ 2) / (2 * R * P a R z)) R := by
  refine (cmp (m_R ha h) (ellipk_deriv (m_lt ha h) (m_pos ha h).ne')).congr_deriv ?_
  rw [one_sub ha h]
  change (ε a R z / (Q a R z / P a R z) - κ a R z) / (2 * mm a R z) * _ = _
  have hp := (Ppos ha h).ne'
  have hq := h.2.ne'
  have hr := h.1.ne'
  unfold mm
  generalize P a R z = p at *
  generalize Q a R z = q at *
  field_simp
theorem κ_z (ha : 0 < a) (h : Ok a R z) : HasDerivAt (fun x => κ a R x)
    (-(ε a R z * P a R z / Q a R z - κ a R z) * z / P a R z) z := by
  refine (HasDerivAt.comp z (ellipk_deriv (m_lt ha h) (m_pos ha h).ne') (m_z ha h)).congr_deriv ?_
  rw [one_sub ha h]
  change (ε a R z / (Q a R z / P a R z) - κ a R z) / (2 * mm a R z) * _ = _
  have hp := (Ppos ha h).ne'
  have hq := h.2.ne'
  have hr := h.1.ne'
  unfold mm
  generalize P a R z = p at *
  generalize Q a R z = q at *
  field_simp
  ring
theorem ε_R (ha : 0 < a) (h : Ok a R z) : HasDerivAt (fun x => ε a x z)
    ((ε a R z - κ a R z) * (a ^ 2 + z ^ 2 - R ^ 2) / (2 * R * P a R z)) R := by
  refine (cmp (m_R ha h) (ellipe_deriv (m_lt ha h) (m_pos ha h).ne')).congr_deriv ?_
  change (ε a R z - κ a R z) / (2 * mm a R z) * _ = _
  have hp := (Ppos ha h).ne'
  have hr := h.1.ne'
  unfold mm
  generalize P a R z = p at *
  field_simp
theorem ε_z (ha : 0 < a) (h : Ok a R z) : HasDerivAt (fun x => ε a R x)
    (-(ε a R z - κ a R z) * z / P a R z) z := by
  refine (HasDerivAt.comp z (ellipe_deriv (m_lt ha h) (m_pos ha h).ne') (m_z ha h)).congr_deriv ?_
  change (ε a R z - κ a R z) / (2 * mm a R z) * _ = _
  have hp := (Ppos ha h).ne'
  have hr := h.1.ne'
  unfold mm
  generalize P a R z = p at *
  field_simp
  ring

/-! ### The methods in terms of these -/

theorem evaluate_eq (hR : 0 < R) : evaluate a R z = -4 * a * iw a R z * κ a R z := by
  have hs := sqrt_pos.2 hR
  have e : √R ^ 2 = R := sq_sqrt hR.le
  have hm : 4 * a / ((√R + a / √R) ^ 2 + z ^ 2 / R) = mm a R z := by
    have : (√R + a / √R) ^ 2 + z ^ 2 / R = P a R z / R := by
      unfold P
      have : (√R + a / √R) ^ 2 = (R + a) ^ 2 / R := by
        have e2 : √R + a / √R = (R + a) / √R := by
          rw [eq_div_iff hs.ne', add_mul, div_mul_cancel₀ _ hs.ne', ← pow_two, e]
        rw [e2, div_pow, e]
      rw [this]; ring
    rw [this]; unfold mm
    rw [div_div_eq_mul_div]; ring
  unfold evaluate
  simp only
  rw [hm]
  unfold iw κ P
  ring
theorem Rforce_eq (ha : 0 < a) (h : Ok a R z) :
    Rforce a R z = -2 * a / R * iw a R z * ((R ^ 2 - a ^ 2 - z ^ 2) / Q a R z * ε a R z + κ a R z) := by
  unfold Rforce
  change -2 * a / R / √(P a R z) * (mm a R z * (R ^ 2 - a ^ 2 - z ^ 2) / 4 / (1 - mm a R z) / a / R * ε a R z + κ a R z) = _
  rw [one_sub ha h]
  have hp := (Ppos ha h).ne'
  have hs := (sqrt_pos.2 (Ppos ha h)).ne'
  have hq := h.2.ne'
  have hr := h.1.ne'
  unfold mm iw
  generalize √(P a R z) = w at *
  generalize P a R z = p at *
  generalize Q a R z = q at *
  field_simp
theorem rpow_P (ha : 0 < a) (h : Ok a R z) : ((R + a) ^ 2 + z ^ 2) ^ (-(3 / 2) : ℝ) = iw a R z / P a R z := by
  change P a R z ^ (-(3 / 2) : ℝ) = _
  rw [rpow_neg_three_half (Ppos ha h)]
  unfold iw
  rw [div_div, mul_comm]
theorem zforce_eq (ha : 0 < a) (h : Ok a R z) :
    zforce a R z = -4 * z * a * iw a R z / Q a R z * ε a R z := by
  unfold zforce
  change -4 * z * a / (1 - mm a R z) * ((R + a) ^ 2 + z ^ 2) ^ (-(3 / 2) : ℝ) * ε a R z = _
  rw [one_sub ha h, rpow_P ha h]
  have hp := (Ppos ha h).ne'
  have hq := h.2.ne'
  generalize P a R z = p at *
  generalize Q a R z = q at *
  field_simp
theorem z2deriv_eq (ha : 0 < a) (h : Ok a R z) :
    z2deriv a R z = -4 * a * iw a R z / Q a R z * ((3 * z ^ 2 / P a R z - 1) * ε a R z
      + ((P a R z + 4 * R * a) / Q a R z * ε a R z - κ a R z) * z ^ 2 / P a R z) := by
  unfold z2deriv
  change -4 * (3 * z ^ 2 / P a R z - 1 + 4 * ((1 + mm a R z) / (1 - mm a R z) - κ a R z / ε a R z) * a * R * z ^ 2
    / P a R z ^ 2 / mm a R z) * a / (1 - mm a R z) * ((R + a) ^ 2 + z ^ 2) ^ (-(3 / 2) : ℝ) * ε a R z = _
  rw [one_sub ha h, rpow_P ha h]
  have hp := (Ppos ha h).ne'
  have hq := h.2.ne'
  have hr := h.1.ne'
  have he := (ε_pos ha h).ne'
  unfold mm
  generalize P a R z = p at *
  generalize Q a R z = q at *
  generalize ε a R z = e at *
  field_simp
theorem Rzderiv_eq (ha : 0 < a) (h : Ok a R z) :
    Rzderiv a R z = -4 * z * a * iw a R z / Q a R z * (3 * (R + a) / P a R z * ε a R z
      - ((P a R z + 4 * R * a) / Q a R z * ε a R z - κ a R z) * (a ^ 2 + z ^ 2 - R ^ 2) / (2 * R * P a R z)) := by
  unfold Rzderiv
  change (3 * (R + a) / P a R z - 2 * ((1 + mm a R z) / (1 - mm a R z) - κ a R z / ε a R z) * a * (a ^ 2 + z ^ 2 - R ^ 2)
    / P a R z ^ 2 / mm a R z) * zforce a R z = _
  rw [one_sub ha h, zforce_eq ha h]
  have hp := (Ppos ha h).ne'
  have hq := h.2.ne'
  have hr := h.1.ne'
  have he := (ε_pos ha h).ne'
  unfold mm
  generalize P a R z = p at *
  generalize Q a R z = q at *
  generalize ε a R z = e at *
  field_simp
  ring
theorem R2deriv_eq (ha : 0 < a) (h : Ok a R z) :
    R2deriv a R z = (2 * R ^ 2 + a ^ 2 + 3 * R * a + z ^ 2) / R / P a R z
        * (-2 * a / R * iw a R z * ((R ^ 2 - a ^ 2 - z ^ 2) / Q a R z * ε a R z + κ a R z))
      + 2 * a / R * iw a R z * ((R ^ 2 + a ^ 2 + z ^ 2) / (R * Q a R z) * ε a R z
        + ((R ^ 2 - a ^ 2 - z ^ 2) * P a R z / (4 * a * R * Q a R z) * (P a R z / Q a R z * ε a R z)
          + 1 / 2 * ((R ^ 2 - a ^ 2 - z ^ 2) * P a R z / (4 * a * R * Q a R z)) * (ε a R z - κ a R z)
          + 1 / 2 * (P a R z / Q a R z * ε a R z - κ a R z) * P a R z / (4 * R * a)) * 4 * a * (a ^ 2 + z ^ 2 - R ^ 2)
          / P a R z ^ 2) := by
  unfold R2deriv
  change (2 * R ^ 2 + a ^ 2 + 3 * R * a + z ^ 2) / R / P a R z * Rforce a R z
    + 2 * a / R / √(P a R z) * (mm a R z * (R ^ 2 + a ^ 2 + z ^ 2) / 4 / (1 - mm a R z) / a / R ^ 2 * ε a R z
      + ((R ^ 2 - a ^ 2 - z ^ 2) / 4 / a / R / (1 - mm a R z) / (1 - mm a R z) * ε a R z
        + 0.5 * ((R ^ 2 - a ^ 2 - z ^ 2) / 4 / a / R / (1 - mm a R z)) * (ε a R z - κ a R z)
        + 0.5 * (ε a R z / (1 - mm a R z) - κ a R z) / mm a R z) * 4 * a * (a ^ 2 + z ^ 2 - R ^ 2) / P a R z ^ 2) = _
  rw [one_sub ha h, Rforce_eq ha h]
  have hp := (Ppos ha h).ne'
  have hs := (sqrt_pos.2 (Ppos ha h)).ne'
  have hq := h.2.ne'
  have hr := h.1.ne'
  unfold mm iw
  generalize √(P a R z) = w at *
  generalize P a R z = p at *
  generalize Q a R z = q at *
  field_simp
  ring

theorem ok_R (h : Ok a R z) : ∀ᶠ x in 𝓝 R, Ok a x z :=
  (lt_mem_nhds h.1).and (ev_pos (f := fun x => Q a x z) (by unfold Q; fun_prop) h.2)
theorem ok_z (h : Ok a R z) : ∀ᶠ x in 𝓝 z, Ok a R x :=
  (Eventually.of_forall fun _ => h.1).and (ev_pos (f := fun x => Q a R x) (by unfold Q; fun_prop) h.2)
end

theorem laplace {a R z : ℝ} (ha : 0 < a) (h : Ok a R z) : R2deriv a R z - Rforce a R z / R + z2deriv a R z = 0 := by
  rw [R2deriv_eq ha h, Rforce_eq ha h, z2deriv_eq ha h]
  have hp := (Ppos ha h).ne'
  have hq := h.2.ne'
  have hr := h.1.ne'
  generalize ε a R z = e at *
  generalize κ a R z = k at *
  generalize iw a R z = w at *
  unfold P Q at *
  field_simp
  ring

theorem consistent {a : ℝ} (ha : 0 < a) : Consistent (pot a) (fun R z _ => Ok a R z) := by
  refine Consistent.axi (fun R z h => ok_R h) (fun R z h => ok_z h) ?_ ?_ ?_ ?_ ?_ ?_ ?_
  · intro R z h
    refine HasDerivAt.congr_of_eventuallyEq ?_ ((lt_mem_nhds h.1).mono fun x k => evaluate_eq k)
    refine (((iw_R ha h).const_mul (-4 * a)).mul (κ_R ha h)).congr_deriv ?_
    rw [Rforce_eq ha h]
    have hp := (Ppos ha h).ne'
    have hq := h.2.ne'
    have hr := h.1.ne'
    generalize ε a R z = e at *
    generalize κ a R z = k at *
    generalize iw a R z = w at *
    unfold P Q at *
    field_simp
    ring
  · intro R z h
    refine HasDerivAt.congr_of_eventuallyEq ?_ (Eventually.of_forall fun x => evaluate_eq h.1)
    refine (((iw_z ha h).const_mul (-4 * a)).mul (κ_z ha h)).congr_deriv ?_
    rw [zforce_eq ha h]
    have hp := (Ppos ha h).ne'
    have hq := h.2.ne'
    have hr := h.1.ne'
    generalize ε a R z = e at *
    generalize κ a R z = k at *
    generalize iw a R z = w at *
    unfold P Q at *
    field_simp
    ring
  · intro R z h
    refine HasDerivAt.congr_of_eventuallyEq ?_ ((ok_R h).mono fun x k => Rforce_eq ha k)
    have hp := (Ppos ha h).ne'
    have hq := h.2.ne'
    have hr := h.1.ne'
    have hn : HasDerivAt (fun x => x ^ 2 - a ^ 2 - z ^ 2) (2 * R) R := by
      simpa using (((hasDerivAt_id R).pow 2).sub_const (a ^ 2)).sub_const (z ^ 2)
    have hc : HasDerivAt (fun x => -2 * a / x) (2 * a / R ^ 2) R := by
      refine ((hasDerivAt_const R (-2 * a)).div (hasDerivAt_id R) hr).congr_deriv ?_
      simp
    refine ((hc.mul (iw_R ha h)).mul (((hn.div Q_R hq).mul (ε_R ha h)).add (κ_R ha h))).congr_deriv ?_
    rw [R2deriv_eq ha h]
    simp only [Pi.mul_apply, Pi.add_apply, Pi.div_apply]
    generalize ε a R z = e at *
    generalize κ a R z = k at *
    generalize iw a R z = w at *
    unfold P Q at *
    field_simp
    ring
  · intro R z h
    refine HasDerivAt.congr_of_eventuallyEq ?_ ((ok_z h).mono fun x k => Rforce_eq ha k)
    have hp := (Ppos ha h).ne'
    have hq := h.2.ne'
    have hr := h.1.ne'
    have hn : HasDerivAt (fun x => R ^ 2 - a ^ 2 - x ^ 2) (-(2 * z)) z := by
      simpa using ((hasDerivAt_id z).pow 2).const_sub (R ^ 2 - a ^ 2)
    refine (((iw_z ha h).const_mul (-2 * a / R)).mul (((hn.div Q_z hq).mul (ε_z ha h)).add (κ_z ha h))).congr_deriv ?_
    rw [Rzderiv_eq ha h]
    simp only [Pi.mul_apply, Pi.add_apply, Pi.div_apply]
    generalize ε a R z = e at *
    generalize κ a R z = k at *
    generalize iw a R z = w at *
    unfold P Q at *
    field_simp
    ring
  · intro R z h
    refine HasDerivAt.congr_of_eventuallyEq ?_ ((ok_R h).mono fun x k => zforce_eq ha k)
    have hp := (Ppos ha h).ne'
    have hq := h.2.ne'
    have hr := h.1.ne'
    refine ((((iw_R ha h).const_mul (-4 * z * a)).div Q_R hq).mul (ε_R ha h)).congr_deriv ?_
    rw [Rzderiv_eq ha h]
    simp only [Pi.mul_apply, Pi.div_apply]
    generalize ε a R z = e at *
    generalize κ a R z = k at *
    generalize iw a R z = w at *
    unfold P Q at *
    field_simp
    ring
  · intro R z h
    refine HasDerivAt.congr_of_eventuallyEq ?_ ((ok_z h).mono fun x k => zforce_eq ha k)
    have hp := (Ppos ha h).ne'
    have hq := h.2.ne'
    have hr := h.1.ne'
    have hc : HasDerivAt (fun x : ℝ => -4 * x * a) (-4 * a) z := by
      simpa using ((hasDerivAt_id z).const_mul (-4)).mul_const a
    refine (((hc.mul (iw_z ha h)).div Q_z hq).mul (ε_z ha h)).congr_deriv ?_
    rw [z2deriv_eq ha h]
    simp only [Pi.mul_apply, Pi.div_apply]
    generalize ε a R z = e at *
    generalize κ a R z = k at *
    generalize iw a R z = w at *
    unfold P Q at *
    field_simp
    ring
  · intro R z h hR
    unfold dens
    field_simp
    ring

/-- The potential is that of a ring: `∫ a dφ / distance`. -/
theorem evaluate_integral {a R z : ℝ} (ha : 0 < a) (h : Ok a R z) : evaluate a R z =
    -∫ φ in (0 : ℝ)..(2 * π), a / √((R - a * cos φ) ^ 2 + (0 - a * sin φ) ^ 2 + z ^ 2) := by
  have hp := Ppos ha h
  have hs := sqrt_pos.2 hp
  let f : ℝ → ℝ := fun θ => 1 / √(1 - mm a R z * sin θ ^ 2)
  have hfc : Continuous f := by
    refine continuous_const.div (by fun_prop) fun θ => (sqrt_pos.2 (ell_pos (m_lt ha h) θ)).ne'
  have hf : ∀ φ, a / √((R - a * cos φ) ^ 2 + (0 - a * sin φ) ^ 2 + z ^ 2) = a * iw a R z * f (1 / 2 * φ + π / 2) := by
    intro φ
    have e : (R - a * cos φ) ^ 2 + (0 - a * sin φ) ^ 2 + z ^ 2 = P a R z * (1 - mm a R z * sin (1 / 2 * φ + π / 2) ^ 2) := by
      rw [sin_add_pi_div_two, cos_sq, show 2 * (1 / 2 * φ) = φ by ring, mul_sub, ← mul_assoc,
        show P a R z * mm a R z = 4 * R * a from by unfold mm; field_simp]
      unfold P
      linear_combination a ^ 2 * sin_sq_add_cos_sq φ
    rw [e, sqrt_mul hp.le]
    simp only [f, iw]
    have := (sqrt_pos.2 (ell_pos (m_lt ha h) (1 / 2 * φ + π / 2))).ne'
    field_simp
  have hper : Function.Periodic f π := fun θ => by
    simp only [f, sin_add_pi, neg_sq]
  have h2 : ∫ θ in (π / 2)..π, f θ = κ a R z := by
    have := intervalIntegral.integral_comp_sub_left (a := π / 2) (b := π) f π
    simp only [f, sin_pi_sub] at this
    rw [show π - π / 2 = π / 2 by ring, sub_self] at this
    exact this
  have h3 : ∫ θ in (0 : ℝ)..π, f θ = 2 * κ a R z := by
    rw [← intervalIntegral.integral_add_adjacent_intervals (hfc.intervalIntegrable 0 (π / 2)) (hfc.intervalIntegrable _ _), h2,
      two_mul]
    rfl
  rw [evaluate_eq h.1]
  simp_rw [hf]
  rw [intervalIntegral.integral_const_mul, intervalIntegral.integral_comp_mul_add f (by norm_num) (π / 2),
    show 1 / 2 * (2 * π) + π / 2 = (1 / 2 * 0 + π / 2) + π by ring, hper.intervalIntegral_add_eq _ 0, zero_add, h3]
  simp only [smul_eq_mul]
  ring

end Verif.Ring
