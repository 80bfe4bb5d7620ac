import Verif.Model.Pot.RadialProfiles
import Verif.Lemmas.Pot.Spherical

set_option autoImplicit false

noncomputable section
namespace Verif
open Real MeasureTheory Set Filter Topology

theorem upperGamma_eq {s : ℝ} (hs : 0 < s) {x : ℝ} (hx : 0 ≤ x) : upperGamma s x = Gamma s - lowerGamma s x := by
  rw [← upper_lower hs hx]; ring

namespace Einasto
/-- The argument of the incomplete Gamma functions. -/
def X (h n r : ℝ) : ℝ := (r / h) ^ (1 / n)
variable {h n r : ℝ}
theorem X_pos (hh : 0 < h) (hr : 0 < r) : 0 < X h n r := rpow_pos_of_pos (div_pos hr hh) _
theorem X_pow (hh : 0 < h) (hn : 0 < n) (hr : 0 < r) (k : ℝ) : X h n r ^ (k * n) = (r / h) ^ k := by
  rw [X, ← rpow_mul (div_pos hr hh).le]
  congr 1; field_simp
theorem X_deriv (hh : 0 < h) (hn : 0 < n) (hr : 0 < r) : HasDerivAt (X h n) (X h n r / (n * r)) r := by
  have hs := div_pos hr hh
  have := ((hasDerivAt_id r).div_const h).rpow_const (p := 1 / n) (Or.inl hs.ne')
  refine this.congr_deriv ?_
  simp only [id, X]
  rw [rpow_sub hs, rpow_one]
  field_simp
theorem lower_deriv (hh : 0 < h) (hn : 0 < n) (hr : 0 < r) {k : ℝ} (hk : 0 < k) :
    HasDerivAt (fun r => lowerGamma (k * n) (X h n r)) ((r / h) ^ k * exp (-X h n r) / (n * r)) r := by
  have := (lowerGamma_deriv (mul_pos hk hn) (X_pos (n := n) hh hr)).comp r (X_deriv hh hn hr)
  refine this.congr_deriv ?_
  have hX := X_pos (n := n) hh hr
  rw [rpow_sub hX, rpow_one, X_pow hh hn hr]
  field_simp
/-- The mass within `r` divided by the amplitude. -/
def massG (h n r : ℝ) : ℝ := 4 * π * h ^ 3 * n * lowerGamma (3 * n) (X h n r)
theorem massG_deriv (hh : 0 < h) (hn : 0 < n) (hr : 0 < r) :
    HasDerivAt (massG h n) (4 * π * r ^ 2 * rdens h n r) r := by
  refine ((lower_deriv hh hn hr three_pos).const_mul (4 * π * h ^ 3 * n)).congr_deriv ?_
  rw [rdens, show ((r / h) ^ (3:ℝ)) = (r / h) ^ 3 by norm_cast]
  simp only [X]
  field_simp
theorem Q_eq (hh : 0 < h) (hn : 0 < n) (hr : 0 < r) :
    Gamma (3 * n) * (gammaincc (3 * n) (X h n r) - 1) = -lowerGamma (3 * n) (X h n r) := by
  have h3 : 0 < 3 * n := by positivity
  rw [gammaincc, upperGamma_eq h3 (X_pos hh hr).le]
  have := Gamma_pos_of_pos h3
  field_simp
  ring
theorem force_eq (hh : 0 < h) (hn : 0 < n) (hr : 0 < r) : rforce h n r = -(massG h n r / r ^ 2) := by
  have := Q_eq hh hn hr
  have e : rforce h n r = 4 * π * h * n * ((r / h) ^ 2)⁻¹ * (Gamma (3 * n) * (gammaincc (3 * n) (X h n r) - 1)) := by
    simp only [rforce, X]; ring
  rw [e, this, massG]
  field_simp
theorem d2_eq (hh : 0 < h) (hn : 0 < n) (hr : 0 < r) : r2deriv h n r = 4 * π * rdens h n r - 2 * massG h n r / r ^ 3 := by
  have := Q_eq hh hn hr
  have h3 := Gamma_pos_of_pos (show 0 < 3 * n by positivity)
  have e : r2deriv h n r = 4 * π * n * (2 * ((r / h) ^ 3)⁻¹ * (Gamma (3 * n) * (gammaincc (3 * n) (X h n r) - 1)))
      + 4 * π * rdens h n r := by
    simp only [r2deriv, X, rdens]
    field_simp; ring
  rw [e, this, massG]
  field_simp; ring
theorem val_eq (hh : 0 < h) (hn : 0 < n) (hr : 0 < r) : revaluate h n r
    = -(massG h n r / r) - 4 * π * h ^ 2 * n * (Gamma (2 * n) - lowerGamma (2 * n) (X h n r)) := by
  have := Q_eq hh hn hr
  have h3 := Gamma_pos_of_pos (show 0 < 3 * n by positivity)
  have h2 := Gamma_pos_of_pos (show 0 < 2 * n by positivity)
  have u := upperGamma_eq (show 0 < 2 * n by positivity) (X_pos (n := n) hh hr).le
  have e : revaluate h n r = 4 * π * h ^ 2 * n * ((Gamma (3 * n) * (gammaincc (3 * n) (X h n r) - 1)) / (r / h)
      - upperGamma (2 * n) (X h n r)) := by
    simp only [revaluate, if_neg hr.ne', X]
    unfold gammaincc
    field_simp; ring
  rw [e, this, massG, u]
  field_simp
theorem radOK (hh : 0 < h) (hn : 0 < n) : Spherical.RadialOK (radial h n) (Ioi 0) := by
  refine ⟨isOpen_Ioi, fun _ h => h, fun r hr _ => ?_, fun r hr _ => ?_, fun r hr _ => ?_⟩
  · have hr' : 0 < r := hr
    have key := (((massG_deriv hh hn hr').div (hasDerivAt_id r) hr'.ne').neg).sub
      (((lower_deriv hh hn hr' two_pos).const_sub (Gamma (2 * n))).const_mul (4 * π * h ^ 2 * n))
    refine (key.congr_of_eventuallyEq ?_).congr_deriv ?_
    · filter_upwards [lt_mem_nhds hr'] with x hx using val_eq hh hn hx
    · show _ = -rforce h n r
      rw [force_eq hh hn hr', rdens, show ((r / h) ^ (2:ℝ)) = (r / h) ^ 2 by norm_cast]
      simp only [X, id]
      field_simp
      ring
  · have hr' : 0 < r := hr
    have key := ((massG_deriv hh hn hr').div ((hasDerivAt_id r).pow 2) (pow_ne_zero 2 hr'.ne')).neg
    refine (key.congr_of_eventuallyEq ?_).congr_deriv ?_
    · filter_upwards [lt_mem_nhds hr'] with x hx using force_eq hh hn hx
    · show _ = -r2deriv h n r
      rw [d2_eq hh hn hr']
      simp only [id, Pi.pow_apply]
      push_cast
      field_simp
  · have hr' : 0 < r := hr
    show 4 * π * rdens h n r = r2deriv h n r - 2 * rforce h n r / r
    rw [d2_eq hh hn hr', force_eq hh hn hr']
    field_simp
    ring
theorem c_eq (hh : 0 < h) (hn : 0 < n) (hr : 0 < r) : cRevaluate h n r = revaluate h n r := by
  have h3 := Gamma_pos_of_pos (show 0 < 3 * n by positivity)
  have h2 := Gamma_pos_of_pos (show 0 < 2 * n by positivity)
  simp only [cRevaluate, revaluate, if_neg hr.ne', gammaincc]
  field_simp
end Einasto

namespace AnySph
/-- Densities for which the integrals converge away from the centre: continuous outside the centre, finite mass inside a
sphere, and an outer potential that converges. -/
structure Ok (ρ : ℝ → ℝ) : Prop where
  cont : ContinuousOn ρ (Ioi 0)
  inner : IntegrableOn (fun a => a ^ 2 * ρ a) (Ioc 0 1)
  outer : IntegrableOn (fun a => ρ a * a) (Ioi 1)
variable {ρ : ℝ → ℝ} {r : ℝ}
theorem int2 (o : Ok ρ) (hr : 0 < r) : IntervalIntegrable (fun a => a ^ 2 * ρ a) volume 0 r := by
  have h1 : IntervalIntegrable (fun a => a ^ 2 * ρ a) volume 0 1 :=
    (intervalIntegrable_iff_integrableOn_Ioc_of_le zero_le_one).2 o.inner
  refine h1.trans (ContinuousOn.intervalIntegrable ?_)
  intro x hx
  have : 0 < x := lt_of_lt_of_le (lt_min one_pos hr) hx.1
  exact ((continuous_pow 2).continuousAt.mul (o.cont.continuousAt (Ioi_mem_nhds this))).continuousWithinAt
theorem mass_deriv (o : Ok ρ) (hr : 0 < r) : HasDerivAt (rawmass ρ) (4 * π * (r ^ 2 * ρ r)) r := by
  refine (intervalIntegral.integral_hasDerivAt_right (int2 o hr) ?_ ?_).const_mul (4 * π)
  · exact ContinuousOn.stronglyMeasurableAtFilter isOpen_Ioi (s := Ioi 0)
      ((continuous_pow 2).continuousOn.mul o.cont) r hr
  · exact (continuous_pow 2).continuousAt.mul (o.cont.continuousAt (Ioi_mem_nhds hr))
theorem int1 (o : Ok ρ) (hr : 0 < r) : IntervalIntegrable (fun a => ρ a * a) volume 1 r := by
  refine ContinuousOn.intervalIntegrable ?_
  intro x hx
  have : 0 < x := lt_of_lt_of_le (lt_min one_pos hr) hx.1
  exact ((o.cont.continuousAt (Ioi_mem_nhds this)).mul continuousAt_id).continuousWithinAt
theorem outer' (o : Ok ρ) (hr : 0 < r) : IntegrableOn (fun a => ρ a * a) (Ioi r) := by
  rcases le_or_gt 1 r with h | h
  · exact o.outer.mono_set (Ioi_subset_Ioi h)
  · have := (intervalIntegrable_iff_integrableOn_Ioc_of_le h.le).1 (int1 o hr).symm
    rw [← Ioc_union_Ioi_eq_Ioi h.le]
    exact this.union o.outer
theorem outer_eq (o : Ok ρ) (hr : 0 < r) :
    ∫ a in Ioi r, ρ a * a = (∫ a in Ioi 1, ρ a * a) - ∫ a in (1:ℝ)..r, ρ a * a := by
  have := intervalIntegral.integral_interval_add_Ioi o.outer (outer' o hr)
  linarith
theorem outer_deriv (o : Ok ρ) (hr : 0 < r) : HasDerivAt (fun r => ∫ a in Ioi r, ρ a * a) (-(ρ r * r)) r := by
  have : HasDerivAt (fun r => ∫ a in (1:ℝ)..r, ρ a * a) (ρ r * r) r := by
    refine intervalIntegral.integral_hasDerivAt_right (int1 o hr) ?_ ?_
    · exact ContinuousOn.stronglyMeasurableAtFilter isOpen_Ioi (s := Ioi 0) (o.cont.mul continuousOn_id) r hr
    · exact (o.cont.continuousAt (Ioi_mem_nhds hr)).mul continuousAt_id
  refine (this.const_sub (∫ a in Ioi 1, ρ a * a)).congr_of_eventuallyEq ?_
  filter_upwards [lt_mem_nhds hr] with x hx using outer_eq o hx
theorem radOK (o : Ok ρ) : Spherical.RadialOK (radial ρ) (Ioi 0) := by
  refine ⟨isOpen_Ioi, fun _ h => h, fun r hr _ => ?_, fun r hr _ => ?_, fun r hr _ => ?_⟩
  · have hr' : 0 < r := hr
    refine ((((mass_deriv o hr').neg).div (hasDerivAt_id r) hr'.ne').sub
      ((outer_deriv o hr').const_mul (4 * π))).congr_deriv ?_
    simp only [radial, rforce, id, Pi.neg_apply]
    field_simp
    ring
  · have hr' : 0 < r := hr
    refine (((mass_deriv o hr').neg).div ((hasDerivAt_id r).pow 2) (pow_ne_zero 2 hr'.ne')).congr_deriv ?_
    simp only [radial, r2deriv, id, Pi.neg_apply, Pi.pow_apply]
    push_cast
    field_simp
    ring
  · have hr' : 0 < r := hr
    simp only [radial, r2deriv, rforce]
    field_simp
    ring
end AnySph

namespace InterpSph
/-- Splines are continuously differentiable; the grid is increasing and starts outside or at the centre. -/
structure Ok (o : Obj) : Prop where
  smooth : ContDiff ℝ 1 o.spline
  rmax : 0 < o.rmax
variable {o : Obj} {r : ℝ}
theorem pot_deriv (k : Ok o) : HasDerivAt o.potSpline (o.spline r) r :=
  intervalIntegral.integral_hasDerivAt_right (k.smooth.continuous.intervalIntegrable _ _)
    (k.smooth.continuous.stronglyMeasurableAtFilter _ _) k.smooth.continuous.continuousAt
theorem inner_val (k : Ok o) : HasDerivAt (fun r => -o.potSpline r + o.Phi0) (-o.spline r) r :=
  ((pot_deriv k).neg.add_const _)
theorem outer_val (hr : 0 < r) : HasDerivAt (fun r => -o.totalMass / r + o.Phimax) (o.totalMass / r ^ 2) r := by
  refine (((hasDerivAt_const r (-o.totalMass)).div (hasDerivAt_id r) hr.ne').add_const o.Phimax).congr_deriv ?_
  simp only [id]; field_simp; ring
theorem outer_force (hr : 0 < r) : HasDerivAt (fun r => -o.totalMass / r ^ 2) (2 * o.totalMass / r ^ 3) r := by
  refine ((hasDerivAt_const r (-o.totalMass)).div ((hasDerivAt_id r).pow 2) (pow_ne_zero 2 hr.ne')).congr_deriv ?_
  simp only [id, Pi.pow_apply]; push_cast; field_simp; ring
/-- The force is minus the derivative of the potential everywhere, also where the spline joins the Keplerian outside. -/
theorem val_deriv (k : Ok o) (hr : 0 < r) : HasDerivAt (revaluate o) (-rforce o r) r := by
  rcases lt_trichotomy r o.rmax with h | h | h
  · refine ((inner_val k).congr_of_eventuallyEq ?_).congr_deriv ?_
    · filter_upwards [gt_mem_nhds h] with x hx
      rw [revaluate, if_neg (not_le.2 hx)]
    · rw [rforce, if_neg (not_le.2 h)]
  · subst h
    have hm := k.rmax.ne'
    have e1 : o.totalMass / o.rmax ^ 2 = -o.spline o.rmax := by rw [Obj.totalMass]; field_simp
    have e : revaluate o o.rmax = -o.potSpline o.rmax + o.Phi0 := by
      rw [revaluate, if_pos le_rfl, Obj.Phimax]; ring
    rw [rforce, if_pos le_rfl, neg_div, neg_neg, e1, ← hasDerivWithinAt_univ, ← Iic_union_Ici (a := o.rmax)]
    refine HasDerivWithinAt.union ?_ ?_
    · refine ((inner_val k).hasDerivWithinAt).congr (fun x hx => ?_) e
      rcases eq_or_lt_of_le (mem_Iic.1 hx) with rfl | h
      · exact e
      · rw [revaluate, if_neg (not_le.2 h)]
    · rw [← e1]
      refine ((outer_val hr).hasDerivWithinAt).congr (fun x hx => ?_) ?_
      · rw [revaluate, if_pos (mem_Ici.1 hx)]
      · rw [revaluate, if_pos le_rfl]
  · refine ((outer_val (o := o) hr).congr_of_eventuallyEq ?_).congr_deriv ?_
    · filter_upwards [lt_mem_nhds h] with x hx
      rw [revaluate, if_pos hx.le]
    · rw [rforce, if_pos h.le]; ring
theorem radOK (k : Ok o) : Spherical.RadialOK (radial o) (Ioi 0 \ {o.rmax}) := by
  refine ⟨isOpen_Ioi.sdiff isClosed_singleton, fun _ h => h.1, fun r hr _ => val_deriv k hr.1, fun r hr _ => ?_, fun r hr _ => ?_⟩
  · have hr' : 0 < r := hr.1
    rcases lt_or_gt_of_ne hr.2 with h | h
    · have hd : HasDerivAt o.spline (deriv o.spline r) r := (k.smooth.differentiable one_ne_zero r).hasDerivAt
      refine (hd.congr_of_eventuallyEq ?_).congr_deriv ?_
      · filter_upwards [gt_mem_nhds h] with x hx
        show rforce o x = _
        rw [rforce, if_neg (not_le.2 hx)]
      · show _ = -r2deriv o r
        rw [r2deriv, if_neg (not_le.2 h), neg_neg]
    · refine ((outer_force (o := o) hr').congr_of_eventuallyEq ?_).congr_deriv ?_
      · filter_upwards [lt_mem_nhds h] with x hx
        show rforce o x = _
        rw [rforce, if_pos hx.le]
      · show _ = -r2deriv o r
        rw [r2deriv, if_pos h.le]; ring
  · have hr' : 0 < r := hr.1
    show 4 * π * rdens o r = r2deriv o r - 2 * rforce o r / r
    rcases lt_or_gt_of_ne hr.2 with h | h
    · rw [rdens, if_neg (not_le.2 h), Spherical.rdensDefault_ok]
    · rw [rdens, r2deriv, rforce, if_pos h.le, if_pos h.le, if_pos h.le]
      field_simp; ring
end InterpSph

end Verif
