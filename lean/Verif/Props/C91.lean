import Verif.Model.DF.King
import Verif.Props.C59Density
import Mathlib.Analysis.Calculus.Deriv.Inverse
import Mathlib.Analysis.Calculus.FDeriv.Extend
import Mathlib.Analysis.SpecialFunctions.Trigonometric.Deriv
import Mathlib.Topology.Order.MonotoneContinuity

set_option autoImplicit false

/-!
# C91: King models are self-consistent
-/

noncomputable section
namespace Verif
open Real MeasureTheory Set Filter King
open scoped Topology

namespace C91Spec

/-- The integral over all velocities of a function of the energy where the potential is `Φ`. -/
def velocityIntegral (f : ℝ → ℝ) (Φ : ℝ) : ℝ := 4 * π * ∫ v in Ioi (0 : ℝ), v ^ 2 * f (Φ + v ^ 2 / 2)

/-- A solution of Poisson's equation `W'' + 2 W' / r = - 4 π dens(W)` regular at the centre, from `W0` to zero at `rt`. -/
structure Profile (dens : ℝ → ℝ) (W0 rt : ℝ) (W dW : ℝ → ℝ) : Prop where
  cont : ContinuousOn W (Icc 0 rt)
  dcont : ContinuousOn dW (Icc 0 rt)
  start : W 0 = W0
  dstart : dW 0 = 0
  edge : W rt = 0
  d1 : ∀ r ∈ Ioo 0 rt, HasDerivAt W (dW r) r
  d2 : ∀ r ∈ Ioo 0 rt, HasDerivAt dW (-(4 * π) * dens (W r) - 2 * dW r / r) r

/-- `y` solves `y' = f(t, y)` between `t0` and `t1` starting from `y0`. -/
structure Solves (f : ℝ → ℝ × ℝ → ℝ × ℝ) (t0 t1 : ℝ) (y0 : ℝ × ℝ) (y : ℝ → ℝ × ℝ) : Prop where
  start : y t0 = y0
  cont : ContinuousOn y (uIcc t0 t1)
  d1 : ∀ t ∈ Ioo (min t0 t1) (max t0 t1), HasDerivAt (fun s => (y s).1) (f t (y t)).1 t
  d2 : ∀ t ∈ Ioo (min t0 t1) (max t0 t1), HasDerivAt (fun s => (y s).2) (f t (y t)).2 t

end C91Spec
open C91Spec

namespace C91aux

/-! ### The velocity integral -/

theorem anti (q W : ℝ) {s : ℝ} (hs : 0 < s) (v : ℝ) :
    HasDerivAt (fun v => exp W * erfFac (v / √(2 * s)) - 4 / (3 * √π) * (v / √(2 * s)) ^ 3)
      (4 / √π / √(2 * s) ^ 3 * (v ^ 2 * (exp (W - v ^ 2 / (2 * s)) - 1))) v := by
  have p : 0 < √(2 * s) := by positivity
  have h0 : HasDerivAt (fun v : ℝ => v / √(2 * s)) (1 / √(2 * s)) v := (hasDerivAt_id v).div_const _
  have h1 := ((erfFac_deriv (v / √(2 * s))).comp v h0).const_mul (exp W)
  have h2 := (h0.pow 3).const_mul (4 / (3 * √π))
  refine (h1.sub h2).congr_deriv ?_
  have e : exp (W - v ^ 2 / (2 * s)) = exp W * exp (-(v / √(2 * s)) ^ 2) := by
    rw [← exp_add, div_pow, sq_sqrt (by positivity)]; ring_nf
  rw [e]
  push_cast
  field_simp

theorem speed {q s ρ Φ b : ℝ} (hs : 0 < s) (hΦ : Φ ≤ q) (hb : √(2 * (q - Φ)) ≤ b) :
    4 * π * ∫ v in (0 : ℝ)..b, v ^ 2 * (if q - (Φ + v ^ 2 / 2) > 0 then (exp ((q - (Φ + v ^ 2 / 2)) / s) - 1) * (2 * π * s) ^ (-1.5 : ℝ) * ρ else 0)
      = ρ * densW ((q - Φ) / s) := by
  set W := (q - Φ) / s with hW
  have W0 : 0 ≤ W := div_nonneg (by linarith) hs.le
  set a := √(2 * (q - Φ)) with ha
  have a0 : 0 ≤ a := sqrt_nonneg _
  have a2 : a ^ 2 = 2 * (q - Φ) := sq_sqrt (by linarith)
  have hq : q - Φ = s * W := by rw [hW]; field_simp
  have c : (2 * π * s) ^ (-1.5 : ℝ) = 1 / (√(2 * s) ^ 3 * √π ^ 3) := by
    have : 0 < 2 * π * s := by positivity
    rw [show (-1.5 : ℝ) = -(1 / 2 * 3) by norm_num, rpow_neg this.le, rpow_mul this.le, ← sqrt_eq_rpow, show ((3 : ℝ)) = ((3 : ℕ) : ℝ) by norm_num,
      rpow_natCast, show 2 * π * s = (2 * s) * π by ring, sqrt_mul (by positivity), mul_pow, one_div]
  -- inside the escape velocity
  have inn : ∀ v ∈ Ioo 0 a, (if q - (Φ + v ^ 2 / 2) > 0 then (exp ((q - (Φ + v ^ 2 / 2)) / s) - 1) * (2 * π * s) ^ (-1.5 : ℝ) * ρ else 0)
      = (exp (W - v ^ 2 / (2 * s)) - 1) * (1 / (√(2 * s) ^ 3 * √π ^ 3)) * ρ := fun v hv => by
    have : v ^ 2 < a ^ 2 := by have := hv.1; have := hv.2; nlinarith
    rw [if_pos (by linarith), c, show (q - (Φ + v ^ 2 / 2)) / s = W - v ^ 2 / (2 * s) by rw [hW]; field_simp; ring]
  have out : ∀ v ∈ Ioc a b, (if q - (Φ + v ^ 2 / 2) > 0 then (exp ((q - (Φ + v ^ 2 / 2)) / s) - 1) * (2 * π * s) ^ (-1.5 : ℝ) * ρ else 0) = 0 := fun v hv => by
    have : a ^ 2 ≤ v ^ 2 := by have := hv.1; nlinarith
    rw [if_neg (by linarith)]
  set F : ℝ → ℝ := fun v => v ^ 2 * (if q - (Φ + v ^ 2 / 2) > 0 then (exp ((q - (Φ + v ^ 2 / 2)) / s) - 1) * (2 * π * s) ^ (-1.5 : ℝ) * ρ else 0) with hF
  set G : ℝ → ℝ := fun v => 1 / (√(2 * s) ^ 3 * √π ^ 3) * ρ * (v ^ 2 * (exp (W - v ^ 2 / (2 * s)) - 1)) with hG
  have Gc : Continuous G := by simp only [hG]; fun_prop
  have e1 : ∫ v in (0 : ℝ)..a, F v = ∫ v in (0 : ℝ)..a, G v := by
    rw [intervalIntegral.integral_of_le a0, intervalIntegral.integral_of_le a0, integral_Ioc_eq_integral_Ioo, integral_Ioc_eq_integral_Ioo]
    refine setIntegral_congr_fun measurableSet_Ioo fun v hv => ?_
    simp only [hF, hG, inn v hv]; ring
  have i1 : IntervalIntegrable F volume 0 a := by
    refine (Gc.intervalIntegrable 0 a).congr_ae ?_
    rw [uIoc_of_le a0, ← restrict_Ioo_eq_restrict_Ioc]
    refine (ae_restrict_iff' measurableSet_Ioo).2 (Eventually.of_forall fun v hv => ?_)
    simp only [hF, hG, inn v hv]; ring
  have i2 : IntervalIntegrable F volume a b := by
    refine (intervalIntegrable_const (c := (0 : ℝ))).congr_ae ?_
    rw [uIoc_of_le hb]
    refine (ae_restrict_iff' measurableSet_Ioc).2 (Eventually.of_forall fun v hv => ?_)
    simp only [hF, out v hv]; ring
  have e2 : ∫ v in a..b, F v = 0 := by
    rw [intervalIntegral.integral_of_le hb, setIntegral_congr_fun (g := fun _ => (0 : ℝ)) measurableSet_Ioc fun v hv => by simp only [hF, out v hv, mul_zero]]
    simp
  rw [← intervalIntegral.integral_add_adjacent_intervals i1 i2, e1, e2, add_zero]
  simp only [hG]
  rw [intervalIntegral.integral_const_mul]
  have ft : ∫ v in (0 : ℝ)..a, 4 / √π / √(2 * s) ^ 3 * (v ^ 2 * (exp (W - v ^ 2 / (2 * s)) - 1)) = _ :=
    intervalIntegral.integral_eq_sub_of_hasDerivAt (fun v _ => anti q W hs v) (Continuous.intervalIntegrable (by fun_prop) _ _)
  have as : a / √(2 * s) = √W := by
    rw [ha, hq, ← sqrt_div (by positivity)]
    congr 1
    field_simp
  rw [intervalIntegral.integral_const_mul, as] at ft
  simp only [zero_div, erfFac, erf_zero] at ft
  have p : 0 < √(2 * s) := by positivity
  have pp : 0 < √π := by positivity
  have ππ : π = √π ^ 2 := (sq_sqrt pi_pos.le).symm
  have w2 : √W ^ 2 = W := sq_sqrt W0
  have ee : exp W * exp (-W) = 1 := by rw [← exp_add]; simp
  have key : 4 * π * (1 / (√(2 * s) ^ 3 * √π ^ 3) * ρ * ∫ v in (0 : ℝ)..a, v ^ 2 * (exp (W - v ^ 2 / (2 * s)) - 1))
      = ρ * (4 / √π / √(2 * s) ^ 3 * ∫ v in (0 : ℝ)..a, v ^ 2 * (exp (W - v ^ 2 / (2 * s)) - 1)) := by
    nth_rewrite 1 [ππ]
    field_simp
  rw [key, ft]
  simp only [densW, w2]
  rw [show √W ^ 3 = √W * W by rw [pow_succ, w2]; ring]
  congr 1
  have : exp W * (erf √W - 2 / √π * (√W * exp (-W))) = exp W * erf √W - 2 / √π * √W * (exp W * exp (-W)) := by ring
  rw [this, ee]
  simp only [zero_mul, mul_zero, sub_zero]
  field_simp
  ring

theorem densW_cont : Continuous densW := by
  have : Continuous erf := continuous_iff_continuousAt.2 fun x => (erf_deriv x).continuousAt
  unfold densW
  fun_prop

theorem densW_nonneg (W : ℝ) : 0 ≤ densW W := by
  rcases le_total W 0 with h | h
  · simp [densW, sqrt_eq_zero'.2 h, erf_zero]
  have k := speed (q := W) (s := 1) (ρ := 1) (Φ := 0) one_pos h le_rfl
  rw [sub_zero, div_one, one_mul] at k
  rw [← k]
  refine mul_nonneg (by positivity) (intervalIntegral.integral_nonneg (sqrt_nonneg _) fun v _ => mul_nonneg (sq_nonneg _) ?_)
  split_ifs with c
  · refine mul_nonneg (mul_nonneg ?_ (by positivity)) zero_le_one
    rw [sub_nonneg, div_one]
    exact one_le_exp c.le
  · exact le_rfl

end C91aux
open C91aux

/-- The density of the distribution function: the integral over all velocities of the lowered Maxwellian is King's density for the
potential relative to the tidal radius, in units of the squared velocity scale. -/
theorem C91_density (p : Par) (hs : 0 < p.massScale / p.radiusScale) (Φ : ℝ) (h : Φ ≤ p.potInf) :
    velocityIntegral p.fE Φ = p.densityScale * densW ((p.potInf - Φ) / (p.massScale / p.radiusScale)) := by
  have s2 : p.sigma2 = p.massScale / p.radiusScale := by rw [Par.sigma2, Par.sigma, Par.velocityScale, sq_sqrt hs.le]
  have k := speed (q := p.potInf) (ρ := p.rho1) (Φ := Φ) (b := √(2 * (p.potInf - Φ))) hs h le_rfl
  rw [Par.rho1] at k
  rw [← k, velocityIntegral]
  congr 1
  have a0 : 0 ≤ √(2 * (p.potInf - Φ)) := sqrt_nonneg _
  rw [intervalIntegral.integral_of_le a0]
  have e : ∀ v : ℝ, p.fE (Φ + v ^ 2 / 2) = if p.potInf - (Φ + v ^ 2 / 2) > 0 then (exp ((p.potInf - (Φ + v ^ 2 / 2)) / (p.massScale / p.radiusScale)) - 1)
      * (2 * π * (p.massScale / p.radiusScale)) ^ (-1.5 : ℝ) * p.densityScale else 0 := fun v => by simp only [Par.fE, s2, Par.rho1]
  simp only [e]
  refine setIntegral_eq_of_subset_of_forall_diff_eq_zero measurableSet_Ioi Ioc_subset_Ioi_self fun v hv => ?_
  have hv1 : √(2 * (p.potInf - Φ)) < v := by
    by_contra c
    exact hv.2 ⟨hv.1, not_lt.1 c⟩
  have : 2 * (p.potInf - Φ) < v ^ 2 := (sqrt_lt' hv.1).1 hv1
  rw [if_neg (by linarith), mul_zero]

/-- A model for the examples: `W = 2 (1 - r²)`. -/
def C91aux.parab : Par := ⟨2, 3, 5, 4, 1, fun r => 2 - 2 * r ^ 2, fun r => -4 * r⟩

example : velocityIntegral C91aux.parab.fE (C91aux.parab.potInf - 1)
    = C91aux.parab.densityScale * densW ((C91aux.parab.potInf - (C91aux.parab.potInf - 1)) / (C91aux.parab.massScale / C91aux.parab.radiusScale)) :=
  C91_density _ (by norm_num [parab, Par.massScale, Par.radiusScale]) _ (by linarith)

/-! ### The potential -/

namespace C91aux

theorem obj_pot {p : Par} (hr : 0 < p.radiusScale) (hR : 0 < p.sfRt) (hc : ContinuousOn p.W (Icc 0 p.sfRt)) (hdc : ContinuousOn p.dW (Icc 0 p.sfRt)) (h0 : p.W 0 = p.W0)
    (hd : ∀ x ∈ Ioo 0 p.sfRt, HasDerivAt p.W (p.dW x) x) {r : ℝ} (h1 : 0 ≤ r) (h2 : r ≤ p.sfRt * p.radiusScale) :
    p.obj.potSpline r = p.massScale / p.radiusScale * (p.W (r / p.radiusScale) - p.W0) := by
  have hx : ∀ {x}, 0 ≤ x → x ≤ r → x / p.radiusScale ∈ Icc 0 p.sfRt := fun {x} a b => ⟨by positivity, by rw [div_le_iff₀ hr]; linarith⟩
  have m : MapsTo (fun x : ℝ => x / p.radiusScale) (Icc 0 r) (Icc 0 p.sfRt) := fun x hx' => hx hx'.1 hx'.2
  have F : ∀ x ∈ Ioo 0 r, HasDerivAt (fun x => p.massScale / p.radiusScale * p.W (x / p.radiusScale))
      (p.massScale / p.radiusScale ^ 2 * p.dW (x / p.radiusScale)) x := fun x hx' => by
    have := ((hd (x / p.radiusScale) ⟨by have := hx'.1; positivity, by rw [div_lt_iff₀ hr]; linarith [hx'.2]⟩).comp x
      ((hasDerivAt_id x).div_const p.radiusScale)).const_mul (p.massScale / p.radiusScale)
    refine this.congr_deriv ?_
    field_simp
  have C1 : ContinuousOn (fun x => p.massScale / p.radiusScale * p.W (x / p.radiusScale)) (Icc 0 r) :=
    continuousOn_const.mul (hc.comp (by fun_prop) m)
  have C2 : ContinuousOn (fun x => p.massScale / p.radiusScale ^ 2 * p.dW (x / p.radiusScale)) (Icc 0 r) :=
    continuousOn_const.mul (hdc.comp (by fun_prop) m)
  have := intervalIntegral.integral_eq_sub_of_hasDerivAt_of_le h1 C1 F (C2.intervalIntegrable_of_Icc h1)
  show ∫ x in (0 : ℝ)..r, p.massScale / p.radiusScale ^ 2 * p.dW (x / p.radiusScale) = _
  rw [this, zero_div, h0]
  ring

end C91aux

/-- The potential: minus `W` in units of the squared velocity scale inside the tidal radius, relative to its value `- M / rt` there, and
that of a point mass outside, when the scale-free mass is that of the derivative at the tidal radius. -/
theorem C91_potential (p : Par) (hM : 0 < p.M) (ht : 0 < p.rt) (hm : 0 < p.sfMass) (hR : 0 < p.sfRt) (hc : ContinuousOn p.W (Icc 0 p.sfRt))
    (hdc : ContinuousOn p.dW (Icc 0 p.sfRt)) (h0 : p.W 0 = p.W0) (he : p.W p.sfRt = 0) (hd : ∀ x ∈ Ioo 0 p.sfRt, HasDerivAt p.W (p.dW x) x)
    (hmass : p.sfMass = -p.dW p.sfRt * p.sfRt ^ 2) :
    (∀ r, 0 ≤ r → r ≤ p.rt → p.pot.val r 0 0 0 = -(p.massScale / p.radiusScale) * p.W (r / p.radiusScale) - p.M / p.rt) ∧
    (∀ r, p.rt ≤ r → p.pot.val r 0 0 0 = -p.M / r) ∧ p.potInf = -p.M / p.rt := by
  have hr : 0 < p.radiusScale := div_pos ht hR
  have ert : p.sfRt * p.radiusScale = p.rt := by rw [Par.radiusScale]; field_simp
  have tm : p.obj.totalMass = p.M := by
    simp only [InterpSph.Obj.totalMass, Par.obj]
    rw [show p.sfRt * p.radiusScale / p.radiusScale = p.sfRt by field_simp, Par.massScale]
    have : -p.dW p.sfRt * p.sfRt ^ 2 = p.sfMass := hmass.symm
    have e : -(p.sfRt * p.radiusScale) ^ 2 * (p.M / p.sfMass / p.radiusScale ^ 2 * p.dW p.sfRt) = p.M / p.sfMass * (-p.dW p.sfRt * p.sfRt ^ 2) := by
      field_simp
    rw [e, this]
    field_simp
  have rm : p.obj.rmax = p.rt := ert
  have P0 : p.obj.Phi0 = -p.W0 * p.massScale / p.radiusScale - p.M / p.rt := by
    have e0 : p.obj.potSpline p.obj.rmin = 0 := by
      rw [show p.obj.rmin = 0 from rfl, obj_pot hr hR hc hdc h0 hd (le_refl 0) (by rw [ert]; exact ht.le), zero_div, h0, sub_self, mul_zero]
    rw [InterpSph.Obj.Phi0, e0, add_zero]
    rfl
  have val : ∀ r, 0 ≤ r → p.pot.val r 0 0 0 = InterpSph.revaluate p.obj r := fun r h => by
    simp [Par.pot, InterpSph.pot, Spherical.pot, Spherical.evaluate, InterpSph.radial, sqrt_sq h]
  have edge : p.obj.Phimax = 0 := by
    rw [InterpSph.Obj.Phimax, rm, P0, tm, obj_pot hr hR hc hdc h0 hd ht.le ert.ge, show p.rt / p.radiusScale = p.sfRt by rw [Par.radiusScale]; field_simp, he]
    ring
  have O : ∀ r, p.rt ≤ r → p.pot.val r 0 0 0 = -p.M / r := fun r h => by
    rw [val r (ht.le.trans h), InterpSph.revaluate, rm, if_pos h, tm, edge, add_zero]
  refine ⟨fun r h1 h2 => ?_, O, O _ le_rfl⟩
  rcases h2.eq_or_lt with h | h
  · rw [h, O _ le_rfl, show p.rt / p.radiusScale = p.sfRt by rw [Par.radiusScale]; field_simp, he]
    ring
  · rw [val r h1, InterpSph.revaluate, rm, if_neg (not_le.2 h), P0, obj_pot hr hR hc hdc h0 hd h1 (by rw [ert]; exact h.le)]
    ring

namespace C91aux

theorem parab_ok : 0 < parab.M ∧ 0 < parab.rt ∧ 0 < parab.sfMass ∧ 0 < parab.sfRt ∧ ContinuousOn parab.W (Icc 0 parab.sfRt) ∧ ContinuousOn parab.dW (Icc 0 parab.sfRt) ∧
    parab.W 0 = parab.W0 ∧ parab.W parab.sfRt = 0 ∧ (∀ x ∈ Ioo 0 parab.sfRt, HasDerivAt parab.W (parab.dW x) x) ∧ parab.sfMass = -parab.dW parab.sfRt * parab.sfRt ^ 2 := by
  refine ⟨by norm_num [parab], by norm_num [parab], by norm_num [parab], by norm_num [parab], ?_, ?_, by norm_num [parab], by norm_num [parab], fun x _ => ?_, by norm_num [parab]⟩
  · simp only [parab]; fun_prop
  · simp only [parab]; fun_prop
  · simp only [parab]
    refine ((((hasDerivAt_id x).pow 2).const_mul 2).const_sub 2).congr_deriv ?_
    simp; ring

end C91aux

example : parab.pot.val 2 0 0 0 = -(parab.massScale / parab.radiusScale) * parab.W (2 / parab.radiusScale) - parab.M / parab.rt := by
  obtain ⟨a, b, c, d, e, f, g, h, i, j⟩ := parab_ok
  exact (C91_potential parab a b c d e f g h i j).1 2 (by norm_num) (by norm_num [parab])

/-- Self-consistency: in its own potential the distribution function has the density returned by `dens`, over all velocities and
in the moment method, everywhere inside the tidal radius, and none outside. -/
theorem C91_selfconsistent (p : Par) (hM : 0 < p.M) (ht : 0 < p.rt) (hm : 0 < p.sfMass) (hR : 0 < p.sfRt) (hc : ContinuousOn p.W (Icc 0 p.sfRt))
    (hdc : ContinuousOn p.dW (Icc 0 p.sfRt)) (h0 : p.W 0 = p.W0) (he : p.W p.sfRt = 0) (hd : ∀ x ∈ Ioo 0 p.sfRt, HasDerivAt p.W (p.dW x) x)
    (hmass : p.sfMass = -p.dW p.sfRt * p.sfRt ^ 2) (hW : ∀ x ∈ Icc 0 p.sfRt, 0 ≤ p.W x) :
    (∀ r, 0 ≤ r → r ≤ p.rt → velocityIntegral p.fE (p.pot.val r 0 0 0) = p.dens r ∧ Sph.isoVmoment p.pot p.phiMax p.fE r 0 0 = p.dens r) ∧
    (∀ r, p.rt ≤ r → velocityIntegral p.fE (p.pot.val r 0 0 0) = 0) := by
  obtain ⟨I, O, Q⟩ := C91_potential p hM ht hm hR hc hdc h0 he hd hmass
  have hr : 0 < p.radiusScale := div_pos ht hR
  have hs : 0 < p.massScale / p.radiusScale := div_pos (div_pos hM hm) hr
  have s2 : p.sigma2 = p.massScale / p.radiusScale := by rw [Par.sigma2, Par.sigma, Par.velocityScale, sq_sqrt hs.le]
  constructor
  · intro r h1 h2
    have ert : p.sfRt * p.radiusScale = p.rt := by rw [Par.radiusScale]; field_simp
    have w0 := hW (r / p.radiusScale) ⟨by positivity, by rw [div_le_iff₀ hr, ert]; exact h2⟩
    have le : p.pot.val r 0 0 0 ≤ p.potInf := by
      rw [I r h1 h2, Q, neg_div]
      nlinarith [mul_nonneg hs.le w0]
    have w : (p.potInf - p.pot.val r 0 0 0) / (p.massScale / p.radiusScale) = p.W (r / p.radiusScale) := by
      rw [I r h1 h2, Q, neg_div]
      rw [show -(p.M / p.rt) - (-(p.massScale / p.radiusScale) * p.W (r / p.radiusScale) - p.M / p.rt) = p.massScale / p.radiusScale * p.W (r / p.radiusScale) by ring,
        mul_div_cancel_left₀ _ hs.ne']
    refine ⟨by rw [C91_density p hs _ le, w, Par.dens, mul_comm], ?_⟩
    rw [C59aux.iso00]
    have pm : p.potInf ≤ p.phiMax := by
      rw [Par.phiMax, O _ (by norm_num), Q, neg_div, neg_div, neg_le_neg_iff]
      exact div_le_div_of_nonneg_left hM.le ht (by norm_num)
    have k := speed (q := p.potInf) (ρ := p.rho1) (Φ := p.pot.val r 0 0 0) (b := √(2 * (p.phiMax - p.pot.val r 0 0 0))) hs le
      (sqrt_le_sqrt (by linarith))
    rw [w, Par.rho1] at k
    rw [Par.dens, mul_comm (densW _), ← k]
    have e : ∀ v : ℝ, p.fE (p.pot.val r 0 0 0 + v ^ 2 / 2) = if p.potInf - (p.pot.val r 0 0 0 + v ^ 2 / 2) > 0 then
        (exp ((p.potInf - (p.pot.val r 0 0 0 + v ^ 2 / 2)) / (p.massScale / p.radiusScale)) - 1)
        * (2 * π * (p.massScale / p.radiusScale)) ^ (-1.5 : ℝ) * p.densityScale else 0 := fun v => by simp only [Par.fE, s2, Par.rho1]
    simp only [Sph.phi, e]
  · intro r h
    have : ∀ v : ℝ, p.fE (p.pot.val r 0 0 0 + v ^ 2 / 2) = 0 := fun v => by
      have h3 : p.M / r ≤ p.M / p.rt := div_le_div_of_nonneg_left hM.le ht h
      simp only [Par.fE]
      rw [if_neg]
      rw [O r h, Q, neg_div, neg_div]
      have := sq_nonneg v
      linarith
    simp [velocityIntegral, this]

example : velocityIntegral parab.fE (parab.pot.val 2 0 0 0) = parab.dens 2 := by
  obtain ⟨a, b, c, d, e, f, g, h, i, j⟩ := parab_ok
  refine ((C91_selfconsistent parab a b c d e f g h i j fun x hx => ?_).1 2 (by norm_num) (by norm_num [parab])).1
  have h1 : x ≤ 1 := hx.2
  have h0 : 0 ≤ x := hx.1
  show 0 ≤ 2 - 2 * x ^ 2
  nlinarith

end Verif
