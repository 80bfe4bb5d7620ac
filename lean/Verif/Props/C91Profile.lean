import Verif.Props.C91
import Verif.Lemmas.Pot.Spherical

set_option autoImplicit false

/-!
# C91: the solution for the structure of King models

The theorems hold for any density `dens` as a function of `W`; King's is `densW`.
-/

noncomputable section
namespace Verif
open Real MeasureTheory Set Filter King C91Spec C91aux
open scoped Topology

namespace C91aux

/-! ### King's density as a function of `W` -/

theorem densW_nonpos {W : ℝ} (h : W ≤ 0) : densW W = 0 := by simp [densW, sqrt_eq_zero'.2 h, erf_zero]

theorem densW_int {W b : ℝ} (h : 0 ≤ W) (hb : √(2 * W) ≤ b) : densW W
    = 4 * π * ∫ v in (0 : ℝ)..b, v ^ 2 * (if W - (0 + v ^ 2 / 2) > 0 then (exp ((W - (0 + v ^ 2 / 2)) / 1) - 1) * (2 * π * 1) ^ (-1.5 : ℝ) * 1 else 0) := by
  have k := speed (q := W) (s := 1) (ρ := 1) (Φ := 0) (b := b) one_pos h (by rwa [sub_zero])
  rw [k, sub_zero, div_one, one_mul]

theorem integrand_cont (W : ℝ) : Continuous fun v : ℝ =>
    v ^ 2 * (if W - (0 + v ^ 2 / 2) > 0 then (exp ((W - (0 + v ^ 2 / 2)) / 1) - 1) * (2 * π * 1) ^ (-1.5 : ℝ) * 1 else 0) := by
  have : (fun v : ℝ => v ^ 2 * (if W - (0 + v ^ 2 / 2) > 0 then (exp ((W - (0 + v ^ 2 / 2)) / 1) - 1) * (2 * π * 1) ^ (-1.5 : ℝ) * 1 else 0))
      = fun v : ℝ => v ^ 2 * ((exp (max (W - v ^ 2 / 2) 0) - 1) * (2 * π * 1) ^ (-1.5 : ℝ)) := by
    funext v
    congr 1
    split_ifs with c
    · rw [zero_add] at c ⊢
      rw [max_eq_left c.le, div_one, mul_one]
    · rw [zero_add] at c
      rw [max_eq_right (not_lt.1 c), exp_zero, sub_self, zero_mul]
  rw [this]
  fun_prop

theorem densW_mono : Monotone densW := by
  intro a b hab
  rcases le_total a 0 with h | h
  · rw [densW_nonpos h]; exact densW_nonneg b
  · rw [densW_int h (sqrt_le_sqrt (show 2 * a ≤ 2 * b by linarith)), densW_int (h.trans hab) le_rfl]
    refine mul_le_mul_of_nonneg_left ?_ (by positivity)
    refine intervalIntegral.integral_mono (sqrt_nonneg _) ((integrand_cont a).intervalIntegrable _ _) ((integrand_cont b).intervalIntegrable _ _) fun v => ?_
    refine mul_le_mul_of_nonneg_left ?_ (sq_nonneg _)
    have P : (0 : ℝ) ≤ (2 * π * 1) ^ (-1.5 : ℝ) := by positivity
    split_ifs with c1 c2 c2
    · refine mul_le_mul_of_nonneg_right (mul_le_mul_of_nonneg_right (sub_le_sub_right (exp_le_exp.2 ?_) _) P) zero_le_one
      simp only [div_one]; linarith
    · exact absurd c1 (by intro c; apply c2; linarith)
    · refine mul_nonneg (mul_nonneg ?_ P) zero_le_one
      rw [sub_nonneg, div_one]
      exact one_le_exp c2.le
    · exact le_rfl

theorem densW_pos {W : ℝ} (h : 0 < W) : 0 < densW W := by
  rw [densW_int h.le le_rfl]
  have s : 0 < √(2 * W) := sqrt_pos.2 (by linarith)
  refine mul_pos (by positivity) (intervalIntegral.intervalIntegral_pos_of_pos_on ((integrand_cont W).intervalIntegrable _ _) (fun v hv => ?_) s)
  have : v ^ 2 < 2 * W := by
    have := sq_sqrt (show 0 ≤ 2 * W by linarith)
    nlinarith [hv.1, hv.2]
  rw [if_pos (by linarith)]
  refine mul_pos (pow_pos hv.1 2) (mul_pos (mul_pos ?_ (by positivity)) one_pos)
  rw [sub_pos, div_one]
  exact one_lt_exp_iff.2 (by linarith)

/-! ### The mass -/

theorem mass_int {dens W dW : ℝ → ℝ} {R : ℝ} (hdens : Continuous dens) (hW : ContinuousOn W (Icc 0 R)) (hdW : ContinuousOn dW (Icc 0 R))
    (hd : ∀ r ∈ Ioo 0 R, HasDerivAt dW (-(4 * π) * dens (W r) - 2 * dW r / r) r) {r : ℝ} (h0 : 0 ≤ r) (h1 : r ≤ R) :
    -dW r * r ^ 2 = ∫ s in (0 : ℝ)..r, 4 * π * s ^ 2 * dens (W s) := by
  have s : Icc 0 r ⊆ Icc 0 R := Icc_subset_Icc_right h1
  have k := intervalIntegral.integral_eq_sub_of_hasDerivAt_of_le (f := fun x => -dW x * x ^ 2) (f' := fun s => 4 * π * s ^ 2 * dens (W s)) h0
    ((hdW.mono s).neg.mul (by fun_prop)) (fun x hx => ?_)
    (ContinuousOn.intervalIntegrable_of_Icc h0 (ContinuousOn.mul (by fun_prop) (hdens.comp_continuousOn (hW.mono s))))
  · rw [k]; simp
  · have x0 : x ≠ 0 := hx.1.ne'
    refine ((hd x ⟨hx.1, hx.2.trans_le h1⟩).neg.mul ((hasDerivAt_id x).pow 2)).congr_deriv ?_
    simp only [id, Pi.pow_apply, Pi.neg_apply]
    push_cast
    field_simp
    ring

end C91aux

/-- The mass enclosed: minus the squared radius times the derivative of `W` is the integral of the density, at every radius. -/
theorem C91_mass {dens W dW : ℝ → ℝ} {W0 rt : ℝ} (hdens : Continuous dens) (P : Profile dens W0 rt W dW) {r : ℝ} (h0 : 0 ≤ r) (h1 : r ≤ rt) :
    -dW r * r ^ 2 = ∫ s in (0 : ℝ)..r, 4 * π * s ^ 2 * dens (W s) := mass_int hdens P.cont P.dcont P.d2 h0 h1

/-- The total mass of the density in the scaled model is the mass asked for. -/
theorem C91_totalmass {dens : ℝ → ℝ} (p : Par) (hdens : Continuous dens) (P : Profile dens p.W0 p.sfRt p.W p.dW) (hm : p.sfMass ≠ 0) (hR : 0 < p.sfRt) (ht : 0 < p.rt)
    (hmass : p.sfMass = -p.dW p.sfRt * p.sfRt ^ 2) :
    ∫ s in (0 : ℝ)..p.rt, 4 * π * s ^ 2 * (dens (p.W (s / p.radiusScale)) * p.densityScale) = p.M := by
  have hr : 0 < p.radiusScale := div_pos ht hR
  have e : ∀ s : ℝ, 4 * π * s ^ 2 * (dens (p.W (s / p.radiusScale)) * p.densityScale)
      = p.massScale / p.radiusScale * (4 * π * (s / p.radiusScale) ^ 2 * dens (p.W (s / p.radiusScale))) := fun s => by
    rw [Par.densityScale]; field_simp
  simp only [e]
  rw [intervalIntegral.integral_const_mul, intervalIntegral.integral_comp_div (fun x => 4 * π * x ^ 2 * dens (p.W x)) hr.ne', zero_div,
    show p.rt / p.radiusScale = p.sfRt by rw [Par.radiusScale]; field_simp, ← C91_mass hdens P hR.le le_rfl, ← hmass, smul_eq_mul, Par.massScale]
  field_simp

/-- Poisson's equation: the density of the potential is the density of the distribution function, and the derivative of the squared
radius times the derivative of the value of the potential is `4 π r²` times it. -/
theorem C91_poisson {dens : ℝ → ℝ} (p : Par) (P : Profile dens p.W0 p.sfRt p.W p.dW) (hM : 0 < p.M) (ht : 0 < p.rt) (hm : 0 < p.sfMass) (hR : 0 < p.sfRt)
    (hmass : p.sfMass = -p.dW p.sfRt * p.sfRt ^ 2) :
    (∀ R z φ t, 0 < √(R ^ 2 + z ^ 2) → √(R ^ 2 + z ^ 2) < p.rt →
      p.pot.dens R z φ t = dens (p.W (√(R ^ 2 + z ^ 2) / p.radiusScale)) * p.densityScale) ∧
    ∀ r, 0 < r → r < p.rt → HasDerivAt (fun r => r ^ 2 * deriv (fun s => p.pot.val s 0 0 0) r)
      (4 * π * r ^ 2 * (dens (p.W (r / p.radiusScale)) * p.densityScale)) r := by
  have hr : 0 < p.radiusScale := div_pos ht hR
  have ert : p.sfRt * p.radiusScale = p.rt := by rw [Par.radiusScale]; field_simp
  have mem : ∀ {r}, 0 < r → r < p.rt → r / p.radiusScale ∈ Ioo 0 p.sfRt := fun {r} h1 h2 =>
    ⟨by positivity, by rw [div_lt_iff₀ hr, ert]; exact h2⟩
  constructor
  · intro R z φ t h1 h2
    generalize hx : √(R ^ 2 + z ^ 2) = r at h1 h2 ⊢
    have d : HasDerivAt p.obj.spline (p.massScale / p.radiusScale ^ 2 * ((-(4 * π) * dens (p.W (r / p.radiusScale)) - 2 * p.dW (r / p.radiusScale) / (r / p.radiusScale))
        * (1 / p.radiusScale))) r :=
      ((P.d2 _ (mem h1 h2)).comp r ((hasDerivAt_id r).div_const p.radiusScale)).const_mul _
    have n : ¬p.obj.rmax ≤ r := not_le.2 (by show r < p.sfRt * p.radiusScale; rw [ert]; exact h2)
    show InterpSph.rdens p.obj √(R ^ 2 + z ^ 2) = _
    rw [hx, InterpSph.rdens, if_neg n]
    have k := Spherical.rdensDefault_ok (fun r _ => InterpSph.rforce p.obj r) (fun r _ => InterpSph.r2deriv p.obj r) r 0
    rw [InterpSph.r2deriv, InterpSph.rforce, if_neg n, if_neg n, d.deriv] at k
    have e : p.obj.spline r = p.massScale / p.radiusScale ^ 2 * p.dW (r / p.radiusScale) := rfl
    rw [e] at k
    have : 4 * π * (Spherical.rdensDefault (fun r _ => InterpSph.rforce p.obj r) (fun r _ => InterpSph.r2deriv p.obj r) r 0)
        = 4 * π * (dens (p.W (r / p.radiusScale)) * p.densityScale) := by
      rw [k, Par.densityScale]
      field_simp
      ring
    exact mul_left_cancel₀ (by positivity) this
  · intro r h1 h2
    have I := (C91_potential p hM ht hm hR P.cont P.dcont P.start P.edge P.d1 hmass).1
    have v : ∀ s, 0 < s → s < p.rt → HasDerivAt (fun s => p.pot.val s 0 0 0) (-(p.massScale / p.radiusScale) * (p.dW (s / p.radiusScale) * (1 / p.radiusScale))) s := fun s a b => by
      refine HasDerivAt.congr_of_eventuallyEq ((((P.d1 _ (mem a b)).comp s ((hasDerivAt_id s).div_const p.radiusScale)).const_mul (-(p.massScale / p.radiusScale))).sub_const (p.M / p.rt)) ?_
      filter_upwards [Ioo_mem_nhds a b] with x hx
      exact I x hx.1.le hx.2.le
    have E : (fun r => r ^ 2 * deriv (fun s => p.pot.val s 0 0 0) r) =ᶠ[𝓝 r]
        fun r => r ^ 2 * (-(p.massScale / p.radiusScale) * (p.dW (r / p.radiusScale) * (1 / p.radiusScale))) := by
      filter_upwards [Ioo_mem_nhds h1 h2] with x hx
      rw [(v x hx.1 hx.2).deriv]
    have d := ((hasDerivAt_id r).pow 2).mul ((((P.d2 _ (mem h1 h2)).comp r ((hasDerivAt_id r).div_const p.radiusScale)).mul_const (1 / p.radiusScale)).const_mul (-(p.massScale / p.radiusScale)))
    refine (d.congr_of_eventuallyEq E).congr_deriv ?_
    simp only [id, Pi.pow_apply, Function.comp_apply, Par.densityScale]
    push_cast
    field_simp
    ring

namespace C91aux

/-- A homogeneous sphere, for the examples. -/
def ball : Par := ⟨1, 3, 5, 2, 1, fun r => 1 - r ^ 2, fun r => -2 * r⟩

theorem ball_ok : Profile (fun _ => 3 / (2 * π)) ball.W0 ball.sfRt ball.W ball.dW := by
  refine ⟨?_, ?_, by norm_num [ball], by norm_num [ball], by norm_num [ball], fun r _ => ?_, fun r hr => ?_⟩
  · simp only [ball]; fun_prop
  · simp only [ball]; fun_prop
  · simp only [ball]
    refine (((hasDerivAt_id r).pow 2).const_sub 1).congr_deriv ?_
    simp
  · have : r ≠ 0 := hr.1.ne'
    simp only [ball]
    refine ((hasDerivAt_id r).const_mul (-2)).congr_deriv ?_
    field_simp
    norm_num

end C91aux

example : -ball.dW (1 / 2) * (1 / 2) ^ 2 = ∫ s in (0 : ℝ)..1 / 2, 4 * π * s ^ 2 * (3 / (2 * π)) :=
  C91_mass (dens := fun _ => 3 / (2 * π)) continuous_const ball_ok (by norm_num) (by norm_num [ball])

example : ∫ s in (0 : ℝ)..5, 4 * π * s ^ 2 * (3 / (2 * π) * ball.densityScale) = 3 :=
  C91_totalmass ball continuous_const ball_ok (by norm_num [ball]) (by norm_num [ball]) (by norm_num [ball]) (by norm_num [ball])

example : ball.pot.dens 3 0 0 0 = 3 / (2 * π) * ball.densityScale :=
  (C91_poisson ball ball_ok (by norm_num [ball]) (by norm_num [ball]) (by norm_num [ball]) (by norm_num [ball]) (by norm_num [ball])).1 3 0 0 0
    (by positivity) (by rw [show (3 : ℝ) ^ 2 + 0 ^ 2 = 3 ^ 2 by norm_num, sqrt_sq (by norm_num)]; norm_num [ball])

/-- The right-hand side at the centre: for a regular solution the second derivative is a third of what the system returns there. -/
theorem C91_centre_fails : ∃ (dens W dW : ℝ → ℝ) (W0 rt d : ℝ), Continuous dens ∧ 0 < dens W0 ∧ Profile dens W0 rt W dW ∧ HasDerivAt dW d 0 ∧
    (rhs1 dens 0 (W 0, dW 0)).2 = 3 * d ∧ d ≠ 0 := by
  refine ⟨fun _ => 3 / (2 * π), ball.W, ball.dW, ball.W0, ball.sfRt, -2, continuous_const, by positivity, ball_ok, ?_, ?_, by norm_num⟩
  · refine ((hasDerivAt_id (0 : ℝ)).const_mul (-2)).congr_deriv ?_
    norm_num
  · simp only [rhs1, lt_self_iff_false, if_false, gt_iff_lt, sub_zero]
    field_simp
    norm_num

end Verif
