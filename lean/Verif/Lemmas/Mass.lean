import Verif.Spec.Mass
import Verif.Lemmas.Pot.Plummer
import Verif.Lemmas.Pot.DehnenSpecial
import Verif.Lemmas.Pot.Burkert
import Mathlib.Analysis.SpecialFunctions.Pow.Asymptotics

set_option autoImplicit false

noncomputable section
open Filter Topology Real MeasureTheory

namespace Verif

/-- A nonnegative density: the derivative and the limit at 0 determine the enclosed mass. -/
theorem EnclosedMass.of_deriv {ρ m : ℝ → ℝ} (hρ : ∀ r, 0 < r → 0 ≤ ρ r)
    (hd : ∀ r, 0 < r → HasDerivAt m (4 * π * r ^ 2 * ρ r) r)
    (h0 : Tendsto m (𝓝[>] 0) (𝓝 0)) : EnclosedMass ρ m := by
  intro r hr
  have hcont : ContinuousOn (Function.update m 0 0) (Set.Icc 0 r) := by
    intro x hx
    rcases eq_or_lt_of_le hx.1 with h | h
    · subst h
      refine (continuousWithinAt_update_same.2 ?_)
      exact h0.mono_left (nhdsWithin_mono _ fun y hy => lt_of_le_of_ne hy.1.1 (Ne.symm hy.2))
    · refine (ContinuousAt.continuousWithinAt ?_)
      refine (hd x h).continuousAt.congr ?_
      filter_upwards [lt_mem_nhds h] with y hy
      rw [Function.update_of_ne hy.ne']
  have hder : ∀ x ∈ Set.Ioo 0 r, HasDerivAt (Function.update m 0 0) (4 * π * x ^ 2 * ρ x) x := by
    intro x hx
    refine (hd x hx.1).congr_of_eventuallyEq ?_
    filter_upwards [lt_mem_nhds hx.1] with y hy
    rw [Function.update_of_ne hy.ne']
  have hint : IntervalIntegrable (fun x => 4 * π * x ^ 2 * ρ x) volume 0 r := by
    refine (intervalIntegrable_iff_integrableOn_Ioc_of_le hr.le).2 ?_
    refine intervalIntegral.integrableOn_deriv_of_nonneg hcont hder ?_
    intro x hx
    have := hρ x hx.1
    positivity
  refine ⟨hint, ?_⟩
  rw [intervalIntegral.integral_eq_sub_of_hasDerivAt_of_le hr.le hcont hder hint]
  simp [hr.ne']

/-- Amplitude. -/
theorem EnclosedMass.scale {ρ m : ℝ → ℝ} (amp : ℝ) (h : EnclosedMass ρ m) :
    EnclosedMass (fun r => amp * ρ r) (fun r => amp * m r) := by
  intro r hr
  obtain ⟨h1, h2⟩ := h r hr
  have e : (fun x => 4 * π * x ^ 2 * (amp * ρ x)) = fun x => amp * (4 * π * x ^ 2 * ρ x) := by
    funext x; ring
  rw [e]
  exact ⟨h1.const_mul amp, by rw [intervalIntegral.integral_const_mul, h2]⟩

/-- `(1 + a/r)⁻¹ = r/(r+a)` tends to 0 at 0 and to 1 at infinity. -/
theorem ratio_zero {a : ℝ} (ha : 0 < a) : Tendsto (fun r : ℝ => r / (r + a)) (𝓝[>] 0) (𝓝 0) := by
  have : ContinuousAt (fun r : ℝ => r / (r + a)) 0 := by
    apply ContinuousAt.div₀ <;> first | fun_prop | simpa using ha.ne'
  have h := this.tendsto
  simp only [zero_div] at h
  exact h.mono_left nhdsWithin_le_nhds
theorem ratio_top {a : ℝ} (ha : 0 < a) : Tendsto (fun r : ℝ => r / (r + a)) atTop (𝓝 1) := by
  have h1 : Tendsto (fun r : ℝ => a / (r + a)) atTop (𝓝 0) :=
    tendsto_const_nhds.div_atTop (tendsto_atTop_add_const_right _ _ tendsto_id)
  have h2 : Tendsto (fun r : ℝ => 1 - a / (r + a)) atTop (𝓝 (1 - 0)) := tendsto_const_nhds.sub h1
  rw [sub_zero] at h2
  refine h2.congr' ?_
  filter_upwards [eventually_gt_atTop 0] with r hr
  have : r + a ≠ 0 := by positivity
  field_simp; ring

namespace Dehnen
theorem mass_eq {a α r : ℝ} (ha : 0 < a) (hr : 0 < r) :
    mass a α r = (r / (r + a)) ^ (3 - α) / (3 - α) := by
  have hk : 0 < r + a := by positivity
  unfold mass
  rw [show 1 + a / r = (r / (r + a))⁻¹ by field_simp, inv_rpow (by positivity), one_div, inv_inv]
theorem mass_deriv {a α r : ℝ} (ha : 0 < a) (h3 : α < 3) (hr : 0 < r) :
    HasDerivAt (mass a α) (4 * π * r ^ 2 * dens a α r 0) r := by
  have hk : 0 < r + a := by positivity
  have hq : 0 < r / (r + a) := by positivity
  have h3' : (3 - α) ≠ 0 := by linarith
  have e : mass a α =ᶠ[𝓝 r] fun r => (r / (r + a)) ^ (3 - α) / (3 - α) := by
    filter_upwards [lt_mem_nhds hr] with x hx using mass_eq ha hx
  have hd : HasDerivAt (fun r : ℝ => (r / (r + a)) ^ (3 - α) / (3 - α))
      ((1 * (r + a) - r * (1 + 0)) / (r + a) ^ 2 * (3 - α) *
        ((r / (r + a)) ^ (3 - α) / (r / (r + a))) / (3 - α)) r := by
    have := hk.ne'
    hasderiv
  refine (hd.congr_of_eventuallyEq e).congr_deriv ?_
  rw [dens_radial α ha hr (by simp [hr.le])]
  have p1 := rpow_pos_of_pos hr α
  have p2 := rpow_pos_of_pos hk α
  rw [rpow_sub hq, div_rpow hr.le hk.le α, show (3 : ℝ) = ((3 : ℕ) : ℝ) by norm_num, rpow_natCast] at *
  generalize r ^ α = p at *
  generalize (r + a) ^ α = q at *
  have := pi_ne_zero
  field_simp
  ring
theorem mass_zero {a α : ℝ} (ha : 0 < a) (h3 : α < 3) : Tendsto (mass a α) (𝓝[>] 0) (𝓝 0) := by
  have h := ((ratio_zero ha).rpow_const (p := 3 - α) (Or.inr (by linarith))).div_const (3 - α)
  rw [zero_rpow (by linarith), zero_div] at h
  refine h.congr' ?_
  filter_upwards [self_mem_nhdsWithin] with x hx using (mass_eq ha hx).symm
theorem mass_top {a α : ℝ} (ha : 0 < a) : Tendsto (mass a α) atTop (𝓝 (1 / (3 - α))) := by
  have h := ((ratio_top ha).rpow_const (p := 3 - α) (Or.inl one_ne_zero)).div_const (3 - α)
  rw [one_rpow] at h
  refine h.congr' ?_
  filter_upwards [eventually_gt_atTop 0] with x hx using (mass_eq ha hx).symm
theorem dens_nonneg {a : ℝ} (α : ℝ) (ha : 0 < a) {r : ℝ} (hr : 0 < r) : 0 ≤ dens a α r 0 := by
  rw [dens_radial α ha hr (by simp [hr.le])]; positivity
theorem enclosed {a α : ℝ} (ha : 0 < a) (h3 : α < 3) :
    EnclosedMass (fun r => dens a α r 0) (mass a α) :=
  .of_deriv (fun _ h => dens_nonneg α ha h) (fun _ h => mass_deriv ha h3 h) (mass_zero ha h3)
theorem mass_force {a α r : ℝ} (ha : 0 < a) (h3 : α < 3) (hr : 0 < r) :
    mass a α r = -r ^ 2 * Rforce a α r 0 := by
  rw [mass_eq ha hr, (gen_r ha hr (by simp [hr.le])).1]
  have hk : 0 < r + a := by positivity
  have hq : 0 < r / (r + a) := by positivity
  have p1 := rpow_pos_of_pos hr α
  have p2 := rpow_pos_of_pos hk α
  rw [rpow_sub hq, div_rpow hr.le hk.le α, show (3 : ℝ) = ((3 : ℕ) : ℝ) by norm_num, rpow_natCast]
  field_simp
end Dehnen

private theorem dm (a : ℝ) (n : ℕ) {r : ℝ} : (1 + a / r) ^ ((n : ℝ)) = (1 + a / r) ^ n := rpow_natCast _ _

namespace DehnenCore
theorem mass_eq' (a : ℝ) : mass a = Dehnen.mass a 0 := by
  funext r; simp only [mass, Dehnen.mass, sub_zero]; rw [← dm a 3]; norm_num
end DehnenCore
namespace Hernquist
theorem mass_eq' (a : ℝ) : mass a = Dehnen.mass a 1 := by
  funext r; simp only [mass, Dehnen.mass]; rw [← dm a 2]; norm_num
end Hernquist
namespace Jaffe
theorem mass_eq' (a : ℝ) : mass a = Dehnen.mass a 2 := by
  funext r; simp only [mass, Dehnen.mass, show (3 - 2 : ℝ) = 1 by norm_num, rpow_one, div_one]
end Jaffe

namespace NFW
theorem mass_deriv {a r : ℝ} (ha : 0 < a) (hr : 0 < r) :
    HasDerivAt (mass a) (4 * π * r ^ 2 * dens a r 0) r := by
  have hk : 0 < r + a := by positivity
  have e : 1 + r / a = (r + a) / a := by field_simp; ring
  have h1 : 1 + r / a ≠ 0 := by positivity
  have h2 : a ≠ 0 := ha.ne'
  have hd : HasDerivAt (fun R : ℝ => log (1 + R / a) - R / a / (1 + R / a))
      ((0 + 1 / a) / (1 + r / a) - (1 / a * (1 + r / a) - r / a * (0 + 1 / a)) / (1 + r / a) ^ 2) r := by
    hasderiv
  refine hd.congr_deriv ?_
  simp only [dens, ne_eq, OfNat.ofNat_ne_zero, not_false_eq_true, zero_pow, add_zero, sqrt_sq hr.le, e, rpow_one,
    show (3 - 1 : ℝ) = ((2 : ℕ) : ℝ) by norm_num, rpow_natCast]
  have := pi_ne_zero
  field_simp
  ring
theorem mass_zero {a : ℝ} (ha : 0 < a) : Tendsto (mass a) (𝓝[>] 0) (𝓝 0) := by
  have : ContinuousAt (mass a) 0 := by
    unfold mass
    have h : (1 : ℝ) + 0 / a ≠ 0 := by simp
    apply ContinuousAt.sub
    · exact ContinuousAt.log (by fun_prop) h
    · exact ContinuousAt.div₀ (by fun_prop) (by fun_prop) h
  have h := this.tendsto
  simp only [mass, zero_div, add_zero, log_one, sub_zero] at h
  exact h.mono_left nhdsWithin_le_nhds
theorem enclosed {a : ℝ} (ha : 0 < a) : EnclosedMass (fun r => dens a r 0) (mass a) :=
  .of_deriv (fun r h => by
    have : (0 : ℝ) < √(r ^ 2 + 0 ^ 2) := by positivity
    simp only [dens]; positivity)
    (fun _ h => mass_deriv ha h) (mass_zero ha)
theorem mass_force {a r : ℝ} (ha : 0 < a) (hr : 0 < r) : mass a r = -r ^ 2 * Rforce a r 0 := by
  have hk : 0 < r + a := by positivity
  have e : 1 + r / a = (r + a) / a := by field_simp; ring
  simp only [mass, Rforce, ne_eq, OfNat.ofNat_ne_zero, not_false_eq_true, zero_pow, add_zero, sqrt_sq hr.le, e]
  generalize log ((r + a) / a) = l
  field_simp
  ring
end NFW

namespace Plummer
theorem mass_eq {b r : ℝ} (hb : b ≠ 0) (hr : 0 < r) :
    mass b r = r ^ 3 * (r ^ 2 + b ^ 2) ^ (-(3/2) : ℝ) := by
  have hu : 0 < r ^ 2 + b ^ 2 := by positivity
  unfold mass
  rw [show 1 + b ^ 2 / r ^ 2 = (r ^ 2 + b ^ 2) / r ^ 2 by field_simp, div_rpow hu.le (by positivity)]
  rw [← rpow_natCast r 2, ← rpow_mul hr.le, show ((2 : ℕ) : ℝ) * -(3/2) = -((3 : ℕ) : ℝ) by norm_num,
    rpow_neg hr.le, rpow_natCast, div_inv_eq_mul, mul_comm]
  try norm_num
theorem mass_deriv {b r : ℝ} (hb : b ≠ 0) (hr : 0 < r) :
    HasDerivAt (mass b) (4 * π * r ^ 2 * dens b r 0) r := by
  have hu : 0 < r ^ 2 + b ^ 2 := by positivity
  have e : mass b =ᶠ[𝓝 r] fun r => r ^ 3 * (r ^ 2 + b ^ 2) ^ (-(3/2) : ℝ) := by
    filter_upwards [lt_mem_nhds hr] with x hx using mass_eq hb hx
  have hd : HasDerivAt (fun r : ℝ => r ^ 3 * (r ^ 2 + b ^ 2) ^ (-(3/2) : ℝ))
      (((3 : ℕ) : ℝ) * r ^ (3 - 1) * 1 * (r ^ 2 + b ^ 2) ^ (-(3/2) : ℝ) +
        r ^ 3 * ((((2 : ℕ) : ℝ) * r ^ (2 - 1) * 1 + 0) * -(3/2) *
          ((r ^ 2 + b ^ 2) ^ (-(3/2) : ℝ) / (r ^ 2 + b ^ 2)))) r := by
    hasderiv
  refine (hd.congr_of_eventuallyEq e).congr_deriv ?_
  have e5 : (r ^ 2 + b ^ 2) ^ (-(5/2) : ℝ) = (r ^ 2 + b ^ 2) ^ (-(3/2) : ℝ) / (r ^ 2 + b ^ 2) := by
    rw [← rpow_sub_one hu.ne']; norm_num
  simp only [dens, ne_eq, OfNat.ofNat_ne_zero, not_false_eq_true, zero_pow, add_zero, e5]
  generalize (r ^ 2 + b ^ 2) ^ (-(3/2) : ℝ) = q
  have := pi_ne_zero
  norm_num
  field_simp
  ring
theorem mass_zero {b : ℝ} (hb : b ≠ 0) : Tendsto (mass b) (𝓝[>] 0) (𝓝 0) := by
  have : ContinuousAt (fun r : ℝ => r ^ 3 * (r ^ 2 + b ^ 2) ^ (-(3/2) : ℝ)) 0 := by
    apply ContinuousAt.mul (by fun_prop)
    exact ContinuousAt.rpow_const (by fun_prop) (Or.inl (by positivity))
  have h := this.tendsto
  simp only [ne_eq, OfNat.ofNat_ne_zero, not_false_eq_true, zero_pow, zero_mul] at h
  refine (h.mono_left nhdsWithin_le_nhds).congr' ?_
  filter_upwards [self_mem_nhdsWithin] with x hx using (mass_eq hb hx).symm
theorem mass_top (b : ℝ) : Tendsto (mass b) atTop (𝓝 1) := by
  have h1 : Tendsto (fun r : ℝ => 1 + b ^ 2 / r ^ 2) atTop (𝓝 (1 + 0)) :=
    tendsto_const_nhds.add (tendsto_const_nhds.div_atTop (tendsto_pow_atTop two_ne_zero))
  have h := h1.rpow_const (p := -(3/2)) (Or.inl (by norm_num))
  rw [add_zero, one_rpow] at h
  exact h
theorem enclosed {b : ℝ} (hb : b ≠ 0) : EnclosedMass (fun r => dens b r 0) (mass b) :=
  .of_deriv (fun r _ => by simp only [dens]; positivity) (fun _ h => mass_deriv hb h) (mass_zero hb)
theorem mass_force {b r : ℝ} (hb : b ≠ 0) (hr : 0 < r) : mass b r = -r ^ 2 * Rforce b r 0 := by
  rw [mass_eq hb hr]
  simp only [Rforce, ne_eq, OfNat.ofNat_ne_zero, not_false_eq_true, zero_pow, add_zero]; ring
end Plummer

namespace Spherical
theorem mass_deriv {P : Radial} {S : Set ℝ} (ok : RadialOK P S) {r t : ℝ} (hr : r ∈ S) :
    HasDerivAt (fun r => mass P r t) (4 * π * r ^ 2 * P.dens r t) r := by
  have hp := (ok.pos r hr).ne'
  have h := hd_mul (hd_neg (hd_pow 2 (hd_id r))) (ok.d2 r hr t)
  refine h.congr_deriv ?_
  have := ok.dens r hr t
  rw [show 4 * π * r ^ 2 * P.dens r t = r ^ 2 * (4 * π * P.dens r t) by ring, this]
  field_simp
  norm_num
  ring
end Spherical

end Verif
