import Verif.Model.Pot.Ops
import Verif.Model.Pot.Plummer
import Verif.Model.Pot.PowerSpherical
import Verif.Model.Pot.TwoPower
import Verif.Util.Deriv
import Mathlib.Analysis.SpecialFunctions.Pow.Deriv

set_option autoImplicit false

/-!
# C59: the density derivatives that the inversions use

`_ddensdr`, `_d2densdr2` and `_ddenstwobetadr` are the derivatives of the density of the potential
(with its amplitude) and of the density times `r^(2β)`.
-/

noncomputable section
open Real Set

namespace Verif

namespace C59Spec

/-- The three methods of a density `ν(r)`. -/
structure DensDerivs (ν d1 d2 : ℝ → ℝ) (db : ℝ → ℝ → ℝ) (r : ℝ) : Prop where
  first : HasDerivAt ν (d1 r) r
  second : HasDerivAt d1 (d2 r) r
  twobeta : ∀ β, HasDerivAt (fun r => ν r * r ^ (2 * β)) (db β r) r

end C59Spec
open C59Spec

theorem C59_densderivs_plummer (amp b : ℝ) {r : ℝ} (hr : 0 < r) :
    DensDerivs (fun r => ((Plummer.pot b).scale amp).dens r 0 0 0) (Plummer.ddensdr amp b) (Plummer.d2densdr2 amp b)
      (Plummer.ddenstwobetadr amp b) r := by
  have hs : 0 < r ^ 2 + b ^ 2 := by positivity
  have hq : HasDerivAt (fun r : ℝ => r ^ 2 + b ^ 2) (2 * r) r :=
    ((hasDerivAt_id r).fun_pow 2).add_const (b ^ 2) |>.congr_deriv (by simp)
  have hpow : ∀ p : ℝ, HasDerivAt (fun r : ℝ => (r ^ 2 + b ^ 2) ^ p) (2 * r * p * (r ^ 2 + b ^ 2) ^ (p - 1)) r :=
    fun p => hq.rpow_const (Or.inl hs.ne')
  have e : ∀ r, ((Plummer.pot b).scale amp).dens r 0 0 0 = amp * (3 / 4 / π * b ^ 2 * (r ^ 2 + b ^ 2) ^ (-(5/2) : ℝ)) := by
    intro r
    simp [Pot.scale, Plummer.pot, Pot.axi, Plummer.dens]
  have e7 : (-(5 / 2) : ℝ) - 1 = -(7 / 2) := by norm_num
  have e9 : (-(7 / 2) : ℝ) - 1 = -(9 / 2) := by norm_num
  have h1 : HasDerivAt (fun r => amp * (3 / 4 / π * b ^ 2 * (r ^ 2 + b ^ 2) ^ (-(5/2) : ℝ)))
      (Plummer.ddensdr amp b r) r := by
    refine (((hpow _).const_mul _).const_mul _).congr_deriv ?_
    rw [Plummer.ddensdr, e7]
    ring
  refine ⟨by simp only [e]; exact h1, ?_, fun β => ?_⟩
  · have := ((hasDerivAt_id r).fun_mul (hpow (-(7/2)))).const_mul (amp * (-15) / 4 / π * b ^ 2)
    simp only [id] at this
    refine HasDerivAt.congr_deriv (this.congr_of_eventuallyEq ?_) ?_
    · refine Filter.Eventually.of_forall fun x => ?_
      simp only [Plummer.ddensdr]
      ring
    · rw [Plummer.d2densdr2, e9]
      ring
  · simp only [e]
    refine (h1.fun_mul (hasDerivAt_rpow_const (p := 2 * β) (Or.inl hr.ne'))).congr_deriv ?_
    rw [Plummer.ddensdr, Plummer.ddenstwobetadr]
    have hx : r ^ (2 * β) = r * r ^ (2 * β - 1) := by
      rw [mul_comm r, ← rpow_add_one hr.ne']; congr 1; ring
    rw [hx]
    ring

theorem C59_densderivs_powerspherical (amp α : ℝ) {r : ℝ} (hr : 0 < r) :
    DensDerivs (fun r => ((PowerSpherical.pot α).scale amp).dens r 0 0 0) (PowerSpherical.ddensdr amp α)
      (PowerSpherical.d2densdr2 amp α) (PowerSpherical.ddenstwobetadr amp α) r := by
  have hpow : ∀ p : ℝ, HasDerivAt (fun r : ℝ => r ^ p) (p * r ^ (p - 1)) r :=
    fun p => hasDerivAt_rpow_const (Or.inl hr.ne')
  have hnear : ∀ᶠ x in nhds r, 0 < x := lt_mem_nhds hr
  have e : ∀ x, 0 < x → ((PowerSpherical.pot α).scale amp).dens x 0 0 0 = amp * (3 - α) / 4 / π * x ^ (-α) := by
    intro x hx
    simp only [Pot.scale, PowerSpherical.pot, Pot.axi, PowerSpherical.dens]
    rw [show x ^ 2 + (0 : ℝ) ^ 2 = x ^ 2 by ring, sqrt_sq hx.le, rpow_neg hx.le]
    ring
  have e1 : ∀ x, 0 < x → PowerSpherical.ddensdr amp α x = -amp * α * (3 - α) / 4 / π * x ^ (-α - 1) := by
    intro x hx
    rw [PowerSpherical.ddensdr, show -α - 1 = -(α + 1) by ring, rpow_neg hx.le, div_eq_mul_inv]
  refine ⟨?_, ?_, fun β => ?_⟩
  · refine HasDerivAt.congr_deriv (((hpow (-α)).const_mul (amp * (3 - α) / 4 / π)).congr_of_eventuallyEq ?_) ?_
    · filter_upwards [hnear] with x hx using e x hx
    · rw [e1 r hr]; ring
  · refine HasDerivAt.congr_deriv (((hpow (-α - 1)).const_mul (-amp * α * (3 - α) / 4 / π)).congr_of_eventuallyEq ?_) ?_
    · filter_upwards [hnear] with x hx using e1 x hx
    · rw [PowerSpherical.d2densdr2, show -α - 1 - 1 = -(α + 2) by ring, rpow_neg hr.le]; ring
  · refine HasDerivAt.congr_deriv (((hpow (-α + 2 * β)).const_mul (amp * (3 - α) / 4 / π)).congr_of_eventuallyEq ?_) ?_
    · filter_upwards [hnear] with x hx
      rw [e x hx, rpow_add hx]; ring
    · rw [PowerSpherical.ddenstwobetadr, show -α + 2 * β - 1 = -(α + 1 - 2 * β) by ring, rpow_neg hr.le]; ring

namespace C59aux

/-- The density of the two-power family as a product of powers. -/
theorem rdens_eq (a α β : ℝ) (ha : 0 < a) {r : ℝ} (hr : 0 < r) :
    TwoPower.rdens a α β r = a ^ β / (4 * π * a ^ 3) * (r ^ (-α) * (a + r) ^ (α - β)) := by
  have har : 0 < a + r := by linarith
  rw [TwoPower.rdens, show 1 + r / a = (a + r) / a by field_simp, div_rpow ha.le hr.le, div_rpow har.le ha.le,
    rpow_neg hr.le, show α - β = -(β - α) by ring, rpow_neg har.le, rpow_sub ha]
  have := (rpow_pos_of_pos har (β - α)).ne'
  have := (rpow_pos_of_pos hr α).ne'
  have := (rpow_pos_of_pos ha α).ne'
  have := (rpow_pos_of_pos ha β).ne'
  field_simp

theorem dd_eq (amp a α β : ℝ) (ha : 0 < a) {r : ℝ} (hr : 0 < r) (p k : ℝ) :
    (a / r) ^ (α - k) * (1 + r / a) ^ (p - k) = a ^ (α - p) * (r ^ (k - α) * (a + r) ^ (p - k)) := by
  have har : 0 < a + r := by linarith
  rw [show 1 + r / a = (a + r) / a by field_simp, div_rpow ha.le hr.le, div_rpow har.le ha.le,
    show k - α = -(α - k) by ring, rpow_neg hr.le, show α - p = (α - k) - (p - k) by ring, rpow_sub ha (α - k)]
  ring

end C59aux
open C59aux

/-- The family with inner slope `α` and outer slope `β` (Hernquist, Jaffe, NFW, Dehnen and the
general one); the anisotropy is `b`. -/
theorem C59_densderivs_twopower (amp a α β : ℝ) (ha : 0 < a) {r : ℝ} (hr : 0 < r) :
    DensDerivs (fun r => amp * TwoPower.rdens a α β r) (TwoPower.ddensdr amp a α β)
      (TwoPower.d2densdr2 amp a α β) (TwoPower.ddenstwobetadr amp a α β) r := by
  have har : 0 < a + r := by linarith
  have hpow : ∀ p : ℝ, HasDerivAt (fun r : ℝ => r ^ p) (p * r ^ (p - 1)) r :=
    fun p => hasDerivAt_rpow_const (Or.inl hr.ne')
  have hpow' : ∀ p : ℝ, HasDerivAt (fun r : ℝ => (a + r) ^ p) (p * (a + r) ^ (p - 1)) r := fun p =>
    (((hasDerivAt_id r).const_add a).rpow_const (p := p) (Or.inl har.ne')).congr_deriv (by simp)
  have hnear : ∀ᶠ x in nhds r, 0 < x := lt_mem_nhds hr
  have hA : a ^ β = a ^ (β + 1) / a := by rw [rpow_add_one ha.ne']; field_simp
  have e1 : ∀ x, 0 < x → TwoPower.ddensdr amp a α β x
      = -amp * (a ^ β / (4 * π * a ^ 3)) * (x ^ (-α - 1) * (a + x) ^ (α - β - 1) * (a * α + x * β)) := by
    intro x hx
    have := dd_eq amp a α β ha hx (α - β) 1
    rw [TwoPower.ddensdr, mul_assoc (-amp), this, show α - (α - β) = β by ring, show 1 - α = (-α - 1) + (2 : ℕ) by push_cast; ring,
      rpow_add_natCast hx.ne']
    field_simp
  refine ⟨?_, ?_, fun b => ?_⟩
  · refine HasDerivAt.congr_deriv ((((hpow (-α)).fun_mul (hpow' (α - β))).const_mul
      (amp * (a ^ β / (4 * π * a ^ 3)))).congr_of_eventuallyEq ?_) ?_
    · filter_upwards [hnear] with x hx
      rw [rdens_eq a α β ha hx]; ring
    · have h1 : r ^ (-α) = r * r ^ (-α - 1) := by rw [mul_comm, ← rpow_add_one hr.ne']; congr 1; ring
      have h2 : (a + r) ^ (α - β) = (a + r) * (a + r) ^ (α - β - 1) := by
        rw [mul_comm, ← rpow_add_one har.ne']; congr 1; ring
      rw [e1 r hr, h1, h2]; ring
  · refine HasDerivAt.congr_deriv (((((hpow (-α - 1)).fun_mul (hpow' (α - β - 1))).fun_mul
      (((hasDerivAt_id r).mul_const β).const_add (a * α))).const_mul
      (-amp * (a ^ β / (4 * π * a ^ 3)))).congr_of_eventuallyEq ?_) ?_
    · filter_upwards [hnear] with x hx
      rw [e1 x hx]; simp only [id]
    · have := dd_eq amp a α β ha hr (α - β) 2
      rw [TwoPower.d2densdr2, mul_assoc amp, this, show α - (α - β) = β by ring,
        show 2 - α = (-α - 1 - 1) + (4 : ℕ) by push_cast; ring, rpow_add_natCast hr.ne']
      have h1 : r ^ (-α - 1) = r * r ^ (-α - 1 - 1) := by rw [mul_comm, ← rpow_add_one hr.ne']; congr 1; ring
      have h2 : (a + r) ^ (α - β - 1) = (a + r) * (a + r) ^ (α - β - 2) := by
        rw [mul_comm, ← rpow_add_one har.ne']; congr 1; ring
      rw [h1, h2, show α - β - 1 - 1 = α - β - 2 by ring]
      simp only [id]
      field_simp
      ring
  · refine HasDerivAt.congr_deriv ((((hpow (-α + 2 * b)).fun_mul (hpow' (α - β))).const_mul
      (amp * (a ^ β / (4 * π * a ^ 3)))).congr_of_eventuallyEq ?_) ?_
    · filter_upwards [hnear] with x hx
      rw [rdens_eq a α β ha hx, rpow_add hx]; ring
    · have := dd_eq amp a α β ha hr (α - β) 1
      rw [TwoPower.ddenstwobetadr, mul_assoc _ ((a / r) ^ (α - 1)), this, show α - (α - β) = β by ring]
      have h1 : r ^ (-α + 2 * b) = r * r ^ (-α + 2 * b - 1) := by rw [mul_comm r, ← rpow_add_one hr.ne']; congr 1; ring
      have h2 : (a + r) ^ (α - β) = (a + r) * (a + r) ^ (α - β - 1) := by
        rw [mul_comm, ← rpow_add_one har.ne']; congr 1; ring
      have h3 : r ^ (2 * b - 2) * (a ^ β * (r ^ (1 - α) * (a + r) ^ (α - β - 1)))
          = a ^ β * r ^ (-α + 2 * b - 1) * (a + r) ^ (α - β - 1) := by
        rw [show -α + 2 * b - 1 = (2 * b - 2) + (1 - α) by ring, rpow_add hr]; ring
      rw [h1, h2, mul_assoc _ (r ^ (2 * b - 2)), h3]
      field_simp
      ring

/-- The densities of the classes are members of the family. -/
theorem C59_densderivs_classes (amp a α : ℝ) {r : ℝ} (hr : 0 ≤ r) :
    ((Hernquist.pot a).scale amp).dens r 0 0 0 = amp * TwoPower.rdens a 1 4 r ∧
    ((Jaffe.pot a).scale amp).dens r 0 0 0 = amp * TwoPower.rdens a 2 4 r ∧
    ((NFW.pot a).scale amp).dens r 0 0 0 = amp * TwoPower.rdens a 1 3 r ∧
    ((Dehnen.pot a α).scale amp).dens r 0 0 0 = amp * TwoPower.rdens a α 4 r := by
  have h : √(r ^ 2 + 0 ^ 2) = r := by rw [show r ^ 2 + (0 : ℝ) ^ 2 = r ^ 2 by ring, sqrt_sq hr]
  refine ⟨?_, ?_, ?_, ?_⟩ <;>
    simp only [Pot.scale, Hernquist.pot, Jaffe.pot, NFW.pot, Dehnen.pot, Pot.axi, Hernquist.dens, Jaffe.dens, NFW.dens,
      Dehnen.dens, TwoPower.rdens, h]

end Verif
