import Verif.Props.C59ConstantBeta
import Mathlib.Algebra.Polynomial.Derivative
import Mathlib.Analysis.Calculus.Deriv.Polynomial
import Mathlib.Topology.Algebra.Polynomial

set_option autoImplicit false

/-!
# C59: constant anisotropy in the Hernquist sphere

The Hernquist potential and density meet the assumptions of the inversion for every `β` below one,
so `constantbetadf` reproduces the density for all of them; for `β = ±1/2` it is the closed form of
`constantbetaHernquistdf`.
-/

noncomputable section
open Real MeasureTheory Set Filter Topology Polynomial

namespace Verif
open Sph C59aux C59Spec

namespace C59aux

/-- The polynomials in the derivatives of `x^p (1 - x)^q`. -/
def hQ (p q : ℝ) : ℕ → ℝ[X]
  | 0 => 1
  | k + 1 => C (p - k) * (1 - X) * hQ p q k - C (q - k) * X * hQ p q k + X * (1 - X) * derivative (hQ p q k)

/-- The derivatives of `x^p (1 - x)^q`. -/
def hG (p q : ℝ) (k : ℕ) (x : ℝ) : ℝ := x ^ (p - k) * ((1 - x) ^ (q - k) * (hQ p q k).eval x)

theorem hG_deriv (p q : ℝ) (k : ℕ) {x : ℝ} (h0 : 0 < x) (h1 : x < 1) : HasDerivAt (hG p q k) (hG p q (k + 1) x) x := by
  have h1' : 0 < 1 - x := by linarith
  have d1 : HasDerivAt (fun x : ℝ => x ^ (p - k)) ((p - k) * x ^ (p - k - 1)) x := hasDerivAt_rpow_const (Or.inl h0.ne')
  have d2 : HasDerivAt (fun x : ℝ => (1 - x) ^ (q - k)) (-1 * (q - k) * (1 - x) ^ (q - k - 1)) x :=
    ((hasDerivAt_id x).const_sub 1).rpow_const (Or.inl h1'.ne')
  refine (d1.fun_mul (d2.fun_mul ((hQ p q k).hasDerivAt x))).congr_deriv ?_
  have e1 : x ^ (p - k) = x ^ (p - k - 1) * x := by rw [← rpow_add_one h0.ne']; congr 1; ring
  have e2 : (1 - x) ^ (q - k) = (1 - x) ^ (q - k - 1) * (1 - x) := by rw [← rpow_add_one h1'.ne']; congr 1; ring
  rw [hG, hQ]
  push_cast
  rw [show p - (k + 1) = p - k - 1 by ring, show q - (k + 1 : ℝ) = q - k - 1 by ring, e1, e2]
  simp only [eval_add, eval_sub, eval_mul, eval_C, eval_X, eval_one]
  ring

theorem hG_lim (p q : ℝ) (k : ℕ) (hp : (k : ℝ) < p) : Tendsto (hG p q k) (𝓝[>] 0) (𝓝 0) := by
  have h1 : ContinuousAt (fun x : ℝ => x ^ (p - k)) 0 := continuousAt_rpow_const _ _ (Or.inr (by linarith))
  have h2 : ContinuousAt (fun x : ℝ => (1 - x) ^ (q - k)) 0 :=
    ContinuousAt.rpow_const (by fun_prop) (Or.inl (by norm_num))
  have h3 : ContinuousAt (hG p q k) 0 := h1.mul (h2.mul (hQ p q k).continuous.continuousAt)
  have h4 : hG p q k 0 = 0 := by rw [hG, zero_rpow (by linarith), zero_mul]
  have h5 := h3.tendsto
  rw [h4] at h5
  exact h5.mono_left nhdsWithin_le_nhds

variable {amp a β : ℝ} (hm : 0 < amp) (ha : 0 < a)

theorem hx_deriv (ha : 0 < a) {r : ℝ} (hr : 0 < r) : HasDerivAt (hx a) (-(hx a r) ^ 2 / a) r := by
  have h1 : a + r ≠ 0 := by linarith
  unfold hx
  refine ((hasDerivAt_const r a).fun_div ((hasDerivAt_id r).const_add a) h1).congr_deriv ?_
  simp only [id]
  field_simp
  ring

theorem hx_lim (ha : 0 < a) : Tendsto (hx a) atTop (𝓝[>] 0) := by
  refine tendsto_nhdsWithin_iff.2 ⟨?_, ?_⟩
  · exact tendsto_const_nhds.div_atTop (tendsto_atTop_add_const_left _ _ tendsto_id)
  · filter_upwards [eventually_gt_atTop 0] with r hr using (hx_mem ha hr).1

/-- `ν r^(2β)` in the variable `x`. -/
theorem hern_twobeta (ha : 0 < a) {r : ℝ} (hr : 0 < r) :
    ((Hernquist.pot a).scale amp).dens r 0 0 0 * r ^ (2 * β)
      = amp * a ^ (2 * β) / (4 * π * a ^ 3) * hG (4 - 2 * β) (2 * β - 1) 0 (hx a r) := by
  have har : 0 < a + r := by linarith
  have h1 : 1 - hx a r = r / (a + r) := by rw [hx]; field_simp; ring
  rw [hern_dens ha hr, hG, hQ, eval_one, mul_one, Nat.cast_zero, sub_zero, sub_zero, h1, hx, div_rpow ha.le har.le,
    div_rpow hr.le har.le, rpow_sub ha, rpow_sub har, rpow_sub hr, rpow_sub har, rpow_one, rpow_one,
    show (4 : ℝ) = ((4 : ℕ) : ℝ) by norm_num, rpow_natCast, rpow_natCast]
  have := (rpow_pos_of_pos ha (2 * β)).ne'
  have := (rpow_pos_of_pos har (2 * β)).ne'
  field_simp

include ha hm

theorem hern_force {r : ℝ} (hr : 0 < r) : Hernquist.rforceJax amp a r = -amp / (2 * a ^ 2) * hx a r ^ 2 := by
  have har : 0 < r + a := by linarith
  rw [Hernquist.rforceJax, hx]
  field_simp
  ring

theorem hern_grad0 {r : ℝ} (hr : 0 < r) : TwoPower.ddenstwobetadr amp a 1 4 β r
    = amp * a ^ (2 * β) / (4 * π * a ^ 3) * (hG (4 - 2 * β) (2 * β - 1) 1 (hx a r) * (-(hx a r) ^ 2 / a)) := by
  obtain ⟨h0, h1⟩ := hx_mem ha hr
  have d1 : HasDerivAt (fun r => ((Hernquist.pot a).scale amp).dens r 0 0 0 * r ^ (2 * β)) (TwoPower.ddenstwobetadr amp a 1 4 β r) r := by
    refine ((C59_densderivs_twopower amp a 1 4 ha hr).twobeta β).congr_of_eventuallyEq ?_
    filter_upwards [lt_mem_nhds hr] with x hx
    rw [(C59_densderivs_classes amp a 1 hx.le).1]
  have d2 : HasDerivAt (fun r => ((Hernquist.pot a).scale amp).dens r 0 0 0 * r ^ (2 * β))
      (amp * a ^ (2 * β) / (4 * π * a ^ 3) * (hG (4 - 2 * β) (2 * β - 1) 1 (hx a r) * (-(hx a r) ^ 2 / a))) r := by
    refine (((hG_deriv (4 - 2 * β) (2 * β - 1) 0 h0 h1).comp r (hx_deriv ha hr)).const_mul
      (amp * a ^ (2 * β) / (4 * π * a ^ 3))).congr_of_eventuallyEq ?_
    filter_upwards [lt_mem_nhds hr] with x hx using hern_twobeta ha hx
  exact d1.unique d2

/-- The derivatives of the code are the ones with respect to `x`. -/
theorem hern_func (k : ℕ) {r : ℝ} (hr : 0 < r) :
    cbFunc (Hernquist.rforceJax amp a) (TwoPower.ddenstwobetadr amp a 1 4 β) k r
      = amp * a ^ (2 * β) / (4 * π * a ^ 3) * (2 * a / amp) ^ (k + 1) * hG (4 - 2 * β) (2 * β - 1) (k + 1) (hx a r) := by
  induction k generalizing r with
  | zero =>
    have := (hx_mem ha hr).1
    rw [cbFunc, hern_force hm ha hr, hern_grad0 hm ha hr, zero_add, pow_one]
    generalize a ^ (2 * β) = w
    field_simp
  | succ k ih =>
    obtain ⟨h0, h1⟩ := hx_mem ha hr
    have d : HasDerivAt (cbFunc (Hernquist.rforceJax amp a) (TwoPower.ddenstwobetadr amp a 1 4 β) k)
        (amp * a ^ (2 * β) / (4 * π * a ^ 3) * (2 * a / amp) ^ (k + 1)
          * (hG (4 - 2 * β) (2 * β - 1) (k + 2) (hx a r) * (-(hx a r) ^ 2 / a))) r := by
      refine (((hG_deriv (4 - 2 * β) (2 * β - 1) (k + 1) h0 h1).comp r (hx_deriv ha hr)).const_mul _).congr_of_eventuallyEq ?_
      filter_upwards [lt_mem_nhds hr] with x hx using ih hx
    rw [cbFunc, d.deriv, hern_force hm ha hr, pow_succ (2 * a / amp) (k + 1)]
    generalize (2 * a / amp) ^ (k + 1) = w
    generalize a ^ (2 * β) = w'
    field_simp

theorem hern_grad (m : ℕ) {r : ℝ} (hr : 0 < r) :
    cbGrad (Hernquist.rforceJax amp a) (TwoPower.ddenstwobetadr amp a 1 4 β) m r
      = amp * a ^ (2 * β) / (4 * π * a ^ 3) * (2 * a / amp) ^ m
        * (hG (4 - 2 * β) (2 * β - 1) (m + 1) (hx a r) * (-(hx a r) ^ 2 / a)) := by
  cases m with
  | zero => rw [cbGrad, hern_grad0 hm ha hr, pow_zero, mul_one]
  | succ k =>
    obtain ⟨h0, h1⟩ := hx_mem ha hr
    refine HasDerivAt.deriv (HasDerivAt.congr_of_eventuallyEq
      (((hG_deriv (4 - 2 * β) (2 * β - 1) (k + 1) h0 h1).comp r (hx_deriv ha hr)).const_mul _) ?_)
    filter_upwards [lt_mem_nhds hr] with x hx using hern_func hm ha k hx

theorem hern_cbtracer (m : ℕ) (hβ : (m : ℝ) < 4 - 2 * β) :
    CBTracer ((Hernquist.pot a).scale amp) (Hernquist.rforceJax amp a) (TwoPower.ddenstwobetadr amp a 1 4 β)
      (fun r => ((Hernquist.pot a).scale amp).dens r 0 0 0) β m := by
  have hcont : ∀ k, ContinuousOn (fun r => hG (4 - 2 * β) (2 * β - 1) k (hx a r)) (Ioi 0) := fun k r hr =>
    ((hG_deriv (4 - 2 * β) (2 * β - 1) k (hx_mem ha hr).1 (hx_mem ha hr).2).comp r
      (hx_deriv ha hr)).continuousAt.continuousWithinAt
  have hcx : ContinuousOn (hx a) (Ioi 0) := fun r hr => (hx_deriv ha hr).continuousAt.continuousWithinAt
  have hlim : ∀ k ≤ m, ∀ c : ℝ, Tendsto (fun r => c * hG (4 - 2 * β) (2 * β - 1) k (hx a r)) atTop (𝓝 0) := by
    intro k hk c
    have hk' : (k : ℝ) ≤ m := by exact_mod_cast hk
    have := ((hG_lim (4 - 2 * β) (2 * β - 1) k (by linarith)).comp (hx_lim ha)).const_mul c
    rwa [mul_zero] at this
  have hgc : ContinuousOn (cbGrad (Hernquist.rforceJax amp a) (TwoPower.ddenstwobetadr amp a 1 4 β) m) (Ioi 0) :=
    (continuousOn_const.mul ((hcont (m + 1)).mul ((hcx.pow 2).neg.div_const a))).congr fun r hr => hern_grad hm ha m hr
  refine ⟨fun r hr => (C59_rforce_jax amp a ha hr).2.2.2.1, fun r hr => ?_, ?_, fun k hk r hr => ?_, fun k hk => ?_,
    hgc, fun r hr => ?_⟩
  · refine ((C59_densderivs_twopower amp a 1 4 ha hr).twobeta β).congr_of_eventuallyEq ?_
    filter_upwards [lt_mem_nhds hr] with x hx
    rw [(C59_densderivs_classes amp a 1 hx.le).1]
  · refine (hlim 0 (Nat.zero_le m) (amp * a ^ (2 * β) / (4 * π * a ^ 3))).congr' ?_
    filter_upwards [eventually_gt_atTop 0] with r hr using (hern_twobeta ha hr).symm
  · obtain ⟨h0, h1⟩ := hx_mem ha hr
    refine (HasDerivAt.congr_of_eventuallyEq (((hG_deriv (4 - 2 * β) (2 * β - 1) (k + 1) h0 h1).comp r
      (hx_deriv ha hr)).const_mul (amp * a ^ (2 * β) / (4 * π * a ^ 3) * (2 * a / amp) ^ (k + 1))) ?_).differentiableAt.differentiableWithinAt
    filter_upwards [lt_mem_nhds hr] with x hx using hern_func hm ha k hx
  · refine (hlim (k + 1) hk (amp * a ^ (2 * β) / (4 * π * a ^ 3) * (2 * a / amp) ^ (k + 1))).congr' ?_
    filter_upwards [eventually_gt_atTop 0] with r hr using (hern_func hm ha k hr).symm
  · set q := 2 * β - 1
    set c := amp * a ^ (2 * β) / (4 * π * a ^ 3) * (2 * a / amp) ^ m
    have hx1 := (hx_mem ha hr).2
    obtain ⟨M, hM⟩ := (isCompact_Icc (a := (0 : ℝ)) (b := hx a r)).exists_bound_of_continuousOn
      (f := fun x => (1 - x) ^ (q - (m + 1 : ℕ)) * (hQ (4 - 2 * β) q (m + 1)).eval x) (by
        refine ContinuousOn.mul ?_ (hQ (4 - 2 * β) q (m + 1)).continuous.continuousOn
        refine ContinuousOn.rpow_const (by fun_prop) fun x hx => Or.inl ?_
        linarith [hx.2])
    have hint : IntegrableOn (fun x : ℝ => |c| * (|M| * a ^ (5 - 2 * β - m) / a) * x ^ (-(5 - 2 * β - m))) (Ioi r) :=
      (integrableOn_Ioi_rpow_of_lt (by linarith) hr).const_mul _
    refine Integrable.mono' hint ((hgc.mono (Ioi_subset_Ioi hr.le)).aestronglyMeasurable measurableSet_Ioi) ?_
    refine (ae_restrict_iff' measurableSet_Ioi).2 (Eventually.of_forall fun x hxr => ?_)
    have hx0 : 0 < x := hr.trans hxr
    obtain ⟨h0, h1⟩ := hx_mem ha hx0
    have hle : hx a x ≤ hx a r := by
      rw [hx, hx]
      exact div_le_div_of_nonneg_left ha.le (by linarith) (by linarith [mem_Ioi.1 hxr])
    have hb := (hM _ ⟨h0.le, hle⟩).trans (le_abs_self M)
    rw [hern_grad hm ha m hx0, hG, norm_mul, show amp * a ^ (2 * β) / (4 * π * a ^ 3) * (2 * a / amp) ^ m = c from rfl,
      mul_assoc |c|, norm_eq_abs c]
    refine mul_le_mul_of_nonneg_left ?_ (abs_nonneg c)
    have e1 : ‖hx a x ^ (4 - 2 * β - (m + 1 : ℕ)) * ((1 - hx a x) ^ (q - (m + 1 : ℕ)) * (hQ (4 - 2 * β) q (m + 1)).eval (hx a x))
        * (-(hx a x) ^ 2 / a)‖ = hx a x ^ (5 - 2 * β - m) / a
          * ‖(1 - hx a x) ^ (q - (m + 1 : ℕ)) * (hQ (4 - 2 * β) q (m + 1)).eval (hx a x)‖ := by
      rw [norm_mul, norm_mul, norm_of_nonneg (rpow_nonneg h0.le _), norm_div, norm_neg, norm_of_nonneg (sq_nonneg (hx a x)),
        norm_of_nonneg ha.le, show 5 - 2 * β - m = 4 - 2 * β - (m + 1 : ℕ) + (2 : ℕ) by push_cast; ring, rpow_add h0, rpow_natCast]
      ring
    rw [e1]
    have e2 : hx a x ^ (5 - 2 * β - m) ≤ a ^ (5 - 2 * β - m) * x ^ (-(5 - 2 * β - m)) := by
      rw [rpow_neg hx0.le, ← div_eq_mul_inv, ← div_rpow ha.le hx0.le]
      refine rpow_le_rpow h0.le ?_ (by linarith)
      rw [hx]
      exact div_le_div_of_nonneg_left ha.le hx0 (by linarith)
    calc _ ≤ a ^ (5 - 2 * β - m) * x ^ (-(5 - 2 * β - m)) / a * |M| := by gcongr
      _ = _ := by ring

theorem cbM_lt (hβ : β < 1) : (cbM β : ℝ) < 4 - 2 * β := by
  have h1 := (alpha_mem hβ).1
  rw [cbAlpha] at h1
  norm_num at h1
  linarith

end C59aux

/-- `constantbetadf` in a Hernquist sphere reproduces its density and solves the Jeans equation, for
every anisotropy below one. -/
theorem C59_hernquist_constantbeta (amp a β : ℝ) (hm : 0 < amp) (ha : 0 < a) (hβ : β < 1) {rphi : ℝ → ℝ}
    (hi : ∀ r, 0 < r → rphi (phi ((Hernquist.pot a).scale amp) r) = r) {Emin r : ℝ} (hr : 0 < r)
    (hE : Emin ≤ phi ((Hernquist.pot a).scale amp) r) :
    let P := (Hernquist.pot a).scale amp;
    let f := cbFE P (Hernquist.rforceJax amp a) (TwoPower.ddenstwobetadr amp a 1 4 β) rphi β 0 Emin;
    cbVmoment P 0 β f r 0 0 = P.dens r 0 0 0 ∧
    cbVmoment P 0 β f r 2 0 = r ^ (-2 * β) * ∫ x in Ioi r, P.dens x 0 0 0 * x ^ (2 * β) * -P.Rforce x 0 0 0 :=
  ⟨C59_constantbeta (hern_halo hm ha) hβ (hern_cbtracer hm ha _ (cbM_lt hm ha hβ)) hi hr hE,
    C59_constantbeta_jeans (hern_halo hm ha) hβ (hern_cbtracer hm ha _ (cbM_lt hm ha hβ)) hi hr hE⟩

/-- The same on the branch for odd `twobeta = 1 - 2m`. -/
theorem C59_hernquist_constantbeta_half (amp a : ℝ) (m : ℕ) (hm : 0 < amp) (ha : 0 < a) {rphi : ℝ → ℝ}
    (hi : ∀ r, 0 < r → rphi (phi ((Hernquist.pot a).scale amp) r) = r) {Emin r : ℝ} (hr : 0 < r)
    (hE : Emin ≤ phi ((Hernquist.pot a).scale amp) r) :
    let P := (Hernquist.pot a).scale amp;
    let β : ℝ := 1 / 2 - m;
    let f := cbHalfFE (Hernquist.rforceJax amp a) (TwoPower.ddenstwobetadr amp a 1 4 β) rphi β (m + 1) 0 Emin;
    cbVmoment P 0 β f r 0 0 = P.dens r 0 0 0 ∧
    cbVmoment P 0 β f r 2 0 = r ^ (-2 * β) * ∫ x in Ioi r, P.dens x 0 0 0 * x ^ (2 * β) * -P.Rforce x 0 0 0 := by
  have hm' : (m : ℝ) < 4 - 2 * (1 / 2 - m) := by
    have : (0 : ℝ) ≤ m := m.cast_nonneg
    linarith
  exact ⟨C59_constantbeta_half (hern_halo hm ha) rfl (hern_cbtracer hm ha m hm') hi hr hE,
    C59_constantbeta_half_jeans (hern_halo hm ha) rfl (hern_cbtracer hm ha m hm') hi hr hE⟩

/-- For `β = 1/2` and `β = -1/2` the inversion is the closed form of `constantbetaHernquistdf`. -/
theorem C59_hernquist_closed_forms (amp a : ℝ) (hm : 0 < amp) (ha : 0 < a) {rphi : ℝ → ℝ}
    (hi : ∀ r, 0 < r → rphi (phi ((Hernquist.pot a).scale amp) r) = r) {Emin s : ℝ} (hs : 0 < s)
    (hE : Emin ≤ phi ((Hernquist.pot a).scale amp) s) :
    let E := phi ((Hernquist.pot a).scale amp) s;
    cbHalfFE (Hernquist.rforceJax amp a) (TwoPower.ddenstwobetadr amp a 1 4 (1 / 2)) rphi (1 / 2) 1 0 Emin E
      = HernquistDF.fEhalf amp a E ∧
    cbHalfFE (Hernquist.rforceJax amp a) (TwoPower.ddenstwobetadr amp a 1 4 (-1 / 2)) rphi (-1 / 2) 2 0 Emin E
      = HernquistDF.fEmhalf amp a E := by
  intro E
  have hp := psi0_pos hm ha
  obtain ⟨h0, h1⟩ := hx_mem ha hs
  have hEt : -(E / HernquistDF.psi0 amp a) = hx a s := by
    rw [show E = _ from hern_phi ha hs.le]; field_simp
  have hneg : E < 0 := (hern_halo hm ha).inv.neg hs
  have hπ := mul_self_sqrt pi_pos.le
  have hp15 : π ^ (1.5 : ℝ) = π * √π := by
    rw [sqrt_eq_rpow, show (1.5 : ℝ) = 1 + 1 / 2 by norm_num, rpow_add pi_pos, rpow_one]
  have hs' : √π ≠ 0 := (sqrt_pos.2 pi_pos).ne'
  have h1' : 0 < 1 - hx a s := by linarith
  constructor
  · simp only [cbHalfFE, HernquistDF.fEhalf, hEt]
    rw [if_pos ⟨hneg, hE⟩, if_neg (by rintro (h | h) <;> linarith), hi s hs, Nat.sub_self, hern_func hm ha 0 hs, hG, hp15,
      show (1 : ℝ) - 1 / 2 = 1 / 2 by norm_num, Gamma_one_half_eq, show (0.5 : ℝ) - 1 / 2 = 0 by norm_num, rpow_zero]
    norm_num [hQ, rpow_neg_one]
    field_simp
    rw [sq_sqrt pi_pos.le]
  · simp only [cbHalfFE, HernquistDF.fEmhalf, hEt]
    rw [if_pos ⟨hneg, hE⟩, if_neg (by rintro (h | h) <;> linarith), hi s hs, show 2 - 1 = 1 from rfl, hern_func hm ha 1 hs, hG, hp15,
      show (1 : ℝ) - -1 / 2 = 3 / 2 by norm_num, Gamma_three_half, show (0.5 : ℝ) - -1 / 2 = 1 by norm_num, rpow_one,
      HernquistDF.GMa, hern_psi0 ha]
    norm_num [hQ, rpow_neg_one]
    field_simp
    rw [sq_sqrt pi_pos.le]
    ring

example : ∃ β : ℝ, β < 1 ∧ cbM β = 3 ∧ cbAlpha β = 1 / 4 := by
  have : cbM (-7 / 4) = 3 := by
    rw [cbM, show ⌊(1.5 : ℝ) - -7 / 4⌋ = 3 by rw [Int.floor_eq_iff]; norm_num]; rfl
  exact ⟨-7 / 4, by norm_num, this, by rw [cbAlpha, this]; norm_num⟩

end Verif
