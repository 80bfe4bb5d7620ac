import Verif.Props.C59HernquistBeta
import Verif.Util.Hyper

set_option autoImplicit false

/-!
# C59: the hypergeometric closed form of `constantbetaHernquistdf`

For every anisotropy below one the class returns a distribution function whose density is the
Hernquist density: the special cases `β = 0, 1/2, -1/2` and the hypergeometric branch for all others.
-/

noncomputable section
open Real MeasureTheory Set Filter Topology

namespace Verif
open Sph C59aux C59Spec

/-- `constantbetaHernquistdf` reproduces the Hernquist density for every anisotropy below one. -/
theorem C59_hernquist_beta (amp a β : ℝ) (hm : 0 < amp) (ha : 0 < a) (hβ : β < 1) {r : ℝ} (hr : 0 < r) :
    cbVmoment ((Hernquist.pot a).scale amp) 0 β (HernquistDF.fEbeta amp a β) r 0 0
      = ((Hernquist.pot a).scale amp).dens r 0 0 0 := by
  by_cases h0 : β = 0
  · subst h0
    have e : HernquistDF.fEbeta amp a 0 = HernquistDF.fE amp a := by
      funext E
      rw [HernquistDF.fEbeta, if_pos rfl]
    rw [e, ← C59_hernquist amp a hm ha hr, cb00, iso00]
    have g : Gamma (3 / 2 : ℝ) = √π / 2 := Gamma_three_half
    simp only [rpow_two, mul_zero, sub_zero, rpow_zero, g, Gamma_one]
    have : √π ≠ 0 := (sqrt_pos.2 pi_pos).ne'
    field_simp
    ring
  by_cases h1 : β = 0.5
  · have e : HernquistDF.fEbeta amp a β = HernquistDF.fEhalf amp a := by
      funext E
      rw [HernquistDF.fEbeta, if_neg h0, if_pos h1]
    rw [e, show β = 1 / 2 by rw [h1]; norm_num]
    exact C59_hernquist_half amp a hm ha hr
  by_cases h2 : β = -0.5
  · have e : HernquistDF.fEbeta amp a β = HernquistDF.fEmhalf amp a := by
      funext E
      rw [HernquistDF.fEbeta, if_neg h0, if_neg h1, if_pos h2]
    rw [e, show β = -1 / 2 by rw [h2]; norm_num]
    exact C59_hernquist_minus_half amp a hm ha hr
  have hp := psi0_pos hm ha
  obtain ⟨hx0, hx1⟩ := hx_mem ha hr
  set ψ := HernquistDF.psi0 amp a with hψ
  set x := hx a r with hx
  have key := Hyper.bateman (p := 3 / 2 - β) (c := 7 / 2 - β) (1 - 2 * β) (by linarith) (by linarith) hx0 hx1
  have en := energy_integral_rpow (ψ := ψ * x) (q := 2 - 2 * β) (by positivity) (HernquistDF.fEbeta amp a β)
  have sub : ∫ E in Ioo (-(ψ * x)) 0, (E - -(ψ * x)) ^ ((2 - 2 * β - 1) / 2) * HernquistDF.fEbeta amp a β E
      = HernquistDF.normBeta amp a β * ψ ^ (3 / 2 - β)
        * ∫ e in (0 : ℝ)..x, e ^ (7 / 2 - β - 1) * (x - e) ^ (3 / 2 - β - 1)
          * ordinaryHypergeometric (3 / 2 - β + (7 / 2 - β)) (1 - 2 * β) (7 / 2 - β) e := by
    have s1 : ∫ E in Ioo (-(ψ * x)) 0, (E - -(ψ * x)) ^ ((2 - 2 * β - 1) / 2) * HernquistDF.fEbeta amp a β E
        = ∫ E in (-ψ * x)..(-ψ * 0), (E - -(ψ * x)) ^ ((2 - 2 * β - 1) / 2) * HernquistDF.fEbeta amp a β E := by
      rw [intervalIntegral.integral_of_le (by nlinarith), integral_Ioc_eq_integral_Ioo, neg_mul, mul_zero]
    rw [s1, ← intervalIntegral.mul_integral_comp_mul_left, intervalIntegral.integral_symm, ← intervalIntegral.integral_const_mul,
      mul_neg, ← intervalIntegral.integral_const_mul, ← intervalIntegral.integral_neg]
    refine intervalIntegral.integral_congr_ae ((measure_eq_zero_iff_ae_notMem.1 (measure_singleton x)).mono fun e he hmem => ?_)
    rw [uIoc_of_le hx0.le] at hmem
    have he0 := hmem.1
    have hex : 0 < x - e := by
      rcases hmem.2.lt_or_eq with h | h
      · linarith
      · exact absurd h he
    have hEt : -(-ψ * e / ψ) = e := by field_simp
    rw [HernquistDF.fEbeta, if_neg h0, if_neg h1, if_neg h2]
    simp only [← hψ, hEt]
    rw [if_neg (by rintro (h | h) <;> linarith), show -ψ * e - -(ψ * x) = ψ * (x - e) by ring,
      mul_rpow hp.le hex.le, show 3 / 2 - β + (7 / 2 - β) = 5 - 2 * β by ring,
      show (3.5 : ℝ) - β = 7 / 2 - β by norm_num, show (2.5 : ℝ) - β = 7 / 2 - β - 1 by norm_num; ring,
      show (2 - 2 * β - 1) / 2 = 3 / 2 - β - 1 by ring]
    have e3 : ψ ^ (3 / 2 - β) = ψ ^ (3 / 2 - β - 1) * ψ := by
      rw [← rpow_add_one hp.ne']; congr 1; ring
    rw [e3]
    ring
  have hd := hern_twobeta (amp := amp) (β := β) ha hr
  rw [hG, hQ, Polynomial.eval_one, mul_one, Nat.cast_zero, sub_zero, sub_zero, ← hx] at hd
  have hr2 : 0 < r ^ (2 * β) := rpow_pos_of_pos hr _
  have hdens : ((Hernquist.pot a).scale amp).dens r 0 0 0
      = r ^ (-2 * β) * (amp * a ^ (2 * β) / (4 * π * a ^ 3) * (x ^ (4 - 2 * β) * (1 - x) ^ (2 * β - 1))) := by
    rw [← hd, show -2 * β = -(2 * β) by ring, rpow_neg hr.le]
    field_simp
  rw [hdens, cb00, hern_phi ha hr.le, zero_sub, neg_neg, ← hx, ← hψ, en, sub, key, HernquistDF.normBeta, HernquistDF.GMa, ← hψ,
    B, show 7 / 2 - β + (3 / 2 - β) = 5 - 2 * β by ring, show (3.5 : ℝ) - β = 7 / 2 - β by norm_num,
    show (1.5 : ℝ) - β = 3 / 2 - β by norm_num, mul_rpow hp.le (by positivity),
    show 3 / 2 - β + (7 / 2 - β) - 1 = 4 - 2 * β by ring, show -(1 - 2 * β) = 2 * β - 1 by ring,
    show (2 - 2 * β - 1) / 2 = 1 / 2 - β by ring]
  have g1 := (Gamma_pos_of_pos (show 0 < 1 - β by linarith)).ne'
  have g2 := (Gamma_pos_of_pos (show 0 < 3 / 2 - β by linarith)).ne'
  have g3 := (Gamma_pos_of_pos (show 0 < 7 / 2 - β by linarith)).ne'
  have g4 := (Gamma_pos_of_pos (show 0 < 5 - 2 * β by linarith)).ne'
  have q1 : (a ^ 2) ^ (3 / 2 - β) = a ^ 3 / a ^ (2 * β) := by
    rw [← rpow_natCast a 2, ← rpow_mul ha.le, ← rpow_natCast a 3, ← rpow_sub ha]
    congr 1
    push_cast
    ring
  have q2 : (2 : ℝ) ^ (1 / 2 - β) = √2 / 2 ^ β := by rw [rpow_sub two_pos, ← sqrt_eq_rpow]
  have q3 : (2 * π) ^ (2.5 : ℝ) = (2 * π) ^ 2 * (√2 * √π) := by
    rw [← sqrt_mul two_pos.le, sqrt_eq_rpow, ← rpow_natCast, ← rpow_add (by positivity)]
    norm_num
  have hψa : ψ = amp / (2 * a) := hern_psi0 ha
  rw [q1, q2, q3]
  have p1 := (rpow_pos_of_pos hp (3 / 2 - β)).ne'
  have p2 := (rpow_pos_of_pos two_pos β).ne'
  have p3 := (rpow_pos_of_pos ha (2 * β)).ne'
  generalize ψ ^ (3 / 2 - β) = w1 at *
  generalize (2 : ℝ) ^ β = w2 at *
  generalize a ^ (2 * β) = w3 at *
  generalize r ^ (-2 * β) = w4 at *
  generalize x ^ (4 - 2 * β) = w5 at *
  generalize (1 - x) ^ (2 * β - 1) = w6 at *
  generalize Gamma (1 - β) = w7 at *
  generalize Gamma (3 / 2 - β) = w8 at *
  generalize Gamma (7 / 2 - β) = w9 at *
  generalize Gamma (5 - 2 * β) = w10 at *
  rw [hψa]
  have : √2 ≠ 0 := by positivity
  have : √π ≠ 0 := (sqrt_pos.2 pi_pos).ne'
  field_simp
  ring

/-- The hypergeometric branch is reached, for instance for `β = -7/4`. -/
example : cbVmoment ((Hernquist.pot 2).scale 3) 0 (-7 / 4) (HernquistDF.fEbeta 3 2 (-7 / 4)) 5 0 0
    = ((Hernquist.pot 2).scale 3).dens 5 0 0 0 :=
  C59_hernquist_beta 3 2 (-7 / 4) (by norm_num) (by norm_num) (by norm_num) (by norm_num)

end Verif
