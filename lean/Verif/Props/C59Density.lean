import Verif.Model.DF.Spherical
import Verif.Model.Pot.Ops
import Verif.Util.BetaInt
import Verif.Util.Deriv

set_option autoImplicit false

/-!
# C59: the closed-form spherical distribution functions reproduce their density

The moment of order zero, over all velocities below the escape velocity, is the mass density of
the potential (or of the tracer for the power laws), at every radius.
-/

noncomputable section
open Real MeasureTheory Set

namespace Verif
open Sph

namespace C59aux

theorem iso00 (P : Pot) (phiMax : ℝ) (fE : ℝ → ℝ) (r : ℝ) :
    isoVmoment P phiMax fE r 0 0
      = 4 * π * ∫ v in (0 : ℝ)..√(2 * (phiMax - phi P r)), v ^ 2 * fE (phi P r + v ^ 2 / 2) := by
  have h1 : Gamma (1.5 : ℝ) = 1 / 2 * Gamma 0.5 := by
    rw [show (1.5 : ℝ) = 0.5 + 1 by norm_num, Gamma_add_one (by norm_num)]; norm_num
  have h0 : Gamma (0.5 : ℝ) ≠ 0 := (Gamma_pos_of_pos (by norm_num)).ne'
  have e : ∀ v : ℝ, phi P r + 0.5 * v ^ 2 = phi P r + v ^ 2 / 2 := fun v => by ring
  simp only [isoVmoment, vmaxAtR, e]
  rw [if_neg (by norm_num)]
  simp only [Nat.zero_div, Nat.cast_zero, zero_add, add_zero, Gamma_one, mul_one]
  rw [h1]
  field_simp
  ring

theorem cb00 (P : Pot) (phiMax β : ℝ) (fE : ℝ → ℝ) (r : ℝ) :
    cbVmoment P phiMax β fE r 0 0
      = 2 * π * r ^ (-2 * β) * (∫ v in (0 : ℝ)..√(2 * (phiMax - phi P r)), v ^ (2 - 2 * β) * fE (phi P r + v ^ 2 / 2))
        * (Gamma (1 - β) * √π / Gamma (3 / 2 - β)) := by
  have e : ∀ v : ℝ, phi P r + 0.5 * v ^ 2 = phi P r + v ^ 2 / 2 := fun v => by ring
  simp only [cbVmoment, vmaxAtR, e]
  rw [if_neg (by norm_num)]
  simp only [Nat.cast_zero, add_zero, zero_div, zero_add]
  rw [show 0 - β + 1 = 1 - β by ring, Gamma_one_half_eq, show (0.5 : ℝ) * (0 - 2 * β + 3) = 3 / 2 - β by ring]
  ring

theorem Gamma_three_half : Gamma (3 / 2 : ℝ) = √π / 2 := by
  rw [show (3 / 2 : ℝ) = 1 / 2 + 1 by norm_num, Gamma_add_one (by norm_num), Gamma_one_half_eq]; ring

/-- An energy distribution that is a power of the relative energy `ψ - v²/2` below the escape
velocity. -/
theorem power_speed {fE : ℝ → ℝ} {ψ q n c : ℝ} (hψ : 0 < ψ) (hq : -1 < q) (hn : -1 < n)
    (hf : ∀ v, 0 < v → v ^ 2 < 2 * ψ → fE (-ψ + v ^ 2 / 2) = c * (ψ - v ^ 2 / 2) ^ n) :
    ∫ v in (0 : ℝ)..√(2 * ψ), v ^ q * fE (-ψ + v ^ 2 / 2)
      = c * (2 ^ ((q - 1) / 2) * (ψ ^ ((q + 1) / 2 + n) * B ((q + 1) / 2) (n + 1))) := by
  rw [← speed_beta hq hn hψ, ← intervalIntegral.integral_const_mul]
  refine intervalIntegral.integral_congr_ae ?_
  have hne : ∀ᵐ v : ℝ, v ≠ √(2 * ψ) := by simp [ae_iff]
  filter_upwards [hne] with v hv' hv
  rw [uIoc_of_le (sqrt_nonneg _)] at hv
  have h1 := (lt_sqrt hv.1.le).1 (lt_of_le_of_ne hv.2 hv')
  rw [hf v hv.1 h1]; ring

end C59aux
open C59aux

/-- Plummer. -/
theorem C59_plummer (amp b : ℝ) (ha : 0 < amp) (hb : 0 < b) (r : ℝ) :
    isoVmoment ((Plummer.pot b).scale amp) 0 (PlummerDF.fE amp b) r 0 0
      = ((Plummer.pot b).scale amp).dens r 0 0 0 := by
  have hs : 0 < r ^ 2 + b ^ 2 := by positivity
  have hsq := sqrt_pos.2 hs
  set ψ := amp / √(r ^ 2 + b ^ 2) with hψ
  have hψ0 : 0 < ψ := by positivity
  have hphi : phi ((Plummer.pot b).scale amp) r = -ψ := by
    simp only [phi, Pot.scale, Plummer.pot, Pot.axi, Plummer.evaluate, hψ]
    rw [show r ^ 2 + (0 : ℝ) ^ 2 + b ^ 2 = r ^ 2 + b ^ 2 by ring]; ring
  have hmax : ψ ≤ amp / b := by
    rw [hψ]
    gcongr
    exact le_sqrt_of_sq_le (by nlinarith [sq_nonneg r])
  rw [iso00, hphi, zero_sub, neg_neg]
  have h2 : ∀ v : ℝ, v ^ 2 = v ^ (2 : ℝ) := fun v => (rpow_two v).symm
  have key := power_speed (fE := PlummerDF.fE amp b) (c := PlummerDF.norm amp b) (q := 2) (n := 7 / 2) hψ0 (by norm_num) (by norm_num) (by
    intro v hv hlt
    rw [PlummerDF.fE]
    rw [if_pos ⟨by linarith, by nlinarith⟩, show (3.5 : ℝ) = 7 / 2 by norm_num]
    congr 2; ring)
  simp only [rpow_two] at key
  rw [key]
  have hG : Gamma (9 / 2 : ℝ) = 105 / 16 * √π := by
    rw [show (9 / 2 : ℝ) = 7 / 2 + 1 by norm_num, Gamma_add_one (by norm_num),
      show (7 / 2 : ℝ) = 5 / 2 + 1 by norm_num, Gamma_add_one (by norm_num),
      show (5 / 2 : ℝ) = 3 / 2 + 1 by norm_num, Gamma_add_one (by norm_num), Gamma_three_half]
    ring
  have hG6 : Gamma (6 : ℝ) = 120 := by
    rw [show (6 : ℝ) = ((5 : ℕ) : ℝ) + 1 by norm_num, Gamma_nat_eq_factorial]; norm_num [Nat.factorial]
  have hB : B ((2 + 1) / 2) (7 / 2 + 1) = 7 * π / 256 := by
    rw [B, show ((2 + 1) / 2 : ℝ) = 3 / 2 by norm_num, show (7 / 2 + 1 : ℝ) = 9 / 2 by norm_num,
      show (3 / 2 + 9 / 2 : ℝ) = 6 by norm_num, hG, hG6, Gamma_three_half]
    have := mul_self_sqrt pi_pos.le
    linear_combination (7 / 256) * this
  have h5 : ψ ^ ((2 + 1) / 2 + 7 / 2 : ℝ) = ψ ^ 5 := by
    rw [show ((2 + 1) / 2 + 7 / 2 : ℝ) = ((5 : ℕ) : ℝ) by norm_num, rpow_natCast]
  have hs2 : (2 : ℝ) ^ ((2 - 1) / 2 : ℝ) = √2 := by
    rw [sqrt_eq_rpow]; norm_num
  have hd : (r ^ 2 + 0 ^ 2 + b ^ 2) ^ (-(5 / 2) : ℝ) = 1 / √(r ^ 2 + b ^ 2) ^ 5 := by
    rw [show r ^ 2 + (0 : ℝ) ^ 2 + b ^ 2 = r ^ 2 + b ^ 2 by ring, rpow_neg hs.le, sqrt_eq_rpow, one_div]
    congr 1
    rw [← rpow_natCast (_ ^ (1 / 2 : ℝ)), ← rpow_mul hs.le]
    norm_num
  rw [hB, h5, hs2, PlummerDF.norm]
  simp only [Pot.scale, Plummer.pot, Pot.axi, Plummer.dens]
  rw [hd, hψ, div_pow]
  have h22 : √2 * √2 = 2 := mul_self_sqrt (by norm_num)
  have hπ := pi_pos.ne'
  generalize √(r ^ 2 + b ^ 2) = w at *
  field_simp
  linear_combination (384 : ℝ) * h22

/-- The Plummer distribution function is never negative and vanishes exactly for unbound energies
and energies below the bottom of the potential. -/
theorem C59_plummer_sign (amp b : ℝ) (ha : 0 < amp) (hb : 0 < b) (E : ℝ) :
    0 ≤ PlummerDF.fE amp b E ∧
      (PlummerDF.fE amp b E ≠ 0 ↔ E < 0 ∧ ((Plummer.pot b).scale amp).val 0 0 0 0 ≤ E) := by
  have hn : 0 < PlummerDF.norm amp b := by
    rw [PlummerDF.norm]; have := pi_pos; positivity
  have h0 : ((Plummer.pot b).scale amp).val 0 0 0 0 = -(amp / b) := by
    simp only [Pot.scale, Plummer.pot, Pot.axi, Plummer.evaluate]
    rw [show (0 : ℝ) ^ 2 + 0 ^ 2 + b ^ 2 = b ^ 2 by ring, sqrt_sq hb.le]; ring
  simp only [PlummerDF.fE]
  rw [h0]
  split_ifs with h
  · have hp : 0 < PlummerDF.norm amp b * (-E) ^ (3.5 : ℝ) := mul_pos hn (rpow_pos_of_pos h.1 _)
    refine ⟨hp.le, fun _ => ⟨by linarith [h.1], by linarith [h.2]⟩, fun _ => hp.ne'⟩
  · refine ⟨le_refl _, fun h' => absurd rfl h', fun h' => absurd ⟨?_, ?_⟩ h⟩
    · linarith [h'.1]
    · linarith [h'.2]

theorem C59aux.power_phi (amp α : ℝ) (hα : 2 < α) {r : ℝ} (hr : 0 < r) :
    phi ((PowerSpherical.pot α).scale amp) r = -(PowerDF.C amp α * r ^ (2 - α)) := by
  simp only [phi, Pot.scale, PowerSpherical.pot, Pot.axi, PowerSpherical.evaluate, PowerDF.C]
  rw [if_neg hα.ne', show r ^ 2 + (0 : ℝ) ^ 2 = r ^ (2 : ℝ) by rw [rpow_two]; ring, ← rpow_mul hr.le,
    show 2 * (1 - α / 2) = 2 - α by ring]
  ring

theorem C59aux.power_dens (ampd γ : ℝ) {r : ℝ} (hr : 0 < r) :
    ((PowerSpherical.pot γ).scale ampd).dens r 0 0 0 = PowerDF.nu0 ampd γ * r ^ (-γ) := by
  simp only [Pot.scale, PowerSpherical.pot, Pot.axi, PowerSpherical.dens, PowerDF.nu0]
  rw [show r ^ 2 + (0 : ℝ) ^ 2 = r ^ 2 by ring, sqrt_sq hr.le, rpow_neg hr.le]
  ring

/-- Power-law tracer in a power-law potential, isotropic; `α` and `γ` as the constructor accepts
them. -/
theorem C59_powerlaw (amp α ampd γ : ℝ) (ha : 0 < amp) (hα : 2 < α) (hγ : (α - 2) / 2 < γ) {r : ℝ} (hr : 0 < r) :
    isoVmoment ((PowerSpherical.pot α).scale amp) 0 (PowerDF.fE amp α ampd γ) r 0 0
      = ((PowerSpherical.pot γ).scale ampd).dens r 0 0 0 := by
  have hC : 0 < PowerDF.C amp α := div_pos ha (by linarith)
  have hα2 : 0 < α - 2 := by linarith
  have hs : 1 / 2 < PowerDF.s α γ := by rw [PowerDF.s, lt_div_iff₀ hα2]; linarith
  have hψ0 : 0 < PowerDF.C amp α * r ^ (2 - α) := mul_pos hC (rpow_pos_of_pos hr _)
  rw [iso00, C59aux.power_phi amp α hα hr, C59aux.power_dens ampd γ hr, zero_sub, neg_neg]
  set ψ := PowerDF.C amp α * r ^ (2 - α) with hψ
  have key := power_speed (fE := PowerDF.fE amp α ampd γ) (c := PowerDF.norm amp α ampd γ) (q := 2)
    (n := PowerDF.s α γ - 3 / 2) hψ0 (by norm_num) (by linarith) (by
    intro v hv hlt
    rw [PowerDF.fE]
    rw [if_pos (by linarith), show (1.5 : ℝ) = 3 / 2 by norm_num]
    congr 2; ring)
  simp only [rpow_two] at key
  rw [key, B, PowerDF.norm, show (2 + 1) / 2 + (PowerDF.s α γ - 3 / 2) = PowerDF.s α γ by ring,
    show ((2 + 1) / 2 : ℝ) = 3 / 2 by norm_num, Gamma_three_half,
    show PowerDF.s α γ - 3 / 2 + 1 = PowerDF.s α γ - 1 / 2 by ring,
    show (3 / 2 : ℝ) + (PowerDF.s α γ - 1 / 2) = PowerDF.s α γ + 1 by ring,
    show PowerDF.s α γ - 0.5 = PowerDF.s α γ - 1 / 2 by norm_num, hψ, mul_rpow hC.le (rpow_nonneg hr.le _),
    ← rpow_mul hr.le, show (2 - α) * PowerDF.s α γ = -γ by rw [PowerDF.s]; field_simp; ring]
  have hs2 : (2 : ℝ) ^ ((2 - 1) / 2 : ℝ) = √2 := by rw [sqrt_eq_rpow]; norm_num
  have hp : π ^ (1.5 : ℝ) = π * √π := by
    rw [sqrt_eq_rpow, show (1.5 : ℝ) = 1 + 1 / 2 by norm_num, rpow_add pi_pos, rpow_one]
  have g1 := (Gamma_pos_of_pos (show 0 < PowerDF.s α γ + 1 by linarith)).ne'
  have g2 := (Gamma_pos_of_pos (show 0 < PowerDF.s α γ - 1 / 2 by linarith)).ne'
  have g3 := (rpow_pos_of_pos hC (PowerDF.s α γ)).ne'
  have g4 := (sqrt_pos.2 pi_pos).ne'
  have g5 : √2 ≠ 0 := by positivity
  rw [hs2, hp]
  generalize Gamma (PowerDF.s α γ - 1 / 2) = G at *
  field_simp
  try ring

example : ∃ α γ : ℝ, 2 < α ∧ (α - 2) / 2 < γ ∧ γ < 3 := ⟨2.5, 1, by norm_num, by norm_num, by norm_num⟩

/-- The same with a constant anisotropy `β`, for the parameters the constructor accepts. -/
theorem C59_powerlaw_beta (amp α ampd γ β : ℝ) (ha : 0 < amp) (hα : 2 < α) (hβ : β < 1)
    (hn : -1 < PowerDF.n α γ β) {r : ℝ} (hr : 0 < r) :
    cbVmoment ((PowerSpherical.pot α).scale amp) 0 β (PowerDF.fEBeta amp α ampd γ β) r 0 0
      = ((PowerSpherical.pot γ).scale ampd).dens r 0 0 0 := by
  have hC : 0 < PowerDF.C amp α := div_pos ha (by linarith)
  have hα2 : 0 < α - 2 := by linarith
  have hψ0 : 0 < PowerDF.C amp α * r ^ (2 - α) := mul_pos hC (rpow_pos_of_pos hr _)
  rw [cb00, C59aux.power_phi amp α hα hr, C59aux.power_dens ampd γ hr, zero_sub, neg_neg]
  set ψ := PowerDF.C amp α * r ^ (2 - α) with hψ
  have hpn : (2 - 2 * β + 1) / 2 + PowerDF.n α γ β = PowerDF.p α γ β := by rw [PowerDF.n]; norm_num; ring
  have hp0 : 0 < PowerDF.p α γ β + 1 := by rw [← hpn]; linarith
  rw [power_speed (fE := PowerDF.fEBeta amp α ampd γ β) (c := PowerDF.normBeta amp α ampd γ β) (q := 2 - 2 * β)
    (n := PowerDF.n α γ β) hψ0 (by linarith) hn (by
    intro v hv hlt
    rw [PowerDF.fEBeta]
    rw [if_pos (by linarith)]
    congr 2; ring), B, hpn, PowerDF.normBeta, hψ, mul_rpow hC.le (rpow_nonneg hr.le _),
    ← rpow_mul hr.le, show (2 - α) * PowerDF.p α γ β = -γ + 2 * β by rw [PowerDF.p]; field_simp; ring,
    rpow_add hr]
  rw [show (2 - 2 * β + 1) / 2 + (PowerDF.n α γ β + 1) = PowerDF.p α γ β + 1 by rw [← hpn]; ring,
    show (2 - 2 * β + 1) / 2 = 3 / 2 - β by ring, show (2 - 2 * β - 1) / 2 = 1 / 2 - β by ring]
  have hs2 : (2 : ℝ) ^ (1 / 2 - β) = √2 / 2 ^ β := by rw [sqrt_eq_rpow, rpow_sub two_pos]
  have hp : (2 * π) ^ (1.5 : ℝ) = 2 * π * (√2 * √π) := by
    rw [← sqrt_mul two_pos.le, sqrt_eq_rpow, show (1.5 : ℝ) = 1 + 1 / 2 by norm_num, rpow_add (by positivity), rpow_one]
  have hrb : r ^ (-2 * β) * r ^ (2 * β) = 1 := by rw [← rpow_add hr]; norm_num
  have g1 := (Gamma_pos_of_pos hp0).ne'
  have g2 := (Gamma_pos_of_pos (show 0 < PowerDF.n α γ β + 1 by linarith)).ne'
  have g3 := (rpow_pos_of_pos hC (PowerDF.p α γ β)).ne'
  have g4 := (sqrt_pos.2 pi_pos).ne'
  have g5 : √2 ≠ 0 := by positivity
  have g6 := (Gamma_pos_of_pos (show 0 < 1 - β by linarith)).ne'
  have g7 := (Gamma_pos_of_pos (show 0 < 3 / 2 - β by linarith)).ne'
  have g8 := (rpow_pos_of_pos two_pos β).ne'
  rw [hs2, hp]
  generalize Gamma (3 / 2 - β) = G at *
  generalize r ^ (-2 * β) = X at *
  generalize r ^ (2 * β) = Y at *
  field_simp
  linear_combination PowerDF.nu0 ampd γ * hrb

example : ∃ α γ β : ℝ, 2 < α ∧ β < 1 ∧ -1 < PowerDF.n α γ β :=
  ⟨2.5, 2, 1 / 2, by norm_num, by norm_num, by norm_num [PowerDF.n, PowerDF.p]⟩

/-! ## Hernquist with `β = ±1/2` -/

namespace C59aux

/-- The relative potential of the Hernquist sphere in units of its central value. -/
def hx (a r : ℝ) : ℝ := a / (a + r)

theorem hern_psi0 {amp a : ℝ} (ha : 0 < a) : HernquistDF.psi0 amp a = amp / (2 * a) := by
  rw [HernquistDF.psi0, Hernquist.evaluate]
  norm_num
  field_simp

theorem hern_phi {amp a r : ℝ} (ha : 0 < a) (hr : 0 ≤ r) :
    phi ((Hernquist.pot a).scale amp) r = -(HernquistDF.psi0 amp a * hx a r) := by
  rw [hern_psi0 ha, hx]
  simp only [phi, Pot.scale, Hernquist.pot, Pot.axi, Hernquist.evaluate]
  rw [show r ^ 2 + (0 : ℝ) ^ 2 = r ^ 2 by ring, sqrt_sq hr]
  have : 0 < a + r := by linarith
  field_simp

theorem hern_dens {amp a r : ℝ} (ha : 0 < a) (hr : 0 < r) :
    ((Hernquist.pot a).scale amp).dens r 0 0 0 = amp * a / (4 * π * r * (a + r) ^ 3) := by
  simp only [Pot.scale, Hernquist.pot, Pot.axi, Hernquist.dens, Dehnen.dens]
  rw [show r ^ 2 + (0 : ℝ) ^ 2 = r ^ 2 by ring, sqrt_sq hr.le, rpow_one, show (4 : ℝ) - 1 = ((3 : ℕ) : ℝ) by norm_num,
    rpow_natCast]
  have : 0 < a + r := by linarith
  field_simp

theorem hx_mem {a r : ℝ} (ha : 0 < a) (hr : 0 < r) : 0 < hx a r ∧ hx a r < 1 := by
  have : 0 < a + r := by linarith
  exact ⟨div_pos ha this, by rw [hx, div_lt_one this]; linarith⟩

/-- The relative energy in the integrals below is between zero and one. -/
theorem hern_E {amp a r v : ℝ} (hm : 0 < amp) (ha : 0 < a) (hr : 0 < r)
    (hv : v ^ 2 < 2 * (HernquistDF.psi0 amp a * hx a r)) :
    ¬(-((-(HernquistDF.psi0 amp a * hx a r) + v ^ 2 / 2) / HernquistDF.psi0 amp a) < 0 ∨
      1 < -((-(HernquistDF.psi0 amp a * hx a r) + v ^ 2 / 2) / HernquistDF.psi0 amp a)) := by
  have hp : 0 < HernquistDF.psi0 amp a := by rw [hern_psi0 ha]; positivity
  have hx' := hx_mem ha hr
  rw [← neg_div, not_or, not_lt, not_lt]
  refine ⟨div_nonneg (by linarith) hp.le, ?_⟩
  rw [div_le_one hp]
  nlinarith [sq_nonneg v]

end C59aux

/-- Constant-anisotropy Hernquist, `β = 1/2`. -/
theorem C59_hernquist_half (amp a : ℝ) (hm : 0 < amp) (ha : 0 < a) {r : ℝ} (hr : 0 < r) :
    cbVmoment ((Hernquist.pot a).scale amp) 0 (1 / 2) (HernquistDF.fEhalf amp a) r 0 0
      = ((Hernquist.pot a).scale amp).dens r 0 0 0 := by
  have hp : 0 < HernquistDF.psi0 amp a := by rw [hern_psi0 ha]; positivity
  have hx' := hx_mem ha hr
  have har : 0 < a + r := by linarith
  have hψ0 : 0 < HernquistDF.psi0 amp a * hx a r := mul_pos hp hx'.1
  rw [cb00, hern_phi ha hr.le, hern_dens ha hr, zero_sub, neg_neg,
    power_speed (fE := HernquistDF.fEhalf amp a) (c := 3 / (4 * π ^ 3 * a) / HernquistDF.psi0 amp a ^ 2)
      (q := 2 - 2 * (1 / 2)) (n := 2) hψ0 (by norm_num) (by norm_num) (by
        intro v hv hlt
        rw [HernquistDF.fEhalf]
        rw [if_neg (hern_E hm ha hr hlt), rpow_two]
        field_simp
        ring), B]
  rw [show (2 - 2 * (1 / 2) + 1 : ℝ) / 2 = 1 by norm_num, show (2 - 2 * (1 / 2) - 1 : ℝ) / 2 = 0 by norm_num, rpow_zero,
    Gamma_one, show (2 : ℝ) + 1 = ((2 : ℕ) : ℝ) + 1 by norm_num, Gamma_nat_eq_factorial,
    show (1 : ℝ) + (((2 : ℕ) : ℝ) + 1) = ((3 : ℕ) : ℝ) + 1 by norm_num, Gamma_nat_eq_factorial,
    show (1 : ℝ) + 2 = ((3 : ℕ) : ℝ) by norm_num, rpow_natCast, show (1 : ℝ) - 1 / 2 = 1 / 2 by norm_num,
    show (3 / 2 : ℝ) - 1 / 2 = 1 by norm_num, Gamma_one, Gamma_one_half_eq,
    show (-2 * (1 / 2) : ℝ) = -1 by norm_num, rpow_neg_one, hern_psi0 ha, hx]
  have h2 := mul_self_sqrt pi_pos.le
  norm_num [Nat.factorial]
  field_simp
  rw [sq_sqrt pi_pos.le]

/-- Constant-anisotropy Hernquist, `β = -1/2`. -/
theorem C59_hernquist_minus_half (amp a : ℝ) (hm : 0 < amp) (ha : 0 < a) {r : ℝ} (hr : 0 < r) :
    cbVmoment ((Hernquist.pot a).scale amp) 0 (-1 / 2) (HernquistDF.fEmhalf amp a) r 0 0
      = ((Hernquist.pot a).scale amp).dens r 0 0 0 := by
  have hp : 0 < HernquistDF.psi0 amp a := by rw [hern_psi0 ha]; positivity
  obtain ⟨hx0, hx1⟩ := hx_mem ha hr
  have har : 0 < a + r := by linarith
  set p := HernquistDF.psi0 amp a with hpdef
  set x := hx a r with hxdef
  have hψ0 : 0 < p * x := mul_pos hp hx0
  rw [cb00, hern_phi ha hr.le, hern_dens ha hr, zero_sub, neg_neg, ← hpdef, ← hxdef]
  have e1 : ∫ v in (0 : ℝ)..√(2 * (p * x)), v ^ (2 - 2 * (-1 / 2) : ℝ) * HernquistDF.fEmhalf amp a (-(p * x) + v ^ 2 / 2)
      = ∫ y in (0 : ℝ)..(p * x), 2 * y * HernquistDF.fEmhalf amp a (-(p * x) + y) := by
    rw [← speed_subst hψ0.le]
    refine intervalIntegral.integral_congr fun v _ => ?_
    beta_reduce
    rw [show (2 - 2 * (-1 / 2) : ℝ) = ((3 : ℕ) : ℝ) by norm_num, rpow_natCast]
    ring
  have e2 : ∫ y in (0 : ℝ)..(p * x), 2 * y * HernquistDF.fEmhalf amp a (-(p * x) + y)
      = ∫ u in (0 : ℝ)..x, (2 * p ^ 2 / (4 * π ^ 3 * HernquistDF.GMa amp a * a))
        * ((x - u) * ((20 * u ^ 3 - 20 * u ^ 4 + 6 * u ^ 5) / (1 - u) ^ 4)) := by
    have := intervalIntegral.integral_comp_sub_mul (a := 0) (b := x)
      (fun y => 2 * y * HernquistDF.fEmhalf amp a (-(p * x) + y)) hp.ne' (p * x)
    rw [mul_zero, sub_zero, sub_self, smul_eq_mul] at this
    rw [← mul_inv_cancel_left₀ hp.ne' (∫ y in (0 : ℝ)..(p * x), _), ← this, ← intervalIntegral.integral_const_mul]
    refine intervalIntegral.integral_congr fun u hu => ?_
    rw [uIcc_of_le hx0.le] at hu
    have hEt : -((-(p * x) + (p * x - p * u)) / HernquistDF.psi0 amp a) = u := by rw [← hpdef]; field_simp; ring
    simp only [HernquistDF.fEmhalf, hEt]
    rw [if_neg (by rintro (h | h) <;> linarith [hu.1, hu.2])]
    have : 0 < 1 - u := by linarith [hu.2]
    field_simp
  have e3 : ∫ u in (0 : ℝ)..x, (x - u) * ((20 * u ^ 3 - 20 * u ^ 4 + 6 * u ^ 5) / (1 - u) ^ 4) = x ^ 5 / (1 - x) ^ 2 := by
    have hd : ∀ u ∈ uIcc 0 x, HasDerivAt (fun u => (x - u) * ((5 * u ^ 4 - 3 * u ^ 5) / (1 - u) ^ 3) + u ^ 5 / (1 - u) ^ 2)
        ((x - u) * ((20 * u ^ 3 - 20 * u ^ 4 + 6 * u ^ 5) / (1 - u) ^ 4)) u := by
      intro u hu
      rw [uIcc_of_le hx0.le] at hu
      have h1 : 1 - u ≠ 0 := by linarith [hu.2]
      have h2 := pow_ne_zero 2 h1
      have h3 := pow_ne_zero 3 h1
      refine HasDerivAt.congr_deriv (by hasderiv) ?_
      simp only [Nat.cast_ofNat, Nat.add_one_sub_one, pow_one]
      field_simp
      ring
    rw [intervalIntegral.integral_eq_sub_of_hasDerivAt hd]
    · simp
    · refine ContinuousOn.intervalIntegrable ?_
      refine ContinuousOn.mul (by fun_prop) (ContinuousOn.div (by fun_prop) (by fun_prop) ?_)
      intro u hu
      rw [uIcc_of_le hx0.le] at hu
      exact pow_ne_zero _ (by linarith [hu.2])
  rw [e1, e2, intervalIntegral.integral_const_mul, e3, HernquistDF.GMa, ← hpdef]
  rw [show (1 : ℝ) - -1 / 2 = 3 / 2 by norm_num, Gamma_three_half, show (3 / 2 : ℝ) - -1 / 2 = 1 + 1 by norm_num,
    Gamma_add_one one_ne_zero, Gamma_one, show (-2 * (-1 / 2) : ℝ) = 1 by norm_num, rpow_one]
  have h1x : 1 - x = r / (a + r) := by rw [hxdef, hx]; field_simp; ring
  rw [h1x, hpdef, hern_psi0 ha, hxdef, hx]
  field_simp
  rw [sq_sqrt pi_pos.le]

end Verif
