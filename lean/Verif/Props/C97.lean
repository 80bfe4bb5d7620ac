import Verif.Model.DF.OMPower
import Verif.Props.C59
import Verif.Props.C59Density
import Verif.Props.C59OM
import Mathlib.Analysis.SpecialFunctions.Integrability.Basic
import Mathlib.MeasureTheory.Function.Jacobian

set_option autoImplicit false

/-!
# C97: Osipkov-Merritt distribution functions of power laws

The density of the stars is the integral of the distribution function over all velocities, `C59Spec.moment`.  It is the density of the tracer
where the tracer is steep enough, `γ > α/2 + 1` (always when the tracer generates the potential); the constructor asks for `γ > α/2` only, and
between the two the distribution function is negative and its integral over velocity does not exist.
-/

noncomputable section
open Real MeasureTheory Set Filter Topology

namespace Verif
open Sph C59aux C59Spec OMPower

namespace C97aux

/-- The constant that goes with `ν r^((2-α)s)`. -/
def A (ν C s : ℝ) : ℝ := ν / C ^ s * Gamma (s + 1) / (eddNorm * Gamma (s - 0.5))
/-- One term of the distribution function. -/
def T (c n Q : ℝ) : ℝ := if 0 < Q then c * Q ^ n else 0

theorem A2_eq (amp α ampd γ ra : ℝ) : A2 amp α ampd γ ra = A (PowerDF.nu0 ampd γ / ra ^ 2) (PowerDF.C amp α) (s2 α γ) := by
  rw [A2, A, div_div]
theorem A1_eq (amp α ampd γ : ℝ) : A1 amp α ampd γ = A (PowerDF.nu0 ampd γ) (PowerDF.C amp α) (s1 α γ) := rfl

theorem fQ_eq (amp α ampd γ ra Q : ℝ) :
    fQ amp α ampd γ ra Q = T (A1 amp α ampd γ) (s1 α γ - 3 / 2) Q + T (A2 amp α ampd γ ra) (s2 α γ - 3 / 2) Q := by
  rw [fQ, T, T, show (1.5 : ℝ) = 3 / 2 by norm_num]
  split_ifs <;> simp

theorem edd : eddNorm = 2 * √2 * (π * √π) := by
  rw [eddNorm, sqrt_eq_rpow π, show (1.5 : ℝ) = 1 + 1 / 2 by norm_num, rpow_add pi_pos, rpow_one]
theorem edd_pos : 0 < eddNorm := by rw [edd]; have := pi_pos; positivity

theorem A_pos {ν C s : ℝ} (hν : 0 < ν) (hC : 0 < C) (hs : 1 / 2 < s) : 0 < A ν C s := by
  have h1 := Gamma_pos_of_pos (show 0 < s + 1 by linarith)
  have h2 := Gamma_pos_of_pos (show 0 < s - 0.5 by norm_num; linarith)
  have h3 := rpow_pos_of_pos hC s
  have h4 := edd_pos
  rw [A]; positivity

theorem speed {ψ : ℝ} (hψ : 0 < ψ) {c s : ℝ} (hs : 1 / 2 < s) {q : ℝ} (hq : -1 < q) :
    ∫ v in (0 : ℝ)..√(2 * ψ), v ^ q * T c (s - 3 / 2) (ψ - v ^ 2 / 2)
      = c * (2 ^ ((q - 1) / 2) * (ψ ^ ((q + 1) / 2 + (s - 3 / 2)) * B ((q + 1) / 2) (s - 3 / 2 + 1))) := by
  have h := power_speed (fE := fun E => T c (s - 3 / 2) (-E)) (c := c) (q := q) (n := s - 3 / 2) hψ hq (by linarith) (by
    intro v _ hlt
    rw [T, if_pos (by linarith), show -(-ψ + v ^ 2 / 2) = ψ - v ^ 2 / 2 by ring])
  rw [← h]
  refine intervalIntegral.integral_congr fun v _ => ?_
  rw [show ψ - v ^ 2 / 2 = -(-ψ + v ^ 2 / 2) by ring]

theorem speed_ne {ψ : ℝ} (hψ : 0 < ψ) {c s : ℝ} (hc : 0 < c) (hs : 1 / 2 < s) {q : ℝ} (hq : -1 < q) :
    0 < ∫ v in (0 : ℝ)..√(2 * ψ), v ^ q * T c (s - 3 / 2) (ψ - v ^ 2 / 2) := by
  rw [speed hψ hs hq]
  have := B_pos (show 0 < (q + 1) / 2 by linarith) (show 0 < s - 3 / 2 + 1 by linarith)
  positivity

theorem speed_int {ψ : ℝ} (hψ : 0 < ψ) {c s : ℝ} (hc : 0 < c) (hs : 1 / 2 < s) {q : ℝ} (hq : -1 < q) :
    IntervalIntegrable (fun v => v ^ q * T c (s - 3 / 2) (ψ - v ^ 2 / 2)) volume 0 √(2 * ψ) := by
  by_contra h
  have := speed_ne hψ hc hs hq
  rw [intervalIntegral.integral_undef h] at this
  exact lt_irrefl _ this

theorem speed2 {ν C ψ s : ℝ} (hC : 0 < C) (hψ : 0 < ψ) (hs : 1 / 2 < s) :
    4 * π * ∫ v in (0 : ℝ)..√(2 * ψ), v ^ (2 : ℝ) * T (A ν C s) (s - 3 / 2) (ψ - v ^ 2 / 2) = ν * (ψ / C) ^ s := by
  rw [speed hψ hs (by norm_num), A, edd, B, show (2 + 1) / 2 + (s - 3 / 2) = s by ring, show ((2 + 1) / 2 : ℝ) = 3 / 2 by norm_num,
    Gamma_three_half, show s - 3 / 2 + 1 = s - 1 / 2 by ring, show (3 / 2 : ℝ) + (s - 1 / 2) = s + 1 by ring,
    show s - 0.5 = s - 1 / 2 by norm_num, div_rpow hψ.le hC.le]
  have hs2 : (2 : ℝ) ^ ((2 - 1) / 2 : ℝ) = √2 := by rw [sqrt_eq_rpow]; norm_num
  have g1 := (Gamma_pos_of_pos (show 0 < s + 1 by linarith)).ne'
  have g2 := (Gamma_pos_of_pos (show 0 < s - 1 / 2 by linarith)).ne'
  have g3 := (rpow_pos_of_pos hC s).ne'
  have g4 := (sqrt_pos.2 pi_pos).ne'
  have g5 : √2 ≠ 0 := by positivity
  have g6 := pi_pos.ne'
  rw [hs2]
  generalize Gamma (s - 1 / 2) = G at *
  field_simp
  try ring

theorem T_meas (c n : ℝ) : Measurable (T c n) :=
  Measurable.ite measurableSet_Ioi (measurable_const.mul (measurable_id.pow_const n)) measurable_const

end C97aux
open C97aux

namespace C97aux

variable {amp α ampd γ ra : ℝ}

theorem C_pos (ha : 0 < amp) (hα : 2 < α) : 0 < PowerDF.C amp α := div_pos ha (by linarith)
theorem nu_pos (hd : 0 < ampd) (hγ : γ < 3) : 0 < PowerDF.nu0 ampd γ := by
  rw [PowerDF.nu0]; have := pi_pos; have : 0 < 3 - γ := by linarith
  positivity
theorem s1_gt (hα : 2 < α) (hγ : α / 2 < γ) : 1 / 2 < s1 α γ := by
  rw [s1, lt_div_iff₀ (by linarith)]; linarith
theorem s2_gt (hα : 2 < α) (hγ : α / 2 + 1 < γ) : 1 / 2 < s2 α γ := by
  rw [s2, lt_div_iff₀ (by linarith)]; linarith
theorem A1_pos (ha : 0 < amp) (hd : 0 < ampd) (h : accepts α γ) : 0 < A1 amp α ampd γ :=
  A_pos (nu_pos hd h.2.2) (C_pos ha h.1) (s1_gt h.1 h.2.1)
theorem A2_pos (ha : 0 < amp) (hd : 0 < ampd) (hra : ra ≠ 0) (h : accepts α γ) (hγ : α / 2 + 1 < γ) : 0 < A2 amp α ampd γ ra := by
  rw [A2_eq]
  have := nu_pos hd h.2.2
  exact A_pos (by positivity) (C_pos ha h.1) (s2_gt h.1 hγ)

theorem psi_pos (ha : 0 < amp) (hα : 2 < α) {r : ℝ} (hr : 0 < r) : 0 < PowerDF.C amp α * r ^ (2 - α) :=
  mul_pos (C_pos ha hα) (rpow_pos_of_pos hr _)

theorem vmax (hα : 2 < α) {r : ℝ} (hr : 0 < r) :
    vmaxAtR ((PowerSpherical.pot α).scale amp) 0 r = √(2 * (PowerDF.C amp α * r ^ (2 - α))) := by
  rw [vmaxAtR, power_phi amp α hα hr, zero_sub, neg_neg]

theorem sum_int (ha : 0 < amp) (hd : 0 < ampd) (hra : ra ≠ 0) (h : accepts α γ) (hγ : α / 2 + 1 < γ) {ψ : ℝ} (hψ : 0 < ψ) {q : ℝ} (hq : -1 < q) :
    IntervalIntegrable (fun v => v ^ q * fQ amp α ampd γ ra (ψ - v ^ 2 / 2)) volume 0 √(2 * ψ) ∧
      ∫ v in (0 : ℝ)..√(2 * ψ), v ^ q * fQ amp α ampd γ ra (ψ - v ^ 2 / 2)
        = (∫ v in (0 : ℝ)..√(2 * ψ), v ^ q * T (A1 amp α ampd γ) (s1 α γ - 3 / 2) (ψ - v ^ 2 / 2))
          + ∫ v in (0 : ℝ)..√(2 * ψ), v ^ q * T (A2 amp α ampd γ ra) (s2 α γ - 3 / 2) (ψ - v ^ 2 / 2) := by
  have h1 := speed_int hψ (A1_pos ha hd h) (s1_gt h.1 h.2.1) hq
  have h2 := speed_int hψ (A2_pos ha hd hra h hγ) (s2_gt h.1 hγ) hq
  have e : (fun v : ℝ => v ^ q * fQ amp α ampd γ ra (ψ - v ^ 2 / 2)) = fun v => v ^ q * T (A1 amp α ampd γ) (s1 α γ - 3 / 2) (ψ - v ^ 2 / 2)
      + v ^ q * T (A2 amp α ampd γ ra) (s2 α γ - 3 / 2) (ψ - v ^ 2 / 2) := by
    funext v; rw [fQ_eq, mul_add]
  rw [e]
  exact ⟨h1.add h2, intervalIntegral.integral_add h1 h2⟩

theorem om (hα : 2 < α) {r : ℝ} (hr : 0 < r) (fQ : ℝ → ℝ) :
    omVmoment ((PowerSpherical.pot α).scale amp) 0 ra fQ r 0 0
      = 4 * π * (∫ v in (0 : ℝ)..√(2 * (PowerDF.C amp α * r ^ (2 - α))), v ^ (2 : ℝ) * fQ (PowerDF.C amp α * r ^ (2 - α) - v ^ 2 / 2))
        / (1 + r ^ 2 / ra ^ 2) := by
  rw [om_iso, iso00, power_phi amp α hα hr, zero_sub, neg_neg]
  congr 2
  refine intervalIntegral.integral_congr fun v _ => ?_
  simp only [rpow_two]
  congr 2; ring

theorem psi_pow (ha : 0 < amp) (hα : 2 < α) {r : ℝ} (hr : 0 < r) (s : ℝ) :
    (PowerDF.C amp α * r ^ (2 - α) / PowerDF.C amp α) ^ s = r ^ ((2 - α) * s) := by
  rw [mul_div_cancel_left₀ _ (C_pos ha hα).ne', ← rpow_mul hr.le]

end C97aux

/-- The integral over all velocities of the distribution function is the density of the tracer, at every radius.  Missing: tracers with
`α/2 < γ ≤ α/2 + 1`, which the constructor accepts and for which this is false, see below. -/
theorem C97_density_partial {amp α ampd γ ra : ℝ} (ha : 0 < amp) (hd : 0 < ampd) (hra : ra ≠ 0) (h : accepts α γ) (hγ : α / 2 + 1 < γ) {r : ℝ} (hr : 0 < r) :
    let P := (PowerSpherical.pot α).scale amp;
    let ν := ((PowerSpherical.pot γ).scale ampd).dens r 0 0 0;
    omVmoment P 0 ra (fQ amp α ampd γ ra) r 0 0 = ν ∧
      moment (fun E L => fQ amp α ampd γ ra (-E - L ^ 2 / (2 * ra ^ 2))) (phi P r) (vmaxAtR P 0 r) r 0 0 = ν := by
  intro P ν
  have hα := h.1
  have hψ := psi_pos ha hα hr
  have key : omVmoment P 0 ra (fQ amp α ampd γ ra) r 0 0 = ν := by
    rw [om hα hr, (sum_int ha hd hra h hγ hψ (by norm_num : (-1 : ℝ) < 2)).2, mul_add, A1_eq, A2_eq,
      speed2 (C_pos ha hα) hψ (s1_gt hα h.2.1), speed2 (C_pos ha hα) hψ (s2_gt hα hγ), psi_pow ha hα hr, psi_pow ha hα hr]
    have h2 : α - 2 ≠ 0 := by linarith
    rw [show (2 - α) * s1 α γ = -γ by rw [s1]; field_simp; ring, show (2 - α) * s2 α γ = -γ + 2 by rw [s2]; field_simp; ring,
      rpow_add hr, rpow_two]
    have hk : 0 < 1 + r ^ 2 / ra ^ 2 := by positivity
    rw [div_eq_iff hk.ne', show ν = PowerDF.nu0 ampd γ * r ^ (-γ) from power_dens ampd γ hr]
    ring
  refine ⟨key, ?_⟩
  rw [← C59_osipkovmerritt_moment P 0 ra hra (fQ amp α ampd γ ra) ?_ ?_ r ?_ 0 0 (by decide) ?_, key]
  · have : fQ amp α ampd γ ra = fun Q => T (A1 amp α ampd γ) (s1 α γ - 3 / 2) Q + T (A2 amp α ampd γ ra) (s2 α γ - 3 / 2) Q :=
      funext (fQ_eq amp α ampd γ ra)
    rw [this]
    exact (T_meas _ _).add (T_meas _ _)
  · intro Q hQ
    rw [fQ, if_neg (by linarith)]
  · rw [power_phi amp α hα hr]; linarith
  · rw [vmax hα hr, power_phi amp α hα hr, neg_neg]
    have := (sum_int ha hd hra h hγ hψ (by norm_num : (-1 : ℝ) < 2)).1
    simpa only [rpow_two] using this

/-- When the tracer is the density that generates the potential (`denspot=None`), this holds for every exponent that the constructor accepts. -/
theorem C97_self {amp α ra : ℝ} (ha : 0 < amp) (hra : ra ≠ 0) (h : accepts α (initGamma α none)) {r : ℝ} (hr : 0 < r) :
    let P := (PowerSpherical.pot α).scale amp;
    moment (fun E L => fQ amp α amp (initGamma α none) ra (-E - L ^ 2 / (2 * ra ^ 2))) (phi P r) (vmaxAtR P 0 r) r 0 0 = P.dens r 0 0 0 :=
  (C97_density_partial ha ha hra h (by have := h.1; simp only [initGamma]; linarith) hr).2

/-- The anisotropy is that of the documentation, `1 / (1 + ra²/r²)`, for the same tracers. -/
theorem C97_beta_partial {amp α ampd γ ra : ℝ} (ha : 0 < amp) (hd : 0 < ampd) (hra : ra ≠ 0) (h : accepts α γ) (hγ : α / 2 + 1 < γ) {r : ℝ} (hr : 0 < r) :
    betaOf (omVmoment ((PowerSpherical.pot α).scale amp) 0 ra (fQ amp α ampd γ ra)) r = 1 / (1 + ra ^ 2 / r ^ 2) := by
  have hα := h.1
  have hψ := psi_pos ha hα hr
  rw [C59_osipkovmerritt_beta _ _ _ hra]
  · field_simp
  · have e : ∫ v in (0 : ℝ)..vmaxAtR ((PowerSpherical.pot α).scale amp) 0 r,
        v ^ (2 + 0 + 2) * fQ amp α ampd γ ra (-phi ((PowerSpherical.pot α).scale amp) r - 0.5 * v ^ 2)
        = ∫ v in (0 : ℝ)..√(2 * (PowerDF.C amp α * r ^ (2 - α))), v ^ (4 : ℝ) * fQ amp α ampd γ ra (PowerDF.C amp α * r ^ (2 - α) - v ^ 2 / 2) := by
      rw [vmax hα hr, power_phi amp α hα hr]
      refine intervalIntegral.integral_congr fun v _ => ?_
      rw [show ((4 : ℝ)) = ((4 : ℕ) : ℝ) by norm_num, rpow_natCast]
      congr 2; ring
    rw [omVmoment, if_neg (by norm_num), e, (sum_int ha hd hra h hγ hψ (by norm_num : (-1 : ℝ) < 4)).2]
    have h1 := speed_ne hψ (A1_pos ha hd h) (s1_gt hα h.2.1) (by norm_num : (-1 : ℝ) < 4)
    have h2 := speed_ne hψ (A2_pos ha hd hra h hγ) (s2_gt hα hγ) (by norm_num : (-1 : ℝ) < 4)
    have h3 := Gamma_pos_of_pos (show (0 : ℝ) < ((0 : ℕ) : ℝ) / 2 + 1 by norm_num)
    have h4 := Gamma_pos_of_pos (show (0 : ℝ) < (((2 : ℕ) : ℝ) + 1) / 2 by norm_num)
    have h5 := Gamma_pos_of_pos (show (0 : ℝ) < 0.5 * (((0 : ℕ) : ℝ) + ((2 : ℕ) : ℝ) + 3) by norm_num)
    have := pi_pos
    positivity

/-- It is positive exactly for `Q > 0`, and zero otherwise, for the same tracers. -/
theorem C97_sign_partial {amp α ampd γ ra : ℝ} (ha : 0 < amp) (hd : 0 < ampd) (hra : ra ≠ 0) (h : accepts α γ) (hγ : α / 2 + 1 < γ) (Q : ℝ) :
    0 ≤ fQ amp α ampd γ ra Q ∧ (0 < fQ amp α ampd γ ra Q ↔ 0 < Q) := by
  have h1 := A1_pos ha hd h
  have h2 := A2_pos ha hd hra h hγ
  rw [fQ]
  split_ifs with hQ
  · have : 0 < A1 amp α ampd γ * Q ^ (s1 α γ - 1.5) + A2 amp α ampd γ ra * Q ^ (s2 α γ - 1.5) := by positivity
    exact ⟨this.le, fun _ => hQ, fun _ => this⟩
  · exact ⟨le_rfl, fun h => absurd h (lt_irrefl _), fun h => absurd h hQ⟩

/-- For large anisotropy radius it becomes the isotropic one. -/
theorem C97_isotropic (amp α ampd γ Q : ℝ) :
    Tendsto (fun ra => fQ amp α ampd γ ra Q) atTop (𝓝 (PowerDF.fE amp α ampd γ (-Q))) := by
  have hA : Tendsto (fun ra => A2 amp α ampd γ ra) atTop (𝓝 0) := by
    have h : Tendsto (fun ra : ℝ => (ra ^ 2)⁻¹) atTop (𝓝 0) := (tendsto_pow_atTop two_ne_zero).inv_tendsto_atTop
    have e : (fun ra => A2 amp α ampd γ ra) = fun ra : ℝ => (ra ^ 2)⁻¹ * A (PowerDF.nu0 ampd γ) (PowerDF.C amp α) (s2 α γ) := by
      funext ra
      rw [A2_eq, A, A]; ring
    rw [e]
    simpa using h.mul_const (A (PowerDF.nu0 ampd γ) (PowerDF.C amp α) (s2 α γ))
  by_cases hQ : 0 < Q
  · have e : PowerDF.fE amp α ampd γ (-Q) = A1 amp α ampd γ * Q ^ (s1 α γ - 1.5) + 0 * Q ^ (s2 α γ - 1.5) := by
      simp only [PowerDF.fE, neg_neg, if_pos hQ, PowerDF.norm, A1, eddNorm, s1, PowerDF.s, zero_mul, add_zero]
      congr 1
      rw [div_mul_eq_mul_div, div_div]
      congr 1
      ring
    rw [e]
    simp only [fQ, if_pos hQ]
    exact tendsto_const_nhds.add (hA.mul_const _)
  · simp only [fQ, if_neg hQ, PowerDF.fE, neg_neg]
    exact tendsto_const_nhds

namespace C97aux

/-- Between -1 and 0 the gamma function is negative. -/
theorem Gamma_neg {x : ℝ} (h1 : -1 < x) (h0 : x < 0) : Gamma x < 0 := by
  have h := Gamma_add_one h0.ne
  have := Gamma_pos_of_pos (show 0 < x + 1 by linarith)
  rw [h] at this
  by_contra hn
  push Not at hn
  nlinarith

theorem A2_neg {amp α ampd γ ra : ℝ} (ha : 0 < amp) (hd : 0 < ampd) (hra : ra ≠ 0) (h : accepts α γ) (h1 : 3 - α / 2 < γ) (h2 : γ < α / 2 + 1) :
    A2 amp α ampd γ ra < 0 := by
  have hα : 0 < α - 2 := by linarith [h.1]
  have hs1 : -(1 / 2) < s2 α γ := by rw [s2, lt_div_iff₀ hα]; linarith
  have hs2 : s2 α γ < 1 / 2 := by rw [s2, div_lt_iff₀ hα]; linarith
  have g1 := Gamma_pos_of_pos (show 0 < s2 α γ + 1 by linarith)
  have g2 := Gamma_neg (show -1 < s2 α γ - 0.5 by norm_num; linarith) (by norm_num; linarith)
  have g3 := rpow_pos_of_pos (C_pos ha h.1) (s2 α γ)
  have g4 := nu_pos hd h.2.2
  have g5 := edd_pos
  rw [A2]
  exact div_neg_of_pos_of_neg (by positivity) (mul_neg_of_pos_of_neg g5 g2)

end C97aux

/-- Tracers that the constructor accepts with `3 - α/2 < γ < α/2 + 1` (for instance `α = 2.5`, `γ = 2`): the distribution function is negative for all `Q`
below some positive value, that is for stars close to the escape velocity at every radius. -/
theorem C97_negative_fails {amp α ampd γ ra : ℝ} (ha : 0 < amp) (hd : 0 < ampd) (hra : ra ≠ 0) (h : accepts α γ) (h1 : 3 - α / 2 < γ)
    (h2 : γ < α / 2 + 1) : ∃ Q₀ > 0, ∀ Q > 0, fQ amp α ampd γ ra Q < 0 ↔ Q < Q₀ := by
  have hα : 0 < α - 2 := by linarith [h.1]
  have p1 := A1_pos ha hd h
  have p2 := A2_neg ha hd hra h h1 h2
  set a := A1 amp α ampd γ with ha'
  set b := A2 amp α ampd γ ra with hb'
  have hc : 0 < -b / a := div_pos (by linarith) p1
  refine ⟨(-b / a) ^ ((α - 2) / 2), rpow_pos_of_pos hc _, fun Q hQ => ?_⟩
  have e : fQ amp α ampd γ ra Q = Q ^ (s2 α γ - 1.5) * (a * Q ^ (2 / (α - 2)) + b) := by
    rw [fQ, if_pos hQ, ← ha', ← hb', show s1 α γ - 1.5 = (s2 α γ - 1.5) + 2 / (α - 2) by rw [s1, s2]; field_simp; ring, rpow_add hQ]
    ring
  have hp := rpow_pos_of_pos hQ (s2 α γ - 1.5)
  rw [e, mul_neg_iff]
  have e2 : Q < (-b / a) ^ ((α - 2) / 2) ↔ Q ^ (2 / (α - 2)) < -b / a := by
    have := rpow_lt_rpow_iff (z := 2 / (α - 2)) hQ.le (rpow_nonneg hc.le ((α - 2) / 2)) (by positivity)
    rw [← this, ← rpow_mul hc.le, show (α - 2) / 2 * (2 / (α - 2)) = 1 by field_simp, rpow_one]
  rw [e2, lt_div_iff₀ p1]
  constructor
  · rintro (⟨_, h⟩ | ⟨h, _⟩)
    · linarith
    · linarith
  · intro h
    exact Or.inl ⟨hp, by linarith⟩

/-- For the same tracers the integral over velocity that should be the density does not exist, at any radius. -/
theorem C97_diverges_fails {amp α ampd γ ra : ℝ} (ha : 0 < amp) (hd : 0 < ampd) (hra : ra ≠ 0) (h : accepts α γ) (h1 : 3 - α / 2 < γ)
    (h2 : γ < α / 2 + 1) {r : ℝ} (hr : 0 < r) :
    let P := (PowerSpherical.pot α).scale amp;
    ¬IntervalIntegrable (fun v => v ^ 2 * fQ amp α ampd γ ra (-phi P r - v ^ 2 / 2)) volume 0 (vmaxAtR P 0 r) := by
  intro P hi
  have hα := h.1
  have hψ := psi_pos ha hα hr
  rw [vmax hα hr, power_phi amp α hα hr, neg_neg] at hi
  set ψ := PowerDF.C amp α * r ^ (2 - α)
  have hV : 0 < √(2 * ψ) := sqrt_pos.2 (by linarith)
  have hsq : √(2 * ψ) ^ 2 = 2 * ψ := sq_sqrt (by linarith)
  set V := √(2 * ψ)
  have hi1 : IntegrableOn (fun v => v ^ 2 * fQ amp α ampd γ ra (ψ - v ^ 2 / 2)) (Icc (V / 2) V) := by
    rw [integrableOn_Icc_iff_integrableOn_Ioc, ← intervalIntegrable_iff_integrableOn_Ioc_of_le (by linarith)]
    exact hi.mono_set (by rw [uIcc_of_le (by linarith), uIcc_of_le hV.le]; exact Icc_subset_Icc (by linarith) le_rfl)
  have hi2 : IntegrableOn (fun v => |(-v)| • fQ amp α ampd γ ra (ψ - v ^ 2 / 2)) (Ioo (V / 2) V) := by
    have hc : ContinuousOn (fun v : ℝ => v⁻¹) (Icc (V / 2) V) :=
      continuousOn_inv₀.mono fun v hv => by
        have := hv.1
        simp only [mem_compl_iff, mem_singleton_iff]; linarith
    refine ((hi1.continuousOn_mul hc isCompact_Icc).mono_set Ioo_subset_Icc_self).congr_fun (fun v hv => ?_) measurableSet_Ioo
    have : 0 < v := by linarith [hv.1]
    simp only [abs_neg, abs_of_pos this, smul_eq_mul]
    field_simp
  have himg : (fun v : ℝ => ψ - v ^ 2 / 2) '' Ioo (V / 2) V = Ioo 0 (3 / 4 * ψ) := by
    ext x
    constructor
    · rintro ⟨v, hv, rfl⟩
      have h0 : 0 < v := by linarith [hv.1]
      constructor
      · simp only; nlinarith [hv.2]
      · simp only; nlinarith [hv.1]
    · intro hx
      refine ⟨√(2 * (ψ - x)), ⟨?_, ?_⟩, ?_⟩
      · rw [lt_sqrt (by linarith)]; nlinarith [hx.2]
      · exact sqrt_lt_sqrt (by linarith [hx.2]) (by linarith [hx.1])
      · simp only
        rw [sq_sqrt (by linarith [hx.2])]; ring
  have hinj : InjOn (fun v : ℝ => ψ - v ^ 2 / 2) (Ioo (V / 2) V) := by
    intro x hx y hy hxy
    simp only at hxy
    have h0 : 0 < x := by linarith [hx.1]
    have h0' : 0 < y := by linarith [hy.1]
    nlinarith
  have hi3 := (integrableOn_image_iff_integrableOn_abs_deriv_smul measurableSet_Ioo (f := fun v : ℝ => ψ - v ^ 2 / 2) (f' := fun v => -v)
    (fun x _ => by
      have := (((hasDerivAt_id x).fun_pow 2).div_const 2).const_sub ψ
      exact (this.congr_deriv (by simp)).hasDerivWithinAt) hinj (fQ amp α ampd γ ra)).2 hi2
  rw [himg] at hi3
  have hb := A2_neg ha hd hra h h1 h2
  have hn1 : IntegrableOn (fun Q : ℝ => Q ^ (s1 α γ - 1.5)) (Ioo 0 (3 / 4 * ψ)) := by
    rw [intervalIntegral.integrableOn_Ioo_rpow_iff (by linarith)]
    have := s1_gt hα h.2.1
    norm_num; linarith
  have hn2 : IntegrableOn (fun Q : ℝ => Q ^ (s2 α γ - 1.5)) (Ioo 0 (3 / 4 * ψ)) := by
    refine (Integrable.const_mul (Integrable.sub hi3 (Integrable.const_mul hn1 (A1 amp α ampd γ))) (A2 amp α ampd γ ra)⁻¹ : Integrable _ (volume.restrict (Ioo 0 (3 / 4 * ψ)))).congr ?_
    refine (ae_restrict_iff' measurableSet_Ioo).2 (Eventually.of_forall fun Q hQ => ?_)
    simp only [Pi.sub_apply, fQ, if_pos hQ.1]
    field_simp [hb.ne]
    ring
  rw [intervalIntegral.integrableOn_Ioo_rpow_iff (by linarith)] at hn2
  have : s2 α γ < 1 / 2 := by rw [s2, div_lt_iff₀ (by linarith)]; linarith
  norm_num at hn2
  linarith

/-- On the boundary `γ = α/2 + 1` the second term is dropped and the density is too small by the factor `1 + r²/ra²`. -/
theorem C97_edge_fails {amp α ampd γ ra : ℝ} (ha : 0 < amp) (h : accepts α γ) (h2 : γ = α / 2 + 1) {r : ℝ} (hr : 0 < r) :
    omVmoment ((PowerSpherical.pot α).scale amp) 0 ra (fQ amp α ampd γ ra) r 0 0
      = ((PowerSpherical.pot γ).scale ampd).dens r 0 0 0 / (1 + r ^ 2 / ra ^ 2) := by
  have hα := h.1
  have hψ := psi_pos ha hα hr
  have hα2 : α - 2 ≠ 0 := by linarith
  have hA : A2 amp α ampd γ ra = 0 := by
    rw [A2, show s2 α γ - 0.5 = 0 by rw [s2, h2]; field_simp; norm_num; ring, Gamma_zero, mul_zero, div_zero]
  have e : fQ amp α ampd γ ra = T (A (PowerDF.nu0 ampd γ) (PowerDF.C amp α) (s1 α γ)) (s1 α γ - 3 / 2) := by
    funext Q
    rw [fQ_eq, hA, A1_eq]
    simp [T]
  rw [om hα hr, e, speed2 (C_pos ha hα) hψ (s1_gt hα h.2.1), psi_pow ha hα hr, power_dens ampd γ hr,
    show (2 - α) * s1 α γ = -γ by rw [s1]; field_simp; ring]

/-! Concrete cases: the self-consistent power law `r^(-2.5)`, a steep tracer in it, and tracers for which the constructor should have raised. -/

example : accepts 2.5 (initGamma 2.5 none) ∧ accepts 2.5 2.6 ∧ (2.5 / 2 + 1 : ℝ) < 2.6 := by norm_num [accepts, initGamma]
example : accepts 2.5 2 ∧ (3 - 2.5 / 2 : ℝ) < 2 ∧ (2 : ℝ) < 2.5 / 2 + 1 ∧ accepts 2.5 2.25 ∧ (2.25 : ℝ) = 2.5 / 2 + 1 := by norm_num [accepts]
example : ∃ Q₀ > 0, ∀ Q > 0, fQ 1 2.5 1 2 1.4 Q < 0 ↔ Q < Q₀ :=
  C97_negative_fails one_pos one_pos (by norm_num) (by norm_num [accepts]) (by norm_num) (by norm_num)

end Verif
