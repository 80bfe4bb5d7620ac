import Verif.Props.C58
import Mathlib.Analysis.Calculus.MeanValue
import Mathlib.Analysis.Complex.ExponentialBounds

set_option autoImplicit false

/-!
# C58, continued: steady state, and the derivatives of the Schwarzschild distribution function
-/

noncomputable section
namespace Verif
open Real Disk C58aux

/-- The derivatives returned by the code satisfy the collisionless Boltzmann equation in the
potential of the rotation curve, for both classes. -/
theorem C58_boltzmann {p : Profile} (hp : p.Sound) {β R vT : ℝ} (hb : -1 < β) (hR : 0 < R) (vR : ℝ) :
    (vR * dlnfdR .dehnen p β R vR vT + (vT ^ 2 / R - (R ^ β) ^ 2 / R) * dlnfdvR .dehnen p β R vR vT
      - vR * vT / R * dlnfdvT .dehnen p β R vR vT = 0) ∧
    (0 < vT → vR * dlnfdR .shu p β R vR vT + (vT ^ 2 / R - (R ^ β) ^ 2 / R) * dlnfdvR .shu p β R vR vT
      - vR * vT / R * dlnfdvT .shu p β R vR vT = 0) := by
  constructor
  · simp only [dlnfdR, dlnfdvR, dlnfdvT, dehnenDlnfdR, dehnenDlnfdvR, dehnenDlnfdvT]
    generalize dlnfdRe p β R vR vT = A
    generalize dlnfdl p β R vR vT = B
    generalize dehnenE β R vR vT = E
    split_ifs with h
    · subst h
      simp only [rpow_zero]
      field_simp
      ring
    · rw [pow_sub_one hR, two_mul_pow hR]
      field_simp
      ring
  · intro hv
    have hL : 0 < vT * R := mul_pos hv hR
    have hx : 0 < xL β (vT * R) := xL_pos hL
    have hs := (hp.sig_pos (xL β (vT * R))).ne'
    have h1 : β + 1 ≠ 0 := by linarith
    simp only [dlnfdR, dlnfdvR, dlnfdvT, shuDlnfdR, shuDlnfdvR, shuDlnfdvT, vRvTRToEL]
    split_ifs with h
    · subst h
      simp only [rpow_zero]
      field_simp
      ring
    · have hpow : (vT * R) ^ (1 / (β + 1)) = xL β (vT * R) := by rw [xL, if_neg h]
      rw [hpow, pow_sub_one hR, two_mul_pow hR]
      field_simp
      ring

/-- Both distribution functions are constant along every orbit in the potential of the rotation
curve, with or without corrections, for prograde and retrograde orbits. -/
theorem C58_steady {ty : DfType} (ht : ty ≠ .schwarzschild) (p : Profile) (corr : ℝ → ℝ × ℝ) {β : ℝ} (hb : -1 < β)
    {R vR vT : ℝ → ℝ} (hR : ∀ t, 0 < R t) (h1 : ∀ t, HasDerivAt R (vR t) t)
    (h2 : ∀ t, HasDerivAt vR (vT t ^ 2 / R t - (R t ^ β) ^ 2 / R t) t)
    (h3 : ∀ t, HasDerivAt vT (-(vR t * vT t / R t)) t) (t t' : ℝ) :
    call ty p β corr (R t) (vR t) (vT t) = call ty p β corr (R t') (vR t') (vT t') := by
  have hE : ∀ t, HasDerivAt (fun t => axipotential (R t) β + 0.5 * vR t ^ 2 + 0.5 * vT t ^ 2) 0 t := by
    intro t
    have ha : HasDerivAt (fun t => axipotential (R t) β) ((R t ^ β) ^ 2 / R t * vR t) t :=
      (((C58_curve hb).1 (R t) (hR t)).2).comp t (h1 t)
    have h1 := h1 t
    have h2 := h2 t
    have h3 := h3 t
    refine HasDerivAt.congr_deriv (by hasderiv) ?_
    have := (hR t).ne'
    simp only [Nat.cast_ofNat, Nat.add_one_sub_one, pow_one]
    field_simp
    ring
  have hL : ∀ t, HasDerivAt (fun t => vT t * R t) 0 t := by
    intro t
    have h1 := h1 t
    have h3 := h3 t
    refine HasDerivAt.congr_deriv (by hasderiv) ?_
    have := (hR t).ne'
    field_simp
    ring
  have cE := is_const_of_deriv_eq_zero (fun t => (hE t).differentiableAt) (fun t => (hE t).deriv) t t'
  have cL := is_const_of_deriv_eq_zero (fun t => (hL t).differentiableAt) (fun t => (hL t).deriv) t t'
  cases ty
  case schwarzschild => exact absurd rfl ht
  all_goals simp only [call, vRvTRToEL]; rw [cE, cL]

/-- The ellipse with semi-axes two and one in the solid-body curve: the DF at its long and at its
short end. -/
example (p : Profile) (corr : ℝ → ℝ × ℝ) : call .dehnen p 1 corr 2 0 1 = call .dehnen p 1 corr 1 0 2 := by
  have hpos : ∀ t : ℝ, 0 < 1 + 3 * cos t ^ 2 := fun t => by positivity
  have hd : ∀ t : ℝ, HasDerivAt (fun t => √(1 + 3 * cos t ^ 2)) (-3 * cos t * sin t / √(1 + 3 * cos t ^ 2)) t := by
    intro t
    have := (hpos t).ne'
    refine HasDerivAt.congr_deriv (by hasderiv) ?_
    norm_num
    ring
  have h := C58_steady (ty := .dehnen) (by decide) p corr (β := 1) (by norm_num) (R := fun t => √(1 + 3 * cos t ^ 2))
    (vR := fun t => -3 * cos t * sin t / √(1 + 3 * cos t ^ 2)) (vT := fun t => 2 / √(1 + 3 * cos t ^ 2))
    (fun t => sqrt_pos.2 (hpos t)) hd
    (fun t => by
      have := hd t
      have h0 := (sqrt_pos.2 (hpos t)).ne'
      have hq : √(1 + 3 * cos t ^ 2) ^ 2 = 1 + 3 * cos t ^ 2 := sq_sqrt (hpos t).le
      refine HasDerivAt.congr_deriv (by hasderiv) ?_
      have e : sin t ^ 2 = 1 - cos t ^ 2 := by rw [← sin_sq_add_cos_sq t]; ring
      rw [rpow_one]
      field_simp
      rw [sqp4 hq, hq]
      linear_combination (3 * (1 + 3 * cos t ^ 2) - 9 * cos t ^ 2) * e)
    (fun t => by
      have := hd t
      have h0 := (sqrt_pos.2 (hpos t)).ne'
      refine HasDerivAt.congr_deriv (by hasderiv) ?_
      field_simp
      ring) 0 (π / 2)
  have e4 : √(1 + 3 * 1 ^ 2) = (2 : ℝ) := by
    rw [show (1 + 3 * 1 ^ 2 : ℝ) = 2 ^ 2 by norm_num, sqrt_sq (by norm_num)]
  have e1 : √(1 + 3 * 0 ^ 2) = (1 : ℝ) := by norm_num
  simp only [cos_zero, sin_zero, cos_pi_div_two, sin_pi_div_two, e4, e1] at h
  norm_num at h
  exact h

/-! ### The Schwarzschild distribution function inherits the derivatives of the Shu one -/

namespace C58aux

/-- The true radial derivative of the logarithm of the Schwarzschild DF. -/
theorem schwarzschild_R {p : Profile} (hp : p.Sound) {β R vT : ℝ} (hb : -1 < β) (hR : 0 < R) (vR : ℝ) (hv : 0 < vT) :
    HasDerivAt (fun r => log (call .schwarzschild p β noCorr r vR vT))
      ((p.surfacemassDerivativeLog (xL β (R * vT)) - (1 + (Ecirc β (xL β (R * vT))
        - (vRvTRToEL vR vT R β .schwarzschild).1) / p.sigma2 (xL β (R * vT))) * p.sigma2DerivativeLog (xL β (R * vT)))
          * (xL β (R * vT) / ((1 + β) * R))
        + (2 / (1 + β) * (vT - R ^ β) * (β * (R ^ β / R))) / p.sigma2 (xL β (R * vT))) R := by
  have hL : 0 < R * vT := mul_pos hR hv
  have h1b : 1 + β ≠ 0 := by linarith
  set x := xL β (R * vT) with hxd
  have hx : 0 < x := xL_pos hL
  have hs := (hp.sig_pos x).ne'
  have hg2 : √(2 / (1 + β)) ^ 2 = 2 / (1 + β) := sq_sqrt (by
      have : 0 < 1 + β := by linarith
      positivity)
  have h2 : HasDerivAt (fun r => r * vT) vT R := by
    refine HasDerivAt.congr_deriv (by hasderiv) ?_
    ring
  have hX : HasDerivAt (fun r => xL β (r * vT)) (x / ((1 + β) * (R * vT)) * vT) R :=
    HasDerivAt.comp (h₂ := xL β) R (xL_deriv hb hL) h2
  have eE : ∀ r, 0 < r → (vRvTRToEL vR vT r β .schwarzschild).1
      = 0.5 * vR ^ 2 + 0.5 * (2 / (1 + β)) * (vT - r ^ β) ^ 2 + Ecirc β (xL β (r * vT)) := by
    intro r hr
    have hx := xL_pos (β := β) (mul_pos hr hv)
    have e : (if β = 0 then r * vT else (r * vT) ^ (1 / (β + 1))) = xL β (r * vT) := rfl
    simp only [vRvTRToEL, e, hg2, axi_eq hx, Ecirc, two_mul_pow hx]
    ring
  have hEc : HasDerivAt (fun r => Ecirc β (xL β (r * vT))) ((1 + β) * (x ^ β) ^ 2 / x * (x / ((1 + β) * (R * vT)) * vT)) R :=
    HasDerivAt.comp (h₂ := Ecirc β) R (Ecirc_deriv hx) hX
  have hE : HasDerivAt (fun r => 0.5 * vR ^ 2 + 0.5 * (2 / (1 + β)) * (vT - r ^ β) ^ 2 + Ecirc β (xL β (r * vT)))
      (-(2 / (1 + β) * (vT - R ^ β) * (β * (R ^ β / R))) + (1 + β) * (x ^ β) ^ 2 / x * (x / ((1 + β) * (R * vT)) * vT)) R := by
    refine HasDerivAt.congr_deriv (by hasderiv) ?_
    norm_num
    ring
  have := lnShu_deriv hp (X := fun r => xL β (r * vT)) (β := β) hx hX hE
  refine (this.congr_of_eventuallyEq ?_).congr_deriv ?_
  · filter_upwards [lt_mem_nhds hR] with r hr
    rw [call]
    have e2 : (vRvTRToEL vR vT r β .schwarzschild).2 = r * vT := rfl
    rw [e2, callEL_shu (by decide) hb (mul_pos hr hv), log_exp, eE r hr]
  · simp only [← hxd, eE R hR]
    field_simp
    ring

end C58aux

/-- The Schwarzschild DF: the derivative in the radial velocity is right, and on a flat curve the
radial derivative is right. Missing: the radial derivative on other curves and the derivative in the
tangential velocity (see `C58_schwarzschild_derivatives_fails`). -/
theorem C58_schwarzschild_derivatives_partial {p : Profile} (hp : p.Sound) {β R vT : ℝ} (hb : -1 < β) (hR : 0 < R)
    (vR : ℝ) (hv : 0 < vT) :
    HasDerivAt (fun v => log (call .schwarzschild p β noCorr R v vT)) (dlnfdvR .schwarzschild p β R vR vT) vR ∧
    (β = 0 → HasDerivAt (fun r => log (call .schwarzschild p β noCorr r vR vT)) (dlnfdR .schwarzschild p β R vR vT) R) := by
  have hL : 0 < R * vT := mul_pos hR hv
  constructor
  · set x := xL β (R * vT) with hxd
    have hx : 0 < x := xL_pos hL
    have h1 : HasDerivAt (fun v => (vRvTRToEL v vT R β .schwarzschild).1) vR vR := by
      simp only [vRvTRToEL]
      refine HasDerivAt.congr_deriv (by hasderiv) ?_
      norm_num; ring
    have := lnShu_deriv hp (X := fun _ => x) (β := β) hx (hd_const x vR) h1
    refine (this.congr_of_eventuallyEq ?_).congr_deriv ?_
    · filter_upwards with v
      rw [call]
      have e2 : (vRvTRToEL v vT R β .schwarzschild).2 = R * vT := rfl
      rw [e2, callEL_shu (by decide) hb hL, log_exp]
    · have e2 : (vRvTRToEL vR vT R β .schwarzschild).2 = R * vT := rfl
      simp only [dlnfdvR, shuDlnfdvR, e2, ← hxd]
      ring
  · rintro rfl
    refine (schwarzschild_R hp hb hR vR hv).congr_deriv ?_
    have e2 : (vRvTRToEL vR vT R 0 .schwarzschild).2 = R * vT := rfl
    have ex : xL 0 (R * vT) = R * vT := by simp [xL]
    simp only [dlnfdR, shuDlnfdR, if_true, e2, ex, ECL_eq hL]
    field_simp
    ring

/-- On a rising curve (`beta=0.5`) the radial derivative of the Schwarzschild DF is wrong: the
inherited method differentiates the exact energy while the DF uses the epicycle energy. The Oort
constants of the class are computed from this derivative. -/
theorem C58_schwarzschild_derivatives_fails {p : Profile} (hp : p.Sound) :
    ∃ R vT : ℝ, 0 < R ∧ 0 < vT ∧
      ¬ HasDerivAt (fun r => log (call .schwarzschild p (1 / 2) noCorr r 0 vT)) (dlnfdR .schwarzschild p (1 / 2) R 0 vT) R := by
  refine ⟨1, 8, one_pos, by norm_num, fun h => ?_⟩
  have h' := h.unique (schwarzschild_R hp (β := 1 / 2) (R := 1) (vT := 8) (by norm_num) one_pos 0 (by norm_num))
  have e2 : (vRvTRToEL 0 8 1 (1 / 2) .schwarzschild).2 = 1 * 8 := rfl
  have ex : xL (1 / 2) (1 * 8) = 4 := by
    have e8 : (1 * 8 : ℝ) = (2 : ℝ) ^ (3 : ℝ) := by norm_num
    rw [xL, if_neg (by norm_num), e8, ← rpow_mul (by norm_num)]
    norm_num
  have ep : (1 * 8 : ℝ) ^ (1 / (1 / 2 + 1) : ℝ) = 4 := by
    rw [← ex, xL, if_neg (by norm_num)]
  have h0 : (1 / 2 : ℝ) ≠ 0 := by norm_num
  simp only [dlnfdR, shuDlnfdR, e2, ex, h0, if_false, ECL_eq (show (0 : ℝ) < 4 by norm_num)] at h'
  rw [ep] at h'
  have hs := (hp.sig_pos 4).ne'
  norm_num at h'
  field_simp at h'
  norm_num at h'

/-- On a flat curve the derivative in the tangential velocity is wrong. -/
theorem C58_schwarzschild_vT_fails {p : Profile} (hp : p.Sound) :
    ∃ R vT : ℝ, 0 < R ∧ 0 < vT ∧
      ¬ HasDerivAt (fun v => log (call .schwarzschild p 0 noCorr R 0 v)) (dlnfdvT .schwarzschild p 0 R 0 vT) vT := by
  refine ⟨1, 2, one_pos, by norm_num, fun h => ?_⟩
  have hX : HasDerivAt (fun v : ℝ => v) 1 2 := hasDerivAt_id 2
  have hE : HasDerivAt (fun v : ℝ => (v - 1) ^ 2 + (1 / 2 + log v)) (2 + 1 / 2) 2 := by
    refine HasDerivAt.congr_deriv (by hasderiv; norm_num) ?_
    norm_num
  have e : ∀ v : ℝ, 0 < v → (vRvTRToEL 0 v 1 0 .schwarzschild).1 = (v - 1) ^ 2 + (1 / 2 + log v) := by
    intro v hv
    have hg2 : √(2 / (1 + 0)) ^ 2 = (2 : ℝ) := by rw [sq_sqrt (by norm_num)]; norm_num
    simp only [vRvTRToEL, hg2, if_true, axipotential, mul_zero, rpow_zero, one_mul]
    ring
  have := lnShu_deriv hp (X := fun v => v) (β := 0) (s := 2) (by norm_num) hX hE
  have h' := h.unique (this.congr_of_eventuallyEq (by
    filter_upwards [lt_mem_nhds (show (0 : ℝ) < 2 by norm_num)] with v hv
    have e2 : (vRvTRToEL 0 v 1 0 .schwarzschild).2 = 1 * v := rfl
    rw [call, e2, callEL_shu (by decide) (by norm_num) (by linarith), log_exp, e v hv]
    simp [xL]))
  have e2 : (vRvTRToEL 0 2 1 0 .schwarzschild).2 = 1 * 2 := rfl
  have ex : xL 0 (1 * 2) = 2 := by simp [xL]
  simp only [dlnfdvT, shuDlnfdvT, e2, ex, if_true, ECL_eq (show (0 : ℝ) < 2 by norm_num),
    e 2 (by norm_num)] at h'
  have hs := (hp.sig_pos 2).ne'
  norm_num at h'
  field_simp at h'
  norm_num at h'

/-! ### The most probable tangential velocity -/

/-- The equation whose root `sampleVRVT` takes as the peak of the velocity distribution is the
derivative of the Dehnen DF in the tangential velocity at zero radial velocity. -/
theorem C58_vtmax (p : Profile) (β vT R : ℝ) : vtmaxEq p β vT R = dlnfdvT .dehnen p β R 0 vT := by
  have e : (if β = 0 then vT ^ 2 / 2 + log R else vT ^ 2 / 2 + 1 / 2 / β * R ^ (2 * β)) = dehnenE β R 0 vT := by
    simp [dehnenE]
  simp only [vtmaxEq, dlnfdvT, dehnenDlnfdvT, dlnfdRe, dlnfdl, e]
  ring

/-- The same equation is used for the Shu DF, whose derivative is a different function. -/
theorem C58_vtmax_shu_fails : ∃ h : ℝ, 0 < h ∧ ∃ vT R : ℝ, 0 < vT ∧ 0 < R ∧
    vtmaxEq (expProfile h 1 0.2) 0 vT R ≠ dlnfdvT .shu (expProfile h 1 0.2) 0 R 0 vT := by
  by_contra hc
  push Not at hc
  have h1 := hc 1 one_pos 2 1 (by norm_num) one_pos
  have h2 := hc (1 / 2) (by norm_num) 2 1 (by norm_num) one_pos
  have hq : (1 : ℝ) < xE 0 (2 ^ 2 / 2 + log 1) := by
    rw [xE, if_pos rfl, log_one, ← exp_zero]
    exact exp_lt_exp.2 (by norm_num)
  simp only [vtmaxEq, dlnfdvT, shuDlnfdvT, if_true, vRvTRToEL] at h1 h2
  generalize xE 0 (2 ^ 2 / 2 + log 1) = q at *
  simp only [expProfile] at h1 h2
  generalize OE 0 q * 1 / ((0.2 : ℝ) ^ 2 * exp (-2 * (q - 1) / 1)) = a at *
  generalize (1 + OE 0 q * (1 * 2 - LCE 0 q) / ((0.2 : ℝ) ^ 2 * exp (-2 * (q - 1) / 1))) * (-2 / 1) = b at *
  generalize (1 * 2 - LCE 0 q) / ((0.2 : ℝ) ^ 2 * exp (-2 * (q - 1) / 1)) * (0 - 1) * q ^ ((0 : ℝ) - 2) = c at *
  generalize OE 0 q * (0 + 1) / ((0.2 : ℝ) ^ 2 * exp (-2 * (q - 1) / 1)) * q ^ (0 : ℝ) = d at *
  generalize (1 + (ECL 0 (xL 0 (2 * 1)) - (axipotential 1 0 + 0.5 * 0 ^ 2 + 0.5 * 2 ^ 2))
    / ((0.2 : ℝ) ^ 2 * exp (-2 * (xL 0 (2 * 1) - 1) / 1))) * (-2 / 1) = e at *
  generalize (1 / 2 - 2) / ((0.2 : ℝ) ^ 2 * exp (-2 * (xL 0 (2 * 1) - 1) / 1)) = f at *
  norm_num at h1 h2
  linarith

end Verif
