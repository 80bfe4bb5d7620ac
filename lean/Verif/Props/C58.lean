import Verif.Lemmas.DF.Disk

set_option autoImplicit false

/-!
# C58: disk distribution functions

The profile methods, the published formulas of the Dehnen and Shu distribution functions, their
logarithmic derivatives and the collisionless Boltzmann equation.
-/

noncomputable section
namespace Verif
open Real Disk

/-! ### The exponential profile -/

/-- The exponential profile: the `log=True` values are the logarithms of the plain ones, all four
derivative methods are exact at every radius, the surface density falls by `e` over one scale
length, the dispersion by `e` over one dispersion scale length, and `s0` is the dispersion at the
solar circle. -/
theorem C58_profile {h hs s0 : ℝ} (hh : h ≠ 0) (hhs : hs ≠ 0) (h0 : 0 < s0) :
    (expProfile h hs s0).Sound ∧
    (∀ R, (expProfile h hs s0).surfacemass (R + h) = (expProfile h hs s0).surfacemass R / exp 1) ∧
    (∀ R, √((expProfile h hs s0).sigma2 (R + hs)) = √((expProfile h hs s0).sigma2 R) / exp 1) ∧
    (expProfile h hs s0).surfacemass 0 = 1 ∧ (expProfile h hs s0).sigma2 1 = s0 ^ 2 := by
  refine ⟨⟨?_, ?_, ?_, ?_, ?_, ?_, ?_, ?_⟩, ?_, ?_, ?_, ?_⟩
  · intro R; exact exp_pos _
  · intro R; simp [expProfile]
  · intro R
    refine HasDerivAt.congr_deriv (f' := exp (-R / h) * (-1 / h)) ?_ (by simp [expProfile]; ring)
    unfold expProfile; hasderiv
  · intro R; unfold expProfile; hasderiv
  · intro R; simp only [expProfile]; positivity
  · intro R
    simp only [expProfile]
    rw [log_mul (by positivity) (exp_pos _).ne', log_exp, log_pow]; push_cast; ring
  · intro R
    refine HasDerivAt.congr_deriv (f' := s0 ^ 2 * (exp (-2 * (R - 1) / hs) * (-2 * (1 - 0) / hs))) ?_
      (by simp [expProfile]; ring)
    unfold expProfile; hasderiv
  · intro R
    refine HasDerivAt.congr_deriv (f' := 0 - 2 * (1 - 0) / hs) ?_ (by simp [expProfile]; ring)
    unfold expProfile; hasderiv
  · intro R
    simp only [expProfile]
    rw [← exp_sub]; congr 1; field_simp; ring
  · intro R
    simp only [expProfile]
    have e : exp (-2 * (R + hs - 1) / hs) = exp (-2 * (R - 1) / hs) / exp 1 ^ 2 := by
      rw [← exp_nat_mul, ← exp_sub]; congr 1; push_cast; field_simp; ring
    rw [e, ← mul_div_assoc, sqrt_div' _ (by positivity), sqrt_sq (exp_pos 1).le]
  · simp [expProfile]
  · simp [expProfile]

/-- The default parameters. -/
example : (expProfile (1 / 3) 1 0.2).Sound := (C58_profile (by norm_num) (by norm_num) (by norm_num)).1

/-- The logarithm is only right for a positive `s0`: with a negative one Python returns `nan` for
`log(s0)`, while the plain value is that of `-s0` (so both cannot be right). -/
theorem C58_profile_even (h hs s0 R : ℝ) : (expProfile h hs (-s0)).sigma2 R = (expProfile h hs s0).sigma2 R := by
  simp [expProfile]

/-! ### The rotation curve -/

/-- The potential used for energies is the one whose circular speed is `R ^ β`, it is the power-law
potential handed to the action-angle code, and each energy (angular momentum) belongs to exactly one
circular orbit. The energies that occur are all for a flat curve, the positive ones for a rising
curve, the negative ones for a falling curve. -/
theorem C58_curve {β : ℝ} (hb : -1 < β) :
    (∀ R, 0 < R → axipotential R β = Phi β R ∧ HasDerivAt (fun r => axipotential r β) ((R ^ β) ^ 2 / R) R) ∧
    (∀ R R', 0 < R → 0 < R' → Ecirc β R = Ecirc β R' → R = R') ∧
    (∀ R R', 0 < R → 0 < R' → Lcirc β R = Lcirc β R' → R = R') ∧
    (∀ E, (∃ R, 0 < R ∧ Ecirc β R = E) ↔ (0 < β → 0 < E) ∧ (β < 0 → E < 0)) ∧
    (∀ L, (∃ R, 0 < R ∧ Lcirc β R = L) ↔ 0 < L) := by
  refine ⟨fun R hR => ⟨axi_eq hR, ?_⟩, fun R R' h h' e => ?_, fun R R' h h' e => ?_, fun E => bound_iff hb, fun L => ?_⟩
  · refine (phi_deriv hR).congr_of_eventuallyEq ?_
    filter_upwards [lt_mem_nhds hR] with x hx using axi_eq hx
  · rw [← xE_Ecirc hb h, e, xE_Ecirc hb h']
  · rw [← xL_Lcirc hb h, e, xL_Lcirc hb h']
  · constructor
    · rintro ⟨R, hR, rfl⟩; exact mul_pos hR (rpow_pos_of_pos hR _)
    · intro hL; exact ⟨_, xL_pos hL, Lcirc_xL hb hL⟩

/-! ### The distribution functions -/

/-- Dehnen's distribution function: at the energy of the circular orbit of radius `x` it is
`γ Σ(x) / (2 π σ²(x)) · exp(Ω(x) (L - Lc(x)) / σ²(x))` for every angular momentum (prograde,
retrograde, or that of the circular orbit itself, where the code takes the logarithm of zero), and
the value computed through complex logarithms is real. -/
theorem C58_dehnen {p : Profile} (hp : p.Sound) {β x : ℝ} (hb : -1 < β) (hx : 0 < x) (L : ℝ) :
    callEL .dehnen p β noCorr (Ecirc β x) L =
      √(2 / (1 + β)) * p.surfacemass x / (2 * π * p.sigma2 x)
        * exp (x ^ β / x * (L - Lcirc β x) / p.sigma2 x) ∧
    (eval .dehnen p β noCorr (Ecirc β x) L 0 0).im = 0 := by
  have hB : Bound β (Ecirc β x) := ⟨x, hx, rfl⟩
  have hg : 0 < gamma β / (2 * π) := div_pos (gamma_pos hb) (by positivity)
  constructor
  · rw [callEL_dehnen hb hB, xE_Ecirc hb hx, lnDehnen, exp_add, exp_add, exp_sub, exp_log hg, hp.sig_exp, hp.surf_exp]
    have e : (x ^ β / x * L - (x ^ β) ^ 2) / p.sigma2 x = x ^ β / x * (L - Lcirc β x) / p.sigma2 x := by
      rw [Lcirc]; field_simp
    rw [e, gamma]
    have := (hp.sig_pos x).ne'
    field_simp
  · rw [eval, dehnenEval_eq hb hB, Complex.ofReal_im]

/-- Shu's distribution function: at the angular momentum of the circular orbit of radius `x` it is
`γ Σ(x) / (2 π σ²(x)) · exp(-(E - Ec(x)) / σ²(x))`. -/
theorem C58_shu {p : Profile} (hp : p.Sound) {β x : ℝ} (hb : -1 < β) (hx : 0 < x) (E : ℝ) :
    callEL .shu p β noCorr E (Lcirc β x) =
      √(2 / (1 + β)) * p.surfacemass x / (2 * π * p.sigma2 x) * exp (-(E - Ecirc β x) / p.sigma2 x) ∧
    (eval .shu p β noCorr E (Lcirc β x) 0 0).im = 0 := by
  have hL : 0 < Lcirc β x := mul_pos hx (rpow_pos_of_pos hx _)
  have hg : 0 < gamma β / (2 * π) := div_pos (gamma_pos hb) (by positivity)
  constructor
  · rw [callEL_shu (by decide) hb hL, xL_Lcirc hb hx, lnShu, sub_eq_add_neg, exp_add, exp_add, exp_sub, exp_log hg,
      hp.sig_exp, hp.surf_exp, ← neg_div, gamma]
    have := (hp.sig_pos x).ne'
    field_simp
  · simp only [eval, shuEval_eq hb hL, Complex.ofReal_im]

/-- Schwarzschild's distribution function: a Gaussian in the velocities relative to the circular
speed, with the dispersion taken at the guiding-centre radius and the ratio `γ` of the epicycle
approximation. -/
theorem C58_schwarzschild {p : Profile} (hp : p.Sound) {β R vT : ℝ} (hb : -1 < β) (hR : 0 < R) (hv : 0 < vT)
    (vR : ℝ) {x : ℝ} (hx : 0 < x) (hxL : Lcirc β x = R * vT) :
    call .schwarzschild p β noCorr R vR vT =
      √(2 / (1 + β)) * p.surfacemass x / (2 * π * p.sigma2 x)
        * exp (-(vR ^ 2 + 2 / (1 + β) * (vT - R ^ β) ^ 2) / (2 * p.sigma2 x)) := by
  have hL : 0 < R * vT := mul_pos hR hv
  have hg : 0 < gamma β / (2 * π) := div_pos (gamma_pos hb) (by positivity)
  have ex : xL β (R * vT) = x := by rw [← hxL, xL_Lcirc hb hx]
  have e : (vRvTRToEL vR vT R β .schwarzschild).1 - Ecirc β x = vR ^ 2 / 2 + 2 / (1 + β) * (vT - R ^ β) ^ 2 / 2 := by
    have ex' : (if β = 0 then R * vT else (R * vT) ^ (1 / (β + 1))) = x := ex
    have hs : √(2 / (1 + β)) ^ 2 = 2 / (1 + β) := sq_sqrt (by
      have : 0 < 1 + β := by linarith
      positivity)
    simp only [vRvTRToEL, ex', axi_eq hx, hs, Ecirc, two_mul_pow hx]
    ring
  have e2 : (vRvTRToEL vR vT R β .schwarzschild).2 = R * vT := rfl
  rw [call, e2, callEL_shu (by decide) hb hL, ex, lnShu, e, sub_eq_add_neg, exp_add, exp_add, exp_sub, exp_log hg,
      hp.sig_exp, hp.surf_exp, gamma]
  have := (hp.sig_pos x).ne'
  have e3 : -((vR ^ 2 / 2 + 2 / (1 + β) * (vT - R ^ β) ^ 2 / 2) / p.sigma2 x)
      = -(vR ^ 2 + 2 / (1 + β) * (vT - R ^ β) ^ 2) / (2 * p.sigma2 x) := by field_simp
  rw [e3]
  field_simp

/-- On a flat curve, the circular orbit of radius one: energy `1/2`, angular momentum `1`. -/
example : Ecirc 0 1 = 1 / 2 ∧ Lcirc 0 1 = 1 ∧
    callEL .dehnen (expProfile (1 / 3) 1 0.2) 0 noCorr (1 / 2) 1 = √2 * exp (-3) / (2 * π * 0.2 ^ 2) := by
  have h1 : Ecirc 0 1 = 1 / 2 := by rw [Ecirc_zero one_pos]; simp
  have h2 : Lcirc 0 1 = 1 := by simp [Lcirc]
  refine ⟨h1, h2, ?_⟩
  have := (C58_dehnen (C58_profile (h := 1 / 3) (hs := 1) (s0 := 0.2) (by norm_num) (by norm_num) (by norm_num)).1
    (β := 0) (x := 1) (by norm_num) one_pos 1).1
  rw [h1, h2] at this
  rw [this]
  simp [expProfile]

/-! ### Counter-rotating orbits of the Shu distribution function -/

/-- On a flat curve the Shu distribution function puts nothing on counter-rotating orbits. Missing:
the other rotation curves (see `C58_shu_retrograde_fails`). -/
theorem C58_shu_retrograde_partial (p : Profile) (corr : ℝ → ℝ × ℝ) (E : ℝ) {L : ℝ} (hL : L < 0) :
    callEL .shu p 0 corr E L = 0 := by
  have : xL 0 L < 0 := by simpa [xL] using hL
  simp [callEL, eval, shuEval, this]

/-- For a Keplerian curve (`beta=-0.5`) the guiding-centre radius is `L ** 2.0`, which is positive
for negative `L`, so the test for counter-rotation does not see it: the DF is the same for `L` and
`-L`. (For other nonzero slopes `L ** (1 / (beta + 1))` is `nan` and so is the DF.) -/
theorem C58_shu_retrograde_fails {p : Profile} (hp : p.Sound) :
    ∃ E L : ℝ, L < 0 ∧ 0 < callEL .shu p (-1 / 2) noCorr E L ∧
      callEL .shu p (-1 / 2) noCorr E L = callEL .shu p (-1 / 2) noCorr E (-L) := by
  have k : ∀ E : ℝ, callEL .shu p (-1 / 2) noCorr E (-1) = callEL .shu p (-1 / 2) noCorr E 1 := by
    intro E
    have e1 : xL (-1 / 2) (-1) = 1 := by
      have : (1 / (-1 / 2 + 1) : ℝ) = ((2 : ℕ) : ℝ) := by norm_num
      rw [xL, if_neg (by norm_num), this, rpow_natCast]; norm_num
    have e2 : xL (-1 / 2) 1 = 1 := by
      rw [xL, if_neg (by norm_num), one_rpow]
    simp only [callEL, eval, shuEval, ECLE, e1, e2]
  refine ⟨0, -1, by norm_num, ?_, ?_⟩
  · rw [k, callEL_shu (by decide) (by norm_num) one_pos]; exact exp_pos _
  · rw [k, neg_neg]

/-! ### Logarithmic derivatives -/

namespace C58aux

/-- The bracket of `_dlnfdRe`. -/
def dRe (p : Profile) (β x L : ℝ) : ℝ :=
  p.surfacemassDerivativeLog x - (1 + OE β x * (L - LCE β x) / p.sigma2 x) * p.sigma2DerivativeLog x
    + (L - LCE β x) / p.sigma2 x * (β - 1) * x ^ (β - 2) - OE β x * (β + 1) / p.sigma2 x * x ^ β

theorem OE_eq {β x : ℝ} (hx : 0 < x) : OE β x = x ^ β / x := by
  unfold OE
  split_ifs with h
  · subst h; rw [rpow_neg_one, rpow_zero, one_div]
  · exact pow_sub_one hx β

theorem LCE_eq {β x : ℝ} (hx : 0 < x) : LCE β x = x ^ β * x := by
  unfold LCE
  split_ifs with h
  · subst h; simp
  · exact pow_add_one hx β

theorem lnDehnen_deriv {p : Profile} (hp : p.Sound) {β : ℝ} {X L : ℝ → ℝ} {X' L' s : ℝ} (hx : 0 < X s)
    (hX : HasDerivAt X X' s) (hL : HasDerivAt L L' s) :
    HasDerivAt (fun u => lnDehnen p β (X u) (L u))
      (dRe p β (X s) (L s) * X' + OE β (X s) / p.sigma2 (X s) * L') s := by
  have h1 : HasDerivAt (fun u => p.sigma2Log (X u)) (p.sigma2DerivativeLog (X s) * X') s :=
    (hp.sig_derivLog (X s)).comp s hX
  have h2 : HasDerivAt (fun u => p.surfacemassLog (X u)) (p.surfacemassDerivativeLog (X s) * X') s :=
    (hp.surf_derivLog (X s)).comp s hX
  unfold lnDehnen
  have hs := (hp.sig_pos (X s)).ne'
  have h4 : exp (p.sigma2Log (X s)) ≠ 0 := (exp_pos _).ne'
  have h3 := hx.ne'
  refine HasDerivAt.congr_deriv (by hasderiv) ?_
  simp only [Nat.cast_ofNat, Nat.add_one_sub_one, pow_one]
  rw [dRe, OE_eq hx, LCE_eq hx, pow_sub_two hx, hp.sig_exp]
  field_simp
  ring

theorem ln_dehnen {p : Profile} (hp : p.Sound) {β : ℝ} (hb : -1 < β) {E L : ℝ → ℝ} {E' L' s : ℝ}
    (hB : Bound β (E s)) (hE : HasDerivAt E E' s) (hL : HasDerivAt L L' s) :
    HasDerivAt (fun u => log (callEL .dehnen p β noCorr (E u) (L u)))
      (dRe p β (xE β (E s)) (L s) * (dxE β (E s) * E') + OE β (xE β (E s)) / p.sigma2 (xE β (E s)) * L') s := by
  have hX : HasDerivAt (fun u => xE β (E u)) (dxE β (E s) * E') s := (xE_deriv hb hB).comp s hE
  refine (lnDehnen_deriv hp (X := fun u => xE β (E u)) (hB.xE hb).1 hX hL).congr_of_eventuallyEq ?_
  filter_upwards [hE.continuousAt.eventually (hB.near hb)] with u hu
  rw [callEL_dehnen hb hu, log_exp]

theorem dehnenE_eq {β R : ℝ} (hR : 0 < R) (vR vT : ℝ) :
    dehnenE β R vR vT = (vRvTRToEL vR vT R β .dehnen).1 := by
  simp only [dehnenE, vRvTRToEL, axipotential]
  split_ifs <;> ring

theorem lnShu_deriv {p : Profile} (hp : p.Sound) {β : ℝ} {X E : ℝ → ℝ} {X' E' s : ℝ} (hx : 0 < X s)
    (hX : HasDerivAt X X' s) (hE : HasDerivAt E E' s) :
    HasDerivAt (fun u => lnShu p β (X u) (E u))
      ((p.surfacemassDerivativeLog (X s) - (1 + (Ecirc β (X s) - E s) / p.sigma2 (X s)) * p.sigma2DerivativeLog (X s)) * X'
        + ((1 + β) * ((X s) ^ β) ^ 2 / X s * X' - E') / p.sigma2 (X s)) s := by
  have h1 : HasDerivAt (fun u => p.sigma2Log (X u)) (p.sigma2DerivativeLog (X s) * X') s :=
    (hp.sig_derivLog (X s)).comp s hX
  have h2 : HasDerivAt (fun u => p.surfacemassLog (X u)) (p.surfacemassDerivativeLog (X s) * X') s :=
    (hp.surf_derivLog (X s)).comp s hX
  have h5 : HasDerivAt (fun u => Ecirc β (X u)) ((1 + β) * ((X s) ^ β) ^ 2 / X s * X') s :=
    (Ecirc_deriv hx).comp s hX
  unfold lnShu
  have hs := (hp.sig_pos (X s)).ne'
  have h4 : exp (p.sigma2Log (X s)) ≠ 0 := (exp_pos _).ne'
  have h3 := hx.ne'
  refine HasDerivAt.congr_deriv (by hasderiv) ?_
  rw [hp.sig_exp]
  field_simp
  ring

/-- Derivative of the guiding-centre radius. -/
theorem xL_deriv {β L : ℝ} (hb : -1 < β) (hL : 0 < L) : HasDerivAt (xL β) (xL β L / ((1 + β) * L)) L := by
  have h1 : 1 + β ≠ 0 := by linarith
  by_cases h0 : β = 0
  · subst h0
    have : xL 0 = fun l => l := by funext l; simp [xL]
    rw [this]
    refine (hd_id L).congr_deriv ?_
    field_simp
    norm_num
  · have e : xL β = fun l => l ^ (1 / (β + 1)) := by funext l; simp [xL, h0]
    rw [e]
    have h2 : β + 1 ≠ 0 := by linarith
    refine HasDerivAt.congr_deriv (by hasderiv) ?_
    field_simp
    ring

end C58aux
open C58aux

/-- Dehnen's DF: the three `_dlnfd*` methods are the partial derivatives of the logarithm of the DF
with respect to radius and the two velocities, at every bound phase-space point (including
retrograde ones). -/
theorem C58_dehnen_derivatives {p : Profile} (hp : p.Sound) {β R : ℝ} (hb : -1 < β) (hR : 0 < R) (vR vT : ℝ)
    (hE : β < 0 → (vR ^ 2 + vT ^ 2) / 2 + Phi β R < 0) :
    HasDerivAt (fun r => log (call .dehnen p β noCorr r vR vT)) (dlnfdR .dehnen p β R vR vT) R ∧
    HasDerivAt (fun v => log (call .dehnen p β noCorr R v vT)) (dlnfdvR .dehnen p β R vR vT) vR ∧
    HasDerivAt (fun v => log (call .dehnen p β noCorr R vR v)) (dlnfdvT .dehnen p β R vR vT) vT := by
  have hB : Bound β (vRvTRToEL vR vT R β .dehnen).1 := by
    rw [bound_iff hb]
    simp only [vRvTRToEL, axi_eq hR]
    refine ⟨fun h => ?_, fun h => by have := hE h; nlinarith⟩
    rw [phi_eq hR, if_neg h.ne']
    have := rpow_pos_of_pos hR (2 * β)
    positivity
  have hax : HasDerivAt (fun r => axipotential r β) ((R ^ β) ^ 2 / R) R := ((C58_curve hb).1 R hR).2
  have hEe := dehnenE_eq (β := β) hR vR vT
  refine ⟨?_, ?_, ?_⟩
  · have h1 : HasDerivAt (fun r => (vRvTRToEL vR vT r β .dehnen).1) ((R ^ β) ^ 2 / R) R := by
      simp only [vRvTRToEL]
      refine HasDerivAt.congr_deriv (by hasderiv) ?_
      ring
    have h2 : HasDerivAt (fun r => (vRvTRToEL vR vT r β .dehnen).2) vT R := by
      simp only [vRvTRToEL]
      refine HasDerivAt.congr_deriv (by hasderiv) ?_
      ring
    refine (ln_dehnen hp hb (E := fun r => (vRvTRToEL vR vT r β .dehnen).1) (L := fun r => (vRvTRToEL vR vT r β .dehnen).2) hB h1 h2).congr_deriv ?_
    simp only [dlnfdR, dehnenDlnfdR, hEe, dlnfdRe, dlnfdl, dRe, dxE]
    simp only [vRvTRToEL, mul_comm vT R]
    split_ifs with h
    · subst h; simp only [rpow_zero]; ring
    · rw [pow_sub_one hR, two_mul_pow hR]
  · have h1 : HasDerivAt (fun v => (vRvTRToEL v vT R β .dehnen).1) vR vR := by
      simp only [vRvTRToEL]
      refine HasDerivAt.congr_deriv (by hasderiv) ?_
      norm_num; ring
    have h2 : HasDerivAt (fun v => (vRvTRToEL v vT R β .dehnen).2) 0 vR := by
      simp only [vRvTRToEL]; hasderiv
    refine (ln_dehnen hp hb (E := fun v => (vRvTRToEL v vT R β .dehnen).1) (L := fun v => (vRvTRToEL v vT R β .dehnen).2) hB h1 h2).congr_deriv ?_
    simp only [dlnfdvR, dehnenDlnfdvR, hEe, dlnfdRe, dlnfdl, dRe, dxE]
    simp only [vRvTRToEL, mul_comm vT R, mul_zero, add_zero]
    split_ifs with h <;> rfl
  · have h1 : HasDerivAt (fun v => (vRvTRToEL vR v R β .dehnen).1) vT vT := by
      simp only [vRvTRToEL]
      refine HasDerivAt.congr_deriv (by hasderiv) ?_
      norm_num; ring
    have h2 : HasDerivAt (fun v => (vRvTRToEL vR v R β .dehnen).2) R vT := by
      simp only [vRvTRToEL]
      refine HasDerivAt.congr_deriv (by hasderiv) ?_
      ring
    refine (ln_dehnen hp hb (E := fun v => (vRvTRToEL vR v R β .dehnen).1) (L := fun v => (vRvTRToEL vR v R β .dehnen).2) hB h1 h2).congr_deriv ?_
    simp only [dlnfdvT, dehnenDlnfdvT, hEe, dlnfdRe, dlnfdl, dRe, dxE]
    simp only [vRvTRToEL, mul_comm vT R]
    split_ifs with h <;> rfl

/-- Shu's DF: the three `_dlnfd*` methods are the partial derivatives of the logarithm of the DF at
every prograde phase-space point. -/
theorem C58_shu_derivatives {p : Profile} (hp : p.Sound) {β R vT : ℝ} (hb : -1 < β) (hR : 0 < R) (vR : ℝ) (hv : 0 < vT) :
    HasDerivAt (fun r => log (call .shu p β noCorr r vR vT)) (dlnfdR .shu p β R vR vT) R ∧
    HasDerivAt (fun v => log (call .shu p β noCorr R v vT)) (dlnfdvR .shu p β R vR vT) vR ∧
    HasDerivAt (fun v => log (call .shu p β noCorr R vR v)) (dlnfdvT .shu p β R vR vT) vT := by
  have hL : 0 < vT * R := mul_pos hv hR
  have h1b : 1 + β ≠ 0 := by linarith
  have hax : HasDerivAt (fun r => axipotential r β) ((R ^ β) ^ 2 / R) R := ((C58_curve hb).1 R hR).2
  set x := xL β (vT * R) with hxd
  have hx : 0 < x := xL_pos hL
  have hpow : β ≠ 0 → (vT * R) ^ (1 / (β + 1)) = x := fun h => by rw [hxd, xL, if_neg h]
  have hx0 : β = 0 → x = vT * R := fun h => by rw [hxd, xL, if_pos h]
  have hs := (hp.sig_pos x).ne'
  refine ⟨?_, ?_, ?_⟩
  · have h1 : HasDerivAt (fun r => axipotential r β + 0.5 * vR ^ 2 + 0.5 * vT ^ 2) ((R ^ β) ^ 2 / R) R := by
      refine HasDerivAt.congr_deriv (by hasderiv) ?_
      ring
    have h2 : HasDerivAt (fun r => vT * r) vT R := by
      refine HasDerivAt.congr_deriv (by hasderiv) ?_
      ring
    have hX : HasDerivAt (fun r => xL β (vT * r)) (x / ((1 + β) * (vT * R)) * vT) R := (xL_deriv hb hL).comp R h2
    have := lnShu_deriv hp (X := fun r => xL β (vT * r)) (β := β) hx hX h1
    refine (this.congr_of_eventuallyEq ?_).congr_deriv ?_
    · filter_upwards [lt_mem_nhds hR] with r hr
      rw [call]
      simp only [vRvTRToEL]
      rw [callEL_shu (by decide) hb (mul_pos hv hr), log_exp]
    · simp only [dlnfdR, shuDlnfdR, vRvTRToEL, ← hxd, ECL_eq hx]
      split_ifs with h
      · subst h
        simp only [rpow_zero, hx0 rfl]
        field_simp
        ring
      · rw [hpow h, pow_sub_one hR, pow_sub_one hx, two_mul_pow hR, two_mul_pow hx]
        have : β + 1 ≠ 0 := by linarith
        field_simp
        ring
  · have h1 : HasDerivAt (fun v => axipotential R β + 0.5 * v ^ 2 + 0.5 * vT ^ 2) vR vR := by
      refine HasDerivAt.congr_deriv (by hasderiv) ?_
      norm_num; ring
    have := lnShu_deriv hp (X := fun _ => x) (β := β) hx (hd_const x vR) h1
    refine (this.congr_of_eventuallyEq ?_).congr_deriv ?_
    · filter_upwards with v
      rw [call]
      simp only [vRvTRToEL]
      rw [callEL_shu (by decide) hb hL, log_exp]
    · simp only [dlnfdvR, shuDlnfdvR, vRvTRToEL, ← hxd]
      ring
  · have h1 : HasDerivAt (fun v => axipotential R β + 0.5 * vR ^ 2 + 0.5 * v ^ 2) vT vT := by
      refine HasDerivAt.congr_deriv (by hasderiv) ?_
      norm_num; ring
    have h2 : HasDerivAt (fun v => v * R) R vT := by
      refine HasDerivAt.congr_deriv (by hasderiv) ?_
      ring
    have hX : HasDerivAt (fun v => xL β (v * R)) (x / ((1 + β) * (vT * R)) * R) vT :=
      HasDerivAt.comp (h₂ := xL β) vT (xL_deriv hb hL) h2
    have := lnShu_deriv hp (X := fun v => xL β (v * R)) (β := β) hx hX h1
    refine (this.congr_of_eventuallyEq ?_).congr_deriv ?_
    · filter_upwards [lt_mem_nhds hv] with v hv'
      rw [call]
      simp only [vRvTRToEL]
      rw [callEL_shu (by decide) hb (mul_pos hv' hR), log_exp]
    · simp only [dlnfdvT, shuDlnfdvT, vRvTRToEL, ← hxd, ECL_eq hx]
      split_ifs with h
      · subst h
        simp only [rpow_zero, hx0 rfl]
        field_simp
        ring
      · rw [hpow h, pow_sub_one hx, two_mul_pow hx]
        have : β + 1 ≠ 0 := by linarith
        field_simp
        ring

end Verif
