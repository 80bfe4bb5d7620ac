import Verif.Model.DF.Disk
import Verif.Util.Deriv
import Verif.Model.Pot.PowerSpherical

set_option autoImplicit false

/-! Auxiliary facts about the disk distribution functions. -/

noncomputable section
namespace Verif.Disk
open Real

/-- What a user-supplied profile has to satisfy: the `log=True` values are the logarithms and the
derivative methods are the derivatives, at every radius. -/
structure Profile.Sound (p : Profile) : Prop where
  surf_pos : ∀ R, 0 < p.surfacemass R
  surf_log : ∀ R, p.surfacemassLog R = log (p.surfacemass R)
  surf_deriv : ∀ R, HasDerivAt p.surfacemass (p.surfacemassDerivative R) R
  surf_derivLog : ∀ R, HasDerivAt p.surfacemassLog (p.surfacemassDerivativeLog R) R
  sig_pos : ∀ R, 0 < p.sigma2 R
  sig_log : ∀ R, p.sigma2Log R = log (p.sigma2 R)
  sig_deriv : ∀ R, HasDerivAt p.sigma2 (p.sigma2Derivative R) R
  sig_derivLog : ∀ R, HasDerivAt p.sigma2Log (p.sigma2DerivativeLog R) R

theorem Profile.Sound.sig_exp {p : Profile} (hp : p.Sound) (R : ℝ) : exp (p.sigma2Log R) = p.sigma2 R := by
  rw [hp.sig_log, exp_log (hp.sig_pos R)]
theorem Profile.Sound.surf_exp {p : Profile} (hp : p.Sound) (R : ℝ) : exp (p.surfacemassLog R) = p.surfacemass R := by
  rw [hp.surf_log, exp_log (hp.surf_pos R)]

/-- The power-law potential whose circular velocity is `R ^ β`. -/
def Phi (β R : ℝ) : ℝ := PowerSpherical.evaluate (2 - 2 * β) R 0
/-- Energy of the circular orbit of radius `R`. -/
def Ecirc (β R : ℝ) : ℝ := (R ^ β) ^ 2 / 2 + Phi β R
/-- Angular momentum of the circular orbit of radius `R`. -/
def Lcirc (β R : ℝ) : ℝ := R * R ^ β

theorem two_mul_pow {x : ℝ} (hx : 0 < x) (β : ℝ) : x ^ (2 * β) = (x ^ β) ^ 2 := by
  rw [two_mul, rpow_add hx, sq]
theorem pow_sub_one {x : ℝ} (hx : 0 < x) (β : ℝ) : x ^ (β - 1) = x ^ β / x := rpow_sub_one hx.ne' β
theorem pow_sub_two {x : ℝ} (hx : 0 < x) (β : ℝ) : x ^ (β - 2) = x ^ β / x ^ 2 := by
  rw [rpow_sub hx]; norm_num
theorem pow_add_one {x : ℝ} (hx : 0 < x) (β : ℝ) : x ^ (β + 1) = x ^ β * x := rpow_add_one hx.ne' β

theorem axi_eq {β R : ℝ} (hR : 0 < R) : axipotential R β = Phi β R := by
  unfold axipotential Phi PowerSpherical.evaluate
  by_cases h : β = 0
  · subst h; simp [log_pow]
  · have h2 : ¬ (2 - 2 * β = 2) := fun e => h (by linarith)
    have e : (R ^ 2 + 0 ^ 2) ^ (1 - (2 - 2 * β) / 2) = R ^ (2 * β) := by
      rw [zero_pow two_ne_zero, add_zero, ← rpow_natCast, ← rpow_mul hR.le]
      congr 1; push_cast; ring
    simp only [h, h2, if_false, e]
    have : 2 - 2 * β - 2 = -(2 * β) := by ring
    rw [this]; field_simp

theorem phi_eq {β R : ℝ} (hR : 0 < R) : Phi β R = if β = 0 then log R else R ^ (2 * β) / 2 / β := by
  rw [← axi_eq hR, axipotential]

theorem phi_deriv {β R : ℝ} (hR : 0 < R) : HasDerivAt (Phi β) ((R ^ β) ^ 2 / R) R := by
  have h : Phi β =ᶠ[nhds R] fun x => axipotential x β := by
    filter_upwards [lt_mem_nhds hR] with x hx using (axi_eq hx).symm
  refine HasDerivAt.congr_of_eventuallyEq ?_ h
  unfold axipotential
  by_cases hb : β = 0
  · simp only [hb, if_true, rpow_zero]
    simpa using hasDerivAt_log hR.ne'
  · simp only [hb, if_false]
    refine HasDerivAt.congr_deriv (by hasderiv) ?_
    rw [two_mul_pow hR]
    field_simp

theorem Ecirc_deriv {β R : ℝ} (hR : 0 < R) : HasDerivAt (Ecirc β) ((1 + β) * (R ^ β) ^ 2 / R) R := by
  unfold Ecirc
  have := phi_deriv (β := β) hR
  refine HasDerivAt.congr_deriv (by hasderiv) ?_
  simp only [Nat.cast_ofNat, Nat.add_one_sub_one, pow_one]
  field_simp
  ring

theorem Ecirc_of_ne {β R : ℝ} (hR : 0 < R) (h : β ≠ 0) : Ecirc β R = (1 + 1 / β) / 2 * R ^ (2 * β) := by
  rw [Ecirc, phi_eq hR, if_neg h, two_mul_pow hR]; field_simp

theorem Ecirc_zero {R : ℝ} (hR : 0 < R) : Ecirc 0 R = 1 / 2 + log R := by
  rw [Ecirc, phi_eq hR]; simp

/-- The energy radius found by the code is the radius of the circular orbit of that energy. -/
theorem xE_Ecirc {β R : ℝ} (hb : -1 < β) (hR : 0 < R) : xE β (Ecirc β R) = R := by
  unfold xE
  by_cases h : β = 0
  · subst h
    rw [if_pos rfl, Ecirc_zero hR]
    norm_num
    exact exp_log hR
  · rw [if_neg h, Ecirc_of_ne hR h]
    have h1 : 1 + 1 / β ≠ 0 := by
      intro e; field_simp at e; linarith
    have : 2 * ((1 + 1 / β) / 2 * R ^ (2 * β)) / (1 + 1 / β) = R ^ (2 * β) := by
      have : β + 1 ≠ 0 := by linarith
      field_simp
    rw [this, ← rpow_mul hR.le]
    have : 2 * β * (1 / 2 / β) = 1 := by field_simp
    rw [this, rpow_one]

theorem xL_Lcirc {β R : ℝ} (hb : -1 < β) (hR : 0 < R) : xL β (Lcirc β R) = R := by
  unfold xL Lcirc
  by_cases h : β = 0
  · subst h; simp
  · rw [if_neg h]
    have : R * R ^ β = R ^ (β + 1) := by rw [pow_add_one hR]; ring
    rw [this, ← rpow_mul hR.le]
    have : (β + 1) * (1 / (β + 1)) = 1 := by
      have : β + 1 ≠ 0 := by linarith
      field_simp
    rw [this, rpow_one]

/-- Energies that some circular orbit has. -/
def Bound (β E : ℝ) : Prop := ∃ R, 0 < R ∧ Ecirc β R = E

theorem bound_iff {β E : ℝ} (hb : -1 < β) : Bound β E ↔ (0 < β → 0 < E) ∧ (β < 0 → E < 0) := by
  constructor
  · rintro ⟨R, hR, rfl⟩
    have hp := rpow_pos_of_pos hR (2 * β)
    refine ⟨fun h => ?_, fun h => ?_⟩
    · rw [Ecirc_of_ne hR h.ne']; positivity
    · rw [Ecirc_of_ne hR h.ne]
      have : 1 + 1 / β < 0 := by
        have : 1 / β < -1 := by rw [div_lt_iff_of_neg h]; linarith
        linarith
      nlinarith
  · rintro ⟨h1, h2⟩
    by_cases h : β = 0
    · subst h
      exact ⟨exp (E - 1 / 2), exp_pos _, by rw [Ecirc_zero (exp_pos _), log_exp]; ring⟩
    · have hpos : 0 < 2 * E / (1 + 1 / β) := by
        rcases lt_or_gt_of_ne h with hl | hl
        · have h3 : 1 + 1 / β < 0 := by
            have : 1 / β < -1 := by rw [div_lt_iff_of_neg hl]; linarith
            linarith
          have := h2 hl
          exact div_pos_of_neg_of_neg (by linarith) h3
        · have := h1 hl; positivity
      have h1 : 1 + 1 / β ≠ 0 := by
        intro e; rw [e] at hpos; simp at hpos
      refine ⟨(2 * E / (1 + 1 / β)) ^ (1 / 2 / β), rpow_pos_of_pos hpos _, ?_⟩
      rw [Ecirc_of_ne (rpow_pos_of_pos hpos _) h, ← rpow_mul hpos.le]
      have : 1 / 2 / β * (2 * β) = 1 := by field_simp
      have : β + 1 ≠ 0 := by linarith
      rw [‹1 / 2 / β * (2 * β) = 1›, rpow_one]; field_simp

theorem Bound.xE {β E : ℝ} (hb : -1 < β) (h : Bound β E) : 0 < xE β E ∧ Ecirc β (xE β E) = E := by
  obtain ⟨R, hR, rfl⟩ := h
  rw [xE_Ecirc hb hR]; exact ⟨hR, rfl⟩

theorem Bound.near {β E : ℝ} (hb : -1 < β) (h : Bound β E) : ∀ᶠ e in nhds E, Bound β e := by
  rw [bound_iff hb] at h
  rcases lt_trichotomy β 0 with hl | hl | hl
  · filter_upwards [gt_mem_nhds (h.2 hl)] with e he
    exact (bound_iff hb).2 ⟨fun k => absurd k hl.not_gt, fun _ => he⟩
  · filter_upwards with e
    exact (bound_iff hb).2 ⟨fun k => absurd k (by linarith), fun k => absurd k (by linarith)⟩
  · filter_upwards [lt_mem_nhds (h.1 hl)] with e he
    exact (bound_iff hb).2 ⟨fun _ => he, fun k => absurd k hl.not_gt⟩

/-- Derivative of the energy radius, in the form used by the code. -/
def dxE (β E : ℝ) : ℝ := if β = 0 then xE β E else xE β E / 2 / β / E

theorem xE_deriv {β E : ℝ} (hb : -1 < β) (h : Bound β E) : HasDerivAt (xE β) (dxE β E) E := by
  by_cases h0 : β = 0
  · subst h0
    have : xE 0 = fun e => exp (e - 0.5) := by funext e; simp [xE]
    rw [this, dxE, if_pos rfl]
    refine HasDerivAt.congr_deriv (by hasderiv) ?_
    simp [xE]
  · have e : xE β = fun e => (2 * e / (1 + 1 / β)) ^ (1 / 2 / β) := by funext e; simp [xE, h0]
    have hp : 0 < 2 * E / (1 + 1 / β) := by
      rw [bound_iff hb] at h
      rcases lt_or_gt_of_ne h0 with hl | hl
      · have h3 : 1 + 1 / β < 0 := by
          have : 1 / β < -1 := by rw [div_lt_iff_of_neg hl]; linarith
          linarith
        have := h.2 hl
        exact div_pos_of_neg_of_neg (by linarith) h3
      · have := h.1 hl; positivity
    have h1 : 1 + 1 / β ≠ 0 := by
      intro e; rw [e] at hp; simp at hp
    have hE : E ≠ 0 := by rintro rfl; simp at hp
    rw [dxE, if_neg h0, e]
    refine HasDerivAt.congr_deriv (by hasderiv) ?_
    have : β + 1 ≠ 0 := by linarith
    field_simp

theorem expLog_eq (a x s : ℝ) : expLog a x s = ((exp a * x / exp s : ℝ) : ℂ) := by
  unfold expLog
  split_ifs with h
  · simp [h]
  · have : (x : ℂ) ≠ 0 := by exact_mod_cast h
    rw [Complex.exp_sub, Complex.exp_add, Complex.exp_log this]
    push_cast
    ring

theorem expOLLE_eq {β E : ℝ} (hb : -1 < β) (h : Bound β E) (L s : ℝ) :
    expOLLE β E L s = ((((xE β E) ^ β / xE β E * L - ((xE β E) ^ β) ^ 2) / exp s : ℝ) : ℂ) := by
  have hx := (h.xE hb).1
  unfold expOLLE
  by_cases h0 : β = 0
  · subst h0
    simp only [if_true, expLog_eq, rpow_zero]
    congr 2
    simp; ring
  · simp only [h0, if_false, expLog_eq]
    congr 2
    rw [mul_comm β, ← rpow_def_of_pos hx]
    ring

theorem gamma_pos {β : ℝ} (hb : -1 < β) : 0 < gamma β := by
  unfold gamma; have : 0 < 1 + β := by linarith
  positivity

/-- Logarithm of the Dehnen DF as a function of the energy radius and the angular momentum. -/
def lnDehnen (p : Profile) (β x L : ℝ) : ℝ :=
  log (gamma β / (2 * π)) - p.sigma2Log x + p.surfacemassLog x
    + (x ^ β / x * L - (x ^ β) ^ 2) / exp (p.sigma2Log x)

theorem dehnenEval_eq {p : Profile} {β E : ℝ} (hb : -1 < β) (h : Bound β E) (L lS ls : ℝ) :
    dehnenEval p β noCorr E L lS ls = ((exp (ls - lS + lnDehnen p β (xE β E) L) : ℝ) : ℂ) := by
  have hg : 0 < gamma β / (2 * π) := div_pos (gamma_pos hb) (by positivity)
  have e : ls - lS + lnDehnen p β (xE β E) L = log (gamma β / (2 * π))
      + ((ls - p.sigma2Log (xE β E) + p.surfacemassLog (xE β E) - lS)
        + ((xE β E) ^ β / xE β E * L - ((xE β E) ^ β) ^ 2) / exp (p.sigma2Log (xE β E))) := by
    rw [lnDehnen]; ring
  rw [e, exp_add, exp_log hg, dehnenEval]
  simp only [noCorr, add_zero, expOLLE_eq hb h]
  push_cast
  simp only [add_zero]
  field_simp

theorem callEL_dehnen {p : Profile} {β E : ℝ} (hb : -1 < β) (h : Bound β E) (L : ℝ) :
    callEL .dehnen p β noCorr E L = exp (lnDehnen p β (xE β E) L) := by
  unfold callEL eval
  simp only [dehnenEval_eq hb h, sub_self, zero_add, Complex.ofReal_re]

/-- Logarithm of the Shu DF as a function of the guiding-centre radius and the energy. -/
def lnShu (p : Profile) (β x E : ℝ) : ℝ :=
  log (gamma β / (2 * π)) - p.sigma2Log x + p.surfacemassLog x - (E - Ecirc β x) / exp (p.sigma2Log x)

theorem xL_pos {β L : ℝ} (hL : 0 < L) : 0 < xL β L := by
  unfold xL; split_ifs
  · exact hL
  · exact rpow_pos_of_pos hL _

theorem Lcirc_xL {β L : ℝ} (hb : -1 < β) (hL : 0 < L) : Lcirc β (xL β L) = L := by
  have hx := xL_pos (β := β) hL
  unfold Lcirc
  have : xL β L * xL β L ^ β = xL β L ^ (β + 1) := by rw [pow_add_one hx]; ring
  rw [this]
  unfold xL
  by_cases h : β = 0
  · subst h; simp
  · rw [if_neg h, ← rpow_mul hL.le]
    have : 1 / (β + 1) * (β + 1) = 1 := by
      have : β + 1 ≠ 0 := by linarith
      field_simp
    rw [this, rpow_one]

theorem ECLE_eq {β E L : ℝ} (hL : 0 < L) : ECLE β E L = E - Ecirc β (xL β L) := by
  have hx := xL_pos (β := β) hL
  unfold ECLE
  by_cases h : β = 0
  · subst h; rw [if_pos rfl, Ecirc_zero hx]; ring
  · rw [if_neg h, Ecirc_of_ne hx h]; ring

theorem ECL_eq {β x : ℝ} (hx : 0 < x) : ECL β x = Ecirc β x := by
  unfold ECL
  by_cases h : β = 0
  · subst h; rw [if_pos rfl, Ecirc_zero hx]; ring
  · rw [if_neg h, Ecirc_of_ne hx h]; ring

theorem shuEval_eq {p : Profile} {β L : ℝ} (hb : -1 < β) (hL : 0 < L) (E lS ls : ℝ) :
    shuEval p β noCorr E L lS ls = ((exp (ls - lS + lnShu p β (xL β L) E) : ℝ) : ℂ) := by
  have hg : 0 < gamma β / (2 * π) := div_pos (gamma_pos hb) (by positivity)
  have hx := xL_pos (β := β) hL
  have e : ls - lS + lnShu p β (xL β L) E = log (gamma β / (2 * π))
      + ((ls - p.sigma2Log (xL β L) + p.surfacemassLog (xL β L) - lS)
        - (E - Ecirc β (xL β L)) / exp (p.sigma2Log (xL β L))) := by
    rw [lnShu]; ring
  rw [e, exp_add, exp_log hg, shuEval]
  simp only [hx.not_gt, if_false, noCorr, add_zero, expLog_eq, ECLE_eq hL]
  push_cast
  simp only [add_zero, Complex.exp_zero, one_mul]
  field_simp

theorem callEL_shu {p : Profile} {β L : ℝ} {ty : DfType} (ht : ty ≠ .dehnen) (hb : -1 < β) (hL : 0 < L) (E : ℝ) :
    callEL ty p β noCorr E L = exp (lnShu p β (xL β L) E) := by
  cases ty
  · exact absurd rfl ht
  all_goals
    unfold callEL eval
    simp only [shuEval_eq hb hL, sub_self, zero_add, Complex.ofReal_re]

end Verif.Disk
