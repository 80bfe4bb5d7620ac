import Verif.Props.C58Moments
import Verif.Util.Leibniz

set_option autoImplicit false

/-!
# C58, continued: central moments and the Oort constants
-/

noncomputable section
namespace Verif
open Real Disk intervalIntegral C58Spec C58aux

namespace C58aux

theorem central_expand {f : ℝ → ℝ → ℝ} {v0 a b : ℝ}
    (hF : IntervalIntegrable (fun v => ∫ x in (-a)..a, f x v) MeasureTheory.volume (v0 - b) (v0 + b)) (μ : ℝ) :
    (∀ m, moment f v0 a b 0 m = ∫ v in (v0 - b)..(v0 + b), v ^ m * ∫ x in (-a)..a, f x v) ∧
    (∀ k, central f v0 a b μ k = ∫ v in (v0 - b)..(v0 + b), (v - μ) ^ k * ∫ x in (-a)..a, f x v) ∧
    (∀ m, IntervalIntegrable (fun v => v ^ m * ∫ x in (-a)..a, f x v) MeasureTheory.volume (v0 - b) (v0 + b)) := by
  refine ⟨fun m => ?_, fun k => ?_, fun m => ?_⟩
  · simp only [moment, pow_zero, one_mul, integral_const_mul]
  · simp only [central, integral_const_mul]
  · exact hF.continuousOn_mul (by fun_prop)

theorem central_poly {f : ℝ → ℝ → ℝ} {v0 a b : ℝ}
    (hF : IntervalIntegrable (fun v => ∫ x in (-a)..a, f x v) MeasureTheory.volume (v0 - b) (v0 + b)) (μ : ℝ) :
    central f v0 a b μ 2 = moment f v0 a b 0 2 - 2 * μ * moment f v0 a b 0 1 + μ ^ 2 * moment f v0 a b 0 0 ∧
    central f v0 a b μ 3 = moment f v0 a b 0 3 - 3 * μ * moment f v0 a b 0 2 + 3 * μ ^ 2 * moment f v0 a b 0 1
      - μ ^ 3 * moment f v0 a b 0 0 ∧
    central f v0 a b μ 4 = moment f v0 a b 0 4 - 4 * μ * moment f v0 a b 0 3 + 6 * μ ^ 2 * moment f v0 a b 0 2
      - 4 * μ ^ 3 * moment f v0 a b 0 1 + μ ^ 4 * moment f v0 a b 0 0 := by
  obtain ⟨h1, h2, h3⟩ := central_expand hF μ
  simp only [h1, h2]
  set F : ℝ → ℝ := fun v => ∫ x in (-a)..a, f x v with hFd
  have g : ∀ m, IntervalIntegrable (fun v => v ^ m * F v) MeasureTheory.volume (v0 - b) (v0 + b) := h3
  refine ⟨?_, ?_, ?_⟩
  · rw [← integral_const_mul, ← integral_const_mul, ← integral_sub (g 2) ((g 1).const_mul _),
      ← integral_add ((g 2).sub ((g 1).const_mul _)) ((g 0).const_mul _)]
    exact integral_congr fun v _ => by beta_reduce; ring
  · rw [← integral_const_mul, ← integral_const_mul, ← integral_const_mul, ← integral_sub (g 3) ((g 2).const_mul _),
      ← integral_add ((g 3).sub ((g 2).const_mul _)) ((g 1).const_mul _),
      ← integral_sub (((g 3).sub ((g 2).const_mul _)).add ((g 1).const_mul _)) ((g 0).const_mul _)]
    exact integral_congr fun v _ => by beta_reduce; ring
  · rw [← integral_const_mul, ← integral_const_mul, ← integral_const_mul, ← integral_const_mul,
      ← integral_sub (g 4) ((g 3).const_mul _),
      ← integral_add ((g 4).sub ((g 3).const_mul _)) ((g 2).const_mul _),
      ← integral_sub (((g 4).sub ((g 3).const_mul _)).add ((g 2).const_mul _)) ((g 1).const_mul _),
      ← integral_add ((((g 4).sub ((g 3).const_mul _)).add ((g 2).const_mul _)).sub ((g 1).const_mul _)) ((g 0).const_mul _)]
    exact integral_congr fun v _ => by beta_reduce; ring

end C58aux

/-- Dispersion, skewness and excess kurtosis of the tangential velocity are those of the velocity
distribution over the box: central moments about the mean, normalised by the dispersion; and those
of the radial velocity likewise, with zero mean and zero skewness. The hypothesis is that the
distribution over `vT` is integrable and does not integrate to zero. -/
theorem C58_central {p : Profile} (hp : p.Sound) (ty : DfType) {β : ℝ} (hb : -1 < β) (corr : ℝ → ℝ × ℝ) (R ns : ℝ)
    (v0 a b S : ℝ) (hv0 : v0 = R ^ β - vaRange p β R) (ha : a = ns * √(p.sigma2 R))
    (hbb : b = ns * √(p.sigma2 R) / √(2 / (1 + β))) (hS : S = moment (call ty p β corr R) v0 a b 0 0)
    (hF : IntervalIntegrable (fun v => ∫ x in (-a)..a, call ty p β corr R x v) MeasureTheory.volume (v0 - b) (v0 + b))
    (h0 : S ≠ 0) :
    ∃ μ, μ = moment (call ty p β corr R) v0 a b 0 1 / S ∧
      central (call ty p β corr R) v0 a b μ 1 = 0 ∧
      surfacemass ty p β corr R ns false = S ∧
      meanvT ty p β corr R ns = μ ∧
      sigmaT2 ty p β corr R ns = central (call ty p β corr R) v0 a b μ 2 / S ∧
      skewvT ty p β corr R ns = central (call ty p β corr R) v0 a b μ 3 / S
        / (central (call ty p β corr R) v0 a b μ 2 / S) ^ (3 / 2 : ℝ) ∧
      kurtosisvT ty p β corr R ns = central (call ty p β corr R) v0 a b μ 4 / S
        / (central (call ty p β corr R) v0 a b μ 2 / S) ^ 2 - 3 ∧
      sigmaR2 ty p β corr R ns = moment (call ty p β corr R) v0 a b 2 0 / S ∧
      skewvR ty p β corr R ns = 0 ∧
      kurtosisvR ty p β corr R ns = moment (call ty p β corr R) v0 a b 4 0 / S
        / (moment (call ty p β corr R) v0 a b 2 0 / S) ^ 2 - 3 := by
  obtain ⟨hm, -, hs, hs2⟩ := C58_moments hp ty hb corr R ns
  subst hv0 ha hbb
  rw [← hS] at hs
  set f := call ty p β corr R with hf
  set v0 := R ^ β - vaRange p β R
  set a := ns * √(p.sigma2 R)
  set b := ns * √(p.sigma2 R) / √(2 / (1 + β))
  have hM1 : ∀ k, central f v0 a b (moment f v0 a b 0 1 / S) k = central f v0 a b (moment f v0 a b 0 1 / S) k := fun _ => rfl
  obtain ⟨c2, c3, c4⟩ := central_poly hF (moment f v0 a b 0 1 / S)
  have c1 : central f v0 a b (moment f v0 a b 0 1 / S) 1 = 0 := by
    obtain ⟨h1, h2, h3⟩ := central_expand hF (moment f v0 a b 0 1 / S)
    rw [h2]
    have : ∫ v in (v0 - b)..(v0 + b), (v - moment f v0 a b 0 1 / S) ^ 1 * ∫ x in (-a)..a, f x v
        = moment f v0 a b 0 1 - moment f v0 a b 0 1 / S * moment f v0 a b 0 0 := by
      rw [h1 1, h1 0]
      generalize (∫ v in (v0 - b)..(v0 + b), v ^ 1 * ∫ x in (-a)..a, f x v) / S = c
      rw [← integral_const_mul, ← integral_sub (h3 1) ((h3 0).const_mul _)]
      exact integral_congr fun v _ => by beta_reduce; ring
    rw [this, ← hS]; field_simp; ring
  have hR1 : ∀ k, k % 2 = 1 → moment f v0 a b k 0 = 0 := fun k hk => by
    rw [← hm k 0, vmoment, if_pos hk]
  rw [← hS] at c2 c3 c4
  refine ⟨_, rfl, c1, hs, ?_, ?_, ?_, ?_, ?_, ?_, ?_⟩
  · rw [meanvT, hm, hs]
  · simp only [sigmaT2, hm, hs, c2]; field_simp; ring
  · simp only [skewvT, hm, hs, c2, c3]
    rw [show (-1.5 : ℝ) = -(3 / 2) by norm_num]
    have e2 : (moment f v0 a b 0 2 - 2 * (moment f v0 a b 0 1 / S) * moment f v0 a b 0 1 + (moment f v0 a b 0 1 / S) ^ 2 * S) / S
        = moment f v0 a b 0 2 / S - (moment f v0 a b 0 1 / S) ^ 2 := by field_simp; ring
    have e3 : (moment f v0 a b 0 3 - 3 * (moment f v0 a b 0 1 / S) * moment f v0 a b 0 2
        + 3 * (moment f v0 a b 0 1 / S) ^ 2 * moment f v0 a b 0 1 - (moment f v0 a b 0 1 / S) ^ 3 * S) / S
        = moment f v0 a b 0 3 / S - 3 * (moment f v0 a b 0 1 / S) * (moment f v0 a b 0 2 / S) + 2 * (moment f v0 a b 0 1 / S) ^ 3 := by
      field_simp; ring
    rw [e2, e3]
    have hpos : 0 ≤ moment f v0 a b 0 2 / S - (moment f v0 a b 0 1 / S) ^ 2 ∨
      moment f v0 a b 0 2 / S - (moment f v0 a b 0 1 / S) ^ 2 < 0 := le_or_gt _ _
    rw [div_eq_mul_inv _ ((_ : ℝ) ^ (3 / 2 : ℝ))]
    congr 1
    rcases hpos with h | h
    · rw [rpow_neg h]
    · rw [rpow_def_of_neg h, rpow_def_of_neg h, mul_inv, ← exp_neg]
      have k1 : cos (3 / 2 * π) = 0 := by
        rw [show 3 / 2 * π = π / 2 + π by ring, cos_add_pi, cos_pi_div_two, neg_zero]
      have k2 : cos (-(3 / 2) * π) = 0 := by rw [neg_mul, cos_neg, k1]
      rw [k1, k2]; simp
  · simp only [kurtosisvT, hm, hs, c2, c4]
    rw [show (-2 : ℝ) = ((-2 : ℤ) : ℝ) by norm_num, rpow_intCast]
    have e2 : (moment f v0 a b 0 2 - 2 * (moment f v0 a b 0 1 / S) * moment f v0 a b 0 1 + (moment f v0 a b 0 1 / S) ^ 2 * S) / S
        = moment f v0 a b 0 2 / S - (moment f v0 a b 0 1 / S) ^ 2 := by field_simp; ring
    have e4 : (moment f v0 a b 0 4 - 4 * (moment f v0 a b 0 1 / S) * moment f v0 a b 0 3
        + 6 * (moment f v0 a b 0 1 / S) ^ 2 * moment f v0 a b 0 2 - 4 * (moment f v0 a b 0 1 / S) ^ 3 * moment f v0 a b 0 1
        + (moment f v0 a b 0 1 / S) ^ 4 * S) / S
        = moment f v0 a b 0 4 / S - 4 * (moment f v0 a b 0 1 / S) * (moment f v0 a b 0 3 / S)
          + 6 * (moment f v0 a b 0 1 / S) ^ 2 * (moment f v0 a b 0 2 / S) - 3 * (moment f v0 a b 0 1 / S) ^ 4 := by
      field_simp; ring
    rw [e2, e4, div_eq_mul_inv _ ((_ : ℝ) ^ 2)]
    congr 2
  · rw [sigmaR2, hs2, hs]
  · simp only [skewvR, hm, hR1 1 rfl, hR1 3 rfl]
    simp
  · simp only [kurtosisvR, hm, hR1 1 rfl, hR1 3 rfl, hs]
    rw [show (-2 : ℝ) = ((-2 : ℤ) : ℝ) by norm_num, rpow_intCast, div_eq_mul_inv _ ((_ : ℝ) ^ 2)]
    simp

/-! ### The radial derivative of the mean velocity -/

namespace C58aux

/-- A profile whose logarithmic derivatives are continuous. -/
structure Smooth (p : Profile) : Prop where
  sound : p.Sound
  surf : Continuous p.surfacemassDerivativeLog
  sig : Continuous p.sigma2DerivativeLog

theorem exp_smooth {h hs s0 : ℝ} (hh : h ≠ 0) (hhs : hs ≠ 0) (h0 : 0 < s0) : Smooth (expProfile h hs s0) where
  sound := (C58_profile hh hhs h0).1
  surf := continuous_const
  sig := continuous_const

/-- Energy as a function of the logarithm of the radius and the velocities. -/
def En (β : ℝ) (q : ℝ × ℝ × ℝ) : ℝ := axipotential (exp q.1) β + 0.5 * q.2.2 ^ 2 + 0.5 * q.2.1 ^ 2

theorem En_cont (β : ℝ) : Continuous (En β) := by
  have : Continuous fun u : ℝ => axipotential (exp u) β := by
    unfold axipotential
    by_cases h : β = 0
    · simp only [h, if_true, log_exp]; exact continuous_id
    · simp only [h, if_false]
      have : Continuous fun u : ℝ => exp u ^ (2 * β) :=
        continuous_exp.rpow_const fun u => Or.inl (exp_pos u).ne'
      fun_prop
  unfold En
  exact ((this.comp continuous_fst).add (by fun_prop)).add (by fun_prop)

theorem En_bound {β : ℝ} (hb : 0 ≤ β) (q : ℝ × ℝ × ℝ) : Bound β (En β q) := by
  rw [bound_iff (by linarith)]
  refine ⟨fun h => ?_, fun h => absurd h hb.not_gt⟩
  have : 0 < axipotential (exp q.1) β := by
    rw [axipotential, if_neg h.ne']
    have := rpow_pos_of_pos (exp_pos q.1) (2 * β)
    positivity
  unfold En
  positivity

theorem xE_cont {β : ℝ} (hb : 0 ≤ β) : Continuous fun q : ℝ × ℝ × ℝ => xE β (En β q) := by
  refine continuous_iff_continuousAt.2 fun q => ?_
  exact ContinuousAt.comp (g := xE β) (xE_deriv (by linarith) (En_bound hb q)).continuousAt (En_cont β).continuousAt

theorem call_cont {p : Profile} (hp : Smooth p) {β : ℝ} (hb : 0 ≤ β) :
    Continuous fun q : ℝ × ℝ × ℝ => call .dehnen p β noCorr (exp q.1) q.2.2 q.2.1 := by
  have e : ∀ q : ℝ × ℝ × ℝ, call .dehnen p β noCorr (exp q.1) q.2.2 q.2.1
      = exp (lnDehnen p β (xE β (En β q)) (q.2.1 * exp q.1)) := fun q => by
    rw [← callEL_dehnen (by linarith) (En_bound hb q)]; rfl
  simp only [e]
  refine continuous_exp.comp ?_
  have hx := xE_cont hb
  have hpos : ∀ q : ℝ × ℝ × ℝ, 0 < xE β (En β q) := fun q => ((En_bound hb q).xE (by linarith)).1
  have h1 : Continuous p.sigma2Log := continuous_iff_continuousAt.2 fun x => (hp.sound.sig_derivLog x).continuousAt
  have h2 : Continuous p.surfacemassLog := continuous_iff_continuousAt.2 fun x => (hp.sound.surf_derivLog x).continuousAt
  have h3 : Continuous fun q : ℝ × ℝ × ℝ => xE β (En β q) ^ β := hx.rpow_const fun q => Or.inl (hpos q).ne'
  unfold lnDehnen
  refine (((continuous_const.sub (h1.comp hx)).add (h2.comp hx)).add ?_)
  refine Continuous.div ?_ (continuous_exp.comp (h1.comp hx)) fun q => (exp_pos _).ne'
  refine ((h3.div hx fun q => (hpos q).ne').mul ?_).sub (h3.pow 2)
  fun_prop

theorem dlnfdR_cont {p : Profile} (hp : Smooth p) {β : ℝ} (hb : 0 ≤ β) :
    Continuous fun q : ℝ × ℝ × ℝ => dlnfdR .dehnen p β (exp q.1) q.2.2 q.2.1 := by
  have hx := xE_cont hb
  have hpos : ∀ q : ℝ × ℝ × ℝ, 0 < xE β (En β q) := fun q => ((En_bound hb q).xE (by linarith)).1
  have hE : ∀ q : ℝ × ℝ × ℝ, dehnenE β (exp q.1) q.2.2 q.2.1 = En β q := fun q => dehnenE_eq (exp_pos q.1) _ _
  have h1 : Continuous p.sigma2 := continuous_iff_continuousAt.2 fun x => (hp.sound.sig_deriv x).continuousAt
  have hs : ∀ q : ℝ × ℝ × ℝ, p.sigma2 (xE β (En β q)) ≠ 0 := fun q => (hp.sound.sig_pos _).ne'
  have h3 : ∀ c : ℝ, Continuous fun q : ℝ × ℝ × ℝ => xE β (En β q) ^ c := fun c => hx.rpow_const fun q => Or.inl (hpos q).ne'
  have h4 := h1.comp hx
  have h5 := hp.surf.comp hx
  have h6 := hp.sig.comp hx
  have hO : Continuous fun q : ℝ × ℝ × ℝ => OE β (xE β (En β q)) := by
    unfold OE; split_ifs
    · exact h3 _
    · exact h3 _
  have hL : Continuous fun q : ℝ × ℝ × ℝ => LCE β (xE β (En β q)) := by
    unfold LCE; split_ifs
    · exact hx
    · exact h3 _
  have hd : Continuous fun q : ℝ × ℝ × ℝ => if β = 0 then xE β (En β q) / exp q.1
      else xE β (En β q) / 2 / β / En β q * exp q.1 ^ (2 * β - 1) := by
    split_ifs with h
    · exact hx.div (by fun_prop) fun q => (exp_pos _).ne'
    · refine (((hx.div_const 2).div_const β).div (En_cont β) fun q => ?_).mul ?_
      · have := (bound_iff (by linarith)).1 (En_bound hb q)
        exact (this.1 (lt_of_le_of_ne hb (Ne.symm h))).ne'
      · exact (continuous_exp.comp continuous_fst).rpow_const fun q => Or.inl (exp_pos _).ne'
  simp only [dlnfdR, dehnenDlnfdR, dlnfdRe, dlnfdl, hE]
  have hLL : Continuous fun q : ℝ × ℝ × ℝ => exp q.1 * q.2.1 - LCE β (xE β (En β q)) :=
    (by fun_prop : Continuous fun q : ℝ × ℝ × ℝ => exp q.1 * q.2.1).sub hL
  refine Continuous.add (Continuous.mul ?_ hd) ((hO.div h4 hs).mul (by fun_prop))
  refine ((h5.sub ((continuous_const.add ((hO.mul hLL).div h4 hs)).mul h6)).add ?_).sub ?_
  · exact ((hLL.div h4 hs).mul continuous_const).mul (h3 _)
  · exact ((hO.mul continuous_const).div h4 hs).mul (h3 _)

theorem call_pos {p : Profile} {β : ℝ} (hb : 0 ≤ β) {R : ℝ} (hR : 0 < R) (vR vT : ℝ) : 0 < call .dehnen p β noCorr R vR vT := by
  have h : Bound β (vRvTRToEL vR vT R β .dehnen).1 := by
    have := En_bound hb (log R, vT, vR)
    rw [En, exp_log hR] at this
    exact this
  rw [call, callEL_dehnen (by linarith) h]
  exact exp_pos _

theorem call_deriv {p : Profile} (hp : p.Sound) {β : ℝ} (hb : 0 ≤ β) {R : ℝ} (hR : 0 < R) (vR vT : ℝ) :
    HasDerivAt (fun r => call .dehnen p β noCorr r vR vT) (call .dehnen p β noCorr R vR vT * dlnfdR .dehnen p β R vR vT) R := by
  have h := ((C58_dehnen_derivatives hp (by linarith) hR vR vT (fun k => absurd k hb.not_gt)).1).exp
  rw [exp_log (call_pos hb hR vR vT)] at h
  refine h.congr_of_eventuallyEq ?_
  filter_upwards [lt_mem_nhds hR] with r hr
  rw [exp_log (call_pos hb hr vR vT)]

theorem moment_deriv {p : Profile} (hp : Smooth p) {β : ℝ} (hb : 0 ≤ β) {R : ℝ} (hR : 0 < R) (v0 a b : ℝ) (n m : ℕ) :
    HasDerivAt (fun r => moment (call .dehnen p β noCorr r) v0 a b n m)
      (moment (fun vR vT => call .dehnen p β noCorr R vR vT * dlnfdR .dehnen p β R vR vT) v0 a b n m) R := by
  have key := leibniz₂ (f := fun u vT vR => vR ^ n * vT ^ m * call .dehnen p β noCorr (exp u) vR vT)
    (f' := fun u vT vR => vR ^ n * vT ^ m * (call .dehnen p β noCorr (exp u) vR vT * dlnfdR .dehnen p β (exp u) vR vT * exp u))
    (fun u vT vR => by
      have h := (call_deriv hp.sound hb (exp_pos u) vR vT).comp u (Real.hasDerivAt_exp u)
      exact h.const_mul _)
    (by have := call_cont hp hb; fun_prop)
    (by have := call_cont hp hb; have := dlnfdR_cont hp hb; fun_prop) (v0 - b) (v0 + b) (-a) a (log R)
  have h := key.comp R (hasDerivAt_log hR.ne')
  refine (h.congr_of_eventuallyEq ?_).congr_deriv ?_
  · filter_upwards [lt_mem_nhds hR] with r hr
    simp only [Function.comp, moment, exp_log hr]
  · simp only [moment, exp_log hR, ← mul_assoc]
    simp only [integral_mul_const]
    field_simp

theorem moment_pos {p : Profile} (hp : Smooth p) {β : ℝ} (hb : 0 ≤ β) {R : ℝ} (hR : 0 < R) (v0 : ℝ) {a b : ℝ}
    (ha : 0 < a) (hbb : 0 < b) : 0 < moment (call .dehnen p β noCorr R) v0 a b 0 0 := by
  have hc : Continuous fun q : ℝ × ℝ => call .dehnen p β noCorr R q.2 q.1 := by
    have := (call_cont hp hb).comp (by fun_prop : Continuous fun q : ℝ × ℝ => ((log R, q.1, q.2) : ℝ × ℝ × ℝ))
    simpa only [Function.comp_def, exp_log hR] using this
  have hF : Continuous fun vT => ∫ vR in (-a)..a, call .dehnen p β noCorr R vR vT :=
    continuous_parametric_intervalIntegral_of_continuous' (f := fun vT vR => call .dehnen p β noCorr R vR vT) hc (-a) a
  simp only [moment, pow_zero, one_mul]
  refine intervalIntegral_pos_of_pos (hF.intervalIntegrable _ _) (fun vT => ?_) (by linarith)
  refine intervalIntegral_pos_of_pos ?_ (fun vR => call_pos hb hR vR vT) (by linarith)
  exact (hc.comp (by fun_prop : Continuous fun x : ℝ => ((vT, x) : ℝ × ℝ))).intervalIntegrable _ _

theorem inner_integrable {p : Profile} (hp : Smooth p) {β : ℝ} (hb : 0 ≤ β) {R : ℝ} (hR : 0 < R) (a c d : ℝ) :
    IntervalIntegrable (fun vT => ∫ vR in (-a)..a, call .dehnen p β noCorr R vR vT) MeasureTheory.volume c d := by
  have hc : Continuous fun q : ℝ × ℝ => call .dehnen p β noCorr R q.2 q.1 := by
    have := (call_cont hp hb).comp (by fun_prop : Continuous fun q : ℝ × ℝ => ((log R, q.1, q.2) : ℝ × ℝ × ℝ))
    simpa only [Function.comp_def, exp_log hR] using this
  exact (continuous_parametric_intervalIntegral_of_continuous'
    (f := fun vT vR => call .dehnen p β noCorr R vR vT) hc (-a) a).intervalIntegrable _ _

end C58aux

/-- The Oort constants of the Dehnen DF on a flat or rising curve: `oortA` and `oortB` are the
textbook combinations of the mean rotation velocity and of its exact radial derivative, the mean
being taken over the velocity box used at that radius. -/
theorem C58_oort {p : Profile} (hp : Smooth p) {β : ℝ} (hb : 0 ≤ β) {R ns : ℝ} (hR : 0 < R) (hn : 0 < ns)
    (v0 a b : ℝ) (hv0 : v0 = R ^ β - vaRange p β R) (ha : a = ns * √(p.sigma2 R))
    (hbb : b = ns * √(p.sigma2 R) / √(2 / (1 + β))) :
    ∃ d, HasDerivAt (fun r => moment (call .dehnen p β noCorr r) v0 a b 0 1 / moment (call .dehnen p β noCorr r) v0 a b 0 0) d R ∧
      meanvT .dehnen p β noCorr R ns = moment (call .dehnen p β noCorr R) v0 a b 0 1 / moment (call .dehnen p β noCorr R) v0 a b 0 0 ∧
      oortA .dehnen p β noCorr R ns = (meanvT .dehnen p β noCorr R ns / R - d) / 2 ∧
      oortB .dehnen p β noCorr R ns = -(meanvT .dehnen p β noCorr R ns / R + d) / 2 := by
  have hb1 : -1 < β := by linarith
  have hs : 0 < √(p.sigma2 R) := sqrt_pos.2 (hp.sound.sig_pos R)
  have hg : 0 < √(2 / (1 + β)) := gamma_pos hb1
  have hpos : 0 < moment (call .dehnen p β noCorr R) v0 a b 0 0 :=
    moment_pos hp hb hR v0 (by rw [ha]; positivity) (by rw [hbb]; positivity)
  obtain ⟨hm, hd, hS, -⟩ := C58_moments hp.sound .dehnen hb1 noCorr R ns
  subst hv0 ha hbb
  refine ⟨dmeanvTdR .dehnen p β noCorr R ns, ?_, ?_, ?_, ?_⟩
  · refine ((moment_deriv hp hb hR _ _ _ 0 1).fun_div (moment_deriv hp hb hR _ _ _ 0 0) hpos.ne').congr_deriv ?_
    simp only [dmeanvTdR, hm, hd]
    field_simp
  · rw [meanvT, hm, hS]
  · rw [oortA]; ring
  · rw [oortB]; ring

/-- The default Dehnen DF at the solar circle, integrated over four dispersions: the hypotheses of
`C58_central` and `C58_oort` hold. -/
example : ∃ d, HasDerivAt (fun r => moment (call .dehnen (expProfile (1 / 3) 1 0.2) 0 noCorr r)
      (1 ^ (0 : ℝ) - vaRange (expProfile (1 / 3) 1 0.2) 0 1) (4 * √((expProfile (1 / 3) 1 0.2).sigma2 1))
      (4 * √((expProfile (1 / 3) 1 0.2).sigma2 1) / √(2 / (1 + 0))) 0 1 /
    moment (call .dehnen (expProfile (1 / 3) 1 0.2) 0 noCorr r)
      (1 ^ (0 : ℝ) - vaRange (expProfile (1 / 3) 1 0.2) 0 1) (4 * √((expProfile (1 / 3) 1 0.2).sigma2 1))
      (4 * √((expProfile (1 / 3) 1 0.2).sigma2 1) / √(2 / (1 + 0))) 0 0) d 1 ∧
    oortA .dehnen (expProfile (1 / 3) 1 0.2) 0 noCorr 1 4 = (meanvT .dehnen (expProfile (1 / 3) 1 0.2) 0 noCorr 1 4 / 1 - d) / 2 := by
  obtain ⟨d, h1, _, h3, _⟩ := C58_oort (exp_smooth (h := 1 / 3) (hs := 1) (s0 := 0.2) (by norm_num) (by norm_num) (by norm_num))
    (β := 0) le_rfl (R := 1) (ns := 4) one_pos (by norm_num) _ _ _ rfl rfl rfl
  exact ⟨d, h1, h3⟩

example {R ns : ℝ} (hR : 0 < R) (hn : 0 < ns) (v0 a b S : ℝ) (hv0 : v0 = R ^ (0 : ℝ) - vaRange (expProfile (1 / 3) 1 0.2) 0 R)
    (ha : a = ns * √((expProfile (1 / 3) 1 0.2).sigma2 R)) (hbb : b = ns * √((expProfile (1 / 3) 1 0.2).sigma2 R) / √(2 / (1 + 0)))
    (hS : S = moment (call .dehnen (expProfile (1 / 3) 1 0.2) 0 noCorr R) v0 a b 0 0) :
    skewvR .dehnen (expProfile (1 / 3) 1 0.2) 0 noCorr R ns = 0 := by
  have hp := exp_smooth (h := 1 / 3) (hs := 1) (s0 := 0.2) (by norm_num) (by norm_num) (by norm_num)
  have hs := hp.sound.sig_pos R
  obtain ⟨_, _, _, _, _, _, _, _, _, h, _⟩ := C58_central hp.sound .dehnen (β := 0) (by norm_num) noCorr R ns v0 a b S hv0 ha hbb hS
    (inner_integrable hp le_rfl hR _ _ _)
    (by rw [hS]; exact (moment_pos hp le_rfl hR v0 (by rw [ha]; positivity) (by rw [hbb]; positivity)).ne')
  exact h

end Verif
