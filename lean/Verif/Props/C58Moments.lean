import Verif.Props.C58
import Mathlib.MeasureTheory.Integral.IntervalIntegral.IntegrationByParts

set_option autoImplicit false

/-!
# C58, continued: velocity moments of the disk distribution functions

The code integrates over velocities in units of the dispersion; here the results are compared with
the integrals of the distribution function itself over the corresponding box of velocities.
-/

noncomputable section
namespace Verif
open Real Disk intervalIntegral

namespace C58Spec

/-- Velocity moment of `f` over the box `|vR| ≤ a`, `|vT - v0| ≤ b`. -/
def moment (f : ℝ → ℝ → ℝ) (v0 a b : ℝ) (n m : ℕ) : ℝ :=
  ∫ vT in (v0 - b)..(v0 + b), ∫ vR in (-a)..a, vR ^ n * vT ^ m * f vR vT

/-- Moment of the tangential velocity about `μ`. -/
def central (f : ℝ → ℝ → ℝ) (v0 a b μ : ℝ) (k : ℕ) : ℝ :=
  ∫ vT in (v0 - b)..(v0 + b), ∫ vR in (-a)..a, (vT - μ) ^ k * f vR vT

end C58Spec
open C58Spec

namespace C58aux

theorem eval_scale (ty : DfType) (p : Profile) (β : ℝ) (corr : ℝ → ℝ × ℝ) (E L lS ls : ℝ) :
    eval ty p β corr E L lS ls = ((exp (ls - lS) : ℝ) : ℂ) * eval ty p β corr E L 0 0 := by
  cases ty
  · simp only [eval, dehnenEval]
    rw [show (((ls - (p.sigma2Log (xE β E) + (corr (xE β E)).2) + p.surfacemassLog (xE β E) - lS : ℝ) : ℂ)
      + expOLLE β E L (p.sigma2Log (xE β E) + (corr (xE β E)).2) + ((corr (xE β E)).1 : ℂ))
      = ((ls - lS : ℝ) : ℂ) + (((0 - (p.sigma2Log (xE β E) + (corr (xE β E)).2) + p.surfacemassLog (xE β E) - 0 : ℝ) : ℂ)
      + expOLLE β E L (p.sigma2Log (xE β E) + (corr (xE β E)).2) + ((corr (xE β E)).1 : ℂ)) by push_cast; ring,
      Complex.exp_add, Complex.ofReal_exp]
    ring
  all_goals
    simp only [eval, shuEval]
    split_ifs
    · simp
    · rw [show (((ls - (p.sigma2Log (xL β L) + (corr (xL β L)).2) + p.surfacemassLog (xL β L) - lS : ℝ) : ℂ)
        - expLog 0 (ECLE β E L) (p.sigma2Log (xL β L) + (corr (xL β L)).2) + ((corr (xL β L)).1 : ℂ))
        = ((ls - lS : ℝ) : ℂ) + (((0 - (p.sigma2Log (xL β L) + (corr (xL β L)).2) + p.surfacemassLog (xL β L) - 0 : ℝ) : ℂ)
        - expLog 0 (ECLE β E L) (p.sigma2Log (xL β L) + (corr (xL β L)).2) + ((corr (xL β L)).1 : ℂ)) by push_cast; ring,
        Complex.exp_add, Complex.ofReal_exp]
      ring

theorem scaledEval_eq {p : Profile} (hp : p.Sound) (ty : DfType) (β : ℝ) (corr : ℝ → ℝ × ℝ) (R vR vT : ℝ) :
    scaledEval ty p β corr R vR vT =
      p.sigma2 R / p.surfacemass R * call ty p β corr R (vR * √(p.sigma2 R)) (vT * (√(p.sigma2 R) / gamma β)) := by
  simp only [scaledEval, call, callEL]
  rw [eval_scale, Complex.re_ofReal_mul, exp_sub, hp.surf_exp, exp_log (hp.sig_pos R)]

/-- Change of variables in the double integral. -/
theorem rescale (g : ℝ → ℝ → ℝ) {s u : ℝ} (hs : s ≠ 0) (hu : u ≠ 0) (a b c d : ℝ) :
    ∫ y in a..b, ∫ x in c..d, g (x * s) (y * u) = s⁻¹ * u⁻¹ * ∫ y in (a * u)..(b * u), ∫ x in (c * s)..(d * s), g x y := by
  have h1 : ∀ y, ∫ x in c..d, g (x * s) (y * u) = s⁻¹ * ∫ x in (c * s)..(d * s), g x (y * u) := fun y => by
    rw [integral_comp_mul_right (fun x => g x (y * u)) hs, smul_eq_mul]
  simp only [h1]
  rw [integral_comp_mul_right (fun y => s⁻¹ * ∫ x in (c * s)..(d * s), g x y) hu, smul_eq_mul, integral_const_mul]
  ring

theorem odd_zero {f : ℝ → ℝ} (h : ∀ x, f (-x) = -f x) (a : ℝ) : ∫ x in (-a)..a, f x = 0 := by
  have e := integral_comp_neg (a := -a) (b := a) f
  simp only [h, integral_neg, neg_neg] at e
  linarith

theorem even_half {f : ℝ → ℝ} (h : ∀ x, f (-x) = f x) (a : ℝ) : ∫ x in (-a)..a, f x = 2 * ∫ x in (0 : ℝ)..a, f x := by
  have e : ∫ x in (-a)..0, f x = ∫ x in (0 : ℝ)..a, f x := by
    have := integral_comp_neg (a := -a) (b := 0) f
    simpa only [h, neg_zero, neg_neg] using this
  by_cases hi : IntervalIntegrable f MeasureTheory.volume 0 a
  · have hi' : IntervalIntegrable f MeasureTheory.volume (-a) 0 := by
      have := (IntervalIntegrable.iff_comp_neg (f := f) (a := 0) (b := a)).1 hi
      simp only [h, neg_zero] at this
      exact this.symm
    rw [← integral_add_adjacent_intervals hi' hi, e]; ring
  · have hi' : ¬ IntervalIntegrable f MeasureTheory.volume (-a) a := by
      intro k
      refine hi (k.mono_set ?_)
      rw [Set.uIcc_subset_uIcc_iff_mem]
      refine ⟨?_, Set.right_mem_uIcc⟩
      rw [Set.mem_uIcc]
      rcases le_total 0 a with h | h
      · left; constructor <;> linarith
      · right; constructor <;> linarith
    rw [integral_undef hi, integral_undef hi']; ring

theorem call_even (ty : DfType) (p : Profile) (β : ℝ) (corr : ℝ → ℝ × ℝ) (R vR vT : ℝ) :
    call ty p β corr R (-vR) vT = call ty p β corr R vR vT := by
  cases ty <;> simp only [call, vRvTRToEL, neg_sq]

theorem EL_even (ty : DfType) (vR vT R β : ℝ) : vRvTRToEL (-vR) vT R β ty = vRvTRToEL vR vT R β ty := by
  cases ty <;> simp only [vRvTRToEL, neg_sq]

theorem dlnfdR_even (ty : DfType) (p : Profile) (β R vR vT : ℝ) :
    dlnfdR ty p β R (-vR) vT = dlnfdR ty p β R vR vT := by
  cases ty
  · simp only [dlnfdR, dehnenDlnfdR, dlnfdRe, dlnfdl, dehnenE, neg_sq]
  all_goals simp only [dlnfdR, shuDlnfdR, EL_even]

/-- The general statement behind the three functions. -/
theorem vmoment_eq {p : Profile} (hp : p.Sound) (ty : DfType) {β : ℝ} (hb : -1 < β) (corr : ℝ → ℝ × ℝ) (R : ℝ)
    (n m : ℕ) (ns : ℝ) (w : ℝ → ℝ → ℝ) :
    (∫ vT in vTlo p β R ns..vThi p β R ns, ∫ vR in (-ns)..ns,
      vR ^ n * vT ^ m * scaledEval ty p β corr R vR vT * 2 * π / gamma β
        * w (vR * √(p.sigma2 R)) (vT * (√(p.sigma2 R) / gamma β))) / π
      * (exp (p.surfacemassLog R + log (p.sigma2 R) * (n + m) / 2) / gamma β ^ m) / 2 =
    moment (fun vR vT => call ty p β corr R vR vT * w vR vT) (R ^ β - vaRange p β R) (ns * √(p.sigma2 R))
      (ns * √(p.sigma2 R) / gamma β) n m := by
  have hg := gamma_pos hb
  have hsp := hp.sig_pos R
  have hs : 0 < √(p.sigma2 R) := sqrt_pos.2 hsp
  have hsq : √(p.sigma2 R) ^ 2 = p.sigma2 R := sq_sqrt hsp.le
  have hS := hp.surf_pos R
  have hexp : exp (p.surfacemassLog R + log (p.sigma2 R) * (n + m) / 2) = p.surfacemass R * √(p.sigma2 R) ^ (n + m) := by
    rw [exp_add, hp.surf_exp]
    congr 1
    have : log (p.sigma2 R) * (n + m) / 2 = ((n + m : ℕ) : ℝ) * log (√(p.sigma2 R)) := by
      rw [log_sqrt hsp.le]; push_cast; ring
    rw [this, exp_nat_mul, exp_log hs]
  set s := √(p.sigma2 R) with hsd
  set g : ℝ → ℝ → ℝ := fun x y => x ^ n * y ^ m * (call ty p β corr R x y * w x y) with hgd
  have hint : ∀ vR vT : ℝ, vR ^ n * vT ^ m * scaledEval ty p β corr R vR vT * 2 * π / gamma β
        * w (vR * s) (vT * (s / gamma β))
      = (s⁻¹ ^ n * (s / gamma β)⁻¹ ^ m * (s ^ 2 / p.surfacemass R * 2 * π / gamma β)) * g (vR * s) (vT * (s / gamma β)) := by
    intro vR vT
    rw [scaledEval_eq hp, hgd, hsq]
    simp only [← hsd]
    have e1 : vR ^ n = s⁻¹ ^ n * (vR * s) ^ n := by rw [← mul_pow]; congr 1; field_simp
    have e2 : vT ^ m = (s / gamma β)⁻¹ ^ m * (vT * (s / gamma β)) ^ m := by rw [← mul_pow]; congr 1; field_simp
    rw [e1, e2]
    ring
  simp only [hint, integral_const_mul]
  rw [rescale g hs.ne' (div_pos hs hg).ne', moment]
  have b1 : vTlo p β R ns * (s / gamma β) = R ^ β - vaRange p β R - ns * s / gamma β := by
    rw [vTlo, ← hsd]; field_simp
  have b2 : vThi p β R ns * (s / gamma β) = R ^ β - vaRange p β R + ns * s / gamma β := by
    rw [vThi, ← hsd]; field_simp
  rw [b1, b2, neg_mul, hexp]
  simp only [hgd]
  rw [inv_pow, inv_pow, div_pow, pow_add]
  field_simp

end C58aux
open C58aux

/-- `vmomentsurfacemass(R, n, m)` is the `(n, m)` velocity moment of the distribution function over
the box of `nsigma` dispersions around the expected mean velocity, for all orders (odd radial ones
included, for which the code returns zero without integrating), for all three classes and with or
without corrections; with `deriv="R"` the integrand is multiplied by `_dlnfdR`. `surfacemass` and
`sigma2surfacemass` are its `(0, 0)` and `(2, 0)` cases. -/
theorem C58_moments {p : Profile} (hp : p.Sound) (ty : DfType) {β : ℝ} (hb : -1 < β) (corr : ℝ → ℝ × ℝ) (R ns : ℝ) :
    let v0 := R ^ β - vaRange p β R;
    let s := √(p.sigma2 R);
    (∀ n m, vmoment ty p β corr R n m ns false false =
      moment (call ty p β corr R) v0 (ns * s) (ns * s / √(2 / (1 + β))) n m) ∧
    (∀ n m, vmoment ty p β corr R n m ns false true =
      moment (fun vR vT => call ty p β corr R vR vT * dlnfdR ty p β R vR vT) v0 (ns * s) (ns * s / √(2 / (1 + β))) n m) ∧
    surfacemass ty p β corr R ns false = moment (call ty p β corr R) v0 (ns * s) (ns * s / √(2 / (1 + β))) 0 0 ∧
    sigma2surfacemass ty p β corr R ns false = moment (call ty p β corr R) v0 (ns * s) (ns * s / √(2 / (1 + β))) 2 0 := by
  have odd : ∀ (f : ℝ → ℝ → ℝ), (∀ x y, f (-x) y = f x y) → ∀ (v0 a b : ℝ) (n m : ℕ), n % 2 = 1 → moment f v0 a b n m = 0 := by
    intro f hf v0 a b n m hn
    rw [moment]
    have : ∀ y, ∫ x in (-a)..a, x ^ n * y ^ m * f x y = 0 := fun y => odd_zero (fun x => by
      rw [hf, Odd.neg_pow (Nat.odd_iff.2 hn)]; ring) a
    simp only [this, integral_zero]
  have hk : √(2 / (1 + β)) = gamma β := rfl
  intro v0 s
  simp only [hk]
  have A : ∀ n m, vmoment ty p β corr R n m ns false false = moment (call ty p β corr R) v0 (ns * s) (ns * s / gamma β) n m := by
    intro n m
    by_cases h : n % 2 = 1
    · rw [vmoment, if_pos h, odd _ (fun x y => call_even ty p β corr R x y) _ _ _ _ _ h]
    · have := vmoment_eq hp ty hb corr R n m ns (fun _ _ => 1)
      simp only [mul_one] at this
      rw [vmoment, if_neg h]
      simp only [Bool.false_eq_true, if_false, mul_one]
      exact this
  have half : ∀ n m, n % 2 = 0 → ∀ y, ∫ x in (-ns)..ns, x ^ n * y ^ m * scaledEval ty p β corr R x y * 2 * π / gamma β
      = 2 * ∫ x in (0 : ℝ)..ns, x ^ n * y ^ m * scaledEval ty p β corr R x y * 2 * π / gamma β := fun n m hn y =>
    even_half (fun x => by
      rw [Even.neg_pow (Nat.even_iff.2 hn)]
      simp only [scaledEval_eq hp, neg_mul, call_even]) ns
  refine ⟨A, ?_, ?_, ?_⟩
  · intro n m
    by_cases h : n % 2 = 1
    · rw [vmoment, if_pos h, odd _ (fun x y => by rw [call_even, dlnfdR_even]) _ _ _ _ _ h]
    · have := vmoment_eq hp ty hb corr R n m ns (fun vR vT => dlnfdR ty p β R vR vT)
      rw [vmoment, if_neg h]
      simp only [Bool.false_eq_true, if_false, if_true, mul_div_assoc]
      simp only [mul_div_assoc] at this
      exact this
  · rw [← A 0 0, vmoment, surfacemass]
    have h0 := half 0 0 rfl
    simp only [pow_zero, one_mul] at h0
    simp only [Nat.zero_mod, zero_ne_one, if_false, Bool.false_eq_true, mul_one,
      Nat.cast_zero, add_zero, mul_zero, zero_div, pow_zero, one_mul, div_one]
    simp only [h0]
    rw [integral_const_mul 2]
    ring
  · rw [← A 2 0, vmoment, sigma2surfacemass]
    have e : log (p.sigma2 R) * (((2 : ℕ) : ℝ) + ((0 : ℕ) : ℝ)) / 2 = log (p.sigma2 R) := by push_cast; ring
    have h0 := half 2 0 rfl
    simp only [pow_zero, mul_one] at h0
    simp only [Nat.mod_self, zero_ne_one, if_false, Bool.false_eq_true, mul_one, pow_zero, div_one, e]
    simp only [h0]
    rw [integral_const_mul 2]
    ring

/-- The mean radial velocity and the Oort constants `C` and `K` vanish identically, and the two
remaining ones differ by the mean angular velocity. -/
theorem C58_oort_symmetry (ty : DfType) (p : Profile) (β : ℝ) (corr : ℝ → ℝ × ℝ) (R ns : ℝ) :
    meanvR ty p β corr R ns = 0 ∧ oortC ty p β corr R ns = 0 ∧ oortK ty p β corr R ns = 0 ∧
    oortA ty p β corr R ns - oortB ty p β corr R ns = meanvT ty p β corr R ns / R ∧
    oortA ty p β corr R ns + oortB ty p β corr R ns = -dmeanvTdR ty p β corr R ns := by
  have h1 : ∀ d, vmoment ty p β corr R 1 0 ns false d = 0 := fun d => by simp [vmoment]
  have h2 : meanvR ty p β corr R ns = 0 := by simp [meanvR, h1]
  refine ⟨h2, ?_, ?_, ?_, ?_⟩
  · simp [oortC, h2, h1]
  · simp [oortK, h2, h1]
  · simp only [oortA, oortB]; ring
  · simp only [oortA, oortB]; ring

end Verif
