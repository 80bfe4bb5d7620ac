import Verif.Props.C59Density
import Verif.Props.C59Derivs
import Verif.Util.Deriv
import Verif.Lemmas.DF.Inversion

set_option autoImplicit false

/-!
# C59: the Eddington inversion

For any potential that rises to zero at infinity and any tracer density that vanishes there, the
energy distribution computed by `eddingtondf.fE` is the documented formula, and the distribution
function has the tracer density as its moment of order zero and the solution of the Jeans equation
as its second moment.
-/

noncomputable section
open Real MeasureTheory Set Filter Topology

namespace Verif
open Sph C59aux

namespace C59Spec

/-- What is asked of the potential: its force is minus its derivative, `R2deriv` is minus the
derivative of the force, the force is inward and the potential is zero at infinity. -/
structure Halo (P : Pot) : Prop where
  force : ∀ r, 0 < r → HasDerivAt (phi P) (-P.Rforce r 0 0 0) r
  force2 : ∀ r, 0 < r → HasDerivAt (fun r => -P.Rforce r 0 0 0) (P.R2deriv r 0 0 0) r
  cont : ContinuousOn (fun r => P.R2deriv r 0 0 0) (Ioi 0)
  inward : ∀ r, 0 < r → P.Rforce r 0 0 0 < 0
  lim : Tendsto (phi P) atTop (𝓝 0)

/-- What is asked of the tracer density `ν`: `dnu` and `d2nu` are its derivatives, it is zero at
infinity, `dν/dψ` has the limit `bnd` there, and `d²ν/dψ²` is integrable over the potential outside
every radius. -/
structure Tracer (P : Pot) (ν dnu d2nu : ℝ → ℝ) (bnd : ℝ) : Prop where
  d1 : ∀ r, 0 < r → HasDerivAt ν (dnu r) r
  d2 : ∀ r, 0 < r → HasDerivAt dnu (d2nu r) r
  cont : ContinuousOn d2nu (Ioi 0)
  lim : Tendsto ν atTop (𝓝 0)
  bnd : Tendsto (fun r => dnu r / P.Rforce r 0 0 0) atTop (𝓝 bnd)
  int : ∀ r, 0 < r → IntegrableOn (deriv fun r => dnu r / P.Rforce r 0 0 0) (Ioi r)

theorem Halo.inv {P : Pot} (h : Halo P) : Inv.Halo (phi P) (fun r => -P.Rforce r 0 0 0) where
  deriv := h.force
  cont := fun r hr => (h.force2 r hr).continuousAt.continuousWithinAt
  pos := fun r hr => by linarith [h.inward r hr]
  lim := h.lim

end C59Spec
open C59Spec

namespace C59aux

/-- The derivative of `dν/dψ`. -/
def du (P : Pot) (dnu d2nu : ℝ → ℝ) (r : ℝ) : ℝ :=
  (P.Rforce r 0 0 0 * d2nu r + dnu r * P.R2deriv r 0 0 0) / P.Rforce r 0 0 0 ^ 2

variable {P : Pot} {ν dnu d2nu : ℝ → ℝ} {bnd : ℝ}

theorem du_deriv (h : C59Spec.Halo P) (t : Tracer P ν dnu d2nu bnd) {r : ℝ} (hr : 0 < r) :
    HasDerivAt (fun r => dnu r / P.Rforce r 0 0 0) (du P dnu d2nu r) r := by
  have h1 := (h.force2 r hr).fun_neg
  simp only [neg_neg] at h1
  refine ((t.d2 r hr).fun_div h1 (h.inward r hr).ne).congr_deriv ?_
  rw [du]
  ring

theorem du_cont (h : C59Spec.Halo P) (t : Tracer P ν dnu d2nu bnd) : ContinuousOn (du P dnu d2nu) (Ioi 0) := by
  have h1 : ContinuousOn (fun r => P.Rforce r 0 0 0) (Ioi 0) := by
    have := h.inv.cont.neg
    exact this.congr fun r _ => (neg_neg _).symm
  have h2 : ContinuousOn dnu (Ioi 0) := fun r hr => (t.d2 r hr).continuousAt.continuousWithinAt
  unfold du
  exact ((h1.mul t.cont).add (h2.mul h.cont)).div (h1.pow 2) fun r hr => pow_ne_zero 2 (h.inward r hr).ne

theorem du_int (h : C59Spec.Halo P) (t : Tracer P ν dnu d2nu bnd) {r : ℝ} (hr : 0 < r) :
    IntegrableOn (du P dnu d2nu) (Ioi r) :=
  (integrableOn_congr_fun (fun _ hx => (du_deriv h t (hr.trans hx)).deriv) measurableSet_Ioi).1 (t.int r hr)

/-- The integrand of the code, in terms of powers. -/
theorem raw_eq (h : C59Spec.Halo P) {s r : ℝ} (hs : 0 < s) (hr : s < r) :
    eddRaw P dnu d2nu (phi P s) r = du P dnu d2nu r * (phi P r - phi P s) ^ ((1 / 2 : ℝ) - 1) := by
  have := sub_pos.2 (h.inv.mono hs (hs.trans hr) hr)
  rw [eddRaw, du, sqrt_eq_rpow, show (1 / 2 : ℝ) - 1 = -(1 / 2) by norm_num, rpow_neg this.le, div_eq_mul_inv]

/-- The two integrals of the code are one integral over the radii outside the one where the
potential is `E`. -/
theorem fE_radial (h : C59Spec.Halo P) (t : Tracer P ν dnu d2nu bnd) {rphi : ℝ → ℝ}
    (hi : ∀ r, 0 < r → rphi (phi P r) = r) {Emin s : ℝ} (hs : 0 < s) (hE : Emin ≤ phi P s) :
    eddFE P dnu d2nu rphi bnd 0 Emin (phi P s)
      = -((∫ r in Ioi s, du P dnu d2nu r * (phi P r - phi P s) ^ ((1 / 2 : ℝ) - 1)) - bnd / √(-phi P s))
        / (√8 * π ^ 2) := by
  have hint := h.inv.section_integrable (g := du P dnu d2nu) (q := 1 / 2) hs (by norm_num) (by norm_num) (du_cont h t) (du_int h t hs)
  have hG : IntegrableOn (eddRaw P dnu d2nu (phi P s)) (Ioi s) :=
    (integrableOn_congr_fun (fun r hr => raw_eq h hs hr) measurableSet_Ioi).2 hint
  have key := Inv.split_integral (q := 1 / 2) (by norm_num) hs hG
  rw [eddFE, if_pos ⟨h.inv.neg hs, hE⟩, hi s hs]
  congr 3
  rw [← setIntegral_congr_fun measurableSet_Ioi (fun r hr => raw_eq (dnu := dnu) (d2nu := d2nu) h hs hr), ← key,
    sqrt_eq_rpow]
  congr 1
  refine intervalIntegral.integral_congr fun x hx => ?_
  norm_num [eddSmall]

end C59aux

/-- The energy distribution is the documented formula: `ρ` is any function of the relative
potential that gives the tracer density, `ρ''` its second derivative, and the boundary term is the
limit of its first derivative. -/
theorem C59_eddington_formula {P : Pot} {ν dnu d2nu : ℝ → ℝ} {bnd : ℝ} (h : C59Spec.Halo P)
    (t : Tracer P ν dnu d2nu bnd) {rphi : ℝ → ℝ} (hi : ∀ r, 0 < r → rphi (phi P r) = r) {Emin s : ℝ} (hs : 0 < s)
    (hE : Emin ≤ phi P s) {ρ ρ' ρ'' : ℝ → ℝ} (hρ : ∀ r, 0 < r → ρ (-phi P r) = ν r)
    (hρ1 : ∀ r, 0 < r → HasDerivAt ρ (ρ' (-phi P r)) (-phi P r))
    (hρ2 : ∀ r, 0 < r → HasDerivAt ρ' (ρ'' (-phi P r)) (-phi P r)) :
    eddFE P dnu d2nu rphi bnd 0 Emin (phi P s)
        = 1 / (√8 * π ^ 2) * ((∫ ψ in (0 : ℝ)..-phi P s, 1 / √(-phi P s - ψ) * ρ'' ψ) + 1 / √(-phi P s) * bnd) ∧
      Tendsto (fun r => ρ' (-phi P r)) atTop (𝓝 bnd) := by
  have hψ : ∀ r, 0 < r → HasDerivAt (fun r => -phi P r) (P.Rforce r 0 0 0) r := fun r hr =>
    (h.force r hr).neg.congr_deriv (neg_neg _)
  have hnear : ∀ r : ℝ, 0 < r → ∀ᶠ x in 𝓝 r, 0 < x := fun r hr => lt_mem_nhds hr
  have e1 : ∀ r, 0 < r → dnu r / P.Rforce r 0 0 0 = ρ' (-phi P r) := by
    intro r hr
    have h1 : HasDerivAt ν (ρ' (-phi P r) * P.Rforce r 0 0 0) r := by
      refine ((hρ1 r hr).comp r (hψ r hr)).congr_of_eventuallyEq ?_
      filter_upwards [hnear r hr] with x hx
      exact (hρ x hx).symm
    rw [(t.d1 r hr).unique h1, mul_div_assoc, div_self (h.inward r hr).ne, mul_one]
  have e2 : ∀ r, 0 < r → du P dnu d2nu r = ρ'' (-phi P r) * P.Rforce r 0 0 0 := by
    intro r hr
    refine (du_deriv h t hr).unique ?_
    refine ((hρ2 r hr).comp r (hψ r hr)).congr_of_eventuallyEq ?_
    filter_upwards [hnear r hr] with x hx
    exact e1 x hx
  refine ⟨?_, t.bnd.congr' ?_⟩
  · rw [fE_radial h t hi hs hE]
    have himg : (fun r => -phi P r) '' Ioi s = Ioo 0 (-phi P s) := by
      ext y
      simp only [mem_image, mem_Ioi, mem_Ioo]
      constructor
      · rintro ⟨r, hr, rfl⟩
        exact ⟨by linarith [h.inv.neg (hs.trans hr)], by linarith [h.inv.mono hs (hs.trans hr) hr]⟩
      · rintro ⟨h0, h1⟩
        obtain ⟨r, hr, he⟩ := h.inv.exists_radius (E := -y) hs (by linarith) (by linarith)
        exact ⟨r, hr, by rw [he, neg_neg]⟩
    have hinj : InjOn (fun r => -phi P r) (Ioi s) := by
      intro x hx y hy hxy
      exact h.inv.mono.injOn (hs.trans hx) (hs.trans hy) (neg_injective hxy)
    rw [intervalIntegral.integral_of_le (by linarith [h.inv.neg hs]), integral_Ioc_eq_integral_Ioo, ← himg,
      integral_image_eq_integral_abs_deriv_smul measurableSet_Ioi
        (fun r hr => (hψ r (hs.trans hr)).hasDerivWithinAt) hinj]
    have e3 : ∫ r in Ioi s, |P.Rforce r 0 0 0| • (1 / √(-phi P s - -phi P r) * ρ'' (-phi P r))
        = -∫ r in Ioi s, du P dnu d2nu r * (phi P r - phi P s) ^ ((1 / 2 : ℝ) - 1) := by
      rw [← integral_neg]
      refine setIntegral_congr_fun measurableSet_Ioi fun r hr => ?_
      have h1 := sub_pos.2 (h.inv.mono hs (hs.trans hr) hr)
      beta_reduce
      rw [abs_of_neg (h.inward r (hs.trans hr)), e2 r (hs.trans hr), smul_eq_mul, sqrt_eq_rpow,
        show (1 / 2 : ℝ) - 1 = -(1 / 2) by norm_num, rpow_neg h1.le,
        show -phi P s - -phi P r = phi P r - phi P s by ring]
      ring
    rw [e3]
    ring
  · filter_upwards [eventually_gt_atTop 0] with r hr
    exact e1 r hr

namespace C59aux
variable {P : Pot} {ν dnu d2nu : ℝ → ℝ} {bnd : ℝ}

/-- The velocity integral as an energy integral. -/
theorem energy_integral {ψ : ℝ} (hψ : 0 < ψ) (k : ℕ) (f : ℝ → ℝ) :
    ∫ v in (0 : ℝ)..√(2 * ψ), v ^ (2 * k + 2) * f (-ψ + v ^ 2 / 2)
      = √2 * 2 ^ k * ∫ E in Ioo (-ψ) 0, (E - -ψ) ^ ((k + 3 / 2 : ℝ) - 1) * f E := by
  have e : ∫ v in (0 : ℝ)..√(2 * ψ), v ^ (2 * k + 2) * f (-ψ + v ^ 2 / 2)
      = ∫ v in (0 : ℝ)..√(2 * ψ), v * (fun x => (√2 * 2 ^ k) * (x ^ ((k + 3 / 2 : ℝ) - 1) * f (-ψ + x))) (v ^ 2 / 2) := by
    refine intervalIntegral.integral_congr fun v hv => ?_
    rw [uIcc_of_le (sqrt_nonneg _)] at hv
    have h1 : (v ^ 2 / 2) ^ ((k + 3 / 2 : ℝ) - 1) = v ^ (2 * k + 1) / (√2 * 2 ^ k) := by
      rw [div_rpow (sq_nonneg v) two_pos.le, ← rpow_natCast, ← rpow_mul hv.1, ← rpow_natCast v (2 * k + 1),
        show ((2 : ℕ) : ℝ) * ((k : ℝ) + 3 / 2 - 1) = ((2 * k + 1 : ℕ) : ℝ) by push_cast; ring]
      congr 1
      rw [sqrt_eq_rpow, ← rpow_natCast 2 k, ← rpow_add two_pos]
      congr 1
      ring
    beta_reduce
    rw [h1]
    have : √2 * 2 ^ k ≠ 0 := by positivity
    field_simp
    ring
  rw [e, speed_subst hψ.le (fun x => (√2 * 2 ^ k) * (x ^ ((k + 3 / 2 : ℝ) - 1) * f (-ψ + x))), intervalIntegral.integral_const_mul, ← integral_Ioc_eq_integral_Ioo,
    ← intervalIntegral.integral_of_le (by linarith)]
  congr 1
  have := intervalIntegral.integral_comp_add_left (fun E => (E - -ψ) ^ ((k + 3 / 2 : ℝ) - 1) * f E) (-ψ) (a := 0) (b := ψ)
  rw [add_zero, neg_add_cancel] at this
  rw [← this]
  refine intervalIntegral.integral_congr fun x _ => ?_
  beta_reduce
  rw [show -ψ + x - -ψ = x by ring]

/-- The moment over the energies, of any order. -/
theorem energy_moment (h : C59Spec.Halo P) (t : Tracer P ν dnu d2nu bnd) {rphi : ℝ → ℝ}
    (hi : ∀ r, 0 < r → rphi (phi P r) = r) {Emin r : ℝ} (hr : 0 < r) (hE : Emin ≤ phi P r) {p : ℝ} (hp : 1 < p) :
    ∫ E in Ioo (phi P r) 0, (E - phi P r) ^ (p - 1) * eddFE P dnu d2nu rphi bnd 0 Emin E
      = -B p (1 / 2) / (√8 * π ^ 2) * ((∫ x in Ioi r, du P dnu d2nu x * (phi P x - phi P r) ^ (p - 1 / 2))
        - bnd * (-phi P r) ^ (p - 1 / 2)) := by
  obtain ⟨ha, ha'⟩ := abel (p := p) (q := 1 / 2) (g := du P dnu d2nu) (a := phi P r) (T := 0) (by linarith) (by norm_num) (by linarith)
    (h.inv.contΦ.mono (Ioi_subset_Ioi hr.le)) (du_int h t hr)
    (fun x hx => ⟨h.inv.mono hr (hr.trans hx) hx, (h.inv.neg (hr.trans hx)).le⟩) rphi (h.inv.rphi_spec hi hr)
  have hb := beta_integral' (p := p) (q := 1 / 2) (a := phi P r) (b := 0) (by linarith) (by norm_num) (h.inv.neg hr)
  have hb' := beta_integrable' (p := p) (q := 1 / 2) (a := phi P r) (b := 0) (by linarith) (by norm_num) (h.inv.neg hr)
  have e : ∀ E ∈ Ioo (phi P r) 0, (E - phi P r) ^ (p - 1) * eddFE P dnu d2nu rphi bnd 0 Emin E
      = -(1 / (√8 * π ^ 2)) * ((E - phi P r) ^ (p - 1) * (∫ x in Ioi (rphi E), du P dnu d2nu x * (phi P x - E) ^ ((1 / 2 : ℝ) - 1))
        - bnd * ((E - phi P r) ^ (p - 1) * (0 - E) ^ ((1 / 2 : ℝ) - 1))) := by
    rintro E ⟨h1, h2⟩
    obtain ⟨s, hs, rfl⟩ := h.inv.exists_radius hr h1 h2
    have hs0 := hr.trans hs
    have hn := h.inv.neg hs0
    rw [fE_radial h t hi hs0 (hE.trans h1.le), hi s hs0, zero_sub, sqrt_eq_rpow (-phi P s),
      show (1 / 2 : ℝ) - 1 = -(1 / 2) by norm_num, rpow_neg (show 0 ≤ -phi P s by linarith)]
    ring
  rw [setIntegral_congr_fun measurableSet_Ioo e, MeasureTheory.integral_const_mul,
    integral_sub ha' (hb'.const_mul bnd), ha, MeasureTheory.integral_const_mul, hb, zero_sub]
  simp only [← mul_assoc]
  rw [MeasureTheory.integral_mul_const, show p + 1 / 2 - 1 = p - 1 / 2 by ring]
  ring

end C59aux

/-- The distribution function has the density it was asked for, at every radius. -/
theorem C59_eddington {P : Pot} {ν dnu d2nu : ℝ → ℝ} {bnd : ℝ} (h : C59Spec.Halo P)
    (t : Tracer P ν dnu d2nu bnd) {rphi : ℝ → ℝ} (hi : ∀ r, 0 < r → rphi (phi P r) = r) {Emin r : ℝ} (hr : 0 < r)
    (hE : Emin ≤ phi P r) :
    isoVmoment P 0 (eddFE P dnu d2nu rphi bnd 0 Emin) r 0 0 = ν r := by
  have hn := h.inv.neg hr
  have h1 := energy_integral (ψ := -phi P r) (by linarith) 0 (eddFE P dnu d2nu rphi bnd 0 Emin)
  rw [neg_neg] at h1
  have h2 := energy_moment h t hi hr hE (p := 3 / 2) (by norm_num)
  rw [iso00, zero_sub, h1]
  norm_num only at h2 ⊢
  simp only [rpow_one] at h2
  rw [h2]
  have h3 : ∫ x in Ioi r, du P dnu d2nu x * (phi P x - phi P r) = bnd * (0 - phi P r) + 0 - ν r := by
    have := integral_Ioi_of_hasDerivAt_of_tendsto' (a := r)
      (f := fun x => dnu x / P.Rforce x 0 0 0 * (phi P x - phi P r) + ν x)
      (f' := fun x => du P dnu d2nu x * (phi P x - phi P r)) (m := bnd * (0 - phi P r) + 0) ?_ ?_ ?_
    · rw [this]; simp
    · intro x hx
      have hx0 := lt_of_lt_of_le hr hx
      refine (((du_deriv h t hx0).fun_mul ((h.force x hx0).sub_const _)).fun_add (t.d1 x hx0)).congr_deriv ?_
      have := (h.inward x hx0).ne
      field_simp
      ring
    · refine Integrable.mul_bdd (c := -phi P r) (du_int h t hr) ?_ ?_
      · exact ((h.inv.contΦ.mono (Ioi_subset_Ioi hr.le)).sub continuousOn_const).aestronglyMeasurable measurableSet_Ioi
      · refine (ae_restrict_iff' measurableSet_Ioi).2 (Eventually.of_forall fun x hx => ?_)
        have h1 := h.inv.mono hr (hr.trans hx) hx
        rw [norm_of_nonneg (by linarith)]
        linarith [h.inv.neg (hr.trans hx)]
    · exact (t.bnd.mul (h.lim.sub_const _)).add t.lim
  rw [h3, B, Gamma_three_half, Gamma_one_half_eq, show (3 / 2 : ℝ) + 1 / 2 = 1 + 1 by norm_num,
    Gamma_add_one one_ne_zero, Gamma_one]
  have h8 : √8 = 2 * √2 := by
    rw [show (8 : ℝ) = 2 ^ 2 * 2 by norm_num, sqrt_mul (by norm_num), sqrt_sq (by norm_num)]
  have hp := mul_self_sqrt pi_pos.le
  rw [h8]
  field_simp
  rw [sq_sqrt pi_pos.le]
  ring

/-- The radial velocity dispersion is the solution of the Jeans equation of an isotropic system:
`ν σ_r²` is the weight of the column of tracers above the radius. -/
theorem C59_eddington_jeans {P : Pot} {ν dnu d2nu : ℝ → ℝ} {bnd : ℝ} (h : C59Spec.Halo P)
    (t : Tracer P ν dnu d2nu bnd) {rphi : ℝ → ℝ} (hi : ∀ r, 0 < r → rphi (phi P r) = r) {Emin r : ℝ} (hr : 0 < r)
    (hE : Emin ≤ phi P r) :
    isoVmoment P 0 (eddFE P dnu d2nu rphi bnd 0 Emin) r 2 0 = ∫ x in Ioi r, ν x * -P.Rforce x 0 0 0 := by
  have hn := h.inv.neg hr
  have h1 := energy_integral (ψ := -phi P r) (by linarith) 1 (eddFE P dnu d2nu rphi bnd 0 Emin)
  rw [neg_neg] at h1
  have h2 := energy_moment h t hi hr hE (p := 5 / 2) (by norm_num)
  have hbd : ∀ x ∈ Ioi r, 0 ≤ phi P x - phi P r ∧ phi P x - phi P r ≤ -phi P r := by
    intro x hx
    have h1 := h.inv.mono hr (hr.trans hx) hx
    exact ⟨by linarith, by linarith [h.inv.neg (hr.trans hx)]⟩
  have hΦm : AEStronglyMeasurable (fun x => phi P x - phi P r) (volume.restrict (Ioi r)) :=
    ((h.inv.contΦ.mono (Ioi_subset_Ioi hr.le)).sub continuousOn_const).aestronglyMeasurable measurableSet_Ioi
  have hν : IntegrableOn (fun x => ν x * -P.Rforce x 0 0 0) (Ioi r) := by
    have hF : IntegrableOn (fun x => -P.Rforce x 0 0 0) (Ioi r) :=
      integrableOn_Ioi_deriv_of_nonneg' (fun x hx => h.force x (lt_of_lt_of_le hr hx))
        (fun x hx => by linarith [h.inward x (hr.trans hx)]) h.lim
    have hc : ContinuousOn ν (Ioi 0) := fun x hx => (t.d1 x hx).continuousAt.continuousWithinAt
    obtain ⟨X, hX⟩ := (t.lim.eventually (Metric.ball_mem_nhds 0 one_pos)).exists_forall_of_atTop
    obtain ⟨M, hM⟩ := (isCompact_Icc (a := r) (b := max r X)).exists_bound_of_continuousOn
      (hc.mono fun x hx => lt_of_lt_of_le hr hx.1)
    refine Integrable.bdd_mul (c := max M 1) hF
      ((hc.mono (Ioi_subset_Ioi hr.le)).aestronglyMeasurable measurableSet_Ioi) ?_
    refine (ae_restrict_iff' measurableSet_Ioi).2 (Eventually.of_forall fun x hx => ?_)
    rcases le_total x (max r X) with h1 | h1
    · exact (hM x ⟨le_of_lt hx, h1⟩).trans (le_max_left _ _)
    · have := hX x (le_trans (le_max_right _ _) h1)
      rw [dist_zero_right] at this
      exact this.le.trans (le_max_right _ _)
  have h3 : (∫ x in Ioi r, du P dnu d2nu x * (phi P x - phi P r) ^ 2) + 2 * (∫ x in Ioi r, ν x * -P.Rforce x 0 0 0)
      = bnd * phi P r ^ 2 := by
    have hi1 : IntegrableOn (fun x => du P dnu d2nu x * (phi P x - phi P r) ^ 2) (Ioi r) := by
      refine Integrable.mul_bdd (c := (-phi P r) ^ 2) (du_int h t hr) (hΦm.pow 2) ?_
      refine (ae_restrict_iff' measurableSet_Ioi).2 (Eventually.of_forall fun x hx => ?_)
      obtain ⟨b1, b2⟩ := hbd x hx
      rw [norm_of_nonneg (by positivity)]
      exact pow_le_pow_left₀ b1 b2 2
    have := integral_Ioi_of_hasDerivAt_of_tendsto' (a := r)
      (f := fun x => dnu x / P.Rforce x 0 0 0 * (phi P x - phi P r) ^ 2 + 2 * (ν x * (phi P x - phi P r)))
      (f' := fun x => du P dnu d2nu x * (phi P x - phi P r) ^ 2 + 2 * (ν x * -P.Rforce x 0 0 0))
      (m := bnd * (0 - phi P r) ^ 2 + 2 * (0 * (0 - phi P r))) ?_ ?_ ?_
    · rw [integral_add hi1 (hν.const_mul 2), MeasureTheory.integral_const_mul] at this
      rw [this]; simp
    · intro x hx
      have hx0 := lt_of_lt_of_le hr hx
      refine (((du_deriv h t hx0).fun_mul (((h.force x hx0).sub_const _).fun_pow 2)).fun_add
        (((t.d1 x hx0).fun_mul ((h.force x hx0).sub_const _)).const_mul 2)).congr_deriv ?_
      have := (h.inward x hx0).ne
      field_simp
      ring
    · exact hi1.add (hν.const_mul 2)
    · exact (t.bnd.mul ((h.lim.sub_const _).pow 2)).add ((t.lim.mul (h.lim.sub_const _)).const_mul 2)
  have hG : Gamma (5 / 2 : ℝ) = 3 / 4 * √π := by
    rw [show (5 / 2 : ℝ) = 3 / 2 + 1 by norm_num, Gamma_add_one (by norm_num), Gamma_three_half]; ring
  have hG3 : Gamma (3 : ℝ) = 2 := by
    rw [show (3 : ℝ) = 2 + 1 by norm_num, Gamma_add_one (by norm_num), show (2 : ℝ) = 1 + 1 by norm_num,
      Gamma_add_one one_ne_zero, Gamma_one]; norm_num
  have h8 : √8 = 2 * √2 := by
    rw [show (8 : ℝ) = 2 ^ 2 * 2 by norm_num, sqrt_mul (by norm_num), sqrt_sq (by norm_num)]
  have e : ∀ v : ℝ, phi P r + 0.5 * v ^ 2 = phi P r + v ^ 2 / 2 := fun v => by ring
  simp only [isoVmoment, vmaxAtR, e]
  rw [if_neg (by norm_num), zero_sub]
  norm_num only at h1 h2 ⊢
  rw [h1, h2, B, Gamma_three_half, hG, Gamma_one_half_eq, show (5 / 2 : ℝ) + 1 / 2 = 3 by norm_num, hG3, h8, Gamma_one]
  simp only [rpow_two]
  rw [eq_sub_of_add_eq h3]
  have hp := sq_sqrt pi_pos.le
  have : √π ≠ 0 := (sqrt_pos.2 pi_pos).ne'
  field_simp
  rw [hp]
  ring

/-! ## The Plummer sphere meets all the assumptions -/

namespace C59aux

theorem plummer_halo {amp b : ℝ} (hm : 0 < amp) (hb : b ≠ 0) : C59Spec.Halo ((Plummer.pot b).scale amp) := by
  have hs : ∀ r : ℝ, 0 < r ^ 2 + b ^ 2 := fun r => by positivity
  have hq : ∀ r : ℝ, HasDerivAt (fun r : ℝ => r ^ 2 + b ^ 2) (2 * r) r := fun r =>
    ((hasDerivAt_id r).fun_pow 2).add_const (b ^ 2) |>.congr_deriv (by simp)
  have hpow : ∀ r p : ℝ, HasDerivAt (fun r : ℝ => (r ^ 2 + b ^ 2) ^ p) (2 * r * p * (r ^ 2 + b ^ 2) ^ (p - 1)) r :=
    fun r p => (hq r).rpow_const (Or.inl (hs r).ne')
  have e0 : ∀ r, phi ((Plummer.pot b).scale amp) r = -amp * (r ^ 2 + b ^ 2) ^ (-(1 / 2) : ℝ) := by
    intro r
    simp only [phi, Pot.scale, Plummer.pot, Pot.axi, Plummer.evaluate]
    rw [show r ^ 2 + (0 : ℝ) ^ 2 + b ^ 2 = r ^ 2 + b ^ 2 by ring, rpow_neg (hs r).le, sqrt_eq_rpow]
    ring
  have e1 : ∀ r, ((Plummer.pot b).scale amp).Rforce r 0 0 0 = -amp * (r * (r ^ 2 + b ^ 2) ^ (-(3 / 2) : ℝ)) := by
    intro r
    simp only [Pot.scale, Plummer.pot, Pot.axi, Plummer.Rforce]
    rw [show r ^ 2 + (0 : ℝ) ^ 2 + b ^ 2 = r ^ 2 + b ^ 2 by ring]
    ring
  have e2 : ∀ r, ((Plummer.pot b).scale amp).R2deriv r 0 0 0
      = amp * ((b ^ 2 - 2 * r ^ 2) * (r ^ 2 + b ^ 2) ^ (-(5 / 2) : ℝ)) := by
    intro r
    simp only [Pot.scale, Plummer.pot, Pot.axi, Plummer.R2deriv]
    rw [show r ^ 2 + (0 : ℝ) ^ 2 + b ^ 2 = r ^ 2 + b ^ 2 by ring]
    ring
  refine ⟨fun r hr => ?_, fun r hr => ?_, ?_, fun r hr => ?_, ?_⟩
  · rw [e1, show phi ((Plummer.pot b).scale amp) = fun r => -amp * (r ^ 2 + b ^ 2) ^ (-(1 / 2) : ℝ) from funext e0]
    refine ((hpow r _).const_mul (-amp)).congr_deriv ?_
    rw [show (-(1 / 2) : ℝ) - 1 = -(3 / 2) by norm_num]
    ring
  · simp only [e1, e2]
    have := (((hasDerivAt_id r).fun_mul (hpow r (-(3 / 2)))).const_mul (-amp)).fun_neg
    simp only [id] at this
    refine this.congr_deriv ?_
    have h1 : (r ^ 2 + b ^ 2) ^ (-(3 / 2) : ℝ) = (r ^ 2 + b ^ 2) * (r ^ 2 + b ^ 2) ^ (-(5 / 2) : ℝ) := by
      rw [mul_comm (r ^ 2 + b ^ 2), ← rpow_add_one (hs r).ne']; norm_num
    rw [show (-(3 / 2) : ℝ) - 1 = -(5 / 2) by norm_num, h1]
    ring
  · simp only [e2]
    refine Continuous.continuousOn (continuous_const.mul (Continuous.mul (by fun_prop) ?_))
    exact continuous_iff_continuousAt.2 fun r => (hpow r _).continuousAt
  · rw [e1]
    have := rpow_pos_of_pos (hs r) (-(3 / 2))
    have h := mul_pos hm (mul_pos hr this)
    linarith
  · have h1 : Tendsto (fun r : ℝ => r ^ 2 + b ^ 2) atTop atTop :=
      tendsto_atTop_add_const_right _ _ (tendsto_pow_atTop two_ne_zero)
    have h2 := ((tendsto_rpow_neg_atTop (show (0 : ℝ) < 1 / 2 by norm_num)).comp h1).const_mul (-amp)
    rw [mul_zero] at h2
    exact h2.congr fun r => (e0 r).symm

theorem plummer_tracer {amp b : ℝ} (hm : 0 < amp) (hb : b ≠ 0) :
    Tracer ((Plummer.pot b).scale amp) (fun r => ((Plummer.pot b).scale amp).dens r 0 0 0) (Plummer.ddensdr amp b)
      (Plummer.d2densdr2 amp b) 0 := by
  have hs : ∀ r : ℝ, 0 < r ^ 2 + b ^ 2 := fun r => by positivity
  have hq : ∀ r : ℝ, HasDerivAt (fun r : ℝ => r ^ 2 + b ^ 2) (2 * r) r := fun r =>
    ((hasDerivAt_id r).fun_pow 2).add_const (b ^ 2) |>.congr_deriv (by simp)
  have hpow : ∀ r p : ℝ, HasDerivAt (fun r : ℝ => (r ^ 2 + b ^ 2) ^ p) (2 * r * p * (r ^ 2 + b ^ 2) ^ (p - 1)) r :=
    fun r p => (hq r).rpow_const (Or.inl (hs r).ne')
  have hlim : ∀ p : ℝ, 0 < p → Tendsto (fun r : ℝ => (r ^ 2 + b ^ 2) ^ (-p)) atTop (𝓝 0) := fun p hp =>
    (tendsto_rpow_neg_atTop hp).comp (tendsto_atTop_add_const_right _ _ (tendsto_pow_atTop two_ne_zero))
  have eu : ∀ r, 0 < r → Plummer.ddensdr amp b r / ((Plummer.pot b).scale amp).Rforce r 0 0 0
      = 15 / 4 / π * b ^ 2 * (r ^ 2 + b ^ 2) ^ (-2 : ℝ) := by
    intro r hr
    simp only [Pot.scale, Plummer.pot, Pot.axi, Plummer.Rforce, Plummer.ddensdr]
    rw [show r ^ 2 + (0 : ℝ) ^ 2 + b ^ 2 = r ^ 2 + b ^ 2 by ring, show (-(7 / 2) : ℝ) = -2 + -(3 / 2) by norm_num,
      rpow_add (hs r)]
    have := (rpow_pos_of_pos (hs r) (-(3 / 2))).ne'
    field_simp
  refine ⟨fun r hr => (C59_densderivs_plummer amp b hr).first, fun r hr => (C59_densderivs_plummer amp b hr).second,
    ?_, ?_, ?_, fun r hr => ?_⟩
  · have hc : ∀ p : ℝ, Continuous fun r : ℝ => (r ^ 2 + b ^ 2) ^ p := fun p =>
      continuous_iff_continuousAt.2 fun r => (hpow r p).continuousAt
    unfold Plummer.d2densdr2
    exact Continuous.continuousOn (continuous_const.mul
      ((hc _).sub (Continuous.mul (by fun_prop) (hc _))))
  · have := ((hlim (5 / 2) (by norm_num)).const_mul (3 / 4 / π * b ^ 2)).const_mul amp
    rw [mul_zero, mul_zero] at this
    refine this.congr fun r => ?_
    simp [Pot.scale, Plummer.pot, Pot.axi, Plummer.dens]
  · have := (hlim 2 (by norm_num)).const_mul (15 / 4 / π * b ^ 2)
    rw [mul_zero] at this
    refine this.congr' ?_
    filter_upwards [eventually_gt_atTop 0] with r hr
    exact (eu r hr).symm
  · have hd : ∀ x, 0 < x → HasDerivAt (fun r => Plummer.ddensdr amp b r / ((Plummer.pot b).scale amp).Rforce r 0 0 0)
        (15 / 4 / π * b ^ 2 * (2 * x * (-2) * (x ^ 2 + b ^ 2) ^ ((-2 : ℝ) - 1))) x := by
      intro x hx
      refine ((hpow x (-2)).const_mul (15 / 4 / π * b ^ 2)).congr_of_eventuallyEq ?_
      filter_upwards [lt_mem_nhds hx] with y hy using eu y hy
    refine (integrableOn_congr_fun (fun x hx => (hd x (hr.trans hx)).deriv) measurableSet_Ioi).2 ?_
    have hl := (hlim 2 (by norm_num)).const_mul (15 / 4 / π * b ^ 2)
    refine integrableOn_Ioi_deriv_of_nonpos' (fun x _ => (hpow x (-2)).const_mul (15 / 4 / π * b ^ 2)) (fun x hx => ?_) hl
    have := rpow_pos_of_pos (hs x) ((-2 : ℝ) - 1)
    have hx0 : 0 < x := hr.trans hx
    have : 0 < 15 / 4 / π * b ^ 2 * (2 * x * 2 * (x ^ 2 + b ^ 2) ^ ((-2 : ℝ) - 1)) := by positivity
    linarith

end C59aux

example (amp b : ℝ) (hm : 0 < amp) (hb : b ≠ 0) (r : ℝ) (hr : 0 < r) :
    isoVmoment ((Plummer.pot b).scale amp) 0 (eddFE ((Plummer.pot b).scale amp) (Plummer.ddensdr amp b)
      (Plummer.d2densdr2 amp b) (fun E => √((amp / E) ^ 2 - b ^ 2)) 0 0 (-amp / |b|)) r 0 0
      = ((Plummer.pot b).scale amp).dens r 0 0 0 := by
  refine C59_eddington (plummer_halo hm hb) (plummer_tracer hm hb) (fun x hx => ?_) hr ?_
  · simp only [phi, Pot.scale, Plummer.pot, Pot.axi, Plummer.evaluate]
    have : 0 < x ^ 2 + 0 ^ 2 + b ^ 2 := by positivity
    rw [← div_div, div_self hm.ne', one_div, inv_pow, div_pow, sq_sqrt this.le]
    rw [show ((-1 : ℝ) ^ 2 / (x ^ 2 + 0 ^ 2 + b ^ 2))⁻¹ - b ^ 2 = x ^ 2 by field_simp; ring, sqrt_sq hx.le]
  · simp only [phi, Pot.scale, Plummer.pot, Pot.axi, Plummer.evaluate]
    have h1 : |b| ≤ √(r ^ 2 + 0 ^ 2 + b ^ 2) := by
      rw [← sqrt_sq_eq_abs]; exact sqrt_le_sqrt (by nlinarith)
    have hb' := abs_pos.2 hb
    have h2 : amp / √(r ^ 2 + 0 ^ 2 + b ^ 2) ≤ amp / |b| := div_le_div_of_nonneg_left hm.le hb' h1
    have e1 : amp * (-1 / √(r ^ 2 + 0 ^ 2 + b ^ 2)) = -(amp / √(r ^ 2 + 0 ^ 2 + b ^ 2)) := by ring
    rw [e1, neg_div]
    linarith

end Verif
