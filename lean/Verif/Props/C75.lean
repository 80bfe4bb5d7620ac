import Verif.Model.Jeans
import Verif.Lemmas.Pot.Plummer
import Verif.Model.Pot.LogarithmicHalo
import Verif.Model.Pot.Ops
import Verif.Util.PotLemmas
import Verif.Util.Deriv
import Mathlib.MeasureTheory.Integral.IntegralEqImproper
import Mathlib.Analysis.SpecialFunctions.ImproperIntegrals
import Mathlib.MeasureTheory.Integral.Bochner.Set
import Mathlib.MeasureTheory.Function.Jacobian

set_option autoImplicit false

/-!
# C75: dispersions from the spherical Jeans equation

`sigmar` solves the Jeans equation with vanishing pressure at infinity and is its only solution; `sigmalos` is the ratio of
line-of-sight integrals of the second velocity moment and of the tracer density.
-/

noncomputable section
namespace Verif
open Real MeasureTheory Set Filter Jeans
open scoped Topology

/-- The spherical Jeans equation at radius `r` for the pressure `p = ν σ_r²` of a tracer density `ν`, anisotropy `β` and radial
force `F`. -/
def C75Spec.JeansAt (ν β F p : ℝ → ℝ) (r : ℝ) : Prop :=
  HasDerivAt p (ν r * F r - 2 * β r / r * p r) r

/-- Second moment of the velocity along the line of sight at distance `s` along it and projected radius `R`: the radial part
projects with `s / r`, the tangential part, of dispersion `(1 - β) σ_r²`, with `R / r`. -/
def C75Spec.losMoment (β σ : ℝ → ℝ) (R s : ℝ) : ℝ :=
  let r := √(R ^ 2 + s ^ 2);
  σ r ^ 2 * (s / r) ^ 2 + (1 - β r) * σ r ^ 2 * (R / r) ^ 2

open C75Spec

namespace C75aux

/-- The integrating factor is `exp (2 ∫ β/y)` for both kinds of anisotropy. -/
theorem intFactor_eq (b : NumOrFun) {x : ℝ} (hx : 0 < x) : intFactor b x = exp (2 * ∫ y in (1 : ℝ)..x, b.call y / y) := by
  cases b with
  | func f => rfl
  | num b =>
    have : (∫ y in (1 : ℝ)..x, (NumOrFun.num b).call y / y) = b * log x := by
      simp only [NumOrFun.call, div_eq_mul_inv]
      rw [intervalIntegral.integral_const_mul, integral_inv_of_pos one_pos hx, div_one]
    rw [this, intFactor, rpow_def_of_pos hx]
    ring_nf

theorem intFactor_pos (b : NumOrFun) {x : ℝ} (hx : 0 < x) : 0 < intFactor b x := by
  rw [intFactor_eq b hx]; exact exp_pos _

theorem intFactor_deriv {b : NumOrFun} (hb : ContinuousOn b.call (Ioi 0)) {x : ℝ} (hx : 0 < x) :
    HasDerivAt (intFactor b) (intFactor b x * (2 * b.call x / x)) x := by
  have hc : ContinuousOn (fun y => b.call y / y) (Ioi 0) := hb.div continuousOn_id fun y hy => ne_of_gt hy
  have hsub : uIcc 1 x ⊆ Ioi 0 := by
    intro y hy
    have := hy.1
    have h1 : min 1 x ≤ y := this
    exact lt_of_lt_of_le (lt_min one_pos hx) h1
  have hd : HasDerivAt (fun u => ∫ y in (1 : ℝ)..u, b.call y / y) (b.call x / x) x :=
    intervalIntegral.integral_hasDerivAt_right (hc.mono hsub).intervalIntegrable
      (hc.stronglyMeasurableAtFilter isOpen_Ioi x hx) (hc.continuousAt (Ioi_mem_nhds hx))
  have := (hd.const_mul 2).exp
  refine (this.congr_of_eventuallyEq ?_).congr_deriv ?_
  · filter_upwards [Ioi_mem_nhds hx] with u hu
    exact intFactor_eq b hu
  · rw [intFactor_eq b hx]; ring

end C75aux

open C75aux

/-- The hypotheses on a tracer: positive continuous density, continuous anisotropy, continuous attractive force, and a finite
pressure integral. -/
structure C75Spec.Tracer (ν β F : ℝ → ℝ) (I : ℝ → ℝ) : Prop where
  dens_pos : ∀ r, 0 < r → 0 < ν r
  dens : ContinuousOn ν (Ioi 0)
  beta : ContinuousOn β (Ioi 0)
  force : ContinuousOn F (Ioi 0)
  attract : ∀ r, 0 < r → F r ≤ 0
  finite : ∀ r, 0 < r → IntegrableOn (fun x => I x * ν x * F x) (Ioi r)

namespace C75aux

theorem pressure {P : Pot} {ν : ℝ → ℝ} {b : NumOrFun} (h : Tracer ν b.call (Jeans.force P) (intFactor b)) {r : ℝ}
    (hr : 0 < r) : ν r * sigmar P r (some ν) b ^ 2
      = (∫ x in Ioi r, -intFactor b x * ν x * Jeans.force P x) / intFactor b r := by
  have hn : 0 ≤ ∫ x in Ioi r, -intFactor b x * ν x * Jeans.force P x := by
    refine setIntegral_nonneg measurableSet_Ioi fun x hx => ?_
    have hx0 : 0 < x := hr.trans hx
    have := mul_nonneg (mul_nonneg (intFactor_pos b hx0).le (h.dens_pos x hx0).le) (neg_nonneg.2 (h.attract x hx0))
    linarith
  have hν := h.dens_pos r hr
  have hI := intFactor_pos b hr
  simp only [sigmar, Option.getD_some]
  rw [sq_sqrt (div_nonneg (div_nonneg hn hν.le) hI.le)]
  field_simp

theorem integrand_cont {P : Pot} {ν : ℝ → ℝ} {b : NumOrFun} (h : Tracer ν b.call (Jeans.force P) (intFactor b)) :
    ContinuousOn (fun x => -intFactor b x * ν x * Jeans.force P x) (Ioi 0) := by
  refine ((ContinuousOn.neg fun x hx => ?_).mul h.dens).mul h.force
  exact (intFactor_deriv h.beta hx).continuousAt.continuousWithinAt

theorem finite' {P : Pot} {ν : ℝ → ℝ} {b : NumOrFun} (h : Tracer ν b.call (Jeans.force P) (intFactor b)) {r : ℝ}
    (hr : 0 < r) : IntegrableOn (fun x => -intFactor b x * ν x * Jeans.force P x) (Ioi r) := by
  have := (h.finite r hr).neg
  refine this.congr (Eventually.of_forall fun x => ?_)
  simp

/-- Derivative of a tail integral. -/
theorem tail_deriv {f : ℝ → ℝ} (hc : ContinuousOn f (Ioi 0)) (hi : ∀ r, 0 < r → IntegrableOn f (Ioi r)) {r : ℝ}
    (hr : 0 < r) : HasDerivAt (fun u => ∫ x in Ioi u, f x) (-f r) r := by
  have h2 : 0 < r / 2 := by linarith
  have key : ∀ u, r / 2 < u → (∫ x in Ioi u, f x) = (∫ x in Ioi (r / 2), f x) - ∫ x in (r / 2)..u, f x := by
    intro u hu
    have := intervalIntegral.integral_Ioi_sub_Ioi (hi (r / 2) h2) hu.le
    linarith
  have hsub : uIcc (r / 2) r ⊆ Ioi 0 := by
    rw [uIcc_of_le (by linarith)]
    intro y hy
    exact lt_of_lt_of_le h2 hy.1
  have hd : HasDerivAt (fun u => ∫ x in (r / 2)..u, f x) (f r) r :=
    intervalIntegral.integral_hasDerivAt_right (hc.mono hsub).intervalIntegrable
      (hc.stronglyMeasurableAtFilter isOpen_Ioi r hr) (hc.continuousAt (Ioi_mem_nhds hr))
  refine ((hd.const_sub (∫ x in Ioi (r / 2), f x)).congr_of_eventuallyEq ?_)
  filter_upwards [Ioi_mem_nhds (show r / 2 < r by linarith)] with u hu
  exact key u hu

theorem tail_lim {f : ℝ → ℝ} (hi : ∀ r, 0 < r → IntegrableOn f (Ioi r)) :
    Tendsto (fun u => ∫ x in Ioi u, f x) atTop (𝓝 0) := by
  have h1 := intervalIntegral_tendsto_integral_Ioi 1 (hi 1 one_pos) tendsto_id
  have : Tendsto (fun u => (∫ x in Ioi (1 : ℝ), f x) - ∫ x in (1 : ℝ)..u, f x) atTop (𝓝 0) := by
    simpa using (tendsto_const_nhds (x := ∫ x in Ioi (1 : ℝ), f x)).sub h1
  refine this.congr' ?_
  filter_upwards [eventually_ge_atTop 1] with u hu
  have := intervalIntegral.integral_Ioi_sub_Ioi (hi 1 one_pos) hu
  linarith

end C75aux

/-- `sigmar` solves the spherical Jeans equation at every radius, and its pressure, multiplied by the integrating factor,
vanishes at infinity. -/
theorem C75_jeans {P : Pot} {ν : ℝ → ℝ} {b : NumOrFun} (h : Tracer ν b.call (Jeans.force P) (intFactor b)) :
    (∀ r, 0 < r → JeansAt ν b.call (Jeans.force P) (fun r => ν r * sigmar P r (some ν) b ^ 2) r)
    ∧ Tendsto (fun r => intFactor b r * (ν r * sigmar P r (some ν) b ^ 2)) atTop (𝓝 0) := by
  constructor
  · intro r hr
    have hI := intFactor_pos b hr
    have hd := hd_div (tail_deriv (integrand_cont h) (fun r hr => finite' h hr) hr) (intFactor_deriv h.beta hr) hI.ne'
    refine (hd.congr_of_eventuallyEq ?_).congr_deriv ?_
    · filter_upwards [Ioi_mem_nhds hr] with u hu
      exact pressure h hu
    · simp only [pressure h hr]
      field_simp
  · refine (tail_lim fun r hr => finite' h hr).congr' ?_
    filter_upwards [Ioi_mem_atTop 0] with r hr
    have hI := intFactor_pos b hr
    rw [pressure h hr]
    field_simp

/-- Any pressure that solves the Jeans equation and whose product with the integrating factor vanishes at infinity is the one
`sigmar` returns. -/
theorem C75_unique {P : Pot} {ν : ℝ → ℝ} {b : NumOrFun} (h : Tracer ν b.call (Jeans.force P) (intFactor b)) {p : ℝ → ℝ}
    (hp : ∀ r, 0 < r → JeansAt ν b.call (Jeans.force P) p r) (h0 : Tendsto (fun r => intFactor b r * p r) atTop (𝓝 0))
    {r : ℝ} (hr : 0 < r) : p r = ν r * sigmar P r (some ν) b ^ 2 := by
  have hI := intFactor_pos b hr
  have key : (∫ x in Ioi r, intFactor b x * ν x * Jeans.force P x) = 0 - intFactor b r * p r := by
    refine integral_Ioi_of_hasDerivAt_of_tendsto (f := fun r => intFactor b r * p r) ?_ ?_ (h.finite r hr) h0
    · exact ((intFactor_deriv h.beta hr).mul (hp r hr)).continuousAt.continuousWithinAt
    · intro x hx
      have hx0 : 0 < x := hr.trans hx
      refine ((intFactor_deriv h.beta hx0).mul (hp x hx0)).congr_deriv ?_
      ring
  rw [pressure h hr]
  have : (∫ x in Ioi r, -intFactor b x * ν x * Jeans.force P x) = intFactor b r * p r := by
    rw [show (fun x => -intFactor b x * ν x * Jeans.force P x) = fun x => -(intFactor b x * ν x * Jeans.force P x) from by
      funext x; ring, integral_neg, key]
    ring
  rw [this]
  field_simp

/-- A constant anisotropy gives the same result as a number and as a function. -/
theorem C75_constant (P : Pot) (dens : Option (ℝ → ℝ)) (b : ℝ) {r : ℝ} (hr : 0 < r) :
    sigmar P r dens (.num b) = sigmar P r dens (.func fun _ => b) := by
  have : ∀ x, 0 < x → intFactor (.num b) x = intFactor (.func fun _ => b) x := fun x hx => by
    rw [intFactor_eq _ hx, intFactor_eq _ hx]; rfl
  simp only [sigmar]
  rw [this r hr]
  congr 3
  exact setIntegral_congr_fun measurableSet_Ioi fun x hx => by simp only [this x (hr.trans hx)]

namespace C75aux

/-- Substitution of the distance along the line of sight for the radius. -/
theorem los_integral {R : ℝ} (hR : 0 < R) (ν β σ : ℝ → ℝ) :
    2 * (∫ x in Ioi R, (1 - β x * R ^ 2 / x ^ 2) * x * ν x * σ x ^ 2 / √(x ^ 2 - R ^ 2))
      = ∫ x : ℝ, ν (√(R ^ 2 + x ^ 2)) * losMoment β σ R x := by
  have hsub : (∫ x in Ioi R, (1 - β x * R ^ 2 / x ^ 2) * x * ν x * σ x ^ 2 / √(x ^ 2 - R ^ 2))
      = ∫ u in Ioi (0 : ℝ), ν (√(R ^ 2 + u ^ 2)) * losMoment β σ R u := by
    have hpos : ∀ u : ℝ, 0 < R ^ 2 + u ^ 2 := fun u => by positivity
    have himg : (fun u : ℝ => √(R ^ 2 + u ^ 2)) '' Ioi 0 = Ioi R := by
      ext x
      constructor
      · rintro ⟨u, hu, rfl⟩
        exact lt_sqrt_of_sq_lt (by have : 0 < u ^ 2 := pow_pos hu 2; linarith)
      · intro hx
        have hx' : R < x := hx
        refine ⟨√(x ^ 2 - R ^ 2), sqrt_pos.2 (by nlinarith), ?_⟩
        simp only
        rw [sq_sqrt (by nlinarith), show R ^ 2 + (x ^ 2 - R ^ 2) = x ^ 2 by ring, sqrt_sq (by linarith)]
    have hinj : InjOn (fun u : ℝ => √(R ^ 2 + u ^ 2)) (Ioi 0) := by
      intro u hu w hw e
      have := congrArg (· ^ 2) e
      simp only [sq_sqrt (hpos _).le] at this
      have h1 : u ^ 2 = w ^ 2 := by linarith
      exact (pow_left_inj₀ (le_of_lt hu) (le_of_lt hw) two_ne_zero).1 h1
    have hd : ∀ u ∈ Ioi (0 : ℝ), HasDerivWithinAt (fun u : ℝ => √(R ^ 2 + u ^ 2)) (u / √(R ^ 2 + u ^ 2)) (Ioi 0) u := by
      intro u _
      have := ((hasDerivAt_const u (R ^ 2)).add ((hasDerivAt_id u).pow 2)).sqrt (by
        have := hpos u
        simpa using this.ne')
      refine (this.congr_deriv ?_).hasDerivWithinAt
      simp only [Pi.add_apply, Pi.pow_apply, id]
      have := sqrt_ne_zero'.2 (hpos u)
      field_simp
      try push_cast
      try ring
    have := integral_image_eq_integral_abs_deriv_smul measurableSet_Ioi hd hinj
      (fun x => (1 - β x * R ^ 2 / x ^ 2) * x * ν x * σ x ^ 2 / √(x ^ 2 - R ^ 2))
    rw [himg] at this
    rw [this]
    refine setIntegral_congr_fun measurableSet_Ioi fun u hu => ?_
    have hu' : 0 < u := hu
    have hr := sqrt_pos.2 (hpos u)
    have hr2 : √(R ^ 2 + u ^ 2) ^ 2 = R ^ 2 + u ^ 2 := sq_sqrt (hpos u).le
    simp only [smul_eq_mul, losMoment]
    rw [hr2, add_sub_cancel_left, sqrt_sq hu'.le, abs_of_pos (div_pos hu' hr)]
    generalize √(R ^ 2 + u ^ 2) = r at *
    field_simp
    rw [hr2]
    ring
  have heven : (∫ x : ℝ, ν (√(R ^ 2 + x ^ 2)) * losMoment β σ R x)
      = 2 * ∫ u in Ioi (0 : ℝ), ν (√(R ^ 2 + u ^ 2)) * losMoment β σ R u := by
    rw [← integral_comp_abs (f := fun u => ν (√(R ^ 2 + u ^ 2)) * losMoment β σ R u)]
    refine integral_congr_ae (Eventually.of_forall fun x => ?_)
    simp only [losMoment, sq_abs, div_pow]
  rw [hsub, heven]

end C75aux

/-- `sigmalos` for every density, anisotropy and radial dispersion: the square root of the line-of-sight integral of the
density times the second moment along the line of sight, over the surface density that was given or, by default, over the
line-of-sight integral of the density. The radial dispersion is the one that was given or, by default, `sigmar`; the density is
the one that was given or, by default, that of the potential, whose surface density is assumed to be NaN or correct. -/
theorem C75_los (P : Pot) (surf : ℝ → Option ℝ) {R : ℝ} (hR : 0 < R) (d : Option (ℝ → ℝ)) (S : Option NumOrFun)
    (b : NumOrFun) (s : Option NumOrFun)
    (hsurf : ∀ c, surf R = some c → c = ∫ x : ℝ, densPotLos P (√(R ^ 2 + x ^ 2))) :
    sigmalos P surf R d S b s
      = √((∫ x : ℝ, d.getD (densPotLos P) (√(R ^ 2 + x ^ 2)) * losMoment b.call
            (match s with | some s => s.call | none => fun r => sigmar P r (some (d.getD (densPotLos P))) b) R x)
          / (match S with | some S => S.call R | none => ∫ x : ℝ, d.getD (densPotLos P) (√(R ^ 2 + x ^ 2)))) := by
  have hfold : ∀ ν : ℝ → ℝ, 2 * (∫ x in Ioi (0 : ℝ), ν (√(R ^ 2 + x ^ 2))) = ∫ x : ℝ, ν (√(R ^ 2 + x ^ 2)) := by
    intro ν
    rw [← integral_comp_abs (f := fun u => ν (√(R ^ 2 + u ^ 2)))]
    simp only [sq_abs]
  have hS : calledSurfdens P surf R d S
      = (match S with | some S => S.call R | none => ∫ x : ℝ, d.getD (densPotLos P) (√(R ^ 2 + x ^ 2))) := by
    cases S with
    | some S => rfl
    | none =>
      cases d with
      | some ν => exact hfold ν
      | none =>
        simp only [calledSurfdens, Option.getD_none]
        cases hs : surf R with
        | none => exact hfold _
        | some c => exact hsurf c hs
  simp only [sigmalos]
  rw [hS]
  cases s with
  | none => rw [los_integral hR]
  | some s => rw [los_integral hR]

/-- The force in the integrand is the derivative of the potential with radius, for every spherically symmetric potential with
correct forces. -/
theorem C75_force {P : Pot} {Φ : ℝ → ℝ} {Φ' r : ℝ} (hP : ∀ R z φ t, P.val R z φ t = Φ (√(R ^ 2 + z ^ 2))) (hr : 0 < r)
    (hΦ : HasDerivAt Φ Φ' r) (hg : GradAt P (r * invSqrtTwo) (r * invSqrtTwo) (π / 4) 0) : Jeans.force P r = -Φ' := by
  have h2 : (0 : ℝ) < √2 := sqrt_pos.2 two_pos
  have hs : √2 ^ 2 = (2 : ℝ) := sq_sqrt two_pos.le
  set a := r * invSqrtTwo with ha
  have ha' : a = r / √2 := by rw [ha, invSqrtTwo]; ring
  have ha0 : 0 < a := by rw [ha']; positivity
  have hsum : a ^ 2 + a ^ 2 = r ^ 2 := by
    rw [ha', div_pow, hs]; ring
  have hrr : √(a ^ 2 + a ^ 2) = r := by rw [hsum, sqrt_sq hr.le]
  have chain : HasDerivAt (fun R => Φ (√(R ^ 2 + a ^ 2))) (Φ' * (a / r)) a := by
    have h1 : HasDerivAt (fun R => √(R ^ 2 + a ^ 2)) (a / r) a := by
      have := (((hasDerivAt_id a).pow 2).add_const (a ^ 2)).sqrt (by simp; positivity)
      refine this.congr_deriv ?_
      simp only [Pi.pow_apply, id]
      rw [hrr]
      field_simp
      try push_cast
      try ring
    have h3 : HasDerivAt Φ Φ' (√(a ^ 2 + a ^ 2)) := by rw [hrr]; exact hΦ
    exact h3.comp a h1
  have chain' : HasDerivAt (fun z => Φ (√(a ^ 2 + z ^ 2))) (Φ' * (a / r)) a := by
    simpa only [add_comm] using chain
  have eR : -P.Rforce a a (π / 4) 0 = Φ' * (a / r) :=
    (hg.dR.congr_of_eventuallyEq (Eventually.of_forall fun R => (hP R a _ _).symm)).unique chain
  have ez : -P.zforce a a (π / 4) 0 = Φ' * (a / r) :=
    (hg.dz.congr_of_eventuallyEq (Eventually.of_forall fun z => (hP a z _ _).symm)).unique chain'
  have eR' : P.Rforce a a (π / 4) 0 = -(Φ' * (a / r)) := by linarith
  have ez' : P.zforce a a (π / 4) 0 = -(Φ' * (a / r)) := by linarith
  show PotQuant.rforce P a a (π / 4) 0 = -Φ'
  simp only [PotQuant.rforce]
  rw [hrr, eR', ez']
  field_simp
  linear_combination -Φ' * hsum

namespace C75aux

/-- The logarithmic halo with a core. -/
def halo (amp c2 : ℝ) : Pot := (LogarithmicHalo.pot 1 c2 none).scale amp

theorem halfsq (r : ℝ) : (r * invSqrtTwo) ^ 2 = r ^ 2 / 2 := by
  rw [mul_pow, invSqrtTwo, div_pow, sq_sqrt two_pos.le]; ring

theorem halo_force {amp c2 r : ℝ} (hc : 0 ≤ c2) (hr : 0 < r) : Jeans.force (halo amp c2) r = -amp * r / (r ^ 2 + c2) := by
  have e : (r * invSqrtTwo) ^ 2 + (r * invSqrtTwo) ^ 2 = r ^ 2 := by rw [halfsq]; ring
  have hu : 0 < r ^ 2 + c2 := by positivity
  simp only [Jeans.force, PotQuant.rforce, halo, Pot.scale, LogarithmicHalo.pot, LogarithmicHalo.Rforce,
    LogarithmicHalo.zforce, div_one, one_pow]
  rw [e, sqrt_sq hr.le]
  have h := halfsq r
  generalize r * invSqrtTwo = a at *
  field_simp
  linear_combination -2 * amp * h

theorem halo_dens {amp c2 r : ℝ} : densPot (halo amp c2) r = amp / (4 * π) * (r ^ 2 + 3 * c2) / (r ^ 2 + c2) ^ 2 := by
  simp only [densPot, halo, Pot.scale, LogarithmicHalo.pot, LogarithmicHalo.dens, div_one, one_pow, halfsq, one_zpow]
  rw [show r ^ 2 / 2 + r ^ 2 / 2 + c2 = r ^ 2 + c2 by ring]
  ring

/-- Its pressure. -/
def haloP (amp c2 r : ℝ) : ℝ := amp ^ 2 / (4 * π) * (1 / 2) * (1 / (r ^ 2 + c2) + c2 / (r ^ 2 + c2) ^ 2)

theorem haloP_deriv {amp c2 r : ℝ} (hc : 0 ≤ c2) (hr : 0 < r) :
    HasDerivAt (haloP amp c2) (densPot (halo amp c2) r * Jeans.force (halo amp c2) r) r := by
  have hu : r ^ 2 + c2 ≠ 0 := by positivity
  have hu2 : (r ^ 2 + c2) ^ 2 ≠ 0 := by positivity
  rw [halo_dens, halo_force hc hr]
  have hpi := pi_pos
  refine HasDerivAt.congr_deriv (f := haloP amp c2) (by unfold haloP; hasderiv) ?_
  simp only [Nat.cast_ofNat, mul_one]
  field_simp
  ring

theorem haloP_lim (amp : ℝ) {c2 : ℝ} (hc : 0 ≤ c2) : Tendsto (haloP amp c2) atTop (𝓝 0) := by
  have h1 : Tendsto (fun r : ℝ => r ^ 2 + c2) atTop atTop := tendsto_atTop_add_const_right _ _ (tendsto_pow_atTop two_ne_zero)
  have h2 : Tendsto (fun r : ℝ => (r ^ 2 + c2)⁻¹) atTop (𝓝 0) := h1.inv_tendsto_atTop
  have h3 : Tendsto (fun r : ℝ => amp ^ 2 / (4 * π) * (1 / 2) * ((r ^ 2 + c2)⁻¹ + c2 * (r ^ 2 + c2)⁻¹ ^ 2)) atTop
      (𝓝 (amp ^ 2 / (4 * π) * (1 / 2) * (0 + c2 * 0 ^ 2))) := (h2.add ((h2.pow 2).const_mul c2)).const_mul _
  simp only [ne_eq, OfNat.ofNat_ne_zero, not_false_eq_true, zero_pow, mul_zero, add_zero] at h3
  refine h3.congr fun r => ?_
  simp only [haloP, div_eq_mul_inv, inv_pow, one_mul]

theorem halo_tracer {amp c2 : ℝ} (ha : 0 < amp) (hc : 0 ≤ c2) :
    Tracer (densPot (halo amp c2)) (NumOrFun.num 0).call (Jeans.force (halo amp c2)) (intFactor (.num 0)) := by
  have hpi := pi_pos
  have hν : ∀ r, 0 < r → 0 < densPot (halo amp c2) r := fun r hr => by rw [halo_dens]; positivity
  have hF : ∀ r, 0 < r → Jeans.force (halo amp c2) r ≤ 0 := fun r hr => by
    rw [halo_force hc hr, neg_mul, neg_div]
    have : 0 ≤ amp * r / (r ^ 2 + c2) := by positivity
    linarith
  have hu : ∀ r ∈ Ioi (0 : ℝ), r ^ 2 + c2 ≠ 0 := fun r hr => by
    have : (0 : ℝ) < r := hr
    positivity
  refine ⟨hν, ?_, continuousOn_const, ?_, hF, fun r hr => ?_⟩
  · rw [show densPot (halo amp c2) = fun r => amp / (4 * π) * (r ^ 2 + 3 * c2) / (r ^ 2 + c2) ^ 2 from
      funext fun r => halo_dens]
    exact ContinuousOn.div (by fun_prop) (by fun_prop) fun r hr => pow_ne_zero 2 (hu r hr)
  · refine ContinuousOn.congr (f := fun r => -amp * r / (r ^ 2 + c2)) ?_ fun r hr => halo_force hc hr
    exact ContinuousOn.div (by fun_prop) (by fun_prop) hu
  · simp only [intFactor, mul_zero, rpow_zero, one_mul]
    refine integrableOn_Ioi_deriv_of_nonpos' (g := haloP amp c2) (fun x hx => haloP_deriv hc (lt_of_lt_of_le hr hx))
      (fun x hx => ?_) (haloP_lim amp hc)
    exact mul_nonpos_of_nonneg_of_nonpos (hν x (hr.trans hx)).le (hF x (hr.trans hx))

end C75aux

/-- The isotropic dispersion of the logarithmic halo with core `c` in its own potential. For the default halo of
`ChandrasekharDynamicalFrictionForce`, which uses the value `1/√2` without a core, the squares differ by less than
`c²/r²`. -/
theorem C75_logHalo {amp c2 r : ℝ} (ha : 0 < amp) (hc : 0 ≤ c2) (hr : 0 < r) :
    sigmar (halo amp c2) r none (.num 0) ^ 2 = amp / 2 * (r ^ 2 + 2 * c2) / (r ^ 2 + 3 * c2)
    ∧ |sigmar (halo amp c2) r none (.num 0) ^ 2 - amp / 2| ≤ amp / 2 * (c2 / r ^ 2) := by
  have hpi := pi_pos
  have h := halo_tracer ha hc
  have hu : 0 < r ^ 2 + c2 := by positivity
  have hw : 0 < r ^ 2 + 3 * c2 := by positivity
  have key := C75_unique h (p := haloP amp c2) (fun r hr => (haloP_deriv hc hr).congr_deriv (by simp [NumOrFun.call]))
    (by simpa [intFactor] using haloP_lim amp hc) hr
  have e : sigmar (halo amp c2) r none (.num 0) ^ 2 = amp / 2 * (r ^ 2 + 2 * c2) / (r ^ 2 + 3 * c2) := by
    have e1 : sigmar (halo amp c2) r none (.num 0) = sigmar (halo amp c2) r (some (densPot (halo amp c2))) (.num 0) := rfl
    rw [e1]
    generalize sigmar (halo amp c2) r (some (densPot (halo amp c2))) (.num 0) ^ 2 = y at key
    rw [halo_dens, haloP] at key
    field_simp at key ⊢
    nlinarith [key]
  refine ⟨e, ?_⟩
  rw [e, show amp / 2 * (r ^ 2 + 2 * c2) / (r ^ 2 + 3 * c2) - amp / 2 = -(amp / 2 * (c2 / (r ^ 2 + 3 * c2))) by
    field_simp; ring, abs_neg, abs_of_nonneg (by positivity)]
  gcongr
  linarith

/-- Case: the halo without a core has dispersion `1/√2` at every radius, so the theorems about `sigmar` apply to it. -/
example {r : ℝ} (hr : 0 < r) : sigmar (halo 1 0) r none (.num 0) ^ 2 = 1 / 2 := by
  rw [(C75_logHalo one_pos le_rfl hr).1]; field_simp; ring
example {r : ℝ} (hr : 0 < r) : JeansAt (densPot (halo 1 0)) (NumOrFun.num 0).call (Jeans.force (halo 1 0))
    (fun r => densPot (halo 1 0) r * sigmar (halo 1 0) r (some (densPot (halo 1 0))) (.num 0) ^ 2) r :=
  (C75_jeans (halo_tracer one_pos le_rfl)).1 r hr

/-- With an isotropic dispersion that does not depend on radius, the line-of-sight dispersion is that dispersion. -/
theorem C75_isothermal (P : Pot) (surf : ℝ → Option ℝ) {R : ℝ} (hR : 0 < R) (ν : ℝ → ℝ) {σ : ℝ} (hσ : 0 ≤ σ)
    (hν : (∫ x : ℝ, ν (√(R ^ 2 + x ^ 2))) ≠ 0)
    (hsurf : ∀ c, surf R = some c → c = ∫ x : ℝ, densPotLos P (√(R ^ 2 + x ^ 2))) :
    sigmalos P surf R (some ν) none (.num 0) (some (.num σ)) = σ := by
  rw [C75_los P surf hR _ _ _ _ hsurf]
  have : ∀ x : ℝ, ν (√(R ^ 2 + x ^ 2)) * losMoment (NumOrFun.num 0).call (NumOrFun.num σ).call R x
      = ν (√(R ^ 2 + x ^ 2)) * σ ^ 2 := by
    intro x
    have hp : 0 < R ^ 2 + x ^ 2 := by positivity
    have h2 : √(R ^ 2 + x ^ 2) ^ 2 = R ^ 2 + x ^ 2 := sq_sqrt hp.le
    simp only [losMoment, NumOrFun.call, div_pow, h2]
    field_simp
    ring
  simp only [Option.getD_some, this]
  rw [integral_mul_const, mul_div_cancel_left₀ _ hν, sqrt_sq hσ]

/-- A Plummer sphere. -/
example : Jeans.force (Plummer.pot 1) 2 = -(2 / √5 ^ 3) := by
  have h5 : (0 : ℝ) < √5 := by positivity
  refine C75_force (Φ := fun r => -1 / √(r ^ 2 + 1 ^ 2)) (fun R z φ t => ?_) two_pos ?_ ((Plummer.consistent 1).grad _ _ _ _ (by positivity))
  · simp only [Plummer.pot, Pot.axi, Plummer.evaluate]
    rw [sq_sqrt (by positivity)]
  · have := ((((hasDerivAt_id' (2 : ℝ)).pow 2).add_const (1 ^ 2 : ℝ)).sqrt (by norm_num)).inv (by simp; positivity)
    refine (this.const_mul (-1)).congr_deriv ?_ |>.congr_of_eventuallyEq (.of_forall fun x => ?_)
    · norm_num
      field_simp
      rw [sq_sqrt (by norm_num)]
      norm_num
    · simp [div_eq_mul_inv]
example := C75_los (halo 1 0) (fun _ => none) one_pos none none (.num 0) none (by simp)
example {r : ℝ} (hr : 0 < r) : sigmar (halo 1 0) r none (.num 0.3) = sigmar (halo 1 0) r none (.func fun _ => 0.3) := C75_constant _ _ _ hr

end Verif
