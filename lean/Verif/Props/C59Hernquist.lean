import Verif.Props.C59OM
import Mathlib.Analysis.SpecialFunctions.Trigonometric.Arctan
import Mathlib.Analysis.SpecialFunctions.Trigonometric.ArctanDeriv
import Mathlib.Analysis.SpecialFunctions.Trigonometric.Inverse

set_option autoImplicit false

/-!
# C59: the closed forms of the Hernquist sphere, isotropic and Osipkov-Merritt

The closed forms are the ones that the Eddington inversion of the same potential and density gives,
and they reproduce the density.
-/

noncomputable section
open Real MeasureTheory Set Filter Topology

namespace Verif
open Sph C59aux C59Spec

namespace C59aux

/-- The Hernquist density, with its augmentation, as a function of the relative potential in units
of the central one. -/
def hN (A x : ℝ) : ℝ := x ^ 4 / (1 - x) + A * (x ^ 2 - x ^ 3)
def hN1 (A x : ℝ) : ℝ := 1 / (1 - x) ^ 2 - 3 * x ^ 2 - 2 * x - 1 + A * (2 * x - 3 * x ^ 2)
def hN2 (A x : ℝ) : ℝ := 2 / (1 - x) ^ 3 - 6 * x - 2 + A * (2 - 6 * x)

theorem hN_deriv (A : ℝ) {x : ℝ} (hx : x < 1) : HasDerivAt (hN A) (hN1 A x) x := by
  have h1 : 1 - x ≠ 0 := by linarith
  unfold hN
  refine HasDerivAt.congr_deriv (by hasderiv) ?_
  rw [hN1]
  simp only [Nat.cast_ofNat, Nat.add_one_sub_one, pow_one]
  field_simp
  ring

theorem hN1_deriv (A : ℝ) {x : ℝ} (hx : x < 1) : HasDerivAt (hN1 A) (hN2 A x) x := by
  have h1 : 1 - x ≠ 0 := by linarith
  have h2 := pow_ne_zero 2 h1
  unfold hN1
  refine HasDerivAt.congr_deriv (by hasderiv) ?_
  rw [hN2]
  simp only [Nat.cast_ofNat, Nat.add_one_sub_one, pow_one]
  field_simp
  ring

theorem hN2_cont (A : ℝ) : ContinuousOn (hN2 A) (Iio 1) := by
  unfold hN2
  refine ContinuousOn.add (ContinuousOn.sub (ContinuousOn.sub (ContinuousOn.div ?_ ?_ ?_) ?_) ?_) ?_ <;> try fun_prop
  intro x hx
  exact pow_ne_zero 3 (by linarith [mem_Iio.1 hx])

/-- The integral of the Eddington formula. -/
theorem hN_integral (A : ℝ) {ε : ℝ} (h0 : 0 < ε) (h1 : ε < 1) :
    ∫ x in (0 : ℝ)..ε, 1 / √(ε - x) * hN2 A x = (HernquistDF.shape ε + 8 * A * √ε * (1 - 2 * ε)) / 2 := by
  have hk2 : 0 < 1 - ε := by linarith
  set k := √(1 - ε) with hk
  have hkp : 0 < k := sqrt_pos.2 hk2
  have hks : k ^ 2 = 1 - ε := sq_sqrt hk2.le
  have himg : (fun s : ℝ => -(ε - s ^ 2)) '' Ioo 0 (√ε) = Ioo (-ε) 0 := by
    ext y
    simp only [mem_image, mem_Ioo]
    constructor
    · rintro ⟨s, ⟨hs0, hs1⟩, rfl⟩
      have := (lt_sqrt hs0.le).1 hs1
      exact ⟨by nlinarith, by linarith⟩
    · rintro ⟨hy0, hy1⟩
      have : 0 < ε + y := by linarith
      exact ⟨√(ε + y), ⟨sqrt_pos.2 this, sqrt_lt_sqrt this.le (by linarith)⟩, by rw [sq_sqrt this.le]; ring⟩
  have e1 : ∫ x in (0 : ℝ)..ε, 1 / √(ε - x) * hN2 A x = ∫ y in (-ε)..0, 1 / √(ε + y) * hN2 A (-y) := by
    have := intervalIntegral.integral_comp_neg (fun x => 1 / √(ε - x) * hN2 A x) (a := -ε) (b := 0)
    rw [neg_zero, neg_neg] at this
    rw [← this]
    simp only [sub_neg_eq_add]
  have e2 : ∫ y in (-ε)..0, 1 / √(ε + y) * hN2 A (-y) = ∫ s in (0 : ℝ)..√ε, 2 * hN2 A (ε - s ^ 2) := by
    rw [integral_subst_mono (f := fun s => -(ε - s ^ 2)) (f' := fun s => 2 * s) (sqrt_nonneg _) (by linarith) ?_ ?_ himg]
    · refine intervalIntegral.integral_congr_ae ?_
      refine Eventually.of_forall fun s hs => ?_
      rw [uIoc_of_le (sqrt_nonneg _)] at hs
      have := hs.1
      rw [neg_neg, show ε + -(ε - s ^ 2) = s ^ 2 by ring, sqrt_sq hs.1.le]
      field_simp
    · intro s _
      exact ((((hasDerivAt_id s).fun_pow 2).const_sub ε).fun_neg).congr_deriv (by simp)
    · intro s hs
      linarith [hs.1]
  have hd : ∀ s ∈ uIcc 0 (√ε), HasDerivAt
      (fun s => s / (k ^ 2 * (k ^ 2 + s ^ 2) ^ 2) + 3 / (2 * k ^ 4) * (s / (k ^ 2 + s ^ 2)) + 3 / (2 * k ^ 5) * arctan (s / k)
        + (4 * s ^ 3 - (12 * ε + 4) * s) + A * (4 * s ^ 3 + (4 - 12 * ε) * s))
      (2 * hN2 A (ε - s ^ 2)) s := by
    intro s _
    have h2 : 0 < k ^ 2 + s ^ 2 := by positivity
    have h3 : k ^ 2 * (k ^ 2 + s ^ 2) ^ 2 ≠ 0 := by positivity
    have h4 : k ^ 2 + s ^ 2 ≠ 0 := h2.ne'
    have ha : HasDerivAt (fun s => arctan (s / k)) (1 / (1 + (s / k) ^ 2) * (1 / k)) s :=
      HasDerivAt.arctan ((hasDerivAt_id s).div_const k)
    have hb : HasDerivAt (fun s : ℝ => k ^ 2 + s ^ 2) (2 * s) s :=
      (((hasDerivAt_id s).fun_pow 2).const_add _).congr_deriv (by simp)
    have h1' := (hasDerivAt_id s).fun_div ((hb.fun_pow 2).const_mul (k ^ 2)) h3
    have h2' := ((hasDerivAt_id s).fun_div hb h4).const_mul (3 / (2 * k ^ 4))
    have h3' := ha.const_mul (3 / (2 * k ^ 5))
    have h4' : HasDerivAt (fun s : ℝ => 4 * s ^ 3 - (12 * ε + 4) * s) (12 * s ^ 2 - (12 * ε + 4)) s := by
      refine HasDerivAt.congr_deriv (by hasderiv) ?_
      simp only [Nat.cast_ofNat, Nat.add_one_sub_one]; ring
    have h5' : HasDerivAt (fun s : ℝ => A * (4 * s ^ 3 + (4 - 12 * ε) * s)) (A * (12 * s ^ 2 + (4 - 12 * ε))) s := by
      refine HasDerivAt.congr_deriv (by hasderiv) ?_
      simp only [Nat.cast_ofNat, Nat.add_one_sub_one]; ring
    simp only [id] at h1' h2'
    refine ((((h1'.fun_add h2').fun_add h3').fun_add h4').fun_add h5').congr_deriv ?_
    have e3 : 1 - (ε - s ^ 2) = k ^ 2 + s ^ 2 := by rw [hks]; ring
    rw [hN2, e3]
    have e4 : 1 + (s / k) ^ 2 = (k ^ 2 + s ^ 2) / k ^ 2 := by field_simp
    rw [e4]
    simp only [Nat.cast_ofNat, Nat.add_one_sub_one, pow_one]
    field_simp
    ring
  have hint : IntervalIntegrable (fun s => 2 * hN2 A (ε - s ^ 2)) volume 0 (√ε) := by
    refine ContinuousOn.intervalIntegrable ?_
    refine continuousOn_const.mul ((hN2_cont A).comp (by fun_prop) fun s hs => ?_)
    simp only [mem_Iio]
    nlinarith [sq_nonneg s]
  rw [e1, e2, intervalIntegral.integral_eq_sub_of_hasDerivAt hd hint]
  have hse : √ε ^ 2 = ε := sq_sqrt h0.le
  have hsp : 0 < √ε := sqrt_pos.2 h0
  have hat : arctan (√ε / k) = arcsin (√ε) := by
    rw [arcsin_eq_arctan ⟨by linarith, by rw [sqrt_lt' one_pos]; linarith⟩, hse, hk]
  have hsq : √(ε * (1 - ε)) = √ε * k := by rw [sqrt_mul h0.le]
  simp only [zero_div, mul_zero, arctan_zero, add_zero, sub_zero, zero_pow (three_ne_zero), ne_eq, OfNat.ofNat_ne_zero,
    not_false_eq_true, zero_pow]
  rw [HernquistDF.shape, hsq, hat, hse, show k ^ 2 + ε = 1 by rw [hks]; ring, show √ε ^ 3 = ε * √ε by rw [pow_succ, hse],
    show (1 - ε) ^ 2 = k ^ 4 by rw [← hks]; ring]
  have e5 : ε = 1 - k ^ 2 := by rw [hks]; ring
  field_simp
  rw [e5]
  ring

theorem twopower_d2_cont (amp a α β : ℝ) (ha : 0 < a) : ContinuousOn (TwoPower.d2densdr2 amp a α β) (Ioi 0) := by
  unfold TwoPower.d2densdr2
  have h1 : ContinuousOn (fun r : ℝ => (a / r) ^ (α - 2)) (Ioi 0) := by
    refine ContinuousOn.rpow_const (continuousOn_const.div continuousOn_id fun x hx => ne_of_gt hx) fun x hx => Or.inl ?_
    exact (div_pos ha hx).ne'
  have h2 : ContinuousOn (fun r : ℝ => (1 + r / a) ^ (α - β - 2)) (Ioi 0) := by
    refine ContinuousOn.rpow_const (by fun_prop) fun x hx => Or.inl ?_
    have := div_pos (mem_Ioi.1 hx) ha
    positivity
  refine ContinuousOn.div_const (ContinuousOn.div_const (ContinuousOn.div_const (ContinuousOn.div
    (ContinuousOn.mul (ContinuousOn.mul (continuousOn_const.mul h1) h2) (by fun_prop)) (by fun_prop) ?_) _) _) _
  intro x hx
  exact pow_ne_zero 4 (ne_of_gt hx)

theorem hern_halo {amp a : ℝ} (hm : 0 < amp) (ha : 0 < a) : C59Spec.Halo ((Hernquist.pot a).scale amp) := by
  have e0 : ∀ r, 0 < r → phi ((Hernquist.pot a).scale amp) r = -amp / 2 * (a + r)⁻¹ := by
    intro r hr
    rw [hern_phi ha hr.le, hern_psi0 ha, hx]
    field_simp
  have hsq : ∀ r : ℝ, 0 < r → √(r ^ 2 + 0 ^ 2) = r := fun r hr => by
    rw [show r ^ 2 + (0 : ℝ) ^ 2 = r ^ 2 by ring, sqrt_sq hr.le]
  have e1 : ∀ r, 0 < r → ((Hernquist.pot a).scale amp).Rforce r 0 0 0 = -amp / 2 / (a + r) ^ 2 := by
    intro r hr
    have : 0 < a + r := by linarith
    simp only [Pot.scale, Hernquist.pot, Pot.axi, Hernquist.Rforce]
    rw [hsq r hr]
    field_simp
  have e2 : ∀ r, 0 < r → ((Hernquist.pot a).scale amp).R2deriv r 0 0 0 = -amp / (a + r) ^ 3 := by
    intro r hr
    have : 0 < a + r := by linarith
    simp only [Pot.scale, Hernquist.pot, Pot.axi, Hernquist.R2deriv]
    rw [hsq r hr]
    field_simp
    ring
  have hl : ∀ r : ℝ, HasDerivAt (fun r : ℝ => a + r) 1 r := fun r => (hasDerivAt_id r).const_add a
  refine ⟨fun r hr => ?_, fun r hr => ?_, ?_, fun r hr => ?_, ?_⟩
  · have h1 : a + r ≠ 0 := by linarith
    rw [e1 r hr]
    refine HasDerivAt.congr_deriv ((((hl r).fun_inv h1).const_mul (-amp / 2)).congr_of_eventuallyEq ?_) ?_
    · filter_upwards [lt_mem_nhds hr] with x hx using e0 x hx
    · field_simp
  · have h1 : a + r ≠ 0 := by linarith
    rw [e2 r hr]
    refine HasDerivAt.congr_deriv (((((hl r).fun_pow 2).fun_inv (pow_ne_zero 2 h1)).const_mul (amp / 2)).congr_of_eventuallyEq ?_) ?_
    · filter_upwards [lt_mem_nhds hr] with x hx
      rw [e1 x hx, div_eq_mul_inv]; ring
    · simp only [Nat.cast_ofNat, Nat.add_one_sub_one, pow_one]
      field_simp
  · refine ContinuousOn.congr (f := fun r => -amp / (a + r) ^ 3) ?_ fun r hr => e2 r hr
    refine continuousOn_const.div (by fun_prop) fun r hr => pow_ne_zero 3 ?_
    linarith [mem_Ioi.1 hr]
  · rw [e1 r hr]
    have : 0 < a + r := by linarith
    have h : 0 < amp / 2 / (a + r) ^ 2 := by positivity
    rw [neg_div, neg_div]; linarith
  · have h1 : Tendsto (fun r : ℝ => a + r) atTop atTop := tendsto_atTop_add_const_left _ _ tendsto_id
    have h2 := (tendsto_inv_atTop_zero.comp h1).const_mul (-amp / 2)
    rw [mul_zero] at h2
    refine h2.congr' ?_
    filter_upwards [eventually_gt_atTop 0] with r hr using (e0 r hr).symm

/-- The augmented Hernquist density as a function of the relative potential. -/
def hRho (amp a A ψ : ℝ) : ℝ := HernquistDF.psi0 amp a / (2 * π * a ^ 2) * hN A (ψ / HernquistDF.psi0 amp a)
def hRho1 (amp a A ψ : ℝ) : ℝ := 1 / (2 * π * a ^ 2) * hN1 A (ψ / HernquistDF.psi0 amp a)
def hRho2 (amp a A ψ : ℝ) : ℝ := 1 / (2 * π * a ^ 2 * HernquistDF.psi0 amp a) * hN2 A (ψ / HernquistDF.psi0 amp a)

theorem aug {a : ℝ} (ha : 0 < a) (ra r : ℝ) : a ^ 2 / ra ^ 2 * r ^ 2 / a ^ 2 = r ^ 2 / ra ^ 2 := by
  rw [div_mul_eq_mul_div, div_right_comm, mul_div_cancel_left₀ _ (pow_ne_zero 2 ha.ne')]

variable {amp a : ℝ} (hm : 0 < amp) (ha : 0 < a)
include hm ha

theorem psi0_pos : 0 < HernquistDF.psi0 amp a := by rw [hern_psi0 ha]; positivity

theorem hRho_deriv (A : ℝ) {ψ : ℝ} (h : ψ < HernquistDF.psi0 amp a) :
    HasDerivAt (hRho amp a A) (hRho1 amp a A ψ) ψ ∧ HasDerivAt (hRho1 amp a A) (hRho2 amp a A ψ) ψ := by
  have hp := psi0_pos hm ha
  have hx : ψ / HernquistDF.psi0 amp a < 1 := (div_lt_one hp).2 h
  have hd : HasDerivAt (fun ψ => ψ / HernquistDF.psi0 amp a) (1 / HernquistDF.psi0 amp a) ψ := (hasDerivAt_id ψ).div_const _
  refine ⟨?_, ?_⟩
  · refine (((hN_deriv A hx).comp ψ hd).const_mul (HernquistDF.psi0 amp a / (2 * π * a ^ 2))).congr_deriv ?_
    rw [hRho1]
    field_simp
  · refine (((hN1_deriv A hx).comp ψ hd).const_mul (1 / (2 * π * a ^ 2))).congr_deriv ?_
    rw [hRho2]
    field_simp

/-- The density times `1 + A r²/a²`. -/
theorem hRho_eq (A : ℝ) {r : ℝ} (hr : 0 < r) :
    ((Hernquist.pot a).scale amp).dens r 0 0 0 * (1 + A * r ^ 2 / a ^ 2)
      = hRho amp a A (-phi ((Hernquist.pot a).scale amp) r) := by
  have hp := psi0_pos hm ha
  have har : 0 < a + r := by linarith
  rw [hern_dens ha hr, hern_phi ha hr.le, neg_neg, hRho, mul_comm, mul_div_assoc, mul_comm, mul_div_cancel_left₀ _ hp.ne', hx, hN,
    hern_psi0 ha]
  rw [show 1 - a / (a + r) = r / (a + r) by field_simp; ring]
  field_simp
  ring

theorem hern_lt {r : ℝ} (hr : 0 < r) : -phi ((Hernquist.pot a).scale amp) r < HernquistDF.psi0 amp a := by
  have hp := psi0_pos hm ha
  rw [hern_phi ha hr.le, neg_neg]
  have := (hx_mem ha hr).2
  nlinarith

theorem hern_tracer (ra : ℝ) :
    Tracer ((Hernquist.pot a).scale amp) (fun r => ((Hernquist.pot a).scale amp).dens r 0 0 0 * (1 + r ^ 2 / ra ^ 2))
      (omDnudr ra (fun r => ((Hernquist.pot a).scale amp).dens r 0 0 0) (TwoPower.ddensdr amp a 1 4))
      (omD2nudr2 ra (fun r => ((Hernquist.pot a).scale amp).dens r 0 0 0) (TwoPower.ddensdr amp a 1 4)
        (TwoPower.d2densdr2 amp a 1 4)) 0 := by
  have hp := psi0_pos hm ha
  have hd : ∀ r, 0 < r → HasDerivAt (fun r => ((Hernquist.pot a).scale amp).dens r 0 0 0) (TwoPower.ddensdr amp a 1 4 r) r := by
    intro r hr
    refine (C59_densderivs_twopower amp a 1 4 ha hr).first.congr_of_eventuallyEq ?_
    filter_upwards [lt_mem_nhds hr] with x hx using (C59_densderivs_classes amp a 1 hx.le).1
  have hd2 : ∀ r, 0 < r → HasDerivAt (TwoPower.ddensdr amp a 1 4) (TwoPower.d2densdr2 amp a 1 4 r) r := fun r hr =>
    (C59_densderivs_twopower amp a 1 4 ha hr).second
  have h0 : hRho1 amp a (a ^ 2 / ra ^ 2) 0 = 0 := by simp [hRho1, hN1]
  have key : Tracer ((Hernquist.pot a).scale amp) (fun r => ((Hernquist.pot a).scale amp).dens r 0 0 0 * (1 + r ^ 2 / ra ^ 2))
      (omDnudr ra (fun r => ((Hernquist.pot a).scale amp).dens r 0 0 0) (TwoPower.ddensdr amp a 1 4))
      (omD2nudr2 ra (fun r => ((Hernquist.pot a).scale amp).dens r 0 0 0) (TwoPower.ddensdr amp a 1 4)
        (TwoPower.d2densdr2 amp a 1 4)) (hRho1 amp a (a ^ 2 / ra ^ 2) 0) := by
   refine tracer_of_profile (hern_halo hm ha) (ρ := hRho amp a (a ^ 2 / ra ^ 2)) (ρ'' := hRho2 amp a (a ^ 2 / ra ^ 2))
     (ψm := HernquistDF.psi0 amp a) (fun r hr => hern_lt hm ha hr)
     (fun ψ h => (hRho_deriv hm ha _ h.2).1) (fun ψ h => (hRho_deriv hm ha _ h.2).2) ?_ (by simp [hRho, hN]) ?_ ?_ ?_ ?_
   · unfold hRho2
     refine continuousOn_const.mul ((hN2_cont _).comp (by fun_prop) fun ψ h => ?_)
     exact (div_lt_one hp).2 h.2
   · intro r hr
     rw [← hRho_eq hm ha _ hr, aug ha]
   · exact fun r hr => (C59_augmented_derivs ra (hd r hr) (hd2 r hr)).1
   · exact fun r hr => (C59_augmented_derivs ra (hd r hr) (hd2 r hr)).2
   · unfold omD2nudr2
     have c0 : ContinuousOn (fun r => ((Hernquist.pot a).scale amp).dens r 0 0 0) (Ioi 0) := fun r hr =>
       (hd r hr).continuousAt.continuousWithinAt
     have c1 : ContinuousOn (TwoPower.ddensdr amp a 1 4) (Ioi 0) := fun r hr =>
       (hd2 r hr).continuousAt.continuousWithinAt
     exact ((((twopower_d2_cont amp a 1 4 ha).mul (by fun_prop)).add
       (((continuousOn_const.mul c1).mul continuousOn_id).div_const _)).add ((continuousOn_const.mul c0).div_const _))
  rw [h0] at key
  exact key

end C59aux

/-- The Osipkov-Merritt Hernquist function is the general Osipkov-Merritt one of that potential and
density, at every argument. -/
theorem C59_hernquist_om_eddington (amp a ra : ℝ) (hm : 0 < amp) (ha : 0 < a) {rphi : ℝ → ℝ}
    (hi : ∀ r, 0 < r → rphi (phi ((Hernquist.pot a).scale amp) r) = r) {s : ℝ} (hs : 0 < s) :
    HernquistDF.fQ amp a ra (-phi ((Hernquist.pot a).scale amp) s)
      = eddFE ((Hernquist.pot a).scale amp)
        (omDnudr ra (fun r => ((Hernquist.pot a).scale amp).dens r 0 0 0) (TwoPower.ddensdr amp a 1 4))
        (omD2nudr2 ra (fun r => ((Hernquist.pot a).scale amp).dens r 0 0 0) (TwoPower.ddensdr amp a 1 4)
          (TwoPower.d2densdr2 amp a 1 4)) rphi 0 0 (-HernquistDF.psi0 amp a) (phi ((Hernquist.pot a).scale amp) s) := by
  have hp := psi0_pos hm ha
  have hlt := hern_lt hm ha hs
  rw [(C59_eddington_formula (hern_halo hm ha) (hern_tracer hm ha ra) hi hs (by linarith)
    (ρ := hRho amp a (a ^ 2 / ra ^ 2)) (ρ' := hRho1 amp a (a ^ 2 / ra ^ 2)) (ρ'' := hRho2 amp a (a ^ 2 / ra ^ 2))
    (fun r hr => by rw [← hRho_eq hm ha _ hr, aug ha])
    (fun r hr => (hRho_deriv hm ha _ (hern_lt hm ha hr)).1) (fun r hr => (hRho_deriv hm ha _ (hern_lt hm ha hr)).2)).1]
  obtain ⟨hx0, hx1⟩ := hx_mem ha hs
  rw [hern_phi ha hs.le, neg_neg, mul_zero, add_zero]
  set p := HernquistDF.psi0 amp a with hpd
  set x := hx a s with hxd
  have e1 : ∫ ψ in (0 : ℝ)..(p * x), 1 / √(p * x - ψ) * hRho2 amp a (a ^ 2 / ra ^ 2) ψ
      = 1 / (2 * π * a ^ 2 * p) * √p * ∫ y in (0 : ℝ)..x, 1 / √(x - y) * hN2 (a ^ 2 / ra ^ 2) y := by
    have := intervalIntegral.integral_comp_mul_left (a := 0) (b := x)
      (fun ψ => 1 / √(p * x - ψ) * hRho2 amp a (a ^ 2 / ra ^ 2) ψ) hp.ne'
    rw [mul_zero, smul_eq_mul] at this
    rw [← mul_inv_cancel_left₀ hp.ne' (∫ ψ in (0 : ℝ)..(p * x), _), ← this, ← intervalIntegral.integral_const_mul,
      ← intervalIntegral.integral_const_mul]
    refine intervalIntegral.integral_congr fun y hy => ?_
    rw [uIcc_of_le hx0.le] at hy
    beta_reduce
    rw [hRho2, ← hpd, mul_div_cancel_left₀ _ hp.ne', ← mul_sub, sqrt_mul hp.le]
    rcases hy.2.eq_or_lt with h | h
    · rw [h]; simp
    · have h1 : √(x - y) ≠ 0 := (sqrt_pos.2 (by linarith)).ne'
      have h2 : √p ≠ 0 := (sqrt_pos.2 hp).ne'
      have h3 := sq_sqrt hp.le
      field_simp
      rw [h3]
  rw [e1, hN_integral _ hx0 hx1]
  rw [HernquistDF.fQ, ← hpd]
  rw [mul_div_cancel_left₀ _ hp.ne', if_neg (by rintro (h | h) <;> linarith), HernquistDF.norm, HernquistDF.GMa, ← hpd]
  have h8 : √8 = 2 * √2 := by
    rw [show (8 : ℝ) = 2 ^ 2 * 2 by norm_num, sqrt_mul (by norm_num), sqrt_sq (by norm_num)]
  have h15 : (p * a ^ 2) ^ (1.5 : ℝ) = p * √p * a ^ 3 := by
    rw [show (1.5 : ℝ) = 1 + 1 / 2 by norm_num, rpow_add (by positivity), rpow_one, ← sqrt_eq_rpow, sqrt_mul hp.le,
      sqrt_sq ha.le]; ring
  rw [h8, h15]
  have h2 : √p ≠ 0 := (sqrt_pos.2 hp).ne'
  have h3 := sq_sqrt hp.le
  field_simp
  rw [h3]

/-- Osipkov-Merritt Hernquist reproduces its density. -/
theorem C59_hernquist_om (amp a ra : ℝ) (hm : 0 < amp) (ha : 0 < a) {r : ℝ} (hr : 0 < r) :
    omVmoment ((Hernquist.pot a).scale amp) 0 ra (HernquistDF.fQ amp a ra) r 0 0
      = ((Hernquist.pot a).scale amp).dens r 0 0 0 := by
  have h := hern_halo hm ha
  have hi : ∀ r, 0 < r → (fun E => -amp / (2 * E) - a) (phi ((Hernquist.pot a).scale amp) r) = r := by
    intro r hr
    have : 0 < a + r := by linarith
    simp only [hern_phi ha hr.le, hern_psi0 ha, hx]
    field_simp
    ring
  have hlt := hern_lt hm ha hr
  have key := C59_osipkovmerritt h ra (hern_tracer hm ha ra) (rphi := fun E => -amp / (2 * E) - a) hi hr (Emin := -HernquistDF.psi0 amp a) (by linarith)
  rw [← key, om_iso, om_iso, iso00, iso00]
  congr 2
  have hn := h.inv.neg hr
  refine intervalIntegral.integral_congr_ae ?_
  have hne : ∀ᵐ v : ℝ, v ≠ √(2 * (0 - phi ((Hernquist.pot a).scale amp) r)) := by simp [ae_iff]
  filter_upwards [hne] with v hv' hv
  rw [uIoc_of_le (sqrt_nonneg _)] at hv
  have h2 := (lt_sqrt hv.1.le).1 (lt_of_le_of_ne hv.2 hv')
  obtain ⟨s, hs, he⟩ := h.inv.exists_radius hr (E := phi ((Hernquist.pot a).scale amp) r + v ^ 2 / 2)
    (by have := hv.1; nlinarith [pow_pos this 2]) (by linarith)
  simp only [neg_neg]
  rw [← he, C59_hernquist_om_eddington amp a ra hm ha (rphi := fun E => -amp / (2 * E) - a) hi (hr.trans hs)]


/-- The isotropic Hernquist function is the Eddington inversion of its density. -/
theorem C59_hernquist_eddington (amp a : ℝ) (hm : 0 < amp) (ha : 0 < a) {rphi : ℝ → ℝ}
    (hi : ∀ r, 0 < r → rphi (phi ((Hernquist.pot a).scale amp) r) = r) {s : ℝ} (hs : 0 < s) :
    HernquistDF.fE amp a (phi ((Hernquist.pot a).scale amp) s)
      = eddFE ((Hernquist.pot a).scale amp) (TwoPower.ddensdr amp a 1 4) (TwoPower.d2densdr2 amp a 1 4) rphi 0 0
        (-HernquistDF.psi0 amp a) (phi ((Hernquist.pot a).scale amp) s) := by
  have h := C59_hernquist_om_eddington amp a 0 hm ha hi hs
  have e1 : omDnudr 0 (fun r => ((Hernquist.pot a).scale amp).dens r 0 0 0) (TwoPower.ddensdr amp a 1 4)
      = TwoPower.ddensdr amp a 1 4 := by funext r; simp [omDnudr]
  have e2 : omD2nudr2 0 (fun r => ((Hernquist.pot a).scale amp).dens r 0 0 0) (TwoPower.ddensdr amp a 1 4)
      (TwoPower.d2densdr2 amp a 1 4) = TwoPower.d2densdr2 amp a 1 4 := by funext r; simp [omD2nudr2]
  rw [e1, e2] at h
  rw [← h]
  simp [HernquistDF.fQ, HernquistDF.fE, neg_div]

/-- The isotropic Hernquist function reproduces its density. -/
theorem C59_hernquist (amp a : ℝ) (hm : 0 < amp) (ha : 0 < a) {r : ℝ} (hr : 0 < r) :
    isoVmoment ((Hernquist.pot a).scale amp) 0 (HernquistDF.fE amp a) r 0 0
      = ((Hernquist.pot a).scale amp).dens r 0 0 0 := by
  have h := C59_hernquist_om amp a 0 hm ha hr
  rw [om_iso] at h
  simp only [ne_eq, OfNat.ofNat_ne_zero, not_false_eq_true, zero_pow, div_zero, add_zero, div_one] at h
  rw [← h]
  congr 1
  funext E
  simp [HernquistDF.fQ, HernquistDF.fE, neg_div]

end Verif
