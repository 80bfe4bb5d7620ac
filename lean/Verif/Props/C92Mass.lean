import Verif.Props.C92
import Verif.Model.Pot.TwoPower

set_option autoImplicit false

/-!
# C92: total mass, truncation of an NFW potential, derivatives of the density, C
-/

noncomputable section
namespace Verif
open Real MeasureTheory Set Filter C92Spec C92aux
open scoped Topology

/-- The mass within a radius outside the series is that of the documented density, the density method is the documented one, and the
mass at infinity is the limit. -/
theorem C04_ExpTruncNFW_partial {a rc : ℝ} (ha : 0 < a) (hc : 0 < rc) (amp : ℝ) :
    (∀ r, 0 < r → ((ExpTruncNFW.pot a rc).scale amp).dens r 0 0 0 = amp * density a rc r) ∧
    (∀ r, 1e-3 * min a rc ≤ r → amp * ExpTruncNFW.mass a rc r = ∫ s in (0 : ℝ)..r, 4 * π * s ^ 2 * ((ExpTruncNFW.pot a rc).scale amp).dens s 0 0 0) ∧
    Tendsto (fun r => amp * ExpTruncNFW.mass a rc r) atTop (𝓝 (amp * ExpTruncNFW.massInf a rc)) ∧ 0 < ExpTruncNFW.massInf a rc := by
  have D : ∀ r, 0 < r → ((ExpTruncNFW.pot a rc).scale amp).dens r 0 0 0 = amp * density a rc r := fun r hr => by
    simp only [Pot.scale, ExpTruncNFW.pot, Spherical.pot, Spherical.dens, ExpTruncNFW.radial, zero_pow two_ne_zero, add_zero, sqrt_sq hr.le, dens_eq ha hr]
  have T := thresh_pos ha hc
  have lim : Tendsto (fun r => ExpTruncNFW.Fclosed a rc r) atTop (𝓝 (ExpTruncNFW.massInf a rc)) := by
    have b : Tendsto (fun r : ℝ => (a + r) / rc) atTop atTop := (tendsto_atTop_add_const_left _ a tendsto_id).atTop_div_const hc
    have e : Tendsto (fun r : ℝ => a * exp (-r / rc) / (a + r)) atTop (𝓝 0) := by
      refine tendsto_of_tendsto_of_tendsto_of_le_of_le' tendsto_const_nhds (h := fun x => exp (-x / rc)) ?_ ?_ ?_
      · refine tendsto_exp_atBot.comp ?_
        exact (tendsto_neg_atTop_atBot).atBot_div_const hc
      · filter_upwards [eventually_ge_atTop 0] with r hr
        positivity
      · filter_upwards [eventually_ge_atTop 0] with r hr
        rw [div_le_iff₀ (by positivity)]
        have := exp_pos (-r / rc)
        nlinarith
    simp only [ExpTruncNFW.Fclosed, ExpTruncNFW.massInf]
    exact ((((ExpInt.E1_tendsto.comp b).const_sub _).const_mul _).sub_const 1).add e
  refine ⟨D, fun r hr => ?_, ?_, ?_⟩
  · have r0 : 0 < r := T.trans_le hr
    rw [ExpTruncNFW.mass, F_eq hr, Fclosed_mass ha hc r0.le, enclosed, ← intervalIntegral.integral_const_mul]
    refine intervalIntegral.integral_congr_ae (Eventually.of_forall fun s hs => ?_)
    rw [uIoc_of_le r0.le] at hs
    rw [D s hs.1]; ring
  · refine (lim.const_mul amp).congr' ?_
    filter_upwards [eventually_ge_atTop (ExpTruncNFW.thresh a rc)] with r hr
    rw [ExpTruncNFW.mass, F_eq hr]
  · have mono : ∀ r, 1 ≤ r → ExpTruncNFW.Fclosed a rc 1 ≤ ExpTruncNFW.Fclosed a rc r := fun r hr => by
      have m : MonotoneOn (ExpTruncNFW.Fclosed a rc) (Ici 0) := by
        refine monotoneOn_of_deriv_nonneg (convex_Ici 0) (fun x hx => (Fclosed_deriv ha hc hx).continuousAt.continuousWithinAt) ?_ fun x hx => ?_
        · intro x hx
          rw [interior_Ici] at hx
          exact (Fclosed_deriv ha hc (le_of_lt hx)).differentiableAt.differentiableWithinAt
        · rw [interior_Ici] at hx
          have : 0 < x := hx
          rw [(Fclosed_deriv ha hc this.le).deriv]; positivity
      exact m (mem_Ici.2 zero_le_one) (mem_Ici.2 (by linarith)) hr
    have p : 0 < ExpTruncNFW.Fclosed a rc 1 := by
      refine lift (f := ExpTruncNFW.Fclosed a rc) (fun x hx => Fclosed_deriv ha hc hx) (fun x hx => ?_) (Fclosed_zero ha) one_pos
      positivity
    exact p.trans_le (ge_of_tendsto lim (by filter_upwards [eventually_ge_atTop 1] with r hr using mono r hr))

example : Tendsto (fun r => 3 * ExpTruncNFW.mass 1 2 r) atTop (𝓝 (3 * ExpTruncNFW.massInf 1 2)) := (C04_ExpTruncNFW_partial one_pos two_pos 3).2.2.1

/-- The constructor: with `mass` the total mass of the potential is `mass`, without it the amplitude is the one given. -/
theorem C92_total {a rc : ℝ} (ha : 0 < a) (hc : 0 < rc) (amp m : ℝ) :
    (let o := ExpTruncNFW.init amp a rc (some m);
      o.a = a ∧ o.rc = rc ∧ Tendsto (fun r => ∫ s in (0 : ℝ)..r, 4 * π * s ^ 2 * o.pot.dens s 0 0 0) atTop (𝓝 m)) ∧
    ExpTruncNFW.init amp a rc none = ⟨amp, a, rc⟩ := by
  refine ⟨⟨rfl, rfl, ?_⟩, rfl⟩
  obtain ⟨_, h2, h3, h4⟩ := C04_ExpTruncNFW_partial ha hc (m / ExpTruncNFW.Ftot (a / rc))
  have e : ExpTruncNFW.massInf a rc = ExpTruncNFW.Ftot (a / rc) := by rw [ExpTruncNFW.massInf, ExpTruncNFW.Ftot]; ring
  rw [e] at h3 h4
  rw [div_mul_cancel₀ _ h4.ne'] at h3
  refine h3.congr' ?_
  filter_upwards [eventually_ge_atTop (1e-3 * min a rc)] with r hr
  exact h2 r hr

example : Tendsto (fun r => ∫ s in (0 : ℝ)..r, 4 * π * s ^ 2 * (ExpTruncNFW.init 1 1 2 (some 7)).pot.dens s 0 0 0) atTop (𝓝 7) :=
  (C92_total one_pos two_pos 1 7).1.2.2

/-- The centre: the values substituted there are the limits. -/
theorem C92_centre {a rc : ℝ} (ha : 0 < a) (hc : 0 < rc) :
    Tendsto (fun r => (ExpTruncNFW.pot a rc).val r 0 0 0) (𝓝[>] 0) (𝓝 ((ExpTruncNFW.pot a rc).val 0 0 0 0)) ∧
    Tendsto (ExpTruncNFW.rforce a rc) (𝓝[>] 0) (𝓝 (ExpTruncNFW.rforce a rc 0)) := by
  have T := thresh_pos ha hc
  have near : ∀ᶠ r in 𝓝[>] (0 : ℝ), 0 < r ∧ r < ExpTruncNFW.thresh a rc := by
    filter_upwards [Ioo_mem_nhdsGT T] with r hr using ⟨hr.1, hr.2⟩
  have cG : ContinuousAt (ExpTruncNFW.G a rc) 0 := (G_deriv ha hc le_rfl).continuousAt
  have C : ∀ k : ℕ, ContinuousAt (fun r : ℝ => r ^ k / (a * a) * (0.5 + r * (-(1 / rc + 2 / a) / 3 + r * ((0.5 / rc / rc + 2 / (rc * a) + 3 / (a * a)) / 4
      + r * (-(1 / (6 * rc ^ 3) + 1 / (rc * rc * a) + 3 / (rc * a * a) + 4 / a ^ 3) / 5))))) 0 := fun k => by fun_prop
  constructor
  · have h := (((C 1).add cG).neg).tendsto.mono_left (nhdsWithin_le_nhds (s := Ioi 0))
    have e0 : (ExpTruncNFW.pot a rc).val 0 0 0 0 = -ExpTruncNFW.G a rc 0 := by
      simp [ExpTruncNFW.pot, Spherical.pot, Spherical.evaluate, ExpTruncNFW.radial, ExpTruncNFW.revaluate]
    rw [e0]
    have e1 : -ExpTruncNFW.G a rc 0 = -(0 ^ 1 / (a * a) * (0.5 + 0 * (-(1 / rc + 2 / a) / 3 + 0 * ((0.5 / rc / rc + 2 / (rc * a) + 3 / (a * a)) / 4
      + 0 * (-(1 / (6 * rc ^ 3) + 1 / (rc * rc * a) + 3 / (rc * a * a) + 4 / a ^ 3) / 5)))) + ExpTruncNFW.G a rc 0) := by ring
    rw [e1]
    refine h.congr' ?_
    filter_upwards [near] with r hr
    simp only [ExpTruncNFW.pot, Spherical.pot, Spherical.evaluate, ExpTruncNFW.radial, ExpTruncNFW.revaluate, zero_pow two_ne_zero, add_zero, sqrt_sq hr.1.le, if_neg hr.1.ne',
      ExpTruncNFW.F, if_pos hr.2, ExpTruncNFW.Fseries, Pi.neg_apply, Pi.add_apply]
    have := hr.1.ne'
    have k : ∀ X : ℝ, r * r / (a * a) * X / r = r ^ 1 / (a * a) * X := fun X => by field_simp
    rw [k]
  · have h := ((C 0).neg).tendsto.mono_left (nhdsWithin_le_nhds (s := Ioi 0))
    have e0 : ExpTruncNFW.rforce a rc 0 = -(0 ^ 0 / (a * a) * (0.5 + 0)) := by
      rw [ExpTruncNFW.rforce, if_pos rfl]; ring
    have e1 : -(0 ^ 0 / (a * a) * (0.5 + 0)) = -((0 : ℝ) ^ 0 / (a * a) * (0.5 + 0 * (-(1 / rc + 2 / a) / 3 + 0 * ((0.5 / rc / rc + 2 / (rc * a) + 3 / (a * a)) / 4
      + 0 * (-(1 / (6 * rc ^ 3) + 1 / (rc * rc * a) + 3 / (rc * a * a) + 4 / a ^ 3) / 5))))) := by ring
    rw [e0, e1]
    refine h.congr' ?_
    filter_upwards [near] with r hr
    simp only [ExpTruncNFW.rforce, if_neg hr.1.ne', ExpTruncNFW.F, if_pos hr.2, ExpTruncNFW.Fseries, Pi.neg_apply]
    have := hr.1.ne'
    have k : ∀ X : ℝ, -(r * r / (a * a) * X) / (r * r) = -(r ^ 0 / (a * a) * X) := fun X => by field_simp
    rw [k]

example : Tendsto (ExpTruncNFW.rforce 1 2) (𝓝[>] 0) (𝓝 (ExpTruncNFW.rforce 1 2 0)) := (C92_centre one_pos two_pos).2


namespace C92aux

theorem nfwMass_deriv {a s : ℝ} (ha : 0 < a) (hs : 0 ≤ s) : HasDerivAt (NFW.mass a) (s / (a + s) ^ 2) s := by
  have h0 : HasDerivAt (fun s : ℝ => 1 + s / a) (1 / a) s := ((hasDerivAt_id s).div_const a).const_add 1
  have p : 0 < 1 + s / a := by positivity
  refine ((h0.log p.ne').sub (((hasDerivAt_id s).div_const a).div h0 p.ne')).congr_deriv ?_
  simp only [id]
  have : a + s ≠ 0 := by positivity
  field_simp
  ring

theorem nfwDens {a r : ℝ} : (NFW.pot a).dens r 0 0 0 = NFW.dens a r 0 := rfl

end C92aux

/-- Compared with the NFW potential of the same amplitude and scale: the density is that of the NFW potential times the exponential,
and the mass lies between the NFW mass times the exponential and the NFW mass, so that both tend to those of the NFW potential when
the truncation radius grows. -/
theorem C92_nfw {a rc : ℝ} (ha : 0 < a) (hc : 0 < rc) {r : ℝ} (hr : 0 < r) :
    (ExpTruncNFW.pot a rc).dens r 0 0 0 = exp (-r / rc) * (NFW.pot a).dens r 0 0 0 ∧
    exp (-r / rc) * NFW.mass a r < enclosed a rc r ∧ enclosed a rc r < NFW.mass a r := by
  have m0 : NFW.mass a 0 = 0 := by simp [NFW.mass]
  have mp : ∀ x, 0 < x → 0 < NFW.mass a x := fun x hx => lift (fun x hx => nfwMass_deriv ha hx) (fun x hx => by positivity) m0 hx
  refine ⟨?_, ?_, ?_⟩
  · simp only [ExpTruncNFW.pot, Spherical.pot, Spherical.dens, ExpTruncNFW.radial, zero_pow two_ne_zero, add_zero, sqrt_sq hr.le, nfwDens, NFW.dens, rpow_one,
      ExpTruncNFW.rdens, show (3 - 1 : ℝ) = 2 by norm_num, rpow_two]
    field_simp
  · rw [← Fclosed_mass ha hc hr.le]
    have := lift (f := fun r => ExpTruncNFW.Fclosed a rc r - exp (-r / rc) * NFW.mass a r) (f' := fun r => exp (-r / rc) * NFW.mass a r / rc)
      (fun x hx => ((Fclosed_deriv ha hc hx).sub ((expr (r := x) hc).mul (nfwMass_deriv ha hx))).congr_deriv (by ring))
      (fun x hx => by have := mp x hx; positivity) (by simp [Fclosed_zero ha, m0]) hr
    linarith
  · rw [← Fclosed_mass ha hc hr.le]
    have := lift (f := fun r => NFW.mass a r - ExpTruncNFW.Fclosed a rc r) (f' := fun r => r / (a + r) ^ 2 * (1 - exp (-(r / rc))))
      (fun x hx => ((nfwMass_deriv ha hx).sub (Fclosed_deriv ha hc hx)).congr_deriv (by rw [neg_div]; ring))
      (fun x hx => by have := e0 (x := x / rc) (by positivity); have : 0 < 1 - exp (-(x / rc)) := by linarith
                      positivity) (by simp [Fclosed_zero ha, m0]) hr
    linarith

example : enclosed 1 2 3 < NFW.mass 1 3 := (C92_nfw one_pos two_pos three_pos).2.2

/-- When the truncation radius grows the mass within any radius tends to that of the NFW potential. -/
theorem C92_nfw_limit {a : ℝ} (ha : 0 < a) {r : ℝ} (hr : 0 < r) : Tendsto (fun rc => enclosed a rc r) atTop (𝓝 (NFW.mass a r)) := by
  have e : Tendsto (fun rc : ℝ => exp (-r / rc) * NFW.mass a r) atTop (𝓝 (NFW.mass a r)) := by
    have : Tendsto (fun rc : ℝ => -r / rc) atTop (𝓝 0) := tendsto_const_nhds.div_atTop tendsto_id
    simpa using ((continuous_exp.tendsto 0).comp this).mul_const (NFW.mass a r)
  refine tendsto_of_tendsto_of_tendsto_of_le_of_le' e tendsto_const_nhds ?_ ?_
  · filter_upwards [eventually_gt_atTop 0] with c hc using (C92_nfw ha hc hr).2.1.le
  · filter_upwards [eventually_gt_atTop 0] with c hc using (C92_nfw ha hc hr).2.2.le

example : Tendsto (fun rc => enclosed 1 rc 3) atTop (𝓝 (NFW.mass 1 3)) := C92_nfw_limit one_pos three_pos

namespace C92Spec

/-- What the root finder guarantees: a zero within the bracket of a continuous function that changes sign. -/
def Finds (root : (ℝ → ℝ) → ℝ → ℝ → ℝ) : Prop :=
  ∀ f lo hi, lo ≤ hi → ContinuousOn f (Icc lo hi) → f lo * f hi ≤ 0 → root f lo hi ∈ Icc lo hi ∧ f (root f lo hi) = 0

/-- The total mass of a potential: the limit of the mass within a radius. -/
def TotalMass (P : Pot) (m : ℝ) : Prop := Tendsto (fun r => ∫ s in (0 : ℝ)..r, 4 * π * s ^ 2 * P.dens s 0 0 0) atTop (𝓝 m)

end C92Spec

namespace C92aux

open ExpTruncNFW ExpInt

theorem exists_finds : ∃ root, Finds root := by
  classical
  refine ⟨fun f lo hi => if h : ∃ x, x ∈ Icc lo hi ∧ f x = 0 then h.choose else 0, fun f lo hi h c s => ?_⟩
  have ex : ∃ x, x ∈ Icc lo hi ∧ f x = 0 := by
    rcases le_total (f lo) 0 with h1 | h1
    · rcases le_or_gt 0 (f hi) with h2 | h2
      · obtain ⟨x, hx, e⟩ := intermediate_value_Icc h c ⟨h1, h2⟩
        exact ⟨x, hx, e⟩
      · have : f lo = 0 := by nlinarith
        exact ⟨lo, left_mem_Icc.2 h, this⟩
    · rcases le_or_gt (f hi) 0 with h2 | h2
      · obtain ⟨x, hx, e⟩ := intermediate_value_Icc' h c ⟨h2, h1⟩
        exact ⟨x, hx, e⟩
      · have : f lo = 0 := by nlinarith
        exact ⟨lo, left_mem_Icc.2 h, this⟩
  have := ex.choose_spec
  simpa only [dif_pos ex] using this

theorem Ftot_deriv {x : ℝ} (hx : 0 < x) : HasDerivAt Ftot (exp x * (2 + x) * E1 x - (1 + x) / x) x := by
  refine (((hasDerivAt_exp x).mul ((hasDerivAt_id x).const_add 1)).mul (E1_deriv hx)).sub_const 1 |>.congr_deriv ?_
  have e : exp x * exp (-x) = 1 := by rw [← exp_add, add_neg_cancel, exp_zero]
  simp only [id]
  calc _ = exp x * (2 + x) * E1 x - (exp x * exp (-x)) * (1 + x) / x := by simp only [Pi.mul_apply, id]; ring
    _ = _ := by rw [e, one_mul]

theorem Ftot_anti : StrictAntiOn Ftot (Ioi 0) := by
  refine strictAntiOn_of_deriv_neg (convex_Ioi 0) (fun x hx => (Ftot_deriv hx).continuousAt.continuousWithinAt) fun x hx => ?_
  rw [interior_Ioi] at hx
  have hx : 0 < x := hx
  rw [(Ftot_deriv hx).deriv]
  have e : exp x * exp (-x) = 1 := by rw [← exp_add, add_neg_cancel, exp_zero]
  have h := mul_lt_mul_of_pos_left (E1_lt hx) (show 0 < exp x * (2 + x) by positivity)
  have : exp x * (2 + x) * (exp (-x) * ((1 + x) / (x * (2 + x)))) = (exp x * exp (-x)) * ((1 + x) / x) := by field_simp
  rw [this, e, one_mul] at h
  linarith

theorem Ftot_le {x : ℝ} (hx : 0 < x) : Ftot x < 1 / (x * (2 + x)) := by
  have e : exp x * exp (-x) = 1 := by rw [← exp_add, add_neg_cancel, exp_zero]
  have h := mul_lt_mul_of_pos_left (E1_lt hx) (show 0 < exp x * (1 + x) by positivity)
  have : exp x * (1 + x) * (exp (-x) * ((1 + x) / (x * (2 + x)))) = (exp x * exp (-x)) * ((1 + x) ^ 2 / (x * (2 + x))) := by ring
  rw [this, e, one_mul] at h
  have : (1 + x) ^ 2 / (x * (2 + x)) = 1 + 1 / (x * (2 + x)) := by field_simp; ring
  rw [Ftot]; linarith

theorem Ftot_massInf {a rc : ℝ} : massInf a rc = Ftot (a / rc) := by rw [massInf, Ftot]; ring

theorem Ftot_pos {x : ℝ} (hx : 0 < x) : 0 < Ftot x := by
  have := (C04_ExpTruncNFW_partial hx one_pos 1).2.2.2
  rwa [Ftot_massInf, div_one] at this

theorem log_tiny : 310 < -log (1e-150 : ℝ) ∧ -log (1e-150 : ℝ) < 350 := by
  have e : (1e-150 : ℝ) = ((8 * 1.25) ^ 150)⁻¹ := by norm_num
  have l8 : log (8 : ℝ) = 3 * log 2 := by rw [show (8 : ℝ) = 2 ^ 3 by norm_num, log_pow]; norm_num
  have h1 := log_two_gt_d9
  have h2 := log_two_lt_d9
  have h3 : log (1.25 : ℝ) ≤ 0.25 := by have := log_le_sub_one_of_pos (show (0 : ℝ) < 1.25 by norm_num); linarith
  have h4 : 0 ≤ log (1.25 : ℝ) := log_nonneg (by norm_num)
  rw [e, log_inv, neg_neg, log_pow, log_mul (by norm_num) (by norm_num), l8]
  push_cast
  constructor <;> linarith

theorem Ftot_tiny : 100 < Ftot 1e-150 ∧ Ftot 1e-150 < 400 := by
  obtain ⟨l1, l2⟩ := log_tiny
  obtain ⟨h1, h2⟩ := E1_small (x := 1e-150) (by norm_num) (by norm_num)
  have x1 : (1 : ℝ) ≤ exp 1e-150 := one_le_exp (by norm_num)
  have x2 : exp (1e-150 : ℝ) ≤ 1.01 := by
    have := add_one_le_exp (-(1e-150) : ℝ)
    have e : exp (1e-150 : ℝ) * exp (-1e-150) = 1 := by rw [← exp_add, add_neg_cancel, exp_zero]
    have p := exp_pos (1e-150 : ℝ)
    have : exp (1e-150 : ℝ) * 0.999 ≤ 1 := by
      rw [← e]
      refine mul_le_mul_of_nonneg_left ?_ p.le
      refine le_trans ?_ this
      norm_num
    linarith
  have em : 0.36 ≤ exp (-1 : ℝ) := by
    have := exp_neg_one_gt_d9; linarith
  have E0 : 0 ≤ E1 1e-150 := E1_nonneg (by norm_num)
  have s : (1 : ℝ) ≤ 1 + 1e-150 ∧ (1 : ℝ) + 1e-150 ≤ 1.01 := by constructor <;> norm_num
  rw [Ftot]
  generalize (1 : ℝ) + 1e-150 = w at s ⊢
  constructor
  · have a1 : 0.36 * 310 ≤ exp (-1 : ℝ) * -log 1e-150 := mul_le_mul em l1.le (by norm_num) (by linarith)
    have a2 : 1 ≤ exp 1e-150 * w := one_le_mul_of_one_le_of_one_le x1 s.1
    have := mul_le_mul_of_nonneg_right a2 E0
    linarith
  · have a2 : exp 1e-150 * w ≤ 1.01 * 1.01 := mul_le_mul x2 s.2 (by linarith) (by norm_num)
    have := mul_le_mul_of_nonneg_right a2 E0
    linarith

end C92aux

/-- The conversion from an NFW potential: exactly one of the two has to be given; with `rc` that is the truncation radius; with `mass`
between 2.1e-6 and 100 times the amplitude the result has this total mass, keeps the amplitude and scale radius, has the
density of the NFW potential times the exponential, and its truncation radius is the only one with this mass. -/
theorem C92_from_nfw_partial {root : (ℝ → ℝ) → ℝ → ℝ → ℝ} (hroot : Finds root) {amp a : ℝ} (hA : 0 < amp) (ha : 0 < a) :
    (∀ rc, 0 < rc → ExpTruncNFW.fromNfw root amp a (some rc) none = .ok ⟨amp, a, rc⟩) ∧
    (∀ rc m, ExpTruncNFW.fromNfw root amp a (some rc) (some m) = .error .value) ∧
    ExpTruncNFW.fromNfw root amp a none none = .error .value ∧
    (∀ m, m ≤ 0 → ExpTruncNFW.fromNfw root amp a none (some m) = .error .value) ∧
    ∀ m, 2.1e-6 * amp ≤ m → m ≤ 100 * amp → ∃ o, ExpTruncNFW.fromNfw root amp a none (some m) = .ok o ∧ o.amp = amp ∧ o.a = a ∧ 0 < o.rc ∧
      TotalMass o.pot m ∧ (∀ r, 0 < r → o.pot.dens r 0 0 0 = exp (-r / o.rc) * ((NFW.pot a).scale amp).dens r 0 0 0) ∧
      ∀ rc, 0 < rc → TotalMass (ExpTruncNFW.Obj.pot ⟨amp, a, rc⟩) m → rc = o.rc := by
  have tot : ∀ rc, 0 < rc → TotalMass (ExpTruncNFW.Obj.pot ⟨amp, a, rc⟩) (amp * ExpTruncNFW.Ftot (a / rc)) := fun rc hc => by
    obtain ⟨_, h2, h3, _⟩ := C04_ExpTruncNFW_partial ha hc amp
    rw [Ftot_massInf] at h3
    refine h3.congr' ?_
    filter_upwards [eventually_ge_atTop (1e-3 * min a rc)] with r hr
    exact h2 r hr
  refine ⟨fun rc _ => rfl, fun rc m => rfl, rfl, fun m hm => ?_, fun m h1 h2 => ?_⟩
  · have p := Ftot_pos (x := 690) (by norm_num)
    have : m / amp ≤ 0 := div_nonpos_of_nonpos_of_nonneg hm hA.le
    have c : exp 690 * (1 + 690) * E1 690 - 1 - m / amp > 0 := by rw [ExpTruncNFW.Ftot] at p; linarith
    simp only [ExpTruncNFW.fromNfw, Option.isNone_none, Option.isNone_some, if_pos c]
    rfl
  · have q1 : 2.1e-6 ≤ m / amp := by rw [le_div_iff₀ hA]; exact h1
    have q2 : m / amp ≤ 100 := by rw [div_le_iff₀ hA]; exact h2
    have b1 : ExpTruncNFW.Ftot 690 - m / amp ≤ 0 := by
      have := Ftot_le (x := 690) (by norm_num)
      norm_num at this
      norm_num at q1
      linarith
    have b2 : 0 ≤ ExpTruncNFW.Ftot 1e-150 - m / amp := by have := Ftot_tiny.1; linarith
    let f := fun al : ℝ => exp al * (1 + al) * E1 al - 1 - m / amp
    have fe : ∀ x, f x = ExpTruncNFW.Ftot x - m / amp := fun x => rfl
    have c1 : ¬ f 690 > 0 := by rw [fe]; linarith
    have c2 : f 1e-150 * f 690 ≤ 0 := by rw [fe, fe]; exact mul_nonpos_of_nonneg_of_nonpos b2 b1
    have cont : ContinuousOn f (Icc 1e-150 690) := fun x hx =>
      ((Ftot_deriv (lt_of_lt_of_le (by norm_num) hx.1)).sub_const (m / amp)).continuousAt.continuousWithinAt
    obtain ⟨r1, r2⟩ := hroot f 1e-150 690 (by norm_num) cont c2
    have al0 : 0 < root f 1e-150 690 := lt_of_lt_of_le (by norm_num) r1.1
    have e : ExpTruncNFW.fromNfw root amp a none (some m) = .ok ⟨amp, a, a / root f 1e-150 690⟩ := by
      show (if f 690 > 0 then _ else _) = _
      rw [if_neg c1]
      show (ExpTruncNFW.brentq root f 1e-150 690 >>= _) = _
      rw [ExpTruncNFW.brentq, if_neg (not_lt.2 c2)]
      rfl
    have tm : amp * ExpTruncNFW.Ftot (root f 1e-150 690) = m := by
      rw [fe] at r2
      have : ExpTruncNFW.Ftot (root f 1e-150 690) = m / amp := by linarith
      rw [this]; field_simp
    have rc0 : 0 < a / root f 1e-150 690 := div_pos ha al0
    have back : a / (a / root f 1e-150 690) = root f 1e-150 690 := by field_simp
    refine ⟨_, e, rfl, rfl, rc0, ?_, fun r hr => ?_, fun rc hc h => ?_⟩
    · have := tot _ rc0
      rwa [back, tm] at this
    · show amp * (ExpTruncNFW.pot a _).dens r 0 0 0 = _ * (amp * (NFW.pot a).dens r 0 0 0)
      rw [(C92_nfw ha rc0 hr).1]; ring
    · have u := tendsto_nhds_unique h (tot rc hc)
      have v : ExpTruncNFW.Ftot (a / rc) = ExpTruncNFW.Ftot (root f 1e-150 690) := by
        refine mul_left_cancel₀ hA.ne' ?_
        rw [tm, ← u]
      have w := Ftot_anti.injOn (show a / rc ∈ Ioi 0 from div_pos ha hc) (show root f 1e-150 690 ∈ Ioi 0 from al0) v
      show rc = a / root f 1e-150 690
      rw [← w]; field_simp

example : ∃ root, Finds root ∧ ∃ o, ExpTruncNFW.fromNfw root 2 3 none (some 7) = .ok o ∧ TotalMass o.pot 7 := by
  obtain ⟨root, h⟩ := exists_finds
  obtain ⟨o, h1, _, _, _, h2, _⟩ := (C92_from_nfw_partial h (two_pos (α := ℝ)) (three_pos (α := ℝ))).2.2.2.2 7 (by norm_num) (by norm_num)
  exact ⟨root, h, o, h1, h2⟩

/-- Every positive mass is the total mass of exactly one truncation of a given NFW potential. -/
theorem C92_reachable {amp a : ℝ} (hA : 0 < amp) (ha : 0 < a) {m : ℝ} (hm : 0 < m) : ∃! rc, 0 < rc ∧ TotalMass (ExpTruncNFW.Obj.pot ⟨amp, a, rc⟩) m := by
  have q0 : 0 < m / amp := by positivity
  have tot : ∀ rc, 0 < rc → TotalMass (ExpTruncNFW.Obj.pot ⟨amp, a, rc⟩) (amp * ExpTruncNFW.Ftot (a / rc)) := fun rc hc => by
    obtain ⟨_, h2, h3, _⟩ := C04_ExpTruncNFW_partial ha hc amp
    rw [Ftot_massInf] at h3
    refine h3.congr' ?_
    filter_upwards [eventually_ge_atTop (1e-3 * min a rc)] with r hr
    exact h2 r hr
  have x1 : exp (-(exp 1 * (m / amp + 1))) ≤ 1 := exp_le_one_iff.2 (by have := exp_pos (1 : ℝ); have : 0 ≤ exp 1 * (m / amp + 1) := by positivity
                                                                       linarith)
  have p1 := exp_pos (-(exp 1 * (m / amp + 1)))
  have lo : m / amp ≤ ExpTruncNFW.Ftot (exp (-(exp 1 * (m / amp + 1)))) := by
    have h := (ExpInt.E1_small p1 x1).1
    rw [log_exp, neg_neg, ← mul_assoc, ← exp_add, neg_add_cancel, exp_zero, one_mul] at h
    have g : 1 ≤ exp (exp (-(exp 1 * (m / amp + 1)))) * (1 + exp (-(exp 1 * (m / amp + 1)))) :=
      one_le_mul_of_one_le_of_one_le (one_le_exp p1.le) (by linarith)
    have := mul_le_mul_of_nonneg_right g (ExpInt.E1_nonneg p1)
    rw [ExpTruncNFW.Ftot]; linarith
  have x2 : 1 ≤ max 1 (1 / (m / amp)) := le_max_left _ _
  have hi : ExpTruncNFW.Ftot (max 1 (1 / (m / amp))) ≤ m / amp := by
    have h := Ftot_le (x := max 1 (1 / (m / amp))) (by linarith)
    have h2 : 1 / (m / amp) ≤ max 1 (1 / (m / amp)) := le_max_right _ _
    generalize max 1 (1 / (m / amp)) = x at *
    refine h.le.trans ?_
    have : 1 / (m / amp) ≤ x * (2 + x) := h2.trans (le_mul_of_one_le_right (by linarith) (by linarith))
    rw [div_le_iff₀ (by positivity)] at this ⊢
    linarith
  obtain ⟨x, hx, e⟩ := intermediate_value_Icc' (x1.trans x2) (fun x hx => (Ftot_deriv (p1.trans_le hx.1)).continuousAt.continuousWithinAt) ⟨hi, lo⟩
  have hx0 : 0 < x := p1.trans_le hx.1
  have tm : amp * ExpTruncNFW.Ftot x = m := by rw [e]; field_simp
  refine ⟨a / x, ⟨by positivity, ?_⟩, fun rc h => ?_⟩
  · have := tot (a / x) (by positivity)
    rwa [show a / (a / x) = x by field_simp, tm] at this
  · have u := tendsto_nhds_unique h.2 (tot rc h.1)
    have v : ExpTruncNFW.Ftot (a / rc) = ExpTruncNFW.Ftot x := mul_left_cancel₀ hA.ne' (by rw [tm, ← u])
    have w := Ftot_anti.injOn (show a / rc ∈ Ioi 0 from div_pos ha h.1) (show x ∈ Ioi 0 from hx0) v
    have := h.1
    rw [← w]; field_simp

example : ∃! rc, 0 < rc ∧ TotalMass (ExpTruncNFW.Obj.pot ⟨1, 1, rc⟩) 1000 := C92_reachable one_pos one_pos (by norm_num)

/-- The documentation says that there is no upper limit on the mass, and every mass can indeed be reached (`C92_reachable`), but for a mass of 400 times the
amplitude or more the bracket does not contain the solution and the conversion raises a ValueError. -/
theorem C92_from_nfw_fails {root : (ℝ → ℝ) → ℝ → ℝ → ℝ} {amp a : ℝ} (hA : 0 < amp) (ha : 0 < a) {m : ℝ} (hm : 400 * amp ≤ m) :
    ExpTruncNFW.fromNfw root amp a none (some m) = .error .value ∧ ∃ rc, 0 < rc ∧ TotalMass (ExpTruncNFW.Obj.pot ⟨amp, a, rc⟩) m := by
  refine ⟨?_, (C92_reachable hA ha (by nlinarith : 0 < m)).exists⟩
  have q : 400 ≤ m / amp := by rw [le_div_iff₀ hA]; exact hm
  let f := fun al : ℝ => exp al * (1 + al) * E1 al - 1 - m / amp
  have fe : ∀ x, f x = ExpTruncNFW.Ftot x - m / amp := fun x => rfl
  have b1 : f 1e-150 < 0 := by rw [fe]; linarith [Ftot_tiny.2]
  have b2 : f 690 < 0 := by
    have := Ftot_anti (show (1e-150 : ℝ) ∈ Ioi 0 from by norm_num) (show (690 : ℝ) ∈ Ioi 0 from by norm_num) (by norm_num)
    rw [fe]; linarith [Ftot_tiny.2]
  show (if f 690 > 0 then _ else _) = _
  rw [if_neg (not_lt.2 b2.le)]
  show (ExpTruncNFW.brentq root f 1e-150 690 >>= _) = _
  rw [ExpTruncNFW.brentq, if_pos (mul_pos_of_neg_of_neg b1 b2)]
  rfl

example (root) : ExpTruncNFW.fromNfw root 1 1 none (some 500) = .error .value := (C92_from_nfw_fails one_pos one_pos (by norm_num)).1

/-- The derivatives of the density and of the density times `r^(2 beta)`, and the force used by the anisotropic distribution functions. -/
theorem C92_derivs {a rc : ℝ} (ha : 0 < a) (hc : 0 < rc) (amp β : ℝ) {r : ℝ} (hr : 0 < r) :
    HasDerivAt (fun r => ((ExpTruncNFW.pot a rc).scale amp).dens r 0 0 0) (ExpTruncNFW.ddensdr amp a rc r) r ∧
    HasDerivAt (ExpTruncNFW.ddensdr amp a rc) (ExpTruncNFW.d2densdr2 amp a rc r) r ∧
    HasDerivAt (fun r => ((ExpTruncNFW.pot a rc).scale amp).dens r 0 0 0 * r ^ (2 * β)) (ExpTruncNFW.ddenstwobetadr amp a rc r β) r ∧
    ExpTruncNFW.rforceJax amp a rc r = -amp * enclosed a rc r / r ^ 2 := by
  have D : ∀ x, 0 < x → ((ExpTruncNFW.pot a rc).scale amp).dens x 0 0 0 = amp * ExpTruncNFW.rdens a rc x := fun x hx => by
    simp only [Pot.scale, ExpTruncNFW.pot, Spherical.pot, Spherical.dens, ExpTruncNFW.radial, zero_pow two_ne_zero, add_zero, sqrt_sq hx.le]
  have near : ∀ᶠ x in 𝓝 r, 0 < x := lt_mem_nhds hr
  have q : ∀ x, 0 < x → HasDerivAt (ExpTruncNFW.rdens a rc) (-(ExpTruncNFW.rdens a rc x * (1 / x + 2 / (a + x) + 1 / rc))) x := fun x hx => by
    have h := (expr (r := x) hc).div (((hasDerivAt_id x).const_mul (4 * π * a * a)).mul ((((hasDerivAt_id x).div_const a).const_add 1).pow 2))
      (by simp only [Pi.mul_apply, Pi.pow_apply, id]; positivity)
    refine h.congr_deriv ?_
    simp only [Pi.mul_apply, Pi.pow_apply, id, ExpTruncNFW.rdens, Nat.cast_ofNat, Nat.add_one_sub_one, pow_one]
    have : a + x ≠ 0 := by positivity
    have : 1 + x / a ≠ 0 := by positivity
    generalize exp (-x / rc) = E
    field_simp
    try ring
  have d1 : ∀ x, 0 < x → HasDerivAt (fun r => ((ExpTruncNFW.pot a rc).scale amp).dens r 0 0 0) (ExpTruncNFW.ddensdr amp a rc x) x := fun x hx => by
    refine (((q x hx).const_mul amp).congr_of_eventuallyEq ?_).congr_deriv (by simp only [ExpTruncNFW.ddensdr]; ring)
    filter_upwards [lt_mem_nhds hx] with y hy using D y hy
  refine ⟨d1 r hr, ?_, ?_, ?_⟩
  · have g : HasDerivAt (fun x : ℝ => 1 / x + 2 / (a + x) + 1 / rc) (-1 / (r * r) - 2 / (a + r) ^ 2) r := by
      have := (((hasDerivAt_inv hr.ne').add ((((hasDerivAt_id r).const_add a).inv (by simp only [id]; positivity)).const_mul 2)).add_const (1 / rc))
      refine (this.congr_of_eventuallyEq (Eventually.of_forall fun x => ?_)).congr_deriv ?_
      · simp [div_eq_mul_inv]
      · simp only [id]; ring
    refine (((q r hr).const_mul amp).neg.mul g).congr_deriv ?_
    simp only [ExpTruncNFW.d2densdr2, Pi.neg_apply]; ring
  · have p : HasDerivAt (fun x : ℝ => x ^ (2 * β)) (2 * β * r ^ (2 * β - 1)) r := hasDerivAt_rpow_const (Or.inl hr.ne')
    refine ((d1 r hr).mul p).congr_deriv ?_
    rw [rpow_sub_one hr.ne', D r hr]
    simp only [ExpTruncNFW.ddensdr, ExpTruncNFW.ddenstwobetadr, ExpTruncNFW.rdens]
    have : a + r ≠ 0 := by positivity
    have : 1 + r / a ≠ 0 := by positivity
    generalize exp (-r / rc) = E
    generalize r ^ (2 * β) = W
    field_simp
    ring
  · rw [← Fclosed_mass ha hc hr.le]; rfl

example : HasDerivAt (fun r => ((ExpTruncNFW.pot 1 2).scale 3).dens r 0 0 0) (ExpTruncNFW.ddensdr 3 1 2 4) 4 := (C92_derivs one_pos two_pos 3 0 (by norm_num)).1

namespace C92aux
open ExpTruncNFW

theorem cF_eq (a rc r : ℝ) : cF r a rc = F a rc r := by
  have m : (if a < rc then a else rc) = min a rc := by
    rcases lt_or_ge a rc with h | h
    · rw [if_pos h, min_eq_left h.le]
    · rw [if_neg (not_lt.2 h), min_eq_right h]
  simp only [cF, m]
  by_cases h : r < 1e-3 * min a rc
  · rw [if_pos h, F, if_pos (show r < thresh a rc from h)]
    simp only [Fseries, div_div]; ring
  · rw [if_neg h, F, if_neg (show ¬ r < thresh a rc from h)]
    simp only [Fclosed]

theorem c_eq {a rc r : ℝ} (hr : 0 < r) (t : ℝ) : (cRadial a rc).val r t = (radial a rc).val r t ∧ (cRadial a rc).force r t = (radial a rc).force r t ∧
    (cRadial a rc).d2 r t = (radial a rc).d2 r t ∧ (cRadial a rc).dens r t = (radial a rc).dens r t := by
  refine ⟨?_, ?_, ?_, rfl⟩
  · show -(cF r a rc / r + cG r a rc) = revaluate a rc r
    rw [revaluate, if_neg hr.ne', cF_eq]; rfl
  · show -cF r a rc / (r * r) = rforce a rc r
    rw [rforce, if_neg hr.ne', cF_eq]
  · show 4 * π * cRdens a rc r - 2 * cF r a rc / (r * r * r) = 4 * π * rdens a rc r - 2 * F a rc r / r ^ 3
    rw [cF_eq, show r * r * r = r ^ 3 by ring]; rfl

end C92aux

/-- The C functions are the Python methods, away from the centre. -/
theorem C51_ExpTruncNFW (a rc amp R z φ t : ℝ) (h0 : 0 < R ^ 2 + z ^ 2) :
    Spherical.cEval amp (ExpTruncNFW.cRadial a rc) R z t = ((ExpTruncNFW.pot a rc).scale amp).val R z φ t ∧
    Spherical.cRforce amp (ExpTruncNFW.cRadial a rc) R z t = ((ExpTruncNFW.pot a rc).scale amp).Rforce R z φ t ∧
    Spherical.czforce amp (ExpTruncNFW.cRadial a rc) R z t = ((ExpTruncNFW.pot a rc).scale amp).zforce R z φ t ∧
    Spherical.cR2deriv amp (ExpTruncNFW.cRadial a rc) R z t = ((ExpTruncNFW.pot a rc).scale amp).R2deriv R z φ t ∧
    Spherical.cz2deriv amp (ExpTruncNFW.cRadial a rc) R z t = ((ExpTruncNFW.pot a rc).scale amp).z2deriv R z φ t ∧
    Spherical.cRzderiv amp (ExpTruncNFW.cRadial a rc) R z t = ((ExpTruncNFW.pot a rc).scale amp).Rzderiv R z φ t ∧
    Spherical.cDens amp (ExpTruncNFW.cRadial a rc) R z t = ((ExpTruncNFW.pot a rc).scale amp).dens R z φ t := by
  obtain ⟨k1, k2, k3, k4⟩ := c_eq (a := a) (rc := rc) (sqrt_pos.2 h0) t
  refine ⟨?_, ?_, ?_, ?_, ?_, ?_, ?_⟩
  · rw [Spherical.cEval_eq, Spherical.evaluate, k1]; rfl
  · rw [Spherical.cRforce_eq]; simp only [Spherical.Rforce, k2]; rfl
  · rw [Spherical.czforce_eq]; simp only [Spherical.zforce, k2]; rfl
  · rw [Spherical.cR2deriv_eq _ _ _ _ _ h0]; simp only [Spherical.R2deriv, k2, k3]; rfl
  · rw [Spherical.cz2deriv_eq _ _ _ _ _ h0]; simp only [Spherical.z2deriv, k2, k3]; rfl
  · rw [Spherical.cRzderiv_eq _ _ _ _ _ h0]; simp only [Spherical.Rzderiv, k2, k3]; rfl
  · rw [Spherical.cDens_eq, Spherical.dens, k4]; rfl

/-- The planar C functions. -/
theorem C51_ExpTruncNFW_planar (a rc amp R φ t : ℝ) (hR : 0 < R) :
    Spherical.cPlanarRforce amp (ExpTruncNFW.cRadial a rc) R t = ((ExpTruncNFW.pot a rc).scale amp).Rforce R 0 φ t ∧
    Spherical.cPlanarR2deriv amp (ExpTruncNFW.cRadial a rc) R t = ((ExpTruncNFW.pot a rc).scale amp).R2deriv R 0 φ t := by
  obtain ⟨k1, k2, k3, k4⟩ := c_eq (a := a) (rc := rc) hR t
  constructor
  · rw [Spherical.cPlanarRforce, k2]; exact Spherical.cPlanarRforce_eq amp (ExpTruncNFW.radial a rc) R t hR
  · rw [Spherical.cPlanarR2deriv, k3]; exact Spherical.cPlanarR2deriv_eq amp (ExpTruncNFW.radial a rc) R t hR

example : Spherical.cEval 3 (ExpTruncNFW.cRadial 1 2) 1 1 0 = ((ExpTruncNFW.pot 1 2).scale 3).val 1 1 0 0 := (C51_ExpTruncNFW 1 2 3 1 1 0 0 (by norm_num)).1

example : Tendsto (ExpTruncNFW.rforce 1 2) (𝓝[>] 0) (𝓝 (ExpTruncNFW.rforce 1 2 0)) := (C92_centre one_pos two_pos).2

end Verif
