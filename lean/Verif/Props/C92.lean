import Verif.Model.Pot.ExpTruncNFW
import Verif.Lemmas.Pot.Spherical
import Verif.Props.C04
import Mathlib.Analysis.Complex.ExponentialBounds

set_option autoImplicit false

/-!
# C92: the exponentially truncated NFW potential
-/

noncomputable section
namespace Verif
open Real MeasureTheory Set Filter
open scoped Topology

namespace C92Spec

/-- The density of the documentation per unit amplitude. -/
def density (a rc r : ℝ) : ℝ := 1 / (4 * π * a ^ 3) * (exp (-r / rc) / (r / a * (1 + r / a) ^ 2))

/-- Its mass within a radius. -/
def enclosed (a rc r : ℝ) : ℝ := ∫ s in (0 : ℝ)..r, 4 * π * s ^ 2 * density a rc s

end C92Spec
open C92Spec

namespace C92aux
open ExpTruncNFW ExpInt

theorem lift {f f' : ℝ → ℝ} (h : ∀ x, 0 ≤ x → HasDerivAt f (f' x) x) (hp : ∀ x, 0 < x → 0 < f' x) (h0 : f 0 = 0) {x : ℝ} (hx : 0 < x) : 0 < f x := by
  have m : StrictMonoOn f (Ici 0) := by
    refine strictMonoOn_of_deriv_pos (convex_Ici 0) (fun x hx => (h x hx).continuousAt.continuousWithinAt) fun x hx => ?_
    rw [interior_Ici] at hx
    rw [(h x (le_of_lt hx)).deriv]; exact hp x hx
  have := m (mem_Ici.2 le_rfl) (mem_Ici.2 hx.le) hx
  rwa [h0] at this

theorem expneg (x : ℝ) : HasDerivAt (fun x : ℝ => exp (-x)) (-exp (-x)) x := by simpa using (hasDerivAt_neg x).exp

theorem e0 {x : ℝ} (hx : 0 < x) : exp (-x) < 1 := exp_lt_one_iff.2 (by linarith)
theorem e1 {x : ℝ} (hx : 0 < x) : 0 < exp (-x) - (1 - x) := by
  refine lift (f := fun x => exp (-x) - (1 - x)) (f' := fun x => -exp (-x) - (-1)) (fun x _ => (expneg x).sub ((hasDerivAt_id x).const_sub 1)) (fun x hx => ?_) (by simp) hx
  have := e0 hx; linarith
theorem e2 {x : ℝ} (hx : 0 < x) : 0 < 1 - x + x ^ 2 / 2 - exp (-x) := by
  refine lift (f := fun x => 1 - x + x ^ 2 / 2 - exp (-x)) (f' := fun x => -1 + x - -exp (-x)) (fun x _ => ?_) (fun x hx => ?_) (by simp) hx
  · refine ((((hasDerivAt_id x).const_sub 1).add (((hasDerivAt_id x).pow 2).div_const 2)).sub (expneg x)).congr_deriv ?_
    simp only [id]; push_cast; ring
  · have := e1 hx; linarith
theorem e3 {x : ℝ} (hx : 0 < x) : 0 < exp (-x) - (1 - x + x ^ 2 / 2 - x ^ 3 / 6) := by
  refine lift (f := fun x => exp (-x) - (1 - x + x ^ 2 / 2 - x ^ 3 / 6)) (f' := fun x => -exp (-x) - (-1 + x - x ^ 2 / 2)) (fun x _ => ?_) (fun x hx => ?_) (by simp) hx
  · refine ((expneg x).sub ((((hasDerivAt_id x).const_sub 1).add (((hasDerivAt_id x).pow 2).div_const 2)).sub (((hasDerivAt_id x).pow 3).div_const 6))).congr_deriv ?_
    simp only [id]; push_cast; ring
  · have := e2 hx; linarith
theorem e4 {x : ℝ} (hx : 0 < x) : 0 < 1 - x + x ^ 2 / 2 - x ^ 3 / 6 + x ^ 4 / 24 - exp (-x) := by
  refine lift (f := fun x => 1 - x + x ^ 2 / 2 - x ^ 3 / 6 + x ^ 4 / 24 - exp (-x)) (f' := fun x => -1 + x - x ^ 2 / 2 + x ^ 3 / 6 - -exp (-x)) (fun x _ => ?_) (fun x hx => ?_) (by simp) hx
  · refine ((((((hasDerivAt_id x).const_sub 1).add (((hasDerivAt_id x).pow 2).div_const 2)).sub (((hasDerivAt_id x).pow 3).div_const 6)).add (((hasDerivAt_id x).pow 4).div_const 24)).sub (expneg x)).congr_deriv ?_
    simp only [id]; push_cast; ring
  · have := e3 hx; linarith

/-- The terms kept by the series. -/
def P3 (x y : ℝ) : ℝ := 1 - (x + 2 * y) + (x ^ 2 / 2 + 2 * x * y + 3 * y ^ 2) - (x ^ 3 / 6 + x ^ 2 * y + 3 * x * y ^ 2 + 4 * y ^ 3)

/-- The terms left out are positive and of fourth order. -/
theorem rest {x y m : ℝ} (hx : 0 < x) (hy : 0 < y) (hxm : x ≤ m) (hym : y ≤ m) : 0 < exp (-x) / (1 + y) ^ 2 - P3 x y ∧ exp (-x) / (1 + y) ^ 2 - P3 x y < 11 * m ^ 4 := by
  have q : 1 / (1 + y) ^ 2 - (1 - 2 * y + 3 * y ^ 2 - 4 * y ^ 3) = (5 * y ^ 4 + 4 * y ^ 5) / (1 + y) ^ 2 := by field_simp; ring
  have q0 : 0 < (5 * y ^ 4 + 4 * y ^ 5) / (1 + y) ^ 2 := by positivity
  have q1 : (5 * y ^ 4 + 4 * y ^ 5) / (1 + y) ^ 2 ≤ 5 * y ^ 4 := by
    rw [div_le_iff₀ (by positivity)]
    have : 0 < y ^ 5 := by positivity
    have : 0 < y ^ 6 := by positivity
    nlinarith
  have dec : exp (-x) / (1 + y) ^ 2 - P3 x y = (exp (-x) - (1 - x + x ^ 2 / 2 - x ^ 3 / 6)) + 2 * y * (1 - x + x ^ 2 / 2 - exp (-x)) + 3 * y ^ 2 * (exp (-x) - (1 - x))
      + 4 * y ^ 3 * (1 - exp (-x)) + exp (-x) * ((5 * y ^ 4 + 4 * y ^ 5) / (1 + y) ^ 2) := by
    rw [← q, P3]; ring
  have E := exp_pos (-x)
  have h0 := e0 hx
  have h1 := e1 hx
  have h2 := e2 hx
  have h3 := e3 hx
  have h4 := e4 hx
  rw [dec]
  constructor
  · have a1 : 0 < 2 * y * (1 - x + x ^ 2 / 2 - exp (-x)) := by positivity
    have a2 : 0 < 3 * y ^ 2 * (exp (-x) - (1 - x)) := by positivity
    have a3 : 0 < 4 * y ^ 3 * (1 - exp (-x)) := mul_pos (by positivity) (by linarith)
    have a4 := mul_pos E q0
    linarith
  · have mp : 0 < m := hx.trans_le hxm
    have b0 : exp (-x) - (1 - x + x ^ 2 / 2 - x ^ 3 / 6) ≤ m ^ 4 / 24 := by
      have : x ^ 4 ≤ m ^ 4 := by gcongr
      linarith
    have b1 : 2 * y * (1 - x + x ^ 2 / 2 - exp (-x)) ≤ 2 * m * (m ^ 3 / 6) := by
      have : 1 - x + x ^ 2 / 2 - exp (-x) ≤ m ^ 3 / 6 := by
        have : x ^ 3 ≤ m ^ 3 := by gcongr
        linarith
      gcongr
    have b2 : 3 * y ^ 2 * (exp (-x) - (1 - x)) ≤ 3 * m ^ 2 * (m ^ 2 / 2) := by
      have : exp (-x) - (1 - x) ≤ m ^ 2 / 2 := by
        have : x ^ 2 ≤ m ^ 2 := by gcongr
        linarith
      gcongr
    have b3 : 4 * y ^ 3 * (1 - exp (-x)) ≤ 4 * m ^ 3 * m := by
      have : 1 - exp (-x) ≤ m := by linarith
      have : 0 < 1 - exp (-x) := by linarith
      gcongr
    have b4 : exp (-x) * ((5 * y ^ 4 + 4 * y ^ 5) / (1 + y) ^ 2) ≤ 1 * (5 * m ^ 4) := by
      have : y ^ 4 ≤ m ^ 4 := by gcongr
      have : (5 * y ^ 4 + 4 * y ^ 5) / (1 + y) ^ 2 ≤ 5 * m ^ 4 := by linarith
      gcongr
    have : 0 < m ^ 4 := by have := hx.trans_le hxm; positivity
    nlinarith

variable {a rc r : ℝ}

theorem expSplit (hc : 0 < rc) : exp (a / rc) * exp (-((a + r) / rc)) = exp (-r / rc) := by
  rw [← exp_add]; congr 1; field_simp; ring

theorem E1beta (ha : 0 < a) (hc : 0 < rc) (hr : 0 ≤ r) : HasDerivAt (fun r => E1 ((a + r) / rc)) (-(exp (-((a + r) / rc)) / ((a + r) / rc)) * (1 / rc)) r :=
  HasDerivAt.comp (h₂ := E1) (h := fun r => (a + r) / rc) r (E1_deriv (show 0 < (a + r) / rc by positivity)) (((hasDerivAt_id r).const_add a).div_const rc)

theorem expr (hc : 0 < rc) : HasDerivAt (fun r => exp (-r / rc)) (exp (-r / rc) * (-1 / rc)) r :=
  (((hasDerivAt_id r).neg).div_const rc).exp

/-- The closed form has the mass of the shells as its derivative. -/
theorem Fclosed_deriv (ha : 0 < a) (hc : 0 < rc) (hr : 0 ≤ r) : HasDerivAt (Fclosed a rc) (r * exp (-r / rc) / (a + r) ^ 2) r := by
  have h1 := ((E1beta ha hc hr).const_sub (E1 (a / rc))).const_mul (exp (a / rc) * (1 + a / rc))
  have h2 := ((expr (r := r) hc).const_mul a).div ((hasDerivAt_id r).const_add a) (by simp only [id]; positivity)
  refine ((h1.sub_const 1).add h2).congr_deriv ?_
  have e := expSplit (a := a) (r := r) hc
  simp only [id]
  rw [show exp (a / rc) * (1 + a / rc) * -(-(exp (-((a + r) / rc)) / ((a + r) / rc)) * (1 / rc))
    = (exp (a / rc) * exp (-((a + r) / rc))) * (1 + a / rc) / ((a + r) / rc) * (1 / rc) by ring, e]
  generalize exp (-r / rc) = X
  have : a + r ≠ 0 := by positivity
  field_simp
  ring

theorem Fclosed_zero (ha : 0 < a) : Fclosed a rc 0 = 0 := by
  simp only [Fclosed, add_zero, sub_self, mul_zero, neg_zero, zero_div, exp_zero, mul_one]
  field_simp; norm_num

theorem G_deriv (ha : 0 < a) (hc : 0 < rc) (hr : 0 ≤ r) : HasDerivAt (G a rc) (-(exp (-r / rc) / (a + r) ^ 2)) r := by
  have h1 := ((E1beta ha hc hr).const_mul (exp (a / rc))).div_const rc
  have h2 := (expr (r := r) hc).div ((hasDerivAt_id r).const_add a) (by simp only [id]; positivity)
  refine (h2.sub h1).congr_deriv ?_
  have e := expSplit (a := a) (r := r) hc
  simp only [id]
  rw [show exp (a / rc) * (-(exp (-((a + r) / rc)) / ((a + r) / rc)) * (1 / rc)) / rc
    = -(exp (a / rc) * exp (-((a + r) / rc))) / ((a + r) / rc) * (1 / rc) / rc by ring, e]
  generalize exp (-r / rc) = X
  have : a + r ≠ 0 := by positivity
  field_simp
  ring

theorem Fseries_deriv (ha : 0 < a) (hc : 0 < rc) : HasDerivAt (Fseries a rc) (r / a ^ 2 * P3 (r / rc) (r / a)) r := by
  have e : Fseries a rc = fun r => (0.5 / (a * a)) * r ^ 2 + (-(1 / rc + 2 / a) / 3 / (a * a)) * r ^ 3 + ((0.5 / rc / rc + 2 / (rc * a) + 3 / (a * a)) / 4 / (a * a)) * r ^ 4
      + (-(1 / (6 * rc ^ 3) + 1 / (rc * rc * a) + 3 / (rc * a * a) + 4 / a ^ 3) / 5 / (a * a)) * r ^ 5 := by
    funext r; simp only [Fseries]; ring
  rw [e]
  refine ((((((hasDerivAt_id r).pow 2).const_mul _).add (((hasDerivAt_id r).pow 3).const_mul _)).add (((hasDerivAt_id r).pow 4).const_mul _)).add (((hasDerivAt_id r).pow 5).const_mul _)).congr_deriv ?_
  simp only [id, P3]
  push_cast
  field_simp
  ring

theorem shell (ha : 0 < a) (hr : 0 ≤ r) : r * exp (-r / rc) / (a + r) ^ 2 = r / a ^ 2 * (exp (-(r / rc)) / (1 + r / a) ^ 2) := by
  rw [neg_div]
  have : a + r ≠ 0 := by positivity
  field_simp

/-- The series is below the closed form, by a term of sixth order. -/
theorem series_err (ha : 0 < a) (hc : 0 < rc) (hr : 0 < r) : 0 < Fclosed a rc r - Fseries a rc r ∧ Fclosed a rc r - Fseries a rc r < 11 / 6 * r ^ 6 / (a ^ 2 * min a rc ^ 4) := by
  have m0 : 0 < min a rc := lt_min ha hc
  have key : ∀ r, 0 < r → 0 < exp (-(r / rc)) / (1 + r / a) ^ 2 - P3 (r / rc) (r / a) ∧ exp (-(r / rc)) / (1 + r / a) ^ 2 - P3 (r / rc) (r / a) < 11 * (r / min a rc) ^ 4 := fun r hr =>
    rest (by positivity) (by positivity) (div_le_div_of_nonneg_left hr.le m0 (min_le_right _ _)) (div_le_div_of_nonneg_left hr.le m0 (min_le_left _ _))
  have z : Fclosed a rc 0 - Fseries a rc 0 = 0 := by rw [Fclosed_zero ha]; simp [Fseries]
  constructor
  · refine lift (f := fun r => Fclosed a rc r - Fseries a rc r) (fun r hr => (Fclosed_deriv ha hc hr).sub (Fseries_deriv ha hc)) (fun r hr => ?_) z hr
    rw [shell ha hr.le, ← mul_sub]
    exact mul_pos (by positivity) (key r hr).1
  · have := lift (f := fun r => 11 / 6 * r ^ 6 / (a ^ 2 * min a rc ^ 4) - (Fclosed a rc r - Fseries a rc r))
      (f' := fun r => 11 / 6 * (6 * r ^ 5) / (a ^ 2 * min a rc ^ 4) - (r * exp (-r / rc) / (a + r) ^ 2 - r / a ^ 2 * P3 (r / rc) (r / a)))
      (fun r hr => ?_) (fun r hr => ?_) (by rw [z]; simp) hr
    · linarith
    · refine (((((hasDerivAt_id r).pow 6).const_mul (11 / 6)).div_const _).sub ((Fclosed_deriv ha hc hr).sub (Fseries_deriv ha hc))).congr_deriv ?_
      simp only [id]; push_cast; ring
    · rw [shell ha hr.le, ← mul_sub]
      have := mul_lt_mul_of_pos_left (key r hr).2 (show 0 < r / a ^ 2 by positivity)
      have e : r / a ^ 2 * (11 * (r / min a rc) ^ 4) = 11 / 6 * (6 * r ^ 5) / (a ^ 2 * min a rc ^ 4) := by
        field_simp
      rw [e] at this
      linarith

theorem thresh_pos (ha : 0 < a) (hc : 0 < rc) : 0 < thresh a rc := mul_pos (by norm_num) (lt_min ha hc)

theorem F_eq (h : thresh a rc ≤ r) : F a rc r = Fclosed a rc r := if_neg (not_lt.2 h)

theorem dens_eq (ha : 0 < a) (hr : 0 < r) : rdens a rc r = density a rc r := by
  rw [rdens, density]; field_simp

theorem dens_shell (ha : 0 < a) (hr : 0 < r) : 4 * π * rdens a rc r = exp (-r / rc) / (r * (a + r) ^ 2) := by
  rw [rdens]
  have : a + r ≠ 0 := by positivity
  field_simp

/-- The closed form is the mass within a radius of the documented density. -/
theorem Fclosed_mass (ha : 0 < a) (hc : 0 < rc) (hr : 0 ≤ r) : Fclosed a rc r = enclosed a rc r := by
  have e : enclosed a rc r = ∫ s in (0 : ℝ)..r, s * exp (-s / rc) / (a + s) ^ 2 := by
    rw [enclosed]
    refine intervalIntegral.integral_congr_ae (Eventually.of_forall fun s hs => ?_)
    rw [uIoc_of_le hr] at hs
    have s0 := hs.1
    rw [← dens_eq ha hs.1, show 4 * π * s ^ 2 * rdens a rc s = s ^ 2 * (4 * π * rdens a rc s) by ring, dens_shell ha hs.1]
    have : a + s ≠ 0 := by positivity
    field_simp
  rw [e, intervalIntegral.integral_eq_sub_of_hasDerivAt (f := Fclosed a rc), Fclosed_zero ha, sub_zero]
  · intro s hs
    rw [uIcc_of_le hr] at hs
    exact Fclosed_deriv ha hc hs.1
  · refine ContinuousOn.intervalIntegrable fun s hs => ?_
    rw [uIcc_of_le hr] at hs
    have : (a + s) ^ 2 ≠ 0 := by have := hs.1; positivity
    exact ContinuousAt.continuousWithinAt (by fun_prop (disch := assumption))

theorem radOK (ha : 0 < a) (hc : 0 < rc) : Spherical.RadialOK (radial a rc) (Ioi (thresh a rc)) := by
  have T := thresh_pos ha hc
  refine ⟨isOpen_Ioi, fun r h => T.trans h, fun r hr _ => ?_, fun r hr _ => ?_, fun r hr _ => ?_⟩
  all_goals have r0 : 0 < r := T.trans hr
  · have h := ((Fclosed_deriv ha hc r0.le).div (hasDerivAt_id r) r0.ne').add (G_deriv ha hc r0.le)
    refine (h.neg.congr_of_eventuallyEq ?_).congr_deriv ?_
    · filter_upwards [Ioi_mem_nhds hr] with x hx
      have x0 : 0 < x := T.trans hx
      simp only [radial, revaluate, if_neg x0.ne', F_eq (le_of_lt hx), Pi.neg_apply, Pi.add_apply, Pi.div_apply, id]
    · simp only [radial, rforce, if_neg r0.ne', F_eq (le_of_lt hr), id]
      have : a + r ≠ 0 := by positivity
      field_simp
      ring
  · have h := (Fclosed_deriv ha hc r0.le).neg.div ((hasDerivAt_id r).mul (hasDerivAt_id r)) (by simp only [Pi.mul_apply, id]; positivity)
    refine (h.congr_of_eventuallyEq ?_).congr_deriv ?_
    · filter_upwards [Ioi_mem_nhds hr] with x hx
      have x0 : 0 < x := T.trans hx
      simp only [radial, rforce, if_neg x0.ne', F_eq (le_of_lt hx), Pi.neg_apply, Pi.mul_apply, Pi.div_apply, id]
    · simp only [radial, r2deriv, F_eq (le_of_lt hr), id, Pi.mul_apply, Pi.neg_apply, dens_shell ha r0]
      have : a + r ≠ 0 := by positivity
      field_simp
      ring
  · simp only [radial, r2deriv, rforce, if_neg r0.ne']
    field_simp
    ring

end C92aux
open C92aux

/-- Forces are minus the gradient, outside the radius where the series is used. -/
theorem C01_ExpTruncNFW_partial {a rc : ℝ} (ha : 0 < a) (hc : 0 < rc) (amp R z φ t : ℝ) (h : 1e-3 * min a rc < √(R ^ 2 + z ^ 2)) :
    GradAt ((ExpTruncNFW.pot a rc).scale amp) R z φ t :=
  ((Spherical.consistent (radOK ha hc)).scale amp).grad R z φ t h

/-- Second derivatives, outside the same radius. -/
theorem C02_ExpTruncNFW_partial {a rc : ℝ} (ha : 0 < a) (hc : 0 < rc) (amp R z φ t : ℝ) (h : 1e-3 * min a rc < √(R ^ 2 + z ^ 2)) :
    HessAt ((ExpTruncNFW.pot a rc).scale amp) R z φ t :=
  ((Spherical.consistent (radOK ha hc)).scale amp).hess R z φ t h

/-- Poisson's equation, outside the same radius. -/
theorem C03_ExpTruncNFW_partial {a rc : ℝ} (ha : 0 < a) (hc : 0 < rc) (amp R z φ t : ℝ) (h : 1e-3 * min a rc < √(R ^ 2 + z ^ 2)) (hR : R ≠ 0) :
    PoissonAt ((ExpTruncNFW.pot a rc).scale amp) R z φ t :=
  ((Spherical.consistent (radOK ha hc)).scale amp).poisson R z φ t h hR

namespace C92aux
theorem sq3 : (1e-3 : ℝ) * min 1 2 < √(3 ^ 2 + 0 ^ 2) := by
  rw [show (3 : ℝ) ^ 2 + 0 ^ 2 = 3 ^ 2 by norm_num, sqrt_sq (by norm_num), min_eq_left (by norm_num)]; norm_num
end C92aux

example : GradAt ((ExpTruncNFW.pot 1 2).scale 3) 3 0 0 0 := C01_ExpTruncNFW_partial one_pos two_pos _ _ _ _ _ sq3
example : HessAt ((ExpTruncNFW.pot 1 2).scale 3) 3 0 0 0 := C02_ExpTruncNFW_partial one_pos two_pos _ _ _ _ _ sq3
example : PoissonAt ((ExpTruncNFW.pot 1 2).scale 3) 3 0 0 0 := C03_ExpTruncNFW_partial one_pos two_pos _ _ _ _ _ sq3 (by norm_num)

/-- Where the series is used the force is not exactly minus the derivative of the value, at any radius and for any parameters: the
outer part of the value is exact, the inner part is the series. -/
theorem C01_ExpTruncNFW_fails {a rc : ℝ} (ha : 0 < a) (hc : 0 < rc) {r : ℝ} (h0 : 0 < r) (h : r < 1e-3 * min a rc) :
    ¬HasDerivAt (fun x => (ExpTruncNFW.pot a rc).val x 0 0 0) (-(ExpTruncNFW.pot a rc).Rforce r 0 0 0) r := by
  intro k
  have d : HasDerivAt (fun x => (ExpTruncNFW.pot a rc).val x 0 0 0)
      (-((r / a ^ 2 * P3 (r / rc) (r / a) * r - ExpTruncNFW.Fseries a rc r * 1) / r ^ 2 + -(exp (-r / rc) / (a + r) ^ 2))) r := by
    refine (((Fseries_deriv ha hc).div (hasDerivAt_id r) h0.ne').add (G_deriv ha hc h0.le)).neg.congr_of_eventuallyEq ?_
    filter_upwards [Ioo_mem_nhds h0 h] with x hx
    simp only [ExpTruncNFW.pot, Spherical.pot, Spherical.evaluate, ExpTruncNFW.radial, ExpTruncNFW.revaluate, zero_pow two_ne_zero, add_zero, sqrt_sq hx.1.le,
      if_neg hx.1.ne', ExpTruncNFW.F, ExpTruncNFW.thresh, if_pos hx.2, Pi.neg_apply, Pi.add_apply, Pi.div_apply, id]
  have e := k.unique d
  simp only [ExpTruncNFW.pot, Spherical.pot, Spherical.Rforce, ExpTruncNFW.radial, ExpTruncNFW.rforce, zero_pow two_ne_zero, add_zero, sqrt_sq h0.le, if_neg h0.ne',
    ExpTruncNFW.F, ExpTruncNFW.thresh, if_pos h] at e
  have m0 : 0 < min a rc := lt_min ha hc
  have q := (rest (x := r / rc) (y := r / a) (m := r / min a rc) (by positivity) (by positivity) (div_le_div_of_nonneg_left h0.le m0 (min_le_right _ _))
    (div_le_div_of_nonneg_left h0.le m0 (min_le_left _ _))).1
  have s := shell (rc := rc) ha h0.le
  have s' : exp (-r / rc) / (a + r) ^ 2 = 1 / a ^ 2 * (exp (-(r / rc)) / (1 + r / a) ^ 2) := by
    have : r * (exp (-r / rc) / (a + r) ^ 2) = r * (1 / a ^ 2 * (exp (-(r / rc)) / (1 + r / a) ^ 2)) := by rw [← mul_div_assoc, s]; ring
    exact mul_left_cancel₀ h0.ne' this
  rw [s'] at e
  generalize exp (-(r / rc)) / (1 + r / a) ^ 2 = X at *
  generalize P3 (r / rc) (r / a) = Y at *
  generalize ExpTruncNFW.Fseries a rc r = Z at *
  have a0 := ha.ne'
  have r0 := h0.ne'
  field_simp at e
  have : r ^ 2 * (X - Y) = 0 := by linarith
  have := mul_pos (pow_pos h0 2) q
  linarith

/-- How far the series is from the mass of the documented density, and with it the force and the value. -/
theorem C92_series {a rc : ℝ} (ha : 0 < a) (hc : 0 < rc) {r : ℝ} (h0 : 0 < r) :
    |ExpTruncNFW.mass a rc r - enclosed a rc r| ≤ 11 / 6 * r ^ 6 / (a ^ 2 * min a rc ^ 4) ∧
    |(ExpTruncNFW.pot a rc).Rforce r 0 0 0 - -(enclosed a rc r / r ^ 2)| ≤ 11 / 6 * r ^ 4 / (a ^ 2 * min a rc ^ 4) ∧
    |(ExpTruncNFW.pot a rc).val r 0 0 0 - -(enclosed a rc r / r + ExpTruncNFW.G a rc r)| ≤ 11 / 6 * r ^ 5 / (a ^ 2 * min a rc ^ 4) := by
  have m0 : 0 < min a rc := lt_min ha hc
  have k : |ExpTruncNFW.F a rc r - enclosed a rc r| ≤ 11 / 6 * r ^ 6 / (a ^ 2 * min a rc ^ 4) := by
    rw [← Fclosed_mass ha hc h0.le]
    have s := series_err ha hc h0
    by_cases c : r < ExpTruncNFW.thresh a rc
    · rw [ExpTruncNFW.F, if_pos c, abs_sub_comm, abs_of_pos s.1]; exact s.2.le
    · rw [ExpTruncNFW.F, if_neg c, sub_self, abs_zero]; positivity
  refine ⟨k, ?_, ?_⟩
  · simp only [ExpTruncNFW.pot, Spherical.pot, Spherical.Rforce, ExpTruncNFW.radial, ExpTruncNFW.rforce, zero_pow two_ne_zero, add_zero, sqrt_sq h0.le, if_neg h0.ne']
    have e : -ExpTruncNFW.F a rc r / (r * r) * r / r - -(enclosed a rc r / r ^ 2) = -((ExpTruncNFW.F a rc r - enclosed a rc r) / r ^ 2) := by field_simp; ring
    rw [e, abs_neg, abs_div, abs_of_pos (pow_pos h0 2), div_le_iff₀ (pow_pos h0 2)]
    refine k.trans (le_of_eq ?_)
    ring
  · simp only [ExpTruncNFW.pot, Spherical.pot, Spherical.evaluate, ExpTruncNFW.radial, ExpTruncNFW.revaluate, zero_pow two_ne_zero, add_zero, sqrt_sq h0.le, if_neg h0.ne']
    have e : -(ExpTruncNFW.F a rc r / r + ExpTruncNFW.G a rc r) - -(enclosed a rc r / r + ExpTruncNFW.G a rc r) = -((ExpTruncNFW.F a rc r - enclosed a rc r) / r) := by
      field_simp; ring
    rw [e, abs_neg, abs_div, abs_of_pos h0, div_le_iff₀ h0]
    refine k.trans (le_of_eq ?_)
    ring

example : |ExpTruncNFW.mass 1 2 (1 / 2000) - enclosed 1 2 (1 / 2000)| ≤ 11 / 6 * (1 / 2000) ^ 6 / (1 ^ 2 * min 1 2 ^ 4) := (C92_series one_pos two_pos (by norm_num)).1

end Verif
