import Verif.Model.Pot.AnyDisk
import Verif.Lemmas.Pot.Ring
import Mathlib.MeasureTheory.Function.Jacobian
import Mathlib.Analysis.Calculus.ParametricIntegral

set_option autoImplicit false

/-! # A razor-thin disk as a superposition of rings -/

noncomputable section
namespace Verif.AnyDisk
open Real MeasureTheory Set Filter Topology Ring

/-! ### Rings: derivatives of the forces, bounds, continuity in the radius -/

theorem ring_ok {a R z : ℝ} (hR : 0 < R) (hz : z ≠ 0) : Ring.Ok a R z := by
  refine ⟨hR, ?_⟩
  unfold Q
  positivity

section
variable {a R z : ℝ}
theorem ring_v_R (ha : 0 < a) (hR : 0 < R) (hz : z ≠ 0) :
    HasDerivAt (fun x => Ring.evaluate a x z) (-Ring.Rforce a R z) R :=
  ((Ring.consistent ha).grad R z 0 0 (ring_ok hR hz)).dR
theorem ring_v_z (ha : 0 < a) (hR : 0 < R) (hz : z ≠ 0) :
    HasDerivAt (fun x => Ring.evaluate a R x) (-Ring.zforce a R z) z :=
  ((Ring.consistent ha).grad R z 0 0 (ring_ok hR hz)).dz
theorem ring_R_R (ha : 0 < a) (hR : 0 < R) (hz : z ≠ 0) :
    HasDerivAt (fun x => Ring.Rforce a x z) (-Ring.R2deriv a R z) R := by
  have h := ((Ring.consistent ha).hess R z 0 0 (ring_ok hR hz)).RR.neg
  refine h.congr_of_eventuallyEq ?_
  filter_upwards [lt_mem_nhds hR] with x hx
  have := (ring_v_R ha hx hz).deriv
  change _ = -deriv (fun y => Ring.evaluate a y z) x
  rw [this, neg_neg]
theorem ring_R_z (ha : 0 < a) (hR : 0 < R) (hz : z ≠ 0) :
    HasDerivAt (fun x => Ring.Rforce a R x) (-Ring.Rzderiv a R z) z := by
  have h := ((Ring.consistent ha).hess R z 0 0 (ring_ok hR hz)).Rz.neg
  refine h.congr_of_eventuallyEq ?_
  filter_upwards [eventually_ne_nhds hz] with x hx
  have := (ring_v_R ha hR hx).deriv
  change _ = -deriv (fun y => Ring.evaluate a y x) R
  rw [this, neg_neg]
theorem ring_z_R (ha : 0 < a) (hR : 0 < R) (hz : z ≠ 0) :
    HasDerivAt (fun x => Ring.zforce a x z) (-Ring.Rzderiv a R z) R := by
  have h := ((Ring.consistent ha).hess R z 0 0 (ring_ok hR hz)).zR.neg
  refine h.congr_of_eventuallyEq ?_
  filter_upwards [lt_mem_nhds hR] with x hx
  have := (ring_v_z ha hx hz).deriv
  change _ = -deriv (fun y => Ring.evaluate a x y) z
  rw [this, neg_neg]
theorem ring_z_z (ha : 0 < a) (hR : 0 < R) (hz : z ≠ 0) :
    HasDerivAt (fun x => Ring.zforce a R x) (-Ring.z2deriv a R z) z := by
  have h := ((Ring.consistent ha).hess R z 0 0 (ring_ok hR hz)).zz.neg
  refine h.congr_of_eventuallyEq ?_
  filter_upwards [eventually_ne_nhds hz] with x hx
  have := (ring_v_z ha hR hx).deriv
  change _ = -deriv (fun y => Ring.evaluate a R y) x
  rw [this, neg_neg]
end

/-! ### Bounds -/

theorem ellipe_le {m : ℝ} (h0 : 0 ≤ m) : ellipe m ≤ π / 2 := by
  unfold ellipe
  have : ∫ θ in (0 : ℝ)..(π / 2), √(1 - m * sin θ ^ 2) ≤ ∫ θ in (0 : ℝ)..(π / 2), (1 : ℝ) := by
    refine intervalIntegral.integral_mono_on (by positivity) (Continuous.intervalIntegrable (by fun_prop) _ _)
      intervalIntegrable_const fun θ _ => ?_
    refine sqrt_le_one.2 ?_
    nlinarith [mul_nonneg h0 (sq_nonneg (sin θ))]
  simpa using this

theorem ellipk_cont_aux {m : ℝ} (hm : m < 1) : Continuous fun θ : ℝ => 1 / √(1 - m * sin θ ^ 2) :=
  continuous_const.div (by fun_prop) fun θ => (sqrt_pos.2 (ell_pos hm θ)).ne'

theorem ellipk_nonneg (m : ℝ) : 0 ≤ ellipk m := by
  unfold ellipk
  exact intervalIntegral.integral_nonneg (by positivity) fun θ _ => by positivity

theorem ellipk_le {m : ℝ} (h0 : 0 ≤ m) (hm : m < 1) : ellipk m ≤ π / 2 * (1 / √(1 - m)) := by
  unfold ellipk
  have hk := ellipk_cont_aux hm
  have : ∫ θ in (0 : ℝ)..(π / 2), 1 / √(1 - m * sin θ ^ 2) ≤ ∫ θ in (0 : ℝ)..(π / 2), 1 / √(1 - m) := by
    refine intervalIntegral.integral_mono_on (by positivity) (hk.intervalIntegrable _ _)
      intervalIntegrable_const fun θ _ => ?_
    have h1 : 0 < √(1 - m) := sqrt_pos.2 (by linarith)
    refine one_div_le_one_div_of_le h1 (sqrt_le_sqrt ?_)
    nlinarith [mul_le_mul_of_nonneg_left (sin_sq_le_one θ) h0]
  simpa using this

/-- The bounds on which everything rests: for bounded `R` and `z` bounded away from zero. -/
structure Bd (r1 r2 s a R z : ℝ) : Prop where
  hr : 0 < r1
  hs : 0 < s
  ha : 0 < a
  lo : r1 ≤ R
  hi : R ≤ r2
  hz : s ≤ |z|

def cc (r2 s : ℝ) : ℝ := 2 + 8 * r2 ^ 2 / s ^ 2
def kk (r2 s : ℝ) : ℝ := π / 2 * √(cc r2 s)

section
variable {r1 r2 s a R z : ℝ} (b : Bd r1 r2 s a R z)
include b
theorem Bd.R0 : 0 < R := b.hr.trans_le b.lo
theorem Bd.z0 : z ≠ 0 := fun h => by have := b.hz; have := b.hs; rw [h, abs_zero] at *; linarith
theorem Bd.ok : Ring.Ok a R z := ring_ok b.R0 b.z0
theorem Bd.zsq : s ^ 2 ≤ z ^ 2 := by
  rw [← sq_abs z]; exact pow_le_pow_left₀ b.hs.le b.hz 2
theorem Bd.Qs : s ^ 2 ≤ Q a R z := by
  unfold Q; nlinarith [b.zsq, sq_nonneg (R - a)]
theorem Bd.P0 : 0 < P a R z := Ppos b.ha b.ok
theorem Bd.QP : Q a R z ≤ P a R z := by
  have := mul_pos b.R0 b.ha
  unfold P Q; nlinarith
theorem Bd.PQc : P a R z / Q a R z ≤ cc r2 s := by
  rw [div_le_iff₀ b.ok.2]
  have h1 : P a R z ≤ 2 * Q a R z + 8 * R ^ 2 := by
    unfold P Q; nlinarith [sq_nonneg (a - R - 2 * R), sq_nonneg (a - R), sq_nonneg z]
  have h2 : R ^ 2 ≤ r2 ^ 2 := pow_le_pow_left₀ b.R0.le b.hi 2
  have h3 : 8 * r2 ^ 2 ≤ 8 * r2 ^ 2 / s ^ 2 * Q a R z := by
    have hs := b.hs
    calc 8 * r2 ^ 2 = 8 * r2 ^ 2 / s ^ 2 * s ^ 2 := by field_simp
      _ ≤ _ := mul_le_mul_of_nonneg_left b.Qs (by positivity)
  unfold cc; nlinarith
theorem Bd.iws : iw a R z ≤ 1 / s := by
  unfold iw
  refine one_div_le_one_div_of_le b.hs ?_
  exact le_sqrt_of_sq_le (b.Qs.trans b.QP)
theorem Bd.iw0 : 0 ≤ iw a R z := by unfold iw; positivity
theorem Bd.iQ : 1 / Q a R z ≤ 1 / s ^ 2 := one_div_le_one_div_of_le (by have := b.hs; positivity) b.Qs
theorem Bd.κk : |κ a R z| ≤ kk r2 s := by
  have := ellipk_nonneg (mm a R z)
  unfold κ
  rw [abs_of_nonneg this]
  refine (ellipk_le (m_pos b.ha b.ok).le (m_lt b.ha b.ok)).trans ?_
  rw [one_sub b.ha b.ok, one_div, ← sqrt_inv, inv_div]
  exact mul_le_mul_of_nonneg_left (sqrt_le_sqrt b.PQc) (by positivity)
theorem Bd.εe : |ε a R z| ≤ π / 2 := by
  have := (ε_pos b.ha b.ok).le
  rw [abs_of_nonneg this]
  exact ellipe_le (m_pos b.ha b.ok).le
theorem Bd.cc0 : 0 < cc r2 s := by have := b.hs; unfold cc; positivity

theorem Bd.val_le : |Ring.evaluate a R z| ≤ (4 * (1 / s) * kk r2 s) * a := by
  rw [evaluate_eq b.R0, abs_mul, abs_mul, abs_mul, abs_of_pos b.ha, abs_of_nonneg b.iw0,
    show |(-4 : ℝ)| = 4 by norm_num]
  have := b.iws; have := b.κk; have := b.ha; have := b.iw0
  have hs := b.hs
  calc 4 * a * iw a R z * |κ a R z| ≤ 4 * a * (1 / s) * kk r2 s := by gcongr
    _ = _ := by ring

theorem Bd.Rf_le : |Ring.Rforce a R z| ≤ (2 / r1 * (1 / s) * (cc r2 s * (π / 2) + kk r2 s)) * a := by
  rw [Rforce_eq b.ha b.ok]
  have hP := b.P0; have hQ := b.ok.2; have hR := b.R0
  have e : |(R ^ 2 - a ^ 2 - z ^ 2) / Q a R z| ≤ cc r2 s := by
    rw [abs_div, abs_of_pos hQ]
    refine le_trans (div_le_div_of_nonneg_right ?_ hQ.le) b.PQc
    rw [abs_le]; unfold P
    have := mul_pos b.R0 b.ha
    constructor <;> nlinarith [sq_nonneg R, sq_nonneg a, sq_nonneg z]
  have h1 : |(R ^ 2 - a ^ 2 - z ^ 2) / Q a R z * ε a R z + κ a R z| ≤ cc r2 s * (π / 2) + kk r2 s := by
    refine (abs_add_le _ _).trans (add_le_add ?_ b.κk)
    rw [abs_mul]
    exact mul_le_mul e b.εe (abs_nonneg _) b.cc0.le
  rw [abs_mul, abs_mul, abs_of_nonneg b.iw0, abs_div, abs_mul, abs_of_pos b.ha, abs_of_pos hR,
    show |(-2 : ℝ)| = 2 by norm_num]
  have := b.iws; have := b.ha; have := b.iw0; have := b.lo; have := b.hr
  have hs := b.hs
  calc 2 * a / R * iw a R z * _ ≤ 2 * a / r1 * (1 / s) * (cc r2 s * (π / 2) + kk r2 s) := by gcongr
    _ = _ := by ring

theorem Bd.zw : |z| * iw a R z ≤ 1 := by
  unfold iw
  rw [mul_one_div, div_le_one (sqrt_pos.2 b.P0)]
  refine le_sqrt_of_sq_le ?_
  rw [sq_abs]; unfold P; nlinarith [sq_nonneg (R + a)]

theorem Bd.zf_le : |Ring.zforce a R z| ≤ (4 * (1 / s ^ 2) * (π / 2)) * a := by
  rw [zforce_eq b.ha b.ok]
  have hQ := b.ok.2
  rw [abs_mul, abs_div, abs_mul, abs_mul, abs_mul, abs_of_pos b.ha, abs_of_nonneg b.iw0, abs_of_pos hQ,
    show |(-4 : ℝ)| = 4 by norm_num]
  have := b.zw; have := b.ha; have := b.iw0; have := b.εe; have := b.iQ
  have hs := b.hs
  calc 4 * |z| * a * iw a R z / Q a R z * |ε a R z| = 4 * a * (|z| * iw a R z) * (1 / Q a R z) * |ε a R z| := by ring
    _ ≤ 4 * a * 1 * (1 / s ^ 2) * (π / 2) := by gcongr
    _ = _ := by ring

theorem Bd.aux : |(P a R z + 4 * R * a) / Q a R z * ε a R z - κ a R z| ≤ 2 * cc r2 s * (π / 2) + kk r2 s := by
  have hP := b.P0; have hQ := b.ok.2; have hR := b.R0
  refine (abs_sub _ _).trans (add_le_add ?_ b.κk)
  rw [abs_mul]
  refine mul_le_mul ?_ b.εe (abs_nonneg _) (by have := b.cc0; positivity)
  have h4 : 4 * R * a ≤ P a R z := by have := PQ a R z; linarith
  have h0 : 0 ≤ 4 * R * a := by have := b.ha; positivity
  rw [abs_of_nonneg (by positivity)]
  have := b.PQc
  rw [div_le_iff₀ hQ] at this ⊢
  linarith

theorem Bd.z2_le : |Ring.z2deriv a R z| ≤
    (4 * (1 / s) * (1 / s ^ 2) * (4 * (π / 2) + (2 * cc r2 s * (π / 2) + kk r2 s))) * a := by
  rw [z2deriv_eq b.ha b.ok]
  have hP := b.P0; have hQ := b.ok.2
  have hz : z ^ 2 / P a R z ≤ 1 := by
    rw [div_le_one hP]; unfold P; nlinarith [sq_nonneg (R + a)]
  have hz0 : 0 ≤ z ^ 2 / P a R z := by positivity
  have h1 : |(3 * z ^ 2 / P a R z - 1) * ε a R z
      + ((P a R z + 4 * R * a) / Q a R z * ε a R z - κ a R z) * z ^ 2 / P a R z|
      ≤ 4 * (π / 2) + (2 * cc r2 s * (π / 2) + kk r2 s) := by
    refine (abs_add_le _ _).trans (add_le_add ?_ ?_)
    · rw [abs_mul]
      refine mul_le_mul ?_ b.εe (abs_nonneg _) (by norm_num)
      rw [mul_div_assoc, abs_le]; constructor <;> linarith
    · rw [mul_div_assoc, abs_mul, abs_of_nonneg hz0]
      calc _ ≤ (2 * cc r2 s * (π / 2) + kk r2 s) * 1 :=
            mul_le_mul b.aux hz hz0 ((abs_nonneg _).trans b.aux)
        _ = _ := mul_one _
  rw [abs_mul, abs_div, abs_mul, abs_mul, abs_of_pos b.ha, abs_of_nonneg b.iw0, abs_of_pos hQ,
    show |(-4 : ℝ)| = 4 by norm_num]
  have := b.iws; have := b.ha; have := b.iw0; have := b.iQ
  have hs := b.hs
  refine le_trans (mul_le_mul_of_nonneg_left h1 (by positivity)) ?_
  have h0 := (abs_nonneg _).trans h1
  generalize 4 * (π / 2) + (2 * cc r2 s * (π / 2) + kk r2 s) = A at h0 ⊢
  calc 4 * a * iw a R z / Q a R z * A = 4 * a * iw a R z * (1 / Q a R z) * A := by rw [mul_one_div]
    _ ≤ 4 * a * (1 / s) * (1 / s ^ 2) * A := by gcongr
    _ = _ := by ring

theorem Bd.Rz_le : |Ring.Rzderiv a R z| ≤
    (4 * (1 / s ^ 2) * (3 * (1 / s) * (π / 2) + (2 * cc r2 s * (π / 2) + kk r2 s) * (1 / (2 * r1)))) * a := by
  rw [Rzderiv_eq b.ha b.ok]
  have hP := b.P0; have hQ := b.ok.2; have hR := b.R0
  have hs := b.hs
  have h1 : |3 * (R + a) / P a R z * ε a R z| ≤ 3 * (1 / s) * (π / 2) := by
    rw [abs_mul]
    refine mul_le_mul ?_ b.εe (abs_nonneg _) (by positivity)
    have ha := b.ha
    rw [abs_of_nonneg (by positivity), mul_div_assoc]
    refine mul_le_mul_of_nonneg_left ?_ (by norm_num)
    rw [div_le_div_iff₀ hP hs, one_mul]
    have : s ≤ |z| := b.hz
    have h2 : 2 * ((R + a) * |z|) ≤ P a R z := by
      unfold P; rw [← sq_abs z]; nlinarith [sq_nonneg (R + a - |z|)]
    nlinarith [mul_le_mul_of_nonneg_left this (show 0 ≤ R + a by positivity)]
  have h2 : |((P a R z + 4 * R * a) / Q a R z * ε a R z - κ a R z) * (a ^ 2 + z ^ 2 - R ^ 2) / (2 * R * P a R z)|
      ≤ (2 * cc r2 s * (π / 2) + kk r2 s) * (1 / (2 * r1)) := by
    rw [mul_div_assoc, abs_mul]
    refine mul_le_mul b.aux ?_ (abs_nonneg _) ((abs_nonneg _).trans b.aux)
    have : |a ^ 2 + z ^ 2 - R ^ 2| ≤ P a R z := by
      rw [abs_le]; unfold P
      have := mul_pos b.R0 b.ha
      constructor <;> nlinarith [sq_nonneg R, sq_nonneg a, sq_nonneg z]
    have hr := b.hr
    rw [abs_div, abs_of_pos (show 0 < 2 * R * P a R z by positivity), div_le_div_iff₀ (by positivity) (by positivity), one_mul]
    calc _ ≤ P a R z * (2 * r1) := by gcongr
      _ ≤ P a R z * (2 * R) := by have := b.lo; gcongr
      _ = _ := by ring
  rw [abs_mul, abs_div, abs_mul, abs_mul, abs_mul, abs_of_pos b.ha, abs_of_nonneg b.iw0, abs_of_pos hQ,
    show |(-4 : ℝ)| = 4 by norm_num]
  have := b.zw; have := b.ha; have := b.iw0; have := b.iQ
  have h3 := (abs_sub _ _).trans (add_le_add h1 h2)
  refine le_trans (mul_le_mul_of_nonneg_left h3 (by positivity)) ?_
  have h0 := (abs_nonneg _).trans h3
  generalize 3 * (1 / s) * (π / 2) + (2 * cc r2 s * (π / 2) + kk r2 s) * (1 / (2 * r1)) = A at h0 ⊢
  calc 4 * |z| * a * iw a R z / Q a R z * A = 4 * a * (|z| * iw a R z) * (1 / Q a R z) * A := by rw [mul_one_div]; ring
    _ ≤ 4 * a * 1 * (1 / s ^ 2) * A := by gcongr
    _ = _ := by ring

theorem Bd.R2_le : |Ring.R2deriv a R z| ≤
    ((2 / r1 * (1 / s) * (cc r2 s * (π / 2) + kk r2 s)) * (1 / r1)
      + (4 * (1 / s) * (1 / s ^ 2) * (4 * (π / 2) + (2 * cc r2 s * (π / 2) + kk r2 s)))) * a := by
  have e : Ring.R2deriv a R z = Ring.Rforce a R z / R - Ring.z2deriv a R z := by
    have := laplace b.ha b.ok; linarith
  rw [e]
  refine (abs_sub _ _).trans ?_
  rw [add_mul]
  refine add_le_add ?_ b.z2_le
  rw [abs_div, abs_of_pos b.R0, div_eq_mul_one_div]
  have h := b.Rf_le
  have hR := b.R0; have := b.lo; have := b.hr
  calc _ ≤ (2 / r1 * (1 / s) * (cc r2 s * (π / 2) + kk r2 s) * a) * (1 / r1) := by
        gcongr
        exact (abs_nonneg _).trans h
    _ = _ := by ring
end

/-! ### Continuity in the radius of the ring -/

theorem cont_κ {R z : ℝ} (hR : 0 < R) (hz : z ≠ 0) : ContinuousOn (fun a => κ a R z) (Ioi 0) := by
  intro a ha
  have ha : 0 < a := ha
  refine ContinuousAt.continuousWithinAt ?_
  unfold κ
  have h1 : ContinuousAt (fun a => mm a R z) a := by
    have := (Ppos ha (ring_ok hR hz)).ne'
    unfold mm P at *
    exact ContinuousAt.div (by fun_prop) (by fun_prop) this
  exact ContinuousAt.comp (g := ellipk) (f := fun a => mm a R z)
    (ellipk_deriv (m_lt ha (ring_ok hR hz)) (m_pos ha (ring_ok hR hz)).ne').continuousAt h1
theorem cont_ε {R z : ℝ} (hR : 0 < R) (hz : z ≠ 0) : ContinuousOn (fun a => ε a R z) (Ioi 0) := by
  intro a ha
  have ha : 0 < a := ha
  refine ContinuousAt.continuousWithinAt ?_
  unfold ε
  have h1 : ContinuousAt (fun a => mm a R z) a := by
    have := (Ppos ha (ring_ok hR hz)).ne'
    unfold mm P at *
    exact ContinuousAt.div (by fun_prop) (by fun_prop) this
  exact ContinuousAt.comp (g := ellipe) (f := fun a => mm a R z)
    (ellipe_deriv (m_lt ha (ring_ok hR hz)) (m_pos ha (ring_ok hR hz)).ne').continuousAt h1
theorem cont_iw {R z : ℝ} (hR : 0 < R) (hz : z ≠ 0) : ContinuousOn (fun a => iw a R z) (Ioi 0) := by
  unfold iw
  refine continuousOn_const.div (by unfold P; fun_prop) fun a ha => ?_
  exact (sqrt_pos.2 (Ppos ha (ring_ok hR hz))).ne'
theorem cont_P {R z : ℝ} : ContinuousOn (fun a => P a R z) (Ioi 0) := by unfold P; fun_prop
theorem cont_Q {R z : ℝ} : ContinuousOn (fun a => Q a R z) (Ioi 0) := by unfold Q; fun_prop

section
variable {R z : ℝ} (hR : 0 < R) (hz : z ≠ 0)
include hR hz
theorem cont_v : ContinuousOn (fun a => Ring.evaluate a R z) (Ioi 0) := by
  have := cont_κ hR hz; have := cont_iw hR hz
  refine ContinuousOn.congr (f := fun a => -4 * a * iw a R z * κ a R z) (by fun_prop) fun a _ => evaluate_eq hR
theorem cont_Rf : ContinuousOn (fun a => Ring.Rforce a R z) (Ioi 0) := by
  have := cont_κ hR hz; have := cont_iw hR hz; have := cont_ε hR hz; have hQ := cont_Q (R := R) (z := z)
  have hq : ∀ a ∈ Ioi (0 : ℝ), Q a R z ≠ 0 := fun a _ => (ring_ok hR hz).2.ne'
  have h1 : ContinuousOn (fun a => (R ^ 2 - a ^ 2 - z ^ 2) / Q a R z) (Ioi 0) := ContinuousOn.div (by fun_prop) hQ hq
  refine ContinuousOn.congr (f := fun a => -2 * a / R * iw a R z * ((R ^ 2 - a ^ 2 - z ^ 2) / Q a R z * ε a R z + κ a R z))
    (by fun_prop) fun a ha => Rforce_eq ha (ring_ok hR hz)
theorem cont_zf : ContinuousOn (fun a => Ring.zforce a R z) (Ioi 0) := by
  have := cont_iw hR hz; have := cont_ε hR hz; have hQ := cont_Q (R := R) (z := z)
  have hq : ∀ a ∈ Ioi (0 : ℝ), Q a R z ≠ 0 := fun a _ => (ring_ok hR hz).2.ne'
  have h1 : ContinuousOn (fun a => -4 * z * a * iw a R z / Q a R z) (Ioi 0) := ContinuousOn.div (by fun_prop) hQ hq
  refine ContinuousOn.congr (f := fun a => -4 * z * a * iw a R z / Q a R z * ε a R z)
    (by fun_prop) fun a ha => zforce_eq ha (ring_ok hR hz)
theorem cont_z2 : ContinuousOn (fun a => Ring.z2deriv a R z) (Ioi 0) := by
  have := cont_κ hR hz; have := cont_iw hR hz; have := cont_ε hR hz; have hQ := cont_Q (R := R) (z := z)
  have hP := cont_P (R := R) (z := z)
  have hq : ∀ a ∈ Ioi (0 : ℝ), Q a R z ≠ 0 := fun a _ => (ring_ok hR hz).2.ne'
  have hp : ∀ a ∈ Ioi (0 : ℝ), P a R z ≠ 0 := fun a ha => (Ppos ha (ring_ok hR hz)).ne'
  have h1 : ContinuousOn (fun a => -4 * a * iw a R z / Q a R z) (Ioi 0) := ContinuousOn.div (by fun_prop) hQ hq
  have h2 : ContinuousOn (fun a => 3 * z ^ 2 / P a R z) (Ioi 0) := ContinuousOn.div (by fun_prop) hP hp
  have h3 : ContinuousOn (fun a => (P a R z + 4 * R * a) / Q a R z) (Ioi 0) := ContinuousOn.div (by fun_prop) hQ hq
  have h4 : ContinuousOn (fun a => ((P a R z + 4 * R * a) / Q a R z * ε a R z - κ a R z) * z ^ 2 / P a R z) (Ioi 0) :=
    ContinuousOn.div (by fun_prop) hP hp
  exact ContinuousOn.congr (h1.mul (((h2.sub continuousOn_const).mul (cont_ε hR hz)).add h4))
    fun a ha => z2deriv_eq ha (ring_ok hR hz)
theorem cont_Rz : ContinuousOn (fun a => Ring.Rzderiv a R z) (Ioi 0) := by
  have := cont_κ hR hz; have := cont_iw hR hz; have := cont_ε hR hz; have hQ := cont_Q (R := R) (z := z)
  have hP := cont_P (R := R) (z := z)
  have hq : ∀ a ∈ Ioi (0 : ℝ), Q a R z ≠ 0 := fun a _ => (ring_ok hR hz).2.ne'
  have hp : ∀ a ∈ Ioi (0 : ℝ), P a R z ≠ 0 := fun a ha => (Ppos ha (ring_ok hR hz)).ne'
  have h1 : ContinuousOn (fun a => -4 * z * a * iw a R z / Q a R z) (Ioi 0) := ContinuousOn.div (by fun_prop) hQ hq
  have h2 : ContinuousOn (fun a => 3 * (R + a) / P a R z) (Ioi 0) := ContinuousOn.div (by fun_prop) hP hp
  have h3 : ContinuousOn (fun a => (P a R z + 4 * R * a) / Q a R z) (Ioi 0) := ContinuousOn.div (by fun_prop) hQ hq
  have h4 : ContinuousOn (fun a => ((P a R z + 4 * R * a) / Q a R z * ε a R z - κ a R z) * (a ^ 2 + z ^ 2 - R ^ 2)
      / (2 * R * P a R z)) (Ioi 0) :=
    ContinuousOn.div (by fun_prop) (by fun_prop) fun a ha => mul_ne_zero (by positivity) (hp a ha)
  exact ContinuousOn.congr (h1.mul ((h2.mul (cont_ε hR hz)).sub h4)) fun a ha => Rzderiv_eq ha (ring_ok hR hz)
theorem cont_R2 : ContinuousOn (fun a => Ring.R2deriv a R z) (Ioi 0) := by
  refine ContinuousOn.congr (((cont_Rf hR hz).div_const R).sub (cont_z2 hR hz)) fun a ha => ?_
  have := laplace (show 0 < a from ha) (ring_ok hR hz)
  simp only [Pi.sub_apply]
  linarith
end

/-! ### Superposition -/

/-- The surface density and what it is required to satisfy: the mass is finite. -/
def Fin (S : ℝ → ℝ) : Prop := IntegrableOn (fun a => a * S a) (Ioi 0)

def sup (S : ℝ → ℝ) (X : ℝ → ℝ → ℝ → ℝ) (R z : ℝ) : ℝ := ∫ a in Ioi (0 : ℝ), S a * X a R z

theorem Fin.meas {S : ℝ → ℝ} (h : Fin S) : AEStronglyMeasurable S (volume.restrict (Ioi 0)) := by
  have h1 : AEStronglyMeasurable (fun a : ℝ => a⁻¹ * (a * S a)) (volume.restrict (Ioi 0)) :=
    (measurable_inv.aestronglyMeasurable).mul h.aestronglyMeasurable
  refine h1.congr ?_
  filter_upwards [ae_restrict_mem measurableSet_Ioi] with a ha
  have : a ≠ 0 := (show (0 : ℝ) < a from ha).ne'
  field_simp

theorem Fin.int {S : ℝ → ℝ} (h : Fin S) {X : ℝ → ℝ} (hc : ContinuousOn X (Ioi 0)) {C : ℝ}
    (hb : ∀ a, 0 < a → |X a| ≤ C * a) : IntegrableOn (fun a => S a * X a) (Ioi 0) := by
  refine Integrable.mono' (g := fun a => C * ‖a * S a‖) (h.norm.const_mul C)
    (h.meas.mul (hc.aestronglyMeasurable measurableSet_Ioi)) ?_
  filter_upwards [ae_restrict_mem measurableSet_Ioi] with a ha
  have ha : 0 < a := ha
  rw [norm_mul, norm_mul, Real.norm_eq_abs, Real.norm_eq_abs, Real.norm_eq_abs, abs_of_pos ha]
  calc |S a| * |X a| ≤ |S a| * (C * a) := mul_le_mul_of_nonneg_left (hb a ha) (abs_nonneg _)
    _ = _ := by ring

theorem Fin.leib {S : ℝ → ℝ} (h : Fin S) {F F' : ℝ → ℝ → ℝ} {x : ℝ} {s : Set ℝ} (hs : s ∈ 𝓝 x)
    (hd : ∀ a, 0 < a → ∀ y ∈ s, HasDerivAt (F a) (F' a y) y) (hc : ∀ y ∈ s, ContinuousOn (fun a => F a y) (Ioi 0))
    (hc' : ContinuousOn (fun a => F' a x) (Ioi 0)) {C C' : ℝ} (hb : ∀ a, 0 < a → |F a x| ≤ C * a)
    (hb' : ∀ a, 0 < a → ∀ y ∈ s, |F' a y| ≤ C' * a) :
    HasDerivAt (fun y => ∫ a in Ioi (0 : ℝ), S a * F a y) (∫ a in Ioi (0 : ℝ), S a * F' a x) x := by
  refine (hasDerivAt_integral_of_dominated_loc_of_deriv_le (μ := volume.restrict (Ioi 0)) (bound := fun a => C' * ‖a * S a‖)
    (F := fun y a => S a * F a y) (F' := fun y a => S a * F' a y) hs ?_ ?_ ?_ ?_ ?_ ?_).2
  · filter_upwards [hs] with y hy
    exact h.meas.mul ((hc y hy).aestronglyMeasurable measurableSet_Ioi)
  · exact h.int (hc x (mem_of_mem_nhds hs)) hb
  · exact h.meas.mul (hc'.aestronglyMeasurable measurableSet_Ioi)
  · filter_upwards [ae_restrict_mem measurableSet_Ioi] with a ha y hy
    have ha : 0 < a := ha
    rw [norm_mul, norm_mul, Real.norm_eq_abs, Real.norm_eq_abs, Real.norm_eq_abs, abs_of_pos ha]
    calc |S a| * |F' a y| ≤ |S a| * (C' * a) := mul_le_mul_of_nonneg_left (hb' a ha y hy) (abs_nonneg _)
      _ = _ := by ring
  · exact h.norm.const_mul C'
  · filter_upwards [ae_restrict_mem measurableSet_Ioi] with a ha y hy
    exact (hd a ha y hy).const_mul (S a)

def nR (R : ℝ) : Set ℝ := Ioo (R / 2) (2 * R)
def nz (z : ℝ) : Set ℝ := {x | |z| / 2 < |x|}
theorem nR_mem {R : ℝ} (hR : 0 < R) : nR R ∈ 𝓝 R := Ioo_mem_nhds (by linarith) (by linarith)
theorem nz_mem {z : ℝ} (hz : z ≠ 0) : nz z ∈ 𝓝 z := by
  have := abs_pos.2 hz
  exact (isOpen_lt continuous_const continuous_abs).mem_nhds (show |z| / 2 < |z| by linarith)
theorem bd {a R z x y : ℝ} (hR : 0 < R) (hz : z ≠ 0) (ha : 0 < a) (hx : x ∈ nR R) (hy : y ∈ nz z) :
    Bd (R / 2) (2 * R) (|z| / 2) a x y := by
  have := abs_pos.2 hz
  exact ⟨by positivity, by positivity, ha, hx.1.le, hx.2.le, le_of_lt hy⟩
theorem bd_R {a R z x : ℝ} (hR : 0 < R) (hz : z ≠ 0) (ha : 0 < a) (hx : x ∈ nR R) :
    Bd (R / 2) (2 * R) (|z| / 2) a x z := bd hR hz ha hx (mem_of_mem_nhds (nz_mem hz))
theorem bd_z {a R z y : ℝ} (hR : 0 < R) (hz : z ≠ 0) (ha : 0 < a) (hy : y ∈ nz z) :
    Bd (R / 2) (2 * R) (|z| / 2) a R y := bd hR hz ha (mem_of_mem_nhds (nR_mem hR)) hy
theorem bd_0 {a R z : ℝ} (hR : 0 < R) (hz : z ≠ 0) (ha : 0 < a) :
    Bd (R / 2) (2 * R) (|z| / 2) a R z := bd_z hR hz ha (mem_of_mem_nhds (nz_mem hz))

section
variable {S : ℝ → ℝ} (h : Fin S) {R z : ℝ} (hR : 0 < R) (hz : z ≠ 0)
include h hR hz
theorem int_v : IntegrableOn (fun a => S a * Ring.evaluate a R z) (Ioi 0) :=
  h.int (cont_v hR hz) fun a ha => (bd_0 hR hz ha).val_le
theorem int_Rf : IntegrableOn (fun a => S a * Ring.Rforce a R z) (Ioi 0) :=
  h.int (cont_Rf hR hz) fun a ha => (bd_0 hR hz ha).Rf_le
theorem int_zf : IntegrableOn (fun a => S a * Ring.zforce a R z) (Ioi 0) :=
  h.int (cont_zf hR hz) fun a ha => (bd_0 hR hz ha).zf_le
theorem int_R2 : IntegrableOn (fun a => S a * Ring.R2deriv a R z) (Ioi 0) :=
  h.int (cont_R2 hR hz) fun a ha => (bd_0 hR hz ha).R2_le
theorem int_z2 : IntegrableOn (fun a => S a * Ring.z2deriv a R z) (Ioi 0) :=
  h.int (cont_z2 hR hz) fun a ha => (bd_0 hR hz ha).z2_le
theorem int_Rz : IntegrableOn (fun a => S a * Ring.Rzderiv a R z) (Ioi 0) :=
  h.int (cont_Rz hR hz) fun a ha => (bd_0 hR hz ha).Rz_le
end

theorem sup_neg (S : ℝ → ℝ) (X : ℝ → ℝ → ℝ → ℝ) (R z : ℝ) :
    ∫ a in Ioi (0 : ℝ), S a * -X a R z = -sup S X R z := by
  unfold sup
  rw [← integral_neg]
  simp only [mul_neg]

section
variable {S : ℝ → ℝ} (h : Fin S) {R z : ℝ} (hR : 0 < R) (hz : z ≠ 0)
include h hR hz
theorem sup_v_R : HasDerivAt (fun x => sup S Ring.evaluate x z) (-sup S Ring.Rforce R z) R := by
  rw [← sup_neg]
  exact h.leib (F := fun a x => Ring.evaluate a x z) (F' := fun a x => -Ring.Rforce a x z) (nR_mem hR)
    (fun a ha y hy => ring_v_R ha (bd_R hR hz ha hy).R0 hz) (fun y hy => cont_v (bd_R hR hz one_pos hy).R0 hz)
    (cont_Rf hR hz).neg (fun a ha => (bd_0 hR hz ha).val_le)
    (fun a ha y hy => (abs_neg _).trans_le (bd_R hR hz ha hy).Rf_le)
theorem sup_v_z : HasDerivAt (fun x => sup S Ring.evaluate R x) (-sup S Ring.zforce R z) z := by
  rw [← sup_neg]
  exact h.leib (F := fun a x => Ring.evaluate a R x) (F' := fun a x => -Ring.zforce a R x) (nz_mem hz)
    (fun a ha y hy => ring_v_z ha hR (bd_z hR hz ha hy).z0) (fun y hy => cont_v hR (bd_z hR hz one_pos hy).z0)
    (cont_zf hR hz).neg (fun a ha => (bd_0 hR hz ha).val_le)
    (fun a ha y hy => (abs_neg _).trans_le (bd_z hR hz ha hy).zf_le)
theorem sup_R_R : HasDerivAt (fun x => sup S Ring.Rforce x z) (-sup S Ring.R2deriv R z) R := by
  rw [← sup_neg]
  exact h.leib (F := fun a x => Ring.Rforce a x z) (F' := fun a x => -Ring.R2deriv a x z) (nR_mem hR)
    (fun a ha y hy => ring_R_R ha (bd_R hR hz ha hy).R0 hz) (fun y hy => cont_Rf (bd_R hR hz one_pos hy).R0 hz)
    (cont_R2 hR hz).neg (fun a ha => (bd_0 hR hz ha).Rf_le)
    (fun a ha y hy => (abs_neg _).trans_le (bd_R hR hz ha hy).R2_le)
theorem sup_R_z : HasDerivAt (fun x => sup S Ring.Rforce R x) (-sup S Ring.Rzderiv R z) z := by
  rw [← sup_neg]
  exact h.leib (F := fun a x => Ring.Rforce a R x) (F' := fun a x => -Ring.Rzderiv a R x) (nz_mem hz)
    (fun a ha y hy => ring_R_z ha hR (bd_z hR hz ha hy).z0) (fun y hy => cont_Rf hR (bd_z hR hz one_pos hy).z0)
    (cont_Rz hR hz).neg (fun a ha => (bd_0 hR hz ha).Rf_le)
    (fun a ha y hy => (abs_neg _).trans_le (bd_z hR hz ha hy).Rz_le)
theorem sup_z_R : HasDerivAt (fun x => sup S Ring.zforce x z) (-sup S Ring.Rzderiv R z) R := by
  rw [← sup_neg]
  exact h.leib (F := fun a x => Ring.zforce a x z) (F' := fun a x => -Ring.Rzderiv a x z) (nR_mem hR)
    (fun a ha y hy => ring_z_R ha (bd_R hR hz ha hy).R0 hz) (fun y hy => cont_zf (bd_R hR hz one_pos hy).R0 hz)
    (cont_Rz hR hz).neg (fun a ha => (bd_0 hR hz ha).zf_le)
    (fun a ha y hy => (abs_neg _).trans_le (bd_R hR hz ha hy).Rz_le)
theorem sup_z_z : HasDerivAt (fun x => sup S Ring.zforce R x) (-sup S Ring.z2deriv R z) z := by
  rw [← sup_neg]
  exact h.leib (F := fun a x => Ring.zforce a R x) (F' := fun a x => -Ring.z2deriv a R x) (nz_mem hz)
    (fun a ha y hy => ring_z_z ha hR (bd_z hR hz ha hy).z0) (fun y hy => cont_zf hR (bd_z hR hz one_pos hy).z0)
    (cont_z2 hR hz).neg (fun a ha => (bd_0 hR hz ha).zf_le)
    (fun a ha y hy => (abs_neg _).trans_le (bd_z hR hz ha hy).z2_le)

theorem sup_laplace : sup S Ring.R2deriv R z - sup S Ring.Rforce R z / R + sup S Ring.z2deriv R z = 0 := by
  have e : sup S Ring.R2deriv R z = sup S Ring.Rforce R z * (1 / R) - sup S Ring.z2deriv R z := by
    unfold sup
    rw [← integral_mul_const, ← integral_sub ((int_Rf h hR hz).mul_const _) (int_z2 h hR hz)]
    refine setIntegral_congr_fun measurableSet_Ioi fun a ha => ?_
    have := laplace (show 0 < a from ha) (ring_ok hR hz)
    linear_combination S a * this
  rw [e]; ring
end

/-- The superposition, as a potential. -/
def supPot (S : ℝ → ℝ) : Pot :=
  Pot.axi (sup S Ring.evaluate) (sup S Ring.Rforce) (sup S Ring.zforce) (sup S Ring.R2deriv) (sup S Ring.z2deriv)
    (sup S Ring.Rzderiv) (fun _ _ => 0)

theorem sup_consistent {S : ℝ → ℝ} (h : Fin S) : Consistent (supPot S) (fun R z _ => 0 < R ∧ z ≠ 0) := by
  refine Consistent.axi (fun R z k => (lt_mem_nhds k.1).mono fun x hx => ⟨hx, k.2⟩)
    (fun R z k => (eventually_ne_nhds k.2).mono fun x hx => ⟨k.1, hx⟩)
    (fun R z k => sup_v_R h k.1 k.2) (fun R z k => sup_v_z h k.1 k.2) (fun R z k => sup_R_R h k.1 k.2)
    (fun R z k => sup_R_z h k.1 k.2) (fun R z k => sup_z_R h k.1 k.2) (fun R z k => sup_z_z h k.1 k.2) ?_
  intro R z k _
  have := sup_laplace h k.1 k.2
  rw [mul_zero, this]

end Verif.AnyDisk
