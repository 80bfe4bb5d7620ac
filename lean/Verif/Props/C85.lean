import Verif.Model.DF.Marginal
import Verif.Lemmas.Evolved
import Mathlib.MeasureTheory.Measure.Haar.NormedSpace
import Mathlib.MeasureTheory.Group.Integral
import Mathlib.MeasureTheory.Integral.IntervalIntegral.FundThmCalculus
import Mathlib.Analysis.SpecialFunctions.Integrals.Basic
import Mathlib.MeasureTheory.Integral.IntegralEqImproper

set_option autoImplicit false

/-!
# C85 Disk distribution functions marginalized over a velocity component
-/

noncomputable section
namespace Verif
open Real MeasureTheory Marginal

namespace C85Spec

/-- Unit vectors in the plane, in rectangular Galactocentric components (the observer is on the `x` axis at
`x = 1`): along the line of sight of longitude `l`, and in the direction of increasing longitude. -/
def eLos (l : ℝ) : Fin 2 → ℝ := ![-cos l, sin l]
/-- See `eLos`. -/
def ePerp (l : ℝ) : Fin 2 → ℝ := ![sin l, cos l]

/-- Radial component, at azimuth `phi`, of a velocity. -/
def radial (phi : ℝ) (v : Fin 2 → ℝ) : ℝ := v 0 * cos phi + v 1 * sin phi
/-- Rotational component, at azimuth `phi`, of a velocity. -/
def rotational (phi : ℝ) (v : Fin 2 → ℝ) : ℝ := -(v 0 * sin phi) + v 1 * cos phi

/-- The density integrated along a line in velocity space, the velocities `p u`, over the part of the line
in `s`. -/
def along (f : ℝ → ℝ → ℝ) (phi : ℝ) (p : ℝ → Fin 2 → ℝ) (s : Set (Fin 2 → ℝ)) : ℝ :=
  ∫ u in {u | p u ∈ s}, f (radial phi (p u)) (rotational phi (p u))

end C85Spec

namespace C85aux
open C85Spec

/-- Linear change of variable in an integral over an interval. -/
theorem affine (k : ℝ → ℝ) {a n c σ e : ℝ} (hn : 0 ≤ n) (hσ : 0 < σ) (ha : a ≠ 0) :
    (∫ x in (c - n)..(c + n), k (x * σ / a + e)) / |a| * σ
      = ∫ u in {u | |(u - e) * a - σ * c| ≤ n * σ}, k u := by
  rw [intervalIntegral.integral_of_le (by linarith), ← integral_Icc_eq_integral_Ioc]
  have hm : MeasurableSet {u : ℝ | |(u - e) * a - σ * c| ≤ n * σ} :=
    measurableSet_le (by fun_prop) measurable_const
  rw [← integral_indicator measurableSet_Icc, ← integral_indicator hm]
  set K : ℝ → ℝ := Set.indicator {u : ℝ | |(u - e) * a - σ * c| ≤ n * σ} k with hK
  have h1 : ∀ x, Set.indicator (Set.Icc (c - n) (c + n)) (fun x => k (x * σ / a + e)) x = K (σ / a * x + e) := by
    intro x
    have hx : x ∈ Set.Icc (c - n) (c + n) ↔ σ / a * x + e ∈ {u : ℝ | |(u - e) * a - σ * c| ≤ n * σ} := by
      have e1 : (σ / a * x + e - e) * a - σ * c = σ * (x - c) := by field_simp; ring
      rw [Set.mem_setOf_eq, e1, abs_mul, abs_of_pos hσ, mul_comm n, mul_le_mul_iff_right₀ hσ, abs_le, Set.mem_Icc]
      constructor <;> rintro ⟨h1, h2⟩ <;> constructor <;> linarith
    have e2 : x * σ / a + e = σ / a * x + e := by ring
    by_cases h : x ∈ Set.Icc (c - n) (c + n)
    · rw [Set.indicator_of_mem h, hK, Set.indicator_of_mem (hx.1 h), e2]
    · rw [Set.indicator_of_notMem h, hK, Set.indicator_of_notMem (fun h' => h (hx.2 h'))]
  rw [integral_congr_ae (Filter.Eventually.of_forall h1)]
  have h2 := Measure.integral_comp_mul_left (fun y => K (y + e)) (σ / a)
  rw [h2, integral_add_right_eq_self, smul_eq_mul, abs_inv, abs_div, abs_of_pos hσ]
  have : |a| ≠ 0 := abs_ne_zero.2 ha
  field_simp

theorem cos_ne_of_small {α : ℝ} (h : |sin α| < √(1 / 2)) : cos α ≠ 0 := by
  intro hc
  have h1 := sin_sq_add_cos_sq α
  rw [hc] at h1
  have h2 : sin α ^ 2 < 1 / 2 := by
    rw [← sq_abs]
    calc |sin α| ^ 2 < √(1 / 2) ^ 2 := pow_lt_pow_left₀ h (abs_nonneg _) two_ne_zero
      _ = 1 / 2 := sq_sqrt (by norm_num)
  nlinarith

theorem sin_ne_of_large {α : ℝ} (h : ¬ |sin α| < √(1 / 2)) : sin α ≠ 0 := by
  intro hs
  rw [hs, abs_zero] at h
  exact h (sqrt_pos.2 (by norm_num))

theorem one_div_tan (α : ℝ) : 1 / tan α = cos α / sin α := by rw [tan_eq_sin_div_cos, one_div_div]

/-- Both branches give the integral of the density along the line `vR = -v cos α + u sin α`,
`vT = v sin α + u cos α`. -/
theorem branches_eq (f : ℝ → ℝ → ℝ) {α v vcirc n cS σS σL : ℝ} (hn : 0 ≤ n) (hS : 0 < σS) (hL : 0 < σL) :
    branches f α (v - vcirc * sin α) vcirc n cS σS σL
      = ∫ u in {u | if |sin α| < √(1 / 2) then |v * sin α + u * cos α - (vcirc + σS * cS)| ≤ n * σS
          else |-(v * cos α) + u * sin α| ≤ n * σL},
        f (-(v * cos α) + u * sin α) (v * sin α + u * cos α) := by
  have hsc := sin_sq_add_cos_sq α
  unfold branches
  by_cases h : |sin α| < √(1 / 2)
  · have hc := cos_ne_of_small h
    simp only [if_pos h]
    have e : ∀ x, small f (cos α) (tan α) (v - vcirc * sin α) vcirc σS x
        = (fun u => f (-(v * cos α) + u * sin α) (v * sin α + u * cos α))
          (x * σS / cos α + (vcirc - v * sin α) / cos α) := by
      intro x
      simp only [small, tan_eq_sin_div_cos]
      congr 1
      · field_simp
        linear_combination v * hsc
      · field_simp; ring
    simp only [e]
    rw [affine (fun u => f (-(v * cos α) + u * sin α) (v * sin α + u * cos α)) hn hS hc]
    congr 2
    ext u
    simp only [Set.mem_setOf_eq]
    have : (u - (vcirc - v * sin α) / cos α) * cos α - σS * cS = v * sin α + u * cos α - (vcirc + σS * cS) := by
      field_simp; ring
    rw [this]
  · have hs := sin_ne_of_large h
    simp only [if_neg h]
    have e : ∀ x, large f (sin α) (1 / tan α) (v - vcirc * sin α) vcirc σL x
        = (fun u => f (-(v * cos α) + u * sin α) (v * sin α + u * cos α)) (x * σL / sin α + v * cos α / sin α) := by
      intro x
      simp only [large, one_div_tan]
      congr 1
      · field_simp; ring
      · field_simp
        linear_combination (-v) * hsc
    simp only [e]
    have := affine (fun u => f (-(v * cos α) + u * sin α) (v * sin α + u * cos α)) (a := sin α) (c := 0)
      (e := v * cos α / sin α) hn hL hs
    simp only [zero_sub, zero_add] at this
    rw [this]
    congr 2
    ext u
    simp only [Set.mem_setOf_eq]
    have : (u - v * cos α / sin α) * sin α - σL * 0 = -(v * cos α) + u * sin α := by field_simp; ring
    rw [this]

theorem radial_los (phi l v u : ℝ) :
    radial phi (v • eLos l + u • ePerp l) = -(v * cos (phi + l)) + u * sin (phi + l) ∧
    rotational phi (v • eLos l + u • ePerp l) = v * sin (phi + l) + u * cos (phi + l) := by
  simp only [radial, rotational, eLos, ePerp, cos_add, sin_add]
  constructor <;> simp <;> ring

end C85aux
open C85Spec C85aux

namespace C85Spec

/-- The velocities over which the integral is taken: within `n` dispersions of the mean in the rotational
velocity or in the radial velocity, depending on the direction. -/
def range (useT : Prop) (phi mT σT σR n : ℝ) : Set (Fin 2 → ℝ) :=
  {w | (useT → |rotational phi w - mT| ≤ n * σT) ∧ (¬ useT → |radial phi w| ≤ n * σR)}

end C85Spec

namespace C85aux

theorem perp_form (f : ℝ → ℝ → ℝ) {phi l v vcirc n cS σS σL : ℝ} (hn : 0 ≤ n) (hS : 0 < σS) (hL : 0 < σL) :
    branches f (phi + l) (v - vcirc * sin (phi + l)) vcirc n cS σS σL
      = along f phi (fun u => v • eLos l + u • ePerp l)
        (range (|sin (phi + l)| < √(1 / 2)) phi (vcirc + σS * cS) σS σL n) := by
  rw [branches_eq f hn hS hL]
  unfold along
  congr 1
  · congr 1
    ext u
    simp only [Set.mem_setOf_eq, C85Spec.range, (radial_los phi l v u).1, (radial_los phi l v u).2]
    by_cases h : |sin (phi + l)| < √(1 / 2) <;> simp only [h, if_true, if_false] <;> simp
  · funext u
    rw [(radial_los phi l v u).1, (radial_los phi l v u).2]

theorem los_form (f : ℝ → ℝ → ℝ) {phi l v vcirc n cS σS σL : ℝ} (hn : 0 ≤ n) (hS : 0 < σS) (hL : 0 < σL) :
    branches f (π / 2 + phi + l) (v - vcirc * cos (phi + l)) vcirc n cS σS σL
      = along f phi (fun u => u • eLos l + v • ePerp l)
        (range (|cos (phi + l)| < √(1 / 2)) phi (vcirc + σS * cS) σS σL n) := by
  have a1 : sin (π / 2 + phi + l) = cos (phi + l) := by rw [add_assoc, add_comm, sin_add_pi_div_two]
  have a2 : cos (π / 2 + phi + l) = -sin (phi + l) := by rw [add_assoc, add_comm, cos_add_pi_div_two]
  rw [← a1, branches_eq f hn hS hL, a1, a2]
  unfold along
  have h := Measure.integral_comp_mul_left
    (Set.indicator {u | if |cos (phi + l)| < √(1 / 2) then |v * cos (phi + l) + u * -sin (phi + l) - (vcirc + σS * cS)| ≤ n * σS
          else |-(v * -sin (phi + l)) + u * cos (phi + l)| ≤ n * σL}
      fun u => f (-(v * -sin (phi + l)) + u * cos (phi + l)) (v * cos (phi + l) + u * -sin (phi + l))) (-1)
  have m1 : MeasurableSet {u | if |cos (phi + l)| < √(1 / 2) then |v * cos (phi + l) + u * -sin (phi + l) - (vcirc + σS * cS)| ≤ n * σS
          else |-(v * -sin (phi + l)) + u * cos (phi + l)| ≤ n * σL} := by
    by_cases h : |cos (phi + l)| < √(1 / 2) <;> simp only [h, if_true, if_false]
    · exact measurableSet_le (by fun_prop) measurable_const
    · exact measurableSet_le (by fun_prop) measurable_const
  have m2 : MeasurableSet {u : ℝ | (fun u : ℝ => u • eLos l + v • ePerp l) u ∈
      range (|cos (phi + l)| < √(1 / 2)) phi (vcirc + σS * cS) σS σL n} := by
    simp only [C85Spec.range, Set.mem_setOf_eq, (radial_los phi l _ v).1, (radial_los phi l _ v).2]
    by_cases h : |cos (phi + l)| < √(1 / 2) <;> simp only [h, true_implies, not_true_eq_false, false_implies,
      and_true, not_false_eq_true, true_and]
    · exact measurableSet_le (by fun_prop) measurable_const
    · exact measurableSet_le (by fun_prop) measurable_const
  rw [← integral_indicator m1, ← integral_indicator m2]
  rw [show |(-1:ℝ)⁻¹| = 1 by norm_num, one_smul] at h
  rw [← h]
  refine integral_congr_ae (Filter.Eventually.of_forall fun u => ?_)
  beta_reduce
  have hr : radial phi (u • eLos l + v • ePerp l) = v * sin (phi + l) + -(u * cos (phi + l)) := by
    rw [(radial_los phi l u v).1]; ring
  have ht : rotational phi (u • eLos l + v • ePerp l) = v * cos (phi + l) + u * sin (phi + l) := by
    rw [(radial_los phi l u v).2]; ring
  have ev : f (-(v * -sin (phi + l)) + -1 * u * cos (phi + l)) (v * cos (phi + l) + -1 * u * -sin (phi + l))
      = f (radial phi (u • eLos l + v • ePerp l)) (rotational phi (u • eLos l + v • ePerp l)) := by
    rw [hr, ht]; congr 1 <;> ring
  have em : (-1 * u ∈ {u | if |cos (phi + l)| < √(1 / 2)
        then |v * cos (phi + l) + u * -sin (phi + l) - (vcirc + σS * cS)| ≤ n * σS
        else |-(v * -sin (phi + l)) + u * cos (phi + l)| ≤ n * σL}) ↔
      u ∈ {u : ℝ | u • eLos l + v • ePerp l ∈
        range (|cos (phi + l)| < √(1 / 2)) phi (vcirc + σS * cS) σS σL n} := by
    simp only [Set.mem_setOf_eq, C85Spec.range, hr, ht]
    by_cases hc : |cos (phi + l)| < √(1 / 2)
    · simp only [if_pos hc, true_implies, not_true_eq_false, false_implies, and_true, hc]
      rw [show v * cos (phi + l) + -1 * u * -sin (phi + l) = v * cos (phi + l) + u * sin (phi + l) by ring,
        if_true]
    · simp only [if_neg hc, true_implies, not_false_eq_true, false_implies, true_and, hc]
      rw [show -(v * -sin (phi + l)) + -1 * u * cos (phi + l) = v * sin (phi + l) + -(u * cos (phi + l)) by ring,
        if_false]
  by_cases hm : u ∈ {u : ℝ | u • eLos l + v • ePerp l ∈
        range (|cos (phi + l)| < √(1 / 2)) phi (vcirc + σS * cS) σS σL n}
  · rw [Set.indicator_of_mem (em.2 hm), Set.indicator_of_mem hm, ev]
  · rw [Set.indicator_of_notMem (fun h => hm (em.1 h)), Set.indicator_of_notMem hm]

theorem measurable_range (useT : Prop) (phi mT σT σR n : ℝ) (p q : Fin 2 → ℝ) :
    MeasurableSet {u : ℝ | p + u • q ∈ range useT phi mT σT σR n} := by
  have h1 : MeasurableSet {u : ℝ | |rotational phi (p + u • q) - mT| ≤ n * σT} :=
    measurableSet_le (by unfold rotational; simp; fun_prop) measurable_const
  have h2 : MeasurableSet {u : ℝ | |radial phi (p + u • q)| ≤ n * σR} :=
    measurableSet_le (by unfold radial; simp; fun_prop) measurable_const
  by_cases h : useT
  · simpa [C85Spec.range, h] using h1
  · simpa [C85Spec.range, h] using h2

theorem range_cover (useT : Prop) (phi mT : ℝ) {σT σR : ℝ} (hT : 0 < σT) (hR : 0 < σR) (p q : Fin 2 → ℝ) :
    AECover volume Filter.atTop fun n : ℝ => {u : ℝ | p + u • q ∈ range useT phi mT σT σR n} where
  ae_eventually_mem := by
    refine Filter.Eventually.of_forall fun u => ?_
    filter_upwards [Filter.eventually_ge_atTop (|rotational phi (p + u • q) - mT| / σT),
      Filter.eventually_ge_atTop (|radial phi (p + u • q)| / σR)] with n h1 h2
    exact ⟨fun _ => (div_le_iff₀ hT).1 h1, fun _ => (div_le_iff₀ hR).1 h2⟩
  measurableSet n := measurable_range useT phi mT σT σR n p q

theorem along_tendsto (f : ℝ → ℝ → ℝ) (useT : Prop) (phi mT : ℝ) {σT σR : ℝ} (hT : 0 < σT) (hR : 0 < σR)
    (p q : Fin 2 → ℝ)
    (hi : Integrable fun u : ℝ => f (radial phi (p + u • q)) (rotational phi (p + u • q))) :
    Filter.Tendsto (fun n => along f phi (fun u => p + u • q) (range useT phi mT σT σR n)) Filter.atTop
      (nhds (along f phi (fun u => p + u • q) Set.univ)) := by
  have := (range_cover useT phi mT hT hR p q).integral_tendsto_of_countably_generated hi
  simpa [along] using this

end C85aux

/-! ### `diskdf` -/

/-- `diskdf(o, marginalizeVperp=True)` is the density integrated over the velocities with the given
line-of-sight component that are within `nsigma` dispersions of the expected rotational velocity `vc - va`
(of zero radial velocity, in directions where the line of sight is mostly along the rotation); with
growing `nsigma` it tends to the full marginal density. -/
theorem C85_disk_vperp (ty : Disk.DfType) (p : Disk.Profile) {β : ℝ} (hβ : -1 < β) (corr : ℝ → ℝ × ℝ)
    {R : ℝ} (hσ : 0 < p.sigma2 R) (phi l vlos : ℝ) :
    (∀ {n : ℝ}, 0 ≤ n → diskVperp ty p β corr R phi l vlos n
      = along (Disk.call ty p β corr R) phi (fun u => vlos • eLos l + u • ePerp l)
        (range (|sin (phi + l)| < √(1 / 2)) phi (R ^ β - Disk.vaRange p β R)
          (√(p.sigma2 R * (1 + β) / 2)) (√(p.sigma2 R)) n)) ∧
    ((Integrable fun u : ℝ => Disk.call ty p β corr R (radial phi (vlos • eLos l + u • ePerp l))
        (rotational phi (vlos • eLos l + u • ePerp l))) →
      Filter.Tendsto (diskVperp ty p β corr R phi l vlos) Filter.atTop
        (nhds (along (Disk.call ty p β corr R) phi (fun u => vlos • eLos l + u • ePerp l) Set.univ))) := by
  have hγ : 0 < Disk.gamma β := sqrt_pos.2 (div_pos two_pos (by linarith))
  have hs : 0 < √(p.sigma2 R) := sqrt_pos.2 hσ
  have e1 : √(p.sigma2 R * (1 + β) / 2) = √(p.sigma2 R) / Disk.gamma β := by
    rw [Disk.gamma, ← sqrt_div' _ (div_nonneg zero_le_two (by linarith)), div_div_eq_mul_div]
  have e2 : R ^ β + √(p.sigma2 R) / Disk.gamma β * (-Disk.gamma β * Disk.vaRange p β R / √(p.sigma2 R))
      = R ^ β - Disk.vaRange p β R := by field_simp; ring
  have main : ∀ {n : ℝ}, 0 ≤ n → diskVperp ty p β corr R phi l vlos n
      = along (Disk.call ty p β corr R) phi (fun u => vlos • eLos l + u • ePerp l)
        (range (|sin (phi + l)| < √(1 / 2)) phi (R ^ β - Disk.vaRange p β R)
          (√(p.sigma2 R * (1 + β) / 2)) (√(p.sigma2 R)) n) := by
    intro n hn
    simp only [diskVperp]
    rw [perp_form _ hn (div_pos hs hγ) hs, e2, e1]
  refine ⟨main, fun hi => ?_⟩
  refine (along_tendsto _ (|sin (phi + l)| < √(1 / 2)) phi (R ^ β - Disk.vaRange p β R)
    (σT := √(p.sigma2 R * (1 + β) / 2)) (by rw [e1]; exact div_pos hs hγ) hs _ _ hi).congr' ?_
  filter_upwards [Filter.eventually_ge_atTop (0:ℝ)] with n hn
  exact (main hn).symm

/-- `diskdf(o, marginalizeVlos=True)`: the same for a given velocity in the direction of the longitude. -/
theorem C85_disk_vlos (ty : Disk.DfType) (p : Disk.Profile) {β : ℝ} (hβ : -1 < β) (corr : ℝ → ℝ × ℝ)
    {R : ℝ} (hσ : 0 < p.sigma2 R) (phi l vll : ℝ) :
    (∀ {n : ℝ}, 0 ≤ n → diskVlos ty p β corr R phi l vll n
      = along (Disk.call ty p β corr R) phi (fun u => u • eLos l + vll • ePerp l)
        (range (|cos (phi + l)| < √(1 / 2)) phi (R ^ β - Disk.vaRange p β R)
          (√(p.sigma2 R * (1 + β) / 2)) (√(p.sigma2 R)) n)) ∧
    ((Integrable fun u : ℝ => Disk.call ty p β corr R (radial phi (u • eLos l + vll • ePerp l))
        (rotational phi (u • eLos l + vll • ePerp l))) →
      Filter.Tendsto (diskVlos ty p β corr R phi l vll) Filter.atTop
        (nhds (along (Disk.call ty p β corr R) phi (fun u => u • eLos l + vll • ePerp l) Set.univ))) := by
  have hγ : 0 < Disk.gamma β := sqrt_pos.2 (div_pos two_pos (by linarith))
  have hs : 0 < √(p.sigma2 R) := sqrt_pos.2 hσ
  have e1 : √(p.sigma2 R * (1 + β) / 2) = √(p.sigma2 R) / Disk.gamma β := by
    rw [Disk.gamma, ← sqrt_div' _ (div_nonneg zero_le_two (by linarith)), div_div_eq_mul_div]
  have e2 : R ^ β + √(p.sigma2 R) / Disk.gamma β * (-Disk.gamma β * Disk.vaRange p β R / √(p.sigma2 R))
      = R ^ β - Disk.vaRange p β R := by field_simp; ring
  have main : ∀ {n : ℝ}, 0 ≤ n → diskVlos ty p β corr R phi l vll n
      = along (Disk.call ty p β corr R) phi (fun u => u • eLos l + vll • ePerp l)
        (range (|cos (phi + l)| < √(1 / 2)) phi (R ^ β - Disk.vaRange p β R)
          (√(p.sigma2 R * (1 + β) / 2)) (√(p.sigma2 R)) n) := by
    intro n hn
    simp only [diskVlos]
    rw [los_form _ hn (div_pos hs hγ) hs, e2, e1]
  refine ⟨main, fun hi => ?_⟩
  have hc : ∀ u : ℝ, u • eLos l + vll • ePerp l = vll • ePerp l + u • eLos l := fun u => add_comm _ _
  simp only [hc] at hi main ⊢
  refine (along_tendsto _ (|cos (phi + l)| < √(1 / 2)) phi (R ^ β - Disk.vaRange p β R)
    (σT := √(p.sigma2 R * (1 + β) / 2)) (by rw [e1]; exact div_pos hs hγ) hs _ _ hi).congr' ?_
  filter_upwards [Filter.eventually_ge_atTop (0:ℝ)] with n hn
  exact (main hn).symm

/-! ### `evolveddiskdf` -/

/-- `evolveddiskdf(o, t, marginalizeVperp=True)` is the density at time 0 integrated over the velocities
with the given line-of-sight component and within `nsigma` dispersions of the circular velocity (of zero
radial velocity). Missing: the time `t`, see `C85_evolved_time_fails`. -/
theorem C85_evolved_vperp_partial (S : Evolved.Setup) (L : Local) {R : ℝ} (hR : 0 < L.sigmaR2)
    (hT : 0 < L.sigmaT2) (phi l vlos : ℝ) {n : ℝ} (hn : 0 ≤ n) (t : ℝ) :
    evolvedVperp S L R phi l vlos n t
      = along (fun vR vT => (Evolved.callOne S ![R, vR, vT, phi] 0).getD 0) phi
          (fun u => vlos • eLos l + u • ePerp l)
        (range (|sin (phi + l)| < √(1 / 2)) phi L.vcirc (√L.sigmaT2) (√L.sigmaR2) n) := by
  unfold evolvedVperp
  rw [perp_form _ hn (sqrt_pos.2 hT) (sqrt_pos.2 hR), mul_zero, add_zero]
  rfl

/-- The same for `marginalizeVlos=True`; the range of the rotational velocities is centred on the mean
rotational velocity of the initial density. -/
theorem C85_evolved_vlos_partial (S : Evolved.Setup) (L : Local) {R : ℝ} (hR : 0 < L.sigmaR2)
    (hT : 0 < L.sigmaT2) (phi l vll : ℝ) {n : ℝ} (hn : 0 ≤ n) (t : ℝ) :
    evolvedVlos S L R phi l vll n t
      = along (fun vR vT => (Evolved.callOne S ![R, vR, vT, phi] 0).getD 0) phi
          (fun u => u • eLos l + vll • ePerp l)
        (range (|cos (phi + l)| < √(1 / 2)) phi L.meanvT (√L.sigmaT2) (√L.sigmaR2) n) := by
  unfold evolvedVlos
  have hs := sqrt_pos.2 hT
  have e : L.vcirc + √L.sigmaT2 * (-(L.vcirc - L.meanvT) / √L.sigmaT2) = L.meanvT := by field_simp; ring
  simp only
  rw [los_form _ hn hs (sqrt_pos.2 hR), e]
  rfl

namespace C85aux
open Evolved C83Spec

/-- Free motion of a star on a radial orbit. -/
def integFree (w : Phase) (s t : ℝ) : Phase := ![w 0 + w 1 * (t - s), w 1, 0, w 3]

/-- No force. -/
def noForce : Force := ⟨fun _ _ _ _ _ => 0, fun _ _ _ _ _ => 0, fun _ _ _ _ _ => 0⟩

theorem integFree_exact {R vR phi s : ℝ} (hv : |vR| ≤ 1 / 2) (hR : 7 / 10 < R) (hs : s ∈ Set.Icc (-1 : ℝ) 0) :
    Exact noForce integFree (Set.Ioo (-6 / 5) (1 / 5)) ![R, vR, 0, phi] s := by
  refine ⟨by funext i; fin_cases i <;> simp [integFree], fun t ht => ⟨?_, ?_⟩⟩
  · have h1 : |t - s| ≤ 6 / 5 := abs_le.2 ⟨by linarith [ht.1, hs.2], by linarith [ht.2, hs.1]⟩
    have h2 : |vR * (t - s)| ≤ 1 / 2 * (6 / 5) := by
      rw [abs_mul]; exact mul_le_mul hv h1 (abs_nonneg _) (by norm_num)
    have := (abs_le.1 h2).1
    simp [integFree]
    linarith
  · rw [hasDerivAt_pi]
    intro i
    have h : HasDerivAt (fun t : ℝ => vR * (t - s)) vR t :=
      (((hasDerivAt_id t).sub_const s).const_mul vR).congr_deriv (by simp)
    fin_cases i <;> simp [integFree, toY, EOM.planar, noForce]
    · exact h
    · exact hasDerivAt_const _ _
    · exact hasDerivAt_const _ _
    · exact hasDerivAt_const _ _

theorem tangent_sin : sin (π / 4 + π / 4) = 1 := by rw [show π / 4 + π / 4 = π / 2 by ring, sin_pi_div_two]
theorem tangent_cos : cos (π / 4 + π / 4) = 0 := by rw [show π / 4 + π / 4 = π / 2 by ring, cos_pi_div_two]

theorem not_tangent : ¬ |sin (π / 4 + π / 4)| < √(1 / 2) := by
  rw [tangent_sin, abs_one, not_lt]
  exact sqrt_le_one.2 (by norm_num)

/-- At a tangent point, the velocities without line-of-sight component are radial. -/
theorem along_tangent (f : ℝ → ℝ → ℝ) (mT σT : ℝ) :
    along f (π / 4) (fun u => (0:ℝ) • eLos (π / 4) + u • ePerp (π / 4))
      (range (|sin (π / 4 + π / 4)| < √(1 / 2)) (π / 4) mT σT (1 / 2) 1)
      = ∫ u in (-1 / 2 : ℝ)..(1 / 2), f u 0 := by
  rw [intervalIntegral.integral_of_le (by norm_num), ← integral_Icc_eq_integral_Ioc]
  unfold along
  have hr : ∀ u : ℝ, radial (π / 4) ((0:ℝ) • eLos (π / 4) + u • ePerp (π / 4)) = u := by
    intro u; rw [(radial_los _ _ 0 u).1, tangent_sin]; ring
  have ht : ∀ u : ℝ, rotational (π / 4) ((0:ℝ) • eLos (π / 4) + u • ePerp (π / 4)) = 0 := by
    intro u; rw [(radial_los _ _ 0 u).2, tangent_cos]; ring
  simp only [hr, ht]
  congr 2
  ext u
  simp only [C85Spec.range, Set.mem_setOf_eq, hr, not_tangent, false_implies, not_false_eq_true, true_implies,
    true_and, abs_le, Set.mem_Icc]
  constructor <;> rintro ⟨a, b⟩ <;> constructor <;> linarith

end C85aux
open Evolved C83Spec

/-- The time passed to `evolveddiskdf(o, t, marginalizeVperp=True)` has no effect. Without forces, for the
initial density `R^2` at `t = -1`, asked for the marginal density at `t = -1` at the tangent point of the
line of sight of longitude 45 degrees, the value at `t = 0` is returned. -/
theorem C85_evolved_time_fails :
    ∃ (S : Setup) (L : Local), S.tInit = -1 ∧
      (∀ vR, |vR| ≤ 1 / 2 → ∀ s ∈ Set.Icc (-1 : ℝ) 0,
        Exact noForce S.integ (Set.Ioo (-6 / 5) (1 / 5)) ![√(1 / 2), vR, 0, π / 4] s) ∧
      evolvedVperp S L (√(1 / 2)) (π / 4) (π / 4) 0 1 (-1) = 1 / 2 + 1 / 12 ∧
      along (fun vR vT => (callOne S ![√(1 / 2), vR, vT, π / 4] (-1)).getD 0) (π / 4)
          (fun u => (0:ℝ) • eLos (π / 4) + u • ePerp (π / 4))
          (range (|sin (π / 4 + π / 4)| < √(1 / 2)) (π / 4) L.vcirc (√L.sigmaT2) (√L.sigmaR2) 1) = 1 / 2 := by
  have h4 : √(1 / 4 : ℝ) = 1 / 2 := by
    rw [show (1 / 4 : ℝ) = (1 / 2) ^ 2 by norm_num, sqrt_sq (by norm_num)]
  have hh : √(1 / 2 : ℝ) ^ 2 = 1 / 2 := sq_sqrt (by norm_num)
  have h7 : 7 / 10 < √(1 / 2 : ℝ) := by rw [lt_sqrt (by norm_num)]; norm_num
  refine ⟨⟨fun R _ _ => some (R ^ 2), -1, integFree⟩, ⟨0, 1 / 4, 1 / 4, 0⟩, rfl,
    fun vR hv s hs => integFree_exact hv h7 hs, ?_, ?_⟩
  · rw [C85_evolved_vperp_partial _ _ (by norm_num) (by norm_num) _ _ _ zero_le_one]
    simp only [h4]
    rw [along_tangent]
    have e : ∀ u ∈ Set.uIcc (-1 / 2 : ℝ) (1 / 2),
        (callOne ⟨fun R _ _ => some (R ^ 2), -1, integFree⟩ ![√(1 / 2), u, 0, π / 4] 0).getD 0
          = 1 / 2 - 2 * √(1 / 2) * u + u ^ 2 := by
      intro u hu
      rw [Set.uIcc_of_le (by norm_num)] at hu
      have e1 : (-1 : ℝ) ≠ 0 := by norm_num
      have e2 : integFree ![√(1 / 2), u, 0, π / 4] 0 (-1) 0 = √(1 / 2) - u := by
        rw [integFree]
        generalize √(1 / 2 : ℝ) = q
        simp; ring
      have hp : ¬ √(1 / 2) - u ≤ 0 := by rw [not_le]; linarith [hu.2]
      simp only [callOne, if_neg e1, e2, if_neg hp, Setup.init, Option.getD_some]
      linear_combination hh
    rw [intervalIntegral.integral_congr e]
    have : ∀ x : ℝ, HasDerivAt (fun u => 1 / 2 * u - √(1 / 2) * u ^ 2 + u ^ 3 / 3)
        (1 / 2 - 2 * √(1 / 2) * x + x ^ 2) x := by
      intro x
      refine ((((hasDerivAt_id x).const_mul (1 / 2)).sub ((hasDerivAt_pow 2 x).const_mul _)).add
        ((hasDerivAt_pow 3 x).div_const 3)).congr_deriv ?_
      simp; ring
    rw [intervalIntegral.integral_eq_sub_of_hasDerivAt (fun x _ => this x)
      (Continuous.intervalIntegrable (by fun_prop) _ _)]
    ring
  · simp only [h4]
    rw [along_tangent]
    have e : ∀ u : ℝ, (callOne ⟨fun R _ _ => some (R ^ 2), -1, integFree⟩ ![√(1 / 2), u, 0, π / 4] (-1)).getD 0
        = 1 / 2 := by
      intro u
      simp only [callOne, if_true, Setup.init]
      simp only [Option.getD_some]
      simpa using hh
    simp only [e]
    simp
    norm_num

/-! ### Instances -/

/-- The specification's directions: the star at distance `d` and longitude `l` of the observer. -/
example (d l : ℝ) : (![1, 0] : Fin 2 → ℝ) + d • eLos l = ![1 - d * cos l, d * sin l] := by
  funext i; fin_cases i <;> simp [eLos]; ring

/-- The Dehnen distribution function of an exponential disk with a flat rotation curve, at the Sun's radius,
towards the anticentre. -/
example : 0 < (Disk.expProfile (1 / 3) 1 (1 / 5)).sigma2 1 ∧ (-1 : ℝ) < 0 ∧ |sin (0 + π)| < √(1 / 2) := by
  refine ⟨?_, by norm_num, ?_⟩
  · simp [Disk.expProfile]
  · simp

example (S : Setup) (t : ℝ) :
    evolvedVlos S ⟨1, 1 / 25, 1 / 50, 9 / 10⟩ 1 0 0 0 3 t
      = along (fun vR vT => (callOne S ![1, vR, vT, 0] 0).getD 0) 0 (fun u => u • eLos 0 + (0:ℝ) • ePerp 0)
        (range (|cos (0 + 0)| < √(1 / 2)) 0 (9 / 10) (√(1 / 50)) (√(1 / 25)) 3) :=
  C85_evolved_vlos_partial S _ (by norm_num) (by norm_num) 0 0 0 (by norm_num) t

end Verif
