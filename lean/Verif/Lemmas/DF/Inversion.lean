import Verif.Util.Abel
import Mathlib.Analysis.Calculus.MeanValue
import Mathlib.MeasureTheory.Integral.IntegralEqImproper
import Mathlib.Analysis.SpecialFunctions.Pow.Deriv
import Mathlib.Analysis.SpecialFunctions.Integrability.Basic

set_option autoImplicit false

/-!
# Integrals over radii in the inversion formulas of spherical distribution functions
-/

noncomputable section
open Real MeasureTheory Set Filter Topology

namespace Verif
namespace Inv

/-- A potential that increases strictly from its value at the centre to zero at infinity; `F` is
its derivative. -/
structure Halo (Φ F : ℝ → ℝ) : Prop where
  deriv : ∀ r, 0 < r → HasDerivAt Φ (F r) r
  cont : ContinuousOn F (Ioi 0)
  pos : ∀ r, 0 < r → 0 < F r
  lim : Tendsto Φ atTop (𝓝 0)

namespace Halo
variable {Φ F : ℝ → ℝ} (h : Halo Φ F)
include h

theorem contΦ : ContinuousOn Φ (Ioi 0) := fun r hr => (h.deriv r hr).continuousAt.continuousWithinAt

theorem mono : StrictMonoOn Φ (Ioi 0) := by
  refine strictMonoOn_of_deriv_pos (convex_Ioi 0) h.contΦ ?_
  intro r hr
  rw [interior_Ioi] at hr
  rw [(h.deriv r hr).deriv]
  exact h.pos r hr

theorem neg {r : ℝ} (hr : 0 < r) : Φ r < 0 := by
  have h1 : Φ r < Φ (r + 1) := h.mono hr (show 0 < r + 1 by linarith) (by linarith)
  refine lt_of_lt_of_le h1 (ge_of_tendsto h.lim ?_)
  filter_upwards [eventually_gt_atTop (r + 1)] with x hx
  exact (h.mono (show 0 < r + 1 by linarith) (show 0 < x by linarith) hx).le

/-- Every energy between the potential at a radius and zero is attained further out. -/
theorem exists_radius {r₀ E : ℝ} (hr : 0 < r₀) (h1 : Φ r₀ < E) (h2 : E < 0) : ∃ s, r₀ < s ∧ Φ s = E := by
  obtain ⟨x, hx, hxE⟩ := ((h.lim.eventually (lt_mem_nhds h2)).and (eventually_gt_atTop r₀)).exists
  obtain ⟨s, hs, he⟩ := intermediate_value_Ioo hxE.le
    (h.contΦ.mono fun y hy => lt_of_lt_of_le hr hy.1) ⟨h1, hx⟩
  exact ⟨s, hs.1, he⟩

theorem rphi_spec {rphi : ℝ → ℝ} (hi : ∀ r, 0 < r → rphi (Φ r) = r) {r₀ : ℝ} (hr : 0 < r₀) :
    ∀ E ∈ Ioo (Φ r₀) 0, r₀ ≤ rphi E ∧ ∀ r, r₀ < r → (E < Φ r ↔ rphi E < r) := by
  rintro E ⟨h1, h2⟩
  obtain ⟨s, hs, rfl⟩ := h.exists_radius hr h1 h2
  rw [hi s (hr.trans hs)]
  exact ⟨hs.le, fun r hr' => h.mono.lt_iff_lt (hr.trans hs) (hr.trans hr')⟩

/-- The integrand of the inversion is integrable although it diverges at its lower end. -/
theorem section_integrable {g : ℝ → ℝ} {s q : ℝ} (hs : 0 < s) (hq : 0 < q) (hq1 : q ≤ 1)
    (hgc : ContinuousOn g (Ioi 0)) (hg : IntegrableOn g (Ioi s)) :
    IntegrableOn (fun r => g r * (Φ r - Φ s) ^ (q - 1)) (Ioi s) := by
  have h2s : s < 2 * s := by linarith
  have hsub : Icc s (2 * s) ⊆ Ioi 0 := fun x hx => lt_of_lt_of_le hs hx.1
  have hpos : ∀ r, s < r → 0 < Φ r - Φ s := fun r hr => sub_pos.2 (h.mono hs (hs.trans hr) hr)
  have hcont : ContinuousOn (fun r => (Φ r - Φ s) ^ (q - 1)) (Ioi s) := by
    refine ContinuousOn.rpow_const ((h.contΦ.mono (Ioi_subset_Ioi hs.le)).sub continuousOn_const) ?_
    intro r hr
    exact Or.inl (hpos r hr).ne'
  obtain ⟨c, hc, hcmin⟩ := isCompact_Icc.exists_isMinOn (nonempty_Icc.2 h2s.le) (h.cont.mono hsub)
  obtain ⟨M, hM⟩ := isCompact_Icc.exists_bound_of_continuousOn (hgc.mono hsub)
  have hFc := h.pos c (hsub hc)
  rw [← Ioc_union_Ioi_eq_Ioi h2s.le]
  refine IntegrableOn.union ?_ ?_
  · have hb : IntegrableOn (fun r => M * (F c ^ (q - 1) * (r - s) ^ (q - 1))) (Ioc s (2 * s)) := by
      have := (intervalIntegral.intervalIntegrable_rpow' (a := 0) (b := s) (r := q - 1) (by linarith)).comp_sub_right s
      rw [zero_add, ← two_mul] at this
      exact (((intervalIntegrable_iff_integrableOn_Ioc_of_le h2s.le).1 this).const_mul _).const_mul _
    refine Integrable.mono' hb ?_ ?_
    · exact ((hgc.mono (fun x hx => hs.trans hx.1)).mul (hcont.mono fun x hx => hx.1)).aestronglyMeasurable
        measurableSet_Ioc
    · refine (ae_restrict_iff' measurableSet_Ioc).2 (Eventually.of_forall fun r hr => ?_)
      have hd : F c * (r - s) ≤ Φ r - Φ s := by
        refine (convex_Icc s (2 * s)).mul_sub_le_image_sub_of_le_deriv (h.contΦ.mono hsub) ?_ ?_ s ⟨le_rfl, h2s.le⟩ r
          ⟨hr.1.le, hr.2⟩ hr.1.le
        · intro x hx
          rw [interior_Icc] at hx
          exact (h.deriv x (hs.trans hx.1)).differentiableAt.differentiableWithinAt
        · intro x hx
          rw [interior_Icc] at hx
          rw [(h.deriv x (hs.trans hx.1)).deriv]
          exact hcmin ⟨hx.1.le, hx.2.le⟩
      have h0 : 0 < F c * (r - s) := mul_pos hFc (sub_pos.2 hr.1)
      have h1 : (Φ r - Φ s) ^ (q - 1) ≤ F c ^ (q - 1) * (r - s) ^ (q - 1) := by
        rw [← mul_rpow hFc.le (sub_pos.2 hr.1).le]
        exact rpow_le_rpow_of_nonpos h0 hd (by linarith)
      rw [norm_mul, norm_of_nonneg (rpow_nonneg (hpos r hr.1).le _)]
      exact mul_le_mul (hM r ⟨hr.1.le, hr.2⟩) h1 (rpow_nonneg (hpos r hr.1).le _)
        ((norm_nonneg _).trans (hM r ⟨hr.1.le, hr.2⟩))
  · refine Integrable.mul_bdd (c := (Φ (2 * s) - Φ s) ^ (q - 1)) (hg.mono_set (Ioi_subset_Ioi h2s.le)) ?_ ?_
    · exact (hcont.mono (Ioi_subset_Ioi h2s.le)).aestronglyMeasurable measurableSet_Ioi
    · refine (ae_restrict_iff' measurableSet_Ioi).2 (Eventually.of_forall fun r hr => ?_)
      have h1 := h.mono (show 0 < 2 * s by linarith) (show 0 < r from lt_trans (by linarith) hr) hr
      rw [norm_of_nonneg (rpow_nonneg (hpos r (h2s.trans hr)).le _)]
      exact rpow_le_rpow_of_nonpos (hpos _ h2s) (by linarith) (by linarith)

end Halo

/-- The inner part of the integral, in the variable that removes the divergence. -/
theorem inner_subst {q s : ℝ} (hq : 0 < q) (hs : 0 < s) (G : ℝ → ℝ) :
    ∫ t in (0 : ℝ)..s ^ q, 1 / q * t ^ (1 / q - 1) * G (t ^ (1 / q) + s) = ∫ r in Ioc s (2 * s), G r := by
  have himg : (fun t : ℝ => t ^ (1 / q) + s) '' Ioo 0 (s ^ q) = Ioo s (2 * s) := by
    ext y
    simp only [mem_image, mem_Ioo]
    constructor
    · rintro ⟨t, ⟨h0, h1⟩, rfl⟩
      have h2 := rpow_pos_of_pos h0 (1 / q)
      have h3 : t ^ (1 / q) < s := by
        have := rpow_lt_rpow h0.le h1 (show 0 < 1 / q by positivity)
        rwa [← rpow_mul hs.le, mul_one_div_cancel hq.ne', rpow_one] at this
      exact ⟨by linarith, by linarith⟩
    · rintro ⟨h0, h1⟩
      have h2 : 0 < y - s := by linarith
      refine ⟨(y - s) ^ q, ⟨rpow_pos_of_pos h2 _, rpow_lt_rpow h2.le (by linarith) hq⟩, ?_⟩
      rw [← rpow_mul h2.le, mul_one_div_cancel hq.ne', rpow_one]
      ring
  rw [← intervalIntegral.integral_of_le (show s ≤ 2 * s by linarith),
    integral_subst_mono (f := fun t => t ^ (1 / q) + s) (f' := fun t => 1 / q * t ^ (1 / q - 1))
    (rpow_nonneg hs.le _) (show s ≤ 2 * s by linarith) ?_ ?_ himg G]
  · intro x hx
    exact ((hasDerivAt_rpow_const (Or.inl hx.1.ne')).add_const s).congr_deriv (by ring)
  · intro x hx
    have := hx.1
    positivity

/-- The outer part, in the inverse of the radius. -/
theorem outer_subst {s : ℝ} (hs : 0 < s) (G : ℝ → ℝ) :
    ∫ t in (0 : ℝ)..0.5 / s, 1 / t ^ 2 * G (1 / t) = ∫ r in Ioi (2 * s), G r := by
  have himg : (fun t : ℝ => 1 / t) '' Ioo 0 (0.5 / s) = Ioi (2 * s) := by
    ext y
    simp only [mem_image, mem_Ioo, mem_Ioi]
    constructor
    · rintro ⟨t, ⟨h0, h1⟩, rfl⟩
      rw [lt_div_iff₀ hs] at h1
      rw [lt_div_iff₀ h0]
      norm_num at h1
      nlinarith
    · intro h
      have hy : 0 < y := by linarith
      refine ⟨1 / y, ⟨by positivity, ?_⟩, by simp⟩
      rw [div_lt_div_iff₀ hy hs]
      norm_num
      linarith
  rw [intervalIntegral.integral_of_le (by positivity), integral_Ioc_eq_integral_Ioo, ← himg,
    integral_image_eq_integral_abs_deriv_smul (f := fun t => 1 / t) (f' := fun t => -1 / t ^ 2) measurableSet_Ioo]
  · refine setIntegral_congr_fun measurableSet_Ioo fun t ht => ?_
    have : 0 < t := ht.1
    simp only [smul_eq_mul]
    rw [abs_div, abs_neg, abs_one, abs_of_pos (by positivity)]
  · intro t ht
    have := (hasDerivAt_inv ht.1.ne').hasDerivWithinAt (s := Ioo 0 (0.5 / s))
    simp only [one_div]
    exact this.congr_deriv (by rw [neg_div, one_div])
  · intro x hx y hy hxy
    simpa using hxy

/-- The two parts together. -/
theorem split_integral {q s : ℝ} (hq : 0 < q) (hs : 0 < s) {G : ℝ → ℝ} (hG : IntegrableOn G (Ioi s)) :
    (∫ t in (0 : ℝ)..s ^ q, 1 / q * t ^ (1 / q - 1) * G (t ^ (1 / q) + s))
      + (∫ t in (0 : ℝ)..0.5 / s, 1 / t ^ 2 * G (1 / t)) = ∫ r in Ioi s, G r := by
  have h2s : s ≤ 2 * s := by linarith
  rw [inner_subst hq hs, outer_subst hs, ← Ioc_union_Ioi_eq_Ioi h2s,
    setIntegral_union (Ioc_disjoint_Ioi le_rfl) measurableSet_Ioi]
  · exact hG.mono_set Ioc_subset_Ioi_self
  · exact hG.mono_set (Ioi_subset_Ioi h2s)

end Inv
end Verif
