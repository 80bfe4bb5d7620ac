import Verif.Util.BetaInt
import Mathlib.MeasureTheory.Integral.Prod

set_option autoImplicit false

/-! Exchange of the two integrals in Abel's equation, with the kernel `(E-a)^(p-1) (Φ-E)^(q-1)`. -/

noncomputable section
namespace Verif
open MeasureTheory Set Filter Topology Real

theorem beta_integral' {p q a b : ℝ} (hp : 0 < p) (hq : 0 < q) (hab : a < b) :
    ∫ E in Ioo a b, (E - a) ^ (p - 1) * (b - E) ^ (q - 1) = (b - a) ^ (p + q - 1) * B p q := by
  rw [← integral_Ioc_eq_integral_Ioo, ← intervalIntegral.integral_of_le hab.le, ← beta_integral hp hq (sub_pos.2 hab)]
  have := intervalIntegral.integral_comp_sub_right (fun x => x ^ (p - 1) * (b - a - x) ^ (q - 1)) a (a := a) (b := b)
  rw [sub_self] at this
  rw [← this]
  refine intervalIntegral.integral_congr fun E _ => ?_
  simp only [sub_sub_sub_cancel_right]

theorem beta_integrable' {p q a b : ℝ} (hp : 0 < p) (hq : 0 < q) (hab : a < b) :
    IntegrableOn (fun E => (E - a) ^ (p - 1) * (b - E) ^ (q - 1)) (Ioo a b) := by
  have h := (beta_integrable hp hq (sub_pos.2 hab)).comp_sub_right a
  simp only [zero_add, sub_add_cancel, sub_sub_sub_cancel_right] at h
  exact ((intervalIntegrable_iff_integrableOn_Ioc_of_le hab.le).1 h).mono_set Ioo_subset_Ioc_self

/-- The kernel of the double integral. -/
def abelKernel (Φ g : ℝ → ℝ) (a p q E r : ℝ) : ℝ :=
  (Iio (Φ r)).indicator (fun E => g r * ((E - a) ^ (p - 1) * (Φ r - E) ^ (q - 1))) E

theorem abelKernel_integral {Φ g : ℝ → ℝ} {a T p q r : ℝ} (hp : 0 < p) (hq : 0 < q)
    (h : a < Φ r) (hT : Φ r ≤ T) :
    ∫ E in Ioo a T, abelKernel Φ g a p q E r = g r * ((Φ r - a) ^ (p + q - 1) * B p q) := by
  unfold abelKernel
  rw [setIntegral_indicator measurableSet_Iio, Ioo_inter_Iio, min_eq_right hT, integral_const_mul,
    beta_integral' hp hq h]

theorem abelKernel_integrable {Φ g : ℝ → ℝ} {a T p q r : ℝ} (hp : 0 < p) (hq : 0 < q)
    (h : a < Φ r) (hT : Φ r ≤ T) : IntegrableOn (fun E => abelKernel Φ g a p q E r) (Ioo a T) := by
  unfold abelKernel IntegrableOn
  rw [integrable_indicator_iff measurableSet_Iio, IntegrableOn, Measure.restrict_restrict measurableSet_Iio,
    Iio_inter_Ioo, min_eq_left hT]
  exact (beta_integrable' hp hq h).const_mul _

theorem abelKernel_norm (Φ g : ℝ → ℝ) {a T p q E r : ℝ} (hE : E ∈ Ioo a T) :
    ‖abelKernel Φ g a p q E r‖ = abelKernel Φ (fun r => |g r|) a p q E r := by
  unfold abelKernel
  by_cases h : E ∈ Iio (Φ r)
  · rw [indicator_of_mem h, indicator_of_mem h, norm_mul, norm_eq_abs]
    have h1 : 0 < E - a := sub_pos.2 hE.1
    have h2 : 0 < Φ r - E := sub_pos.2 h
    rw [norm_of_nonneg (by positivity)]
  · rw [indicator_of_notMem h, indicator_of_notMem h, norm_zero]

theorem abel_prod {Φ g : ℝ → ℝ} {r₀ a T p q : ℝ} (hp : 0 < p) (hq : 0 < q) (hpq : 1 ≤ p + q)
    (hΦ : Measurable Φ) (hg : IntegrableOn g (Ioi r₀)) (hr : ∀ r ∈ Ioi r₀, a < Φ r ∧ Φ r ≤ T) :
    Integrable (Function.uncurry (abelKernel Φ g a p q))
      ((volume.restrict (Ioo a T)).prod (volume.restrict (Ioi r₀))) := by
  have hset : MeasurableSet {x : ℝ × ℝ | x.1 < Φ x.2} := measurableSet_lt measurable_fst (hΦ.comp measurable_snd)
  have hmeas : AEStronglyMeasurable (Function.uncurry (abelKernel Φ g a p q))
      ((volume.restrict (Ioo a T)).prod (volume.restrict (Ioi r₀))) := by
    have e : Function.uncurry (abelKernel Φ g a p q) = {x : ℝ × ℝ | x.1 < Φ x.2}.indicator
        (fun x => g x.2 * ((x.1 - a) ^ (p - 1) * (Φ x.2 - x.1) ^ (q - 1))) := by
      ext ⟨E, r⟩
      simp only [Function.uncurry, abelKernel, indicator, mem_Iio, mem_setOf_eq]
    rw [e]
    refine AEStronglyMeasurable.indicator ?_ hset
    refine AEStronglyMeasurable.mul (hg.1.comp_snd) (Measurable.aestronglyMeasurable ?_)
    exact ((measurable_fst.sub_const a).pow_const _).mul
      (((hΦ.comp measurable_snd).sub measurable_fst).pow_const _)
  rw [integrable_prod_iff' hmeas]
  refine ⟨?_, ?_⟩
  · refine (ae_restrict_iff' measurableSet_Ioi).2 (Eventually.of_forall fun r h => ?_)
    exact abelKernel_integrable hp hq (hr r h).1 (hr r h).2
  · have : ∀ r ∈ Ioi r₀, (∫ E in Ioo a T, ‖Function.uncurry (abelKernel Φ g a p q) (E, r)‖)
        = |g r| * ((Φ r - a) ^ (p + q - 1) * B p q) := by
      intro r h
      rw [← abelKernel_integral (g := fun r => |g r|) hp hq (hr r h).1 (hr r h).2]
      exact setIntegral_congr_fun measurableSet_Ioo fun E hE => abelKernel_norm Φ g hE
    refine (integrableOn_congr_fun this measurableSet_Ioi).2 ?_
    refine Integrable.mul_bdd (c := (T - a) ^ (p + q - 1) * B p q) hg.abs ?_ ?_
    · exact (((hΦ.sub_const a).pow_const _).mul_const _).aestronglyMeasurable
    · refine (ae_restrict_iff' measurableSet_Ioi).2 (Eventually.of_forall fun r h => ?_)
      have hb := B_pos hp hq
      have h1 : 0 < Φ r - a := sub_pos.2 (hr r h).1
      rw [norm_of_nonneg (by positivity)]
      gcongr
      exact (hr r h).2

theorem abel_aux {Φ g : ℝ → ℝ} {r₀ a T p q : ℝ} (hp : 0 < p) (hq : 0 < q) (hpq : 1 ≤ p + q)
    (hΦ : Measurable Φ) (hg : IntegrableOn g (Ioi r₀)) (hr : ∀ r ∈ Ioi r₀, a < Φ r ∧ Φ r ≤ T) :
    (∫ E in Ioo a T, ∫ r in Ioi r₀, abelKernel Φ g a p q E r)
      = ∫ r in Ioi r₀, g r * ((Φ r - a) ^ (p + q - 1) * B p q) := by
  rw [integral_integral_swap (abel_prod hp hq hpq hΦ hg hr)]
  exact setIntegral_congr_fun measurableSet_Ioi fun r h => abelKernel_integral hp hq (hr r h).1 (hr r h).2

/-- Abel's double integral: the inner one runs over the radii where the potential exceeds `E`. -/
theorem abel {Φ g : ℝ → ℝ} {r₀ a T p q : ℝ} (hp : 0 < p) (hq : 0 < q) (hpq : 1 ≤ p + q)
    (hΦ : ContinuousOn Φ (Ioi r₀)) (hg : IntegrableOn g (Ioi r₀)) (hr : ∀ r ∈ Ioi r₀, a < Φ r ∧ Φ r ≤ T)
    (rphi : ℝ → ℝ) (hrphi : ∀ E ∈ Ioo a T, r₀ ≤ rphi E ∧ ∀ r, r₀ < r → (E < Φ r ↔ rphi E < r)) :
    (∫ E in Ioo a T, (E - a) ^ (p - 1) * ∫ r in Ioi (rphi E), g r * (Φ r - E) ^ (q - 1))
        = (∫ r in Ioi r₀, g r * ((Φ r - a) ^ (p + q - 1) * B p q)) ∧
      IntegrableOn (fun E => (E - a) ^ (p - 1) * ∫ r in Ioi (rphi E), g r * (Φ r - E) ^ (q - 1)) (Ioo a T) := by
  classical
  set Ψ := (Ioi r₀).piecewise Φ (fun _ => 0) with hΨ
  have hm : Measurable Ψ := ContinuousOn.measurable_piecewise hΦ continuousOn_const measurableSet_Ioi
  have he : ∀ r ∈ Ioi r₀, Ψ r = Φ r := fun r h => piecewise_eq_of_mem _ _ _ h
  have h := abel_aux hp hq hpq hm hg (fun r h => by rw [he r h]; exact hr r h)
  have h' := (abel_prod (T := T) hp hq hpq hm hg (fun r h => by rw [he r h]; exact hr r h)).integral_prod_left
  rw [setIntegral_congr_fun measurableSet_Ioi (g := fun r => g r * ((Φ r - a) ^ (p + q - 1) * B p q))
    (fun r h => by simp only [he r h])] at h
  have key : ∀ E ∈ Ioo a T, (E - a) ^ (p - 1) * (∫ r in Ioi (rphi E), g r * (Φ r - E) ^ (q - 1))
      = ∫ r in Ioi r₀, abelKernel Ψ g a p q E r := by
    intro E hE
    obtain ⟨h0, h1⟩ := hrphi E hE
    have e : Ioi (rphi E) = Ioi r₀ ∩ {r | E < Ψ r} := by
      ext r
      simp only [mem_Ioi, mem_inter_iff, mem_setOf_eq]
      constructor
      · intro hx
        have : r₀ < r := lt_of_le_of_lt h0 hx
        exact ⟨this, by rw [he r this]; exact (h1 r this).2 hx⟩
      · rintro ⟨hx, hy⟩
        rw [he r hx] at hy
        exact (h1 r hx).1 hy
    have hk : ∀ r, abelKernel Ψ g a p q E r
        = {r | E < Ψ r}.indicator (fun r => g r * ((E - a) ^ (p - 1) * (Ψ r - E) ^ (q - 1))) r := by
      intro r; simp only [abelKernel, indicator, mem_Iio, mem_setOf_eq]
    simp only [hk]
    rw [setIntegral_indicator (measurableSet_lt measurable_const hm), ← e, ← integral_const_mul]
    refine setIntegral_congr_fun measurableSet_Ioi fun r hx => ?_
    have : Ψ r = Φ r := he r (lt_of_le_of_lt h0 hx)
    simp only [this]; ring
  exact ⟨by rw [← h]; exact setIntegral_congr_fun measurableSet_Ioo key,
    (integrableOn_congr_fun key measurableSet_Ioo).2 h'⟩


end Verif
