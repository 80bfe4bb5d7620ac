import Verif.Lemmas.Gauss
import Mathlib.Analysis.SpecialFunctions.PolarCoord

set_option autoImplicit false

/-! # Volume integrals of axisymmetric functions as iterated integrals -/

noncomputable section
namespace Verif.Gauss
open Real MeasureTheory Set

/-- Distance from the axis. -/
def cylR (p : (ℝ × ℝ) × ℝ) : ℝ := √(p.1.1 ^ 2 + p.1.2 ^ 2)

/-- Points in space whose cylindrical coordinates lie in `K`. -/
def solid (K : Set (ℝ × ℝ)) : Set ((ℝ × ℝ) × ℝ) := {p | (cylR p, p.2) ∈ K}

theorem continuous_cyl : Continuous fun p : (ℝ × ℝ) × ℝ => (cylR p, p.2) := by
  unfold cylR; fun_prop

theorem isCompact_solid {K : Set (ℝ × ℝ)} (hK : IsCompact K) : IsCompact (solid K) := by
  refine Metric.isCompact_of_isClosed_isBounded (hK.isClosed.preimage continuous_cyl) ?_
  obtain ⟨C, hC⟩ := hK.isBounded.exists_norm_le
  refine (Metric.isBounded_iff_subset_closedBall 0).2 ⟨C, fun p hp => ?_⟩
  have := hC _ hp
  rw [Prod.norm_def, max_le_iff] at this
  have h1 : √(p.1.1 ^ 2 + p.1.2 ^ 2) ≤ C := (le_abs_self _).trans this.1
  rw [mem_closedBall_zero_iff, Prod.norm_def, Prod.norm_def, max_le_iff, max_le_iff]
  refine ⟨⟨?_, ?_⟩, this.2⟩
  · rw [Real.norm_eq_abs]
    exact (abs_le_sqrt (by nlinarith [sq_nonneg p.1.2])).trans h1
  · rw [Real.norm_eq_abs]
    exact (abs_le_sqrt (by nlinarith [sq_nonneg p.1.1])).trans h1

/-- Integral over the plane of a function of the distance from the origin. -/
theorem integral_radial (g : ℝ → ℝ) :
    ∫ q : ℝ × ℝ, g √(q.1 ^ 2 + q.2 ^ 2) = 2 * π * ∫ s in Ioi (0 : ℝ), s * g s := by
  rw [← integral_comp_polarCoord_symm (fun q : ℝ × ℝ => g √(q.1 ^ 2 + q.2 ^ 2)), polarCoord_target]
  have e : ∀ q ∈ Ioi (0 : ℝ) ×ˢ Ioo (-π) π,
      q.1 • g √((polarCoord.symm q).1 ^ 2 + (polarCoord.symm q).2 ^ 2) = (q.1 * g q.1) * 1 := by
    intro q hq
    have : (polarCoord.symm q).1 ^ 2 + (polarCoord.symm q).2 ^ 2 = q.1 ^ 2 := by
      simp only [polarCoord_symm_apply]
      linear_combination q.1 ^ 2 * sin_sq_add_cos_sq q.2
    rw [this, sqrt_sq hq.1.le, smul_eq_mul, mul_one]
  rw [setIntegral_congr_fun (measurableSet_Ioi.prod measurableSet_Ioo) e, Measure.volume_eq_prod,
    setIntegral_prod_mul (fun s => s * g s) (fun _ => (1 : ℝ))]
  have : ∫ _ in Ioo (-π) π, (1 : ℝ) = 2 * π := by
    simp [two_mul, pi_pos.le]
  rw [this, mul_comm]

/-- Volume integral of a function of the cylindrical coordinates. -/
theorem integral_solid {K : Set (ℝ × ℝ)} (hK : IsCompact K) {h : ℝ × ℝ → ℝ} (hc : ContinuousOn h K) :
    ∫ p in solid K, h (cylR p, p.2) = 2 * π * ∫ s in Ioi (0 : ℝ), s * ∫ z, K.indicator h (s, z) := by
  have hm : MeasurableSet (solid K) := (isCompact_solid hK).isClosed.measurableSet
  have hi : IntegrableOn (fun p => h (cylR p, p.2)) (solid K) :=
    (hc.comp continuous_cyl.continuousOn (fun p hp => hp)).integrableOn_compact (isCompact_solid hK)
  have e : (solid K).indicator (fun p => h (cylR p, p.2)) = fun p => K.indicator h (cylR p, p.2) := by
    funext p
    by_cases hp : (cylR p, p.2) ∈ K
    · rw [indicator_of_mem hp, indicator_of_mem (show p ∈ solid K from hp)]
    · rw [indicator_of_notMem hp, indicator_of_notMem (show p ∉ solid K from hp)]
  rw [← integrable_indicator_iff hm, e] at hi
  rw [← integral_indicator hm, e]
  have := integral_prod _ hi
  rw [← Measure.volume_eq_prod] at this
  rw [this]
  exact integral_radial fun s => ∫ z, K.indicator h (s, z)

/-- Mass in a cylinder as an iterated integral. -/
theorem integral_cylinder {R z : ℝ} (hR : 0 ≤ R) (hz : 0 ≤ z) {ρ : ℝ × ℝ → ℝ}
    (cρ : ContinuousOn ρ (Icc 0 R ×ˢ Icc (-z) z)) :
    ∫ p in solid (Icc 0 R ×ˢ Icc (-z) z), ρ (cylR p, p.2) =
      2 * π * ∫ x in (0 : ℝ)..R, ∫ y in (-z)..z, x * ρ (x, y) := by
  rw [integral_solid (isCompact_Icc.prod isCompact_Icc) cρ, intervalIntegral.integral_of_le hR]
  congr 1
  have e : ∀ s ∈ Ioi (0 : ℝ), s * ∫ y, (Icc 0 R ×ˢ Icc (-z) z).indicator ρ (s, y) =
      (Ioc 0 R).indicator (fun x => ∫ y in (-z)..z, x * ρ (x, y)) s := by
    intro s hs
    by_cases h : s ≤ R
    · rw [indicator_of_mem (show s ∈ Ioc 0 R from ⟨hs, h⟩), intervalIntegral.integral_const_mul,
        intervalIntegral.integral_of_le (by linarith), ← integral_Icc_eq_integral_Ioc,
        ← integral_indicator measurableSet_Icc]
      congr 2
      funext y
      by_cases hy : y ∈ Icc (-z) z
      · rw [indicator_of_mem hy, indicator_of_mem (show (s, y) ∈ Icc 0 R ×ˢ Icc (-z) z from ⟨⟨hs.le, h⟩, hy⟩)]
      · rw [indicator_of_notMem hy,
          indicator_of_notMem (show (s, y) ∉ Icc 0 R ×ˢ Icc (-z) z from fun k => hy k.2)]
    · rw [indicator_of_notMem (show s ∉ Ioc 0 R from fun k => h k.2)]
      have : ∀ y, (Icc 0 R ×ˢ Icc (-z) z).indicator ρ (s, y) = 0 := fun y =>
        indicator_of_notMem (show (s, y) ∉ Icc 0 R ×ˢ Icc (-z) z from fun k => h k.1.2) _
      simp only [this, integral_zero, mul_zero]
  rw [setIntegral_congr_fun measurableSet_Ioi e, setIntegral_indicator measurableSet_Ioc,
    inter_eq_self_of_subset_right (fun x hx => hx.1)]

theorem isCompact_shellSet (R₁ R₂ : ℝ) : IsCompact (shellSet R₁ R₂) := by
  refine Metric.isCompact_of_isClosed_isBounded ?_ ?_
  · have c : Continuous fun p : ℝ × ℝ => p.1 ^ 2 + p.2 ^ 2 := by fun_prop
    exact (isClosed_le continuous_const continuous_fst).inter
      ((isClosed_le continuous_const c).inter (isClosed_le c continuous_const))
  · refine (Metric.isBounded_iff_subset_closedBall 0).2 ⟨|R₂|, fun p hp => ?_⟩
    rw [mem_closedBall_zero_iff, Prod.norm_def, max_le_iff, Real.norm_eq_abs, Real.norm_eq_abs]
    have := hp.2.2
    constructor <;> refine sq_le_sq.1 ?_ <;> nlinarith [sq_nonneg p.1, sq_nonneg p.2]

/-- Mass in a shell as an iterated integral. -/
theorem integral_shell {R₁ R₂ : ℝ} (h1 : 0 ≤ R₁) (h2 : R₁ ≤ R₂) {ρ : ℝ × ℝ → ℝ}
    (cρ : ContinuousOn ρ (shellSet R₁ R₂)) :
    ∫ p in solid (shellSet R₁ R₂), ρ (cylR p, p.2) =
      2 * π * ∫ r in R₁..R₂, ∫ θ in (0 : ℝ)..π, r ^ 2 * sin θ * ρ (r * sin θ, r * cos θ) := by
  have hK := isCompact_shellSet R₁ R₂
  have hKm := hK.isClosed.measurableSet
  rw [integral_solid hK cρ]
  congr 1
  -- a plane integral
  have hi : Integrable (fun q : ℝ × ℝ => q.1 * (shellSet R₁ R₂).indicator ρ q) := by
    have : IntegrableOn (fun q : ℝ × ℝ => q.1 * ρ q) (shellSet R₁ R₂) :=
      (continuous_fst.continuousOn.mul cρ).integrableOn_compact hK
    rw [← integrable_indicator_iff hKm] at this
    refine this.congr (Filter.Eventually.of_forall fun q => ?_)
    by_cases hq : q ∈ shellSet R₁ R₂ <;> simp [hq]
  have e1 : ∫ s in Ioi (0 : ℝ), s * ∫ z, (shellSet R₁ R₂).indicator ρ (s, z) =
      ∫ q in Ioi (0 : ℝ) ×ˢ (univ : Set ℝ), q.1 * (shellSet R₁ R₂).indicator ρ q := by
    have i' : IntegrableOn (fun q : ℝ × ℝ => q.1 * (shellSet R₁ R₂).indicator ρ q)
        (Ioi (0 : ℝ) ×ˢ (univ : Set ℝ)) (volume.prod volume) := by
      rw [← Measure.volume_eq_prod]; exact hi.integrableOn
    rw [Measure.volume_eq_prod, setIntegral_prod _ i']
    simp [integral_const_mul]
  rw [e1, ← integral_indicator (measurableSet_Ioi.prod MeasurableSet.univ), Measure.volume_eq_prod,
    ← integral_prod_swap, ← Measure.volume_eq_prod, ← integral_comp_polarCoord_symm, polarCoord_target]
  -- compare on the region of the polar coordinates
  have e2 : ∀ q ∈ Ioi (0 : ℝ) ×ˢ Ioo (-π) π,
      q.1 • (Ioi (0 : ℝ) ×ˢ (univ : Set ℝ)).indicator (fun q : ℝ × ℝ => q.1 * (shellSet R₁ R₂).indicator ρ q)
        (polarCoord.symm q).swap =
      (Icc R₁ R₂ ×ˢ Ioo 0 π).indicator (fun q : ℝ × ℝ => q.1 ^ 2 * sin q.2 * ρ (q.1 * sin q.2, q.1 * cos q.2)) q := by
    intro q hq
    have hq1 : 0 < q.1 := hq.1
    have esw : (polarCoord.symm q).swap = (q.1 * sin q.2, q.1 * cos q.2) := by
      simp [polarCoord_symm_apply, Prod.swap]
    rw [esw]
    by_cases hθ : 0 < q.2
    · have hs : 0 < sin q.2 := sin_pos_of_pos_of_lt_pi hθ hq.2.2
      rw [indicator_of_mem (show (q.1 * sin q.2, q.1 * cos q.2) ∈ Ioi (0 : ℝ) ×ˢ (univ : Set ℝ) from
        ⟨mul_pos hq1 hs, mem_univ _⟩)]
      have hee : (q.1 * sin q.2) ^ 2 + (q.1 * cos q.2) ^ 2 = q.1 ^ 2 := by
        linear_combination q.1 ^ 2 * sin_sq_add_cos_sq q.2
      by_cases hr : q.1 ∈ Icc R₁ R₂
      · rw [indicator_of_mem (mem_shell h1 hr ⟨hθ.le, hq.2.2.le⟩),
          indicator_of_mem (show q ∈ Icc R₁ R₂ ×ˢ Ioo 0 π from ⟨hr, hθ, hq.2.2⟩), smul_eq_mul]
        ring
      · rw [indicator_of_notMem (show (q.1 * sin q.2, q.1 * cos q.2) ∉ shellSet R₁ R₂ from fun k => hr ?_),
          indicator_of_notMem (show q ∉ Icc R₁ R₂ ×ˢ Ioo 0 π from fun k => hr k.1)]
        · simp
        · obtain ⟨-, k1, k2⟩ := k
          simp only [hee] at k1 k2
          exact ⟨(sq_le_sq₀ h1 hq1.le).1 k1, (sq_le_sq₀ hq1.le (h1.trans h2)).1 k2⟩
    · have hs : sin q.2 ≤ 0 := sin_nonpos_of_nonpos_of_neg_pi_le (not_lt.1 hθ) hq.2.1.le
      rw [indicator_of_notMem (show (q.1 * sin q.2, q.1 * cos q.2) ∉ Ioi (0 : ℝ) ×ˢ (univ : Set ℝ) from
        fun k => absurd k.1 (not_lt.2 (mul_nonpos_of_nonneg_of_nonpos hq1.le hs))),
        indicator_of_notMem (show q ∉ Icc R₁ R₂ ×ˢ Ioo 0 π from fun k => hθ k.2.1), smul_zero]
  rw [setIntegral_congr_fun (measurableSet_Ioi.prod measurableSet_Ioo) e2,
    setIntegral_indicator (measurableSet_Icc.prod measurableSet_Ioo)]
  -- the region is the rectangle up to a null set
  have hset : ((Ioi (0 : ℝ) ×ˢ Ioo (-π) π) ∩ (Icc R₁ R₂ ×ˢ Ioo 0 π) : Set (ℝ × ℝ)) =ᵐ[volume]
      (Ioc R₁ R₂ ×ˢ Ioc 0 π : Set (ℝ × ℝ)) := by
    rw [prod_inter_prod, show Ioo (-π) π ∩ Ioo 0 π = Ioo 0 π from
      inter_eq_self_of_subset_right (Ioo_subset_Ioo_left (by linarith [pi_pos]))]
    refine Measure.set_prod_ae_eq ?_ Ioo_ae_eq_Ioc
    have : (Ioi (0 : ℝ) ∩ Icc R₁ R₂ : Set ℝ) =ᵐ[volume] (Ioi (0 : ℝ) ∩ Ioc R₁ R₂ : Set ℝ) :=
      (Filter.EventuallyEq.refl _ _).inter Ioc_ae_eq_Icc.symm
    have hsub : Ioi (0 : ℝ) ∩ Ioc R₁ R₂ = Ioc R₁ R₂ :=
      inter_eq_self_of_subset_right fun x (hx : x ∈ Ioc R₁ R₂) => h1.trans_lt hx.1
    exact hsub ▸ this
  rw [setIntegral_congr_set hset, Measure.volume_eq_prod, setIntegral_prod,
    intervalIntegral.integral_of_le h2]
  · simp only [intervalIntegral.integral_of_le pi_pos.le]
  · rw [← Measure.volume_eq_prod]
    have c : ContinuousOn (fun q : ℝ × ℝ => q.1 ^ 2 * sin q.2 * ρ (q.1 * sin q.2, q.1 * cos q.2))
        (Icc R₁ R₂ ×ˢ Icc 0 π) := by
      have c1 : Continuous fun q : ℝ × ℝ => q.1 ^ 2 * sin q.2 := by fun_prop
      have c2 : Continuous fun q : ℝ × ℝ => (q.1 * sin q.2, q.1 * cos q.2) := by fun_prop
      exact c1.continuousOn.mul (cρ.comp c2.continuousOn fun q k => mem_shell h1 k.1 k.2)
    exact (c.integrableOn_compact (isCompact_Icc.prod isCompact_Icc)).mono_set
      (prod_mono Ioc_subset_Icc_self Ioc_subset_Icc_self)

end Verif.Gauss
