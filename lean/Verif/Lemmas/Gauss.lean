import Verif.Model.MassQuant
import Verif.Lemmas.EOM
import Mathlib.MeasureTheory.Integral.DivergenceTheorem
import Mathlib.MeasureTheory.Integral.Prod

set_option autoImplicit false

/-! # Gauss' theorem for axisymmetric fields, on a cylinder and on a shell -/

noncomputable section
namespace Verif.Gauss
open Real MeasureTheory Set

/-- Off-axis points suffice for integrability on a rectangle `[a₁,b₁] × [a₂,b₂]`. -/
theorem integrableOn_of_ioc {a₁ b₁ a₂ b₂ : ℝ} {f g : ℝ × ℝ → ℝ} (hc : ContinuousOn g (Icc a₁ b₁ ×ˢ Icc a₂ b₂))
    (h : ∀ p ∈ Ioc a₁ b₁ ×ˢ Ioo a₂ b₂, f p = g p) : IntegrableOn f (Icc a₁ b₁ ×ˢ Icc a₂ b₂) := by
  have e : (Ioc a₁ b₁ ×ˢ Ioo a₂ b₂ : Set (ℝ × ℝ)) =ᵐ[volume] (Icc a₁ b₁ ×ˢ Icc a₂ b₂ : Set (ℝ × ℝ)) :=
    Measure.set_prod_ae_eq Ioc_ae_eq_Icc Ioo_ae_eq_Icc
  have i : IntegrableOn g (Icc a₁ b₁ ×ˢ Icc a₂ b₂) :=
    hc.integrableOn_compact (isCompact_Icc.prod isCompact_Icc)
  rw [← integrableOn_congr_set_ae e] at i ⊢
  exact i.congr_fun (fun p hp => (h p hp).symm) (measurableSet_Ioc.prod measurableSet_Ioo)

variable {F G ρ : ℝ × ℝ → ℝ}

/-- Gauss' theorem on the cylinder. -/
theorem cylinder {R z : ℝ} (hR : 0 ≤ R) (hz : 0 ≤ z)
    (dF : ∀ p ∈ Icc 0 R ×ˢ Icc (-z) z, DifferentiableAt ℝ F p)
    (dG : ∀ p ∈ Icc 0 R ×ˢ Icc (-z) z, DifferentiableAt ℝ G p)
    (cρ : ContinuousOn ρ (Icc 0 R ×ˢ Icc (-z) z))
    (hp : ∀ p ∈ Icc 0 R ×ˢ Icc (-z) z, 0 < p.1 →
      fderiv ℝ F p (1, 0) + F p / p.1 + fderiv ℝ G p (0, 1) = -(4 * π * ρ p)) :
    R * (∫ y in (-z)..z, F (R, y)) + ((∫ x in (0 : ℝ)..R, x * G (x, z)) - ∫ x in (0 : ℝ)..R, x * G (x, -z)) =
      ∫ x in (0 : ℝ)..R, ∫ y in (-z)..z, -(4 * π * x * ρ (x, y)) := by
  have hzz : -z ≤ z := by linarith
  have hfst : ∀ p : ℝ × ℝ, HasFDerivAt (fun q : ℝ × ℝ => q.1) (ContinuousLinearMap.fst ℝ ℝ ℝ) p :=
    fun p => hasFDerivAt_fst
  have hf : ∀ p ∈ Icc 0 R ×ˢ Icc (-z) z, HasFDerivAt (fun q : ℝ × ℝ => q.1 * F q)
      (p.1 • fderiv ℝ F p + F p • ContinuousLinearMap.fst ℝ ℝ ℝ) p :=
    fun p k => (hfst p).mul (dF p k).hasFDerivAt
  have hg : ∀ p ∈ Icc 0 R ×ˢ Icc (-z) z, HasFDerivAt (fun q : ℝ × ℝ => q.1 * G q)
      (p.1 • fderiv ℝ G p + G p • ContinuousLinearMap.fst ℝ ℝ ℝ) p :=
    fun p k => (hfst p).mul (dG p k).hasFDerivAt
  have key : ∀ p ∈ Icc 0 R ×ˢ Icc (-z) z, 0 < p.1 →
      (p.1 • fderiv ℝ F p + F p • ContinuousLinearMap.fst ℝ ℝ ℝ) (1, 0)
        + (p.1 • fderiv ℝ G p + G p • ContinuousLinearMap.fst ℝ ℝ ℝ) (0, 1) = -(4 * π * p.1 * ρ p) := by
    intro p k h0
    have := hp p k h0
    simp only [ContinuousLinearMap.add_apply, ContinuousLinearMap.smul_apply, smul_eq_mul,
      ContinuousLinearMap.coe_fst', mul_one, mul_zero, add_zero]
    have e : F p = p.1 * (F p / p.1) := by field_simp
    rw [e]
    linear_combination p.1 * this
  have d := integral2_divergence_prod_of_hasFDerivAt (fun q : ℝ × ℝ => q.1 * F q) (fun q : ℝ × ℝ => q.1 * G q)
    (fun p => p.1 • fderiv ℝ F p + F p • ContinuousLinearMap.fst ℝ ℝ ℝ)
    (fun p => p.1 • fderiv ℝ G p + G p • ContinuousLinearMap.fst ℝ ℝ ℝ) 0 (-z) R z
    (by rw [uIcc_of_le hR, uIcc_of_le hzz]; exact fun p k => (hf p k).continuousAt.continuousWithinAt)
    (by rw [uIcc_of_le hR, uIcc_of_le hzz]; exact fun p k => (hg p k).continuousAt.continuousWithinAt)
    (by
      rw [min_eq_left hR, max_eq_right hR, min_eq_left hzz, max_eq_right hzz]
      exact fun p k => hf p ⟨Ioo_subset_Icc_self k.1, Ioo_subset_Icc_self k.2⟩)
    (by
      rw [min_eq_left hR, max_eq_right hR, min_eq_left hzz, max_eq_right hzz]
      exact fun p k => hg p ⟨Ioo_subset_Icc_self k.1, Ioo_subset_Icc_self k.2⟩)
    (by
      rw [uIcc_of_le hR, uIcc_of_le hzz]
      refine integrableOn_of_ioc (g := fun p => -(4 * π * p.1 * ρ p)) ?_ fun p k =>
        key p ⟨Ioc_subset_Icc_self k.1, Ioo_subset_Icc_self k.2⟩ k.1.1
      exact (((continuous_const.mul continuous_fst).continuousOn.mul cρ)).neg)
  have e : (∫ x in (0 : ℝ)..R, ∫ y in (-z)..z, -(4 * π * x * ρ (x, y))) =
      ∫ x in (0 : ℝ)..R, ∫ y in (-z)..z,
        ((x, y) : ℝ × ℝ).1 • fderiv ℝ F (x, y) (1, 0) + F (x, y) • ContinuousLinearMap.fst ℝ ℝ ℝ (1, 0)
        + (((x, y) : ℝ × ℝ).1 • fderiv ℝ G (x, y) (0, 1) + G (x, y) • ContinuousLinearMap.fst ℝ ℝ ℝ (0, 1)) := by
    refine intervalIntegral.integral_congr_ae (Filter.Eventually.of_forall fun x hx => ?_)
    rw [uIoc_of_le hR] at hx
    refine intervalIntegral.integral_congr fun y hy => ?_
    rw [uIcc_of_le hzz] at hy
    exact (key (x, y) ⟨Ioc_subset_Icc_self hx, hy⟩ hx.1).symm
  rw [e]
  refine Eq.trans ?_ d.symm
  simp
  ring

/-- Differentiability on the shell `R₁ ≤ r ≤ R₂` in the half plane. -/
def shellSet (R₁ R₂ : ℝ) : Set (ℝ × ℝ) := {p | 0 ≤ p.1 ∧ R₁ ^ 2 ≤ p.1 ^ 2 + p.2 ^ 2 ∧ p.1 ^ 2 + p.2 ^ 2 ≤ R₂ ^ 2}

theorem mem_shell {R₁ R₂ r θ : ℝ} (h1 : 0 ≤ R₁) (hr : r ∈ Icc R₁ R₂) (hθ : θ ∈ Icc 0 π) :
    (r * sin θ, r * cos θ) ∈ shellSet R₁ R₂ := by
  have hs := sin_nonneg_of_nonneg_of_le_pi hθ.1 hθ.2
  have hr0 : 0 ≤ r := h1.trans hr.1
  have e : (r * sin θ) ^ 2 + (r * cos θ) ^ 2 = r ^ 2 := by
    linear_combination r ^ 2 * sin_sq_add_cos_sq θ
  refine ⟨mul_nonneg hr0 hs, ?_, ?_⟩
  · simp only [e]; exact pow_le_pow_left₀ h1 hr.1 2
  · simp only [e]; exact pow_le_pow_left₀ hr0 hr.2 2

/-- Gauss' theorem on the shell. -/
theorem shell {R₁ R₂ : ℝ} (h1 : 0 ≤ R₁) (h2 : R₁ ≤ R₂)
    (dF : ∀ p ∈ shellSet R₁ R₂, DifferentiableAt ℝ F p) (dG : ∀ p ∈ shellSet R₁ R₂, DifferentiableAt ℝ G p)
    (cρ : ContinuousOn ρ (shellSet R₁ R₂))
    (hp : ∀ p ∈ shellSet R₁ R₂, 0 < p.1 →
      fderiv ℝ F p (1, 0) + F p / p.1 + fderiv ℝ G p (0, 1) = -(4 * π * ρ p)) :
    (∫ θ in (0 : ℝ)..π, R₂ ^ 2 * sin θ * (F (R₂ * sin θ, R₂ * cos θ) * sin θ + G (R₂ * sin θ, R₂ * cos θ) * cos θ))
      - (∫ θ in (0 : ℝ)..π, R₁ ^ 2 * sin θ * (F (R₁ * sin θ, R₁ * cos θ) * sin θ + G (R₁ * sin θ, R₁ * cos θ) * cos θ)) =
      ∫ r in R₁..R₂, ∫ θ in (0 : ℝ)..π, -(4 * π * r ^ 2 * sin θ * ρ (r * sin θ, r * cos θ)) := by
  have hπ := pi_pos.le
  -- the polar map and its derivative
  let T : ℝ × ℝ → ℝ × ℝ := fun q => (q.1 * sin q.2, q.1 * cos q.2)
  have hsin : ∀ q : ℝ × ℝ, HasFDerivAt (fun q : ℝ × ℝ => sin q.2) (cos q.2 • ContinuousLinearMap.snd ℝ ℝ ℝ) q :=
    fun q => (hasFDerivAt_snd (p := q)).sin
  have hcos : ∀ q : ℝ × ℝ, HasFDerivAt (fun q : ℝ × ℝ => cos q.2) (-sin q.2 • ContinuousLinearMap.snd ℝ ℝ ℝ) q :=
    fun q => (hasFDerivAt_snd (p := q)).cos
  have hfst : ∀ q : ℝ × ℝ, HasFDerivAt (fun q : ℝ × ℝ => q.1) (ContinuousLinearMap.fst ℝ ℝ ℝ) q :=
    fun q => hasFDerivAt_fst
  let T' : ℝ × ℝ → ℝ × ℝ →L[ℝ] ℝ × ℝ := fun q =>
    (q.1 • cos q.2 • ContinuousLinearMap.snd ℝ ℝ ℝ + sin q.2 • ContinuousLinearMap.fst ℝ ℝ ℝ).prod
      (q.1 • -sin q.2 • ContinuousLinearMap.snd ℝ ℝ ℝ + cos q.2 • ContinuousLinearMap.fst ℝ ℝ ℝ)
  have hT : ∀ q, HasFDerivAt T (T' q) q := fun q =>
    ((hfst q).mul (hsin q)).prodMk ((hfst q).mul (hcos q))
  have hm : ∀ q ∈ Icc R₁ R₂ ×ˢ Icc 0 π, T q ∈ shellSet R₁ R₂ := fun q k => mem_shell h1 k.1 k.2
  let F' : ℝ × ℝ → ℝ × ℝ →L[ℝ] ℝ := fun q => (fderiv ℝ F (T q)).comp (T' q)
  let G' : ℝ × ℝ → ℝ × ℝ →L[ℝ] ℝ := fun q => (fderiv ℝ G (T q)).comp (T' q)
  have hF : ∀ q ∈ Icc R₁ R₂ ×ˢ Icc 0 π, HasFDerivAt (fun q => F (T q)) (F' q) q :=
    fun q k => (dF _ (hm q k)).hasFDerivAt.comp q (hT q)
  have hG : ∀ q ∈ Icc R₁ R₂ ×ˢ Icc 0 π, HasFDerivAt (fun q => G (T q)) (G' q) q :=
    fun q k => (dG _ (hm q k)).hasFDerivAt.comp q (hT q)
  let f : ℝ × ℝ → ℝ := fun q => q.1 * q.1 * sin q.2 * (F (T q) * sin q.2 + G (T q) * cos q.2)
  let g : ℝ × ℝ → ℝ := fun q => q.1 * sin q.2 * (F (T q) * cos q.2 - G (T q) * sin q.2)
  have hf := fun q k => (((hfst q).mul (hfst q)).mul (hsin q)).mul
    (((hF q k).mul (hsin q)).add ((hG q k).mul (hcos q)))
  have hg := fun q k => ((hfst q).mul (hsin q)).mul
    (((hF q k).mul (hcos q)).sub ((hG q k).mul (hsin q)))
  have hf' : ∀ q ∈ Icc R₁ R₂ ×ˢ Icc 0 π, HasFDerivAt f (fderiv ℝ f q) q :=
    fun q k => (hf q k).differentiableAt.hasFDerivAt
  have hg' : ∀ q ∈ Icc R₁ R₂ ×ˢ Icc 0 π, HasFDerivAt g (fderiv ℝ g q) q :=
    fun q k => (hg q k).differentiableAt.hasFDerivAt
  have key : ∀ q ∈ Icc R₁ R₂ ×ˢ Icc 0 π, 0 < q.1 → 0 < sin q.2 →
      fderiv ℝ f q (1, 0) + fderiv ℝ g q (0, 1) = -(4 * π * q.1 ^ 2 * sin q.2 * ρ (T q)) := by
    intro q k h0 hs
    have hx : 0 < (T q).1 := mul_pos h0 hs
    have := hp _ (hm q k) hx
    have ef : fderiv ℝ f q = _ := (hf q k).fderiv
    have eg : fderiv ℝ g q = _ := (hg q k).fderiv
    rw [ef, eg]
    have lin : ∀ (L : ℝ × ℝ →L[ℝ] ℝ) (a b : ℝ), L (a, b) = a * L (1, 0) + b * L (0, 1) := by
      intro L a b
      have : ((a, b) : ℝ × ℝ) = a • (1, 0) + b • (0, 1) := by simp
      rw [this, map_add, map_smul, map_smul, smul_eq_mul, smul_eq_mul]
    have eF1 : F' q (1, 0) = sin q.2 * fderiv ℝ F (T q) (1, 0) + cos q.2 * fderiv ℝ F (T q) (0, 1) := by
      rw [← lin]; simp [F', T']
    have eF2 : F' q (0, 1) = q.1 * cos q.2 * fderiv ℝ F (T q) (1, 0) + -(q.1 * sin q.2) * fderiv ℝ F (T q) (0, 1) := by
      rw [← lin]; simp [F', T']
    have eG1 : G' q (1, 0) = sin q.2 * fderiv ℝ G (T q) (1, 0) + cos q.2 * fderiv ℝ G (T q) (0, 1) := by
      rw [← lin]; simp [G', T']
    have eG2 : G' q (0, 1) = q.1 * cos q.2 * fderiv ℝ G (T q) (1, 0) + -(q.1 * sin q.2) * fderiv ℝ G (T q) (0, 1) := by
      rw [← lin]; simp [G', T']
    simp only [ContinuousLinearMap.add_apply, ContinuousLinearMap.sub_apply, ContinuousLinearMap.smul_apply,
      smul_eq_mul, ContinuousLinearMap.coe_fst', ContinuousLinearMap.coe_snd', eF1, eF2, eG1, eG2,
      Pi.mul_apply, Pi.add_apply, Pi.sub_apply]
    have hcs := sin_sq_add_cos_sq q.2
    have e : F (T q) = q.1 * sin q.2 * (F (T q) / (T q).1) := by
      rw [show (T q).1 = q.1 * sin q.2 from rfl]; field_simp
    generalize F (T q) / (T q).1 = w at *
    generalize fderiv ℝ F (T q) (1, 0) = FR at *
    generalize fderiv ℝ F (T q) (0, 1) = Fz at *
    generalize fderiv ℝ G (T q) (1, 0) = GR at *
    generalize fderiv ℝ G (T q) (0, 1) = Gz at *
    generalize F (T q) = f0 at *
    generalize G (T q) = g0 at *
    generalize sin q.2 = s at *
    generalize cos q.2 = c at *
    subst e
    linear_combination q.1 ^ 2 * s * this + (q.1 ^ 2 * s * (FR + Gz) + q.1 ^ 2 * s * w) * hcs
  have d := integral2_divergence_prod_of_hasFDerivAt f g (fderiv ℝ f) (fderiv ℝ g) R₁ 0 R₂ π
    (by rw [uIcc_of_le h2, uIcc_of_le hπ]; exact fun p k => (hf' p k).continuousAt.continuousWithinAt)
    (by rw [uIcc_of_le h2, uIcc_of_le hπ]; exact fun p k => (hg' p k).continuousAt.continuousWithinAt)
    (by
      rw [min_eq_left h2, max_eq_right h2, min_eq_left hπ, max_eq_right hπ]
      exact fun p k => hf' p ⟨Ioo_subset_Icc_self k.1, Ioo_subset_Icc_self k.2⟩)
    (by
      rw [min_eq_left h2, max_eq_right h2, min_eq_left hπ, max_eq_right hπ]
      exact fun p k => hg' p ⟨Ioo_subset_Icc_self k.1, Ioo_subset_Icc_self k.2⟩)
    (by
      rw [uIcc_of_le h2, uIcc_of_le hπ]
      refine integrableOn_of_ioc (g := fun q => -(4 * π * q.1 ^ 2 * sin q.2 * ρ (T q))) ?_ fun q k =>
        key q ⟨Ioc_subset_Icc_self k.1, Ioo_subset_Icc_self k.2⟩ (h1.trans_lt k.1.1)
          (sin_pos_of_pos_of_lt_pi k.2.1 k.2.2)
      have c1 : Continuous fun q : ℝ × ℝ => 4 * π * q.1 ^ 2 * sin q.2 := by fun_prop
      have c2 : ContinuousOn (fun q => ρ (T q)) (Icc R₁ R₂ ×ˢ Icc 0 π) :=
        cρ.comp (fun q k => (hT q).continuousAt.continuousWithinAt) hm
      exact (c1.continuousOn.mul c2).neg)
  have e : (∫ r in R₁..R₂, ∫ θ in (0 : ℝ)..π, -(4 * π * r ^ 2 * sin θ * ρ (r * sin θ, r * cos θ))) =
      ∫ r in R₁..R₂, ∫ θ in (0 : ℝ)..π, fderiv ℝ f (r, θ) (1, 0) + fderiv ℝ g (r, θ) (0, 1) := by
    refine intervalIntegral.integral_congr_ae (Filter.Eventually.of_forall fun r hr => ?_)
    rw [uIoc_of_le h2] at hr
    refine intervalIntegral.integral_congr_ae ?_
    have hne : ∀ᵐ θ : ℝ, θ ≠ π := by simp [ae_iff]
    filter_upwards [hne] with θ hθ hm
    rw [uIoc_of_le hπ] at hm
    exact (key (r, θ) ⟨Ioc_subset_Icc_self hr, Ioc_subset_Icc_self hm⟩ (h1.trans_lt hr.1)
      (sin_pos_of_pos_of_lt_pi hm.1 (lt_of_le_of_ne hm.2 hθ))).symm
  rw [e, d]
  simp [f, g, T, pow_two]

end Verif.Gauss
