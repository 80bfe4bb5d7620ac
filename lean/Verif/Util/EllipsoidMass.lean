import Verif.Spec.Mass
import Mathlib.MeasureTheory.Constructions.HaarToSphere
import Mathlib.MeasureTheory.Constructions.Polish.Basic
import Mathlib.MeasureTheory.Measure.Lebesgue.VolumeOfBalls

set_option autoImplicit false

/-! # Volume integrals over ellipsoids -/

open MeasureTheory Set

namespace Verif

/-- The map to the unit sphere's frame. -/
noncomputable def squash (b c : ℝ) : (Fin 3 → ℝ) →ₗ[ℝ] (Fin 3 → ℝ) := Matrix.toLin' (Matrix.diagonal ![1, b⁻¹, c⁻¹])

theorem squash_apply (b c : ℝ) (q : Fin 3 → ℝ) : squash b c q = ![q 0, q 1 / b, q 2 / c] := by
  funext i
  fin_cases i <;> simp [squash, Matrix.mulVec_diagonal, div_eq_inv_mul]

theorem squash_embedding {b c : ℝ} (hb : b ≠ 0) (hc : c ≠ 0) : MeasurableEmbedding (squash b c) := by
  refine Continuous.measurableEmbedding (LinearMap.continuous_of_finiteDimensional _) fun q q' h => ?_
  rw [squash_apply, squash_apply] at h
  have h0 := congrFun h 0
  have h1 := congrFun h 1
  have h2 := congrFun h 2
  simp at h0 h1 h2
  funext i
  fin_cases i
  · exact h0
  · exact (div_left_inj' hb).1 h1
  · exact (div_left_inj' hc).1 h2

theorem squash_map {b c : ℝ} (hb : 0 < b) (hc : 0 < c) :
    Measure.map (squash b c) volume = ENNReal.ofReal (b * c) • volume := by
  have hd : (Matrix.diagonal ![1, b⁻¹, c⁻¹]).det = b⁻¹ * c⁻¹ := by simp [Matrix.det_diagonal, Fin.prod_univ_three]
  unfold squash
  rw [Real.map_matrix_volume_pi_eq_smul_volume_pi (by rw [hd]; positivity), hd]
  congr 2
  rw [abs_of_pos (by positivity)]
  simp [mul_comm]

/-- A function of the ellipsoidal radius. -/
theorem ell_integral {b c : ℝ} (hb : 0 < b) (hc : 0 < c) (F : ℝ → ℝ) :
    (Integrable (fun q => F (ellRadius b c q)) ↔ IntegrableOn (fun r => r ^ 2 * F r) (Ioi 0)) ∧
    ∫ q, F (ellRadius b c q) = 4 * Real.pi * b * c * ∫ r in Ioi (0 : ℝ), r ^ 2 * F r := by
  have e1 : (fun q => F (ellRadius b c q)) = (fun q => F (ellRadius 1 1 q)) ∘ squash b c := by
    funext q
    simp [ellRadius, squash_apply]
  have e2 : ∀ w : EuclideanSpace ℝ (Fin 3), ellRadius 1 1 (w.ofLp) = ‖w‖ := by
    intro w
    rw [EuclideanSpace.norm_eq]
    simp [ellRadius, Fin.sum_univ_three]
  have hp := EuclideanSpace.volume_preserving_symm_measurableEquiv_toLp (Fin 3)
  have hm := squash_embedding hb.ne' hc.ne'
  have hbc : ENNReal.ofReal (b * c) ≠ 0 := by simpa using mul_pos hb hc
  constructor
  · rw [e1, ← hm.integrable_map_iff, squash_map hb hc, integrable_smul_measure hbc ENNReal.ofReal_ne_top,
      ← hp.integrable_comp_emb (MeasurableEquiv.measurableEmbedding _)]
    have := integrable_fun_norm_addHaar (volume : Measure (EuclideanSpace ℝ (Fin 3))) (f := F)
    simp only [finrank_euclideanSpace, Fintype.card_fin, Nat.reduceSub, smul_eq_mul] at this
    rw [← this]
    refine integrable_congr (Filter.Eventually.of_forall fun w => ?_)
    exact congrArg F (e2 w)
  · rw [e1]
    refine (hm.integral_map (fun q => F (ellRadius 1 1 q))).symm.trans ?_
    rw [squash_map hb hc, integral_smul_measure,
      ← hp.integral_comp (MeasurableEquiv.measurableEmbedding _)]
    have := integral_fun_norm_addHaar (volume : Measure (EuclideanSpace ℝ (Fin 3))) F
    simp only [finrank_euclideanSpace, Fintype.card_fin, Nat.reduceSub, smul_eq_mul] at this
    rw [show (∫ w : EuclideanSpace ℝ (Fin 3), F (ellRadius 1 1 ((MeasurableEquiv.toLp 2 (Fin 3 → ℝ)).symm w)))
      = ∫ w : EuclideanSpace ℝ (Fin 3), F ‖w‖ from integral_congr_ae (Filter.Eventually.of_forall fun w => congrArg F (e2 w)),
      this, Measure.real, EuclideanSpace.volume_ball_fin_three,
      ENNReal.toReal_ofReal (mul_pos hb hc).le]
    have hpi : 0 ≤ Real.pi * 4 / 3 := by positivity
    simp only [ENNReal.ofReal_one, one_pow, one_mul, ENNReal.toReal_ofReal hpi, smul_eq_mul, nsmul_eq_mul]
    push_cast
    ring

/-- The mass within an ellipsoid is `b c` times that of the spherical density of the same profile. -/
theorem EllipsoidMass.of_shell {b c : ℝ} (hb : 0 < b) (hc : 0 < c) {ρ m : ℝ → ℝ} (h : EnclosedMass ρ m) :
    EllipsoidMass b c ρ (fun R => b * c * m R) := by
  intro R hR
  obtain ⟨h1, h2⟩ := h R hR
  have hs : MeasurableSet {q : Fin 3 → ℝ | ellRadius b c q < R} := by
    have : Measurable (ellRadius b c) := by unfold ellRadius; fun_prop
    exact this measurableSet_Iio
  have e : ∀ q, ({q : Fin 3 → ℝ | ellRadius b c q < R}).indicator (fun q => ρ (ellRadius b c q)) q
      = (Iio R).indicator ρ (ellRadius b c q) := fun q => by
    by_cases hq : ellRadius b c q < R <;> simp [hq]
  have k := ell_integral hb hc ((Iio R).indicator ρ)
  have e2 : (Ioi (0:ℝ)).indicator (fun r => r ^ 2 * (Iio R).indicator ρ r) = (Ioo 0 R).indicator fun r => r ^ 2 * ρ r := by
    funext r
    by_cases h0 : 0 < r <;> by_cases hr : r < R <;> simp [h0, hr]
  have h3 : IntegrableOn (fun r => r ^ 2 * ρ r) (Ioo 0 R) := by
    have : IntervalIntegrable (fun r => (4 * Real.pi)⁻¹ * (4 * Real.pi * r ^ 2 * ρ r)) volume 0 R := h1.const_mul _
    rw [intervalIntegrable_iff_integrableOn_Ioo_of_le hR.le] at this
    refine this.congr_fun (fun r _ => ?_) measurableSet_Ioo
    have := Real.pi_pos.ne'
    field_simp
  constructor
  · rw [← integrable_indicator_iff hs]
    simp only [funext e]
    rw [k.1, ← integrable_indicator_iff measurableSet_Ioi, e2, integrable_indicator_iff measurableSet_Ioo]
    exact h3
  · rw [← integral_indicator hs]
    simp only [e]
    rw [k.2, ← integral_indicator measurableSet_Ioi, e2, integral_indicator measurableSet_Ioo, ← integral_Ioc_eq_integral_Ioo,
      ← intervalIntegral.integral_of_le hR.le, ← h2]
    simp only [mul_assoc, intervalIntegral.integral_const_mul]
    ring

end Verif
