import Verif.Lemmas.Coords
import Mathlib.Algebra.BigOperators.Field

set_option autoImplicit false

/-!
# C67: covariance matrices are carried along by the coordinate transformations

`Spec.sampleCov x` is the covariance matrix of a finite sample of vectors. For a linear map the covariance of the
images of a sample must be what the covariance function makes of the covariance of the sample.
-/

noncomputable section
namespace Verif
open Real Coords Matrix

/-- Covariance of the images under an affine map. -/
theorem C67aux.affine {n m p : ℕ} (hn : n ≠ 0) (A : Matrix (Fin p) (Fin m) ℝ) (b : Fin p → ℝ)
    (x : Fin n → Fin m → ℝ) :
    Spec.sampleCov (fun k => A.mulVec (x k) + b) = A * (Spec.sampleCov x * A.transpose) := by
  have hn' : (n : ℝ) ≠ 0 := Nat.cast_ne_zero.2 hn
  have key : ∀ (k : Fin n) (i : Fin p),
      (A.mulVec (x k) + b) i - (∑ k', (A.mulVec (x k') + b) i) / n =
        ∑ a, A i a * (x k a - (∑ k', x k' a) / n) := by
    intro k i
    simp only [Pi.add_apply, Matrix.mulVec, dotProduct, Finset.sum_add_distrib, Finset.sum_const, Finset.card_univ,
      Fintype.card_fin, nsmul_eq_mul]
    rw [Finset.sum_comm]
    simp only [← Finset.mul_sum, mul_sub, Finset.sum_sub_distrib]
    rw [add_div, Finset.sum_div, mul_div_cancel_left₀ _ hn']
    simp only [mul_div_assoc]
    ring
  ext i j
  simp only [Spec.sampleCov, key, Matrix.mul_apply, Matrix.transpose_apply]
  generalize hy : (fun (k : Fin n) (a : Fin m) => x k a - (∑ k', x k' a) / n) = y
  simp only [funext_iff] at hy
  simp only [hy, Finset.sum_mul_sum, Finset.mul_sum, Finset.sum_mul, Finset.sum_div]
  rw [Finset.sum_comm]
  conv_rhs => rw [Finset.sum_comm]
  refine Finset.sum_congr rfl fun a _ => ?_
  rw [Finset.sum_comm]
  refine Finset.sum_congr rfl fun c _ => ?_
  refine Finset.sum_congr rfl fun k _ => ?_
  ring

/-- Proper motions: the covariance in `(pmll, pmbb)` is that of the transformed sample, at every position
outside the declination of the pole, where the transformation of the proper motions moves the object. -/
theorem C67_pm (e : Epoch) {n : ℕ} (hn : n ≠ 0) (x : Fin n → Fin 2 → ℝ) (ra dec : ℝ) (h : dec ≠ e.dec_ngp) :
    cov_pmrapmdec_to_pmllpmbb e (Spec.sampleCov x) ra dec =
      Spec.sampleCov fun k => ![(pmrapmdec_to_pmllpmbb e (x k 0) (x k 1) ra dec).1,
        (pmrapmdec_to_pmllpmbb e (x k 0) (x k 1) ra dec).2] := by
  simp only [cov_pmrapmdec_to_pmllpmbb, ← C67aux.affine hn _ 0 x]
  congr 1
  ext k i
  fin_cases i <;> simp [pmrapmdec_to_pmllpmbb, pmAngles, h, Matrix.mulVec, dotProduct, Fin.sum_univ_two]

/-- Galactocentric rectangular to cylindrical velocities. -/
theorem C67_galcencyl {n : ℕ} (hn : n ≠ 0) (x : Fin n → Fin 3 → ℝ) (phi : ℝ) :
    cov_galcenrect_to_galcencyl (Spec.sampleCov x) phi =
      Spec.sampleCov fun k => ![(rect_to_cyl_vec_cyl (x k 0) (x k 1) (x k 2) phi).1,
        (rect_to_cyl_vec_cyl (x k 0) (x k 1) (x k 2) phi).2.1,
        (rect_to_cyl_vec_cyl (x k 0) (x k 1) (x k 2) phi).2.2] := by
  simp only [cov_galcenrect_to_galcencyl, ← C67aux.affine hn _ 0 x]
  congr 1
  ext k i
  fin_cases i <;> simp [rect_to_cyl_vec_cyl, Matrix.mulVec, dotProduct, Fin.sum_univ_three] <;> ring

/-- Distance (or parallax), line-of-sight velocity and proper motions to heliocentric velocities: the covariance
is the one propagated linearly with the Jacobian of the transformation. -/
theorem C67_dvrpmllbb (K l b : ℝ) (plx : Bool) (e_d e_vr : ℝ) (cov : Matrix (Fin 2) (Fin 2) ℝ) (q : Fin 4 → ℝ)
    (hd : plx = true → q 0 ≠ 0) :
    ∃ J : Matrix (Fin 3) (Fin 4) ℝ,
      Spec.IsJacobian (fun q : Fin 4 → ℝ =>
        vrpmllpmbb_to_vxvyvz K (q 1) (q 2) (q 3) l b (if plx then 1 / q 0 else q 0)) q J ∧
      cov_dvrpmllbb_to_vxyz K (q 0) e_d e_vr (q 2) (q 3) cov l b plx =
        J * (!![e_d ^ 2, 0, 0, 0; 0, e_vr ^ 2, 0, 0; 0, 0, cov 0 0, cov 0 1; 0, 0, cov 1 0, cov 1 1] *
          J.transpose) := by
  cases plx
  · refine ⟨Matrix.of fun i => ![K * (lbR l b 1 i * q 2 + lbR l b 2 i * q 3), lbR l b 0 i, K * q 0 * lbR l b 1 i,
      K * q 0 * lbR l b 2 i], ?_, ?_⟩
    · intro c c' t hc h i
      subst hc
      have h0 := h 0; have h1 := h 1; have h2 := h 2; have h3 := h 3
      simp only [vrpmllpmbb_to_vxvyvz, Bool.false_eq_true, if_false, Fin.sum_univ_four]
      generalize lbR l b = A
      apply HasDerivAt.congr_deriv
      · hasderiv
      · simp; ring
    · simp only [cov_dvrpmllbb_to_vxyz, Bool.false_eq_true, if_false]
      generalize lbR l b = A
      ext i j
      simp only [Matrix.mul_apply, Fin.sum_univ_three, Fin.sum_univ_four, Matrix.transpose_apply]
      simp
      ring
  · have h0' := hd rfl
    refine ⟨Matrix.of fun i => ![-K * (lbR l b 1 i * q 2 + lbR l b 2 i * q 3) / q 0 ^ 2, lbR l b 0 i, K / q 0 * lbR l b 1 i,
      K / q 0 * lbR l b 2 i], ?_, ?_⟩
    · intro c c' t hc h i
      subst hc
      have h0 := h 0; have h1 := h 1; have h2 := h 2; have h3 := h 3
      simp only [vrpmllpmbb_to_vxvyvz, if_true, Fin.sum_univ_four]
      generalize lbR l b = A
      apply HasDerivAt.congr_deriv
      · hasderiv
      · simp; field_simp; ring
    · simp only [cov_dvrpmllbb_to_vxyz, if_true]
      generalize lbR l b = A
      ext i j
      simp only [Matrix.mul_apply, Fin.sum_univ_three, Fin.sum_univ_four, Matrix.transpose_apply]
      simp
      field_simp
      ring

/-! ### Heliocentric to Galactocentric rectangular -/

/-- The full claim: for every sample of heliocentric velocities, the function gives the covariance of their
Galactocentric images under `vxvyvz_to_galcenrect`. -/
def C67aux.Galcenrect (E : Option (Matrix (Fin 3) (Fin 3) ℝ)) (vsun : Fin 3 → ℝ) (Xsun Zsun : ℝ) : Prop :=
  ∀ (n : ℕ) (x : Fin n → Fin 3 → ℝ), n ≠ 0 →
    cov_vxyz_to_galcenrect Xsun Zsun (Spec.sampleCov x) =
      Spec.sampleCov fun k => vxvyvz_to_galcenrect E vsun Xsun Zsun (x k)

/-- The matrix of the transformation. -/
def C67aux.A (Xsun Zsun : ℝ) : Matrix (Fin 3) (Fin 3) ℝ :=
  let dgc := sqrt (Xsun ^ 2 + Zsun ^ 2);
  !![-(Xsun / dgc), 0, -(Zsun / dgc) * sgn Xsun; 0, 1, 0; -(Zsun / dgc), 0, Xsun / dgc * sgn Xsun]

theorem C67aux.image (vsun : Fin 3 → ℝ) (Xsun Zsun : ℝ) {n : ℕ} (hn : n ≠ 0) (x : Fin n → Fin 3 → ℝ) :
    (Spec.sampleCov fun k => vxvyvz_to_galcenrect none vsun Xsun Zsun (x k)) =
      C67aux.A Xsun Zsun * (Spec.sampleCov x * (C67aux.A Xsun Zsun).transpose) := by
  rw [← C67aux.affine hn _ vsun x]
  congr 1
  ext k i
  simp only [vxvyvz_to_galcenrect, rot, Pi.add_apply, mulVec3, C67aux.A, gcR]
  fin_cases i <;> simp <;> ring

/-- What holds without the additional rotation: the variance of the second component, the sum of the variances,
and, for an observer in the plane, every variance. The covariances are missing: `cov_vxyz_to_galcenrect` leaves
out the reflection of the axes, and uses the transposed rotation. -/
theorem C67_galcenrect_partial (vsun : Fin 3 → ℝ) (Xsun Zsun : ℝ) (hX : Xsun ≠ 0) {n : ℕ} (hn : n ≠ 0)
    (x : Fin n → Fin 3 → ℝ) :
    let c := cov_vxyz_to_galcenrect Xsun Zsun (Spec.sampleCov x);
    let c' := Spec.sampleCov fun k => vxvyvz_to_galcenrect none vsun Xsun Zsun (x k);
    c 1 1 = c' 1 1 ∧ c.trace = c'.trace ∧ (Zsun = 0 → ∀ i, c i i = c' i i) := by
  have hp : 0 < Xsun ^ 2 + Zsun ^ 2 := by positivity
  have hs : sqrt (Xsun ^ 2 + Zsun ^ 2) ^ 2 = Xsun ^ 2 + Zsun ^ 2 := Real.sq_sqrt hp.le
  have hs' := Real.sqrt_pos.2 hp
  have hg : sgn Xsun ^ 2 = 1 := by
    unfold sgn; rcases lt_or_gt_of_ne hX with h | h
    · rw [if_neg (not_lt.2 h.le), if_pos h]; norm_num
    · rw [if_pos h]; norm_num
  have hcs : (Xsun / sqrt (Xsun ^ 2 + Zsun ^ 2)) ^ 2 + (Zsun / sqrt (Xsun ^ 2 + Zsun ^ 2)) ^ 2 = 1 := by
    field_simp; linarith
  simp only [C67aux.image vsun Xsun Zsun hn x, cov_vxyz_to_galcenrect, C67aux.A, gcR]
  generalize Spec.sampleCov x = C
  refine ⟨?_, ?_, ?_⟩
  · simp only [Matrix.mul_apply, Fin.sum_univ_three, Matrix.transpose_apply]; simp
  · simp only [Matrix.trace, Matrix.diag, Matrix.mul_apply, Fin.sum_univ_three, Matrix.transpose_apply]; simp
    generalize Xsun / sqrt (Xsun ^ 2 + Zsun ^ 2) = c at *
    generalize Zsun / sqrt (Xsun ^ 2 + Zsun ^ 2) = s at *
    grind
  · intro hz i
    subst hz
    simp only [Matrix.mul_apply, Fin.sum_univ_three, Matrix.transpose_apply]
    simp only [zero_div] at hcs ⊢
    generalize Xsun / sqrt (Xsun ^ 2 + 0 ^ 2) = c at *
    fin_cases i <;> simp
    grind

/-- The claim is false for every position of the sun. -/
theorem C67_galcenrect_fails (vsun : Fin 3 → ℝ) (Xsun Zsun : ℝ) (hX : Xsun ≠ 0) :
    ¬ C67aux.Galcenrect none vsun Xsun Zsun := by
  intro h
  have h := h 2 ![![1, 1, 0], ![-1, -1, 0]] two_ne_zero
  rw [C67aux.image vsun Xsun Zsun two_ne_zero] at h
  have hp : 0 < Xsun ^ 2 + Zsun ^ 2 := by positivity
  have hs' := Real.sqrt_pos.2 hp
  have h01 := congrFun (congrFun h 0) 1
  simp only [cov_vxyz_to_galcenrect, C67aux.A, gcR, Matrix.mul_apply, Fin.sum_univ_three, Matrix.transpose_apply,
    Spec.sampleCov, Fin.sum_univ_two] at h01
  simp at h01
  have h2 : Xsun / sqrt (Xsun ^ 2 + Zsun ^ 2) ≠ 0 := div_ne_zero hX hs'.ne'
  apply h2
  linarith

/-- The same sample in cylindrical coordinates, for an observer on the first axis and an object on it. -/
theorem C67_galcencyl_fails : ∃ (n : ℕ) (x : Fin n → Fin 3 → ℝ), n ≠ 0 ∧
    cov_vxyz_to_galcencyl (Spec.sampleCov x) 0 1 0 ≠
      Spec.sampleCov fun k => ![(rect_to_cyl_vec_cyl (vxvyvz_to_galcenrect none 0 1 0 (x k) 0)
          (vxvyvz_to_galcenrect none 0 1 0 (x k) 1) (vxvyvz_to_galcenrect none 0 1 0 (x k) 2) 0).1,
        (rect_to_cyl_vec_cyl (vxvyvz_to_galcenrect none 0 1 0 (x k) 0)
          (vxvyvz_to_galcenrect none 0 1 0 (x k) 1) (vxvyvz_to_galcenrect none 0 1 0 (x k) 2) 0).2.1,
        (rect_to_cyl_vec_cyl (vxvyvz_to_galcenrect none 0 1 0 (x k) 0)
          (vxvyvz_to_galcenrect none 0 1 0 (x k) 1) (vxvyvz_to_galcenrect none 0 1 0 (x k) 2) 0).2.2] := by
  refine ⟨2, ![![1, 1, 0], ![-1, -1, 0]], two_ne_zero, ?_⟩
  rw [← C67_galcencyl two_ne_zero]
  intro h
  have h01 := congrFun (congrFun h 0) 1
  rw [C67aux.image 0 1 0 two_ne_zero] at h01
  simp only [cov_vxyz_to_galcencyl, cov_galcenrect_to_galcencyl, cov_vxyz_to_galcenrect, C67aux.A, gcR,
    Matrix.mul_apply, Fin.sum_univ_three, Matrix.transpose_apply, Spec.sampleCov, Fin.sum_univ_two] at h01
  simp at h01
  norm_num at h01

/-! ### Instances -/

example : cov_pmrapmdec_to_pmllpmbb epoch2000 (Spec.sampleCov ![![1, 2], ![3, 5], ![-1, 0]]) 1 0 =
    Spec.sampleCov fun k => ![(pmrapmdec_to_pmllpmbb epoch2000 (![![1, 2], ![3, 5], ![-1, 0]] k 0)
      (![![1, 2], ![3, 5], ![-1, 0]] k 1) 1 0).1, (pmrapmdec_to_pmllpmbb epoch2000 (![![1, 2], ![3, 5], ![-1, 0]] k 0)
      (![![1, 2], ![3, 5], ![-1, 0]] k 1) 1 0).2] :=
  C67_pm epoch2000 three_ne_zero _ 1 0 (by
    have := Real.pi_pos
    simp only [epoch2000]
    exact (by positivity : (0 : ℝ) < _).ne)

/-- A parallax of 2 with an error. -/
example : ∃ J : Matrix (Fin 3) (Fin 4) ℝ,
    Spec.IsJacobian (fun q : Fin 4 → ℝ => vrpmllpmbb_to_vxvyvz 4.74 (q 1) (q 2) (q 3) 1 2 (1 / q 0)) ![2, 3, 4, 5] J ∧
    cov_dvrpmllbb_to_vxyz 4.74 2 0.1 0.2 4 5 !![1, 0.5; 0.5, 2] 1 2 true =
      J * ((!![0.1 ^ 2, 0, 0, 0; 0, 0.2 ^ 2, 0, 0; 0, 0, 1, 0.5; 0, 0, 0.5, 2] : Matrix (Fin 4) (Fin 4) ℝ) * J.transpose) := by
  simpa using C67_dvrpmllbb 4.74 1 2 true 0.1 0.2 !![1, 0.5; 0.5, 2] ![2, 3, 4, 5] (by simp)

example : ¬ C67aux.Galcenrect none 0 8 0.02 := C67_galcenrect_fails 0 8 0.02 (by norm_num)

end Verif
