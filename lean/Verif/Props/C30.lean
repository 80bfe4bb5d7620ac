import Mathlib.Analysis.Real.Pi.Bounds
import Verif.Lemmas.Coords
import Mathlib.Analysis.SpecialFunctions.Arcosh
import Mathlib.Analysis.SpecialFunctions.Trigonometric.DerivHyp

set_option autoImplicit false

/-!
# C30: spheroidal coordinates
-/

noncomputable section
namespace Verif
open Real Coords

/-- Sum and difference of the distances to two points at `±δ` on an axis. -/
theorem C30aux.foci {x y δ : ℝ} (hδ : 0 < δ) :
    let s1 := sqrt ((x + δ) ^ 2 + y ^ 2);
    let s2 := sqrt ((x - δ) ^ 2 + y ^ 2);
    1 ≤ 0.5 / δ * (s1 + s2) ∧ -1 ≤ 0.5 / δ * (s1 - s2) ∧ 0.5 / δ * (s1 - s2) ≤ 1 ∧
      (0.5 / δ * (s1 + s2)) * (0.5 / δ * (s1 - s2)) = x / δ ∧
      ((0.5 / δ * (s1 + s2)) ^ 2 - 1) * (1 - (0.5 / δ * (s1 - s2)) ^ 2) = (y / δ) ^ 2 := by
  intro s1 s2
  have h1 : s1 ^ 2 = (x + δ) ^ 2 + y ^ 2 := Real.sq_sqrt (by positivity)
  have h2 : s2 ^ 2 = (x - δ) ^ 2 + y ^ 2 := Real.sq_sqrt (by positivity)
  have p1 : 0 ≤ s1 := Real.sqrt_nonneg _
  have p2 : 0 ≤ s2 := Real.sqrt_nonneg _
  have a1 : |x + δ| ≤ s1 := abs_le_of_sq_le_sq (by nlinarith [sq_nonneg y]) p1
  have a2 : |x - δ| ≤ s2 := abs_le_of_sq_le_sq (by nlinarith [sq_nonneg y]) p2
  rw [abs_le] at a1 a2
  have q1 : 2 * δ ≤ s1 + s2 := by linarith
  have q2 : (s1 - s2) * (s1 + s2) = 4 * x * δ := by linear_combination h1 - h2
  have q3 : (s1 - s2) ^ 2 ≤ (2 * δ) ^ 2 := by
    have e : 2 * (s1 * s2) ≥ 2 * (x ^ 2 + y ^ 2 - δ ^ 2) := by
      by_cases hn : x ^ 2 + y ^ 2 - δ ^ 2 ≤ 0
      · have := mul_nonneg p1 p2; linarith
      · have : x ^ 2 + y ^ 2 - δ ^ 2 ≤ s1 * s2 := by
          apply le_of_sq_le_sq _ (mul_nonneg p1 p2)
          rw [mul_pow, h1, h2]; nlinarith [sq_nonneg (y * δ), sq_nonneg (y * x)]
        linarith
    nlinarith
  have q4 := abs_le_of_sq_le_sq' q3 (by positivity)
  have q5 : (0.5 / δ * (s1 + s2)) * (0.5 / δ * (s1 - s2)) = x / δ := by field_simp; nlinarith
  have q6 : (0.5 / δ * (s1 + s2)) ^ 2 + (0.5 / δ * (s1 - s2)) ^ 2 = (x ^ 2 + y ^ 2 + δ ^ 2) / δ ^ 2 := by
    field_simp; nlinarith
  refine ⟨?_, ?_, ?_, q5, ?_⟩
  · rw [div_mul_eq_mul_div, le_div_iff₀ hδ]; linarith
  · rw [div_mul_eq_mul_div, le_div_iff₀ hδ]; linarith
  · rw [div_mul_eq_mul_div, div_le_iff₀ hδ]; linarith
  · generalize 0.5 / δ * (s1 + s2) = c at *
    generalize 0.5 / δ * (s1 - s2) = d at *
    have e : (c ^ 2 - 1) * (1 - d ^ 2) = (c ^ 2 + d ^ 2) - 1 - (c * d) ^ 2 := by ring
    rw [e, q5, q6]; field_simp; ring

/-- Prolate coordinates: from `(R, z)` and back, with the ranges of `u` and `v`. -/
theorem C30_prolate_round_trip (R z δ : ℝ) (hδ : 0 < δ) (hR : 0 ≤ R) :
    let w := Rz_to_uv R z δ false;
    uv_to_Rz w.1 w.2 δ false = (R, z) ∧ 0 ≤ w.1 ∧ 0 ≤ w.2 ∧ w.2 ≤ π := by
  obtain ⟨h1, h2, h3, h4, h5⟩ := C30aux.foci (x := z) (y := R) hδ
  simp only [Rz_to_uv, Rz_to_coshucosv, uv_to_Rz, Bool.false_eq_true, if_false] at h1 h2 h3 h4 h5 ⊢
  refine ⟨?_, Real.arcosh_nonneg h1, Real.arccos_nonneg _, Real.arccos_le_pi _⟩
  rw [Real.cosh_arcosh h1, Real.cos_arccos h2 h3, Real.sinh_arcosh h1, Real.sin_arccos]
  ext
  · simp only
    rw [mul_assoc, ← Real.sqrt_mul (by nlinarith), h5, Real.sqrt_sq (by positivity)]
    field_simp
  · simp only
    rw [mul_assoc, h4]; field_simp

/-- And from `(u, v)`. -/
theorem C30_prolate_round_trip_uv (u v δ : ℝ) (hδ : 0 < δ) (hu : 0 ≤ u) (hv : 0 ≤ v) (hv' : v ≤ π) :
    let q := uv_to_Rz u v δ false;
    Rz_to_uv q.1 q.2 δ false = (u, v) ∧ 0 ≤ q.1 := by
  have hs := Real.sin_sq_add_cos_sq v
  have hc := Real.cosh_sq u
  have h1 : 1 ≤ cosh u := Real.one_le_cosh u
  have h2 := Real.cos_le_one v
  have h3 := Real.neg_one_le_cos v
  simp only [Rz_to_uv, Rz_to_coshucosv, uv_to_Rz, Bool.false_eq_true, if_false]
  have e1 : sqrt ((δ * cosh u * cos v + δ) ^ 2 + (δ * sinh u * sin v) ^ 2) = δ * (cosh u + cos v) := by
    rw [← Real.sqrt_sq (by nlinarith : 0 ≤ δ * (cosh u + cos v))]
    congr 1
    linear_combination δ ^ 2 * sinh u ^ 2 * hs + δ ^ 2 * (cos v ^ 2 - 1) * hc
  have e2 : sqrt ((δ * cosh u * cos v - δ) ^ 2 + (δ * sinh u * sin v) ^ 2) = δ * (cosh u - cos v) := by
    rw [← Real.sqrt_sq (by nlinarith : 0 ≤ δ * (cosh u - cos v))]
    congr 1
    linear_combination δ ^ 2 * sinh u ^ 2 * hs + δ ^ 2 * (cos v ^ 2 - 1) * hc
  rw [e1, e2]
  refine ⟨?_, mul_nonneg (mul_nonneg hδ.le (Real.sinh_nonneg_iff.2 hu)) (Real.sin_nonneg_of_mem_Icc ⟨hv, hv'⟩)⟩
  have e3 : 0.5 / δ * (δ * (cosh u + cos v) + δ * (cosh u - cos v)) = cosh u := by field_simp; ring
  have e4 : 0.5 / δ * (δ * (cosh u + cos v) - δ * (cosh u - cos v)) = cos v := by field_simp; ring
  rw [e3, e4, Real.arcosh_cosh hu, Real.arccos_cos hv hv']

/-- Oblate coordinates: from `(R, z)` and back returns `z` without its sign. -/
theorem C30_oblate_round_trip (R z δ : ℝ) (hδ : 0 < δ) (hR : 0 ≤ R) :
    let w := Rz_to_uv R z δ true;
    uv_to_Rz w.1 w.2 δ true = (R, |z|) ∧ 0 ≤ w.1 ∧ 0 ≤ w.2 ∧ w.2 ≤ π / 2 := by
  obtain ⟨h1, h2, h3, h4, h5⟩ := C30aux.foci (x := R) (y := z) hδ
  simp only [Rz_to_uv, Rz_to_coshucosv, uv_to_Rz, if_true] at h1 h2 h3 h4 h5 ⊢
  generalize 0.5 / δ * (sqrt ((R + δ) ^ 2 + z ^ 2) + sqrt ((R - δ) ^ 2 + z ^ 2)) = c at *
  generalize 0.5 / δ * (sqrt ((R + δ) ^ 2 + z ^ 2) - sqrt ((R - δ) ^ 2 + z ^ 2)) = d at *
  have hd : 0 ≤ d := by
    by_contra hn
    have : c * d < 0 := mul_neg_of_pos_of_neg (by linarith) (not_le.1 hn)
    rw [h4] at this
    have : 0 ≤ R / δ := by positivity
    linarith
  have hd2 : 0 ≤ 1 - d ^ 2 := by nlinarith
  have hs1 : sqrt (1 - d ^ 2) ≤ 1 := by rw [Real.sqrt_le_one]; nlinarith
  refine ⟨?_, Real.arcosh_nonneg h1, Real.arccos_nonneg _, Real.arccos_le_pi_div_two.2 (Real.sqrt_nonneg _)⟩
  rw [Real.cosh_arcosh h1, Real.cos_arccos (by linarith [Real.sqrt_nonneg (1 - d ^ 2)]) hs1, Real.sinh_arcosh h1,
    Real.sin_arccos, Real.sq_sqrt hd2, show 1 - (1 - d ^ 2) = d ^ 2 by ring, Real.sqrt_sq hd]
  ext
  · simp only
    rw [mul_assoc, h4]; field_simp
  · simp only
    rw [mul_assoc, ← Real.sqrt_mul (by nlinarith), h5, Real.sqrt_sq_eq_abs, abs_div, abs_of_pos hδ]
    field_simp

/-- And from `(u, v)`. -/
theorem C30_oblate_round_trip_uv (u v δ : ℝ) (hδ : 0 < δ) (hu : 0 ≤ u) (hv : 0 ≤ v) (hv' : v ≤ π / 2) :
    let q := uv_to_Rz u v δ true;
    Rz_to_uv q.1 q.2 δ true = (u, v) ∧ 0 ≤ q.1 ∧ 0 ≤ q.2 := by
  have hs := Real.sin_sq_add_cos_sq v
  have hc := Real.cosh_sq u
  have hpi := Real.pi_pos
  have h1 : 1 ≤ cosh u := Real.one_le_cosh u
  have h2 := Real.sin_le_one v
  have h3 := Real.neg_one_le_sin v
  have hcv : 0 ≤ cos v := Real.cos_nonneg_of_mem_Icc ⟨by linarith, hv'⟩
  have hsv : 0 ≤ sin v := Real.sin_nonneg_of_mem_Icc ⟨hv, by linarith⟩
  simp only [Rz_to_uv, Rz_to_coshucosv, uv_to_Rz, if_true]
  have e1 : sqrt ((δ * cosh u * sin v + δ) ^ 2 + (δ * sinh u * cos v) ^ 2) = δ * (cosh u + sin v) := by
    rw [← Real.sqrt_sq (by nlinarith : 0 ≤ δ * (cosh u + sin v))]
    congr 1
    linear_combination δ ^ 2 * sinh u ^ 2 * hs + δ ^ 2 * (sin v ^ 2 - 1) * hc
  have e2 : sqrt ((δ * cosh u * sin v - δ) ^ 2 + (δ * sinh u * cos v) ^ 2) = δ * (cosh u - sin v) := by
    rw [← Real.sqrt_sq (by nlinarith : 0 ≤ δ * (cosh u - sin v))]
    congr 1
    linear_combination δ ^ 2 * sinh u ^ 2 * hs + δ ^ 2 * (sin v ^ 2 - 1) * hc
  rw [e1, e2]
  refine ⟨?_, mul_nonneg (mul_nonneg hδ.le (by linarith)) hsv,
    mul_nonneg (mul_nonneg hδ.le (Real.sinh_nonneg_iff.2 hu)) hcv⟩
  have e3 : 0.5 / δ * (δ * (cosh u + sin v) + δ * (cosh u - sin v)) = cosh u := by field_simp; ring
  have e4 : 0.5 / δ * (δ * (cosh u + sin v) - δ * (cosh u - sin v)) = sin v := by field_simp; ring
  have e5 : 1 - sin v ^ 2 = cos v ^ 2 := by linarith
  rw [e3, e4, e5, Real.sqrt_sq hcv, Real.arcosh_cosh hu, Real.arccos_cos hv (by linarith)]

/-- Points below the plane do not make the oblate round trip. -/
theorem C30_oblate_sign_fails (R z δ : ℝ) (hδ : 0 < δ) (hR : 0 ≤ R) (hz : z < 0) :
    uv_to_Rz (Rz_to_uv R z δ true).1 (Rz_to_uv R z δ true).2 δ true ≠ (R, z) := by
  rw [(C30_oblate_round_trip R z δ hδ hR).1, abs_of_neg hz]
  intro h
  have := congrArg Prod.snd h
  simp only at this
  linarith

/-! ### Momenta -/

/-- Square of the scale factor of the coordinates, over the square of the focal length. -/
def C30aux.scale (u v : ℝ) (oblate : Bool) : ℝ := sinh u ^ 2 + (if oblate then cos v else sin v) ^ 2

/-- Along every motion the momenta are `delta^2 (sinh^2 u + sin^2 v)` times the rates of `u` and `v` (with the
cosine in the oblate case): they are the momenta conjugate to `u` and `v`. -/
theorem C30_momenta (δ : ℝ) (oblate : Bool) {u v : ℝ → ℝ} {u' v' vR vz t : ℝ} (hu : HasDerivAt u u' t)
    (hv : HasDerivAt v v' t) (hR : HasDerivAt (fun s => (uv_to_Rz (u s) (v s) δ oblate).1) vR t)
    (hz : HasDerivAt (fun s => (uv_to_Rz (u s) (v s) δ oblate).2) vz t) :
    vRvz_to_pupv_uv vR vz (u t) (v t) δ oblate =
      (δ ^ 2 * C30aux.scale (u t) (v t) oblate * u', δ ^ 2 * C30aux.scale (u t) (v t) oblate * v') := by
  have hs := Real.sin_sq_add_cos_sq (v t)
  have hc := Real.cosh_sq (u t)
  cases oblate
  · simp only [uv_to_Rz, vRvz_to_pupv_uv, C30aux.scale, Bool.false_eq_true, if_false] at hR hz ⊢
    have r1 : HasDerivAt (fun s => δ * sinh (u s) * sin (v s))
        (δ * (cosh (u t) * u') * sin (v t) + δ * sinh (u t) * (cos (v t) * v')) t :=
      (hu.sinh.const_mul δ).mul hv.sin
    have r2 : HasDerivAt (fun s => δ * cosh (u s) * cos (v s))
        (δ * (sinh (u t) * u') * cos (v t) + δ * cosh (u t) * (-sin (v t) * v')) t :=
      (hu.cosh.const_mul δ).mul hv.cos
    rw [hR.unique r1, hz.unique r2]
    ext
    · simp only; linear_combination δ ^ 2 * u' * sin (v t) ^ 2 * hc + δ ^ 2 * u' * sinh (u t) ^ 2 * hs
    · simp only; linear_combination δ ^ 2 * v' * sin (v t) ^ 2 * hc + δ ^ 2 * v' * sinh (u t) ^ 2 * hs
  · simp only [uv_to_Rz, vRvz_to_pupv_uv, C30aux.scale, if_true] at hR hz ⊢
    have r1 : HasDerivAt (fun s => δ * cosh (u s) * sin (v s))
        (δ * (sinh (u t) * u') * sin (v t) + δ * cosh (u t) * (cos (v t) * v')) t :=
      (hu.cosh.const_mul δ).mul hv.sin
    have r2 : HasDerivAt (fun s => δ * sinh (u s) * cos (v s))
        (δ * (cosh (u t) * u') * cos (v t) + δ * sinh (u t) * (-sin (v t) * v')) t :=
      (hu.sinh.const_mul δ).mul hv.cos
    rw [hR.unique r1, hz.unique r2]
    ext
    · simp only; linear_combination δ ^ 2 * u' * cos (v t) ^ 2 * hc + δ ^ 2 * u' * sinh (u t) ^ 2 * hs
    · simp only; linear_combination δ ^ 2 * v' * cos (v t) ^ 2 * hc + δ ^ 2 * v' * sinh (u t) ^ 2 * hs

/-- The kinetic energy in the plane is `(pu^2 + pv^2) / (delta^2 (sinh^2 u + sin^2 v))`, and converting back returns
the velocities. -/
theorem C30_momenta_round_trip (vR vz u v δ : ℝ) (oblate : Bool) (hδ : δ ≠ 0) (h : C30aux.scale u v oblate ≠ 0) :
    let p := vRvz_to_pupv_uv vR vz u v δ oblate;
    pupv_to_vRvz p.1 p.2 u v δ oblate = (vR, vz) ∧
      p.1 ^ 2 + p.2 ^ 2 = δ ^ 2 * C30aux.scale u v oblate * (vR ^ 2 + vz ^ 2) := by
  have hs := Real.sin_sq_add_cos_sq v
  have hc := Real.cosh_sq u
  cases oblate
  · simp only [vRvz_to_pupv_uv, pupv_to_vRvz, C30aux.scale, Bool.false_eq_true, if_false] at h ⊢
    generalize sin v = sv at *; generalize cos v = cv at *; generalize sinh u = su at *; generalize cosh u = cu at *
    refine ⟨?_, by grind⟩
    ext <;> simp only <;> field_simp <;> grind
  · simp only [vRvz_to_pupv_uv, pupv_to_vRvz, C30aux.scale, if_true] at h ⊢
    generalize sin v = sv at *; generalize cos v = cv at *; generalize sinh u = su at *; generalize cosh u = cu at *
    refine ⟨?_, by grind⟩
    ext <;> simp only <;> field_simp <;> grind

/-- From momenta and back. -/
theorem C30_momenta_round_trip_uv (pu pv u v δ : ℝ) (oblate : Bool) (hδ : δ ≠ 0) (h : C30aux.scale u v oblate ≠ 0) :
    let w := pupv_to_vRvz pu pv u v δ oblate;
    vRvz_to_pupv_uv w.1 w.2 u v δ oblate = (pu, pv) := by
  have hs := Real.sin_sq_add_cos_sq v
  have hc := Real.cosh_sq u
  cases oblate
  · simp only [vRvz_to_pupv_uv, pupv_to_vRvz, C30aux.scale, Bool.false_eq_true, if_false] at h ⊢
    generalize sin v = sv at *; generalize cos v = cv at *; generalize sinh u = su at *; generalize cosh u = cu at *
    ext <;> simp only <;> field_simp <;> grind
  · simp only [vRvz_to_pupv_uv, pupv_to_vRvz, C30aux.scale, if_true] at h ⊢
    generalize sin v = sv at *; generalize cos v = cv at *; generalize sinh u = su at *; generalize cosh u = cu at *
    ext <;> simp only <;> field_simp <;> grind

/-- With the position given as `(R, z)`, on the fundamental domain. -/
theorem C30_momenta_Rz (vR vz u v δ : ℝ) (oblate : Bool) (hδ : 0 < δ) (hu : 0 ≤ u) (hv : 0 ≤ v)
    (hv' : v ≤ if oblate then π / 2 else π) :
    let q := uv_to_Rz u v δ oblate;
    vRvz_to_pupv vR vz q.1 q.2 δ oblate = vRvz_to_pupv_uv vR vz u v δ oblate := by
  cases oblate
  · simp only [vRvz_to_pupv, (C30_prolate_round_trip_uv u v δ hδ hu hv (by simpa using hv')).1]
  · simp only [vRvz_to_pupv, (C30_oblate_round_trip_uv u v δ hδ hu hv (by simpa using hv')).1]

/-! ### The coordinates `lambda` and `nu` -/

/-- Discriminant. -/
def C30aux.disc (R z Δ : ℝ) : ℝ := (R ^ 2 + z ^ 2 - Δ ^ 2) ^ 2 + 4 * Δ ^ 2 * R ^ 2

theorem C30aux.disc_nonneg (R z Δ : ℝ) : 0 ≤ C30aux.disc R z Δ := by unfold C30aux.disc; positivity

/-- The branch for the plane agrees with the general formula. -/
theorem C30aux.lambdanu_eq (R z ac Δ : ℝ) :
    Rz_to_lambdanu R z ac Δ =
      (0.5 * (R ^ 2 + z ^ 2 - (Δ ^ 2 / (1 - ac ^ 2) - Δ ^ 2) - Δ ^ 2 / (1 - ac ^ 2) + sqrt (C30aux.disc R z Δ)),
        0.5 * (R ^ 2 + z ^ 2 - (Δ ^ 2 / (1 - ac ^ 2) - Δ ^ 2) - Δ ^ 2 / (1 - ac ^ 2) - sqrt (C30aux.disc R z Δ))) := by
  simp only [Rz_to_lambdanu, C30aux.disc]
  split_ifs with h
  · subst h
    have : (R ^ 2 + 0 ^ 2 - Δ ^ 2) ^ 2 + 4 * Δ ^ 2 * R ^ 2 = (R ^ 2 + Δ ^ 2) ^ 2 := by ring
    rw [this, Real.sqrt_sq (by positivity)]
    ext <;> ring
  · rfl

/-- `lambda + a >= 0 >= nu + a` and `nu + g >= 0`, and `lambda`, `nu` are the two solutions of
`R^2/(tau + a) + z^2/(tau + g) = 1`, written without denominators. -/
theorem C30_lambdanu_ranges (R z ac Δ : ℝ) :
    let q := Rz_to_lambdanu R z ac Δ;
    let g := Δ ^ 2 / (1 - ac ^ 2);
    let a := g - Δ ^ 2;
    0 ≤ q.1 + a ∧ q.2 + a ≤ 0 ∧ 0 ≤ q.2 + g ∧
      (∀ tau, (tau - q.1) * (tau - q.2) = (tau + a) * (tau + g) - R ^ 2 * (tau + g) - z ^ 2 * (tau + a)) := by
  rw [C30aux.lambdanu_eq]
  have hn := C30aux.disc_nonneg R z Δ
  have hs := Real.sq_sqrt hn
  have h0 := Real.sqrt_nonneg (C30aux.disc R z Δ)
  have h1 : |R ^ 2 + z ^ 2 - Δ ^ 2| ≤ sqrt (C30aux.disc R z Δ) :=
    abs_le_of_sq_le_sq (by rw [hs, C30aux.disc]; nlinarith [sq_nonneg (Δ * R)]) h0
  have h2 : sqrt (C30aux.disc R z Δ) ≤ R ^ 2 + z ^ 2 + Δ ^ 2 :=
    Real.sqrt_le_iff.2 ⟨by positivity, by rw [C30aux.disc]; nlinarith [sq_nonneg (Δ * z)]⟩
  rw [abs_le] at h1
  unfold C30aux.disc at *
  generalize sqrt ((R ^ 2 + z ^ 2 - Δ ^ 2) ^ 2 + 4 * Δ ^ 2 * R ^ 2) = s at *
  generalize Δ ^ 2 / (1 - ac ^ 2) = g at *
  refine ⟨by norm_num; linarith, by norm_num; linarith, by norm_num; linarith, ?_⟩
  intro tau
  norm_num
  linear_combination (-1 / 4 : ℝ) * hs

/-- Back to `(R, z)`: the absolute values. The corrections for rounding at the focal ellipse do not act. -/
theorem C30_lambdanu_round_trip (R z ac Δ : ℝ) (hΔ : Δ ≠ 0) (hac : ac ^ 2 ≠ 1) :
    let q := Rz_to_lambdanu R z ac Δ;
    lambdanu_to_Rz q.1 q.2 ac Δ = (|R|, |z|) := by
  obtain ⟨h1, h2, h3, h4⟩ := C30_lambdanu_ranges R z ac Δ
  simp only [lambdanu_to_Rz]
  have ha := h4 (-(Δ ^ 2 / (1 - ac ^ 2) - Δ ^ 2))
  have hg := h4 (-(Δ ^ 2 / (1 - ac ^ 2)))
  generalize (Rz_to_lambdanu R z ac Δ).1 = l at *
  generalize (Rz_to_lambdanu R z ac Δ).2 = n at *
  generalize Δ ^ 2 / (1 - ac ^ 2) = g at *
  have e1 : (l + (g - Δ ^ 2)) * (n + (g - Δ ^ 2)) / (g - Δ ^ 2 - g) = R ^ 2 := by
    rw [show g - Δ ^ 2 - g = -Δ ^ 2 by ring]; field_simp; linear_combination -ha
  have e2 : (l + g) * (n + g) / (g - (g - Δ ^ 2)) = z ^ 2 := by
    rw [show g - (g - Δ ^ 2) = Δ ^ 2 by ring]; field_simp; linear_combination hg
  rw [e1, e2, if_neg (by intro h; nlinarith [sq_nonneg R]), if_neg (by intro h; nlinarith [sq_nonneg z]),
    Real.sqrt_sq_eq_abs, Real.sqrt_sq_eq_abs]

/-- From `(lambda, nu)` on their ranges and back. -/
theorem C30_lambdanu_round_trip_inverse (l n ac Δ : ℝ) (hΔ : Δ ≠ 0) (hac : ac ^ 2 ≠ 1)
    (h1 : 0 ≤ l + (Δ ^ 2 / (1 - ac ^ 2) - Δ ^ 2)) (h2 : n + (Δ ^ 2 / (1 - ac ^ 2) - Δ ^ 2) ≤ 0)
    (h3 : 0 ≤ n + Δ ^ 2 / (1 - ac ^ 2)) :
    let q := lambdanu_to_Rz l n ac Δ;
    Rz_to_lambdanu q.1 q.2 ac Δ = (l, n) := by
  have hp : 0 < Δ ^ 2 := by positivity
  intro q
  rw [C30aux.lambdanu_eq, C30aux.disc]
  simp only [q, lambdanu_to_Rz]
  generalize Δ ^ 2 / (1 - ac ^ 2) = g at *
  have e1 : (l + (g - Δ ^ 2)) * (n + (g - Δ ^ 2)) / (g - Δ ^ 2 - g) =
      (l + (g - Δ ^ 2)) * -(n + (g - Δ ^ 2)) / Δ ^ 2 := by
    rw [show g - Δ ^ 2 - g = -Δ ^ 2 by ring]; field_simp
  have e2 : (l + g) * (n + g) / (g - (g - Δ ^ 2)) = (l + g) * (n + g) / Δ ^ 2 := by
    rw [show g - (g - Δ ^ 2) = Δ ^ 2 by ring]
  have p1 : 0 ≤ (l + (g - Δ ^ 2)) * -(n + (g - Δ ^ 2)) / Δ ^ 2 :=
    div_nonneg (mul_nonneg h1 (by linarith)) hp.le
  have p2 : 0 ≤ (l + g) * (n + g) / Δ ^ 2 := div_nonneg (mul_nonneg (by linarith) h3) hp.le
  rw [e1, e2, if_neg (by intro h; linarith [h.1]), if_neg (by intro h; linarith [h.1]), Real.sq_sqrt p1,
    Real.sq_sqrt p2]
  have e3 : (l + (g - Δ ^ 2)) * -(n + (g - Δ ^ 2)) / Δ ^ 2 + (l + g) * (n + g) / Δ ^ 2 = l + n + 2 * g - Δ ^ 2 := by
    field_simp; ring
  have e4 : ((l + (g - Δ ^ 2)) * -(n + (g - Δ ^ 2)) / Δ ^ 2 + (l + g) * (n + g) / Δ ^ 2 - Δ ^ 2) ^ 2 +
      4 * Δ ^ 2 * ((l + (g - Δ ^ 2)) * -(n + (g - Δ ^ 2)) / Δ ^ 2) = (l - n) ^ 2 := by
    rw [e3]; field_simp; ring
  rw [e4, e3, Real.sqrt_sq (by linarith)]
  ext <;> norm_num <;> ring

/-- Below the plane, or for negative `R`, the sign is lost. -/
theorem C30_lambdanu_sign_fails (R z ac Δ : ℝ) (hΔ : Δ ≠ 0) (hac : ac ^ 2 ≠ 1) (hz : z < 0) :
    lambdanu_to_Rz (Rz_to_lambdanu R z ac Δ).1 (Rz_to_lambdanu R z ac Δ).2 ac Δ ≠ (R, z) := by
  rw [C30_lambdanu_round_trip R z ac Δ hΔ hac, abs_of_neg hz]
  intro h
  have := congrArg Prod.snd h
  simp only at this
  linarith

/-- `Rz_to_lambdanu_jac` is the Jacobian, away from the two foci. -/
theorem C30_lambdanu_jacobian (ac Δ : ℝ) (q : Fin 2 → ℝ) (h : C30aux.disc (q 0) (q 1) Δ ≠ 0) :
    Spec.IsJacobian (fun q : Fin 2 → ℝ => ![(Rz_to_lambdanu (q 0) (q 1) ac Δ).1,
      (Rz_to_lambdanu (q 0) (q 1) ac Δ).2]) q (Rz_to_lambdanu_jac (q 0) (q 1) Δ) := by
  intro c c' t hc hd i
  subst hc
  have h0 := hd 0; have h1 := hd 1
  have hpos : 0 < C30aux.disc (c t 0) (c t 1) Δ := lt_of_le_of_ne (C30aux.disc_nonneg _ _ _) h.symm
  have hs := Real.sqrt_pos.2 hpos
  simp only [C30aux.lambdanu_eq]
  unfold C30aux.disc at *
  fin_cases i <;> simp [Rz_to_lambdanu_jac, Fin.sum_univ_two] <;>
    (apply HasDerivAt.congr_deriv
     · hasderiv
     · field_simp; ring)

/-- `Rz_to_lambdanu_hess` returns the derivatives of the rows of the Jacobian. -/
theorem C30_lambdanu_hessian (Δ : ℝ) (q : Fin 2 → ℝ) (h : C30aux.disc (q 0) (q 1) Δ ≠ 0) :
    Spec.IsJacobian (fun q : Fin 2 → ℝ => Rz_to_lambdanu_jac (q 0) (q 1) Δ 0) q
        (Rz_to_lambdanu_hess (q 0) (q 1) Δ).1 ∧
      Spec.IsJacobian (fun q : Fin 2 → ℝ => Rz_to_lambdanu_jac (q 0) (q 1) Δ 1) q
        (Rz_to_lambdanu_hess (q 0) (q 1) Δ).2 := by
  constructor
  all_goals
    intro c c' t hc hd i
    subst hc
    have h0 := hd 0; have h1 := hd 1
    have hpos : 0 < C30aux.disc (c t 0) (c t 1) Δ := lt_of_le_of_ne (C30aux.disc_nonneg _ _ _) h.symm
    have hs := Real.sqrt_pos.2 hpos
    have hss := Real.sq_sqrt hpos.le
    unfold C30aux.disc at *
    fin_cases i <;> simp [Rz_to_lambdanu_jac, Rz_to_lambdanu_hess, Fin.sum_univ_two] <;>
    (apply HasDerivAt.congr_deriv
     · hasderiv
       exact hs.ne'
     · generalize sqrt ((c t 0 ^ 2 + c t 1 ^ 2 - Δ ^ 2) ^ 2 + 4 * Δ ^ 2 * c t 0 ^ 2) = s at *
       try rw [← hss]
       field_simp
       grind)

/-! ### Instances -/

example : uv_to_Rz (Rz_to_uv 3 (-4) 2 false).1 (Rz_to_uv 3 (-4) 2 false).2 2 false = (3, -4) :=
  (C30_prolate_round_trip 3 (-4) 2 (by norm_num) (by norm_num)).1

example : Rz_to_uv (uv_to_Rz 1 2 (1 / 2) false).1 (uv_to_Rz 1 2 (1 / 2) false).2 (1 / 2) false = (1, 2) :=
  (C30_prolate_round_trip_uv 1 2 (1 / 2) (by norm_num) (by norm_num) (by norm_num)
    (by linarith [Real.pi_gt_three])).1

example : uv_to_Rz (Rz_to_uv 3 (-4) 2 true).1 (Rz_to_uv 3 (-4) 2 true).2 2 true = (3, 4) := by
  have := (C30_oblate_round_trip 3 (-4) 2 (by norm_num) (by norm_num)).1
  rw [this]; norm_num

example : Rz_to_uv (uv_to_Rz 1 1 2 true).1 (uv_to_Rz 1 1 2 true).2 2 true = (1, 1) :=
  (C30_oblate_round_trip_uv 1 1 2 (by norm_num) (by norm_num) (by norm_num)
    (by linarith [Real.pi_gt_three])).1

example : uv_to_Rz (Rz_to_uv 3 (-4) 2 true).1 (Rz_to_uv 3 (-4) 2 true).2 2 true ≠ (3, -4) :=
  C30_oblate_sign_fails 3 (-4) 2 (by norm_num) (by norm_num) (by norm_num)

/-- Motion along `v` at fixed `u`. -/
example : vRvz_to_pupv_uv (2 * sinh 1 * cos 3) (-(2 * cosh 1 * sin 3)) 1 3 2 false =
    (0, 4 * (sinh 1 ^ 2 + sin 3 ^ 2)) := by
  have h := C30_momenta 2 false (u := fun _ => 1) (v := fun s => s) (u' := 0) (v' := 1)
    (vR := 2 * sinh 1 * cos 3) (vz := -(2 * cosh 1 * sin 3)) (t := 3) (hasDerivAt_const _ _) (hasDerivAt_id _)
    (by simpa [uv_to_Rz] using (Real.hasDerivAt_sin 3).const_mul (2 * sinh 1))
    (by simpa [uv_to_Rz] using (Real.hasDerivAt_cos 3).const_mul (2 * cosh 1))
  rw [h]; simp [C30aux.scale]; norm_num

theorem C30aux.scale_pos {u : ℝ} (v : ℝ) (oblate : Bool) (hu : 0 < u) : C30aux.scale u v oblate ≠ 0 := by
  have := Real.sinh_pos_iff.2 hu
  have h2 : 0 < C30aux.scale u v oblate := by unfold C30aux.scale; positivity
  exact h2.ne'

example : pupv_to_vRvz (vRvz_to_pupv_uv 1 2 1 3 2 true).1 (vRvz_to_pupv_uv 1 2 1 3 2 true).2 1 3 2 true = (1, 2) :=
  (C30_momenta_round_trip 1 2 1 3 2 true (by norm_num) (C30aux.scale_pos 3 true one_pos)).1

example : vRvz_to_pupv_uv (pupv_to_vRvz 1 2 1 3 2 false).1 (pupv_to_vRvz 1 2 1 3 2 false).2 1 3 2 false = (1, 2) :=
  C30_momenta_round_trip_uv 1 2 1 3 2 false (by norm_num) (C30aux.scale_pos 3 false one_pos)

example : vRvz_to_pupv 5 6 (uv_to_Rz 1 1 2 true).1 (uv_to_Rz 1 1 2 true).2 2 true = vRvz_to_pupv_uv 5 6 1 1 2 true :=
  C30_momenta_Rz 5 6 1 1 2 true (by norm_num) (by norm_num) (by norm_num)
    (by rw [if_pos rfl]; linarith [Real.pi_gt_three])

example : lambdanu_to_Rz (Rz_to_lambdanu 3 (-4) 2 1).1 (Rz_to_lambdanu 3 (-4) 2 1).2 2 1 = (3, 4) := by
  have := C30_lambdanu_round_trip 3 (-4) 2 1 (by norm_num) (by norm_num)
  simp only at this
  rw [this]; norm_num

example : Rz_to_lambdanu (lambdanu_to_Rz 3 1 2 1).1 (lambdanu_to_Rz 3 1 2 1).2 2 1 = (3, 1) :=
  C30_lambdanu_round_trip_inverse 3 1 2 1 (by norm_num) (by norm_num) (by norm_num) (by norm_num) (by norm_num)

example : lambdanu_to_Rz (Rz_to_lambdanu 3 (-4) 2 1).1 (Rz_to_lambdanu 3 (-4) 2 1).2 2 1 ≠ (3, -4) :=
  C30_lambdanu_sign_fails 3 (-4) 2 1 (by norm_num) (by norm_num) (by norm_num)

/-- The condition away from the foci. -/
example : C30aux.disc 3 4 1 ≠ 0 := by unfold C30aux.disc; norm_num

end Verif
