import Verif.Lemmas.Coords
import Mathlib.Analysis.Real.Pi.Bounds

set_option autoImplicit false

/-!
# C28: cylindrical and spherical coordinates

Positions make the round trip, the velocity components are the rates of the coordinates along every motion, and the
speed does not change.
-/

noncomputable section
namespace Verif
open Real Coords

/-- Rectangular to cylindrical and back, with the ranges of the result. -/
theorem C28_rect_cyl_rect (X Y Z : ℝ) :
    let q := rect_to_cyl X Y Z;
    cyl_to_rect q.1 q.2.1 q.2.2 = (X, Y, Z) ∧ 0 ≤ q.1 ∧ -π < q.2.1 ∧ q.2.1 ≤ π := by
  refine ⟨?_, Real.sqrt_nonneg _, (atan2_mem Y X).1, (atan2_mem Y X).2⟩
  simp only [rect_to_cyl, cyl_to_rect, polar_cos, polar_sin]

/-- Cylindrical to rectangular and back. -/
theorem C28_cyl_rect_cyl (R phi Z : ℝ) (hR : 0 < R) (h1 : -π < phi) (h2 : phi ≤ π) :
    let q := cyl_to_rect R phi Z;
    rect_to_cyl q.1 q.2.1 q.2.2 = (R, phi, Z) := by
  simp only [rect_to_cyl, cyl_to_rect, atan2_polar hR h1 h2]
  have : (R * cos phi) ^ 2 + (R * sin phi) ^ 2 = R ^ 2 := by
    linear_combination R ^ 2 * Real.sin_sq_add_cos_sq phi
  rw [this, Real.sqrt_sq hR.le]

/-- Cylindrical to spherical and back, with the ranges of the result. -/
theorem C28_cyl_spher_cyl (R Z phi : ℝ) :
    let q := cyl_to_spher R Z phi;
    spher_to_cyl q.1 q.2.1 q.2.2 = (R, Z, phi) ∧ 0 ≤ q.1 ∧ (0 ≤ R → 0 ≤ q.2.1 ∧ q.2.1 ≤ π) := by
  have e : sqrt (R ^ 2 + Z ^ 2) = sqrt (Z ^ 2 + R ^ 2) := by rw [add_comm]
  refine ⟨?_, Real.sqrt_nonneg _, fun h => ⟨Complex.arg_nonneg_iff.2 h, (atan2_mem R Z).2⟩⟩
  simp only [cyl_to_spher, spher_to_cyl, e, polar_cos, polar_sin]

/-- Spherical to cylindrical and back. -/
theorem C28_spher_cyl_spher (r theta phi : ℝ) (hr : 0 < r) (h1 : 0 ≤ theta) (h2 : theta ≤ π) :
    let q := spher_to_cyl r theta phi;
    cyl_to_spher q.1 q.2.1 q.2.2 = (r, theta, phi) ∧ 0 ≤ q.1 := by
  have hp := Real.pi_pos
  refine ⟨?_, mul_nonneg hr.le (Real.sin_nonneg_of_mem_Icc ⟨h1, h2⟩)⟩
  simp only [cyl_to_spher, spher_to_cyl, atan2_polar hr (by linarith : -π < theta) h2]
  have : (r * sin theta) ^ 2 + (r * cos theta) ^ 2 = r ^ 2 := by
    linear_combination r ^ 2 * Real.sin_sq_add_cos_sq theta
  rw [this, Real.sqrt_sq hr.le]

/-- Along every motion off the half plane where the azimuth jumps, the cylindrical velocity is
`(R', R phi', z')`. -/
theorem C28_rect_to_cyl_velocity {X Y Z : ℝ → ℝ} {vx vy vz t : ℝ} (hX : HasDerivAt X vx t) (hY : HasDerivAt Y vy t)
    (hZ : HasDerivAt Z vz t) (h : 0 < X t ∨ Y t ≠ 0) :
    let w := rect_to_cyl_vec vx vy vz (X t) (Y t) (Z t);
    HasDerivAt (fun s => (rect_to_cyl (X s) (Y s) (Z s)).1) w.1 t ∧
      HasDerivAt (fun s => (rect_to_cyl (X s) (Y s) (Z s)).2.1) (w.2.1 / (rect_to_cyl (X t) (Y t) (Z t)).1) t ∧
      HasDerivAt (fun s => (rect_to_cyl (X s) (Y s) (Z s)).2.2) w.2.2 t := by
  have hpos : 0 < X t ^ 2 + Y t ^ 2 := by
    rcases h with h | h
    · positivity
    · positivity
  have hr := Real.sqrt_pos.2 hpos
  have hrr := Real.sq_sqrt hpos.le
  have hc := polar_cos (X t) (Y t)
  have hs := polar_sin (X t) (Y t)
  refine ⟨?_, ?_, hZ⟩
  · simp only [rect_to_cyl, rect_to_cyl_vec]
    apply HasDerivAt.congr_deriv
    · hasderiv
      exact hpos.ne'
    · generalize sqrt (X t ^ 2 + Y t ^ 2) = r at *
      generalize atan2 (Y t) (X t) = a at *
      rw [← hc, ← hs]
      field_simp
      push_cast
      ring
  · simp only [rect_to_cyl, rect_to_cyl_vec]
    refine (hd_atan2 hX hY h).congr_deriv ?_
    conv_lhs => rw [← hrr]
    generalize sqrt (X t ^ 2 + Y t ^ 2) = r at *
    have e1 : X t = r * cos (atan2 (Y t) (X t)) := hc.symm
    have e2 : Y t = r * sin (atan2 (Y t) (X t)) := hs.symm
    generalize atan2 (Y t) (X t) = a at *
    rw [e1, e2]
    field_simp
    ring

/-- Along every motion `(R, phi, z)` the rectangular velocity of `(R', R phi', z')` is the rate of the rectangular
position. -/
theorem C28_cyl_to_rect_velocity {R phi Z : ℝ → ℝ} {R' phi' Z' t : ℝ} (hR : HasDerivAt R R' t)
    (hp : HasDerivAt phi phi' t) (hZ : HasDerivAt Z Z' t) :
    let w := cyl_to_rect_vec R' (R t * phi') Z' (phi t);
    HasDerivAt (fun s => (cyl_to_rect (R s) (phi s) (Z s)).1) w.1 t ∧
      HasDerivAt (fun s => (cyl_to_rect (R s) (phi s) (Z s)).2.1) w.2.1 t ∧
      HasDerivAt (fun s => (cyl_to_rect (R s) (phi s) (Z s)).2.2) w.2.2 t := by
  refine ⟨?_, ?_, hZ⟩
  · simp only [cyl_to_rect, cyl_to_rect_vec]
    apply HasDerivAt.congr_deriv
    · hasderiv
    · ring
  · simp only [cyl_to_rect, cyl_to_rect_vec]
    apply HasDerivAt.congr_deriv
    · hasderiv
    · ring

/-- Velocity round trips between rectangular and cylindrical components, and equality of speeds; the azimuth may be
given instead of the position. -/
theorem C28_rect_cyl_velocity_inverse (vx vy vz X Y Z phi : ℝ) :
    (let w := rect_to_cyl_vec vx vy vz X Y Z;
      cyl_to_rect_vec w.1 w.2.1 w.2.2 (rect_to_cyl X Y Z).2.1 = (vx, vy, vz) ∧
        w.1 ^ 2 + w.2.1 ^ 2 + w.2.2 ^ 2 = vx ^ 2 + vy ^ 2 + vz ^ 2) ∧
      rect_to_cyl_vec_cyl (cyl_to_rect_vec vx vy vz phi).1 (cyl_to_rect_vec vx vy vz phi).2.1
        (cyl_to_rect_vec vx vy vz phi).2.2 phi = (vx, vy, vz) ∧
      rect_to_cyl_vec vx vy vz X Y Z = rect_to_cyl_vec_cyl vx vy vz (rect_to_cyl X Y Z).2.1 := by
  refine ⟨⟨?_, ?_⟩, ?_, rfl⟩
  · simp only [rect_to_cyl_vec, cyl_to_rect_vec]
    generalize (rect_to_cyl X Y Z).2.1 = a
    have := Real.sin_sq_add_cos_sq a
    ext
    · simp only; linear_combination vx * this
    · simp only; linear_combination vy * this
    · rfl
  · simp only [rect_to_cyl_vec]
    generalize (rect_to_cyl X Y Z).2.1 = a
    have := Real.sin_sq_add_cos_sq a
    linear_combination (vx ^ 2 + vy ^ 2) * this
  · simp only [rect_to_cyl_vec_cyl, cyl_to_rect_vec]
    have := Real.sin_sq_add_cos_sq phi
    ext
    · simp only; linear_combination vx * this
    · simp only; linear_combination vy * this
    · rfl

/-- Along every motion away from the centre the spherical velocity is `(r', vT, r theta')`; `vT` is not touched. -/
theorem C28_cyl_to_spher_velocity {R z : ℝ → ℝ} {vR vz vT t : ℝ} (phi : ℝ) (hR : HasDerivAt R vR t)
    (hz : HasDerivAt z vz t) (h : 0 < z t ∨ R t ≠ 0) :
    let w := cyl_to_spher_vec vR vT vz (R t) (z t);
    HasDerivAt (fun s => (cyl_to_spher (R s) (z s) phi).1) w.1 t ∧ w.2.1 = vT ∧
      HasDerivAt (fun s => (cyl_to_spher (R s) (z s) phi).2.1) (w.2.2 / (cyl_to_spher (R t) (z t) phi).1) t := by
  have hpos : 0 < R t ^ 2 + z t ^ 2 := by
    rcases h with h | h
    · positivity
    · positivity
  have hr := Real.sqrt_pos.2 hpos
  have hrr := Real.sq_sqrt hpos.le
  refine ⟨?_, rfl, ?_⟩
  · simp only [cyl_to_spher, cyl_to_spher_vec]
    apply HasDerivAt.congr_deriv
    · hasderiv
      exact hpos.ne'
    · field_simp
      push_cast
      ring
  · simp only [cyl_to_spher, cyl_to_spher_vec]
    refine (hd_atan2 hz hR h).congr_deriv ?_
    rw [div_div, ← sq, hrr, add_comm (z t ^ 2)]

/-- Along every motion `(r, theta)` the cylindrical velocity of `(r', vT, r theta')` is the rate of `(R, z)`. -/
theorem C28_spher_to_cyl_velocity {r theta : ℝ → ℝ} {r' theta' vT t : ℝ} (phi : ℝ) (hr : HasDerivAt r r' t)
    (ht : HasDerivAt theta theta' t) :
    let w := spher_to_cyl_vec r' vT (r t * theta') (theta t);
    HasDerivAt (fun s => (spher_to_cyl (r s) (theta s) phi).1) w.1 t ∧ w.2.1 = vT ∧
      HasDerivAt (fun s => (spher_to_cyl (r s) (theta s) phi).2.1) w.2.2 t := by
  refine ⟨?_, rfl, ?_⟩
  · simp only [spher_to_cyl, spher_to_cyl_vec]
    apply HasDerivAt.congr_deriv
    · hasderiv
    · ring
  · simp only [spher_to_cyl, spher_to_cyl_vec]
    apply HasDerivAt.congr_deriv
    · hasderiv
    · ring

/-- Velocity round trips between cylindrical and spherical components, and equality of speeds. -/
theorem C28_cyl_spher_velocity_inverse (vR vT vz R z : ℝ) (h : R ≠ 0 ∨ z ≠ 0) :
    let w := cyl_to_spher_vec vR vT vz R z;
    spher_to_cyl_vec w.1 w.2.1 w.2.2 (cyl_to_spher R z 0).2.1 = (vR, vT, vz) ∧
      w.1 ^ 2 + w.2.1 ^ 2 + w.2.2 ^ 2 = vR ^ 2 + vT ^ 2 + vz ^ 2 := by
  have hpos : 0 < R ^ 2 + z ^ 2 := by
    rcases h with h | h
    · positivity
    · positivity
  have hr := Real.sqrt_pos.2 hpos
  have hrr := Real.sq_sqrt hpos.le
  have e : sqrt (z ^ 2 + R ^ 2) = sqrt (R ^ 2 + z ^ 2) := by rw [add_comm]
  have hc := polar_cos z R
  have hs := polar_sin z R
  rw [e] at hc hs
  constructor
  · simp only [cyl_to_spher_vec, spher_to_cyl_vec, cyl_to_spher]
    have h3 := Real.sin_sq_add_cos_sq (atan2 R z)
    generalize atan2 R z = a at *
    generalize sqrt (R ^ 2 + z ^ 2) = r at *
    rw [← hc, ← hs]
    ext
    · simp only; field_simp; linear_combination vR * h3
    · rfl
    · simp only; field_simp; linear_combination vz * h3
  · simp only [cyl_to_spher_vec]
    generalize sqrt (R ^ 2 + z ^ 2) = r at *
    field_simp
    rw [hrr]; ring

/-- And from spherical components. -/
theorem C28_spher_cyl_velocity_inverse (vr vT vt r theta : ℝ) (hr : 0 < r) :
    let w := spher_to_cyl_vec vr vT vt theta;
    let x := spher_to_cyl r theta 0;
    cyl_to_spher_vec w.1 w.2.1 w.2.2 x.1 x.2.1 = (vr, vT, vt) := by
  have h3 := Real.sin_sq_add_cos_sq theta
  have : (r * sin theta) ^ 2 + (r * cos theta) ^ 2 = r ^ 2 := by linear_combination r ^ 2 * h3
  simp only [cyl_to_spher_vec, spher_to_cyl_vec, spher_to_cyl, this, Real.sqrt_sq hr.le]
  ext
  · simp only; field_simp; linear_combination vr * h3
  · rfl
  · simp only; field_simp; linear_combination vt * h3

/-- The phase-space version of the conversion to rectangular coordinates: the last three components are the rates of
the first three. -/
theorem C28_galcenrect {R phi z : ℝ → ℝ} {R' phi' z' t : ℝ} (hR : HasDerivAt R R' t) (hp : HasDerivAt phi phi' t)
    (hz : HasDerivAt z z' t) (i : Fin 3) (vR vT vz : ℝ → ℝ) (h1 : vR t = R') (h2 : vT t = R t * phi') (h3 : vz t = z') :
    HasDerivAt (fun s => galcencyl_to_galcenrect (R s) (vR s) (vT s) (z s) (vz s) (phi s) (i.castAdd 3))
      (galcencyl_to_galcenrect (R t) (vR t) (vT t) (z t) (vz t) (phi t) (i.natAdd 3)) t := by
  obtain ⟨a, b, c⟩ := C28_cyl_to_rect_velocity hR hp hz
  rw [h1, h2, h3]
  fin_cases i
  · exact a
  · exact b
  · exact c

example : rect_to_cyl (2 * cos 3) (2 * sin 3) 5 = (2, 3, 5) := by
  have := Real.pi_gt_three
  exact C28_cyl_rect_cyl 2 3 5 (by norm_num) (by linarith) this.le

example : cyl_to_spher (2 * sin 3) (2 * cos 3) 5 = (2, 3, 5) := by
  have := Real.pi_gt_three
  exact (C28_spher_cyl_spher 2 3 5 (by norm_num) (by norm_num) this.le).1

/-- On the negative x axis, off the plane where azimuths jump only in `y`. -/
example : HasDerivAt (fun s : ℝ => (rect_to_cyl (-1) (1 + s) 0).1) (rect_to_cyl_vec 0 1 0 (-1) (1 + 0) 0).1 0 :=
  (C28_rect_to_cyl_velocity (X := fun _ => -1) (Y := fun s => 1 + s) (Z := fun _ => 0) (hasDerivAt_const _ _)
    ((hasDerivAt_id (0 : ℝ)).const_add 1) (hasDerivAt_const _ _) (Or.inr (by norm_num))).1

end Verif
