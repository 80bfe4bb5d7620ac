import Verif.Lemmas.Tilt
import Verif.Lemmas.Smooth
import Verif.Props.C46

set_option autoImplicit false

/-!
# C55: rotated, tilted and shifted potentials
-/

noncomputable section
namespace Verif
open Real Tilt

/-- The documented relation between observed and intrinsic coordinates, class docstring: rotation by the galaxy
position angle times the inclination times the sky position angle. -/
def C55Spec.doc (gal i sky : ℝ) : Mat :=
  !![cos gal, sin gal, 0; -sin gal, cos gal, 0; 0, 0, 1] *
    (!![1, 0, 0; 0, cos i, sin i; 0, -sin i, cos i] * !![sin sky, -cos sky, 0; cos sky, sin sky, 0; 0, 0, 1])

theorem C55aux.cosine_z (a : Vec) : C46aux.cosine ![0, 0, 1] a = a 2 := by
  simp [C46aux.cosine, Spec.sq]

theorem C55aux.zne : (![0, 0, 1] : Vec) ≠ 0 := fun h => by
  have := congrFun h 2
  simp at this

theorem C55aux.le_one {a : Vec} (ha : Spec.sq a = 1) : -1 ≤ a 2 ∧ a 2 ≤ 1 := by
  simp only [Spec.sq] at ha
  constructor <;> nlinarith [sq_nonneg (a 0), sq_nonneg (a 1), sq_nonneg (a 2 - 1), sq_nonneg (a 2 + 1)]

/-- The matrix from one axis to another is orthogonal in every case. -/
theorem C55aux.orth {a : Vec} (ha : Spec.sq a = 1) (inv : Bool) :
    Util.rotateTo ![0, 0, 1] a inv false * (Util.rotateTo ![0, 0, 1] a inv false).transpose = 1 := by
  obtain ⟨l1, l2⟩ := C55aux.le_one ha
  by_cases h1 : |a 2 - 1| < 10 ^ (-10 : ℤ)
  · rw [(C46_parallel _ a inv C55aux.zne ha (by rw [C55aux.cosine_z]; exact h1)).1]
    simp
  by_cases h2 : |a 2 + 1| < 10 ^ (-10 : ℤ)
  · rw [(C46_antiparallel_fails _ a inv (by rw [C55aux.cosine_z]; exact h2)).1]
    simp
  rw [abs_sub_comm, abs_of_nonneg (by linarith)] at h1
  rw [abs_of_nonneg (by linarith), add_comm] at h2
  have k := C46_rotation ![0, 0, 1] a C55aux.zne ha (by rw [C55aux.cosine_z]; exact not_lt.1 h1)
    (by rw [C55aux.cosine_z]; exact not_lt.1 h2)
  obtain ⟨k1, -, -, -, k5⟩ := k
  cases inv with
  | false => exact k1
  | true =>
    have e : Util.rotateTo ![0, 0, 1] a true false = (Util.rotateTo ![0, 0, 1] a false false).transpose := by
      have h' : (Util.rotateTo ![0, 0, 1] a false false).transpose * Util.rotateTo ![0, 0, 1] a false false = 1 :=
        mul_eq_one_comm.1 k1
      calc Util.rotateTo ![0, 0, 1] a true false
          = ((Util.rotateTo ![0, 0, 1] a false false).transpose * Util.rotateTo ![0, 0, 1] a false false) *
            Util.rotateTo ![0, 0, 1] a true false := by rw [h', one_mul]
        _ = _ := by rw [mul_assoc, k5, mul_one]
    rw [e, Matrix.transpose_transpose]
    exact mul_eq_one_comm.1 k1

theorem C55aux.paRot (pa : Option ℝ) : Spec.IsRotation (Tilt.paRot pa) := by
  cases pa with
  | none => exact ⟨by simp [Tilt.paRot], by simp [Tilt.paRot]⟩
  | some p =>
    have hcs := cos_sq_add_sin_sq p
    constructor
    · ext i j
      fin_cases i <;> fin_cases j <;>
        simp [Tilt.paRot, Matrix.mul_apply, Fin.sum_univ_three] <;> nlinarith [hcs]
    · simp [Tilt.paRot, Matrix.det_fin_three]
      nlinarith [hcs]

theorem C55aux.orth_mul {A B : Mat} (hA : A * A.transpose = 1) (hB : B * B.transpose = 1) :
    (A * B) * (A * B).transpose = 1 := by
  rw [Matrix.transpose_mul, Matrix.mul_assoc, ← Matrix.mul_assoc B, hB, Matrix.one_mul, hA]

theorem C55aux.sq_unit {v : Vec} (hv : v ≠ 0) : Spec.sq (Util.unitVec v) = 1 := (C46aux.unit hv).1

theorem C55aux.zvecRot {v : Vec} (hv : v ≠ 0) (b : Bool) : ∃ T, zvecRot (some (.floats v b)) = .ok T ∧
    T * T.transpose = 1 := ⟨_, rfl, C55aux.orth (C55aux.sq_unit hv) true⟩

/-- The direction of the tilted axis. -/
def C55aux.axis (sky i : ℝ) : Vec := ![-sin i * cos sky, -sin i * sin sky, cos i]
/-- The line of nodes. -/
def C55aux.node (sky : ℝ) : Vec := ![sin sky, -cos sky, 0]

theorem C55aux.inclRot_z (sky i : ℝ) : (inclRot sky i).mulVec ![0, 0, 1] = C55aux.axis sky i := by
  refine Coords.vec_ext ?_ ?_ ?_ <;>
    simp [inclRot, C55aux.axis, Coords.mulVec3, Matrix.mul_apply, Fin.sum_univ_three] <;> ring

theorem C55aux.inclRot_x (sky i : ℝ) : (inclRot sky i).mulVec ![1, 0, 0] = C55aux.node sky := by
  refine Coords.vec_ext ?_ ?_ ?_ <;>
    simp [inclRot, C55aux.node, Coords.mulVec3, Matrix.mul_apply, Fin.sum_univ_three]

theorem C55aux.sq_axis (sky i : ℝ) : Spec.sq (C55aux.axis sky i) = 1 := by
  simp [Spec.sq, C55aux.axis]
  linear_combination sin i ^ 2 * cos_sq_add_sin_sq sky + cos_sq_add_sin_sq i

theorem C55aux.axis_ne (sky i : ℝ) : C55aux.axis sky i ≠ 0 := fun h => by
  have := C55aux.sq_axis sky i
  rw [h] at this
  simp [Spec.sq] at this

theorem C55aux.unit_axis (sky i : ℝ) : Util.unitVec (C55aux.axis sky i) = C55aux.axis sky i := by
  have h := C55aux.sq_axis sky i
  simp only [Spec.sq] at h
  funext j
  rw [Util.unitVec, h, Real.sqrt_one, div_one]

/-- What `__init__` does when an inclination is given. -/
theorem C55aux.init_incl {A : Args} {i g : ℝ} (hi : A.inclination = some i) (hg : A.galaxyPa = some g) :
    let sky := A.skyPa.getD 0
    let pa := (Util.rotateTo ![0, 0, 1] (C55aux.axis sky i) false false).mulVec (C55aux.node sky)
    let rot := Tilt.paRot (some (g + Coords.atan2 (pa 1) (pa 0))) *
      Util.rotateTo ![0, 0, 1] (C55aux.axis sky i) true false
    ∃ W, init A = .ok W ∧ W.rot = rot ∧ W.invRot = rot⁻¹ ∧ W.offset = A.offset ∧ (W.norot = true ↔ W.rot = 1) := by
  intro sky pa rot
  refine ⟨_, by simp only [init, parseInclination, hi, hg, Tilt.zvecRot]; rfl, ?_, ?_, rfl, by simp⟩ <;>
    simp only [C55aux.inclRot_z, C55aux.inclRot_x, C55aux.unit_axis] <;> rfl

/-- After every construction that succeeds with a non-zero axis, the matrix is orthogonal, the matrix the forces are
turned back with is its transpose, and the shortcut without rotation is taken only for the identity. -/
theorem C55_inverse {A : Args} {W : Wrapper} (h : init A = .ok W)
    (hz : ∀ v b, A.inclination = none → A.zvec = some (.floats v b) → v ≠ 0) :
    W.rot * W.rot.transpose = 1 ∧ W.invRot = W.rot.transpose ∧ (W.norot = true ↔ W.rot = 1) ∧
      W.offset = A.offset := by
  have fin : ∀ (pa : Option ℝ) (T : Mat), T * T.transpose = 1 →
      (Tilt.paRot pa * T) * (Tilt.paRot pa * T).transpose = 1 ∧
      (Tilt.paRot pa * T)⁻¹ = (Tilt.paRot pa * T).transpose := fun pa T hT => by
    have h1 := C55aux.orth_mul (C55aux.paRot pa).1 hT
    exact ⟨h1, Matrix.inv_eq_right_inv h1⟩
  cases hi : A.inclination with
  | some i =>
    cases hg : A.galaxyPa with
    | none => simp [init, parseInclination, hi, hg] at h
    | some g =>
      obtain ⟨W', h1, h2, h3, h4, h5⟩ := C55aux.init_incl hi hg
      rw [h1] at h
      cases h
      obtain ⟨f1, f2⟩ := fin _ _ (C55aux.orth (C55aux.sq_axis (A.skyPa.getD 0) i) true)
      rw [h3, h2]
      rw [h2] at h5
      exact ⟨f1, f2, h5, h4⟩
  | none =>
    cases hv : A.zvec with
    | none =>
      simp only [init, parseInclination, hi, hv, Tilt.zvecRot, Except.ok.injEq] at h
      subst h
      obtain ⟨f1, f2⟩ := fin A.galaxyPa 1 (by simp)
      exact ⟨f1, f2, by simp, rfl⟩
    | some zv =>
      cases zv with
      | ints v b => simp [init, parseInclination, hi, hv, Tilt.zvecRot] at h
      | floats v b =>
        simp only [init, parseInclination, hi, hv, Tilt.zvecRot, Except.ok.injEq] at h
        subst h
        obtain ⟨f1, f2⟩ := fin A.galaxyPa _ (C55aux.orth (C55aux.sq_unit (hz v b hi hv)) true)
        exact ⟨f1, f2, by simp, rfl⟩

/-- With an axis given that is not within the cut around the old axis or its opposite, the matrix is a rotation that
takes the direction of the axis to the old axis, for every galaxy position angle. -/
theorem C55_zvec {A : Args} {v : Vec} {b : Bool} (hi : A.inclination = none) (hz : A.zvec = some (.floats v b))
    (hv : v ≠ 0) (h1 : 10 ^ (-10 : ℤ) ≤ 1 - v 2 / sqrt (Spec.sq v)) (h2 : 10 ^ (-10 : ℤ) ≤ 1 + v 2 / sqrt (Spec.sq v)) :
    ∃ W, init A = .ok W ∧ Spec.IsRotation W.rot ∧ W.rot.mulVec v = ![0, 0, sqrt (Spec.sq v)] := by
  have ha := C55aux.sq_unit hv
  have e2 : Util.unitVec v 2 = v 2 / sqrt (Spec.sq v) := rfl
  have k := C46_rotation ![0, 0, 1] (Util.unitVec v) C55aux.zne ha (by rw [C55aux.cosine_z, e2]; exact h1)
    (by rw [C55aux.cosine_z, e2]; exact h2)
  obtain ⟨k1, k2, k3, -, k5⟩ := k
  set T := Util.rotateTo ![0, 0, 1] (Util.unitVec v) false false with hT
  set T' := Util.rotateTo ![0, 0, 1] (Util.unitVec v) true false with hT'
  have k6 : T' * T = 1 := mul_eq_one_comm.1 k5
  have hd : T'.det = 1 := by
    have := congrArg Matrix.det k6
    rw [Matrix.det_mul, k2, mul_one, Matrix.det_one] at this
    exact this
  refine ⟨_, by simp only [init, parseInclination, hi, hz, Tilt.zvecRot]; rfl, ⟨?_, ?_⟩, ?_⟩
  · exact C55aux.orth_mul (C55aux.paRot _).1 (C55aux.orth ha true)
  · change (Tilt.paRot A.galaxyPa * T').det = 1
    rw [Matrix.det_mul, hd, (C55aux.paRot _).2, one_mul]
  · change (Tilt.paRot A.galaxyPa * T').mulVec v = _
    have hn : sqrt (Spec.sq v) ≠ 0 := (Real.sqrt_pos.2 (C46aux.unit hv).2).ne'
    have ez : T.mulVec ![0, 0, sqrt (Spec.sq v)] = v := by
      have e0 : (![0, 0, sqrt (Spec.sq v)] : Vec) = sqrt (Spec.sq v) • ![0, 0, 1] := by
        refine Coords.vec_ext ?_ ?_ ?_ <;> simp
      rw [e0, Matrix.mulVec_smul]
      funext i
      rw [Pi.smul_apply, k3 i, smul_eq_mul]
      have : sqrt (Spec.sq (![0, 0, 1] : Vec)) = 1 := by simp [Spec.sq]
      rw [this, one_mul]
      change sqrt (Spec.sq v) * (v i / sqrt (Spec.sq v)) = v i
      field_simp
    have ev : T'.mulVec v = ![0, 0, sqrt (Spec.sq v)] := by
      conv_lhs => rw [← ez]
      rw [Matrix.mulVec_mulVec, k6, Matrix.one_mulVec]
    rw [← Matrix.mulVec_mulVec, ev]
    refine Coords.vec_ext ?_ ?_ ?_ <;> cases A.galaxyPa <;> simp [Tilt.paRot, Coords.mulVec3]

/-- The rotation about the line of nodes. -/
theorem C55aux.tilt {sky i : ℝ} (h1 : cos i = 1 ∨ 10 ^ (-10 : ℤ) ≤ 1 - cos i) (h2 : 10 ^ (-10 : ℤ) ≤ 1 + cos i)
    (inv : Bool) : Util.rotateTo ![0, 0, 1] (C55aux.axis sky i) inv false =
      C46aux.rodrigues (cos i) ((if inv then -1 else 1) * sin i) (C55aux.node sky) := by
  have hcs := cos_sq_add_sin_sq sky
  have hci := cos_sq_add_sin_sq i
  have e2 : C46aux.cosine ![0, 0, 1] (C55aux.axis sky i) = cos i := by rw [C55aux.cosine_z]; rfl
  rcases h1 with h1 | h1
  · have hs : sin i = 0 := by
      have : sin i ^ 2 = 0 := by rw [h1] at hci; linarith
      exact pow_eq_zero_iff (n := 2) (by norm_num) |>.1 this
    rw [(C46_parallel _ _ inv C55aux.zne (C55aux.sq_axis sky i) (by rw [e2, h1]; norm_num)).1]
    ext a b
    fin_cases a <;> fin_cases b <;> simp [C46aux.rodrigues, h1, hs]
  · rw [C46aux.rotateTo_eq _ _ inv C55aux.zne (by rw [e2]; exact h1) (by rw [e2]; exact h2), e2]
    have hs2 : 1 - cos i ^ 2 = sin i ^ 2 := by linarith
    rw [hs2, Real.sqrt_sq_eq_abs]
    have hsp : 0 < sin i ^ 2 := by
      have hpos : (0 : ℝ) < 10 ^ (-10 : ℤ) := by positivity
      nlinarith [mul_pos (lt_of_lt_of_le hpos h1) (lt_of_lt_of_le hpos h2)]
    have hne : sin i ≠ 0 := fun h => by rw [h] at hsp; norm_num at hsp
    have hab : |sin i| ≠ 0 := abs_ne_zero.2 hne
    have hu : Util.unitVec ![0, 0, 1] = ![0, 0, 1] := by
      refine Coords.vec_ext ?_ ?_ ?_ <;> simp [Util.unitVec]
    have hk : Util.unitVec (Util.cross (Util.unitVec ![0, 0, 1]) (C55aux.axis sky i)) =
        fun j => sin i / |sin i| * C55aux.node sky j := by
      have hn : sqrt ((sin i * sin sky) ^ 2 + (-sin i * cos sky) ^ 2 + 0 ^ 2) = |sin i| := by
        rw [← Real.sqrt_sq_eq_abs]
        congr 1
        linear_combination sin i ^ 2 * hcs
      have hcr : Util.cross ![0, 0, 1] (C55aux.axis sky i) = ![sin i * sin sky, -sin i * cos sky, 0] := by
        refine Coords.vec_ext ?_ ?_ ?_ <;> simp [Util.cross, C55aux.axis]
      rw [hu, hcr]
      funext j
      change (![sin i * sin sky, -sin i * cos sky, 0] : Vec) j /
        sqrt ((sin i * sin sky) ^ 2 + (-sin i * cos sky) ^ 2 + 0 ^ 2) = _
      rw [hn]
      fin_cases j <;> simp [C55aux.node] <;> ring
    rw [hk]
    set σ := sin i / |sin i| with hσ
    have hσ1 : σ * |sin i| = sin i := by rw [hσ]; field_simp
    have hσ2 : σ * σ = 1 := by
      rw [hσ, div_mul_div_comm, abs_mul_abs_self, div_self]
      exact mul_ne_zero hne hne
    ext a b
    fin_cases a <;> fin_cases b <;> simp [C46aux.rodrigues] <;> (try rw [← hσ1]) <;>
      clear_value σ <;> clear hk hσ <;> grind

theorem C55aux.nodePa (sky c : ℝ) (hc : c = 1 ∨ c = -1) :
    cos (Coords.atan2 (c * C55aux.node sky 1) (c * C55aux.node sky 0)) = c * sin sky ∧
    sin (Coords.atan2 (c * C55aux.node sky 1) (c * C55aux.node sky 0)) = -(c * cos sky) := by
  have hr : sqrt ((c * C55aux.node sky 0) ^ 2 + (c * C55aux.node sky 1) ^ 2) = 1 := by
    rw [Real.sqrt_eq_one]
    rcases hc with rfl | rfl <;> simp [C55aux.node]
  have h1 := Coords.polar_cos (c * C55aux.node sky 0) (c * C55aux.node sky 1)
  have h2 := Coords.polar_sin (c * C55aux.node sky 0) (c * C55aux.node sky 1)
  rw [hr, one_mul] at h1 h2
  constructor
  · rw [h1]; simp [C55aux.node]
  · rw [h2]; simp [C55aux.node]

theorem C55aux.doc_eq (g i sky θ : ℝ) (hc : cos θ = sin sky) (hs : sin θ = -cos sky) :
    Tilt.paRot (some (g + θ)) * C46aux.rodrigues (cos i) (-1 * sin i) (C55aux.node sky) = C55Spec.doc g i sky := by
  have hcs := cos_sq_add_sin_sq sky
  ext a b
  fin_cases a <;> fin_cases b <;>
    simp [Tilt.paRot, C55Spec.doc, C46aux.rodrigues, C55aux.node, Matrix.mul_apply, Fin.sum_univ_three, cos_add,
      sin_add, hc, hs] <;> grind

/-- Given an inclination, a galaxy and a sky position angle, the matrix is the documented one, unless the inclination
is within the cut around zero (without being zero) or around 180 degrees. -/
theorem C55_inclination {A : Args} {i g : ℝ} (hi : A.inclination = some i) (hg : A.galaxyPa = some g)
    (h1 : cos i = 1 ∨ 10 ^ (-10 : ℤ) ≤ 1 - cos i) (h2 : 10 ^ (-10 : ℤ) ≤ 1 + cos i) :
    ∃ W, init A = .ok W ∧ W.rot = C55Spec.doc g i (A.skyPa.getD 0) := by
  obtain ⟨W, e, hr, -⟩ := C55aux.init_incl hi hg
  refine ⟨W, e, ?_⟩
  rw [hr, C55aux.tilt h1 h2, C55aux.tilt h1 h2]
  set sky := A.skyPa.getD 0
  have hcs := cos_sq_add_sin_sq sky
  have hn : (C46aux.rodrigues (cos i) ((if false = true then -1 else 1) * sin i) (C55aux.node sky)).mulVec
      (C55aux.node sky) = fun j => 1 * C55aux.node sky j := by
    refine Coords.vec_ext ?_ ?_ ?_ <;> simp [C46aux.rodrigues, C55aux.node, Coords.mulVec3] <;> grind
  rw [hn]
  obtain ⟨a, b⟩ := C55aux.nodePa sky 1 (.inl rfl)
  simp only [one_mul] at a b
  have := C55aux.doc_eq g i sky _ a b
  simpa using this

/-- An inclination within the cut around zero is treated as zero. -/
theorem C55_small_inclination {A : Args} {i g : ℝ} (hi : A.inclination = some i) (hg : A.galaxyPa = some g)
    (h : |cos i - 1| < 10 ^ (-10 : ℤ)) :
    ∃ W, init A = .ok W ∧ W.rot = C55Spec.doc g 0 (A.skyPa.getD 0) := by
  obtain ⟨W, e, hr, -⟩ := C55aux.init_incl hi hg
  refine ⟨W, e, ?_⟩
  set sky := A.skyPa.getD 0
  have e2 : C46aux.cosine ![0, 0, 1] (C55aux.axis sky i) = cos i := by rw [C55aux.cosine_z]; rfl
  have k := fun inv => (C46_parallel _ _ inv C55aux.zne (C55aux.sq_axis sky i) (by rw [e2]; exact h)).1
  rw [hr, k, k, Matrix.one_mulVec]
  obtain ⟨a, b⟩ := C55aux.nodePa sky 1 (.inl rfl)
  simp only [one_mul] at a b
  rw [← C55aux.doc_eq g 0 sky _ a b]
  congr 1
  ext a b
  fin_cases a <;> fin_cases b <;> simp [C46aux.rodrigues]

/-- At an inclination of 180 degrees the potential is mirrored: the matrix has determinant minus one, while the
documented matrix is a rotation. -/
theorem C55_upside_down_fails {A : Args} {i g : ℝ} (hi : A.inclination = some i) (hg : A.galaxyPa = some g)
    (h : |cos i + 1| < 10 ^ (-10 : ℤ)) :
    ∃ W, init A = .ok W ∧ W.rot.det = -1 ∧ (C55Spec.doc g i (A.skyPa.getD 0)).det = 1 := by
  obtain ⟨W, e, hr, -⟩ := C55aux.init_incl hi hg
  set sky := A.skyPa.getD 0
  have e2 : C46aux.cosine ![0, 0, 1] (C55aux.axis sky i) = cos i := by rw [C55aux.cosine_z]; rfl
  refine ⟨W, e, ?_, ?_⟩
  · rw [hr, Matrix.det_mul, (C55aux.paRot _).2, (C46_antiparallel_fails _ _ true (by rw [e2]; exact h)).2, one_mul]
  · have hg' := cos_sq_add_sin_sq g
    have hi' := cos_sq_add_sin_sq i
    have hs' := cos_sq_add_sin_sq sky
    simp only [C55Spec.doc, Matrix.det_mul]
    simp only [pow_two] at hg' hi' hs'
    rw [add_comm] at hs'
    simp [Matrix.det_fin_three, hg', hi', hs']

/-- The same for an axis opposite to the old one. -/
theorem C55_opposite_axis_fails {A : Args} {v : Vec} {b : Bool} (hi : A.inclination = none)
    (hz : A.zvec = some (.floats v b)) (h : |v 2 / sqrt (Spec.sq v) + 1| < 10 ^ (-10 : ℤ)) :
    ∃ W, init A = .ok W ∧ W.rot.det = -1 := by
  refine ⟨_, by simp only [init, parseInclination, hi, hz, Tilt.zvecRot]; rfl, ?_⟩
  change (Tilt.paRot A.galaxyPa * _).det = -1
  rw [Matrix.det_mul, (C55aux.paRot _).2, one_mul]
  exact (C46_antiparallel_fails _ _ true (by rw [C55aux.cosine_z]; exact h)).2

/-- An inclination without a galaxy position angle, documented as optional, raises. -/
theorem C55_no_galaxy_pa_fails {A : Args} {i : ℝ} (hi : A.inclination = some i) (hg : A.galaxyPa = none) :
    init A = .error .noneAddition := by
  simp [init, parseInclination, hi, hg]

/-- An axis given by integers raises. -/
theorem C55_integer_axis_fails {A : Args} {v : Fin 3 → ℤ} {b : Bool} (hi : A.inclination = none)
    (hz : A.zvec = some (.ints v b)) : init A = .error .intDivision := by
  simp [init, parseInclination, hi, hz, Tilt.zvecRot]

/-- Without an inclination the sky position angle is ignored without notice. -/
theorem C55_sky_pa_fails (A : Args) (hi : A.inclination = none) (s : Option ℝ) :
    init { A with skyPa := s } = init A := by
  simp only [init, parseInclination, hi]

/-- The array passed as axis is changed. -/
theorem C55_caller_fails : ∃ A W, init A = .ok W ∧ callerZvec A ≠ A.zvec := by
  refine ⟨{ zvec := some (.floats ![0, 0, 2] true) }, _, rfl, fun h => ?_⟩
  simp only [callerZvec, Option.some.injEq, ZVec.floats.injEq, and_true] at h
  have := congrFun h 2
  have h4 : sqrt (2 ^ 2) = 2 := Real.sqrt_sq (by norm_num)
  simp [Util.unitVec, h4] at this

/-! ### The potential -/

theorem C55aux.orthOf {A : Args} {W : Wrapper} (h : init A = .ok W)
    (hz : ∀ v b, A.inclination = none → A.zvec = some (.floats v b) → v ≠ 0) : Orth W :=
  let k := C55_inverse h hz
  ⟨k.1, k.2.1, k.2.2.1⟩

/-- The point at which the wrapped potential is evaluated: the rotated point plus the offset. -/
def C55Spec.point (W : Wrapper) (x : Vec) : Vec := fun i => W.rot.mulVec x i + W.offset.getD 0 i

theorem C55aux.point_spec {W : Wrapper} (hW : Orth W) (R z φ : ℝ) :
    point W R z φ = C55Spec.point W ![R * cos φ, R * sin φ, z] := by
  funext i
  rw [point_eq hW, C55Spec.point, Coords.mulVec3]
  rfl

/-- The value is that of the wrapped potential, as a function of rectangular coordinates, at the rotated and shifted
point. -/
theorem C55_value {P : Pot} {W : Wrapper} (hW : Orth W) {t : ℝ} {g : Vec → ℝ} (hg : IsCart P t g) (hper : Periodic P)
    (R z φ : ℝ) :
    let q := C55Spec.point W ![R * cos φ, R * sin φ, z]
    0 < q 0 ^ 2 + q 1 ^ 2 → (pot P W).val R z φ t = g q := by
  intro q h0
  change cart P t (point W R z φ) = g q
  rw [C55aux.point_spec hW]
  change cart P t q = g q
  have hR := Real.sqrt_pos.2 h0
  obtain ⟨-, ex, ey⟩ := EOM.azimuth_spec h0
  have e : q = ![√(q 0 ^ 2 + q 1 ^ 2) * cos (EOM.azimuth (q 0) (q 1)),
      √(q 0 ^ 2 + q 1 ^ 2) * sin (EOM.azimuth (q 0) (q 1)), q 2] := Coords.vec_ext ex ey rfl
  have h1 := hg (√(q 0 ^ 2 + q 1 ^ 2)) (q 2) (EOM.azimuth (q 0) (q 1)) hR
  have h2 := isCart_cart hper t (√(q 0 ^ 2 + q 1 ^ 2)) (q 2) (EOM.azimuth (q 0) (q 1)) hR
  rw [← e] at h1 h2
  rw [h1, h2]

/-- The forces are minus the gradient of the value and the second-derivative methods are its second derivatives, at
every point whose rotated and shifted image is off the axis and in the region where the wrapped potential has these
properties; the value and the forces are differentiable there, and everything has period `2 π` in azimuth. -/
theorem C55_derivatives {P : Pot} {D : Set (ℝ × ℝ × ℝ)} (hP : SmoothOn P D) (hper : Periodic P)
    (ht : TurnInvariant D) {A : Args} {W : Wrapper} (h : init A = .ok W)
    (hz : ∀ v b, A.inclination = none → A.zvec = some (.floats v b) → v ≠ 0) :
    let D' : Set (ℝ × ℝ × ℝ) := {p | let q := C55Spec.point W ![p.1 * cos p.2.2, p.1 * sin p.2.2, p.2.1];
      0 < q 0 ^ 2 + q 1 ^ 2 ∧ EOM.cylPoint q ∈ D}
    SmoothOn (pot P W) D' ∧ Periodic (pot P W) ∧ TurnInvariant D' := by
  intro D'
  have hW := C55aux.orthOf h hz
  have e : D' = region W D := by
    ext p
    change _ ↔ point W p.1 p.2.1 p.2.2 ∈ cartRegion D
    rw [C55aux.point_spec hW]
    rfl
  rw [e]
  exact ⟨smoothOn hP hper ht hW, periodic hW, turnInvariant hW D⟩

/-- The force, as a rectangular vector, is the force of the wrapped potential turned back. -/
theorem C55_force {P : Pot} (hper : Periodic P) {W : Wrapper} (hW : Orth W) {R z φ t : ℝ} :
    let q := C55Spec.point W ![R * cos φ, R * sin φ, z]
    0 < q 0 ^ 2 + q 1 ^ 2 → 0 < R →
      W.rot.mulVec (EOM.rectForce (pot P W) t ![R * cos φ, R * sin φ, z]) = EOM.rectForce P t q := by
  intro q h0 hR
  have hper' : Periodic (pot P W) := periodic hW
  have hx0 : 0 < (![R * cos φ, R * sin φ, z] : Vec) 0 ^ 2 + (![R * cos φ, R * sin φ, z] : Vec) 1 ^ 2 := by
    have : (R * cos φ) ^ 2 + (R * sin φ) ^ 2 = R ^ 2 := by linear_combination R ^ 2 * cos_sq_add_sin_sq φ
    simp only [Matrix.cons_val_zero, Matrix.cons_val_one]
    rw [this]; positivity
  have e : EOM.rectForce (pot P W) t ![R * cos φ, R * sin φ, z] = forceXYZ P W R z φ t := by
    obtain ⟨h1, h2, h3⟩ := EOM.azimuth_polar (φ := φ) hR
    have hs : R * sin φ / R = sin φ := by field_simp
    have hc : R * cos φ / R = cos φ := by field_simp
    have e1 := periodic_eq (f := fun x => (pot P W).Rforce R z x t) (fun x => hper'.Rforce R z x t) h2 h3
    have e2 := periodic_eq (f := fun x => (pot P W).phitorque R z x t) (fun x => hper'.phitorque R z x t) h2 h3
    have e3 := periodic_eq (f := fun x => (pot P W).zforce R z x t) (fun x => hper'.zforce R z x t) h2 h3
    have hcs := cos_sq_add_sin_sq φ
    simp only [EOM.rectForce, EOM.rectForceV, Pot.force, Matrix.cons_val_zero, Matrix.cons_val_one, Matrix.cons_val, h1,
      hs, hc, e1, e2, e3]
    refine Coords.vec_ext ?_ ?_ ?_ <;> simp only [pot, Matrix.cons_val_zero, Matrix.cons_val_one, Matrix.cons_val]
    · field_simp
      linear_combination forceXYZ P W R z φ t 0 * hcs
    · field_simp
      linear_combination forceXYZ P W R z φ t 1 * hcs
  rw [e, forceXYZ, Matrix.mulVec_mulVec, hW.inv, hW.orth, Matrix.one_mulVec, C55aux.point_spec hW]
  exact forceP_eq hper t h0

/-- Poisson's equation carries over, at points off both axes. -/
theorem C55_poisson {P : Pot} {D : Set (ℝ × ℝ × ℝ)} (hP : SmoothOn P D) (hper : Periodic P)
    (ht : TurnInvariant D) {W : Wrapper} (hW : Orth W) {R z φ t : ℝ} (hR : R ≠ 0) :
    let q := C55Spec.point W ![R * cos φ, R * sin φ, z]
    0 < q 0 ^ 2 + q 1 ^ 2 → EOM.cylPoint q ∈ D →
      PoissonAt P (√(q 0 ^ 2 + q 1 ^ 2)) (q 2) (Coords.atan2 (q 1) (q 0)) t → PoissonAt (pot P W) R z φ t := by
  intro q h0 hD hp
  have hx : q ∈ cartRegion D := ⟨h0, hD⟩
  have hm : (R, z, φ) ∈ region W D := by
    change point W R z φ ∈ cartRegion D
    rw [C55aux.point_spec hW]
    exact hx
  obtain ⟨hc, hs⟩ := atan2_azimuth h0
  have hD' := mem_turn ht hc.symm hs.symm hD
  have sm := smoothOn hP hper ht hW
  rw [poissonAt_iff (hP.grad _ _ _ _ hD') (hP.hess _ _ _ _ hD')] at hp
  rw [poissonAt_iff (sm.grad _ _ _ _ hm) (sm.hess _ _ _ _ hm)]
  unfold PoissonAlg at hp ⊢
  have tr : hessXYZ P W R z φ t 0 0 + hessXYZ P W R z φ t 1 1 + hessXYZ P W R z φ t 2 2 =
      hessP P q t 0 0 + hessP P q t 1 1 + hessP P q t 2 2 := by
    have c := Coords.rot_rows hW.orth
    have c00 := c 0 0; have c11 := c 1 1; have c22 := c 2 2
    have c01 := c 0 1; have c02 := c 0 2; have c12 := c 1 2
    simp at c00 c11 c22 c01 c02 c12
    have s10 : hessP P q t 1 0 = hessP P q t 0 1 := rfl
    have s20 : hessP P q t 2 0 = hessP P q t 0 2 := rfl
    have s21 : hessP P q t 2 1 = hessP P q t 1 2 := rfl
    simp only [hessXYZ, C55aux.point_spec hW, hW.inv, Matrix.mul_apply, Fin.sum_univ_three, Matrix.transpose_apply]
    change _ + _ + _ = _
    rw [show C55Spec.point W ![R * cos φ, R * sin φ, z] = q from rfl]
    rw [s10, s20, s21]
    linear_combination hessP P q t 0 0 * c00 + hessP P q t 1 1 * c11 + hessP P q t 2 2 * c22 +
      2 * hessP P q t 0 1 * c01 + 2 * hessP P q t 0 2 * c02 + 2 * hessP P q t 1 2 * c12
  have hd : (pot P W).dens R z φ t = P.dens (√(q 0 ^ 2 + q 1 ^ 2)) (q 2) (Coords.atan2 (q 1) (q 0)) t := by
    change dens P W R z φ t = _
    simp only [dens, C55aux.point_spec hW]
    rfl
  have hRp := (Real.sqrt_pos.2 h0).ne'
  have hcs := cos_sq_add_sin_sq φ
  have hcs' := cos_sq_add_sin_sq (Coords.atan2 (q 1) (q 0))
  have trP : hessP P q t 0 0 + hessP P q t 1 1 + hessP P q t 2 2 =
      P.R2deriv (√(q 0 ^ 2 + q 1 ^ 2)) (q 2) (Coords.atan2 (q 1) (q 0)) t
      - P.Rforce (√(q 0 ^ 2 + q 1 ^ 2)) (q 2) (Coords.atan2 (q 1) (q 0)) t / √(q 0 ^ 2 + q 1 ^ 2)
      + P.phi2deriv (√(q 0 ^ 2 + q 1 ^ 2)) (q 2) (Coords.atan2 (q 1) (q 0)) t / √(q 0 ^ 2 + q 1 ^ 2) ^ 2
      + P.z2deriv (√(q 0 ^ 2 + q 1 ^ 2)) (q 2) (Coords.atan2 (q 1) (q 0)) t := by
    simp only [hessP, Coords.rect_to_cyl, Matrix.of_apply, Matrix.cons_val_zero, Matrix.cons_val_one, Matrix.cons_val]
    generalize √(q 0 ^ 2 + q 1 ^ 2) = r at hRp ⊢
    generalize Coords.atan2 (q 1) (q 0) = a at hcs' ⊢
    linear_combination (P.R2deriv r (q 2) a t - P.Rforce r (q 2) a t / r + P.phi2deriv r (q 2) a t / r ^ 2) * hcs'
  rw [hd, hp, ← trP, ← tr]
  simp only [pot]
  have hRR : R ^ 2 / R ^ 2 = 1 := div_self (pow_ne_zero 2 hR)
  have hR1 : R / R ^ 2 = 1 / R := by field_simp
  linear_combination (-(hessXYZ P W R z φ t 0 0) - hessXYZ P W R z φ t 1 1) * hcs -
    (sin φ ^ 2 * hessXYZ P W R z φ t 0 0 + cos φ ^ 2 * hessXYZ P W R z φ t 1 1
      - 2 * cos φ * sin φ * hessXYZ P W R z φ t 0 1) * hRR -
    (cos φ * forceXYZ P W R z φ t 0 + sin φ * forceXYZ P W R z φ t 1) * hR1

/-! ### The C version -/

theorem C55aux.cPoint {W : Wrapper} (amp R z φ : ℝ) : cPoint (pack amp W) R z φ = point W R z φ := by
  have key : (if !W.norot then cRotate W.rot ![R * cos φ, R * sin φ, z] else ![R * cos φ, R * sin φ, z]) =
      if W.norot then (![R * cos φ, R * sin φ, z] : Vec) else W.rot.mulVec ![R * cos φ, R * sin φ, z] := by
    cases W.norot
    · simp only [Bool.not_false, if_true, Bool.false_eq_true, if_false]
      refine Coords.vec_ext ?_ ?_ ?_ <;> rw [Coords.mulVec3] <;> rfl
    · rfl
  cases ho : W.offset with
  | none =>
    simp only [Tilt.cPoint, pack, ho, point, Coords.cyl_to_rect, Option.isSome_none, Bool.false_eq_true, if_false]
    exact key
  | some o =>
    simp only [Tilt.cPoint, pack, ho, point, Coords.cyl_to_rect, Option.isSome_some, if_true, Option.getD_some]
    rw [key]
    refine Coords.vec_ext ?_ ?_ ?_ <;> rfl

theorem C55aux.cForces {P : Pot} {W : Wrapper} (hW : Orth W) (amp R z φ t : ℝ) :
    cForces P (pack amp W) R z φ t = forceXYZ P W R z φ t := by
  have e : cPolar (point W R z φ) = (√(point W R z φ 0 ^ 2 + point W R z φ 1 ^ 2),
      Coords.atan2 (point W R z φ 1) (point W R z φ 0)) := by
    simp only [cPolar, pow_two]
  simp only [Tilt.cForces, C55aux.cPoint, e, forceXYZ, forceP, Coords.rect_to_cyl]
  by_cases h : W.norot = true
  · have h1 := hW.norot.1 h
    simp [pack, h, hW.inv, h1]
  · simp only [Bool.not_eq_true] at h
    simp only [pack, h, Bool.not_false, if_true]
    refine Coords.vec_ext ?_ ?_ ?_ <;> rw [Coords.mulVec3, hW.inv] <;> rfl

theorem C55aux.cHessian {P : Pot} {W : Wrapper} (hW : Orth W) (amp R z φ t : ℝ) :
    let H := hessXYZ P W R z φ t
    cHessian P (pack amp W) R z φ t = ![H 0 0, H 0 1, H 0 2, H 1 1, H 1 2, H 2 2] := by
  intro H
  have e : cPolar (point W R z φ) = (√(point W R z φ 0 ^ 2 + point W R z φ 1 ^ 2),
      Coords.atan2 (point W R z φ 1) (point W R z φ 0)) := by
    simp only [cPolar, pow_two]
  simp only [H, Tilt.cHessian, C55aux.cPoint, e, hessXYZ, hessP, Coords.rect_to_cyl]
  generalize point W R z φ = q
  generalize √(q 0 ^ 2 + q 1 ^ 2) = r
  generalize Coords.atan2 (q 1) (q 0) = a
  by_cases h : W.norot = true
  · have h1 := hW.norot.1 h
    simp only [pack, h, Bool.not_true, Bool.false_eq_true, if_false, hW.inv, h1, Matrix.transpose_one, Matrix.one_mul,
      Matrix.mul_one]
    funext j
    fin_cases j <;> simp <;> ring
  · simp only [Bool.not_eq_true] at h
    simp only [pack, h, Bool.not_false, if_true]
    funext j
    fin_cases j <;>
      simp only [Matrix.mul_apply, Fin.sum_univ_three, hW.inv, Matrix.transpose_apply, Matrix.of_apply, Fin.zero_eta,
        Fin.mk_one, Fin.reduceFinMk, Matrix.cons_val_zero, Matrix.cons_val_one, Matrix.cons_val] <;> ring

/-- A cache that gives right answers, except possibly at the origin at time zero. -/
def C55aux.Good (P : Pot) (A : CArgs) (c : Cache) : Prop :=
  (∀ R z φ t : ℝ, (![R * cos φ, R * sin φ, z, t] : Fin 4 → ℝ) ≠ 0 → ![R * cos φ, R * sin φ, z, t] = c.key →
    c.F = Tilt.cForces P A R z φ t) ∧
  (∀ R z φ t : ℝ, some ![R * cos φ, R * sin φ, z, t] = c.hkey → c.H = Tilt.cHessian P A R z φ t)

theorem C55aux.point_congr {A : CArgs} {R z φ t R' z' φ' t' : ℝ}
    (h : (![R * cos φ, R * sin φ, z, t] : Fin 4 → ℝ) = ![R' * cos φ', R' * sin φ', z', t']) :
    Tilt.cPoint A R z φ = Tilt.cPoint A R' z' φ' ∧ t = t' := by
  have h0 := congrFun h 0
  have h1 := congrFun h 1
  have h2 := congrFun h 2
  have h3 := congrFun h 3
  simp at h0 h1 h2 h3
  refine ⟨?_, h3⟩
  simp only [Tilt.cPoint, h0, h1, h2]

theorem C55aux.getForces {P : Pot} {A : CArgs} {c : Cache} (hc : C55aux.Good P A c) (R z φ t : ℝ)
    (h0 : (![R * cos φ, R * sin φ, z, t] : Fin 4 → ℝ) ≠ 0) :
    (getForces P A R z φ t c).1 = Tilt.cForces P A R z φ t ∧ C55aux.Good P A (getForces P A R z φ t c).2 := by
  unfold Tilt.getForces
  simp only
  split_ifs with h
  · exact ⟨hc.1 R z φ t h0 h, hc⟩
  · refine ⟨rfl, fun R' z' φ' t' _ e => ?_, hc.2⟩
    obtain ⟨e1, e2⟩ := C55aux.point_congr (A := A) e
    simp only [Tilt.cForces, e1, e2]

theorem C55aux.getHessian {P : Pot} {A : CArgs} {c : Cache} (hc : C55aux.Good P A c) (R z φ t : ℝ) :
    (getHessian P A R z φ t c).1 = Tilt.cHessian P A R z φ t ∧ C55aux.Good P A (getHessian P A R z φ t c).2 := by
  unfold Tilt.getHessian
  simp only
  split_ifs with h
  · exact ⟨hc.2 R z φ t h, hc⟩
  · refine ⟨rfl, hc.1, fun R' z' φ' t' e => ?_⟩
    obtain ⟨e1, e2⟩ := C55aux.point_congr (A := A) (Option.some.inj e)
    simp only [Tilt.cHessian, e1, e2]

theorem C55aux.cCall {P : Pot} {W : Wrapper} (hW : Orth W) (amp : ℝ) {c : Cache}
    (hc : C55aux.Good P (pack amp W) c) (m : Method) (R z φ t : ℝ)
    (h0 : (![R * cos φ, R * sin φ, z, t] : Fin 4 → ℝ) ≠ 0) :
    (cCall P (pack amp W) m R z φ t c).1 = amp * method (pot P W) m R z φ t ∧
      C55aux.Good P (pack amp W) (cCall P (pack amp W) m R z φ t c).2 := by
  have F := C55aux.getForces hc R z φ t h0
  have H := C55aux.getHessian hc R z φ t
  have FH := C55aux.getForces H.2 R z φ t h0
  have eF := C55aux.cForces (P := P) hW amp R z φ t
  have eH := C55aux.cHessian (P := P) hW amp R z φ t
  have ea : (pack amp W).amp = amp := rfl
  cases m <;> simp only [Tilt.cCall, F.1, H.1, FH.1, eF, eH, ea, method, pot]
  · exact ⟨trivial, F.2⟩
  · exact ⟨trivial, F.2⟩
  · exact ⟨by ring, F.2⟩
  all_goals simp only [Matrix.cons_val_zero, Matrix.cons_val_one, Matrix.cons_val]
  · exact ⟨by ring, H.2⟩
  · exact ⟨trivial, H.2⟩
  · exact ⟨trivial, H.2⟩
  · exact ⟨by ring, FH.2⟩
  · exact ⟨trivial, FH.2⟩
  · exact ⟨by ring, H.2⟩

/-- Any sequence of calls of the C functions gives the amplitude times what the Python methods give, whatever was
cached by the calls before; only the origin at time zero is left out. -/
theorem C55_C_calls {P : Pot} {A : Args} {W : Wrapper} (h : init A = .ok W)
    (hz : ∀ v b, A.inclination = none → A.zvec = some (.floats v b) → v ≠ 0) (amp : ℝ)
    (l : List (Method × ℝ × ℝ × ℝ × ℝ))
    (hl : ∀ p ∈ l, ¬(p.2.1 * cos p.2.2.2.1 = 0 ∧ p.2.1 * sin p.2.2.2.1 = 0 ∧ p.2.2.1 = 0 ∧ p.2.2.2.2 = 0)) :
    cCalls P (pack amp W) l cache0 =
      l.map fun p => amp * method (pot P W) p.1 p.2.1 p.2.2.1 p.2.2.2.1 p.2.2.2.2 := by
  have hW := C55aux.orthOf h hz
  have gen : ∀ (l : List (Method × ℝ × ℝ × ℝ × ℝ)) (c : Cache), C55aux.Good P (pack amp W) c →
      (∀ p ∈ l, ¬(p.2.1 * cos p.2.2.2.1 = 0 ∧ p.2.1 * sin p.2.2.2.1 = 0 ∧ p.2.2.1 = 0 ∧ p.2.2.2.2 = 0)) →
      cCalls P (pack amp W) l c =
        l.map fun p => amp * method (pot P W) p.1 p.2.1 p.2.2.1 p.2.2.2.1 p.2.2.2.2 := by
    intro l
    induction l with
    | nil => intro c _ _; rfl
    | cons p l ih =>
      intro c hc hl
      obtain ⟨m, R, z, φ, t⟩ := p
      have h0 : (![R * cos φ, R * sin φ, z, t] : Fin 4 → ℝ) ≠ 0 := fun e => by
        have e0 := congrFun e 0
        have e1 := congrFun e 1
        have e2 := congrFun e 2
        have e3 := congrFun e 3
        exact hl _ List.mem_cons_self ⟨e0, e1, e2, e3⟩
      have k := C55aux.cCall hW amp hc m R z φ t h0
      simp only [cCalls, List.map_cons]
      rw [k.1, ih _ k.2 fun q hq => hl q (List.mem_cons_of_mem _ hq)]
  refine gen l cache0 ⟨fun R z φ t h0 e => absurd e h0, fun R z φ t e => ?_⟩ hl
  exact absurd e (by simp [cache0])

/-- At the origin at time zero the first call finds a key of zeros and returns zero. -/
theorem C55_C_first_call_fails : ∃ W, init { offset := some ![1, 0, 0] } = .ok W ∧
    cCalls (Plummer.pot 1) (pack 1 W) [(.Rforce, 0, 0, 0, 0)] cache0 = [0] ∧
    (pot (Plummer.pot 1) W).Rforce 0 0 0 0 ≠ 0 := by
  refine ⟨_, rfl, ?_, ?_⟩
  · have e : (![0 * cos 0, 0 * sin 0, 0, 0] : Fin 4 → ℝ) = 0 := by
      funext j
      fin_cases j <;> simp
    simp only [cCalls, Tilt.cCall, Tilt.getForces]
    rw [if_pos (by rw [e]; rfl)]
    simp [cache0]
  · have hp : ∀ W : Wrapper, W.rot = 1 → W.offset = some ![1, 0, 0] → point W 0 0 0 = ![1, 0, 0] := by
      intro W h1 h2
      simp only [point, h1, h2, Coords.cyl_to_rect]
      refine Coords.vec_ext ?_ ?_ ?_ <;> simp
    have hr : (Tilt.paRot none * (1 : Mat)) = 1 := by simp [Tilt.paRot]
    simp only [pot, forceXYZ]
    rw [hp _ hr rfl, hr]
    have ha : Coords.atan2 0 1 = 0 := by
      have := Coords.atan2_polar (r := 1) (a := 0) one_pos (by linarith [pi_pos]) pi_pos.le
      simpa using this
    simp [forceP, Coords.rect_to_cyl, Plummer.pot, Pot.axi, Plummer.Rforce, ha]

/-! ### Instances -/

/-- A disc seen edge on, at a point off both planes. -/
example : ∃ W, init { inclination := some (π / 2), galaxyPa := some 0, skyPa := some (π / 2) } = .ok W ∧
    W.rot = !![1, 0, 0; 0, 0, 1; 0, -1, 0] ∧
    GradAt (pot (MiyamotoNagai.pot true 1 (1 / 2)) W) 1 (1 / 2) 0 0 ∧
    HessAt (pot (MiyamotoNagai.pot true 1 (1 / 2)) W) 1 (1 / 2) 0 0 := by
  have hp : (10 : ℝ) ^ (-10 : ℤ) ≤ 1 := by norm_num
  obtain ⟨W, h, hr⟩ := C55_inclination (A := { inclination := some (π / 2), galaxyPa := some 0, skyPa := some (π / 2) })
    rfl rfl (.inr (by simpa using hp)) (by simpa using hp)
  have hr' : W.rot = !![1, 0, 0; 0, 0, 1; 0, -1, 0] := by
    rw [hr]
    ext i j
    fin_cases i <;> fin_cases j <;> simp [C55Spec.doc, Matrix.mul_apply, Fin.sum_univ_three]
  have hz : ∀ (v : Vec) (b : Bool), (some (π / 2) : Option ℝ) = none → (none : Option ZVec) = some (.floats v b) →
      v ≠ 0 := fun v b e => by simp at e
  have ho : W.offset = none := (C55_inverse h hz).2.2.2
  have hper : Periodic (MiyamotoNagai.pot true 1 (1 / 2)) := periodic_axi _ _ _ _ _ _ _
  obtain ⟨hs, -, -⟩ := C55_derivatives (MiyamotoNagai.smoothOn true 1 (1 / 2)) hper
    (fun _ _ _ _ h => h) h hz
  have hq : C55Spec.point W ![(1 : ℝ) * cos 0, 1 * sin 0, 1 / 2] = ![1, 1 / 2, 0] := by
    funext i
    rw [C55Spec.point, Coords.mulVec3, hr', ho]
    fin_cases i <;> simp
  have hm : ((1 : ℝ), ((1 : ℝ) / 2), (0 : ℝ)) ∈ {p : ℝ × ℝ × ℝ |
      let q := C55Spec.point W ![p.1 * cos p.2.2, p.1 * sin p.2.2, p.2.1];
      0 < q 0 ^ 2 + q 1 ^ 2 ∧ EOM.cylPoint q ∈ {p : ℝ × ℝ × ℝ | 0 < p.2.1 ^ 2 + ((1 : ℝ) / 2) ^ 2 ∧
        0 < p.1 ^ 2 + (1 + √(p.2.1 ^ 2 + ((1 : ℝ) / 2) ^ 2)) ^ 2}} := by
    simp only [Set.mem_setOf_eq]
    rw [hq]
    refine ⟨by simp; norm_num, ?_⟩
    simp [EOM.cylPoint]
    positivity
  exact ⟨W, h, hr', hs.grad _ _ _ _ hm, hs.hess _ _ _ _ hm⟩

/-- An axis that is not normalised, with an offset; a repeated call and one at another time. -/
example : ∃ W, init { zvec := some (.floats ![1, 2, 2] false), galaxyPa := some 1, offset := some ![1, 0, 3] } = .ok W ∧
    Spec.IsRotation W.rot ∧ W.rot.mulVec ![1, 2, 2] = ![0, 0, 3] ∧ ∀ P : Pot,
    cCalls P (pack 2 W) [(.zforce, 1, 0, 0, 0), (.phi2deriv, 1, 0, 0, 0), (.zforce, 1, 0, 0, 5)] cache0 =
      [2 * (pot P W).zforce 1 0 0 0, 2 * (pot P W).phi2deriv 1 0 0 0, 2 * (pot P W).zforce 1 0 0 5] := by
  have hv : (![1, 2, 2] : Vec) ≠ 0 := fun h => by
    have := congrFun h 0
    simp at this
  have hs : sqrt (Spec.sq (![1, 2, 2] : Vec)) = 3 := by
    have : Spec.sq (![1, 2, 2] : Vec) = 3 ^ 2 := by simp [Spec.sq]; norm_num
    rw [this, Real.sqrt_sq (by norm_num)]
  obtain ⟨W, h, h1, h2⟩ := C55_zvec
    (A := { zvec := some (.floats ![1, 2, 2] false), galaxyPa := some 1, offset := some ![1, 0, 3] }) rfl rfl hv
    (by rw [hs]; simp; norm_num) (by rw [hs]; simp; norm_num)
  rw [hs] at h2
  refine ⟨W, h, h1, h2, fun P => ?_⟩
  have := C55_C_calls (P := P) h (fun v b _ e => by
    simp only [Option.some.injEq, ZVec.floats.injEq] at e
    rw [← e.1]; exact hv) 2 [(.zforce, 1, 0, 0, 0), (.phi2deriv, 1, 0, 0, 0), (.zforce, 1, 0, 0, 5)] (by simp)
  simpa [method] using this

/-- Poisson's equation for a tilted and shifted Plummer sphere. -/
example : ∃ W, init { zvec := some (.floats ![0, 0, 4] false), offset := some ![1, 0, 0] } = .ok W ∧
    PoissonAt (pot (Plummer.pot 1) W) 1 2 0 0 := by
  have hv : (![0, 0, 4] : Vec) ≠ 0 := fun h => by
    have := congrFun h 2
    simp at this
  refine ⟨_, rfl, ?_⟩
  have hW := C55aux.orthOf (A := { zvec := some (.floats ![0, 0, 4] false), offset := some ![1, 0, 0] }) rfl
    (fun v b _ e => by simp only [Option.some.injEq, ZVec.floats.injEq] at e; rw [← e.1]; exact hv)
  have hper : Periodic (Plummer.pot 1) := periodic_axi _ _ _ _ _ _ _
  have h4 : sqrt (4 ^ 2) = 4 := Real.sqrt_sq (by norm_num)
  have hr : Util.rotateTo ![0, 0, 1] (Util.unitVec ![0, 0, 4]) true false = 1 :=
    (C46_parallel _ _ true C55aux.zne (C55aux.sq_unit hv) (by
      rw [C55aux.cosine_z]
      simp [Util.unitVec, h4])).1
  have hq : ∀ W : Wrapper, W.rot = 1 → W.offset = some ![1, 0, 0] →
      C55Spec.point W ![1 * cos 0, 1 * sin 0, 2] = ![2, 0, 2] := by
    intro W h1 h2
    funext i
    rw [C55Spec.point, Coords.mulVec3, h1, h2]
    obtain rfl | rfl | rfl : i = 0 ∨ i = 1 ∨ i = 2 := by omega
    all_goals simp
    norm_num
  have e := hq ⟨Tilt.paRot none * Util.rotateTo ![0, 0, 1] (Util.unitVec ![0, 0, 4]) true false,
    (Tilt.paRot none * Util.rotateTo ![0, 0, 1] (Util.unitVec ![0, 0, 4]) true false)⁻¹, some ![1, 0, 0],
    decide (Tilt.paRot none * Util.rotateTo ![0, 0, 1] (Util.unitVec ![0, 0, 4]) true false = 1)⟩
    (by rw [hr]; simp [Tilt.paRot]) rfl
  refine C55_poisson (Plummer.smoothOn 1) hper (fun _ _ _ _ h => h) hW one_ne_zero ?_ ?_ ?_
  · rw [e]; simp
  · rw [e]; simp [EOM.cylPoint]; positivity
  · rw [e]
    refine (Plummer.consistent 1).poisson _ _ _ _ ?_ ?_
    · simp; norm_num
    · simp

end Verif
