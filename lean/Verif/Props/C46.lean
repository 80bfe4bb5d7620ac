import Verif.Model.UtilNumerics
import Verif.Lemmas.Coords
import Mathlib.LinearAlgebra.Matrix.Determinant.Basic

set_option autoImplicit false

/-!
# C46: `_rotate_to_arbitrary_vector`
-/

noncomputable section
namespace Verif
open Real Util
open Coords (mulVec3)

/-- Cosine of the angle between the direction of `v` and `a`. -/
def C46aux.cosine (v a : Fin 3 → ℝ) : ℝ := (v 0 * a 0 + v 1 * a 1 + v 2 * a 2) / sqrt (Spec.sq v)

theorem C46aux.unit {v : Fin 3 → ℝ} (h : v ≠ 0) :
    unitVec v 0 ^ 2 + unitVec v 1 ^ 2 + unitVec v 2 ^ 2 = 1 ∧ 0 < v 0 ^ 2 + v 1 ^ 2 + v 2 ^ 2 := by
  have hp : 0 < v 0 ^ 2 + v 1 ^ 2 + v 2 ^ 2 := by
    by_contra hle
    have h0 : v 0 = 0 := by nlinarith [sq_nonneg (v 0), sq_nonneg (v 1), sq_nonneg (v 2)]
    have h1 : v 1 = 0 := by nlinarith [sq_nonneg (v 0), sq_nonneg (v 1), sq_nonneg (v 2)]
    have h2 : v 2 = 0 := by nlinarith [sq_nonneg (v 0), sq_nonneg (v 1), sq_nonneg (v 2)]
    exact h (by ext i; fin_cases i <;> simp [h0, h1, h2])
  refine ⟨?_, hp⟩
  have hs := Real.sqrt_pos.2 hp
  have hq := Real.sq_sqrt hp.le
  simp only [unitVec]
  generalize sqrt (v 0 ^ 2 + v 1 ^ 2 + v 2 ^ 2) = s at *
  field_simp
  linarith

/-- The matrix for a unit axis `k` and an angle. -/
def C46aux.rodrigues (c s : ℝ) (k : Fin 3 → ℝ) : Matrix (Fin 3) (Fin 3) ℝ :=
  !![c + (1 - c) * (k 0 * k 0), -s * k 2 + (1 - c) * (k 0 * k 1), s * k 1 + (1 - c) * (k 0 * k 2);
    s * k 2 + (1 - c) * (k 1 * k 0), c + (1 - c) * (k 1 * k 1), -s * k 0 + (1 - c) * (k 1 * k 2);
    -s * k 1 + (1 - c) * (k 2 * k 0), s * k 0 + (1 - c) * (k 2 * k 1), c + (1 - c) * (k 2 * k 2)]

theorem C46aux.rodrigues_rotation (c s : ℝ) (k : Fin 3 → ℝ) (hcs : c ^ 2 + s ^ 2 = 1)
    (hk : k 0 ^ 2 + k 1 ^ 2 + k 2 ^ 2 = 1) :
    C46aux.rodrigues c s k * (C46aux.rodrigues c s k).transpose = 1 ∧ (C46aux.rodrigues c s k).det = 1 := by
  constructor
  · ext i j
    fin_cases i <;> fin_cases j <;> simp [C46aux.rodrigues, Matrix.mul_apply, Fin.sum_univ_three] <;> grind
  · rw [Matrix.det_fin_three]
    simp [C46aux.rodrigues]
    grind

theorem C46aux.rodrigues_neg (c s : ℝ) (k : Fin 3 → ℝ) :
    C46aux.rodrigues c (-s) k = (C46aux.rodrigues c s k).transpose := by
  ext i j
  fin_cases i <;> fin_cases j <;>
    simp only [C46aux.rodrigues, Matrix.transpose_apply, Matrix.of_apply, Fin.zero_eta, Fin.mk_one, Fin.reduceFinMk,
      Matrix.cons_val_zero, Matrix.cons_val_one, Matrix.cons_val] <;> ring

theorem C46aux.rotateTo_eq (v a : Fin 3 → ℝ) (inv : Bool) (hv : v ≠ 0)
    (h1 : 10 ^ (-10 : ℤ) ≤ 1 - C46aux.cosine v a) (h2 : 10 ^ (-10 : ℤ) ≤ 1 + C46aux.cosine v a) :
    rotateTo v a inv false = C46aux.rodrigues (C46aux.cosine v a)
      ((if inv then -1 else 1) * sqrt (1 - C46aux.cosine v a ^ 2)) (unitVec (cross (unitVec v) a)) := by
  have hc : dot (unitVec v) a = C46aux.cosine v a := by
    simp only [dot, unitVec, C46aux.cosine, Spec.sq]; ring
  have c1 : ¬ |C46aux.cosine v a - 1| < 10 ^ (-10 : ℤ) := by
    intro h
    rw [abs_lt] at h
    linarith [h.1]
  have c2 : ¬ |C46aux.cosine v a + 1| < 10 ^ (-10 : ℤ) := by
    intro h
    rw [abs_lt] at h
    linarith [h.2]
  simp only [rotateTo, hc, c1, c2, and_false, if_false]
  generalize unitVec (cross (unitVec v) a) = k
  cases inv <;> ext i j <;> fin_cases i <;> fin_cases j <;>
    simp [C46aux.rodrigues, crossmatrix, cross] <;> ring

/-- Away from the parallel and antiparallel directions the matrix is orthogonal with determinant one, it takes the
direction of `v` to `a` and leaves the vectors orthogonal to both where they are, and `inv=True` gives its
inverse. -/
theorem C46_rotation (v a : Fin 3 → ℝ) (hv : v ≠ 0) (ha : Spec.sq a = 1)
    (h1 : 10 ^ (-10 : ℤ) ≤ 1 - C46aux.cosine v a) (h2 : 10 ^ (-10 : ℤ) ≤ 1 + C46aux.cosine v a) :
    let T := rotateTo v a false false;
    T * T.transpose = 1 ∧ T.det = 1 ∧ (∀ i, T.mulVec v i = sqrt (Spec.sq v) * a i) ∧
      (∀ w, w 0 * v 0 + w 1 * v 1 + w 2 * v 2 = 0 → w 0 * a 0 + w 1 * a 1 + w 2 * a 2 = 0 → T.mulVec w = w) ∧
      T * rotateTo v a true false = 1 := by
  intro T
  obtain ⟨hn, hvp⟩ := C46aux.unit hv
  have hT : T = _ := C46aux.rotateTo_eq v a false hv h1 h2
  have hI := C46aux.rotateTo_eq v a true hv h1 h2
  have hpos : (0 : ℝ) < 10 ^ (-10 : ℤ) := by positivity
  have hc : C46aux.cosine v a = unitVec v 0 * a 0 + unitVec v 1 * a 1 + unitVec v 2 * a 2 := by
    simp only [unitVec, C46aux.cosine, Spec.sq]; ring
  set c := C46aux.cosine v a with hcdef
  have hc2 : 0 < 1 - c ^ 2 := by nlinarith
  have hsq := Real.sq_sqrt hc2.le
  have hs := Real.sqrt_pos.2 hc2
  have ha' : a 0 ^ 2 + a 1 ^ 2 + a 2 ^ 2 = 1 := ha
  have hvn : ∀ i, v i = sqrt (Spec.sq v) * unitVec v i := fun i => by
    have := (Real.sqrt_pos.2 hvp).ne'
    simp only [unitVec, Spec.sq]; field_simp
  generalize unitVec v = n at *
  have hw : cross n a 0 ^ 2 + cross n a 1 ^ 2 + cross n a 2 ^ 2 = 1 - c ^ 2 := by
    simp only [cross, Matrix.cons_val_zero, Matrix.cons_val_one, Matrix.cons_val]
    rw [hc]; grind
  have hk : ∀ i, sqrt (1 - c ^ 2) * unitVec (cross n a) i = cross n a i := fun i => by
    simp only [unitVec, hw]; field_simp
  have hk1 : unitVec (cross n a) 0 ^ 2 + unitVec (cross n a) 1 ^ 2 + unitVec (cross n a) 2 ^ 2 = 1 := by
    simp only [unitVec, hw]; field_simp; linarith
  simp only [Bool.false_eq_true, if_false, one_mul, if_true, neg_one_mul] at hT hI
  generalize unitVec (cross n a) = k at *
  generalize sqrt (1 - c ^ 2) = s at *
  have k0 := hk 0; have k1 := hk 1; have k2 := hk 2
  simp only [cross, Matrix.cons_val_zero, Matrix.cons_val_one, Matrix.cons_val] at k0 k1 k2
  clear hk hw
  have hrot := C46aux.rodrigues_rotation c s k (by linarith) hk1
  have hnk : k 0 * n 0 + k 1 * n 1 + k 2 * n 2 = 0 := by
    have : s * (k 0 * n 0 + k 1 * n 1 + k 2 * n 2) = 0 := by
      linear_combination n 0 * k0 + n 1 * k1 + n 2 * k2
    exact (mul_eq_zero.1 this).resolve_left hs.ne'
  refine ⟨by rw [hT]; exact hrot.1, by rw [hT]; exact hrot.2, ?_, ?_, ?_⟩
  · intro i
    rw [hT, mulVec3, hvn 0, hvn 1, hvn 2]
    generalize sqrt (Spec.sq v) = r
    fin_cases i <;> simp [C46aux.rodrigues] <;> clear hT hI hrot hvn <;> grind
  · intro w hwv hwa
    have hwn : w 0 * n 0 + w 1 * n 1 + w 2 * n 2 = 0 := by
      rw [hvn 0, hvn 1, hvn 2] at hwv
      have hr : sqrt (Spec.sq v) ≠ 0 := (Real.sqrt_pos.2 hvp).ne'
      have : sqrt (Spec.sq v) * (w 0 * n 0 + w 1 * n 1 + w 2 * n 2) = 0 := by linarith
      exact (mul_eq_zero.1 this).resolve_left hr
    have hx : s * (k 1 * w 2 - k 2 * w 1) = 0 ∧ s * (k 2 * w 0 - k 0 * w 2) = 0 ∧ s * (k 0 * w 1 - k 1 * w 0) = 0 := by
      refine ⟨?_, ?_, ?_⟩
      · linear_combination w 2 * k1 - w 1 * k2 + a 0 * hwn - n 0 * hwa
      · linear_combination w 0 * k2 - w 2 * k0 + a 1 * hwn - n 1 * hwa
      · linear_combination w 1 * k0 - w 0 * k1 + a 2 * hwn - n 2 * hwa
    obtain ⟨x0, x1, x2⟩ := hx
    have y0 := (mul_eq_zero.1 x0).resolve_left hs.ne'
    have y1 := (mul_eq_zero.1 x1).resolve_left hs.ne'
    have y2 := (mul_eq_zero.1 x2).resolve_left hs.ne'
    ext i
    rw [hT, mulVec3]
    fin_cases i <;> simp [C46aux.rodrigues] <;> clear hT hI hrot hvn <;> grind
  · rw [hT, hI, C46aux.rodrigues_neg]; exact hrot.1

/-- Within the cut around the parallel direction the identity is returned: it takes the direction of `v` to `a` up
to a distance of `sqrt 2e-10`. -/
theorem C46_parallel (v a : Fin 3 → ℝ) (inv : Bool) (hv : v ≠ 0) (ha : Spec.sq a = 1)
    (h : |C46aux.cosine v a - 1| < 10 ^ (-10 : ℤ)) :
    rotateTo v a inv false = 1 ∧
      Spec.sq (fun i => v i / sqrt (Spec.sq v) - a i) < 2 * 10 ^ (-10 : ℤ) := by
  obtain ⟨hn, hvp⟩ := C46aux.unit hv
  have hc : dot (unitVec v) a = C46aux.cosine v a := by
    simp only [dot, unitVec, C46aux.cosine, Spec.sq]; ring
  have h' := abs_lt.1 h
  have c2 : ¬ |C46aux.cosine v a + 1| < 10 ^ (-10 : ℤ) := by
    intro h2
    rw [abs_lt] at h2
    have : (10 : ℝ) ^ (-10 : ℤ) < 1 := by norm_num
    linarith [h2.2, h'.1]
  refine ⟨?_, ?_⟩
  · simp only [rotateTo, hc, h, c2, and_false, if_false, and_self, if_true]
    exact if_pos trivial
  · have ha' : a 0 ^ 2 + a 1 ^ 2 + a 2 ^ 2 = 1 := ha
    have e : Spec.sq (fun i => v i / sqrt (Spec.sq v) - a i) = 2 - 2 * C46aux.cosine v a := by
      rw [← hc]
      simp only [unitVec] at hn
      simp only [Spec.sq, dot, unitVec]
      linear_combination hn + ha'
    rw [e]; linarith [h'.1]

/-- Around the antiparallel direction the point reflection is returned, which is not a rotation: its determinant
is minus one. -/
theorem C46_antiparallel_fails (v a : Fin 3 → ℝ) (inv : Bool) (h : |C46aux.cosine v a + 1| < 10 ^ (-10 : ℤ)) :
    rotateTo v a inv false = -1 ∧ (rotateTo v a inv false).det = -1 := by
  have hc : dot (unitVec v) a = C46aux.cosine v a := by
    simp only [dot, unitVec, C46aux.cosine, Spec.sq]; ring
  have e : rotateTo v a inv false = -1 := by
    simp only [rotateTo, hc, h, and_self, if_true]
  refine ⟨e, ?_⟩
  rw [e, Matrix.det_fin_three]
  simp

/-! ### Instances -/

/-- Onto the third axis, from a vector that is not normalised. -/
example : (rotateTo ![3, 0, 4] ![0, 0, 1] false false).mulVec ![3, 0, 4] = ![0, 0, 5] := by
  have h5 : sqrt ((3 : ℝ) ^ 2 + 0 ^ 2 + 4 ^ 2) = 5 := by
    rw [show (3 : ℝ) ^ 2 + 0 ^ 2 + 4 ^ 2 = 5 ^ 2 by norm_num]; exact Real.sqrt_sq (by norm_num)
  have hc : C46aux.cosine ![3, 0, 4] ![0, 0, 1] = 4 / 5 := by
    simp [C46aux.cosine, Spec.sq] at h5 ⊢; rw [h5]
  have := (C46_rotation ![3, 0, 4] ![0, 0, 1] (by intro h; have := congrFun h 0; simp at this) (by simp [Spec.sq])
    (by rw [hc]; norm_num) (by rw [hc]; norm_num)).2.2.1
  ext i
  rw [this]
  simp only [Spec.sq]
  simp only [Matrix.cons_val_zero, Matrix.cons_val_one, Matrix.cons_val]
  rw [h5]
  fin_cases i <;> simp

example : (rotateTo ![0, 0, -1] ![0, 0, 1] false false).det = -1 :=
  (C46_antiparallel_fails ![0, 0, -1] ![0, 0, 1] false (by simp [C46aux.cosine, Spec.sq])).2

end Verif
