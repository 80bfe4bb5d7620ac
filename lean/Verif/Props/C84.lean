import Verif.Model.DF.Evolved
import Mathlib.Analysis.Calculus.Deriv.Mul
import Mathlib.Analysis.Calculus.Deriv.Inv
import Mathlib.Analysis.Calculus.Deriv.Prod
import Mathlib.Analysis.SpecialFunctions.Trigonometric.Deriv
import Mathlib.Analysis.SpecialFunctions.ExpDeriv
import Mathlib.Algebra.Order.BigOperators.Ring.Finset

set_option autoImplicit false

/-!
# C84 Moments of an evolved disk distribution function on a velocity grid

Mean velocities, dispersions, vertex deviation and Oort constants that `evolveddiskdf` computes from one
velocity grid.
-/

noncomputable section
namespace Verif
open Evolved Real

namespace C84Spec

/-- Average of a function of the velocity over the points of the grid, weighted with the density. -/
def avg {n : ℕ} (g : Grid (n + 2)) (h : ℝ → ℝ → ℝ) : ℝ :=
  (∑ i, ∑ j, h (g.vR i) (g.vT j) * g.df i j) / ∑ i, ∑ j, g.df i j

/-- Covariance of two functions of the velocity. -/
def cov {n : ℕ} (g : Grid (n + 2)) (h k : ℝ → ℝ → ℝ) : ℝ :=
  avg g fun a b => (h a b - avg g h) * (k a b - avg g k)

/-- A grid on which there are stars: the velocities are not all the same and the density does not sum to
zero. -/
def Regular {n : ℕ} (g : Grid (n + 2)) : Prop :=
  g.vR 1 ≠ g.vR 0 ∧ g.vT 1 ≠ g.vT 0 ∧ ∑ i, ∑ j, g.df i j ≠ 0

end C84Spec

namespace C84aux
open C84Spec

theorem moment_eq {n : ℕ} (g : Grid (n + 2)) (a b : ℕ) :
    g.moment a b = (∑ i, ∑ j, g.vR i ^ a * g.vT j ^ b * g.df i j) * ((g.vR 1 - g.vR 0) * (g.vT 1 - g.vT 0)) := by
  unfold Grid.moment
  rw [mul_assoc]
  congr 1
  refine Finset.sum_congr rfl fun i _ => ?_
  rw [Finset.mul_sum]
  exact Finset.sum_congr rfl fun j _ => by ring

theorem ratio {n : ℕ} {g : Grid (n + 2)} (h : Regular g) (a b : ℕ) :
    g.moment a b / g.moment 0 0 = avg g fun x y => x ^ a * y ^ b := by
  rw [moment_eq, moment_eq]
  have h1 : (g.vR 1 - g.vR 0) * (g.vT 1 - g.vT 0) ≠ 0 :=
    mul_ne_zero (sub_ne_zero.2 h.1) (sub_ne_zero.2 h.2.1)
  rw [mul_div_mul_right _ _ h1]
  simp [avg]

theorem moment00_ne {n : ℕ} {g : Grid (n + 2)} (h : Regular g) : g.moment 0 0 ≠ 0 := by
  rw [moment_eq]
  refine mul_ne_zero ?_ (mul_ne_zero (sub_ne_zero.2 h.1) (sub_ne_zero.2 h.2.1))
  simpa using h.2.2

theorem avg_add {n : ℕ} (g : Grid (n + 2)) (h k : ℝ → ℝ → ℝ) :
    avg g (fun a b => h a b + k a b) = avg g h + avg g k := by
  simp only [avg, add_mul, Finset.sum_add_distrib, add_div]

theorem avg_mul {n : ℕ} (g : Grid (n + 2)) (c : ℝ) (h : ℝ → ℝ → ℝ) :
    avg g (fun a b => c * h a b) = c * avg g h := by
  simp only [avg, mul_assoc, ← Finset.mul_sum, mul_div_assoc]

theorem avg_const {n : ℕ} {g : Grid (n + 2)} (hg : Regular g) (c : ℝ) : avg g (fun _ _ => c) = c := by
  simp only [avg, ← Finset.mul_sum]
  rw [mul_div_assoc, div_self hg.2.2, mul_one]

theorem cov_eq {n : ℕ} {g : Grid (n + 2)} (hg : Regular g) (h k : ℝ → ℝ → ℝ) :
    cov g h k = avg g (fun a b => h a b * k a b) - avg g h * avg g k := by
  unfold cov
  have e : (fun a b => (h a b - avg g h) * (k a b - avg g k)) = fun a b =>
      (h a b * k a b + (-avg g k) * h a b) + ((-avg g h) * k a b + avg g h * avg g k) := by
    funext a b; ring
  rw [e, avg_add, avg_add, avg_add, avg_mul, avg_mul, avg_const hg]
  ring

theorem avg_lin {n : ℕ} (g : Grid (n + 2)) (c d : ℝ) (h k : ℝ → ℝ → ℝ) :
    avg g (fun a b => c * h a b + d * k a b) = c * avg g h + d * avg g k := by
  rw [avg_add, avg_mul, avg_mul]

theorem cov_lin {n : ℕ} {g : Grid (n + 2)} (hg : Regular g) (c d e f : ℝ) :
    cov g (fun a b => c * a + d * b) (fun a b => e * a + f * b)
      = c * e * cov g (fun a _ => a) (fun a _ => a) + (c * f + d * e) * cov g (fun a _ => a) (fun _ b => b)
        + d * f * cov g (fun _ b => b) (fun _ b => b) := by
  simp only [cov_eq hg]
  have e1 : (fun a b : ℝ => (c * a + d * b) * (e * a + f * b)) = fun a b =>
      (c * e * (a * a) + (c * f + d * e) * (a * b)) + d * f * (b * b) := by funext a b; ring
  rw [e1, avg_add, avg_lin g (c * e) (c * f + d * e) (fun a _ => a * a) (fun a b => a * b),
    avg_mul g (d * f) (fun _ b => b * b), avg_lin g c d (fun a _ => a) (fun _ b => b),
    avg_lin g e f (fun a _ => a) (fun _ b => b)]
  ring

end C84aux
open C84Spec C84aux

/-- `meanvR`, `meanvT` are the averages of the velocity over the grid and `sigmaR2`, `sigmaT2`, `sigmaRT`
its variances and covariance. -/
theorem C84_moments {n : ℕ} {g : Grid (n + 2)} (hg : Regular g) :
    meanvR g = avg g (fun a _ => a) ∧ meanvT g = avg g (fun _ b => b) ∧
    sigmaR2 g = cov g (fun a _ => a) (fun a _ => a) ∧ sigmaT2 g = cov g (fun _ b => b) (fun _ b => b) ∧
    sigmaRT g = cov g (fun a _ => a) (fun _ b => b) := by
  have h1 : meanvR g = avg g (fun a _ => a) := by
    unfold meanvR; rw [ratio hg]; simp
  have h2 : meanvT g = avg g (fun _ b => b) := by
    unfold meanvT; rw [ratio hg]; simp
  refine ⟨h1, h2, ?_, ?_, ?_⟩
  · unfold sigmaR2; rw [ratio hg, cov_eq hg, h1]; simp [pow_two]
  · unfold sigmaT2; rw [ratio hg, cov_eq hg, h2]; simp [pow_two]
  · unfold sigmaRT; rw [ratio hg, cov_eq hg, h1, h2]; simp

/-- Where the density is not negative, the variances are not negative and the covariance is bounded by
them. -/
theorem C84_dispersions {n : ℕ} {g : Grid (n + 2)} (hg : Regular g) (hf : ∀ i j, 0 ≤ g.df i j) :
    0 ≤ sigmaR2 g ∧ 0 ≤ sigmaT2 g ∧ sigmaRT g ^ 2 ≤ sigmaR2 g * sigmaT2 g := by
  obtain ⟨-, -, e1, e2, e3⟩ := C84_moments hg
  have hS : 0 < ∑ i, ∑ j, g.df i j :=
    lt_of_le_of_ne (Finset.sum_nonneg fun i _ => Finset.sum_nonneg fun j _ => hf i j) hg.2.2.symm
  have pos : ∀ h : ℝ → ℝ → ℝ, 0 ≤ cov g h h := fun h =>
    div_nonneg (Finset.sum_nonneg fun i _ => Finset.sum_nonneg fun j _ =>
      mul_nonneg (mul_self_nonneg _) (hf i j)) hS.le
  rw [e1, e2, e3]
  refine ⟨pos _, pos _, ?_⟩
  set A := cov g (fun a _ => a) (fun a _ => a)
  set B := cov g (fun _ b => b) (fun _ b => b)
  set C := cov g (fun a _ => a) (fun _ b => b)
  have hA : 0 ≤ A := pos _
  have hB : 0 ≤ B := pos _
  have q : ∀ x : ℝ, 0 ≤ A * (x * x) + 2 * C * x + B := by
    intro x
    have := pos (fun a b => x * a + 1 * b)
    rw [cov_lin hg] at this
    linarith
  have := discrim_le_zero q
  unfold discrim at this
  nlinarith

/-- The vertex deviation is the angle by which the velocity ellipsoid is turned: for every grid on which
the two dispersions differ, the velocity components along the directions turned by `vertexdev` are
uncorrelated, and when the radial dispersion is the larger one the dispersion along the turned radial
direction is the largest. -/
theorem C84_vertexdev {n : ℕ} {g : Grid (n + 2)} (hg : Regular g) (hs : sigmaR2 g ≠ sigmaT2 g) :
    let l := vertexdev g
    cov g (fun a b => cos l * a + -sin l * b) (fun a b => sin l * a + cos l * b) = 0 ∧
    (sigmaT2 g < sigmaR2 g →
      cov g (fun a b => sin l * a + cos l * b) (fun a b => sin l * a + cos l * b)
        < cov g (fun a b => cos l * a + -sin l * b) (fun a b => cos l * a + -sin l * b)) := by
  intro l
  obtain ⟨-, -, e1, e2, e3⟩ := C84_moments hg
  have h2l : 2 * l = -arctan (2 * sigmaRT g / (sigmaR2 g - sigmaT2 g)) := by
    simp only [l, vertexdev]; ring
  set D := sigmaR2 g - sigmaT2 g with hD
  have hD0 : D ≠ 0 := sub_ne_zero.2 hs
  have hc : 0 < cos (2 * l) := by rw [h2l, cos_neg]; exact cos_arctan_pos _
  have ht : D * sin (2 * l) + 2 * sigmaRT g * cos (2 * l) = 0 := by
    have : tan (2 * l) = -(2 * sigmaRT g / D) := by rw [h2l, tan_neg, tan_arctan]
    rw [tan_eq_sin_div_cos, div_eq_iff hc.ne'] at this
    rw [this]; field_simp; ring
  have hs2 : sin (2 * l) = 2 * sin l * cos l := sin_two_mul l
  have hc2 : cos (2 * l) = cos l ^ 2 - sin l ^ 2 := by rw [cos_two_mul']
  rw [cov_lin hg, cov_lin hg, cov_lin hg, ← e1, ← e2, ← e3]
  refine ⟨?_, fun hlt => ?_⟩
  · rw [hs2, hc2, hD] at ht
    linear_combination ht / 2
  · have hDpos : 0 < D := sub_pos.2 hlt
    have key : D * (D * cos (2 * l) - 2 * sigmaRT g * sin (2 * l)) * cos (2 * l) = D ^ 2 := by
      have h1 := sin_sq_add_cos_sq (2 * l)
      linear_combination (D ^ 2) * h1 - D * sin (2 * l) * ht
    have pos : 0 < D * cos (2 * l) - 2 * sigmaRT g * sin (2 * l) := by
      by_contra hn
      have : D * (D * cos (2 * l) - 2 * sigmaRT g * sin (2 * l)) * cos (2 * l) ≤ 0 :=
        mul_nonpos_of_nonpos_of_nonneg (mul_nonpos_of_nonneg_of_nonpos hDpos.le (not_lt.1 hn)) hc.le
      rw [key] at this
      nlinarith [sq_pos_of_pos hDpos]
    rw [hs2, hc2, hD] at pos
    nlinarith [pos]

namespace C84Spec

/-- Mean velocity in rectangular components, at radius `R` and azimuth `φ`, from the mean radial and
rotational velocities. -/
def meanXY (mR mT φ : ℝ) : Fin 2 → ℝ := ![mR * cos φ - mT * sin φ, mR * sin φ + mT * cos φ]

/-- The radial and the rotational unit vector. -/
def eR (φ : ℝ) : Fin 2 → ℝ := ![cos φ, sin φ]
/-- The radial and the rotational unit vector. -/
def eT (φ : ℝ) : Fin 2 → ℝ := ![-sin φ, cos φ]

end C84Spec

/-- The Oort constants are the components of the gradient of the mean velocity. Let `f R φ vR vT` be a
density whose derivatives with respect to `R` and `φ` are those on the two derivative grids. Then moving
outwards the mean velocity vector changes at the rate `(K + C) eR - (A + B) eT`, and moving in the
direction of rotation at the rate `(B - A) eR + (K - C) eT`. The mean velocity at the neighbouring
positions is that over the same velocity grid. -/
theorem C84_oort {n : ℕ} {f : ℝ → ℝ → ℝ → ℝ → ℝ} {vR vT : Fin (n + 2) → ℝ} {dR dphi : Grid (n + 2)} {R φ : ℝ}
    (hR : 0 < R)
    (G : ℝ → ℝ → Grid (n + 2)) (hG : G = fun R φ => ⟨vR, vT, fun i j => f R φ (vR i) (vT j)⟩)
    (hreg : Regular (G R φ))
    (hdR : dR.vR = vR ∧ dR.vT = vT ∧ ∀ i j, HasDerivAt (fun r => f r φ (vR i) (vT j)) (dR.df i j) R)
    (hdp : dphi.vR = vR ∧ dphi.vT = vT ∧ ∀ i j, HasDerivAt (fun p => f R p (vR i) (vT j)) (dphi.df i j) φ) :
    let A := oortA (G R φ) dR dphi R
    let B := oortB (G R φ) dR dphi R
    let C := oortC (G R φ) dR dphi R
    let K := oortK (G R φ) dR dphi R
    HasDerivAt (fun r => meanXY (meanvR (G r φ)) (meanvT (G r φ)) φ) ((K + C) • eR φ - (A + B) • eT φ) R ∧
    HasDerivAt (fun p => meanXY (meanvR (G R p)) (meanvT (G R p)) p) (R • ((B - A) • eR φ + (K - C) • eT φ)) φ := by
  have hm : (G R φ).moment 0 0 ≠ 0 := moment00_ne hreg
  have mR : ∀ a b, HasDerivAt (fun r => (G r φ).moment a b) (dR.moment a b) R := by
    intro a b
    simp only [hG, moment_eq]
    rw [hdR.1, hdR.2.1]
    refine HasDerivAt.mul_const ?_ _
    exact HasDerivAt.fun_sum fun i _ => HasDerivAt.fun_sum fun j _ => (hdR.2.2 i j).const_mul _
  have mp : ∀ a b, HasDerivAt (fun p => (G R p).moment a b) (dphi.moment a b) φ := by
    intro a b
    simp only [hG, moment_eq]
    rw [hdp.1, hdp.2.1]
    refine HasDerivAt.mul_const ?_ _
    exact HasDerivAt.fun_sum fun i _ => HasDerivAt.fun_sum fun j _ => (hdp.2.2 i j).const_mul _
  have qR : ∀ a b, HasDerivAt (fun r => (G r φ).moment a b / (G r φ).moment 0 0) (dmean (G R φ) dR a b) R := by
    intro a b
    refine ((mR a b).div (mR 0 0) hm).congr_deriv ?_
    unfold dmean
    field_simp
  have qp : ∀ a b, HasDerivAt (fun p => (G R p).moment a b / (G R p).moment 0 0) (dmean (G R φ) dphi a b) φ := by
    intro a b
    refine ((mp a b).div (mp 0 0) hm).congr_deriv ?_
    unfold dmean
    field_simp
  intro A B C K
  have a1 : K + C = dmean (G R φ) dR 1 0 := by simp only [K, C, oortK, oortC]; ring
  have a2 : A + B = -dmean (G R φ) dR 0 1 := by simp only [A, B, oortA, oortB]; ring
  have a3 : R * (B - A) = dmean (G R φ) dphi 1 0 - meanvT (G R φ) := by
    simp only [A, B, oortA, oortB]; field_simp; ring
  have a4 : R * (K - C) = dmean (G R φ) dphi 0 1 + meanvR (G R φ) := by
    simp only [K, C, oortK, oortC]; field_simp; ring
  have r1 : HasDerivAt (fun r => meanvR (G r φ)) (K + C) R := a1 ▸ qR 1 0
  have r2 : HasDerivAt (fun r => meanvT (G r φ)) (-(A + B)) R := by rw [a2, neg_neg]; exact qR 0 1
  have p1 : HasDerivAt (fun p => meanvR (G R p)) (R * (B - A) + meanvT (G R φ)) φ := by
    rw [a3, sub_add_cancel]; exact qp 1 0
  have p2 : HasDerivAt (fun p => meanvT (G R p)) (R * (K - C) - meanvR (G R φ)) φ := by
    rw [a4, add_sub_cancel_right]; exact qp 0 1
  constructor
  · rw [hasDerivAt_pi]
    intro i
    fin_cases i
    · exact ((r1.mul_const (cos φ)).sub (r2.mul_const (sin φ))).congr_deriv (by simp [eR, eT]; ring)
    · exact ((r1.mul_const (sin φ)).add (r2.mul_const (cos φ))).congr_deriv (by simp [eR, eT]; ring)
  · rw [hasDerivAt_pi]
    intro i
    fin_cases i
    · exact ((p1.mul (hasDerivAt_cos φ)).sub (p2.mul (hasDerivAt_sin φ))).congr_deriv (by simp [eR, eT]; ring)
    · exact ((p1.mul (hasDerivAt_sin φ)).add (p2.mul (hasDerivAt_cos φ))).congr_deriv (by simp [eR, eT]; ring)

/-! ### Examples -/

namespace C84aux

/-- Velocities `±1` and `0, 1`, with the stars at `(-1, 0)` and `(1, 1)`. -/
def exGrid : Grid 2 := ⟨![-1, 1], ![0, 1], ![![1, 0], ![0, 1]]⟩

theorem exGrid_regular : Regular exGrid := by
  refine ⟨?_, ?_, ?_⟩ <;> simp [exGrid, Fin.sum_univ_two] <;> norm_num

theorem exGrid_moments : sigmaR2 exGrid = 1 ∧ sigmaT2 exGrid = 1 / 4 ∧ sigmaRT exGrid = 1 / 2 := by
  refine ⟨?_, ?_, ?_⟩ <;>
    simp [sigmaR2, sigmaT2, sigmaRT, meanvR, meanvT, Grid.moment, exGrid, Fin.sum_univ_two] <;> norm_num

end C84aux

example : sigmaR2 exGrid = cov exGrid (fun a _ => a) (fun a _ => a) := (C84_moments exGrid_regular).2.2.1

example : sigmaRT exGrid ^ 2 ≤ sigmaR2 exGrid * sigmaT2 exGrid :=
  (C84_dispersions exGrid_regular (by intro i j; fin_cases i <;> fin_cases j <;> simp [exGrid])).2.2

example : vertexdev exGrid = -arctan (4 / 3) / 2 ∧
    cov exGrid (fun a b => cos (vertexdev exGrid) * a + -sin (vertexdev exGrid) * b)
      (fun a b => sin (vertexdev exGrid) * a + cos (vertexdev exGrid) * b) = 0 := by
  obtain ⟨h1, h2, h3⟩ := exGrid_moments
  refine ⟨by rw [vertexdev, h1, h2, h3]; norm_num, ?_⟩
  exact (C84_vertexdev exGrid_regular (by rw [h1, h2]; norm_num)).1

example : ∃ D, HasDerivAt
    (fun r => meanXY (meanvR (n := 0) ⟨![-1, 1], ![0, 1], fun i j => r * (2 + (![-1, 1] : Fin 2 → ℝ) i) + 0 * (![0, 1] : Fin 2 → ℝ) j⟩)
      (meanvT (n := 0) ⟨![-1, 1], ![0, 1], fun i j => r * (2 + (![-1, 1] : Fin 2 → ℝ) i) + 0 * (![0, 1] : Fin 2 → ℝ) j⟩) 0) D 1 :=
  ⟨_, (C84_oort (n := 0) (f := fun R φ a b => R * (2 + a) + φ * b) (vR := ![-1, 1]) (vT := ![0, 1])
    (dR := ⟨![-1, 1], ![0, 1], fun i _ => 2 + (![-1, 1] : Fin 2 → ℝ) i⟩)
    (dphi := ⟨![-1, 1], ![0, 1], fun _ j => (![0, 1] : Fin 2 → ℝ) j⟩) (R := 1) (φ := 0) one_pos _ rfl
    (by refine ⟨?_, ?_, ?_⟩ <;> simp [Fin.sum_univ_two] <;> norm_num)
    ⟨rfl, rfl, fun i j => by
      simpa using ((hasDerivAt_id (1:ℝ)).mul_const (2 + (![-1, 1] : Fin 2 → ℝ) i)).add_const (0 * (![0, 1] : Fin 2 → ℝ) j)⟩
    ⟨rfl, rfl, fun i j => by
      simpa using ((hasDerivAt_id (0:ℝ)).mul_const ((![0, 1] : Fin 2 → ℝ) j)).const_add (1 * (2 + (![-1, 1] : Fin 2 → ℝ) i))⟩).1⟩

end Verif
