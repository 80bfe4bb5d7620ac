import Mathlib.Analysis.Calculus.Deriv.Pow
import Mathlib.Analysis.Calculus.Deriv.Mul
import Mathlib.Analysis.Calculus.Deriv.Add
import Mathlib.Tactic.LinearCombination
import Mathlib.Tactic.FieldSimp
import Mathlib.Tactic.Positivity
import Mathlib.Tactic.Ring

set_option autoImplicit false

/-!
# Gegenbauer polynomials

Defined by their three-term recurrence; `P_l = C_l^{1/2}` are the Legendre polynomials (Bonnet's recurrence).  Derivative,
differential equation and the relations between neighbouring orders.
-/

namespace Verif

/-- Gegenbauer polynomial `C_n^α(x)`: `C_0 = 1`, `C_1 = 2 α x`, `n C_n = 2 (n + α - 1) x C_{n-1} - (n + 2 α - 2) C_{n-2}`. -/
noncomputable def geg (α x : ℝ) : ℕ → ℝ
  | 0 => 1
  | 1 => 2 * α * x
  | n + 2 => (2 * ((n : ℝ) + 1 + α) * x * geg α x (n + 1) - ((n : ℝ) + 2 * α) * geg α x n) / ((n : ℝ) + 2)

/-- The polynomials with the index shifted by three: `C_{-3} = C_{-2} = C_{-1} = 0`. -/
noncomputable def gegS (α x : ℝ) : ℕ → ℝ
  | n + 3 => geg α x n
  | _ => 0

namespace Geg
variable {α x : ℝ}

@[simp] theorem s0 : gegS α x 0 = 0 := rfl
@[simp] theorem s1 : gegS α x 1 = 0 := rfl
@[simp] theorem s2 : gegS α x 2 = 0 := rfl
@[simp] theorem s3 (n : ℕ) : gegS α x (n + 3) = geg α x n := rfl

theorem low {j : ℕ} (h : j ≤ 2) (α x : ℝ) : gegS α x j = 0 := by
  match j with
  | 0 => rfl
  | 1 => rfl
  | 2 => rfl
  | j + 3 => omega

/-- The recurrence at every index. -/
theorem rec (α x : ℝ) (k : ℕ) :
    (k : ℝ) * gegS α x (k + 3) = 2 * ((k : ℝ) + α - 1) * x * gegS α x (k + 2) - ((k : ℝ) + 2 * α - 2) * gegS α x (k + 1) := by
  match k with
  | 0 => simp
  | 1 => simp [gegS, geg]
  | k + 2 =>
    show ((k + 2 : ℕ) : ℝ) * geg α x (k + 2) = 2 * (((k + 2 : ℕ) : ℝ) + α - 1) * x * geg α x (k + 1)
      - (((k + 2 : ℕ) : ℝ) + 2 * α - 2) * geg α x k
    have h : ((k : ℝ) + 2) ≠ 0 := by positivity
    rw [geg]
    push_cast
    field_simp
    ring

/-- `(n + α) C_n^α = α (C_n^{α+1} - C_{n-2}^{α+1})`. -/
theorem lower (hα : 0 < α) (k : ℕ) :
    ((k : ℝ) + α) * gegS α x (k + 3) = α * (gegS (α + 1) x (k + 3) - gegS (α + 1) x (k + 1)) := by
  induction k using Nat.strong_induction_on with
  | _ k ih =>
    match k with
    | 0 => simp [gegS, geg]
    | 1 => simp [gegS, geg]; ring
    | k + 2 =>
      have h3 := ih k (by omega)
      have h4 := ih (k + 1) (by omega)
      have a5 := rec α x (k + 2)
      have b5 := rec (α + 1) x (k + 2)
      have b3 := rec (α + 1) x k
      push_cast at *
      have e1 : ((k : ℝ) + 2) * ((k : ℝ) + α) ≠ 0 := by positivity
      refine mul_left_cancel₀ e1 ?_
      simp only [show k + 1 + 3 = k + 4 from rfl, show k + 1 + 1 = k + 2 from rfl, show k + 2 + 3 = k + 5 from rfl,
        show k + 2 + 2 = k + 4 from rfl, show k + 2 + 1 = k + 3 from rfl] at *
      generalize gegS α x (k + 5) = A5 at *
      generalize gegS α x (k + 4) = A4 at *
      generalize gegS α x (k + 3) = A3 at *
      generalize gegS (α + 1) x (k + 5) = B5 at *
      generalize gegS (α + 1) x (k + 4) = B4 at *
      generalize gegS (α + 1) x (k + 3) = B3 at *
      generalize gegS (α + 1) x (k + 2) = B2 at *
      generalize gegS (α + 1) x (k + 1) = B1 at *
      linear_combination (k + 2 + α) * (k + α) * a5 + (k + 2 + α) * (k + α) * 2 * x * h4 - (k + 2 + α) * (k + 2 * α) * h3
        - α * (k + α) * b5 + α * (k + 2 + α) * b3

/-- `n C_n^α = 2 α (x C_{n-1}^{α+1} - C_{n-2}^{α+1})`. -/
theorem lower2 (hα : 0 < α) (k : ℕ) :
    (k : ℝ) * gegS α x (k + 3) = 2 * α * (x * gegS (α + 1) x (k + 2) - gegS (α + 1) x (k + 1)) := by
  have e : ((k : ℝ) + α) ≠ 0 := by positivity
  refine mul_left_cancel₀ e ?_
  have h := lower (x := x) hα k
  have b := rec (α + 1) x k
  linear_combination (k : ℝ) * h + α * b

/-- `(n + 2 α) C_n^α = 2 α (C_n^{α+1} - x C_{n-1}^{α+1})`. -/
theorem lower3 (hα : 0 < α) (k : ℕ) :
    ((k : ℝ) + 2 * α) * gegS α x (k + 3) = 2 * α * (gegS (α + 1) x (k + 3) - x * gegS (α + 1) x (k + 2)) := by
  have e : ((k : ℝ) + α) ≠ 0 := by positivity
  refine mul_left_cancel₀ e ?_
  have h := lower (x := x) hα k
  have b := rec (α + 1) x k
  linear_combination ((k : ℝ) + 2 * α) * h - α * b

/-- `2 α (1 - x²) C_{n-1}^{α+1} = (n + 2 α - 1) C_{n-1}^α - n x C_n^α`. -/
theorem raise (hα : 0 < α) (k : ℕ) :
    2 * α * (1 - x ^ 2) * gegS (α + 1) x (k + 2) = ((k : ℝ) + 2 * α - 1) * gegS α x (k + 2) - k * x * gegS α x (k + 3) := by
  match k with
  | 0 => simp
  | k + 1 =>
    have h2 := lower2 (x := x) hα (k + 1)
    have h3 := lower3 (x := x) hα k
    simp only [show k + 1 + 3 = k + 4 from rfl, show k + 1 + 1 = k + 2 from rfl, show k + 1 + 2 = k + 3 from rfl] at *
    push_cast at *
    linear_combination x * h2 - h3

/-- The differential equation, with the derivatives replaced by their values. -/
theorem ode_alg (hα : 0 < α) (k : ℕ) :
    (1 - x ^ 2) * (4 * α * (α + 1) * gegS (α + 2) x (k + 1)) - (2 * α + 1) * x * (2 * α * gegS (α + 1) x (k + 2))
      + k * (k + 2 * α) * gegS α x (k + 3) = 0 := by
  match k with
  | 0 => simp
  | k + 1 =>
    have h := raise (x := x) (α := α + 1) (by positivity) k
    have h2 := lower2 (x := x) hα (k + 1)
    simp only [show k + 1 + 3 = k + 4 from rfl, show k + 1 + 1 = k + 2 from rfl, show k + 1 + 2 = k + 3 from rfl] at *
    rw [show α + 1 + 1 = α + 2 by ring] at h
    push_cast at *
    linear_combination 2 * α * h + (k + 1 + 2 * α) * h2

/-- Derivative of the shifted polynomials. -/
theorem hasDerivS (hα : 0 < α) (x : ℝ) (k : ℕ) :
    HasDerivAt (fun u : ℝ => gegS α u (k + 3)) (2 * α * gegS (α + 1) x (k + 2)) x := by
  induction k using Nat.strong_induction_on with
  | _ k ih =>
    match k with
    | 0 => simpa [gegS, geg] using hasDerivAt_const x (1 : ℝ)
    | 1 => simpa [gegS, geg] using (hasDerivAt_id x).const_mul (2 * α)
    | k + 2 =>
      have d0 := ih k (by omega)
      have d1 := ih (k + 1) (by omega)
      have e : ((k : ℝ) + 2) ≠ 0 := by positivity
      have f : (fun u : ℝ => gegS α u (k + 2 + 3)) = fun u : ℝ =>
          (2 * ((k : ℝ) + 1 + α) * (u * gegS α u (k + 1 + 3)) - ((k : ℝ) + 2 * α) * gegS α u (k + 3)) / ((k : ℝ) + 2) := by
        funext u
        simp only [s3, geg]
        ring
      rw [f]
      refine (((((hasDerivAt_id x).mul d1).const_mul (2 * ((k : ℝ) + 1 + α))).sub
        (d0.const_mul ((k : ℝ) + 2 * α))).div_const ((k : ℝ) + 2)).congr_deriv ?_
      have a := lower (x := x) hα (k + 1)
      have b := rec (α + 1) x (k + 1)
      simp only [show k + 1 + 3 = k + 4 from rfl, show k + 1 + 1 = k + 2 from rfl, show k + 1 + 2 = k + 3 from rfl,
        show k + 2 + 2 = k + 4 from rfl, id_eq] at *
      push_cast at *
      rw [div_eq_iff e]
      linear_combination 2 * a - 2 * α * b

/-- `d C_n^α / d x = 2 α C_{n-1}^{α+1}`. -/
theorem hasDeriv (hα : 0 < α) (x : ℝ) (n : ℕ) :
    HasDerivAt (fun u : ℝ => geg α u n) (2 * α * gegS (α + 1) x (n + 2)) x := hasDerivS hα x n

end Geg
end Verif
