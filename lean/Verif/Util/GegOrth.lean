import Verif.Util.Legendre
import Mathlib.MeasureTheory.Integral.IntervalIntegral.FundThmCalculus
import Mathlib.Analysis.SpecialFunctions.Gamma.Basic
import Mathlib.Analysis.SpecialFunctions.Gaussian.GaussianIntegral
import Mathlib.Algebra.Polynomial.Degree.Lemmas
import Mathlib.Tactic.ComputeDegree
import Mathlib.Topology.Algebra.Polynomial

set_option autoImplicit false

/-!
# Orthogonality of Gegenbauer polynomials and Legendre functions
-/

noncomputable section
open Real Polynomial intervalIntegral MeasureTheory

namespace Verif

/-- `C_n^α` as a polynomial. -/
def gegP (α : ℝ) : ℕ → ℝ[X]
  | 0 => 1
  | 1 => C (2 * α) * X
  | n + 2 => C (1 / ((n : ℝ) + 2)) * (C (2 * ((n : ℝ) + 1 + α)) * (X * gegP α (n + 1)) - C ((n : ℝ) + 2 * α) * gegP α n)

namespace Geg

theorem eval_gegP (α x : ℝ) (n : ℕ) : (gegP α n).eval x = geg α x n := by
  induction n using Nat.strong_induction_on with
  | _ n ih =>
    match n with
    | 0 => simp [gegP, geg]
    | 1 => simp [gegP, geg]
    | n + 2 =>
      rw [gegP, geg]
      simp only [eval_mul, eval_sub, eval_C, eval_X, ih (n + 1) (by omega), ih n (by omega)]
      ring

theorem deg_gegP (α : ℝ) (n : ℕ) : (gegP α n).natDegree ≤ n := by
  induction n using Nat.strong_induction_on with
  | _ n ih =>
    match n with
    | 0 => simp [gegP]
    | 1 =>
      rw [gegP]
      exact (natDegree_C_mul_le _ _).trans (natDegree_X_le)
    | n + 2 =>
      rw [gegP]
      refine (natDegree_C_mul_le _ _).trans ((natDegree_sub_le _ _).trans (max_le ?_ ?_))
      · refine (natDegree_C_mul_le _ _).trans (natDegree_mul_le.trans ?_)
        have := ih (n + 1) (by omega)
        have := natDegree_X_le (R := ℝ)
        omega
      · exact (natDegree_C_mul_le _ _).trans ((ih n (by omega)).trans (by omega))

/-- The leading coefficient. -/
theorem lead_gegP {α : ℝ} (hα : 0 < α) (n : ℕ) : 0 < (gegP α n).coeff n := by
  induction n using Nat.strong_induction_on with
  | _ n ih =>
    match n with
    | 0 => simp [gegP]
    | 1 => simpa [gegP] using hα
    | n + 2 =>
      have h0 : (gegP α n).coeff (n + 2) = 0 := coeff_eq_zero_of_natDegree_lt ((deg_gegP α n).trans_lt (by omega))
      have h1 := ih (n + 1) (by omega)
      rw [gegP, coeff_C_mul, coeff_sub, coeff_C_mul, coeff_C_mul, coeff_X_mul, h0, mul_zero, sub_zero]
      positivity

theorem gcont (α : ℝ) (n : ℕ) : Continuous fun x : ℝ => geg α x n := by
  have : (fun x : ℝ => geg α x n) = fun x => (gegP α n).eval x := by
    funext x
    rw [eval_gegP]
  rw [this]
  exact (gegP α n).continuous

/-- Second derivative. -/
theorem hasDeriv2 {α : ℝ} (hα : 0 < α) (x : ℝ) (n : ℕ) :
    HasDerivAt (fun u : ℝ => 2 * α * gegS (α + 1) u (n + 2)) (4 * α * (α + 1) * gegS (α + 2) x (n + 1)) x := by
  match n with
  | 0 =>
    simpa [gegS] using hasDerivAt_const x (0 : ℝ)
  | n + 1 =>
    refine ((hasDerivS (α := α + 1) (by positivity) x n).const_mul (2 * α)).congr_deriv ?_
    rw [show α + 1 + 1 = α + 2 by ring]
    ring

/-- The weighted product of two polynomials integrates to zero. -/
theorem orth (k : ℕ) {n m : ℕ} (h : n ≠ m) :
    ∫ x in (-1 : ℝ)..1, (1 - x ^ 2) ^ k * geg ((k : ℝ) + 1 / 2) x n * geg ((k : ℝ) + 1 / 2) x m = 0 := by
  have hα : (0 : ℝ) < (k : ℝ) + 1 / 2 := by positivity
  generalize hαe : (k : ℝ) + 1 / 2 = α at *
  have hc : ((m : ℝ) * (m + 2 * α) - n * (n + 2 * α)) ≠ 0 := by
    have : ((m : ℝ) - n) * (m + n + 2 * α) ≠ 0 := by
      refine mul_ne_zero (sub_ne_zero.2 ?_) (by positivity)
      exact_mod_cast h.symm
    intro e
    exact this (by linear_combination e)
  have hd : ∀ x ∈ Set.uIcc (-1 : ℝ) 1, HasDerivAt (fun u : ℝ => (1 - u ^ 2) ^ (k + 1)
      * (2 * α * gegS (α + 1) u (n + 2) * geg α u m - geg α u n * (2 * α * gegS (α + 1) u (m + 2)))
        / ((m : ℝ) * (m + 2 * α) - n * (n + 2 * α)))
      ((1 - x ^ 2) ^ k * geg α x n * geg α x m) x := by
    intro x _
    have d0 : HasDerivAt (fun u : ℝ => (1 - u ^ 2) ^ (k + 1)) ((k + 1) * (1 - x ^ 2) ^ k * (-(2 * x))) x := by
      have := (((hasDerivAt_id x).pow 2).const_sub 1).pow (k + 1)
      refine this.congr_deriv ?_
      simp
    refine (((d0.mul (((hasDeriv2 hα x n).mul (hasDeriv hα x m)).sub
      ((hasDeriv hα x n).mul (hasDeriv2 hα x m)))).div_const _)).congr_deriv ?_
    have on := ode_alg (x := x) hα n
    have om := ode_alg (x := x) hα m
    simp only [s3] at on om
    rw [div_eq_iff hc]
    rw [pow_succ]
    simp only [Pi.sub_apply, Pi.mul_apply]
    generalize geg α x n = y at *
    generalize geg α x m = z at *
    generalize gegS (α + 1) x (n + 2) = y1 at *
    generalize gegS (α + 1) x (m + 2) = z1 at *
    generalize gegS (α + 2) x (n + 1) = y2 at *
    generalize gegS (α + 2) x (m + 1) = z2 at *
    have e2 : (k : ℝ) = α - 1 / 2 := by rw [← hαe]; ring
    rw [e2]
    linear_combination ((1 - x ^ 2) ^ k) * (z * on - y * om)
  rw [integral_eq_sub_of_hasDerivAt hd]
  · norm_num
  · refine Continuous.intervalIntegrable ?_ _ _
    have := gcont α n
    have := gcont α m
    fun_prop

/-- The squared norm. -/
def nrm (k n : ℕ) : ℝ := ∫ x in (-1 : ℝ)..1, (1 - x ^ 2) ^ k * geg ((k : ℝ) + 1 / 2) x n * geg ((k : ℝ) + 1 / 2) x n

/-- The products with one factor `x`. -/
def nrx (k n : ℕ) : ℝ := ∫ x in (-1 : ℝ)..1, (1 - x ^ 2) ^ k * geg ((k : ℝ) + 1 / 2) x n * (x * geg ((k : ℝ) + 1 / 2) x (n + 1))

theorem step_a (k n : ℕ) : ((n : ℝ) + 1) * nrm k (n + 1) = 2 * ((n : ℝ) + ((k : ℝ) + 1 / 2)) * nrx k n := by
  unfold nrm nrx
  generalize hαe : (k : ℝ) + 1 / 2 = α
  have c := fun j => gcont α j
  match n with
  | 0 =>
    rw [← intervalIntegral.integral_const_mul, ← intervalIntegral.integral_const_mul]
    refine integral_congr fun x _ => ?_
    simp only [geg]
    push_cast
    ring
  | n + 1 =>
    have hn : (n : ℝ) + 2 ≠ 0 := by positivity
    have o := orth k (n := n) (m := n + 2) (by omega)
    rw [hαe] at o
    have e : ∫ x in (-1 : ℝ)..1, (((n : ℝ) + 2) * ((1 - x ^ 2) ^ k * geg α x (n + 2) * geg α x (n + 2)))
        = ∫ x in (-1 : ℝ)..1, (2 * ((n : ℝ) + 1 + α) * ((1 - x ^ 2) ^ k * geg α x (n + 1) * (x * geg α x (n + 2)))
          - ((n : ℝ) + 2 * α) * ((1 - x ^ 2) ^ k * geg α x n * geg α x (n + 2))) := by
      refine integral_congr fun x _ => ?_
      have r : ((n : ℝ) + 2) * geg α x (n + 2) = 2 * ((n : ℝ) + 1 + α) * x * geg α x (n + 1) - ((n : ℝ) + 2 * α) * geg α x n := by
        rw [geg]
        field_simp
      beta_reduce
      linear_combination (1 - x ^ 2) ^ k * geg α x (n + 2) * r
    rw [intervalIntegral.integral_sub, intervalIntegral.integral_const_mul, intervalIntegral.integral_const_mul,
      intervalIntegral.integral_const_mul, o, mul_zero, sub_zero] at e
    · push_cast
      rw [show (n : ℝ) + 1 + 1 = n + 2 by ring]
      exact e
    all_goals
      refine Continuous.intervalIntegrable ?_ _ _
      have := c n
      have := c (n + 1)
      have := c (n + 2)
      fun_prop

theorem step_b (k n : ℕ) : 2 * ((n : ℝ) + 1 + ((k : ℝ) + 1 / 2)) * nrx k n = ((n : ℝ) + 2 * ((k : ℝ) + 1 / 2)) * nrm k n := by
  unfold nrm nrx
  have o := orth k (n := n) (m := n + 2) (by omega)
  generalize hαe : (k : ℝ) + 1 / 2 = α at *
  have c := fun j => gcont α j
  have hn : (n : ℝ) + 2 ≠ 0 := by positivity
  have e : ∫ x in (-1 : ℝ)..1, (((n : ℝ) + 2) * ((1 - x ^ 2) ^ k * geg α x n * geg α x (n + 2)))
      = ∫ x in (-1 : ℝ)..1, (2 * ((n : ℝ) + 1 + α) * ((1 - x ^ 2) ^ k * geg α x n * (x * geg α x (n + 1)))
        - ((n : ℝ) + 2 * α) * ((1 - x ^ 2) ^ k * geg α x n * geg α x n)) := by
    refine integral_congr fun x _ => ?_
    have r : ((n : ℝ) + 2) * geg α x (n + 2) = 2 * ((n : ℝ) + 1 + α) * x * geg α x (n + 1) - ((n : ℝ) + 2 * α) * geg α x n := by
      rw [geg]
      field_simp
    beta_reduce
    linear_combination (1 - x ^ 2) ^ k * geg α x n * r
  rw [intervalIntegral.integral_sub, intervalIntegral.integral_const_mul, intervalIntegral.integral_const_mul,
    intervalIntegral.integral_const_mul, o, mul_zero] at e
  · linear_combination -e
  all_goals
    refine Continuous.intervalIntegrable ?_ _ _
    have := c n
    have := c (n + 1)
    have := c (n + 2)
    fun_prop

theorem nrm_zero (k : ℕ) : nrm k 0 = ∫ x in (-1 : ℝ)..1, (1 - x ^ 2) ^ k := by simp [nrm, geg]

theorem weight_step (k : ℕ) :
    (2 * (k : ℝ) + 3) * ∫ x in (-1 : ℝ)..1, (1 - x ^ 2) ^ (k + 1) = (2 * (k : ℝ) + 2) * ∫ x in (-1 : ℝ)..1, (1 - x ^ 2) ^ k := by
  have hd : ∀ x ∈ Set.uIcc (-1 : ℝ) 1, HasDerivAt (fun u : ℝ => u * (1 - u ^ 2) ^ (k + 1))
      ((2 * (k : ℝ) + 3) * (1 - x ^ 2) ^ (k + 1) - (2 * (k : ℝ) + 2) * (1 - x ^ 2) ^ k) x := by
    intro x _
    have d0 : HasDerivAt (fun u : ℝ => (1 - u ^ 2) ^ (k + 1)) ((k + 1) * (1 - x ^ 2) ^ k * (-(2 * x))) x := by
      refine ((((hasDerivAt_id x).pow 2).const_sub 1).pow (k + 1)).congr_deriv ?_
      simp
    refine ((hasDerivAt_id x).mul d0).congr_deriv ?_
    simp only [id]
    ring
  have := integral_eq_sub_of_hasDerivAt hd (Continuous.intervalIntegrable (by fun_prop) _ _)
  rw [intervalIntegral.integral_sub (Continuous.intervalIntegrable (by fun_prop) _ _) (Continuous.intervalIntegrable (by fun_prop) _ _),
    intervalIntegral.integral_const_mul, intervalIntegral.integral_const_mul] at this
  norm_num at this
  linarith

/-- The closed form of the squared norm. -/
def H (k n : ℕ) : ℝ :=
  π * ((n + 2 * k).factorial : ℝ) / (4 ^ k * (n.factorial : ℝ) * ((n : ℝ) + ((k : ℝ) + 1 / 2)) * Gamma ((k : ℝ) + 1 / 2) ^ 2)

theorem H_pos (k n : ℕ) : 0 < H k n := by
  have := Gamma_pos_of_pos (show (0 : ℝ) < (k : ℝ) + 1 / 2 by positivity)
  unfold H
  positivity

theorem nrm_eq (k n : ℕ) : nrm k n = H k n := by
  have g : ∀ k : ℕ, 0 < Gamma ((k : ℝ) + 1 / 2) := fun k => Gamma_pos_of_pos (by positivity)
  induction n with
  | zero =>
    rw [nrm_zero]
    induction k with
    | zero =>
      have e : Gamma ((0 : ℕ) + 1 / 2 : ℝ) = √π := by
        rw [Nat.cast_zero, zero_add, Real.Gamma_one_half_eq]
      have e2 : √π ^ 2 = π := sq_sqrt pi_pos.le
      unfold H
      rw [e, e2]
      norm_num
      field_simp
    | succ k ih =>
      have w := weight_step k
      rw [ih] at w
      have e : Gamma (((k + 1 : ℕ) : ℝ) + 1 / 2) = ((k : ℝ) + 1 / 2) * Gamma ((k : ℝ) + 1 / 2) := by
        push_cast
        rw [show (k : ℝ) + 1 + 1 / 2 = (k + 1 / 2) + 1 by ring, Gamma_add_one (by positivity)]
      have hk : (2 * (k : ℝ) + 3) ≠ 0 := by positivity
      refine mul_left_cancel₀ hk (w.trans ?_)
      unfold H
      rw [e, show 0 + 2 * (k + 1) = (2 * k + 1) + 1 by ring, Nat.factorial_succ, Nat.factorial_succ, zero_add]
      have := (g k).ne'
      generalize Gamma ((k : ℝ) + 1 / 2) = G at *
      have : ((2 * k).factorial : ℝ) ≠ 0 := by positivity
      push_cast
      field_simp
      ring
  | succ n ih =>
    have a := step_a k n
    have b := step_b k n
    rw [ih] at b
    have h1 : 2 * ((n : ℝ) + 1 + ((k : ℝ) + 1 / 2)) ≠ 0 := by positivity
    have h2 : (n : ℝ) + 1 ≠ 0 := by positivity
    refine mul_left_cancel₀ h2 (a.trans ?_)
    refine mul_left_cancel₀ h1 ?_
    rw [show 2 * ((n : ℝ) + 1 + ((k : ℝ) + 1 / 2)) * (2 * ((n : ℝ) + ((k : ℝ) + 1 / 2)) * nrx k n)
      = 2 * ((n : ℝ) + ((k : ℝ) + 1 / 2)) * (2 * ((n : ℝ) + 1 + ((k : ℝ) + 1 / 2)) * nrx k n) by ring, b]
    unfold H
    rw [show n + 1 + 2 * k = (n + 2 * k) + 1 by ring, Nat.factorial_succ, Nat.factorial_succ]
    have := (g k).ne'
    generalize Gamma ((k : ℝ) + 1 / 2) = G at *
    have : ((n + 2 * k).factorial : ℝ) ≠ 0 := by positivity
    have : (n.factorial : ℝ) ≠ 0 := by positivity
    push_cast
    field_simp
    ring

end Geg

namespace Leg

theorem dfac_eq (m : ℕ) : dfac m * √π = 2 ^ m * Gamma ((m : ℝ) + 1 / 2) := by
  induction m with
  | zero => simp [dfac, ← Real.Gamma_one_half_eq]
  | succ m ih =>
    have e : Gamma (((m + 1 : ℕ) : ℝ) + 1 / 2) = ((m : ℝ) + 1 / 2) * Gamma ((m : ℝ) + 1 / 2) := by
      push_cast
      rw [show (m : ℝ) + 1 + 1 / 2 = (m + 1 / 2) + 1 by ring, Gamma_add_one (by positivity)]
    rw [e, dfac, pow_succ]
    linear_combination (2 * (m : ℝ) + 1) * ih

theorem alp_eq {l m : ℕ} (h : m ≤ l) (x : ℝ) :
    alp l m x = (-1) ^ m * √(1 - x ^ 2) ^ m * (dfac m * geg ((m : ℝ) + 1 / 2) x (l - m)) := by
  obtain ⟨k, rfl⟩ := Nat.exists_eq_add_of_le h
  rw [alp, iter_eq]
  simp only [show m + k + 3 - m = k + 3 by omega, show m + k - m = k by omega, Geg.s3]

theorem alp_mul {l l' m : ℕ} (h : m ≤ l) (h' : m ≤ l') {x : ℝ} (hx : x ^ 2 ≤ 1) :
    alp l m x * alp l' m x = dfac m ^ 2 * ((1 - x ^ 2) ^ m * geg ((m : ℝ) + 1 / 2) x (l - m) * geg ((m : ℝ) + 1 / 2) x (l' - m)) := by
  rw [alp_eq h, alp_eq h']
  have e : √(1 - x ^ 2) ^ m * √(1 - x ^ 2) ^ m = (1 - x ^ 2) ^ m := by
    rw [← mul_pow, mul_self_sqrt (by linarith)]
  have e2 : ((-1 : ℝ)) ^ m * (-1) ^ m = 1 := by rw [← mul_pow]; norm_num
  linear_combination (dfac m ^ 2 * geg ((m : ℝ) + 1 / 2) x (l - m) * geg ((m : ℝ) + 1 / 2) x (l' - m))
    * (√(1 - x ^ 2) ^ m * √(1 - x ^ 2) ^ m * e2 + e)

/-- The product of two functions of the same order is a polynomial on `[-1, 1]`. -/
def mulP (l l' m : ℕ) : ℝ[X] :=
  C (dfac m ^ 2) * ((1 - X ^ 2) ^ m * gegP ((m : ℝ) + 1 / 2) (l - m) * gegP ((m : ℝ) + 1 / 2) (l' - m))

theorem eval_mulP {l l' m : ℕ} (h : m ≤ l) (h' : m ≤ l') {x : ℝ} (hx : x ^ 2 ≤ 1) :
    (mulP l l' m).eval x = alp l m x * alp l' m x := by
  rw [alp_mul h h' hx, mulP]
  simp [Geg.eval_gegP]

theorem deg_w (k : ℕ) : ((1 - X ^ 2 : ℝ[X]) ^ k).natDegree ≤ 2 * k := by
  refine natDegree_pow_le.trans ?_
  have : (1 - X ^ 2 : ℝ[X]).natDegree ≤ 2 := by compute_degree
  nlinarith

theorem deg_mulP {l l' m : ℕ} (h : m ≤ l) (h' : m ≤ l') : (mulP l l' m).natDegree ≤ l + l' := by
  unfold mulP
  refine (natDegree_C_mul_le _ _).trans (natDegree_mul_le.trans ?_)
  have a := natDegree_mul_le (p := (1 - X ^ 2 : ℝ[X]) ^ m) (q := gegP ((m : ℝ) + 1 / 2) (l - m))
  have b := deg_w m
  have c := Geg.deg_gegP ((m : ℝ) + 1 / 2) (l - m)
  have d := Geg.deg_gegP ((m : ℝ) + 1 / 2) (l' - m)
  omega

theorem orth {l l' m : ℕ} (h : m ≤ l) (h' : m ≤ l') :
    ∫ x in (-1 : ℝ)..1, (mulP l l' m).eval x
      = if l = l' then 2 / (2 * (l : ℝ) + 1) * ((l + m).factorial / (l - m).factorial) else 0 := by
  have e : ∫ x in (-1 : ℝ)..1, (mulP l l' m).eval x = dfac m ^ 2 * ∫ x in (-1 : ℝ)..1,
      (1 - x ^ 2) ^ m * geg ((m : ℝ) + 1 / 2) x (l - m) * geg ((m : ℝ) + 1 / 2) x (l' - m) := by
    rw [← intervalIntegral.integral_const_mul]
    refine integral_congr fun x _ => ?_
    simp [mulP, Geg.eval_gegP]
  rw [e]
  split_ifs with hl
  · subst hl
    have n := Geg.nrm_eq m (l - m)
    unfold Geg.nrm at n
    rw [n]
    have d := dfac_eq m
    have g := Gamma_pos_of_pos (show (0 : ℝ) < (m : ℝ) + 1 / 2 by positivity)
    have s : √π ^ 2 = π := sq_sqrt pi_pos.le
    have sp := sqrt_pos.2 pi_pos
    obtain ⟨k, rfl⟩ := Nat.exists_eq_add_of_le h
    unfold Geg.H
    rw [show m + k - m = k by omega, show k + 2 * m = m + k + m by ring]
    have f1 : (k.factorial : ℝ) ≠ 0 := by positivity
    have f2 : ((m + k + m).factorial : ℝ) ≠ 0 := by positivity
    have d2 : dfac m ^ 2 * π = 4 ^ m * Gamma ((m : ℝ) + 1 / 2) ^ 2 := by
      rw [show (4 : ℝ) ^ m = 2 ^ m * 2 ^ m by rw [← mul_pow]; norm_num]
      linear_combination (dfac m * √π + 2 ^ m * Gamma ((m : ℝ) + 1 / 2)) * d - dfac m ^ 2 * s
    have h4 : (4 : ℝ) ^ m ≠ 0 := by positivity
    have g' := g.ne'
    generalize Gamma ((m : ℝ) + 1 / 2) = G at *
    have e3 : dfac m ^ 2 * (π * ((m + k + m).factorial : ℝ) / (4 ^ m * (k.factorial : ℝ) * ((k : ℝ) + ((m : ℝ) + 1 / 2)) * G ^ 2))
        = (dfac m ^ 2 * π) * (((m + k + m).factorial : ℝ) / (4 ^ m * (k.factorial : ℝ) * ((k : ℝ) + ((m : ℝ) + 1 / 2)) * G ^ 2)) := by
      ring
    rw [e3, d2]
    push_cast
    field_simp
    ring
  · rw [Geg.orth m (by omega), mul_zero]

/-- Upward recurrence in the degree. -/
theorem alp_rec {l m : ℕ} (h : m ≤ l) (x : ℝ) :
    ((l : ℝ) - m + 1) * alp (l + 1) m x = (2 * (l : ℝ) + 1) * x * alp l m x - ((l : ℝ) + m) * (if m < l then alp (l - 1) m x else 0) := by
  obtain ⟨k, rfl⟩ := Nat.exists_eq_add_of_le h
  rw [alp_eq (by omega), alp_eq h, show m + k + 1 - m = k + 1 by omega, show m + k - m = k by omega]
  match k with
  | 0 =>
    simp only [geg]
    push_cast
    simp
    ring
  | k + 1 =>
    rw [if_pos (by omega), show m + (k + 1) - 1 = m + k by omega, alp_eq (by omega), show m + k - m = k by omega, geg]
    have : (k : ℝ) + 2 ≠ 0 := by positivity
    push_cast
    field_simp
    ring

/-- The diagonal. -/
theorem alp_diag (m : ℕ) (x : ℝ) : alp (m + 1) (m + 1) x = -(2 * (m : ℝ) + 1) * √(1 - x ^ 2) * alp m m x := by
  rw [alp_eq le_rfl, alp_eq le_rfl]
  simp only [Nat.sub_self, geg, dfac]
  ring

end Leg
end Verif
