import Verif.Lemmas.Romberg

set_option autoImplicit false

/-!
# C44: Romberg quadrature

The trapezoidal rule is Mathlib's `trapezoidal_integral`, the integral Mathlib's. `Util.richardson` is the textbook
recurrence `R(m, k+1) = (4^(k+1) R(m, k) - R(m-1, k)) / (4^(k+1) - 1)`, here applied to the trapezoidal rule on
`2^m` intervals.
-/

noncomputable section
namespace Verif
open Real Util

/-- Entry of the Romberg table. -/
def C44aux.R (f : ℝ → ℝ) (a b : ℝ) : ℕ → ℕ → ℝ := richardson fun m => trapezoidal_integral f (2 ^ m) a b

/-- The stopping criterion at turn `i`. -/
def C44aux.Stop (f : ℝ → ℝ) (a b tol rtol : ℝ) (i : ℕ) : Prop :=
  |C44aux.R f a b i i - C44aux.R f a b (i - 1) (i - 1)| < tol ∨
    |C44aux.R f a b i i - C44aux.R f a b (i - 1) (i - 1)| < rtol * |C44aux.R f a b i i|

/-- What `romberg` returns: the diagonal entry of the table at the first turn that meets the tolerance, or, with a
warning, the last one. -/
theorem C44_table (f : ℝ → ℝ) (a b tol rtol : ℝ) (divmax : ℕ) :
    (∃ i, 1 ≤ i ∧ i ≤ divmax ∧ C44aux.Stop f a b tol rtol i ∧ (∀ j, 1 ≤ j → j < i → ¬ C44aux.Stop f a b tol rtol j) ∧
        romberg f a b tol rtol divmax = (C44aux.R f a b i i, false)) ∨
      ((∀ j, 1 ≤ j → j ≤ divmax → ¬ C44aux.Stop f a b tol rtol j) ∧
        romberg f a b tol rtol divmax = (C44aux.R f a b divmax divmax, true)) := by
  have key : ∀ left i : ℕ, (∀ j, 1 ≤ j → j ≤ i → ¬ C44aux.Stop f a b tol rtol j) →
      (∃ i', 1 ≤ i' ∧ i' ≤ i + left ∧ C44aux.Stop f a b tol rtol i' ∧ (∀ j, 1 ≤ j → j < i' → ¬ C44aux.Stop f a b tol rtol j) ∧
        rombergLoop f a b tol rtol (i + 1) left (stateAt f a b i) = (C44aux.R f a b i' i', false)) ∨
      ((∀ j, 1 ≤ j → j ≤ i + left → ¬ C44aux.Stop f a b tol rtol j) ∧
        rombergLoop f a b tol rtol (i + 1) left (stateAt f a b i) = (C44aux.R f a b (i + left) (i + left), true)) := by
    intro left
    induction left with
    | zero => intro i hi; exact Or.inr ⟨hi, rfl⟩
    | succ left ih =>
      intro i hi
      have hr : (stateAt f a b (i + 1)).result = C44aux.R f a b (i + 1) (i + 1) := rfl
      have hl : (stateAt f a b i).lastRow.getD (i + 1 - 1) 0 = C44aux.R f a b (i + 1 - 1) (i + 1 - 1) := by
        rw [Nat.add_sub_cancel, stateAt_last]; rfl
      rw [rombergLoop]
      simp only [stateAt_succ, hr, hl]
      by_cases hs : C44aux.Stop f a b tol rtol (i + 1)
      · left
        exact ⟨i + 1, by omega, by omega, hs, fun j h1 h2 => hi j h1 (by omega), by
          unfold C44aux.Stop at hs; rw [if_pos hs]⟩
      · have := ih (i + 1) (fun j h1 h2 => by
          rcases Nat.lt_or_ge j (i + 1) with h | h
          · exact hi j h1 (by omega)
          · rw [show j = i + 1 by omega]; exact hs)
        rw [show i + 1 + left = i + (left + 1) by ring] at this
        have hs' := hs
        unfold C44aux.Stop at hs'
        rw [if_neg hs']
        exact this
  have := key divmax 0 (fun j h1 h2 => by omega)
  rw [zero_add] at this
  rw [romberg, stateAt_zero]
  exact this

/-- The table is linear in the integrand. -/
theorem C44_linear (f g : ℝ → ℝ) (r s a b : ℝ) (m k : ℕ) :
    C44aux.R (fun x => r * f x + s * g x) a b m k = r * C44aux.R f a b m k + s * C44aux.R g a b m k := by
  simp only [C44aux.R, trapezoidal_linear, richardson_add]

theorem C44aux.R_sum (c : ℕ → ℝ) (f : ℕ → ℝ → ℝ) (a b : ℝ) (m k : ℕ) (D : ℕ) :
    C44aux.R (fun x => ∑ d ∈ Finset.range D, c d * f d x) a b m k =
      ∑ d ∈ Finset.range D, c d * C44aux.R (f d) a b m k := by
  induction D with
  | zero =>
    have := C44_linear (fun _ => 0) (fun _ => 0) 0 0 a b m k
    simpa using this
  | succ D ih =>
    have := C44_linear (fun x => ∑ d ∈ Finset.range D, c d * f d x) (f D) 1 (c D) a b m k
    simp only [one_mul] at this
    simp only [Finset.sum_range_succ, this, ih]

theorem C44aux.R_pow (d m k : ℕ) (hk : k ≤ m) (hd : d ≤ 2 * k + 1) :
    C44aux.R (fun x => x ^ d) 0 1 m k = 1 / (d + 1) := by
  have h := richardson_exact (fun j => ((bernoulli (2 * j) * (d + 1).choose (2 * j) / (d + 1) : ℚ) : ℝ))
    (fun m => trapezoidal_integral (fun x => x ^ d) (2 ^ m) 0 1) k (d / 2) (by omega) (fun m => by
      rw [trap_pow d (2 ^ m) (by positivity)]
      refine Finset.sum_congr rfl fun j _ => ?_
      congr 1
      rw [← pow_mul, mul_comm j m, pow_mul]
      congr 1
      push_cast
      rw [one_div, one_div, inv_pow, ← pow_mul, mul_comm m 2, pow_mul]; norm_num) m hk
  rw [C44aux.R, h]
  simp [bernoulli_zero]

theorem C44aux.richardson_mul (x : ℕ → ℝ) (r : ℝ) (m k : ℕ) :
    richardson (fun m => r * x m) m k = r * richardson x m k := by
  simpa using richardson_add x x r 0 k m

/-- Column `k` is exact for polynomials of degree at most `2 k + 1`. -/
theorem C44_exact (p : Polynomial ℝ) (a b : ℝ) (m k : ℕ) (hk : k ≤ m) (hp : p.natDegree ≤ 2 * k + 1) :
    C44aux.R (fun x => p.eval x) a b m k = ∫ x in a..b, p.eval x := by
  set q := p.comp (Polynomial.C a + Polynomial.C (b - a) * Polynomial.X) with hq
  have hqd : q.natDegree ≤ 2 * k + 1 := by
    refine (Polynomial.natDegree_comp_le).trans ?_
    have : (Polynomial.C a + Polynomial.C (b - a) * Polynomial.X).natDegree ≤ 1 := by
      rw [add_comm]; exact Polynomial.natDegree_linear_le
    nlinarith
  have hqe : ∀ x, p.eval (a + (b - a) * x) = ∑ d ∈ Finset.range (2 * k + 2), q.coeff d * x ^ d := by
    intro x
    rw [← Polynomial.eval_eq_sum_range' (by omega)]
    simp [hq]
  have h1 : C44aux.R (fun x => p.eval x) a b m k =
      (b - a) * ∑ d ∈ Finset.range (2 * k + 2), q.coeff d * (1 / ((d : ℝ) + 1)) := by
    have : (fun m => trapezoidal_integral (fun x => p.eval x) (2 ^ m) a b) = fun m => (b - a) *
        trapezoidal_integral (fun x => ∑ d ∈ Finset.range (2 * k + 2), q.coeff d * x ^ d) (2 ^ m) 0 1 := by
      ext m; rw [trap_comp]; simp only [hqe]
    rw [C44aux.R, this, C44aux.richardson_mul]
    have h2 := C44aux.R_sum q.coeff (fun d x => x ^ d) 0 1 m k (2 * k + 2)
    rw [C44aux.R] at h2
    rw [h2]
    congr 1
    refine Finset.sum_congr rfl fun d hd => ?_
    rw [Finset.mem_range] at hd
    rw [C44aux.R_pow d m k hk (by omega)]
  have h3 : ∫ x in a..b, p.eval x = (b - a) * ∫ x in (0 : ℝ)..1, p.eval (a + (b - a) * x) := by
    have := intervalIntegral.smul_integral_comp_add_mul (a := 0) (b := 1) (fun x => p.eval x) (b - a) a
    simpa using this.symm
  rw [h1, h3]
  congr 1
  simp only [hqe]
  rw [intervalIntegral.integral_finset_sum fun d _ => by
    apply Continuous.intervalIntegrable; fun_prop]
  refine Finset.sum_congr rfl fun d _ => ?_
  rw [intervalIntegral.integral_const_mul, integral_pow]
  simp

/-- Twice differentiable integrands: every entry of row `m`, and so the value returned at turn `m`, is within
`(5/12) |b - a|^3 max |f''| / 4^m` of the integral. -/
theorem C44_error (f : ℝ → ℝ) (a b B : ℝ) (hf : ContDiffOn ℝ 2 f (Set.uIcc a b))
    (hB : ∀ x ∈ Set.uIcc a b, |iteratedDerivWithin 2 f (Set.uIcc a b) x| ≤ B) (m k : ℕ) (hk : k ≤ m) :
    |C44aux.R f a b m k - ∫ x in a..b, f x| ≤ 5 * (|b - a| ^ 3 * B / 12) * (1 / 4) ^ m := by
  replace hB : ∀ x, |iteratedDerivWithin 2 f (Set.uIcc a b) x| ≤ B := by
    intro x
    by_cases hx : x ∈ Set.uIcc a b
    · exact hB x hx
    · rw [iteratedDerivWithin_succ, derivWithin_zero_of_notMem_closure (by unfold Set.uIcc at hx ⊢; rwa [isClosed_Icc.closure_eq]), abs_zero]
      exact (abs_nonneg _).trans (hB a Set.left_mem_uIcc)
  refine richardson_error _ _ _ (fun m => ?_) k m hk
  have := trapezoidal_error_le_of_c2 hf hB (N := 2 ^ m) (by positivity)
  rw [trapezoidal_error] at this
  refine this.trans (le_of_eq ?_)
  push_cast
  rw [← pow_mul, mul_comm m 2, pow_mul, one_div, inv_pow]
  norm_num
  field_simp

/-- An empty interval gives zero. -/
theorem C44_empty (f : ℝ → ℝ) (a tol rtol : ℝ) (divmax : ℕ) : (romberg f a a tol rtol divmax).1 = 0 := by
  have h : ∀ k m, C44aux.R f a a m k = 0 := by
    intro k
    induction k with
    | zero => intro m; simp [C44aux.R, richardson]
    | succ k ih =>
      intro m
      have h1 := ih m; have h2 := ih (m - 1)
      simp only [C44aux.R] at h1 h2 ⊢
      rw [richardson, h1, h2]; simp
  rcases C44_table f a a tol rtol divmax with ⟨i, -, -, -, -, h1⟩ | ⟨-, h1⟩ <;> rw [h1, h]

/-- The accuracy asked for is not guaranteed: an integrand that vanishes at the first nodes ends the loop at
once, without a warning, and as far from the integral as one likes. -/
theorem C44_tolerance_fails (tol rtol : ℝ) (ht : 0 < tol) (divmax : ℕ) (hd : 1 ≤ divmax) (far : ℝ) :
    ∃ f : ℝ → ℝ, Continuous f ∧ romberg f 0 1 tol rtol divmax = (0, false) ∧ far < ∫ x in (0 : ℝ)..1, f x := by
  set g : ℝ → ℝ := fun x => x ^ 2 * (2 * x - 1) ^ 2 * (1 - x) ^ 2 with hg
  have hpos : 0 < ∫ x in (0 : ℝ)..1, g x := by
    apply intervalIntegral.integral_pos one_pos
    · apply Continuous.continuousOn; fun_prop
    · intro x _; positivity
    · exact ⟨1 / 4, ⟨by norm_num, by norm_num⟩, by simp only [hg]; norm_num⟩
  set c := (|far| + 1) / ∫ x in (0 : ℝ)..1, g x
  set f : ℝ → ℝ := fun x => c * g x with hf
  refine ⟨f, by fun_prop, ?_, ?_⟩
  · have h0 : C44aux.R f 0 1 0 0 = 0 := by simp [C44aux.R, richardson, trapezoidal_integral, hf, hg]
    have h1 : C44aux.R f 0 1 1 1 = 0 := by
      simp [C44aux.R, richardson, trapezoidal_integral, hf, hg]
    have hs : C44aux.Stop f 0 1 tol rtol 1 := by left; rw [h1, Nat.sub_self, h0]; simpa using ht
    rcases C44_table f 0 1 tol rtol divmax with ⟨i, h2, -, -, h4, h5⟩ | ⟨h2, -⟩
    · have : i = 1 := by
        by_contra hne
        exact h4 1 le_rfl (by omega) hs
      rw [h5, this, h1]
    · exact absurd hs (h2 1 le_rfl hd)
  · rw [hf, intervalIntegral.integral_const_mul, div_mul_cancel₀ _ hpos.ne']
    linarith [le_abs_self far]

/-! ### Instances -/

/-- A cubic with one extrapolation. -/
example : C44aux.R (fun x => x ^ 3) 0 2 4 1 = 4 := by
  have h := C44_exact (Polynomial.X ^ 3) 0 2 4 1 (by norm_num) (by simp)
  simp only [Polynomial.eval_pow, Polynomial.eval_X] at h
  rw [h, integral_pow]; norm_num

/-- A linear integrand is exact from the start, and the loop stops at the first turn. -/
example : romberg (fun x => 3 * x + 1) 0 2 (1 / 10) 0 10 = (8, false) := by
  have he : ∀ i, C44aux.R (fun x => 3 * x + 1) 0 2 i i = 8 := by
    intro i
    have h := C44_exact (3 * Polynomial.X + 1) 0 2 i i le_rfl (by
      have : (3 * Polynomial.X + 1 : Polynomial ℝ).natDegree ≤ 1 := by compute_degree
      omega)
    simp only [Polynomial.eval_add, Polynomial.eval_mul, Polynomial.eval_X, Polynomial.eval_one,
      Polynomial.eval_ofNat] at h
    rw [h]
    rw [intervalIntegral.integral_add (by apply Continuous.intervalIntegrable; fun_prop)
      (by apply Continuous.intervalIntegrable; fun_prop), intervalIntegral.integral_const_mul, integral_id]
    norm_num
  rcases C44_table (fun x => 3 * x + 1) 0 2 (1 / 10) 0 10 with ⟨i, -, -, -, -, h⟩ | ⟨h, -⟩
  · rw [h, he]
  · exfalso
    refine h 1 le_rfl (by norm_num) (Or.inl ?_)
    rw [he, he]; norm_num

/-- The bound of the second derivative for an integrand that is not a polynomial. -/
example (m : ℕ) : |C44aux.R sin 0 1 m m - ∫ x in (0 : ℝ)..1, sin x| ≤ 5 * (1 * 1 / 12) * (1 / 4) ^ m := by
  have := C44_error sin 0 1 1 Real.contDiff_sin.contDiffOn (fun x hx => ?_) m m le_rfl
  · simpa using this
  · rw [iteratedDerivWithin_eq_iteratedDeriv (uniqueDiffOn_uIcc (by norm_num)) Real.contDiff_sin.contDiffAt hx]
    have : iteratedDeriv 2 sin = fun x => - sin x := by
      rw [iteratedDeriv_succ, iteratedDeriv_one]; simp
    rw [this, abs_neg]; exact Real.abs_sin_le_one x

end Verif
