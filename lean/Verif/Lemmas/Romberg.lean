import Verif.Model.UtilNumerics
import Mathlib.MeasureTheory.Integral.IntervalIntegral.TrapezoidalRule
import Mathlib.NumberTheory.Bernoulli
import Mathlib.Analysis.SpecialFunctions.Integrals.Basic
import Mathlib.Algebra.Polynomial.Eval.Degree

set_option autoImplicit false

/-!
# Lemmas about `romberg`
-/

noncomputable section
namespace Verif.Util
open Real Finset

/-- Richardson extrapolation of a sequence. -/
def richardson (x : ℕ → ℝ) : ℕ → ℕ → ℝ
  | m, 0 => x m
  | m, k + 1 => (4 ^ (k + 1) * richardson x m k - richardson x (m - 1) k) / (4 ^ (k + 1) - 1)

theorem four_pow_gt (k : ℕ) : (0 : ℝ) < 4 ^ (k + 1) - 1 := by
  have : (4 : ℝ) ≤ 4 ^ (k + 1) := by
    rw [pow_succ]; have := one_le_pow₀ (n := k) (by norm_num : (1 : ℝ) ≤ 4); linarith
  linarith

theorem trap_double (f : ℝ → ℝ) (a b : ℝ) (n : ℕ) (hn : 0 < n) :
    (f a + f b) / 2 + ∑ k ∈ range (n * 2 - 1), f (a + (k + 1) * (b - a) / (n * 2 : ℕ)) =
      ((f a + f b) / 2 + ∑ k ∈ range (n - 1), f (a + (k + 1) * (b - a) / n)) +
        ∑ i ∈ range n, f (a + 0.5 * ((b - a) / n) + (b - a) / n * i) := by
  have hn' : (n : ℝ) ≠ 0 := Nat.cast_ne_zero.2 hn.ne'
  have key : ∀ m : ℕ, ∑ k ∈ range (m * 2 + 1), f (a + ((k : ℝ) + 1) * (b - a) / (n * 2 : ℕ)) =
      ∑ k ∈ range m, f (a + ((k : ℝ) + 1) * (b - a) / n) +
        ∑ i ∈ range (m + 1), f (a + 0.5 * ((b - a) / n) + (b - a) / n * i) := by
    intro m
    induction m with
    | zero =>
      simp
      congr 1
      field_simp
      ring
    | succ m ih =>
      rw [show (m + 1) * 2 + 1 = m * 2 + 1 + 1 + 1 by ring, sum_range_succ, sum_range_succ, ih]
      have e1 : a + (((m * 2 + 1 : ℕ) : ℝ) + 1) * (b - a) / (n * 2 : ℕ) = a + ((m : ℝ) + 1) * (b - a) / n := by
        push_cast; field_simp; ring
      have e2 : a + (((m * 2 + 1 + 1 : ℕ) : ℝ) + 1) * (b - a) / (n * 2 : ℕ) =
          a + 0.5 * ((b - a) / n) + (b - a) / n * (m + 1 : ℕ) := by
        push_cast; field_simp; ring
      rw [e1, e2, sum_range_succ (fun k : ℕ => f (a + ((k : ℝ) + 1) * (b - a) / n)) m,
        sum_range_succ (fun i : ℕ => f (a + 0.5 * ((b - a) / n) + (b - a) / n * i)) (m + 1)]
      abel
  obtain ⟨m, rfl⟩ : ∃ m, n = m + 1 := ⟨n - 1, by omega⟩
  have := key m
  rw [show (m + 1) * 2 - 1 = m * 2 + 1 by omega, show m + 1 - 1 = m by omega, this]
  ring

/-- The sum kept by the loop. -/
def trapSum (f : ℝ → ℝ) (a b : ℝ) (n : ℕ) : ℝ :=
  (f a + f b) / 2 + ∑ k ∈ range (n - 1), f (a + (k + 1) * (b - a) / n)

theorem trapSum_one (f : ℝ → ℝ) (a b : ℝ) : difftrap f a b 1 = trapSum f a b 1 := by
  simp only [difftrap, if_true, trapSum]; norm_num; ring

theorem trapSum_double (f : ℝ → ℝ) (a b : ℝ) (n : ℕ) (hn : 0 < n) :
    trapSum f a b n + difftrap f a b (n * 2) = trapSum f a b (n * 2) := by
  have h1 : n * 2 ≠ 1 := by omega
  have h2 : n * 2 / 2 = n := by omega
  simp only [trapSum, difftrap, if_neg h1, h2, trap_double f a b n hn]

theorem trapezoidal_eq (f : ℝ → ℝ) (a b : ℝ) (n : ℕ) : trapezoidal_integral f n a b = (b - a) * trapSum f a b n / n := by
  simp only [trapezoidal_integral, trapSum]; ring

theorem rombergRow_eq (last : ℕ → ℝ) (x : ℕ → ℝ) (m len : ℕ) (hx : ∀ k, k < len → last k = richardson x (m - 1) k) :
    ∀ (todo k : ℕ) (row : List ℝ), k + todo ≤ len → row = (List.range (k + 1)).map (richardson x m) →
      rombergRow ((List.range len).map last) row k todo = (List.range (k + todo + 1)).map (richardson x m) := by
  intro todo
  induction todo with
  | zero => intro k row _ h; simpa [rombergRow] using h
  | succ todo ih =>
    intro k row hk h
    rw [rombergRow, show k + (todo + 1) + 1 = k + 1 + todo + 1 by ring]
    refine ih (k + 1) _ (by omega) ?_
    have g1 : ((List.range len).map last).getD k 0 = richardson x (m - 1) k := by
      rw [← hx k (by omega)]
      simp [List.getD, List.getElem?_map, List.getElem?_range (show k < len by omega)]
    have g2 : row.getD k 0 = richardson x m k := by
      rw [h]; simp [List.getD, List.getElem?_map, List.getElem?_range (Nat.lt_succ_self k)]
    rw [g1, g2, List.range_succ, List.map_append, ← h]
    rfl

/-- The state of the loop after `i` turns. -/
def stateAt (f : ℝ → ℝ) (a b : ℝ) (i : ℕ) : RombergState :=
  let x := fun m => trapezoidal_integral f (2 ^ m) a b;
  ⟨2 ^ i, trapSum f a b (2 ^ i), richardson x i i, (List.range (i + 1)).map (richardson x i)⟩

theorem stateAt_zero (f : ℝ → ℝ) (a b : ℝ) : rombergInit f a b = stateAt f a b 0 := by
  simp [rombergInit, stateAt, richardson, trapSum_one, trapezoidal_eq]

theorem stateAt_succ (f : ℝ → ℝ) (a b : ℝ) (i : ℕ) :
    rombergStep f a b (i + 1) (stateAt f a b i) = stateAt f a b (i + 1) := by
  have h2 : 2 ^ i * 2 = 2 ^ (i + 1) := by ring
  have hp : 0 < 2 ^ i := by positivity
  set x := fun m => trapezoidal_integral f (2 ^ m) a b with hx
  have hrow : rombergRow ((List.range (i + 1)).map (richardson x i)) [(b - a) * trapSum f a b (2 ^ (i + 1)) / (2 ^ (i + 1) : ℕ)] 0
      (i + 1) = (List.range (i + 1 + 1)).map (richardson x (i + 1)) := by
    have := rombergRow_eq (richardson x i) x (i + 1) (i + 1) (fun k _ => rfl) (i + 1) 0
      [(b - a) * trapSum f a b (2 ^ (i + 1)) / (2 ^ (i + 1) : ℕ)] (by omega) (by
        simp only [zero_add, List.range_one, List.map_cons, List.map_nil, richardson, hx, trapezoidal_eq])
    rwa [zero_add] at this
  have hd := trapSum_double f a b (2 ^ i) hp
  rw [h2] at hd
  simp only [rombergStep, stateAt, h2, hd, ← hx]
  rw [hrow]
  congr 1
  simp [List.getD, List.getElem?_map]

theorem stateAt_last (f : ℝ → ℝ) (a b : ℝ) (i : ℕ) :
    (stateAt f a b i).lastRow.getD i 0 = (stateAt f a b i).result := by
  simp [stateAt, List.getD, List.getElem?_map]

/-- Extrapolation of a sum of powers of four. -/
theorem richardson_pow (c : ℕ → ℝ) (J : ℕ) (x : ℕ → ℝ) (hx : ∀ m, x m = ∑ j ∈ range (J + 1), c j * ((1 / 4) ^ j) ^ m) :
    ∀ k m, k ≤ m → richardson x m k =
      ∑ j ∈ range (J + 1), c j * (∏ l ∈ range k, (4 ^ (l + 1) - 4 ^ j) / (4 ^ (l + 1) - 1)) * ((1 / 4) ^ j) ^ m := by
  intro k
  induction k with
  | zero => intro m _; simp [richardson, hx]
  | succ k ih =>
    intro m hm
    rw [richardson, ih m (by omega), ih (m - 1) (by omega), mul_sum, ← sum_sub_distrib, sum_div]
    refine sum_congr rfl fun j _ => ?_
    obtain ⟨m, rfl⟩ : ∃ m', m = m' + 1 := ⟨m - 1, by omega⟩
    rw [prod_range_succ, show m + 1 - 1 = m by omega, pow_succ ((1 / 4 : ℝ) ^ j)]
    have h4 : (4 : ℝ) ^ j * (1 / 4) ^ j = 1 := by rw [← mul_pow]; norm_num
    have hne := (four_pow_gt k).ne'
    generalize (∏ l ∈ range k, ((4 : ℝ) ^ (l + 1) - 4 ^ j) / (4 ^ (l + 1) - 1)) = P
    generalize ((1 / 4 : ℝ) ^ j) ^ m = Q
    generalize ((1 / 4 : ℝ) ^ j) = q at *
    generalize (4 : ℝ) ^ (k + 1) = w at *
    field_simp
    linear_combination c j * P * Q * h4

theorem richardson_exact (c : ℕ → ℝ) (x : ℕ → ℝ) (k J : ℕ) (hJ : J ≤ k)
    (hx : ∀ m, x m = ∑ j ∈ range (J + 1), c j * ((1 / 4) ^ j) ^ m) (m : ℕ) (hm : k ≤ m) : richardson x m k = c 0 := by
  rw [richardson_pow c J x hx k m hm, sum_range_succ']
  rw [sum_eq_zero, zero_add]
  · have : ∏ l ∈ range k, ((4 : ℝ) ^ (l + 1) - 4 ^ 0) / (4 ^ (l + 1) - 1) = 1 :=
      prod_eq_one fun l _ => by rw [pow_zero]; exact div_self (four_pow_gt l).ne'
    rw [this]; simp
  · intro j hj
    rw [mem_range] at hj
    have : ∏ l ∈ range k, ((4 : ℝ) ^ (l + 1) - 4 ^ (j + 1)) / (4 ^ (l + 1) - 1) = 0 :=
      prod_eq_zero (i := j) (mem_range.2 (by omega)) (by simp)
    rw [this]; ring

theorem richardson_add (x y : ℕ → ℝ) (r s : ℝ) : ∀ k m,
    richardson (fun m => r * x m + s * y m) m k = r * richardson x m k + s * richardson y m k := by
  intro k
  induction k with
  | zero => intro m; rfl
  | succ k ih => intro m; simp only [richardson, ih]; ring

theorem trapezoidal_linear (f g : ℝ → ℝ) (r s a b : ℝ) (n : ℕ) :
    trapezoidal_integral (fun x => r * f x + s * g x) n a b =
      r * trapezoidal_integral f n a b + s * trapezoidal_integral g n a b := by
  simp only [trapezoidal_integral, sum_add_distrib, ← mul_sum]; ring

theorem sum_even (g : ℕ → ℝ) (hg : ∀ i, Odd i → 1 < i → g i = 0) (d : ℕ) (hd : 0 < d) :
    ∑ i ∈ range (d + 1), g i = ∑ j ∈ range (d / 2 + 1), g (2 * j) + g 1 := by
  have key : ∀ e : ℕ, ∑ i ∈ range (2 * e + 2), g i = ∑ j ∈ range (e + 1), g (2 * j) + g 1 := by
    intro e
    induction e with
    | zero => simp [sum_range_succ]
    | succ e ih =>
      rw [show 2 * (e + 1) + 2 = 2 * e + 2 + 1 + 1 by ring, sum_range_succ, sum_range_succ, ih,
        sum_range_succ (fun j => g (2 * j)) (e + 1), hg (2 * e + 2 + 1) ⟨e + 1, by ring⟩ (by omega),
        show 2 * (e + 1) = 2 * e + 2 by ring]
      ring
  rcases Nat.even_or_odd' d with ⟨e, rfl | rfl⟩
  · have := key e
    rw [sum_range_succ, hg (2 * e + 1) ⟨e, rfl⟩ (by omega), add_zero] at this
    rw [this, show 2 * e / 2 = e by omega]
  · have := key e
    rw [show 2 * e + 1 + 1 = 2 * e + 2 by ring, this, show (2 * e + 1) / 2 = e by omega]

/-- Trapezoidal rule for a power on the unit interval. -/
theorem trap_pow (d n : ℕ) (hn : 0 < n) : trapezoidal_integral (fun x => x ^ d) n 0 1 =
    ∑ j ∈ range (d / 2 + 1), ((bernoulli (2 * j) * (d + 1).choose (2 * j) / (d + 1) : ℚ) : ℝ) * (1 / (n : ℝ) ^ 2) ^ j := by
  have hn' : (n : ℝ) ≠ 0 := Nat.cast_ne_zero.2 hn.ne'
  rcases Nat.eq_zero_or_pos d with rfl | hd
  · simp [trapezoidal_integral]
    rw [Nat.cast_sub hn]; push_cast; field_simp; ring
  · have hF : ∑ k ∈ range n, (k : ℝ) ^ d = ∑ i ∈ range (d + 1),
        ((bernoulli i * (d + 1).choose i / (d + 1) : ℚ) : ℝ) * (n : ℝ) ^ (d + 1 - i) := by
      have := congrArg (fun q : ℚ => (q : ℝ)) (sum_range_pow n d)
      push_cast at this ⊢
      rw [this]
      refine sum_congr rfl fun i _ => ?_
      ring
    have hS : ∑ k ∈ range (n - 1), ((k : ℝ) + 1) ^ d = ∑ k ∈ range n, (k : ℝ) ^ d := by
      obtain ⟨m, rfl⟩ : ∃ m, n = m + 1 := ⟨n - 1, by omega⟩
      rw [sum_range_succ' _ m]; simp [hd.ne']
    have hT : trapezoidal_integral (fun x => x ^ d) n 0 1 = 1 / (2 * n) + (∑ k ∈ range n, (k : ℝ) ^ d) / n ^ (d + 1) := by
      rw [← hS]
      simp only [trapezoidal_integral, sub_zero, mul_one, zero_add, div_pow, one_pow, zero_pow hd.ne', ← sum_div]
      field_simp
      ring
    rw [hT, hF, sum_div]
    have hterm : ∀ i ∈ range (d + 1), ((bernoulli i * (d + 1).choose i / (d + 1) : ℚ) : ℝ) * (n : ℝ) ^ (d + 1 - i) /
        n ^ (d + 1) = ((bernoulli i * (d + 1).choose i / (d + 1) : ℚ) : ℝ) * (1 / (n : ℝ)) ^ i := by
      intro i hi
      rw [mem_range] at hi
      have : (n : ℝ) ^ (d + 1) = n ^ (d + 1 - i) * n ^ i := by rw [← pow_add]; congr 1; omega
      rw [this, one_div, inv_pow]
      field_simp
    rw [sum_congr rfl hterm, sum_even _ ?_ d hd]
    · have h1 : ((bernoulli 1 * (d + 1).choose 1 / (d + 1) : ℚ) : ℝ) * (1 / (n : ℝ)) ^ 1 = -(1 / (2 * n)) := by
        rw [bernoulli_one, Nat.choose_one_right]
        have : ((d : ℝ) + 1) ≠ 0 := by positivity
        push_cast
        field_simp
      rw [h1, add_comm, add_assoc, neg_add_cancel, add_zero]
      refine sum_congr rfl fun j _ => ?_
      rw [pow_mul, one_div, one_div, inv_pow]
    · intro i hi h1
      rw [bernoulli_eq_zero_of_odd hi h1]; simp

/-- Change of variable. -/
theorem trap_comp (f : ℝ → ℝ) (a b : ℝ) (n : ℕ) :
    trapezoidal_integral f n a b = (b - a) * trapezoidal_integral (fun x => f (a + (b - a) * x)) n 0 1 := by
  simp only [trapezoidal_integral, mul_zero, add_zero, mul_one, sub_zero, add_sub_cancel]
  have : ∀ k : ℕ, a + ((k : ℝ) + 1) * (b - a) / n = a + (b - a) * (((k : ℝ) + 1) / n) := fun k => by ring
  simp only [this]
  ring

/-- Growth of the error over the columns of the table. -/
theorem richardson_error (x : ℕ → ℝ) (I E : ℝ) (hx : ∀ m, |x m - I| ≤ E * (1 / 4) ^ m) :
    ∀ k m, k ≤ m → |richardson x m k - I| ≤ 5 * E * (1 / 4) ^ m := by
  have hE : 0 ≤ E := by have := hx 0; simp at this; exact (abs_nonneg _).trans this
  have key : ∀ k m, k ≤ m → 1 ≤ k → |richardson x m k - I| ≤ (5 - 25 / 3 * (1 / 4) ^ k) * E * (1 / 4) ^ m := by
    intro k
    induction k with
    | zero => intro m _ h; omega
    | succ k ih =>
      intro m hm _
      have hprev : ∃ A, |richardson x m k - I| ≤ A * E * (1 / 4) ^ m ∧ |richardson x (m - 1) k - I| ≤ A * E * (1 / 4) ^ (m - 1) ∧
          A * (4 ^ (k + 1) + 4) ≤ (5 - 25 / 3 * (1 / 4) ^ (k + 1)) * (4 ^ (k + 1) - 1) := by
        rcases Nat.eq_zero_or_pos k with rfl | hk
        · refine ⟨1, by simpa [richardson] using hx m, by simpa [richardson] using hx (m - 1), by norm_num⟩
        · refine ⟨_, ih m (by omega) hk, ih (m - 1) (by omega) hk, ?_⟩
          have h4 : (4 : ℝ) ^ k * (1 / 4) ^ k = 1 := by rw [← mul_pow]; norm_num
          have h5 : (0 : ℝ) < (1 / 4) ^ k := by positivity
          rw [pow_succ, pow_succ]
          nlinarith
      obtain ⟨A, h1, h2, h3⟩ := hprev
      obtain ⟨m, rfl⟩ : ∃ m', m = m' + 1 := ⟨m - 1, by omega⟩
      rw [show m + 1 - 1 = m by omega] at h2
      have hp := four_pow_gt k
      have hq : (0 : ℝ) < 4 ^ (k + 1) := by positivity
      rw [richardson, show m + 1 - 1 = m by omega]
      rw [show (4 ^ (k + 1) * richardson x (m + 1) k - richardson x m k) / (4 ^ (k + 1) - 1) - I =
        (4 ^ (k + 1) * (richardson x (m + 1) k - I) - (richardson x m k - I)) / (4 ^ (k + 1) - 1) by field_simp; ring,
        abs_div, abs_of_pos hp, div_le_iff₀ hp]
      have hpm : (0 : ℝ) < (1 / 4) ^ (m + 1) := by positivity
      calc |4 ^ (k + 1) * (richardson x (m + 1) k - I) - (richardson x m k - I)|
          ≤ |4 ^ (k + 1) * (richardson x (m + 1) k - I)| + |richardson x m k - I| := abs_sub _ _
        _ = 4 ^ (k + 1) * |richardson x (m + 1) k - I| + |richardson x m k - I| := by rw [abs_mul, abs_of_pos hq]
        _ ≤ 4 ^ (k + 1) * (A * E * (1 / 4) ^ (m + 1)) + A * E * (1 / 4) ^ m := by gcongr
        _ = A * (4 ^ (k + 1) + 4) * (E * (1 / 4) ^ (m + 1)) := by rw [pow_succ (1 / 4 : ℝ) m]; ring
        _ ≤ (5 - 25 / 3 * (1 / 4) ^ (k + 1)) * (4 ^ (k + 1) - 1) * (E * (1 / 4) ^ (m + 1)) := by gcongr
        _ = _ := by ring
  intro k m hm
  have hpm : (0 : ℝ) < (1 / 4) ^ m := by positivity
  rcases Nat.eq_zero_or_pos k with rfl | hk
  · refine (hx m).trans ?_
    have := mul_nonneg hE hpm.le
    linarith
  · refine (key k m hm hk).trans ?_
    have h5 : (0 : ℝ) < (1 / 4) ^ k := by positivity
    have := mul_nonneg hE hpm.le
    nlinarith

end Verif.Util
