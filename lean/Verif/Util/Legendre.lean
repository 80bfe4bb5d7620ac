import Verif.Util.Gegenbauer
import Verif.Util.Deriv
import Mathlib.Analysis.Calculus.IteratedDeriv.Defs

set_option autoImplicit false

/-!
# Legendre polynomials and associated Legendre functions
-/

noncomputable section
open Real Filter Topology

namespace Verif

/-- Legendre polynomial: `P_0 = 1`, `P_1 = x`, `(l + 2) P_{l+2} = (2 l + 3) x P_{l+1} - (l + 1) P_l` (Bonnet's recurrence). -/
def legP : ℕ → ℝ → ℝ
  | 0, _ => 1
  | 1, x => x
  | l + 2, x => ((2 * (l : ℝ) + 3) * x * legP (l + 1) x - ((l : ℝ) + 1) * legP l x) / ((l : ℝ) + 2)

/-- Associated Legendre function with the Condon-Shortley phase on `-1 ≤ x ≤ 1`:
`P_l^m(x) = (-1)^m (1 - x²)^{m/2} d^m P_l / dx^m`. -/
def alp (l m : ℕ) (x : ℝ) : ℝ := (-1) ^ m * √(1 - x ^ 2) ^ m * iteratedDeriv m (legP l) x

namespace Leg

theorem legP_eq (l : ℕ) (x : ℝ) : legP l x = geg (1 / 2) x l := by
  induction l using Nat.strong_induction_on with
  | _ l ih =>
    match l with
    | 0 => rfl
    | 1 => simp [legP, geg]
    | l + 2 =>
      rw [legP, geg, ih (l + 1) (by omega), ih l (by omega)]
      ring

/-- `1 · 3 · 5 ⋯ (2 m - 1)`. -/
def dfac : ℕ → ℝ
  | 0 => 1
  | m + 1 => dfac m * (2 * (m : ℝ) + 1)

theorem iter_eq (l m : ℕ) : iteratedDeriv m (legP l) = fun x => dfac m * gegS ((m : ℝ) + 1 / 2) x (l + 3 - m) := by
  induction m with
  | zero =>
    funext x
    simp [dfac, legP_eq, gegS]
  | succ m ih =>
    rw [iteratedDeriv_succ, ih]
    funext x
    have hp : (0 : ℝ) < (m : ℝ) + 1 / 2 := by positivity
    by_cases h : m ≤ l
    · obtain ⟨k, rfl⟩ := Nat.exists_eq_add_of_le h
      have e : m + k + 3 - m = k + 3 := by omega
      have e' : m + k + 3 - (m + 1) = k + 2 := by omega
      rw [e, e', ((Geg.hasDerivS hp x k).const_mul (dfac m)).deriv, dfac]
      push_cast
      rw [show (m : ℝ) + 1 + 1 / 2 = (m : ℝ) + 1 / 2 + 1 by ring]
      ring
    · have z : ∀ j, j ≤ 2 → ∀ α x : ℝ, gegS α x j = 0 := fun j hj α x => Geg.low hj α x
      have e : (fun x => dfac m * gegS ((m : ℝ) + 1 / 2) x (l + 3 - m)) = fun _ => (0 : ℝ) := by
        funext y
        rw [z _ (by omega), mul_zero]
      rw [e, z _ (by omega)]
      simp

/-- The polynomial factor `d^m P_l / dx^m`, its first and its second derivative. -/
def q (l m : ℕ) (x : ℝ) : ℝ := iteratedDeriv m (legP l) x

theorem q_deriv (l m : ℕ) (x : ℝ) : HasDerivAt (q l m) (q l (m + 1) x) x := by
  have hd : DifferentiableAt ℝ (iteratedDeriv m (legP l)) x := by
    rw [iter_eq]
    have hp : (0 : ℝ) < (m : ℝ) + 1 / 2 := by positivity
    by_cases h : m ≤ l
    · obtain ⟨k, rfl⟩ := Nat.exists_eq_add_of_le h
      rw [show m + k + 3 - m = k + 3 by omega]
      exact ((Geg.hasDerivS hp x k).const_mul (dfac m)).differentiableAt
    · have z : ∀ j, j ≤ 2 → ∀ α x : ℝ, gegS α x j = 0 := fun j hj α x => Geg.low hj α x
      have e : (fun x => dfac m * gegS ((m : ℝ) + 1 / 2) x (l + 3 - m)) = fun _ => (0 : ℝ) := by
        funext y
        rw [z _ (by omega), mul_zero]
      rw [e]
      exact differentiableAt_const _
  have := hd.hasDerivAt
  rw [show deriv (iteratedDeriv m (legP l)) x = q l (m + 1) x by rw [q, iteratedDeriv_succ]] at this
  exact this

/-- The differential equation of `d^m P_l / dx^m`. -/
theorem q_ode (l m : ℕ) (x : ℝ) :
    (1 - x ^ 2) * q l (m + 2) x - 2 * ((m : ℝ) + 1) * x * q l (m + 1) x
      + ((l : ℝ) * (l + 1) - m * (m + 1)) * q l m x = 0 := by
  have z : ∀ j, j ≤ 2 → ∀ α x : ℝ, gegS α x j = 0 := fun j hj α x => Geg.low hj α x
  simp only [q, iter_eq]
  by_cases h : m ≤ l
  · obtain ⟨k, rfl⟩ := Nat.exists_eq_add_of_le h
    have hp : (0 : ℝ) < (m : ℝ) + 1 / 2 := by positivity
    rw [show m + k + 3 - m = k + 3 by omega, show m + k + 3 - (m + 1) = k + 2 by omega,
      show m + k + 3 - (m + 2) = k + 1 by omega, dfac, dfac]
    have o := Geg.ode_alg (x := x) hp k
    push_cast
    rw [show (m : ℝ) + 2 + 1 / 2 = (m : ℝ) + 1 / 2 + 2 by ring, show (m : ℝ) + 1 + 1 / 2 = (m : ℝ) + 1 / 2 + 1 by ring]
    linear_combination dfac m * o
  · rw [z (l + 3 - m) (by omega), z (l + 3 - (m + 1)) (by omega), z (l + 3 - (m + 2)) (by omega)]
    ring

theorem q_zero {l m : ℕ} (h : l < m) (x : ℝ) : q l m x = 0 := by
  have z : ∀ j, j ≤ 2 → ∀ α x : ℝ, gegS α x j = 0 := fun j hj α x => Geg.low hj α x
  simp only [q, iter_eq]
  rw [z _ (by omega), mul_zero]

/-- First derivative of `alp`. -/
def alp1 (l m : ℕ) (x : ℝ) : ℝ :=
  (-1) ^ m * √(1 - x ^ 2) ^ m * (q l (m + 1) x - m * x * q l m x / (1 - x ^ 2))

/-- Second derivative of `alp`. -/
def alp2 (l m : ℕ) (x : ℝ) : ℝ :=
  (-1) ^ m * √(1 - x ^ 2) ^ m * ((q l (m + 1) x - m * x * q l m x / (1 - x ^ 2)) * (-(m * x) / (1 - x ^ 2))
    + (q l (m + 2) x - (m * q l m x + m * x * q l (m + 1) x) / (1 - x ^ 2) - m * x * q l m x * (2 * x) / (1 - x ^ 2) ^ 2))

theorem dsqrt_pow (m : ℕ) {x : ℝ} (h : x ^ 2 < 1) :
    HasDerivAt (fun u : ℝ => √(1 - u ^ 2) ^ m) (√(1 - x ^ 2) ^ m * (-(m * x) / (1 - x ^ 2))) x := by
  have hp : 0 < 1 - x ^ 2 := by linarith
  have hs := sqrt_pos.2 hp
  have d : HasDerivAt (fun u : ℝ => 1 - u ^ 2) (-(2 * x)) x := by
    simpa using (hd_sub (hd_const 1 x) (hd_pow 2 (hd_id x)))
  refine (hd_pow m (hd_sqrt d hp.ne')).congr_deriv ?_
  cases m with
  | zero => simp
  | succ m =>
    have e : √(1 - x ^ 2) ^ 2 = 1 - x ^ 2 := sq_sqrt hp.le
    rw [Nat.add_sub_cancel]
    generalize √(1 - x ^ 2) = s at *
    rw [← e]
    push_cast
    field_simp
    ring

theorem alp_deriv (l m : ℕ) {x : ℝ} (h : x ^ 2 < 1) : HasDerivAt (alp l m) (alp1 l m x) x := by
  refine (hd_mul (hd_const_mul ((-1) ^ m) (dsqrt_pow m h)) (q_deriv l m x)).congr_deriv ?_
  rw [alp1]
  ring

theorem alp1_deriv (l m : ℕ) {x : ℝ} (h : x ^ 2 < 1) : HasDerivAt (alp1 l m) (alp2 l m x) x := by
  have hp : 1 - x ^ 2 ≠ 0 := by linarith
  have d : HasDerivAt (fun u : ℝ => 1 - u ^ 2) (-(2 * x)) x := by
    simpa using (hd_sub (hd_const 1 x) (hd_pow 2 (hd_id x)))
  refine (hd_mul (hd_const_mul ((-1) ^ m) (dsqrt_pow m h)) (hd_sub (q_deriv l (m + 1) x)
    (hd_div (hd_mul (hd_const_mul (m : ℝ) (hd_id x)) (q_deriv l m x)) d hp))).congr_deriv ?_
  rw [alp2]
  field_simp
  ring

theorem deriv_alp (l m : ℕ) {x : ℝ} (h : x ^ 2 < 1) : deriv (alp l m) x = alp1 l m x := (alp_deriv l m h).deriv

theorem open_x {x : ℝ} (h : x ^ 2 < 1) : ∀ᶠ y in 𝓝 x, y ^ 2 < 1 :=
  (continuous_pow 2).continuousAt.eventually_lt continuousAt_const h

theorem deriv_alp_deriv (l m : ℕ) {x : ℝ} (h : x ^ 2 < 1) : HasDerivAt (deriv (alp l m)) (alp2 l m x) x :=
  (alp1_deriv l m h).congr_of_eventuallyEq ((open_x h).mono fun _ k => deriv_alp l m k)

/-- The associated Legendre differential equation. -/
theorem alp_ode (l m : ℕ) {x : ℝ} (h : x ^ 2 < 1) :
    (1 - x ^ 2) * alp2 l m x - 2 * x * alp1 l m x + ((l : ℝ) * (l + 1) - m ^ 2 / (1 - x ^ 2)) * alp l m x = 0 := by
  have hp : 1 - x ^ 2 ≠ 0 := by linarith
  have o := q_ode l m x
  have e : alp l m x = (-1) ^ m * √(1 - x ^ 2) ^ m * q l m x := rfl
  rw [e, alp2, alp1]
  generalize √(1 - x ^ 2) ^ m = s
  generalize q l m x = q0 at *
  generalize q l (m + 1) x = q1 at *
  generalize q l (m + 2) x = q2 at *
  generalize ((-1 : ℝ)) ^ m = c
  field_simp
  linear_combination c * s * (1 - x ^ 2) * o

end Leg
end Verif
