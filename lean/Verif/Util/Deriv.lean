import Mathlib.Analysis.Calculus.Deriv.Basic
import Mathlib.Analysis.Calculus.Deriv.Inv
import Mathlib.Analysis.Calculus.Deriv.Pow
import Mathlib.Analysis.SpecialFunctions.Sqrt
import Mathlib.Analysis.SpecialFunctions.Pow.Deriv
import Mathlib.Analysis.SpecialFunctions.Log.Deriv
import Mathlib.Analysis.SpecialFunctions.Trigonometric.Deriv
import Mathlib.Analysis.SpecialFunctions.Trigonometric.DerivHyp
import Mathlib.Analysis.SpecialFunctions.Trigonometric.ArctanDeriv
import Mathlib.Tactic.FieldSimp
import Mathlib.Tactic.Ring
import Mathlib.Tactic.Positivity
import Mathlib.Tactic.Linarith
import Mathlib.Tactic.LinearCombination

set_option autoImplicit false

/-!
# Helper lemmas and a small tactic for computing derivatives

`hasderiv` proves `HasDerivAt f d a` for a closed-form real function `f` by
structural use of the differentiation rules; the value `d` is then compared
with the computed one (`HasDerivAt.congr_deriv`).  Nothing here is specific to
galpy.
-/

namespace Verif

variable {f g : ℝ → ℝ} {f' g' a : ℝ}

theorem hd_const (c a : ℝ) : HasDerivAt (fun _ : ℝ => c) 0 a := hasDerivAt_const a c
theorem hd_id (a : ℝ) : HasDerivAt (fun x : ℝ => x) 1 a := hasDerivAt_id a
theorem hd_add (hf : HasDerivAt f f' a) (hg : HasDerivAt g g' a) :
    HasDerivAt (fun x => f x + g x) (f' + g') a := hf.add hg
theorem hd_sub (hf : HasDerivAt f f' a) (hg : HasDerivAt g g' a) :
    HasDerivAt (fun x => f x - g x) (f' - g') a := hf.sub hg
theorem hd_mul (hf : HasDerivAt f f' a) (hg : HasDerivAt g g' a) :
    HasDerivAt (fun x => f x * g x) (f' * g a + f a * g') a := hf.mul hg
theorem hd_neg (hf : HasDerivAt f f' a) : HasDerivAt (fun x => -f x) (-f') a := hf.neg
theorem hd_div_const (c : ℝ) (hf : HasDerivAt f f' a) :
    HasDerivAt (fun x => f x / c) (f' / c) a := hf.div_const c
theorem hd_const_mul (c : ℝ) (hf : HasDerivAt f f' a) :
    HasDerivAt (fun x => c * f x) (c * f') a := hf.const_mul c
theorem hd_mul_const (c : ℝ) (hf : HasDerivAt f f' a) :
    HasDerivAt (fun x => f x * c) (f' * c) a := hf.mul_const c
theorem hd_div (hf : HasDerivAt f f' a) (hg : HasDerivAt g g' a) (h : g a ≠ 0) :
    HasDerivAt (fun x => f x / g x) ((f' * g a - f a * g') / g a ^ 2) a := hf.div hg h
theorem hd_inv (hf : HasDerivAt f f' a) (h : f a ≠ 0) :
    HasDerivAt (fun x => (f x)⁻¹) (-f' / f a ^ 2) a := hf.inv h
theorem hd_pow (n : ℕ) (hf : HasDerivAt f f' a) :
    HasDerivAt (fun x => f x ^ n) ((n : ℝ) * f a ^ (n - 1) * f') a := hf.pow n
theorem hd_sqrt (hf : HasDerivAt f f' a) (h : f a ≠ 0) :
    HasDerivAt (fun x => Real.sqrt (f x)) (f' / (2 * Real.sqrt (f a))) a := hf.sqrt h
theorem hd_log (hf : HasDerivAt f f' a) (h : f a ≠ 0) :
    HasDerivAt (fun x => Real.log (f x)) (f' / f a) a := hf.log h
theorem hd_exp (hf : HasDerivAt f f' a) :
    HasDerivAt (fun x => Real.exp (f x)) (Real.exp (f a) * f') a := hf.exp
theorem hd_sin (hf : HasDerivAt f f' a) :
    HasDerivAt (fun x => Real.sin (f x)) (Real.cos (f a) * f') a := hf.sin
theorem hd_cos (hf : HasDerivAt f f' a) :
    HasDerivAt (fun x => Real.cos (f x)) (-Real.sin (f a) * f') a := hf.cos
theorem hd_sinh (hf : HasDerivAt f f' a) :
    HasDerivAt (fun x => Real.sinh (f x)) (Real.cosh (f a) * f') a := hf.sinh
theorem hd_cosh (hf : HasDerivAt f f' a) :
    HasDerivAt (fun x => Real.cosh (f x)) (Real.sinh (f a) * f') a := hf.cosh
theorem hd_arctan (hf : HasDerivAt f f' a) :
    HasDerivAt (fun x => Real.arctan (f x)) (1 / (1 + f a ^ 2) * f') a := hf.arctan
/-- Real powers at a positive base, with the derivative written as `x^p / x`. -/
theorem hd_rpow (p : ℝ) (hf : HasDerivAt f f' a) (h : 0 < f a) :
    HasDerivAt (fun x => f x ^ p) (f' * p * (f a ^ p / f a)) a := by
  have := hf.rpow_const (p := p) (Or.inl h.ne')
  rwa [Real.rpow_sub_one h.ne'] at this
theorem hd_tanh (hf : HasDerivAt f f' a) :
    HasDerivAt (fun x => Real.tanh (f x)) ((1 - Real.tanh (f a) ^ 2) * f') a := by
  have h := (hd_div (hd_sinh hf) (hd_cosh hf) (Real.cosh_pos _).ne')
  have e : (fun x => Real.tanh (f x)) = fun x => Real.sinh (f x) / Real.cosh (f x) := by
    funext x; exact Real.tanh_eq_sinh_div_cosh _
  rw [e]
  refine h.congr_deriv ?_
  rw [Real.tanh_eq_sinh_div_cosh]
  have := (Real.cosh_pos (f a)).ne'
  field_simp

/-- Structural differentiation; leaves side conditions it cannot discharge. -/
macro "hasderiv" : tactic => `(tactic|
  (repeat' (first
    | with_reducible assumption
    | with_reducible exact hd_const _ _
    | with_reducible exact hd_id _
    | with_reducible apply hd_div_const
    | with_reducible apply hd_const_mul
    | with_reducible apply hd_mul_const
    | with_reducible apply hd_add
    | with_reducible apply hd_sub
    | with_reducible apply hd_neg
    | with_reducible apply hd_mul
    | with_reducible apply hd_div
    | with_reducible apply hd_inv
    | with_reducible apply hd_pow
    | with_reducible apply hd_sqrt
    | with_reducible apply hd_log
    | with_reducible apply hd_exp
    | with_reducible apply hd_sin
    | with_reducible apply hd_cos
    | with_reducible apply hd_sinh
    | with_reducible apply hd_cosh
    | with_reducible apply hd_tanh
    | with_reducible apply hd_arctan
    | with_reducible apply hd_rpow)))

end Verif

namespace Verif
section elim
variable {w u : ℝ}
theorem sqp3 (h : w ^ 2 = u) : w ^ 3 = u * w := by rw [← h]; ring
theorem sqp4 (h : w ^ 2 = u) : w ^ 4 = u ^ 2 := by rw [← h]; ring
theorem sqp5 (h : w ^ 2 = u) : w ^ 5 = u ^ 2 * w := by rw [← h]; ring
theorem sqp6 (h : w ^ 2 = u) : w ^ 6 = u ^ 3 := by rw [← h]; ring
theorem sqp7 (h : w ^ 2 = u) : w ^ 7 = u ^ 3 * w := by rw [← h]; ring
theorem sqp8 (h : w ^ 2 = u) : w ^ 8 = u ^ 4 := by rw [← h]; ring
theorem sqp9 (h : w ^ 2 = u) : w ^ 9 = u ^ 4 * w := by rw [← h]; ring
theorem sqp10 (h : w ^ 2 = u) : w ^ 10 = u ^ 5 := by rw [← h]; ring
theorem sqp11 (h : w ^ 2 = u) : w ^ 11 = u ^ 5 * w := by rw [← h]; ring
theorem sqp12 (h : w ^ 2 = u) : w ^ 12 = u ^ 6 := by rw [← h]; ring
theorem sqp13 (h : w ^ 2 = u) : w ^ 13 = u ^ 6 * w := by rw [← h]; ring
theorem sqp14 (h : w ^ 2 = u) : w ^ 14 = u ^ 7 := by rw [← h]; ring
end elim

/-- `elimsq h` with `h : w ^ 2 = u` normalises and eliminates powers of `w` above the first. -/
macro "elimsq" h:ident : tactic => `(tactic|
  (try ring_nf
   try simp only [$h:ident, sqp3 $h, sqp4 $h, sqp5 $h, sqp6 $h, sqp7 $h, sqp8 $h, sqp9 $h, sqp10 $h,
     sqp11 $h, sqp12 $h, sqp13 $h, sqp14 $h]))

end Verif
