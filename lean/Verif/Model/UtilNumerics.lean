import Mathlib.Analysis.SpecialFunctions.Log.Basic
import Mathlib.Data.Matrix.Mul
import Mathlib.LinearAlgebra.Matrix.Notation
import Mathlib.Data.Finset.Max
import Mathlib.Algebra.BigOperators.Fin

set_option autoImplicit false

/-!
# Numerical helpers of `galpy/util/__init__.py` and `galpy/util/quadpack.py`
-/

noncomputable section
namespace Verif.Util
open Real

/-! ### `logsumexp` -/

/-- `numpy.amax` over one axis; `none` stands for the `ValueError` on an empty axis. -/
def amax {n : ℕ} (x : Fin n → ℝ) : Option ℝ :=
  if h : 0 < n then some ((Finset.univ : Finset (Fin n)).sup' ⟨⟨0, h⟩, Finset.mem_univ _⟩ x) else none

/-- `amax` of all entries of a table. -/
def amax2 {n m : ℕ} (x : Fin n → Fin m → ℝ) : Option ℝ :=
  if h : 0 < n ∧ 0 < m then
    some ((Finset.univ : Finset (Fin n × Fin m)).sup' ⟨(⟨0, h.1⟩, ⟨0, h.2⟩), Finset.mem_univ _⟩ fun p => x p.1 p.2)
  else none

/-- The numbers whose exponential is taken, `arr - minminarr`, for `axis=0`, util/__init__.py:91-95, 104: row
`i`, column `j`, with `M j` the maximum of column `j`. -/
def expArgs0 {n m : ℕ} (arr : Fin n → Fin m → ℝ) (M : Fin m → ℝ) : Fin n → Fin m → ℝ := fun i j => arr i j - M j
/-- Ditto for `axis=1`, util/__init__.py:92-93, 96-97. -/
def expArgs1 {n m : ℕ} (arr : Fin n → Fin m → ℝ) (M : Fin n → ℝ) : Fin n → Fin m → ℝ := fun i j => arr i j - M i
/-- Ditto for `axis=None`, util/__init__.py:98-99. -/
def expArgsNone {n m : ℕ} (arr : Fin n → Fin m → ℝ) (M : ℝ) : Fin n → Fin m → ℝ := fun i j => arr i j - M

/-- `logsumexp(arr, axis=0)` for a table, util/__init__.py:89-104. -/
def logsumexp0 {n m : ℕ} (arr : Fin n → Fin m → ℝ) (j : Fin m) : Option ℝ :=
  (amax fun i => arr i j).map fun M => M + log (∑ i, exp (expArgs0 arr (fun _ => M) i j))
/-- `logsumexp(arr, axis=1)` for a table. -/
def logsumexp1 {n m : ℕ} (arr : Fin n → Fin m → ℝ) (i : Fin n) : Option ℝ :=
  (amax fun j => arr i j).map fun M => M + log (∑ j, exp (expArgs1 arr (fun _ => M) i j))
/-- `logsumexp(arr, axis=None)` for a table; one row is an array with one axis. -/
def logsumexpNone {n m : ℕ} (arr : Fin n → Fin m → ℝ) : Option ℝ :=
  (amax2 arr).map fun M => M + log (∑ i, ∑ j, exp (expArgsNone arr M i j))

/-- `logsumexp(arr)` for an array with one axis and the default `axis=0`: the tiled maximum has the shape
`(n, 1)`, and the difference `arr - minminarr` is broadcast to the shape `(n, n)`, with entry `(i, j)` equal to
`arr[j] - M`; the sum over the first axis leaves an array of `n` numbers. -/
def logsumexpFlat {n : ℕ} (arr : Fin n → ℝ) (j : Fin n) : Option ℝ :=
  (amax arr).map fun M => M + log (∑ _i : Fin n, exp (arr j - M))

/-! ### `_rotate_to_arbitrary_vector` -/

/-- `numpy.cross`. -/
def cross (a b : Fin 3 → ℝ) : Fin 3 → ℝ :=
  ![a 1 * b 2 - a 2 * b 1, a 2 * b 0 - a 0 * b 2, a 0 * b 1 - a 1 * b 0]
/-- `numpy.dot` of two vectors. -/
def dot (a b : Fin 3 → ℝ) : ℝ := a 0 * b 0 + a 1 * b 1 + a 2 * b 2
/-- `v / sqrt(sum(v**2))`. -/
def unitVec (v : Fin 3 → ℝ) : Fin 3 → ℝ := fun i => v i / sqrt (v 0 ^ 2 + v 1 ^ 2 + v 2 ^ 2)

/-- `crossmatrix`, util/__init__.py:175-178. -/
def crossmatrix (k : Fin 3 → ℝ) : Matrix (Fin 3) (Fin 3) ℝ :=
  ![cross k ![1, 0, 0], cross k ![0, 1, 0], cross k ![0, 0, 1]]

/-- `_rotate_to_arbitrary_vector(v, a, inv, _dontcutsmall)`, util/__init__.py:169-194, one row of `v`. For
parallel vectors numpy divides zero by zero; the entries that become nan are then overwritten, unless
`_dontcutsmall` is set, a case for which the model says nothing. -/
def rotateTo (v a : Fin 3 → ℝ) (inv dontcutsmall : Bool) : Matrix (Fin 3) (Fin 3) ℝ :=
  let normv := unitVec v;
  let rotaxis := unitVec (cross normv a);
  let costheta := dot normv a;
  let sintheta := sqrt (1 - costheta ^ 2);
  let sgn : ℝ := if inv then 1 else -1;
  let out : Matrix (Fin 3) (Fin 3) ℝ := fun i j =>
    costheta * (if i = j then 1 else 0) + sgn * sintheta * crossmatrix rotaxis i j +
      (1 - costheta) * (rotaxis i * rotaxis j);
  let out := if dontcutsmall = false ∧ |costheta - 1| < 10 ^ (-10 : ℤ) then 1 else out;
  if dontcutsmall = false ∧ |costheta + 1| < 10 ^ (-10 : ℤ) then -1 else out

/-! ### `romberg` -/

/-- `_difftrap`, quadpack.py:175-196, for a number of intervals that is one or even. -/
def difftrap (f : ℝ → ℝ) (a b : ℝ) (numtraps : ℕ) : ℝ :=
  if numtraps = 1 then 0.5 * (f a + f b)
  else
    let numtosum := numtraps / 2;
    let h := (b - a) / numtosum;
    let lox := a + 0.5 * h;
    ∑ i ∈ Finset.range numtosum, f (lox + h * i)

/-- `_romberg_diff`, quadpack.py:199-205. -/
def rombergDiff (b c : ℝ) (k : ℕ) : ℝ := (4 ^ k * c - b) / (4 ^ k - 1)

/-- The inner loop of `romberg`, quadpack.py:276-277: extend `row` by `todo` entries, starting with `row[k]`. -/
def rombergRow (lastRow : List ℝ) : List ℝ → ℕ → ℕ → List ℝ
  | row, _, 0 => row
  | row, k, todo + 1 =>
    rombergRow lastRow (row ++ [rombergDiff (lastRow.getD k 0) (row.getD k 0) (k + 1)]) (k + 1) todo

/-- The variables of the outer loop. -/
structure RombergState where
  n : ℕ
  ordsum : ℝ
  result : ℝ
  lastRow : List ℝ

/-- Before the loop, quadpack.py:264-271. -/
def rombergInit (f : ℝ → ℝ) (a b : ℝ) : RombergState :=
  let ordsum := difftrap f a b 1;
  let result := (b - a) * ordsum;
  ⟨1, ordsum, result, [result]⟩

/-- One turn of the outer loop without the test, quadpack.py:273-278, 283. -/
def rombergStep (f : ℝ → ℝ) (a b : ℝ) (i : ℕ) (s : RombergState) : RombergState :=
  let n := s.n * 2;
  let ordsum := s.ordsum + difftrap f a b n;
  let row := rombergRow s.lastRow [(b - a) * ordsum / n] 0 i;
  ⟨n, ordsum, row.getD i 0, row⟩

/-- The outer loop, quadpack.py:272-289, from turn `i` with `left` turns left, starting from `s`; the flag tells
whether the loop ran out of turns, in which case a warning is given. -/
def rombergLoop (f : ℝ → ℝ) (a b tol rtol : ℝ) : ℕ → ℕ → RombergState → ℝ × Bool
  | _, 0, s => (s.result, true)
  | i, left + 1, s =>
    let s' := rombergStep f a b i s;
    let err := |s'.result - s.lastRow.getD (i - 1) 0|;
    if err < tol ∨ err < rtol * |s'.result| then (s'.result, false)
    else rombergLoop f a b tol rtol (i + 1) left s'

/-- `romberg`, quadpack.py:208-289, for finite limits. -/
def romberg (f : ℝ → ℝ) (a b tol rtol : ℝ) (divmax : ℕ) : ℝ × Bool :=
  rombergLoop f a b tol rtol 1 divmax (rombergInit f a b)

end Verif.Util
