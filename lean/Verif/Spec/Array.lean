import Mathlib.Algebra.BigOperators.Group.List.Basic
import Mathlib.Data.Int.Notation
import Mathlib.Algebra.Order.Group.Unbundled.Int

set_option autoImplicit false

/-!
# Specification of arrays stored in row-major order and of Python index expressions

Independent of the model of the code: an array of shape `sh` assigns a value to every multi-index below
`sh`; a Python integer `k` denotes the position `p` with `p = k` or `p = k + len`; a slice denotes the
positions from its start in steps before its end.
-/

namespace Verif.Spec

/-- The place of a multi-index in the row-major order of an array of shape `sh`. -/
def place : List Nat → List Nat → Option Nat
  | [], [] => some 0
  | n :: sh, i :: J => if i < n then (place sh J).map (i * sh.prod + ·) else none
  | _, _ => none

/-- The entry of an array at a multi-index. -/
def entry {α : Type} (sh : List Nat) (xs : List α) (J : List Nat) : Option α :=
  (place sh J).bind (xs[·]?)

/-- `p` is the position denoted by the Python integer `k` in an axis of length `len`. -/
def IsPos (len : Nat) (k : Int) (p : Nat) : Prop :=
  p < len ∧ ((p : Int) = k ∨ (p : Int) = k + len ∧ k < 0)

/-- A slice bound: counted from the end when negative, cut to `[lo, hi]`. -/
def bound (len lo hi dflt : Int) (b : Option Int) : Int :=
  b.elim dflt fun k => max lo (min hi (if k < 0 then k + len else k))

/-- `rs` are the positions of the slice `start:stop:step` in an axis of length `len`, in order. -/
def IsSlice (len : Nat) (start stop step : Option Int) (rs : List Nat) : Prop :=
  let st := step.getD 1;
  (0 < st ∧ rs.Pairwise (· < ·) ∧ ∀ i : Nat, i ∈ rs ↔
    bound len 0 len 0 start ≤ i ∧ (i : Int) < bound len 0 len len stop ∧
      st ∣ (i : Int) - bound len 0 len 0 start) ∨
  (st < 0 ∧ rs.Pairwise (· > ·) ∧ ∀ i : Nat, i ∈ rs ↔
    (i : Int) ≤ bound len (-1) (len - 1) (len - 1) start ∧ bound len (-1) (len - 1) (-1) stop < i ∧
      st ∣ (i : Int) - bound len (-1) (len - 1) (len - 1) start)

end Verif.Spec
