import Mathlib.Algebra.Module.Basic
import Mathlib.Data.Real.Basic
import Mathlib.Data.List.Basic

set_option autoImplicit false

/-!
# Specification vocabulary for splitting integrators

A step of a symplectic integrator is a sequence of drifts (position and time advance with constant
momentum) and kicks (momentum changes by the force at the current position and time).
-/

namespace Verif

/-- Position, momentum and time. -/
@[ext] structure St (V : Type*) where
  q : V
  p : V
  t : ℝ

variable {V : Type*} [AddCommGroup V] [Module ℝ V]

/-- A drift or a kick for a fraction of the step. -/
inductive Op where
  | drift (c : ℝ)
  | kick (d : ℝ)

/-- Its effect for the step `dt`. -/
def Op.run (F : V → ℝ → V) (dt : ℝ) : Op → St V → St V
  | .drift c, s => ⟨s.q + (c * dt) • s.p, s.p, s.t + c * dt⟩
  | .kick d, s => ⟨s.q, s.p + (d * dt) • F s.q s.t, s.t⟩

/-- The fraction of the step by which an operation advances the time. -/
def Op.frac : Op → ℝ
  | .drift c => c
  | .kick _ => 0

/-- The effect of a sequence, first element first. -/
def runOps (F : V → ℝ → V) (dt : ℝ) (l : List Op) (s : St V) : St V := l.foldl (fun s o => o.run F dt s) s

/-- Alternating drifts and kicks, starting and ending with a drift. -/
def alternate : List ℝ → List ℝ → List Op
  | [], _ => []
  | c :: _, [] => [.drift c]
  | c :: cs, d :: ds => .drift c :: .kick d :: alternate cs ds

/-- Leapfrog: half drift, kick, half drift. -/
noncomputable def leapScheme : List Op := alternate [1 / 2, 1 / 2] [1]

/-- The positions and times at which the force is evaluated. -/
def kicks (F : V → ℝ → V) (dt : ℝ) : List Op → St V → List (V × ℝ)
  | [], _ => []
  | .drift c :: l, s => kicks F dt l ((Op.drift c).run F dt s)
  | .kick d :: l, s => (s.q, s.t) :: kicks F dt l ((Op.kick d).run F dt s)

end Verif
