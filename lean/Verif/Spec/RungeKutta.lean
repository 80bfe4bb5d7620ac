import Mathlib.Algebra.BigOperators.Fin
import Mathlib.Algebra.Module.BigOperators
import Mathlib.Data.Real.Basic
import Mathlib.Algebra.Module.Prod
import Verif.Spec.Splitting

set_option autoImplicit false

/-!
# Runge-Kutta steps and their order conditions

The differential equation is `y' = ∑ c, f c y`, with a finite set `κ` of parts treated with separate
coefficients; an ordinary Runge-Kutta method has one part. Equations depending on time have the time
among the components of `y`.
-/

open scoped BigOperators

namespace Verif

/-- Coefficients of a method with `s` stages. -/
structure Tableau (K κ : Type) (s : ℕ) where
  A : κ → Fin s → Fin s → K
  b : κ → Fin s → K

/-- `y'` is the result of one step of size `h` from `y`, with stage values `Y`. -/
def Tableau.IsStep {κ : Type} [Fintype κ] {s : ℕ} {V : Type*} [AddCommGroup V] [Module ℝ V]
    (T : Tableau ℝ κ s) (f : κ → V → V) (h : ℝ) (y y' : V) : Prop :=
  ∃ Y : Fin s → V, (∀ i, Y i = y + h • ∑ c, ∑ j, T.A c i j • f c (Y j)) ∧
    y' = y + h • ∑ c, ∑ i, T.b c i • f c (Y i)

/-- The field `(1, f)` for an equation `y' = f t y`. -/
def withTime {V : Type*} (f : ℝ → V → V) : Unit → ℝ × V → ℝ × V := fun _ x => (1, f x.1 x.2)

/-- Rooted trees with ordered children and nodes coloured by the parts: a single node, or a tree with
one more child, the last, at its root. -/
inductive Tree (κ : Type) where
  | leaf (c : κ)
  | graft (t s : Tree κ)
  deriving DecidableEq

namespace Tree
variable {κ : Type}

/-- Number of nodes. -/
def size : Tree κ → ℕ
  | leaf _ => 1
  | graft t s => t.size + s.size

/-- Colour of the root. -/
def color : Tree κ → κ
  | leaf c => c
  | graft t _ => t.color

/-- Product of the densities of the children. -/
def belowDensity : Tree κ → ℕ
  | leaf _ => 1
  | graft t s => t.belowDensity * (s.size * s.belowDensity)

/-- The density: number of nodes times the product of the densities of the children. -/
def density (t : Tree κ) : ℕ := t.size * t.belowDensity

end Tree

/-- Elementary weight of a tree at a stage: product over the children of the `A`-weighted sums of
their weights. -/
def Tableau.weight {K κ : Type} [Field K] {s : ℕ} (T : Tableau K κ s) : Tree κ → Fin s → K
  | .leaf _ => fun _ => 1
  | .graft t u => fun i => T.weight t i * ∑ j, T.A u.color i j * T.weight u j

/-- The difference between the two sides of the order condition of a tree. -/
def Tableau.defect {K κ : Type} [Field K] {s : ℕ} (T : Tableau K κ s) (t : Tree κ) : K :=
  ∑ i, T.b t.color i * T.weight t i - 1 / (t.density : K)

/-- The order conditions up to order `p`. -/
def Tableau.HasOrder {K κ : Type} [Field K] {s : ℕ} (T : Tableau K κ s) (p : ℕ) : Prop :=
  ∀ t : Tree κ, t.size ≤ p → T.defect t = 0

/-! ### Splitting methods as methods with two parts -/

/-- The two parts of the equations of motion. -/
inductive Part where
  | drift
  | kick
  deriving DecidableEq

instance : Fintype Part := ⟨{.drift, .kick}, fun x => by cases x <;> simp⟩

/-- The parts as fields on position, momentum and time. -/
def partField {V : Type*} [AddCommGroup V] [Module ℝ V] (F : V → ℝ → V) : Part → V × V × ℝ → V × V × ℝ
  | .drift => fun x => (x.2.1, 0, 1)
  | .kick => fun x => (0, F x.1 x.2.2, 0)

/-- The part and the fraction of an operation. -/
def Op.part : Op → Part
  | .drift _ => .drift
  | .kick _ => .kick

/-- Size of an operation as a fraction of the step. -/
def Op.amount : Op → ℝ
  | .drift c => c
  | .kick d => d

/-- Each operation is one stage, evaluated at the state reached before it. -/
noncomputable def splitTableau (l : List Op) : Tableau ℝ Part l.length where
  A c i j := if j < i ∧ (l.get j).part = c then (l.get j).amount else 0
  b c j := if (l.get j).part = c then (l.get j).amount else 0

/-- Trees that contribute for the equations of motion: drifts depend on the momentum only and
linearly, kicks on position and time only. `k` is the number of children still to come. -/
def Tree.Contributes : Tree Part → ℕ → Prop
  | .leaf .drift, k => k ≤ 1
  | .leaf .kick, _ => True
  | .graft t s, k => s.color ≠ t.color ∧ s.Contributes 0 ∧ t.Contributes (k + 1)

end Verif
