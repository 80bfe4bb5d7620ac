import Verif.Spec.RungeKutta
import Mathlib.Data.Rat.Defs
import Mathlib.Data.Rat.Cast.CharZero
import Mathlib.Data.List.OfFn
import Mathlib.Algebra.BigOperators.Fin
import Mathlib.Tactic.NormNum
import Mathlib.Tactic.FieldSimp
import Mathlib.Tactic.Ring

set_option autoImplicit false

/-! # Evaluating order conditions -/

namespace Verif

theorem Tree.size_pos {κ : Type} : ∀ t : Tree κ, 0 < t.size
  | .leaf _ => Nat.one_pos
  | .graft t s => Nat.add_pos_left t.size_pos _

/-- Trees with `n` nodes; `fuel` at least `n`. -/
def treesF {κ : Type} (cs : List κ) : ℕ → ℕ → List (Tree κ)
  | 0, _ => []
  | fuel + 1, n => if n = 1 then cs.map .leaf else
    (List.range (n - 1)).flatMap fun i => (treesF cs fuel (i + 1)).flatMap fun t =>
      (treesF cs fuel (n - 1 - i)).map (.graft t)

theorem mem_treesF {κ : Type} {cs : List κ} (hcs : ∀ c, c ∈ cs) (fuel : ℕ) (t : Tree κ)
    (h : t.size ≤ fuel) : t ∈ treesF cs fuel t.size := by
  induction fuel generalizing t with
  | zero => exact absurd t.size_pos (by omega)
  | succ fuel ih =>
    cases t with
    | leaf c => simp [treesF, Tree.size, hcs]
    | graft t u =>
      have ht := t.size_pos
      have hu := u.size_pos
      simp only [Tree.size] at h ⊢
      rw [treesF, if_neg (by omega)]
      refine List.mem_flatMap.2 ⟨t.size - 1, List.mem_range.2 (by omega), ?_⟩
      refine List.mem_flatMap.2 ⟨t, ?_, List.mem_map.2 ⟨u, ?_, rfl⟩⟩
      · rw [Nat.sub_add_cancel ht]
        exact ih t (by omega)
      · rw [show t.size + u.size - 1 - (t.size - 1) = u.size by omega]
        exact ih u (by omega)

section
variable {K κ : Type} [Field K]

def dot : List K → List K → K
  | a :: l, b :: m => a * b + dot l m
  | _, _ => 0

/-- Weights at all stages. -/
def wL (s : ℕ) (A : κ → List (List K)) : Tree κ → List K
  | .leaf _ => List.replicate s 1
  | .graft t u => List.zipWith (fun w row => w * dot row (wL s A u)) (wL s A t) (A u.color)

def defectL (s : ℕ) (A : κ → List (List K)) (b : κ → List K) (t : Tree κ) : K :=
  dot (b t.color) (wL s A t) - 1 / (t.density : K)

theorem dot_ofFn {s : ℕ} (f g : Fin s → K) : dot (List.ofFn f) (List.ofFn g) = ∑ i, f i * g i := by
  induction s with
  | zero => simp [dot]
  | succ s ih => rw [List.ofFn_succ, List.ofFn_succ, dot, ih, Fin.sum_univ_succ]

theorem zipWith_ofFn {α β γ : Type*} {s : ℕ} (h : α → β → γ) (f : Fin s → α) (g : Fin s → β) :
    List.zipWith h (List.ofFn f) (List.ofFn g) = List.ofFn fun i => h (f i) (g i) := by
  induction s with
  | zero => simp
  | succ s ih => rw [List.ofFn_succ, List.ofFn_succ, List.ofFn_succ, List.zipWith_cons_cons, ih]

theorem wL_eq {s : ℕ} (T : Tableau K κ s) (t : Tree κ) :
    wL s (fun c => List.ofFn fun i => List.ofFn (T.A c i)) t = List.ofFn (T.weight t) := by
  induction t with
  | leaf c => simp [wL, Tableau.weight]
  | graft t u h1 h2 =>
    rw [wL, h1, h2, zipWith_ofFn]
    congr 1
    funext i
    rw [dot_ofFn]
    rfl

theorem defectL_eq {s : ℕ} (T : Tableau K κ s) (t : Tree κ) :
    T.defect t = defectL s (fun c => List.ofFn fun i => List.ofFn (T.A c i)) (fun c => List.ofFn (T.b c)) t := by
  rw [defectL, wL_eq, dot_ofFn]
  rfl

end

section cast
variable {κ : Type}

theorem dot_cast (l m : List ℚ) : dot (l.map ((↑) : ℚ → ℝ)) (m.map ((↑) : ℚ → ℝ)) = ((dot l m : ℚ) : ℝ) := by
  induction l generalizing m with
  | nil => simp [dot]
  | cons a l ih =>
    cases m with
    | nil => simp [dot]
    | cons b m => simp [dot, ih]

theorem wL_cast (s : ℕ) (A : κ → List (List ℚ)) (t : Tree κ) :
    wL s (fun c => (A c).map (List.map ((↑) : ℚ → ℝ))) t = (wL s A t).map ((↑) : ℚ → ℝ) := by
  induction t with
  | leaf c => simp [wL]
  | graft t u h1 h2 =>
    rw [wL, wL, h1, h2]
    generalize wL s A t = l
    generalize A u.color = m
    induction l generalizing m with
    | nil => simp
    | cons a l ih =>
      cases m with
      | nil => simp
      | cons r m =>
        rw [List.map_cons, List.map_cons, List.zipWith_cons_cons, List.zipWith_cons_cons, List.map_cons, ih,
          dot_cast, Rat.cast_mul]

theorem defectL_cast (s : ℕ) (A : κ → List (List ℚ)) (b : κ → List ℚ) (t : Tree κ) :
    defectL s (fun c => (A c).map (List.map ((↑) : ℚ → ℝ))) (fun c => (b c).map ((↑) : ℚ → ℝ)) t
      = ((defectL s A b t : ℚ) : ℝ) := by
  rw [defectL, wL_cast, dot_cast, defectL]
  push_cast
  rfl

end cast

/-- A tableau with rational coefficients, as one with real coefficients. -/
noncomputable def Tableau.cast {κ : Type} {s : ℕ} (T : Tableau ℚ κ s) : Tableau ℝ κ s where
  A c i j := T.A c i j
  b c i := T.b c i

theorem Tableau.cast_defect {κ : Type} {s : ℕ} (T : Tableau ℚ κ s) (t : Tree κ) :
    T.cast.defect t = ((T.defect t : ℚ) : ℝ) := by
  rw [defectL_eq, defectL_eq, ← defectL_cast]
  congr 1 <;> funext c <;> simp [List.map_ofFn, Tableau.cast, Function.comp_def]

theorem Tableau.HasOrder.cast {κ : Type} {s p : ℕ} {T : Tableau ℚ κ s} (h : T.HasOrder p) :
    T.cast.HasOrder p := fun t ht => by rw [T.cast_defect, h t ht, Rat.cast_zero]

theorem hasOrder_of_all {s p : ℕ} (T : Tableau ℚ Unit s)
    (h : ((List.range p).all fun n => (treesF [()] p (n + 1)).all fun t => decide (
      defectL s (fun c => List.ofFn fun i => List.ofFn (T.A c i)) (fun c => List.ofFn (T.b c)) t = 0)) = true) :
    T.HasOrder p := by
  intro t ht
  simp only [List.all_eq_true, List.mem_range, decide_eq_true_eq] at h
  rw [defectL_eq]
  have := t.size_pos
  refine h (t.size - 1) (by omega) t ?_
  rw [Nat.sub_add_cancel this]
  exact mem_treesF (fun c => by simp) p t ht

/-! ### Splitting methods -/

/-- The real operation of a rational one. -/
noncomputable def toOp : Part × ℚ → Op
  | (.drift, x) => .drift x
  | (.kick, x) => .kick x

theorem toOp_part (x : Part × ℚ) : (toOp x).part = x.1 := by
  obtain ⟨_ | _, _⟩ := x <;> rfl
theorem toOp_amount (x : Part × ℚ) : (toOp x).amount = x.2 := by
  obtain ⟨_ | _, _⟩ := x <;> rfl

/-- Coefficients of the first list entries only. -/
def rowL (l : List (Part × ℚ)) (c : Part) : ℕ → List ℚ
  | 0 => l.map fun _ => 0
  | n + 1 => match l with
    | [] => []
    | x :: l => (if x.1 = c then x.2 else 0) :: rowL l c n

def rowsL (l : List (Part × ℚ)) (c : Part) : List (List ℚ) :=
  (List.range l.length).map (rowL l c)

theorem rowL_getElem? (l : List (Part × ℚ)) (c : Part) (n j : ℕ) :
    (rowL l c n)[j]? = l[j]?.map fun x => if j < n ∧ x.1 = c then x.2 else 0 := by
  induction l generalizing n j with
  | nil => cases n <;> simp [rowL]
  | cons x l ih =>
    cases n with
    | zero => rw [rowL, List.getElem?_map]; simp
    | succ n =>
      cases j with
      | zero => simp [rowL]
      | succ j => simp [rowL, ih]

theorem splitTableau_rows (l : List (Part × ℚ)) (c : Part) :
    (List.ofFn fun i => List.ofFn ((splitTableau (l.map toOp)).A c i))
      = (rowsL l c).map (List.map ((↑) : ℚ → ℝ)) := by
  apply List.ext_getElem
  · simp [rowsL]
  intro i h1 h2
  simp only [List.getElem_ofFn, rowsL, List.map_map, List.getElem_map, List.getElem_range,
    Function.comp_apply]
  apply List.ext_getElem?
  intro j
  rw [List.getElem?_map, rowL_getElem?]
  simp only [splitTableau, List.getElem?_ofFn]
  by_cases hj : j < l.length
  · simp only [List.length_map, hj, dif_pos, List.getElem?_eq_getElem, Option.map_some, List.get_eq_getElem,
      List.getElem_map, toOp_part, toOp_amount, Fin.mk_lt_mk]
    split_ifs <;> simp
  · simp [hj]

theorem splitTableau_b (l : List (Part × ℚ)) (c : Part) :
    List.ofFn ((splitTableau (l.map toOp)).b c)
      = (l.map fun x => if x.1 = c then x.2 else 0).map ((↑) : ℚ → ℝ) := by
  apply List.ext_getElem
  · simp
  intro i h1 h2
  simp only [splitTableau, List.getElem_ofFn, List.get_eq_getElem, List.getElem_map, toOp_part, toOp_amount]
  split_ifs <;> simp

theorem splitTableau_defect (l : List (Part × ℚ)) (t : Tree Part) :
    (splitTableau (l.map toOp)).defect t =
      ((defectL l.length (rowsL l) (fun c => l.map fun x => if x.1 = c then x.2 else 0) t : ℚ) : ℝ) := by
  rw [defectL_eq, ← defectL_cast]
  congr 1
  · simp
  · funext c; exact splitTableau_rows l c
  · funext c; exact splitTableau_b l c

def contributes : Tree Part → ℕ → Bool
  | .leaf .drift, k => decide (k ≤ 1)
  | .leaf .kick, _ => true
  | .graft t s, k => decide (s.color ≠ t.color) && contributes s 0 && contributes t (k + 1)

theorem contributes_eq (t : Tree Part) (k : ℕ) : contributes t k = true ↔ t.Contributes k := by
  induction t generalizing k with
  | leaf c => cases c <;> simp [contributes, Tree.Contributes]
  | graft t s h1 h2 => simp [contributes, Tree.Contributes, h1, h2, and_assoc]

theorem split_of_all {p : ℕ} {ε : ℚ} (l : List (Part × ℚ))
    (h : ((List.range p).all fun n => (treesF [.drift, .kick] p (n + 1)).all fun t => !contributes t 0 ||
      decide (|defectL l.length (rowsL l) (fun c => l.map fun x => if x.1 = c then x.2 else 0) t| ≤ ε)) = true) :
    ∀ t : Tree Part, t.Contributes 0 → t.size ≤ p → |(splitTableau (l.map toOp)).defect t| ≤ (ε : ℝ) := by
  intro t hc ht
  simp only [List.all_eq_true, List.mem_range, decide_eq_true_eq, Bool.or_eq_true, Bool.not_eq_true',
    Bool.eq_false_iff, ne_eq, contributes_eq] at h
  rw [splitTableau_defect]
  have := t.size_pos
  have := (h (t.size - 1) (by omega) t (by
    rw [Nat.sub_add_cancel this]
    exact mem_treesF (fun c => by cases c <;> simp) p t ht)).resolve_left (not_not.2 hc)
  exact_mod_cast this

end Verif
