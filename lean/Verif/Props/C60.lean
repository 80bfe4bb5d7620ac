import Verif.Model.OrbitState
import Mathlib.Tactic.Linarith
import Mathlib.Tactic.FieldSimp
import Mathlib.Algebra.Order.Floor.Ring

set_option autoImplicit false

/-!
# C60: step-size check and time grids
-/

namespace Verif

open Orb

/-- `numpy.round` gives a nearest integer. -/
theorem C60aux.pyround_nearest (x : ℝ) (n : ℤ) : |(pyround x : ℝ) - x| ≤ |(n : ℝ) - x| := by
  have h0 := Int.floor_le x
  have h1 := Int.lt_floor_add_one x
  have key : ∀ m : ℤ, (n ≤ ⌊x⌋ → x - ⌊x⌋ ≤ |(n : ℝ) - x|) ∧ (⌊x⌋ + 1 ≤ n → ⌊x⌋ + 1 - x ≤ |(n : ℝ) - x|) := by
    intro _
    constructor
    · intro h
      have : (n : ℝ) ≤ ⌊x⌋ := by exact_mod_cast h
      rw [abs_sub_comm]
      exact le_trans (by linarith) (le_abs_self _)
    · intro h
      have : (⌊x⌋ : ℝ) + 1 ≤ n := by exact_mod_cast h
      exact le_trans (by linarith) (le_abs_self _)
  have e0 : |(⌊x⌋ : ℝ) - x| = x - ⌊x⌋ := by rw [abs_sub_comm, abs_of_nonneg (by linarith)]
  have e1 : |((⌊x⌋ + 1 : ℤ) : ℝ) - x| = ⌊x⌋ + 1 - x := by
    push_cast
    rw [abs_of_nonneg (by linarith)]
  have hn : n ≤ ⌊x⌋ ∨ ⌊x⌋ + 1 ≤ n := by omega
  unfold pyround
  dsimp only
  by_cases ha : x - ⌊x⌋ < 1 / 2
  · rw [if_pos ha, e0]
    rcases hn with h | h
    · exact (key 0).1 h
    · linarith [(key 0).2 h]
  · rw [if_neg ha]
    by_cases hb : 1 / 2 < x - ⌊x⌋
    · rw [if_pos hb, e1]
      rcases hn with h | h
      · linarith [(key 0).1 h]
      · exact (key 0).2 h
    · rw [if_neg hb]
      by_cases hc : ⌊x⌋ % 2 = 0
      · rw [if_pos hc, e0]
        rcases hn with h | h
        · exact (key 0).1 h
        · linarith [(key 0).2 h]
      · rw [if_neg hc, e1]
        rcases hn with h | h
        · linarith [(key 0).1 h]
        · exact (key 0).2 h

/-- The check accepts a nonzero `dt` exactly when some integer multiple of it is the first output
step to within `1e-10`. -/
theorem C60_accepts_iff (a b : ℝ) (ts : List ℝ) (dt : ℝ) (hdt : dt ≠ 0) :
    checkDt (a :: b :: ts) (some dt) = .ok true ↔ ∃ n : ℤ, |(n : ℝ) * dt - (b - a)| < 1e-10 := by
  simp only [checkDt, Except.ok.injEq, decide_eq_true_eq]
  constructor
  · exact fun h => ⟨_, h.2⟩
  · rintro ⟨n, hn⟩
    refine ⟨hdt, lt_of_le_of_lt ?_ hn⟩
    have e : ∀ m : ℤ, |(m : ℝ) * dt - (b - a)| = |(m : ℝ) - (b - a) / dt| * |dt| := by
      intro m
      rw [← abs_mul]
      congr 1
      field_simp
    rw [e, e]
    exact mul_le_mul_of_nonneg_right (C60aux.pyround_nearest _ n) (abs_nonneg _)

/-- Every exact divisor of the step is accepted; a step that is off by `1e-10` or more from every
multiple is rejected; no step size means no check. -/
theorem C60_divisor (a b : ℝ) (ts : List ℝ) :
    (∀ (n : ℤ) (dt : ℝ), n ≠ 0 → b ≠ a → (n : ℝ) * dt = b - a →
      checkDt (a :: b :: ts) (some dt) = .ok true) ∧
    (∀ dt : ℝ, (∀ n : ℤ, 1e-10 ≤ |(n : ℝ) * dt - (b - a)|) →
      checkDt (a :: b :: ts) (some dt) = .ok false) ∧
    checkDt (a :: b :: ts) none = .ok true := by
  refine ⟨?_, ?_, rfl⟩
  · intro n dt hn hba h
    have hdt : dt ≠ 0 := by
      rintro rfl
      rw [mul_zero] at h
      exact hba (by linarith)
    rw [C60_accepts_iff a b ts dt hdt]
    exact ⟨n, by rw [h]; norm_num⟩
  · intro dt h
    simp only [checkDt, Except.ok.injEq, decide_eq_false_iff_not]
    rintro ⟨_, h'⟩
    exact absurd h' (not_lt.2 (h _))

example : checkDt [0, 1, 2] (some (1 / 4)) = .ok true :=
  (C60_divisor 0 1 [2]).1 4 (1 / 4) (by norm_num) (by norm_num) (by norm_num)

/-- The multiple may be 0: an output step below `1e-10` is accepted with a `dt` that is larger than
the whole step. -/
theorem C60_zero_multiple_fails : ∃ (a b dt : ℝ), a < b ∧ checkDt [a, b] (some dt) = .ok true ∧
    ∀ n : ℤ, n ≠ 0 → 1 ≤ |(n : ℝ) * dt - (b - a)| := by
  refine ⟨0, 1e-11, 2, by norm_num, ?_, ?_⟩
  · rw [C60_accepts_iff _ _ _ _ (by norm_num)]
    exact ⟨0, by norm_num⟩
  · intro n hn
    rcases lt_or_gt_of_ne hn with h | h
    · have : (n : ℝ) ≤ -1 := by exact_mod_cast Int.le_sub_one_of_lt h
      rw [abs_of_neg (by norm_num; linarith)]
      norm_num
      linarith
    · have : (1 : ℝ) ≤ n := by exact_mod_cast h
      rw [abs_of_pos (by norm_num; linarith)]
      norm_num
      linarith

/-- A single output time makes the check raise instead of answer. -/
theorem C60_single_time_fails (a dt : ℝ) : checkDt [a] (some dt) = .error .indexError := rfl

/-- The evenly-spaced check has an absolute tolerance of `1e-8`: grids with smaller steps pass
however uneven they are. -/
theorem C60_evenly_spaced_fails : ∃ a b c : ℝ, evenlySpaced false [a, b, c] = .ok true ∧
    c - b = 4 * (b - a) ∧ a < b := by
  refine ⟨0, 1e-9, 5e-9, ?_, by norm_num, by norm_num⟩
  simp only [evenlySpaced, diffs, Bool.false_eq_true, if_false, Except.ok.injEq]
  refine @decide_eq_true _ (_) ?_
  intro x hx
  unfold isclose
  rw [List.mem_cons, List.mem_singleton] at hx
  rcases hx with rfl | rfl
  · norm_num
  · rw [abs_of_pos (by norm_num), abs_of_pos (by norm_num)]
    norm_num

/-- For grids whose steps are at least `h` the accepted unevenness is at most `1e-8 + 1e-5 |step|`. -/
theorem C60_evenly_spaced_partial (ts : List ℝ) (h : evenlySpaced false ts = .ok true) :
    ∃ d, ∀ x ∈ diffs ts, |x - d| ≤ 1e-8 + 1e-5 * |d| := by
  unfold evenlySpaced at h
  cases hd : diffs ts with
  | nil => exact ⟨0, by simp⟩
  | cons d ds =>
    simp only [Bool.false_eq_true, if_false, hd, Except.ok.injEq, decide_eq_true_eq] at h
    exact ⟨d, h⟩

/-- The automatic grid: `101 |N| + 1` times, the `i`-th being `i` steps of `± tdyn / 101`. -/
theorem C60_auto_grid (dim : Nat) (r td : ℝ) (N : ℤ) (ts : List ℝ)
    (h : autoTimes dim r (.ok td) N = .ok ts) :
    ts.length = 101 * N.natAbs + 1 ∧
    ∀ i : Nat, i ≤ 101 * N.natAbs → ts[i]? = some (i * ((N.sign : ℝ) * td / 101)) := by
  unfold autoTimes at h
  by_cases h1 : dim = 1
  · simp [h1] at h
  by_cases h2 : r < 1e-10
  · simp only [h1, h2, if_false, if_true] at h
    cases h
  rw [if_neg h1, if_neg h2] at h
  simp only [bind, Except.bind, Except.ok.injEq] at h
  subst h
  refine ⟨by simp [linspace], ?_⟩
  intro i hi
  have hlt : i < 101 * N.natAbs + 1 := by omega
  simp only [linspace, List.getElem?_map, List.getElem?_range hlt, Option.map_some,
    Option.some.injEq]
  by_cases h0 : i = 0
  · simp [h0]
  have hN : N ≠ 0 := by
    rintro rfl
    simp at hi
    exact h0 hi
  have hpos : (0 : ℝ) < (N.natAbs : ℝ) := by exact_mod_cast Int.natAbs_pos.2 hN
  have hsgn : (N : ℝ) = (N.sign : ℝ) * (N.natAbs : ℝ) := by
    have := congrArg (Int.cast (R := ℝ)) (Int.sign_mul_natAbs N)
    rw [Int.cast_mul, Int.cast_natCast] at this
    exact this.symm
  rw [if_neg h0]
  by_cases hl : i + 1 = 101 * N.natAbs + 1
  · rw [if_pos hl]
    have : (i : ℝ) = 101 * (N.natAbs : ℝ) := by
      have : i = 101 * N.natAbs := by omega
      rw [this]
      push_cast
      ring
    rw [this, hsgn]
    field_simp
  · rw [if_neg hl]
    push_cast
    rw [hsgn]
    field_simp
    ring

/-- The grid starts at 0 and ends at `N` dynamical times. -/
theorem C60_auto_ends (dim : Nat) (r td : ℝ) (N : ℤ) (ts : List ℝ)
    (h : autoTimes dim r (.ok td) N = .ok ts) : ts.head? = some 0 ∧ ts.getLast? = some (N * td) := by
  obtain ⟨hlen, hi⟩ := C60_auto_grid dim r td N ts h
  constructor
  · rw [List.head?_eq_getElem?, hi 0 (Nat.zero_le _)]
    simp
  · rw [List.getLast?_eq_getElem?, hlen, Nat.add_sub_cancel, hi _ le_rfl]
    have hsgn : (N : ℝ) = (N.sign : ℝ) * (N.natAbs : ℝ) := by
      have := congrArg (Int.cast (R := ℝ)) (Int.sign_mul_natAbs N)
      rw [Int.cast_mul, Int.cast_natCast] at this
      exact this.symm
    rw [hsgn]
    push_cast
    congr 1
    ring

/-- It exists exactly for orbits of more than one dimension that are not at the centre. -/
theorem C60_auto_defined (dim : Nat) (r td : ℝ) (N : ℤ) :
    (∃ ts, autoTimes dim r (.ok td) N = .ok ts) ↔ dim ≠ 1 ∧ 1e-10 ≤ r := by
  unfold autoTimes
  by_cases h1 : dim = 1
  · simp [h1]
  by_cases h2 : r < 1e-10
  · simp only [h1, h2, if_false, if_true, reduceCtorEq, exists_false, not_le.2 h2, and_false]
  · rw [if_neg h1, if_neg h2]
    simp [bind, Except.bind, h1, not_lt.1 h2]

theorem C60aux.diffs_const (f : Nat → ℝ) (d : ℝ) (hf : ∀ i, f (i + 1) - f i = d) (n k : Nat) :
    diffs ((List.range' k (n + 1)).map f) = List.replicate n d := by
  induction n generalizing k with
  | zero => rfl
  | succ n ih =>
    have := ih (k + 1)
    rw [List.range'_succ, List.range'_succ] at *
    simp only [List.map_cons, diffs, List.replicate_succ] at *
    rw [hf, this]

/-- The automatic grid passes the evenly-spaced check for every method, unless `N = 0`, in which
case it is the single time 0 and the check raises for methods that need even spacing. -/
theorem C60_auto_accepted (dim : Nat) (r td : ℝ) (N : ℤ) (ts : List ℝ) (ode : Bool)
    (h : autoTimes dim r (.ok td) N = .ok ts) :
    (N ≠ 0 → evenlySpaced ode ts = .ok true) ∧
    (N = 0 → ts = [0] ∧ evenlySpaced false ts = .error .indexError) := by
  obtain ⟨hlen, hi⟩ := C60_auto_grid dim r td N ts h
  have hts : ts = (List.range (101 * N.natAbs + 1)).map fun i : Nat => (i : ℝ) * ((N.sign : ℝ) * td / 101) := by
    apply List.ext_getElem?
    intro i
    by_cases hl : i ≤ 101 * N.natAbs
    · rw [hi i hl, List.getElem?_map, List.getElem?_range (by omega)]
      rfl
    · rw [List.getElem?_eq_none (by omega), List.getElem?_eq_none (by simp; omega)]
  constructor
  · intro hN
    cases ode with
    | true => rfl
    | false =>
      have hpos := Int.natAbs_pos.2 hN
      have hd : diffs ts = List.replicate (101 * N.natAbs) ((N.sign : ℝ) * td / 101) := by
        rw [hts, List.range_eq_range']
        exact C60aux.diffs_const _ _ (fun i => by push_cast; ring) _ _
      obtain ⟨k, hk⟩ : ∃ k, 101 * N.natAbs = k + 1 := ⟨101 * N.natAbs - 1, by omega⟩
      rw [hk, List.replicate_succ] at hd
      simp only [evenlySpaced, Bool.false_eq_true, if_false, hd, Except.ok.injEq, decide_eq_true_eq]
      intro x hx
      have : x = (N.sign : ℝ) * td / 101 := by
        rw [← List.replicate_succ] at hx
        exact List.eq_of_mem_replicate hx
      rw [this, isclose, sub_self, abs_zero]
      positivity
  · rintro rfl
    have : ts = [0] := by
      rw [hts]
      simp
    refine ⟨this, ?_⟩
    rw [this]
    simp [evenlySpaced, diffs]

example : ∃ ts, autoTimes 3 1 (.ok 5) (-2) = .ok ts := (C60_auto_defined 3 1 5 (-2)).2 ⟨by norm_num, by norm_num⟩

end Verif
