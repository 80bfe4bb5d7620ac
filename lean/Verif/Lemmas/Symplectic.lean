import Verif.Model.Symplectic
import Mathlib.Tactic.Module
import Mathlib.Tactic.FieldSimp
import Mathlib.Tactic.Linarith
import Mathlib.Logic.Function.Iterate

set_option autoImplicit false

/-!
# The integrator loops are iterated splitting steps
-/

namespace Verif.Symp

variable {V : Type*} [AddCommGroup V] [Module ℝ V]

theorem trunc_natCast (n : ℕ) : trunc (n : ℝ) = n := by
  unfold trunc
  rw [if_pos (Nat.cast_nonneg n), Int.floor_natCast]

theorem trunc_div {h : ℝ} (hh : h ≠ 0) {n : ℕ} (hn : 0 < n) : trunc (h / (h / n)) = n := by
  have : (n : ℝ) ≠ 0 := by positivity
  rw [show h / (h / n) = (n : ℝ) by field_simp, trunc_natCast]

/-- Iterating a loop body that follows a partial step. -/
theorem fuse {α β : Type*} (h : α → β) (fin : β → α) (sub : β → β) (hs : ∀ s, sub (h s) = h (fin (h s)))
    (n : ℕ) (s : α) : fin (sub^[n] (h s)) = (fun s => fin (h s))^[n + 1] s := by
  have key : ∀ n s, sub^[n] (h s) = h ((fun s => fin (h s))^[n] s) := by
    intro n
    induction n with
    | zero => intro s; rfl
    | succ n ih =>
      intro s
      rw [Function.iterate_succ_apply, Function.iterate_succ_apply, hs, ih]
  rw [key, ← Function.iterate_succ_apply' (f := fun s => fin (h s))]

theorem pyInterval_eq (F : V → ℝ → V) (dt : ℝ) (ndt : ℤ) (s : St V) :
    pyInterval F dt ndt s = (runOps F dt leapScheme)^[(ndt - 1).toNat + 1] s := by
  let fin : St V → St V := fun s1 => ⟨leapq s1.q (leapp s1.p dt (F s1.q (s1.t + dt / 2))) (dt / 2),
    leapp s1.p dt (F s1.q (s1.t + dt / 2)), s1.t + dt⟩
  let half : St V → St V := fun s => ⟨leapq s.q s.p (dt / 2), s.p, s.t⟩
  have hstep : runOps F dt leapScheme = fun s => fin (half s) := by
    funext s
    simp only [fin, half]
    simp only [leapScheme, alternate, runOps, List.foldl_cons, List.foldl_nil, Op.run, leapq, leapp]
    have e : (1 : ℝ) / 2 * dt = dt / 2 := by ring
    have e2 : (1 : ℝ) * dt = dt := one_mul dt
    simp only [e, e2]
    ext <;> simp <;> ring
  rw [hstep, ← fuse half fin (pySub F dt)]
  · rfl
  · intro s
    simp only [pySub, leapq, leapp, fin, half]
    ext <;> simp
    module

/-- Position, momentum and time in the C work arrays at the end of an interval. -/
def CBuf.out (b : CBuf V) : St V := ⟨b.qo, b.po, b.tc⟩
/-- The same inside the inner loop. -/
def CBuf.mid (b : CBuf V) : St V := ⟨b.q12, b.po, b.tc⟩

/-- A loop on the work arrays seen through a projection. -/
theorem iterate_proj {α β : Type*} (f : α → α) (g : β → β) (π : α → β) (h : ∀ a, π (f a) = g (π a))
    (n : ℕ) (a : α) : π (f^[n] a) = g^[n] (π a) := by
  induction n generalizing a with
  | zero => rfl
  | succ n ih => rw [Function.iterate_succ_apply, Function.iterate_succ_apply, ih, h]

theorem cLeapInterval_eq (F : V → ℝ → V) (dt : ℝ) (ndt : ℤ) (b : CBuf V) :
    (cLeapInterval F dt ndt b).out = (runOps F dt leapScheme)^[(ndt - 1).toNat + 1] b.out := by
  rw [← pyInterval_eq F dt]
  have hs : ∀ b : CBuf V, (cLeapSub F dt b).mid = pySub F dt b.mid := fun b => rfl
  have := iterate_proj (cLeapSub F dt) (pySub F dt) CBuf.mid hs (ndt - 1).toNat
    { b with q12 := leapq b.qo b.po (dt / 2) }
  simp only [cLeapInterval, pyInterval, CBuf.out]
  rw [show (⟨leapq b.qo b.po (dt / 2), b.po, b.tc⟩ : St V)
    = CBuf.mid { b with q12 := leapq b.qo b.po (dt / 2) } from rfl, ← this]
  rfl

/-- The scheme of `symplec4`. -/
def scheme4 (c : Fin 4 → ℝ) (d : Fin 3 → ℝ) : List Op := alternate (List.ofFn c) (List.ofFn d)
/-- The scheme of `symplec6`. -/
def scheme6 (c : Fin 8 → ℝ) (d : Fin 7 → ℝ) : List Op := alternate (List.ofFn c) (List.ofFn d)

theorem scheme4_eq (c : Fin 4 → ℝ) (d : Fin 3 → ℝ) : scheme4 c d =
    [.drift (c 0), .kick (d 0), .drift (c 1), .kick (d 1), .drift (c 2), .kick (d 2), .drift (c 3)] := by
  simp [scheme4, alternate, List.ofFn_succ]
theorem scheme6_eq (c : Fin 8 → ℝ) (d : Fin 7 → ℝ) : scheme6 c d =
    [.drift (c 0), .kick (d 0), .drift (c 1), .kick (d 1), .drift (c 2), .kick (d 2), .drift (c 3),
      .kick (d 3), .drift (c 4), .kick (d 4), .drift (c 5), .kick (d 5), .drift (c 6), .kick (d 6),
      .drift (c 7)] := by
  simp [scheme6, alternate, List.ofFn_succ]

theorem runOps_cons (F : V → ℝ → V) (dt : ℝ) (o : Op) (l : List Op) (s : St V) :
    runOps F dt (o :: l) s = runOps F dt l (o.run F dt s) := rfl

theorem c4Interval_eq (F : V → ℝ → V) (c : Fin 4 → ℝ) (d : Fin 3 → ℝ) (dt : ℝ) (ndt : ℤ)
    (b : CBuf V) :
    (c4Interval F c d dt ndt b).out = (runOps F dt (scheme4 c d))^[(ndt - 1).toNat + 1] b.out := by
  let rest : St V → St V := runOps F dt (scheme4 c d).tail
  have hstep : runOps F dt (scheme4 c d) = fun s =>
      rest ((Op.drift (c 0)).run F dt s) := by
    funext s
    simp only [rest, scheme4_eq, runOps_cons, List.tail_cons]
  have hs : ∀ b : CBuf V, (c4Sub F c d dt b).mid = (Op.drift (c 0)).run F dt
      (rest b.mid) := by
    intro b
    simp only [rest, scheme4_eq, c4Sub, c4Core, CBuf.mid, runOps, List.tail_cons, List.foldl_cons, List.foldl_nil, Op.run, leapq, leapp]
    ext <;> simp
    · module
    · ring
  have := iterate_proj (c4Sub F c d dt) (fun s => (Op.drift (c 0)).run F dt (rest s))
    CBuf.mid hs (ndt - 1).toNat
    { b with q12 := leapq b.qo b.po (c 0 * dt), tc := b.tc + c 0 * dt }
  rw [hstep, ← fuse ((Op.drift (c 0)).run F dt) rest
    (fun s => (Op.drift (c 0)).run F dt (rest s)) (fun s => rfl)]
  rw [show (Op.drift (c 0)).run F dt b.out
    = CBuf.mid { b with q12 := leapq b.qo b.po (c 0 * dt), tc := b.tc + c 0 * dt } from rfl, ← this]
  simp only [rest, scheme4_eq]
  rfl

theorem c6Interval_eq (F : V → ℝ → V) (c : Fin 8 → ℝ) (d : Fin 7 → ℝ) (dt : ℝ) (ndt : ℤ)
    (b : CBuf V) :
    (c6Interval F c d dt ndt b).out = (runOps F dt (scheme6 c d))^[(ndt - 1).toNat + 1] b.out := by
  let rest : St V → St V := runOps F dt (scheme6 c d).tail
  have hstep : runOps F dt (scheme6 c d) = fun s =>
      rest ((Op.drift (c 0)).run F dt s) := by
    funext s
    simp only [rest, scheme6_eq, runOps_cons, List.tail_cons]
  have hs : ∀ b : CBuf V, (c6Sub F c d dt b).mid = (Op.drift (c 0)).run F dt
      (rest b.mid) := by
    intro b
    simp only [rest, scheme6_eq, c6Sub, c6Core, CBuf.mid, runOps, List.tail_cons, List.foldl_cons, List.foldl_nil, Op.run,
      leapq, leapp]
    ext <;> simp
    · module
    · ring
  have := iterate_proj (c6Sub F c d dt) (fun s => (Op.drift (c 0)).run F dt (rest s))
    CBuf.mid hs (ndt - 1).toNat
    { b with q12 := leapq b.qo b.po (c 0 * dt), tc := b.tc + c 0 * dt }
  rw [hstep, ← fuse ((Op.drift (c 0)).run F dt) rest
    (fun s => (Op.drift (c 0)).run F dt (rest s)) (fun s => rfl)]
  rw [show (Op.drift (c 0)).run F dt b.out
    = CBuf.mid { b with q12 := leapq b.qo b.po (c 0 * dt), tc := b.tc + c 0 * dt } from rfl, ← this]
  simp only [rest, scheme6_eq]
  rfl

/-! ### Step-size loops -/

theorem pyEstLoop_spec (errOf : ℝ → ℝ) {h : ℝ} (hh : h ≠ 0) : ∀ (fuel k : ℕ) (err : ℝ), 15 ≤ fuel + k →
    ∃ m, k ≤ m ∧ m ≤ max k 15 ∧ pyEstLoop errOf h fuel (2 * h / 2 ^ k) err = 2 * h / 2 ^ m ∧
      (m = k → ¬ 1 < err ∨ 15 ≤ k) ∧ (k < m → ¬ 1 < errOf (2 * h / 2 ^ (m - 1)) ∨ m = 15) ∧
      (∀ j, k ≤ j → j + 1 < m → 1 < errOf (2 * h / 2 ^ j)) ∧ (k < m → 1 < err) := by
  have ratio : ∀ k : ℕ, h / (2 * h / 2 ^ k) = 2 ^ k / 2 := fun k => by field_simp
  have small : ∀ k : ℕ, (2 : ℝ) ^ k / 2 < 10000 ↔ k < 15 := by
    intro k
    constructor
    · intro hk
      by_contra hc
      have : (2 : ℝ) ^ 15 ≤ 2 ^ k := pow_le_pow_right₀ (by norm_num) (by omega)
      norm_num at this
      linarith
    · intro hk
      have : (2 : ℝ) ^ k ≤ 2 ^ 14 := pow_le_pow_right₀ (by norm_num) (by omega)
      norm_num at this
      linarith
  intro fuel
  induction fuel with
  | zero =>
    intro k err hk
    exact ⟨k, le_rfl, le_max_left _ _, rfl, fun _ => Or.inr (by omega), fun h => absurd h (by omega),
      fun j h1 h2 => absurd h2 (by omega), fun h => absurd h (by omega)⟩
  | succ fuel ih =>
    intro k err hk
    by_cases hc : 1 < err ∧ k < 15
    · obtain ⟨m, h1, h2, h3, h4, h5, h6, h7⟩ := ih (k + 1) (errOf (2 * h / 2 ^ k)) (by omega)
      refine ⟨m, by omega, by omega, ?_, fun e => absurd e (by omega), fun _ => ?_, ?_, fun _ => hc.1⟩
      · rw [← h3, pyEstLoop, if_pos ⟨hc.1, by rw [ratio, small]; exact hc.2⟩]
        congr 1
        rw [pow_succ]
        field_simp
      · by_cases e : m = k + 1
        · rcases h4 e with h | h
          · left; rw [e]; exact h
          · right; omega
        · exact h5 (by omega)
      · intro j hj hjm
        by_cases e : j = k
        · subst e; exact h7 (by omega)
        · exact h6 j (by omega) hjm
    · refine ⟨k, le_rfl, le_max_left _ _, ?_, fun _ => ?_, fun h => absurd h (by omega),
        fun j h1 h2 => absurd h2 (by omega), fun h => absurd h (by omega)⟩
      · rw [pyEstLoop, if_neg]
        rw [ratio, small]
        exact hc
      · by_cases e : 1 < err
        · right; by_contra hk15; exact hc ⟨e, by omega⟩
        · exact Or.inl e

theorem cEstLoop_eq (errOf : ℝ → ℝ) (h : ℝ) : ∀ (fuel : ℕ) (dt err : ℝ),
    cEstLoop errOf h fuel dt err = pyEstLoop (fun d => errOf (d / 2)) h fuel dt err := by
  intro fuel
  induction fuel with
  | zero => intros; rfl
  | succ fuel ih =>
    intro dt err
    simp only [cEstLoop, pyEstLoop, ih]

theorem pyEstLoop_run (errOf : ℝ → ℝ) {h : ℝ} (hh : h ≠ 0) {fuel : ℕ} (hf : 15 ≤ fuel) :
    ∃ k ≤ 14, pyEstLoop errOf h fuel (2 * h) 2 = h / (2 ^ k : ℕ) ∧
      (¬ 1 < errOf (2 * (h / (2 ^ k : ℕ))) ∨ k = 14) := by
  obtain ⟨m, h1, h2, h3, h4, h5, h6, h7⟩ := pyEstLoop_spec errOf hh fuel 0 2 (by omega)
  have hm : m ≠ 0 := fun e => by
    rcases h4 e with h | h
    · exact h (by norm_num)
    · omega
  obtain ⟨k, rfl⟩ := Nat.exists_eq_succ_of_ne_zero hm
  have e : 2 * h / 2 ^ k.succ = h / (2 ^ k : ℕ) := by
    rw [pow_succ]
    push_cast
    field_simp
  have e2 : 2 * h / 2 ^ (k.succ - 1) = 2 * (h / (2 ^ k : ℕ)) := by
    simp
    ring
  refine ⟨k, by simp at h2; omega, ?_, ?_⟩
  · rw [← e, ← h3]
    simp
  · rcases h5 (by omega) with h | h
    · left; rwa [e2] at h
    · right; omega

theorem outputs_eq (g : St V → St V) (n : ℕ) (s : St V) :
    s :: outputs g n s = (List.range (n + 1)).map fun i => g^[i] s := by
  induction n generalizing s with
  | zero => rfl
  | succ n ih =>
    rw [outputs, ih, List.range_succ_eq_map (n := n + 1), List.map_cons, List.map_map]
    rfl

theorem cOutputs_eq (step : CBuf V → CBuf V) (g : St V → St V) (h : ∀ b, (step b).out = g b.out)
    (n ii : ℕ) (b : CBuf V) :
    cOutputs step (fun _ => false) n ii b = (outputs g n b.out, 0) := by
  induction n generalizing ii b with
  | zero => rfl
  | succ n ih =>
    simp only [cOutputs, outputs, ih, h, Bool.false_eq_true, if_false]
    rw [← h]
    rfl

/-- An interrupted loop has written a first part of the rows. -/
theorem cOutputs_interrupted (step : CBuf V → CBuf V) (intr : ℕ → Bool) (n ii : ℕ) (b : CBuf V) :
    (cOutputs step intr n ii b).1 <+: (cOutputs step (fun _ => false) n ii b).1 ∧
    ((cOutputs step intr n ii b).2 = 0 ↔ ∀ j < n, intr (ii + j) = false) ∧
    ((cOutputs step intr n ii b).2 = 0 → cOutputs step intr n ii b = cOutputs step (fun _ => false) n ii b) ∧
    ((cOutputs step intr n ii b).2 = 0 ∨ (cOutputs step intr n ii b).2 = -10) := by
  induction n generalizing ii b with
  | zero => simp [cOutputs]
  | succ n ih =>
    obtain ⟨h1, h2, h3, h4⟩ := ih (ii + 1) (step b)
    by_cases hi : intr ii = true
    · simp only [cOutputs, hi, if_true, Bool.false_eq_true, if_false]
      refine ⟨List.nil_prefix, ?_, by simp, by simp⟩
      constructor
      · intro h; norm_num at h
      · intro h; have := h 0 (by omega); simp [hi] at this
    · have hi' : intr ii = false := by simpa using hi
      simp only [cOutputs, hi', Bool.false_eq_true, if_false]
      refine ⟨by simpa using h1, ?_, ?_, h4⟩
      · rw [h2]
        constructor
        · intro h j hj
          rcases j with _ | j
          · simpa using hi'
          · have := h j (by omega)
            rwa [show ii + (j + 1) = ii + 1 + j by ring]
        · intro h j hj
          have := h (j + 1) (by omega)
          rwa [show ii + (j + 1) = ii + 1 + j by ring] at this
      · intro h
        rw [h3 h]

end Verif.Symp
