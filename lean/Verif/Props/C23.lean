import Verif.Props.C22

set_option autoImplicit false

/-!
# C23: the output grid of the symplectic integrators
-/

namespace Verif
open Symp

/-- `n` equally spaced times. -/
noncomputable def evenTimes (t₀ h : ℝ) (n : ℕ) : List ℝ := (List.range n).map fun i : ℕ => t₀ + i * h

theorem C23aux.even (t₀ h : ℝ) (n : ℕ) :
    evenTimes t₀ h (n + 2) = t₀ :: (t₀ + h) :: (evenTimes t₀ h (n + 2)).drop 2 := by
  have h0 : (evenTimes t₀ h (n + 2))[0]? = some t₀ := by simp [evenTimes]
  have h1 : (evenTimes t₀ h (n + 2))[1]? = some (t₀ + h) := by simp [evenTimes]
  have hl : (evenTimes t₀ h (n + 2)).length = n + 2 := by simp [evenTimes]
  match he : evenTimes t₀ h (n + 2) with
  | [] => simp [he] at hl
  | [_] => simp [he] at hl
  | a :: b :: l =>
    rw [he] at h0 h1
    simp only [List.getElem?_cons_zero, Option.some.injEq, List.getElem?_cons_succ] at h0 h1
    subst h0 h1
    rfl

theorem C23aux.time {V : Type*} [AddCommGroup V] [Module ℝ V] (F : V → ℝ → V) (dt : ℝ) (l : List Op)
    (n : ℕ) (s : St V) : ((runOps F dt l)^[n] s).t =
      s.t + n * ((l.map Op.frac).sum * dt) := by
  induction n generalizing s with
  | zero => simp
  | succ n ih =>
    rw [Function.iterate_succ_apply, ih, runOps_time]
    push_cast
    ring

/-- Python `leapfrog` on evenly spaced times, increasing or decreasing: one row per requested time,
the first the initial condition, row `i` at time `t_i` exactly, and between neighbouring rows exactly
`m` leapfrog steps of `1/m` of the spacing. The number `m` is a power of two, at most `2^14`, the same
for all intervals, and either the estimated error of a doubled step is within the tolerance or `m` is
the largest allowed; this for every force, initial condition and tolerance. -/
theorem C23_python {n : ℕ} (F : (Fin n → ℝ) → ℝ → Fin n → ℝ) (qo po : Fin n → ℝ) (t₀ : ℝ) {h : ℝ}
    (hh : h ≠ 0) (N : ℕ) (rtol atol : ℝ) : ∃ rows, pyLeapfrog F qo po (evenTimes t₀ h (N + 2)) rtol atol = .ok rows ∧
      rows.length = N + 2 ∧ rows[0]? = some ⟨qo, po, t₀⟩ ∧
      ∃ k ≤ 14, ∃ m : ℕ, m = 2 ^ k ∧
        (pyErr F qo po t₀ rtol atol (2 * (h / m)) ≤ 1 ∨ k = 14) ∧
        (∀ i < N + 2, ∃ r, rows[i]? = some r ∧ r.t = t₀ + i * h) ∧
        ∀ i < N + 1, ∃ r r', rows[i]? = some r ∧ rows[i + 1]? = some r' ∧
          r' = (runOps F (h / m) [.drift (1 / 2), .kick 1, .drift (1 / 2)])^[m] r := by
  obtain ⟨k, hk, he, herr⟩ := pyEstLoop_run (pyErr F qo po t₀ rtol atol) hh (fuel := 15) le_rfl
  have hpos : 0 < 2 ^ k := by positivity
  have hg : pyInterval F (h / (2 ^ k : ℕ)) (trunc (h / (h / (2 ^ k : ℕ)))) =
      (runOps F (h / (2 ^ k : ℕ)) leapScheme)^[2 ^ k] := by
    funext s
    rw [pyInterval_eq, trunc_div hh hpos]
    congr 1
    omega
  have hrows : pyLeapfrog F qo po (evenTimes t₀ h (N + 2)) rtol atol = .ok ((List.range (N + 2)).map fun i =>
      ((runOps F (h / (2 ^ k : ℕ)) leapScheme)^[2 ^ k])^[i] ⟨qo, po, t₀⟩) := by
    have hl : ((t₀ + h) :: (evenTimes t₀ h (N + 2)).drop 2).length = N + 1 := by simp [evenTimes]
    rw [C23aux.even]
    simp only [pyLeapfrog]
    rw [add_sub_cancel_left, if_neg hh, he, hg, hl, outputs_eq]
  refine ⟨_, hrows, by simp, by simp, k, hk, 2 ^ k, rfl, ?_, ?_, ?_⟩
  · exact herr.imp_left not_lt.mp
  · intro i hi
    refine ⟨_, by rw [List.getElem?_map, List.getElem?_range hi, Option.map_some], ?_⟩
    rw [← Function.iterate_mul, C23aux.time]
    have : (((2 ^ k : ℕ) : ℝ)) ≠ 0 := by positivity
    simp [leapScheme, alternate, Op.frac]
    field_simp
    ring
  · intro i hi
    refine ⟨_, _, by rw [List.getElem?_map, List.getElem?_range (by omega), Option.map_some],
      by rw [List.getElem?_map, List.getElem?_range (by omega), Option.map_some], ?_⟩
    exact Function.iterate_succ_apply' _ _ _

/-- For every array of times whatsoever: the call raises exactly when there are fewer than two times
or the first two agree, and otherwise returns one row per time, beginning with the initial
condition. -/
theorem C23_python_rows {n : ℕ} (F : (Fin n → ℝ) → ℝ → Fin n → ℝ) (qo po : Fin n → ℝ) (t : List ℝ)
    (rtol atol : ℝ) :
    ((∃ rows, pyLeapfrog F qo po t rtol atol = .ok rows) ↔ ∃ t₀ t₁ rest, t = t₀ :: t₁ :: rest ∧ t₀ ≠ t₁) ∧
    ∀ rows, pyLeapfrog F qo po t rtol atol = .ok rows →
      rows.length = t.length ∧ ∃ r ∈ rows.head?, r.q = qo ∧ r.p = po := by
  match t with
  | [] => simp [pyLeapfrog]
  | [_] => simp [pyLeapfrog]
  | t₀ :: t₁ :: rest =>
    simp only [pyLeapfrog]
    by_cases e : t₁ - t₀ = 0
    · rw [if_pos e]
      refine ⟨⟨?_, ?_⟩, ?_⟩
      · rintro ⟨_, h⟩
        cases h
      · rintro ⟨_, _, _, h, hne⟩
        cases h
        exact absurd (sub_eq_zero.mp e).symm hne
      · intro _ h
        cases h
    · rw [if_neg e]
      refine ⟨⟨fun _ => ⟨t₀, t₁, rest, rfl, fun h => e (by rw [h, sub_self])⟩, fun _ => ⟨_, rfl⟩⟩, ?_⟩
      rintro _ h
      cases h
      rw [outputs_eq]
      refine ⟨by simp, ⟨qo, po, t₀⟩, ?_, rfl, rfl⟩
      simp [List.range_succ_eq_map]

section
variable {V : Type*} [AddCommGroup V] [Module ℝ V]

theorem C23aux.c (m : CMethod) (F : V → ℝ → V) (intr : ℕ → Bool) (junk qo po : V) (nt : ℕ) (hnt : 0 < nt)
    (dt : Option ℝ) (errOf : ℝ → ℝ) (t₀ t₁ : ℝ) (hI : ∀ i < nt - 1, intr i = false) :
    ∃ d, d = cStep errOf (t₁ - t₀) dt ∧
    cRun (m.interval F) errOf intr junk qo po nt dt t₀ t₁ =
      ((List.range nt).map fun i =>
        ((runOps F d m.scheme)^[(trunc ((t₁ - t₀) / d) - 1).toNat + 1])^[i] ⟨qo, po, t₀⟩, 0) := by
  refine ⟨_, rfl, ?_⟩
  suffices H : ∀ d, ((⟨qo, po, t₀⟩ : St V) :: (cOutputs (m.interval F d (trunc ((t₁ - t₀) / d))) intr
      (nt - 1) 0 ⟨qo, po, junk, junk, t₀⟩).1, (cOutputs (m.interval F d (trunc ((t₁ - t₀) / d))) intr
      (nt - 1) 0 ⟨qo, po, junk, junk, t₀⟩).2) = ((List.range nt).map fun i =>
        ((runOps F d m.scheme)^[(trunc ((t₁ - t₀) / d) - 1).toNat + 1])^[i] ⟨qo, po, t₀⟩, (0 : ℤ)) from H _
  intro d
  obtain ⟨h1, h2, h3, h4⟩ := cOutputs_interrupted (m.interval F d (trunc ((t₁ - t₀) / d))) intr (nt - 1) 0
    ⟨qo, po, junk, junk, t₀⟩
  have h0 := h2.2 fun j hj => by simpa using hI j hj
  rw [h3 h0, cOutputs_eq _ _ fun b => C22aux.interval m F d (trunc ((t₁ - t₀) / d)) b]
  obtain ⟨n, rfl⟩ := Nat.exists_eq_succ_of_ne_zero hnt.ne'
  have := outputs_eq ((runOps F d m.scheme)^[(trunc ((t₁ - t₀) / d) - 1).toNat + 1]) n ⟨qo, po, t₀⟩
  rw [← this]
  rfl

/-- The C integrators choosing their own step: as for Python, with the scheme of the method. The times
of the rows carry the sum of the drift coefficients, which is one for leapfrog. -/
theorem C23_c (m : CMethod) (F : V → ℝ → V) (errOf : ℝ → ℝ) (junk qo po : V) (nt : ℕ) (hnt : 0 < nt)
    (t₀ : ℝ) {h : ℝ} (hh : h ≠ 0) (intr : ℕ → Bool) (hI : ∀ i < nt - 1, intr i = false) : ∃ rows,
    cRun (m.interval F) errOf intr junk qo po nt none t₀ (t₀ + h) = (rows, 0) ∧
    rows.length = nt ∧ rows[0]? = some ⟨qo, po, t₀⟩ ∧
    ∃ k ≤ 14, ∃ M : ℕ, M = 2 ^ k ∧ (errOf (h / M) ≤ 1 ∨ k = 14) ∧
      ∀ i < nt - 1, ∃ r r', rows[i]? = some r ∧ rows[i + 1]? = some r' ∧
        r' = (runOps F (h / M) m.scheme)^[M] r ∧
        (m = .leapfrog → r.t = t₀ + i * h ∧ r'.t = t₀ + (i + 1) * h) := by
  obtain ⟨d, hd, hr⟩ := C23aux.c m F intr junk qo po nt hnt none errOf t₀ (t₀ + h) hI
  obtain ⟨k, hk, he, herr⟩ := pyEstLoop_run (fun d => errOf (d / 2)) hh (fuel := 16) (by norm_num)
  have hpos : 0 < 2 ^ k := by positivity
  have hpos' : (((2 ^ k : ℕ) : ℝ)) ≠ 0 := by positivity
  rw [add_sub_cancel_left] at hr hd
  simp only [cStep] at hd
  rw [cEstLoop_eq, he] at hd
  have hN : (trunc (h / (h / (2 ^ k : ℕ))) - 1).toNat + 1 = 2 ^ k := by rw [trunc_div hh hpos]; omega
  rw [hd, hN] at hr
  refine ⟨_, hr, by simp, ?_, k, hk, 2 ^ k, rfl, ?_, ?_⟩
  · rw [List.getElem?_map, List.getElem?_range hnt]; rfl
  · refine herr.imp_left fun h' => ?_
    rw [mul_div_cancel_left₀ _ (two_ne_zero)] at h'
    exact not_lt.mp h'
  · intro i hi
    refine ⟨_, _, by rw [List.getElem?_map, List.getElem?_range (by omega), Option.map_some],
      by rw [List.getElem?_map, List.getElem?_range (by omega), Option.map_some],
      Function.iterate_succ_apply' _ _ _, ?_⟩
    rintro rfl
    rw [← Function.iterate_mul, ← Function.iterate_mul, C23aux.time, C23aux.time]
    simp [CMethod.scheme, leapScheme, alternate, Op.frac]
    constructor <;> (field_simp; ring)

/-- A step given by the caller which divides the spacing exactly is used as given: `M` steps per
interval. Covers backward integration with a negative step. -/
theorem C23_c_given_step (m : CMethod) (F : V → ℝ → V) (errOf : ℝ → ℝ) (junk qo po : V) (nt : ℕ) (hnt : 0 < nt)
    (t₀ dt : ℝ) (hdt : dt ≠ 0) (M : ℕ) (hM : 0 < M) (intr : ℕ → Bool) (hI : ∀ i < nt - 1, intr i = false) :
    checkIntegrateDt t₀ (t₀ + M * dt) (some dt) ∧ ∃ rows,
    cRun (m.interval F) errOf intr junk qo po nt (some dt) t₀ (t₀ + M * dt) = (rows, 0) ∧
    rows.length = nt ∧ rows[0]? = some ⟨qo, po, t₀⟩ ∧
    ∀ i < nt - 1, ∃ r r', rows[i]? = some r ∧ rows[i + 1]? = some r' ∧
        r' = (runOps F dt m.scheme)^[M] r := by
  constructor
  · simp only [checkIntegrateDt]
    rw [add_sub_cancel_left, mul_div_assoc, div_self hdt, mul_one, round_natCast]
    norm_num
  obtain ⟨d, hd, hr⟩ := C23aux.c m F intr junk qo po nt hnt (some dt) errOf t₀ (t₀ + M * dt) hI
  have e : (t₀ + M * dt - t₀) / dt = M := by field_simp; ring
  simp only [cStep] at hd
  rw [hd, e, trunc_natCast, show ((M : ℤ) - 1).toNat + 1 = M by omega] at hr
  refine ⟨_, hr, by simp, ?_, ?_⟩
  · rw [List.getElem?_map, List.getElem?_range hnt]; rfl
  · intro i hi
    exact ⟨_, _, by rw [List.getElem?_map, List.getElem?_range (by omega), Option.map_some],
      by rw [List.getElem?_map, List.getElem?_range (by omega), Option.map_some],
      Function.iterate_succ_apply' _ _ _⟩

/-- An interrupt during the run: the error code is -10 exactly when one of the loop starts saw it, and
the rows written are an initial piece of the uninterrupted result; the first row is always there. -/
theorem C23_interrupt (m : CMethod) (F : V → ℝ → V) (errOf : ℝ → ℝ) (intr : ℕ → Bool) (junk qo po : V)
    (nt : ℕ) (dt : Option ℝ) (t₀ t₁ : ℝ) :
    (cRun (m.interval F) errOf intr junk qo po nt dt t₀ t₁).1 <+:
      (cRun (m.interval F) errOf (fun _ => false) junk qo po nt dt t₀ t₁).1 ∧
    (cRun (m.interval F) errOf intr junk qo po nt dt t₀ t₁).1.head? = some ⟨qo, po, t₀⟩ ∧
    ((cRun (m.interval F) errOf intr junk qo po nt dt t₀ t₁).2 = -10 ↔ ∃ j < nt - 1, intr j = true) ∧
    ((cRun (m.interval F) errOf intr junk qo po nt dt t₀ t₁).2 ≠ -10 →
      (cRun (m.interval F) errOf intr junk qo po nt dt t₀ t₁) =
        (cRun (m.interval F) errOf (fun _ => false) junk qo po nt dt t₀ t₁)) := by
  simp only [cRun]
  obtain ⟨h1, h2, h3, h4⟩ := cOutputs_interrupted (m.interval F (cStep errOf (t₁ - t₀) dt)
    (trunc ((t₁ - t₀) / cStep errOf (t₁ - t₀) dt)))
    intr (nt - 1) 0 ⟨qo, po, junk, junk, t₀⟩
  refine ⟨?_, rfl, ?_, ?_⟩
  · exact List.cons_prefix_cons.2 ⟨rfl, h1⟩
  · constructor
    · intro h
      by_contra hc
      push Not at hc
      have := h2.2 fun j hj => by simpa using hc j hj
      rw [h] at this
      norm_num at this
    · rintro ⟨j, hj, hi⟩
      rcases h4 with h | h
      · have := h2.1 h j hj
        simp [hi] at this
      · exact h
  · intro h
    have := h3 (h4.resolve_right h)
    exact Prod.ext (by simpa using congrArg Prod.fst this) (by simpa using congrArg Prod.snd this)

end

/-- Uneven times: with force zero and unit momentum the row for time 3 of the times 0, 1, 3 is that of
time 2. The statement for every time array is false. -/
theorem C23_uneven_fails : ∃ rows,
    pyLeapfrog (n := 1) (fun _ _ => 0) (fun _ => 0) (fun _ => 1) [0, 1, 3] 1 1 = .ok rows ∧
    ∃ r, rows[2]? = some r ∧ r.q = (fun _ => 2) ∧ r.q ≠ fun _ => 3 := by
  have key : ∀ (rest : List ℝ) (F : (Fin 1 → ℝ) → ℝ → Fin 1 → ℝ) (q p : Fin 1 → ℝ),
      pyLeapfrog F q p [0, 1, 3] 1 1 = pyLeapfrog F q p (evenTimes 0 1 3) 1 1 := by
    intro rest F q p
    rw [C23aux.even 0 1 1]
    simp only [pyLeapfrog]
    rw [zero_add]
    congr 3
  obtain ⟨rows, h1, h2, h3, k, hk, m, hm, h4, h5, h6⟩ :=
    C23_python (n := 1) (fun _ _ => 0) (fun _ => 0) (fun _ => 1) 0 one_ne_zero 1 1 1
  refine ⟨rows, by rw [key []]; exact h1, ?_⟩
  have adv : ∀ (s : St (Fin 1 → ℝ)) (n : ℕ) (d : ℝ), ((runOps (fun _ _ => 0) d [.drift (1 / 2), .kick 1, .drift (1 / 2)])^[n] s).p = s.p ∧
      ((runOps (fun _ _ => 0) d [.drift (1 / 2), .kick 1, .drift (1 / 2)])^[n] s).q = s.q + (n * d) • s.p := by
    intro s n d
    induction n generalizing s with
    | zero => simp
    | succ n ih =>
      rw [Function.iterate_succ_apply]
      obtain ⟨a, b⟩ := ih (runOps (fun _ _ => 0) d [.drift (1 / 2), .kick 1, .drift (1 / 2)] s)
      rw [a, b]
      simp only [leapScheme, alternate, runOps, List.foldl_cons, List.foldl_nil, Op.run, smul_zero, add_zero,
        true_and]
      push_cast
      module
  obtain ⟨r0, r1, e0, e1, h7⟩ := h6 0 (by norm_num)
  obtain ⟨r1', r2, e1', e2, h8⟩ := h6 1 (by norm_num)
  rw [h3] at e0
  cases e0
  rw [e1] at e1'
  cases e1'
  have hm0 : (m : ℝ) ≠ 0 := by rw [hm]; positivity
  have hq : r2.q = fun _ => 2 := by
    rw [h8, (adv _ _ _).2, h7, (adv _ _ _).2, (adv _ _ _).1]
    funext i
    simp
    field_simp
    norm_num
  refine ⟨r2, e2, hq, ?_⟩
  rw [hq]
  intro h
  have := congrFun h 0
  norm_num at this

/-- A positive step with decreasing times passes the check of the caller, but the C code then takes a
single forward step per interval: for free motion with unit momentum the row for time -1 has position
`+dt`. -/
theorem C23_negative_dt_fails : checkIntegrateDt 0 (-1) (some (1 / 10)) ∧
    ∃ r : St ℝ, (cRun (CMethod.interval (fun (_ : ℝ) _ => 0) .leapfrog) (fun _ => 0) (fun _ => false) 0 0 1 2
      (some (1 / 10)) 0 (-1)).1[1]? = some r ∧ r.q = 1 / 10 ∧ r.q ≠ -1 := by
  constructor
  · simp only [checkIntegrateDt]
    rw [show ((-1 : ℝ) - 0) / (1 / 10) = ((-10 : ℤ) : ℝ) by norm_num, round_intCast]
    norm_num
  · obtain ⟨d, hd, hr⟩ := C23aux.c .leapfrog (fun (_ : ℝ) _ => 0) (fun _ => false) 0 0 1 2 (by norm_num)
      (some (1 / 10)) (fun _ => 0) 0 (-1) (fun _ _ => rfl)
    simp only [cStep] at hd
    subst hd
    rw [hr]
    have ht : (trunc (((-1 : ℝ) - 0) / (1 / 10)) - 1).toNat + 1 = 1 := by
      have : trunc (((-1 : ℝ) - 0) / (1 / 10)) ≤ 0 := by
        unfold trunc
        rw [if_neg (by norm_num)]
        exact Int.ceil_le.2 (by norm_num)
      omega
    rw [ht]
    refine ⟨_, by rw [List.getElem?_map, List.getElem?_range (by norm_num), Option.map_some], ?_, ?_⟩ <;>
    · simp [CMethod.scheme, leapScheme, alternate, runOps, Op.run]
      norm_num

/-- A step that passes the check of the caller but exceeds `spacing / 10` by a tiny amount: the code
takes 9 steps, not 10, in each interval, so every row is short by a tenth of the spacing. -/
theorem C23_truncation_fails : checkIntegrateDt 0 1 (some (1 / 10 + 1 / 10 ^ 12)) ∧
    ∃ r : St ℝ, (cRun (CMethod.interval (fun (_ : ℝ) _ => 0) .leapfrog) (fun _ => 0) (fun _ => false) 0 0 1 2
      (some (1 / 10 + 1 / 10 ^ 12)) 0 1).1[1]? = some r ∧ r.q = 9 * (1 / 10 + 1 / 10 ^ 12) ∧ r.q < 0.91 := by
  have hq : ((1 : ℝ) - 0) / (1 / 10 + 1 / 10 ^ 12) = 10 ^ 12 / (10 ^ 11 + 1) := by norm_num
  constructor
  · simp only [checkIntegrateDt]
    have : round (((1 : ℝ) - 0) / (1 / 10 + 1 / 10 ^ 12)) = 10 := by
      rw [hq, round_eq, Int.floor_eq_iff]
      norm_num
    rw [this]
    norm_num
  · obtain ⟨d, hd, hr⟩ := C23aux.c .leapfrog (fun (_ : ℝ) _ => 0) (fun _ => false) 0 0 1 2 (by norm_num)
      (some (1 / 10 + 1 / 10 ^ 12)) (fun _ => 0) 0 1 (fun _ _ => rfl)
    simp only [cStep] at hd
    subst hd
    rw [hr]
    have ht : (trunc (((1 : ℝ) - 0) / (1 / 10 + 1 / 10 ^ 12)) - 1).toNat + 1 = 9 := by
      have : trunc (((1 : ℝ) - 0) / (1 / 10 + 1 / 10 ^ 12)) = 9 := by
        unfold trunc
        rw [if_pos (by norm_num), hq, Int.floor_eq_iff]
        norm_num
      omega
    rw [ht]
    refine ⟨_, by rw [List.getElem?_map, List.getElem?_range (by norm_num), Option.map_some], ?_, ?_⟩ <;>
    · simp [CMethod.scheme, leapScheme, alternate, runOps, Op.run]
      norm_num

/-- Cases: an oscillator integrated backward by Python, and by `symplec6` with its own step. -/
example := C23_python (n := 2) (fun q t => -q) ![1, 0] ![0, 1] 3 (h := -1 / 2) (by norm_num) 5 1e-9 1e-9
example := C23_c .symplec6 (fun (q : ℝ) _ => -q) (fun d => 1000 * |d|) 7 1 0 12 (by norm_num) 0
  (h := 1 / 2) (by norm_num) (fun i => decide (i = 50)) (by
    intro i hi
    have : i ≠ 50 := by omega
    simp [this])

end Verif
