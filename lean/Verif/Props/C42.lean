import Verif.Lemmas.SavePickles
import Mathlib.Tactic.Ring

set_option autoImplicit false

/-!
# C42: `save_pickles` never leaves a truncated file

For every content, every previous content of the target and every sequence of steps, `KeyboardInterrupt`s and failing
operations.  A crash can happen in every reachable state.
-/

namespace Verif

open Pickles

/-- When the temporary directory and the target are on the same file system, the target holds its previous content
or the complete new content in every reachable state. -/
theorem C42_atomic_partial (c : Setting) (hc : c.sameFs = true) (es : List Event) (s : State) (h : Run c es (init c) s) :
    s.target = c.old ∨ s.target = some c.data :=
  ((inv_run c es s h).same hc).2.2

/-- A normal return means that the target holds the new content, on any file system. -/
theorem C42_returned (c : Setting) (es : List Event) (s : State) (h : Run c es (init c) s)
    (hd : s.pc = .done .returned) : s.target = some c.data :=
  (inv_run c es s h).saved ((inv_run c es s h).ret hd).2

theorem C42aux.count (c : Setting) (es : List Event) (s : State) (h : Run c es (init c) s) :
    es.count .interrupt ≤ s.count := by
  generalize hi : init c = s0 at h
  induction h with
  | nil s => simp
  | snoc es e s t u _ hs ih =>
    have := ih hi
    rw [List.count_append]
    cases hs <;> simp only [List.count_singleton] <;> simp <;> omega

/-- A `KeyboardInterrupt` that arrives at any time is never forgotten: the function does not return normally. -/
theorem C42_not_lost (c : Setting) (es : List Event) (s : State) (h : Run c es (init c) s) (hi : .interrupt ∈ es) :
    s.pc ≠ .done .returned := by
  intro hd
  have h1 := C42aux.count c es s h
  have h2 := ((inv_run c es s h).ret hd).1
  have := List.count_pos_iff.2 hi
  omega

theorem C42aux.run_append (c : Setting) (es es' : List Event) (s t u : State) (h : Run c es s t)
    (h' : Run c es' t u) : Run c (es ++ es') s u := by
  induction h' with
  | nil t => simpa using h
  | snoc es' e t u v _ hs ih => rw [← List.append_assoc]; exact .snoc _ _ _ _ _ (ih h) hs

/-- A `KeyboardInterrupt` while the file is open or being moved is delayed: if nothing else interferes, the function
saves everything and then raises `KeyboardInterrupt`. -/
theorem C42_delayed (c : Setting) (es es' : List Event) (s t u : State) (h : Run c es (init c) s)
    (hs : s.pc.inTry = true) (hf : s.fileOpen ≠ none) (ht : Step c .interrupt s t) (hu : Run c es' t u)
    (hgo : ∀ e ∈ es', e = .go) (e : End) (hd : u.pc = .done e) : e = .interrupt ∧ u.target = some c.data := by
  have hrun : Run c ((es ++ [.interrupt]) ++ es') (init c) u := C42aux.run_append c _ _ _ _ _ (.snoc _ _ _ _ _ h ht) hu
  have key : u.fileOpen ≠ none ∧ (u.pc = .handler ∨ u.interrupted = true ∨ u.pc = .fin .interrupt ∨ u.pc = .done .interrupt) ∧
      (u.pc = .fin .interrupt ∨ u.pc = .done .interrupt → u.saving = false) ∧ (u.pc = .fin .loop → u.saving = true) ∧
      u.pc ≠ .fin .error ∧ (∀ e, u.pc = .done e → e = .interrupt) := by
    clear hd hrun
    induction hu with
    | nil t =>
      cases ht with
      | interruptTry _ h' => simpa using hf
      | interruptBefore _ h' => rcases h' with h' | h' <;> rw [h'] at hs <;> cases hs
      | interruptHandler _ h' => rw [h'] at hs; cases hs
      | interruptFin _ a h' => rw [h'] at hs; cases hs
    | snoc es' e t u v h1 h2 ih =>
      have hge : e = .go := hgo e (by simp)
      have ih := ih ht fun e he => hgo e (by simp [he])
      subst hge
      obtain ⟨i1, i2, i3, i4, i5, i6⟩ := ih
      cases h2 <;> grind
  have hinv := inv_run c _ u hrun
  have he := key.2.2.2.2.2 e hd
  subst he
  exact ⟨rfl, hinv.saved (key.2.2.1 (.inr hd))⟩

/-- Without interrupts, an operation that fails leaves the target as it was. -/
theorem C42_failure (c : Setting) (hc : c.sameFs = true) (es : List Event) (s : State) (h : Run c es (init c) s)
    (hi : s.count = 0) (hd : s.pc = .done .error ∨ s.pc = .done .unbound) : s.target = c.old := by
  have key : s.count = 0 → s.pc = .clearSaving ∨ s.pc = .check ∨ s.pc = .fin .loop ∨ s.pc = .done .returned ∨
      s.target = c.old := by
    clear hi hd
    generalize hi : init c = s0 at h
    induction h with
    | nil s => subst hi; simp [init]
    | snoc es e s t u hr hs ih =>
      subst hi
      have hinv := inv_run c _ t hr
      have ih := ih rfl
      obtain ⟨pc, sv, it, fo, tmp, tg, cnt⟩ := t
      obtain ⟨h1, h0, h2, h3, h4, h5, h6, h7, h8, h9, h10, h11, h12, h13, h14, h15, h16⟩ := hinv
      cases hs <;> simp only at * <;> grind [Pc.canFail]
  rcases key hi with h1 | h1 | h1 | h1 | h1
  · rw [h1] at hd; rcases hd with hd | hd <;> cases hd
  · rw [h1] at hd; rcases hd with hd | hd <;> cases hd
  · rw [h1] at hd; rcases hd with hd | hd <;> cases hd
  · rw [h1] at hd; rcases hd with hd | hd <;> cases hd
  · exact h1

/-- A function that is not finished can go on by itself. -/
theorem C42_progress (c : Setting) (es : List Event) (s : State) (h : Run c es (init c) s)
    (hd : ∀ e, s.pc ≠ .done e) : ∃ t, Step c .go s t := by
  have hinv := inv_run c es s h
  rcases hpc : s.pc with _ | _ | _ | _ | _ | off | _ | _ | _ | n | _ | _ | _ | _ | a | e
  · exact ⟨_, .mkstemp s hpc⟩
  · exact ⟨_, .closeFd s hpc⟩
  · exact ⟨_, .open s hpc⟩
  · exact ⟨_, .setOpen s hpc⟩
  · rcases hc : (c.test && !s.interrupted) with _ | _
    · exact ⟨_, .test s hpc hc⟩
    · exact ⟨_, .testRaise s hpc hc⟩
  · by_cases ho : off < c.data.length
    · exact ⟨_, .dump s off hpc ho⟩
    · have := (hinv.part off hpc).1
      have : off = c.data.length := by omega
      subst this
      exact ⟨_, .dumped s hpc⟩
  · exact ⟨_, .close s hpc⟩
  · exact ⟨_, .clearOpen s hpc⟩
  · rcases hc : c.sameFs with _ | _
    · exact ⟨_, .startCopy s hpc hc⟩
    · exact ⟨_, .rename s hpc hc⟩
  · obtain ⟨h1, h2, h3⟩ := hinv.copy n hpc
    by_cases hn : n < c.data.length
    · exact ⟨_, .copy s n c.data hpc h1 hn⟩
    · exact ⟨_, .copied s n c.data hpc h1 (by omega)⟩
  · exact ⟨_, .unlink s hpc⟩
  · exact ⟨_, .clearSaving s hpc⟩
  · rcases hi : s.interrupted with _ | _
    · exact ⟨_, .check s hpc hi⟩
    · exact ⟨_, .checkRaise s hpc hi⟩
  · rcases hi : s.saving with _ | _
    · exact ⟨_, .handlerRaise s hpc hi⟩
    · exact ⟨_, .handler s hpc hi⟩
  · by_cases hf : s.fileOpen = none
    · exact ⟨_, .finUnbound s a hpc hf⟩
    · rcases a with _ | _ | _
      · rcases hi : s.saving with _ | _
        · exact ⟨_, .finReturn s hpc hf hi⟩
        · exact ⟨_, .finLoop s hpc hf hi⟩
      · exact ⟨_, .finInterrupt s hpc hf⟩
      · exact ⟨_, .finError s hpc hf⟩
  · exact absurd hpc (hd e)

/-- The steps to the end of the current turn of the loop. -/
def C42aux.rank (c : Setting) (s : State) : ℕ :=
  let len := c.data.length
  match s.pc with
  | .mkstemp => 3 * len + 20
  | .closeFd => 3 * len + 19
  | .open => 3 * len + 18
  | .setOpen => 3 * len + 17
  | .test => 3 * len + 16
  | .dump off => (len - off) + (len - (s.tmp.getD []).length) + len + 14
  | .close => len + 12
  | .clearOpen => len + 11
  | .move => len + 10
  | .copy n => len - n + 8
  | .unlink => 7
  | .clearSaving => 6
  | .check => 5
  | .handler => if s.saving then 3 * len + 20 else 4
  | .fin .loop => if s.saving then 3 * len + 19 else 3
  | .fin _ => 3
  | .done _ => 0

/-- However many interrupts there are, the function ends: the number of steps is bounded by a multiple of the number
of `KeyboardInterrupt`s. -/
theorem C42_terminates (c : Setting) (es : List Event) (s : State) (h : Run c es (init c) s) :
    es.length ≤ (s.count + 1) * (3 * c.data.length + 21) := by
  have key : es.length + C42aux.rank c s ≤ (s.count + 1) * (3 * c.data.length + 21) := by
    generalize hi : init c = s0 at h
    induction h with
    | nil s => subst hi; simp [init, C42aux.rank]
    | snoc es e s t u hr hs ih =>
      subst hi
      have hinv := inv_run c _ t hr
      have ih := ih rfl
      rw [List.length_append, List.length_singleton]
      have grow : ∀ x y : ℕ, (x + 1 + 1) * (3 * y + 21) = (x + 1) * (3 * y + 21) + (3 * y + 21) := by intros; ring
      cases hs with
      | flush _ off l hpc ht hl =>
        obtain ⟨h1, l', h2, h3, h4⟩ := hinv.part off hpc
        simp only [C42aux.rank, hpc, ht, Option.getD_some, List.length_take] at ih ⊢
        rw [min_eq_left (by omega)]
        omega
      | test _ hpc hc =>
        have := hinv.fresh (.inr hpc)
        simp only [C42aux.rank, hpc, this, Option.getD_some, List.length_nil] at ih ⊢
        omega
      | testRaise _ hpc hc =>
        simp only [C42aux.rank, hpc, grow] at ih ⊢
        split_ifs <;> omega
      | checkRaise _ hpc hi =>
        have := hinv.check hpc
        simp only [C42aux.rank, hpc, this] at ih ⊢
        simp only [Bool.false_eq_true, if_false] at ih ⊢
        omega
      | check _ hpc hi =>
        have := hinv.check hpc
        simp only [C42aux.rank, hpc, this] at ih ⊢
        simp only [Bool.false_eq_true, if_false] at ih ⊢
        omega
      | finUnbound _ a hpc hf =>
        rcases a with _ | _ | _ <;> simp only [C42aux.rank, hpc] at ih ⊢
        · split_ifs at ih <;> omega
        · omega
        · omega
      | interruptTry _ hpc =>
        simp only [C42aux.rank, grow] at ih ⊢
        split_ifs <;> omega
      | interruptBefore _ hpc =>
        simp only [C42aux.rank, grow] at ih ⊢
        omega
      | interruptHandler _ hpc =>
        simp only [C42aux.rank, grow] at ih ⊢
        omega
      | interruptFin _ a hpc =>
        simp only [C42aux.rank, grow] at ih ⊢
        omega
      | copy _ n l hpc ht hn =>
        have h1 := (hinv.copy n hpc).1
        rw [ht] at h1
        have h1 := Option.some.inj h1
        subst h1
        simp only [C42aux.rank, hpc] at ih ⊢
        omega
      | errorBefore _ hpc =>
        rcases hpc with hpc | hpc <;> simp only [C42aux.rank, hpc] at ih ⊢ <;> omega
      | errorTry _ hpc =>
        rcases h : t.pc with _ | _ | _ | _ | _ | off | _ | _ | _ | n | _ | _ | _ | _ | a | e <;>
          (try (rw [h] at hpc; cases hpc; done)) <;> simp only [C42aux.rank, h] at ih ⊢ <;> omega
      | _ =>
        simp only [C42aux.rank, *] at ih ⊢
        (try simp only [Bool.false_eq_true, if_false, if_true] at ih ⊢)
        omega
  omega

/-- On different file systems `shutil.move` copies, and a crash during the copy leaves a truncated target. -/
theorem C42_other_file_system_fails :
    ∃ (c : Setting) (es : List Event) (s : State), Run c es (init c) s ∧ (∀ e ∈ es, e = .go) ∧
      c.old = some [9, 9] ∧ c.data = [1, 2] ∧ s.target = some [1] := by
  have r0 := Run.nil (c := ⟨[1, 2], false, some [9, 9], false⟩) (init ⟨[1, 2], false, some [9, 9], false⟩)
  have r1 := Run.snoc _ _ _ _ _ r0 (.mkstemp _ rfl)
  have r2 := Run.snoc _ _ _ _ _ r1 (.closeFd _ rfl)
  have r3 := Run.snoc _ _ _ _ _ r2 (.open _ rfl)
  have r4 := Run.snoc _ _ _ _ _ r3 (.setOpen _ rfl)
  have r5 := Run.snoc _ _ _ _ _ r4 (.test _ rfl rfl)
  have r6 := Run.snoc _ _ _ _ _ r5 (.dump _ 0 rfl (by decide))
  have r7 := Run.snoc _ _ _ _ _ r6 (.dump _ 1 rfl (by decide))
  have r8 := Run.snoc _ _ _ _ _ r7 (.dumped _ rfl)
  have r9 := Run.snoc _ _ _ _ _ r8 (.close _ rfl)
  have r10 := Run.snoc _ _ _ _ _ r9 (.clearOpen _ rfl)
  have r11 := Run.snoc _ _ _ _ _ r10 (.startCopy _ rfl rfl)
  have r12 := Run.snoc _ _ _ _ _ r11 (.copy _ 0 [1, 2] rfl rfl (by decide))
  exact ⟨_, _, _, r12, by simp, rfl, rfl, rfl⟩

/-- An interrupt just before the file is opened ends with an `UnboundLocalError`: nothing is saved and no
`KeyboardInterrupt` is raised.  A failing `open` is masked in the same way. -/
theorem C42_unbound_fails (c : Setting) :
    (∃ s, Run c [.go, .go, .interrupt, .go, .go] (init c) s ∧ s.pc = .done .unbound ∧ s.target = c.old) ∧
      ∃ s, Run c [.go, .go, .error, .go] (init c) s ∧ s.pc = .done .unbound := by
  constructor
  · refine ⟨_, .snoc [.go, .go, .interrupt, .go] _ _ _ _ (.snoc [.go, .go, .interrupt] _ _ _ _ (.snoc [.go, .go] _ _ _ _
      (.snoc [.go] _ _ _ _ (.snoc [] _ _ _ _ (.nil _) (.mkstemp _ rfl)) (.closeFd _ rfl)) (.interruptTry _ rfl))
      (.handler _ rfl rfl)) (.finUnbound _ .loop rfl rfl), rfl, rfl⟩
  · refine ⟨_, .snoc [.go, .go, .error] _ _ _ _ (.snoc [.go, .go] _ _ _ _
      (.snoc [.go] _ _ _ _ (.snoc [] _ _ _ _ (.nil _) (.mkstemp _ rfl)) (.closeFd _ rfl)) (.errorTry _ rfl))
      (.finUnbound _ .error rfl rfl), rfl⟩

/-! ### Instances -/

/-- The previous file is still there in the middle of writing. -/
example : ∃ es s, Run ⟨[1, 2], false, some [9], true⟩ es (init ⟨[1, 2], false, some [9], true⟩) s ∧ s.pc = .dump 1 ∧ s.target = some [9] := by
  have r0 := Run.nil (c := ⟨[1, 2], false, some [9], true⟩) (init ⟨[1, 2], false, some [9], true⟩)
  have r1 := Run.snoc _ _ _ _ _ r0 (.mkstemp _ rfl)
  have r2 := Run.snoc _ _ _ _ _ r1 (.closeFd _ rfl)
  have r3 := Run.snoc _ _ _ _ _ r2 (.open _ rfl)
  have r4 := Run.snoc _ _ _ _ _ r3 (.setOpen _ rfl)
  have r5 := Run.snoc _ _ _ _ _ r4 (.test _ rfl rfl)
  have r6 := Run.snoc _ _ _ _ _ r5 (.dump _ 0 rfl (by decide))
  exact ⟨_, _, r6, rfl, rfl⟩

/-- An interrupt in the middle of writing: everything is saved in a second turn, then `KeyboardInterrupt` is raised. -/
example : ∃ es s, Run ⟨[1, 2], false, some [9], true⟩ es (init ⟨[1, 2], false, some [9], true⟩) s ∧ s.pc = .done .interrupt ∧ s.target = some [1, 2] := by
  have r0 := Run.nil (c := ⟨[1, 2], false, some [9], true⟩) (init ⟨[1, 2], false, some [9], true⟩)
  have r1 := Run.snoc _ _ _ _ _ r0 (.mkstemp _ rfl)
  have r2 := Run.snoc _ _ _ _ _ r1 (.closeFd _ rfl)
  have r3 := Run.snoc _ _ _ _ _ r2 (.open _ rfl)
  have r4 := Run.snoc _ _ _ _ _ r3 (.setOpen _ rfl)
  have r5 := Run.snoc _ _ _ _ _ r4 (.test _ rfl rfl)
  have r6 := Run.snoc _ _ _ _ _ r5 (.dump _ 0 rfl (by decide))
  have r7 := Run.snoc _ _ _ _ _ r6 (.interruptTry _ rfl)
  have r8 := Run.snoc _ _ _ _ _ r7 (.handler _ rfl rfl)
  have r9 := Run.snoc _ _ _ _ _ r8 (.finLoop _ rfl (by simp [init]) rfl)
  have r10 := Run.snoc _ _ _ _ _ r9 (.open _ rfl)
  have r11 := Run.snoc _ _ _ _ _ r10 (.setOpen _ rfl)
  have r12 := Run.snoc _ _ _ _ _ r11 (.test _ rfl rfl)
  have r13 := Run.snoc _ _ _ _ _ r12 (.dump _ 0 rfl (by decide))
  have r14 := Run.snoc _ _ _ _ _ r13 (.dump _ 1 rfl (by decide))
  have r15 := Run.snoc _ _ _ _ _ r14 (.dumped _ rfl)
  have r16 := Run.snoc _ _ _ _ _ r15 (.close _ rfl)
  have r17 := Run.snoc _ _ _ _ _ r16 (.clearOpen _ rfl)
  have r18 := Run.snoc _ _ _ _ _ r17 (.rename _ rfl rfl)
  have r19 := Run.snoc _ _ _ _ _ r18 (.clearSaving _ rfl)
  have r20 := Run.snoc _ _ _ _ _ r19 (.checkRaise _ rfl rfl)
  have r21 := Run.snoc _ _ _ _ _ r20 (.handlerRaise _ rfl rfl)
  have r22 := Run.snoc _ _ _ _ _ r21 (.finInterrupt _ rfl (by simp))
  exact ⟨_, _, r22, rfl, rfl⟩

end Verif
