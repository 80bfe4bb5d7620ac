import Verif.Props.C35
import Mathlib.Tactic.FieldSimp

set_option autoImplicit false

/-!
# C36: continuing an integration

The integration routine is exact (`flowInteg`): it evaluates a two-parameter flow `Φ`. `OneTrajectory` says
that all that is stored lies on one trajectory through the initial conditions, at strictly monotone times.
The invariant holds after every sequence of `integrate` calls, whatever their times, as long as a call whose
first time is *close* to an end of the stored times is exactly at that end; without this condition it fails
(`C36_isclose_fails`). `C36_single_call` needs no exactness: for any routine that works step by step, two
calls store what one call with all the times stores.
-/

noncomputable section
namespace Verif
open Orb Spec

variable {S P : Type}

/-- A two-parameter flow: `Φ s t x` is the state at time `t` of the motion that is at `x` at time `s`. -/
structure IsFlow (Φ : ℝ → ℝ → S → S) : Prop where
  refl : ∀ s x, Φ s s x = x
  trans : ∀ s t u x, Φ t u (Φ s t x) = Φ s u x

/-- The exact integration routine of a flow. -/
def flowInteg (Φ : ℝ → ℝ → S → S) (_ : P) (v : S) (ts : List ℝ) : Except Err (List S) :=
  .ok (ts.map fun t => Φ (ts.headD 0) t v)

/-- Strictly increasing or strictly decreasing. -/
def Mono (ts : List ℝ) : Prop := ts.Pairwise (· < ·) ∨ ts.Pairwise (· > ·)

/-- The stored trajectories are those of the flow through the initial conditions at one time `τ`, which is
one of the stored times, at strictly monotone times. -/
def OneTrajectory (Φ : ℝ → ℝ → S → S) (o : Orbit S P) (ts : List ℝ) : Prop :=
  o.t = some (.shared ts) ∧ Mono ts ∧ ∃ τ ∈ ts, o.orbit = some (o.vxvv.map fun v => ts.map fun t => Φ τ t v)

/-- The new times start exactly at an end of the stored times if they start close to it. -/
def ExactStart (new old : List ℝ) : Prop :=
  (∀ t0 ∈ new.head?, ∀ s1 ∈ old.getLast?, isclose t0 s1 → t0 = s1) ∧
  (∀ t0 ∈ new.head?, ∀ s0 ∈ old.head?, isclose t0 s0 → t0 = s0)

/-- The objects obtained from an object that is not integrated by any sequence of `integrate` calls with the
exact routine, in one potential, with non-empty strictly monotone times. -/
inductive Session (Φ : ℝ → ℝ → S → S) (p : P) (vs : List S) : Orbit S P → Prop
  | start (o : Orbit S P) (hv : o.vxvv = vs) (ht : o.t = none) (hx : o.orbit = none) : Session Φ p vs o
  | step (o : Orbit S P) (ts : List ℝ) (ode : Bool) (dt : Option ℝ) (h : Session Φ p vs o) (hne : ts ≠ [])
      (hm : Mono ts) (he : ∀ old, o.t = some (.shared old) → ExactStart ts old) :
      Session Φ p vs (integrate (flowInteg Φ) o (.shared ts) p ode dt).2

namespace C36aux

theorem Mono.up {l : List ℝ} (h : Mono l) {a b : ℝ} (ha : l.head? = some a) (hb : l.getLast? = some b)
    (hab : a < b) : l.Pairwise (· < ·) := by
  rcases h with h | h
  · exact h
  · exfalso
    cases l with
    | nil => cases ha
    | cons x l =>
      cases ha
      have hmem := List.mem_of_getLast? hb
      rcases List.mem_cons.1 hmem with h1 | h1
      · exact absurd h1 hab.ne'
      · have := (List.pairwise_cons.1 h).1 b h1
        exact absurd hab (not_lt.2 (le_of_lt this))

theorem Mono.down {l : List ℝ} (h : Mono l) {a b : ℝ} (ha : l.head? = some a) (hb : l.getLast? = some b)
    (hab : ¬ a < b) : l.Pairwise (· > ·) := by
  rcases h with h | h
  · cases l with
    | nil => exact .nil
    | cons x l =>
      cases ha
      cases l with
      | nil => simp
      | cons y l =>
        exfalso
        apply hab
        have hb' : (y :: l).getLast? = some b := by rwa [List.getLast?_cons_cons] at hb
        exact (List.pairwise_cons.1 h).1 b (List.mem_of_getLast? hb')
  · exact h

theorem le_last {l : List ℝ} (h : l.Pairwise (· < ·)) {b : ℝ} (hb : l.getLast? = some b) :
    ∀ x ∈ l, x ≤ b := by
  induction l with
  | nil => simp
  | cons y l ih =>
    intro x hx
    cases l with
    | nil =>
      simp only [List.getLast?_singleton, Option.some.injEq] at hb
      simp only [List.mem_singleton] at hx
      rw [hx, hb]
    | cons z l =>
      rw [List.getLast?_cons_cons] at hb
      rcases List.mem_cons.1 hx with rfl | hx
      · exact le_of_lt ((List.pairwise_cons.1 h).1 b (List.mem_of_getLast? hb))
      · exact ih (List.pairwise_cons.1 h).2 hb x hx

theorem ge_last {l : List ℝ} (h : l.Pairwise (· > ·)) {b : ℝ} (hb : l.getLast? = some b) :
    ∀ x ∈ l, b ≤ x := by
  induction l with
  | nil => simp
  | cons y l ih =>
    intro x hx
    cases l with
    | nil =>
      simp only [List.getLast?_singleton, Option.some.injEq] at hb
      simp only [List.mem_singleton] at hx
      rw [hx, hb]
    | cons z l =>
      rw [List.getLast?_cons_cons] at hb
      rcases List.mem_cons.1 hx with rfl | hx
      · exact le_of_lt ((List.pairwise_cons.1 h).1 b (List.mem_of_getLast? hb))
      · exact ih (List.pairwise_cons.1 h).2 hb x hx

theorem forward_up {old new : List ℝ} {s : ℝ} (ho : old.Pairwise (· < ·)) (hn : new.Pairwise (· < ·))
    (hl : old.getLast? = some s) (hh : new.head? = some s) : (old ++ new.tail).Pairwise (· < ·) := by
  cases new with
  | nil => cases hh
  | cons x new =>
    cases hh
    rw [List.tail_cons, List.pairwise_append]
    obtain ⟨h1, h2⟩ := List.pairwise_cons.1 hn
    exact ⟨ho, h2, fun a ha b hb => lt_of_le_of_lt (le_last ho hl a ha) (h1 b hb)⟩

theorem forward_down {old new : List ℝ} {s : ℝ} (ho : old.Pairwise (· > ·)) (hn : new.Pairwise (· > ·))
    (hl : old.getLast? = some s) (hh : new.head? = some s) : (old ++ new.tail).Pairwise (· > ·) := by
  cases new with
  | nil => cases hh
  | cons x new =>
    cases hh
    rw [List.tail_cons, List.pairwise_append]
    obtain ⟨h1, h2⟩ := List.pairwise_cons.1 hn
    exact ⟨ho, h2, fun a ha b hb => lt_of_lt_of_le (h1 b hb) (ge_last ho hl a ha)⟩

theorem backward_up {old new : List ℝ} {s : ℝ} (ho : old.Pairwise (· < ·)) (hn : new.Pairwise (· > ·))
    (hl : old.head? = some s) (hh : new.head? = some s) :
    (new.tail.reverse ++ old).Pairwise (· < ·) := by
  cases new with
  | nil => cases hh
  | cons x new =>
    cases old with
    | nil => cases hl
    | cons y old =>
      cases hh
      cases hl
      obtain ⟨h1, h2⟩ := List.pairwise_cons.1 hn
      obtain ⟨h3, h4⟩ := List.pairwise_cons.1 ho
      rw [List.tail_cons, List.pairwise_append, List.pairwise_reverse]
      refine ⟨h2, ho, fun a ha b hb => ?_⟩
      have := h1 a (List.mem_reverse.1 ha)
      rcases List.mem_cons.1 hb with rfl | hb
      · exact this
      · exact lt_trans this (h3 b hb)

theorem backward_down {old new : List ℝ} {s : ℝ} (ho : old.Pairwise (· > ·)) (hn : new.Pairwise (· < ·))
    (hl : old.head? = some s) (hh : new.head? = some s) :
    (new.tail.reverse ++ old).Pairwise (· > ·) := by
  cases new with
  | nil => cases hh
  | cons x new =>
    cases old with
    | nil => cases hl
    | cons y old =>
      have hxy : x = y := (Option.some.inj hh).trans (Option.some.inj hl).symm
      subst hxy
      obtain ⟨h1, h2⟩ := List.pairwise_cons.1 hn
      obtain ⟨h3, h4⟩ := List.pairwise_cons.1 ho
      rw [List.tail_cons, List.pairwise_append, List.pairwise_reverse]
      refine ⟨h2, ho, fun a ha b hb => ?_⟩
      have : x < a := h1 a (List.mem_reverse.1 ha)
      rcases List.mem_cons.1 hb with rfl | hb
      · exact this
      · exact lt_trans (h3 b hb : b < x) this

/-- What the comparison of the times establishes. -/
theorem direction_some {new old : List ℝ} {d : Dir} (h : direction new old = .ok (some d))
    (hn : Mono new) (ho : Mono old) (he : ExactStart new old) :
    (d = .forward ∧ (∃ s, old.getLast? = some s ∧ new.head? = some s) ∧ Mono (old ++ new.tail)) ∨
    (d = .backward ∧ (∃ s, old.head? = some s ∧ new.head? = some s) ∧ Mono (new.tail.reverse ++ old)) := by
  unfold direction at h
  cases ht0 : new.head? with
  | none => rw [ht0] at h; cases h
  | some t0 =>
  cases ht1 : new.getLast? with
  | none => rw [ht0, ht1] at h; cases h
  | some t1 =>
  cases hs0 : old.head? with
  | none => rw [ht0, ht1, hs0] at h; cases h
  | some s0 =>
  cases hs1 : old.getLast? with
  | none => rw [ht0, ht1, hs0, hs1] at h; cases h
  | some s1 =>
  rw [ht0, ht1, hs0, hs1] at h
  simp only at h
  have hsingle : ¬ 1 < new.length → new.Pairwise (· < ·) ∧ new.Pairwise (· > ·) := by
    intro hl
    cases new with
    | nil => simp
    | cons x l =>
      cases l with
      | nil => simp
      | cons y l => simp at hl
  by_cases hc : isclose t0 s1
  · rw [if_pos hc] at h
    have heq : t0 = s1 := he.1 t0 (by rw [ht0]; rfl) s1 (by rw [hs1]; rfl) hc
    subst heq
    left
    have hdir := Except.ok.inj h
    by_cases hlen : 1 < new.length
    · rw [if_pos hlen] at hdir
      split_ifs at hdir with hd
      cases hdir
      refine ⟨rfl, ⟨t0, rfl, rfl⟩, ?_⟩
      by_cases hup : s0 < t0
      · have : t0 < t1 := by simpa [hup] using hd
        exact Or.inl (forward_up (Mono.up ho hs0 hs1 hup) (Mono.up hn ht0 ht1 this) hs1 ht0)
      · have : ¬ t0 < t1 := by simpa [hup] using hd
        exact Or.inr (forward_down (Mono.down ho hs0 hs1 hup) (Mono.down hn ht0 ht1 this) hs1 ht0)
    · rw [if_neg hlen, if_pos rfl] at hdir
      cases hdir
      refine ⟨rfl, ⟨t0, rfl, rfl⟩, ?_⟩
      rcases ho with ho | ho
      · exact Or.inl (forward_up ho (hsingle hlen).1 hs1 ht0)
      · exact Or.inr (forward_down ho (hsingle hlen).2 hs1 ht0)
  · rw [if_neg hc] at h
    by_cases hc2 : isclose t0 s0
    · rw [if_pos hc2] at h
      have heq : t0 = s0 := he.2 t0 (by rw [ht0]; rfl) s0 (by rw [hs0]; rfl) hc2
      subst heq
      right
      have hdir := Except.ok.inj h
      by_cases hlen : 1 < new.length
      · rw [if_pos hlen] at hdir
        split_ifs at hdir with hd
        cases hdir
        refine ⟨rfl, ⟨t0, rfl, rfl⟩, ?_⟩
        by_cases hup : t0 < s1
        · have : ¬ t0 < t1 := by simpa [hup] using hd
          exact Or.inl (backward_up (Mono.up ho hs0 hs1 hup) (Mono.down hn ht0 ht1 this) hs0 ht0)
        · have : t0 < t1 := by simpa [hup] using hd
          exact Or.inr (backward_down (Mono.down ho hs0 hs1 hup) (Mono.up hn ht0 ht1 this) hs0 ht0)
      · rw [if_neg hlen] at hdir
        have hd : d = .backward := by
          split_ifs at hdir
          cases hdir
          rfl
        refine ⟨hd, ⟨t0, rfl, rfl⟩, ?_⟩
        rcases ho with ho | ho
        · exact Or.inl (backward_up ho (hsingle hlen).2 hs0 ht0)
        · exact Or.inr (backward_down ho (hsingle hlen).1 hs0 ht0)
    · rw [if_neg hc2] at h
      cases h

theorem forall₂_map_eq {α β : Type} {f : α → β} {xs : List α} {ys : List β}
    (h : List.Forall₂ (fun x y => (Except.ok (f x) : Except Err β) = .ok y) xs ys) : ys = xs.map f := by
  induction h with
  | nil => rfl
  | cons h1 h2 ih => rw [List.map_cons, ← ih, Except.ok.inj h1]

theorem runAll_flow {Φ : ℝ → ℝ → S → S} {p : P} {ts : List ℝ} {vs : List S} {out : List (List S)}
    (h : runAll (flowInteg Φ) p (.shared ts) vs = .ok out) :
    out = vs.map fun v => ts.map fun t => Φ (ts.headD 0) t v :=
  forall₂_map_eq (C35aux.runAll_shared.1 h)

theorem startState_ok {d : Dir} {x : List S} {s : S} (h : startState d x = .ok s) :
    (d = .forward ∧ x.getLast? = some s) ∨ (d = .backward ∧ x.head? = some s) := by
  unfold startState at h
  cases d with
  | forward =>
    simp only at h
    cases hx : x.getLast? with
    | none => rw [hx] at h; cases h
    | some y => rw [hx] at h; cases h; exact Or.inl ⟨rfl, rfl⟩
  | backward =>
    simp only at h
    cases hx : x.head? with
    | none => rw [hx] at h; cases h
    | some y => rw [hx] at h; cases h; exact Or.inr ⟨rfl, rfl⟩

/-- The states from which a continuation starts, when the trajectories are `vs.map (ts.map …)`. -/
theorem starts_eq {d : Dir} {f : S → ℝ → S} {ts : List ℝ} {s : ℝ}
    (hs : (d = .forward → ts.getLast? = some s) ∧ (d = .backward → ts.head? = some s)) :
    ∀ {vs starts : List S}, (vs.map fun v => ts.map (f v)).mapM (startState d) = .ok starts →
      starts = vs.map fun v => f v s := by
  intro vs starts h
  have h2 := mapM_ok.1 h
  clear h
  induction vs generalizing starts with
  | nil => cases h2; rfl
  | cons v vs ih =>
    rw [List.map_cons] at h2
    cases h2 with
    | cons h1 h2 =>
      rw [ih h2, List.map_cons]
      congr 1
      rcases startState_ok h1 with ⟨hd, hx⟩ | ⟨hd, hx⟩
      · rw [List.getLast?_map, hs.1 hd] at hx
        exact (Option.some.inj hx).symm
      · rw [List.head?_map, hs.2 hd] at hx
        exact (Option.some.inj hx).symm

theorem head_mem {l : List ℝ} (h : l ≠ []) : l.headD 0 ∈ l := by
  cases l with
  | nil => exact absurd rfl h
  | cons x l => simp

theorem zipWith_map_map {α β : Type} (f g : α → List β) (k : List β → List β → List β) (vs : List α) :
    List.zipWith k (vs.map f) (vs.map g) = vs.map fun v => k (f v) (g v) := by
  induction vs with
  | nil => rfl
  | cons v vs ih => simp [ih]

end C36aux

open C36aux

/-- One `integrate` call on an object whose stored trajectories lie on one trajectory: the result is again of
this kind, through the same initial conditions; either the stored times are those of before and those of the
call, or only those of the call, or (the call is refused) nothing has changed. -/
theorem C36_step {Φ : ℝ → ℝ → S → S} (hΦ : IsFlow Φ) {o : Orbit S P} {old new : List ℝ} {p : P} {ode : Bool}
    {dt : Option ℝ} (ho : OneTrajectory Φ o old) (hne : new ≠ []) (hn : Mono new) (he : ExactStart new old) :
    let o' := (integrate (flowInteg Φ) o (.shared new) p ode dt).2;
    o'.vxvv = o.vxvv ∧ (o' = o ∨ ∃ ts, OneTrajectory Φ o' ts ∧
      ((∀ x, x ∈ ts ↔ x ∈ old ∨ x ∈ new) ∨ ts = new)) := by
  intro o'
  have hout := integrate_outcome (flowInteg Φ) o (.shared new) p ode dt
  change Outcome _ o _ p ode dt _ o' at hout
  clear_value o'
  revert hout
  generalize (integrate (flowInteg Φ) o (.shared new) p ode dt).1 = r
  intro hout
  obtain ⟨hot, hom, τ, hτ, hox⟩ := ho
  cases hout with
  | refused e => exact ⟨rfl, Or.inl rfl⟩
  | restartRaised e hc hs h =>
    have := C35aux.runAll_shared (integ := flowInteg Φ) (p := p) (ts := new) (vs := o.vxvv)
      (out := o.vxvv.map fun v => new.map fun t => Φ (new.headD 0) t v)
    simp only [TArg.times] at h
    rw [h] at this
    have hf : List.Forall₂ (fun v x => flowInteg Φ p v new = .ok x) o.vxvv
        (o.vxvv.map fun v => new.map fun t => Φ (new.headD 0) t v) := by
      rw [List.forall₂_map_right_iff, List.forall₂_same]
      intro v _
      rfl
    exact absurd (this.2 hf) (by simp)
  | restarted out hc hs h =>
    refine ⟨rfl, Or.inr ⟨new, ⟨rfl, hn, new.headD 0, head_mem hne, ?_⟩, Or.inr rfl⟩⟩
    rw [runAll_flow h]
  | continueRaised d new' old' xs starts e hc ht hd hold hx hst h =>
    cases ht
    have := C35aux.runAll_shared (integ := flowInteg Φ) (p := p) (ts := new) (vs := starts)
      (out := starts.map fun v => new.map fun t => Φ (new.headD 0) t v)
    rw [h] at this
    have hf : List.Forall₂ (fun v x => flowInteg Φ p v new = .ok x) starts
        (starts.map fun v => new.map fun t => Φ (new.headD 0) t v) := by
      rw [List.forall₂_map_right_iff, List.forall₂_same]
      intro v _
      rfl
    exact absurd (this.2 hf) (by simp)
  | continued d new' old' xs starts out hc ht hd hold hx hst h =>
    cases ht
    rw [hot] at hold
    cases hold
    rw [hox] at hx
    cases hx
    obtain ⟨_, new'', old'', _, _, e1, e2, _, _, hdir⟩ := direction_ok_shared hd
    cases e1
    rw [hot] at e2
    cases e2
    have hout := runAll_flow h
    rcases direction_some hdir hn hom he with ⟨rfl, ⟨s, hs1, hs2⟩, hm⟩ | ⟨rfl, ⟨s, hs1, hs2⟩, hm⟩
    · have hst' := starts_eq (d := .forward) (s := s) ⟨fun _ => hs1, fun h => (by cases h)⟩ hst
      have hhd : new.headD 0 = s := by rw [List.headD_eq_head?_getD, hs2]; rfl
      refine ⟨rfl, Or.inr ⟨old ++ new.tail, ⟨rfl, hm, τ, List.mem_append_left _ hτ, ?_⟩, Or.inl ?_⟩⟩
      · simp only [merge, Option.some.injEq]
        rw [hout, hst', List.map_map, zipWith_map_map]
        refine List.map_congr_left fun v _ => ?_
        simp only [Function.comp, hhd, hΦ.trans]
        rw [List.map_append, List.map_tail]
      · intro x
        cases new with
        | nil => cases hs2
        | cons y new =>
          cases hs2
          rw [List.tail_cons, List.mem_append, List.mem_cons]
          constructor
          · rintro (h | h)
            · exact Or.inl h
            · exact Or.inr (Or.inr h)
          · rintro (h | rfl | h)
            · exact Or.inl h
            · exact Or.inl (List.mem_of_getLast? hs1)
            · exact Or.inr h
    · have hst' := starts_eq (d := .backward) (s := s) ⟨fun h => (by cases h), fun _ => hs1⟩ hst
      have hhd : new.headD 0 = s := by rw [List.headD_eq_head?_getD, hs2]; rfl
      refine ⟨rfl, Or.inr ⟨new.tail.reverse ++ old, ⟨rfl, hm, τ, List.mem_append_right _ hτ, ?_⟩, Or.inl ?_⟩⟩
      · simp only [merge, Option.some.injEq]
        rw [hout, hst', List.map_map, zipWith_map_map]
        refine List.map_congr_left fun v _ => ?_
        simp only [Function.comp, hhd, hΦ.trans]
        rw [List.map_append, List.map_reverse, List.map_tail]
      · intro x
        cases new with
        | nil => cases hs2
        | cons y new =>
          cases hs2
          rw [List.tail_cons, List.mem_append, List.mem_cons, List.mem_reverse]
          constructor
          · rintro (h | h)
            · exact Or.inr (Or.inr h)
            · exact Or.inl h
          · rintro (h | rfl | h)
            · exact Or.inr h
            · exact Or.inr (List.mem_of_head? hs1)
            · exact Or.inl h

/-- After every sequence of `integrate` calls the initial conditions are the original ones and everything
stored lies on one trajectory through them, at strictly monotone times. -/
theorem C36_history_partial {Φ : ℝ → ℝ → S → S} (hΦ : IsFlow Φ) {p : P} {vs : List S} {o : Orbit S P}
    (h : Session Φ p vs o) :
    o.vxvv = vs ∧ ((o.t = none ∧ o.orbit = none) ∨ ∃ ts, OneTrajectory Φ o ts) := by
  induction h with
  | start o hv ht hx => exact ⟨hv, Or.inl ⟨ht, hx⟩⟩
  | step o ts ode dt h hne hm he ih =>
    obtain ⟨hv, ⟨ht, hx⟩ | ⟨old, ho⟩⟩ := ih
    · have hout := integrate_outcome (flowInteg Φ) o (.shared ts) p ode dt
      revert hout
      generalize (integrate (flowInteg Φ) o (.shared ts) p ode dt).1 = r
      generalize (integrate (flowInteg Φ) o (.shared ts) p ode dt).2 = o'
      intro hout
      cases hout with
      | refused e => exact ⟨hv, Or.inl ⟨ht, hx⟩⟩
      | restartRaised e hc hs h =>
        have := C35aux.runAll_shared (integ := flowInteg Φ) (p := p) (ts := ts) (vs := o.vxvv)
          (out := o.vxvv.map fun v => ts.map fun t => Φ (ts.headD 0) t v)
        simp only [TArg.times] at h
        rw [h] at this
        have hf : List.Forall₂ (fun v x => flowInteg Φ p v ts = .ok x) o.vxvv
            (o.vxvv.map fun v => ts.map fun t => Φ (ts.headD 0) t v) := by
          rw [List.forall₂_map_right_iff, List.forall₂_same]
          intro v _
          rfl
        exact absurd (this.2 hf) (by simp)
      | restarted out hc hs h =>
        refine ⟨hv, Or.inr ⟨ts, rfl, hm, ts.headD 0, head_mem hne, ?_⟩⟩
        rw [runAll_flow h]
      | continueRaised d new old' xs starts e hc ht' hd hold => rw [ht] at hold; cases hold
      | continued d new old' xs starts out hc ht' hd hold => rw [ht] at hold; cases hold
    · obtain ⟨h1, h2⟩ := C36_step hΦ (p := p) (ode := ode) (dt := dt) ho hne hm (he old ho.1)
      refine ⟨h1.trans hv, Or.inr ?_⟩
      rcases h2 with h2 | ⟨ts', h3, _⟩
      · rw [h2]
        exact ⟨old, ho⟩
      · exact ⟨ts', h3⟩

/-- A call that starts exactly at the end of the stored times, in the same direction, is a continuation: the
new stored times are those of before and those of the call. -/
theorem C36_continues {Φ : ℝ → ℝ → S → S} (hΦ : IsFlow Φ) {o : Orbit S P} {old new : List ℝ} {p q q' : P}
    {ode : Bool} {dt : Option ℝ} (ho : OneTrajectory Φ o old) (hp : o.pot = some q) (hq : o.origPot = some q')
    (hc : o.cannotContinue = false) (hok : checkTimes o (.shared new) ode dt = .ok ())
    {s0 s1 t1 : ℝ} (h0 : old.head? = some s0) (h1 : old.getLast? = some s1) (hn : Mono new)
    (hn1 : new.getLast? = some t1)
    (hdir : (new.head? = some s1 ∧ (s0 < s1 ∧ s1 < t1 ∨ s1 < s0 ∧ t1 < s1)) ∨
      (new.head? = some s0 ∧ ¬ isclose s0 s1 ∧ (s0 < s1 ∧ t1 < s0 ∨ s1 < s0 ∧ s0 < t1)))
    (he : ExactStart new old) :
    ∃ o' ts, integrate (flowInteg Φ) o (.shared new) p ode dt = (.ok (), o') ∧ o'.vxvv = o.vxvv ∧
      OneTrajectory Φ o' ts ∧ ∀ x, x ∈ ts ↔ x ∈ old ∨ x ∈ new := by
  have hne : new ≠ [] := by rintro rfl; cases hn1
  obtain ⟨hot, hom, τ, hτ, hox⟩ := id ho
  have hlen : ∀ {t0 : ℝ}, new.head? = some t0 → t0 ≠ t1 → 1 < new.length := by
    intro t0 ht0 hne'
    cases new with
    | nil => cases ht0
    | cons x l =>
      cases l with
      | nil =>
        cases ht0
        simp only [List.getLast?_singleton, Option.some.injEq] at hn1
        exact absurd hn1 hne'
      | cons y l => simp
  have hd : ∃ d, direction new old = .ok (some d) := by
    unfold direction
    rcases hdir with ⟨hh, hd⟩ | ⟨hh, hnc, hd⟩
    · have hl := hlen hh (by rcases hd with h | h <;> [exact h.2.ne; exact h.2.ne'])
      have hcl : isclose s1 s1 := by
        unfold isclose
        rw [sub_self, abs_zero]
        positivity
      rw [hh, hn1, h0, h1]
      simp only [if_pos hcl, if_pos hl]
      rcases hd with hd | hd
      · exact ⟨.forward, by simp [hd.1, hd.2]⟩
      · exact ⟨.forward, by simp [not_lt.2 hd.1.le, not_lt.2 hd.2.le]⟩
    · have hl := hlen hh (by rcases hd with h | h <;> [exact h.2.ne'; exact h.2.ne])
      have hcl : isclose s0 s0 := by
        unfold isclose
        rw [sub_self, abs_zero]
        positivity
      rw [hh, hn1, h0, h1]
      simp only [if_neg hnc, if_pos hcl, if_pos hl]
      rcases hd with hd | hd
      · exact ⟨.backward, by simp [hd.1, not_lt.2 hd.2.le]⟩
      · exact ⟨.backward, by simp [not_lt.2 hd.1.le, hd.2]⟩
  obtain ⟨d, hd⟩ := hd
  have hsc : shouldContinue o (TArg.times (.shared new)) = .ok (some d) := by
    unfold shouldContinue
    simp only [hc, hot, hp, hq, TArg.times]
    exact hd
  have hstart : ∃ starts, (o.vxvv.map fun v => old.map fun t => Φ τ t v).mapM (startState d) = .ok starts := by
    have : ∀ vs : List S, ∃ starts, (vs.map fun v => old.map fun t => Φ τ t v).mapM (startState d) =
        .ok starts := by
      intro vs
      induction vs with
      | nil => exact ⟨[], rfl⟩
      | cons v vs ih =>
        obtain ⟨ss, hss⟩ := ih
        have : ∃ s, startState d (old.map fun t => Φ τ t v) = .ok s := by
          unfold startState
          cases d with
          | forward => simp only [List.getLast?_map, h1, Option.map_some]; exact ⟨_, rfl⟩
          | backward => simp only [List.head?_map, h0, Option.map_some]; exact ⟨_, rfl⟩
        obtain ⟨s, hs⟩ := this
        exact ⟨s :: ss, mapM_ok.2 (.cons hs (mapM_ok.1 hss))⟩
    exact this o.vxvv
  obtain ⟨starts, hst⟩ := hstart
  have hrun : runAll (flowInteg Φ) p (.shared new) starts =
      .ok (starts.map fun v => new.map fun t => Φ (new.headD 0) t v) := by
    rw [C35aux.runAll_shared, List.forall₂_map_right_iff, List.forall₂_same]
    intro v _
    rfl
  have hint : ∃ o', integrate (flowInteg Φ) o (.shared new) p ode dt = (.ok (), o') ∧
      ∃ zs, (o'.t = some (.shared (old ++ new.tail)) ∨ o'.t = some (.shared (new.tail.reverse ++ old))) ∧
        o'.orbit = some zs := by
    unfold integrate
    simp only [hok, hsc, begin, hot, hox, hst]
    simp only [TArg.times, hrun]
    refine ⟨_, rfl, ?_⟩
    cases d with
    | forward => exact ⟨_, Or.inl rfl, rfl⟩
    | backward => exact ⟨_, Or.inr rfl, rfl⟩
  obtain ⟨o', hi, zs, ht', hz'⟩ := hint
  obtain ⟨e1, e2⟩ := C36_step hΦ (p := p) (ode := ode) (dt := dt) ho hne hn he
  rw [hi] at e1 e2
  simp only at e1 e2
  have hmem : ∀ ts, OneTrajectory Φ o' ts → ∀ x, x ∈ ts ↔ x ∈ old ∨ x ∈ new := by
    rintro ts ⟨k1, _⟩ x
    rcases hdir with ⟨hh, hd'⟩ | ⟨hh, hnc, hd'⟩
    · have hfw : d = .forward := by
        rcases direction_some hd hn hom he with ⟨rfl, _⟩ | ⟨rfl, ⟨s, a1, a2⟩, _⟩
        · rfl
        · rw [h0] at a1; rw [hh] at a2
          rw [Option.some.inj a1, ← Option.some.inj a2] at hd'
          rcases hd' with h | h <;> exact absurd h.1 (lt_irrefl _)
      subst hfw
      have hts : ts = old ++ new.tail := by
        unfold integrate at hi
        simp only [hok, hsc, begin, hot, hox, hst] at hi
        simp only [TArg.times, hrun, Times.forOrbit, merge] at hi
        have h2 := congrArg (fun z => z.2.t) hi
        simp only at h2
        rw [k1] at h2
        cases h2
        rfl
      subst hts
      cases new with
      | nil => cases hh
      | cons y new =>
        cases hh
        rw [List.tail_cons, List.mem_append, List.mem_cons]
        constructor
        · rintro (h | h)
          · exact Or.inl h
          · exact Or.inr (Or.inr h)
        · rintro (h | rfl | h)
          · exact Or.inl h
          · exact Or.inl (List.mem_of_getLast? h1)
          · exact Or.inr h
    · have hbw : d = .backward := by
        rcases direction_some hd hn hom he with ⟨rfl, ⟨s, a1, a2⟩, _⟩ | ⟨rfl, _⟩
        · rw [h1] at a1; rw [hh] at a2
          rw [Option.some.inj a1, ← Option.some.inj a2] at hd'
          rcases hd' with h | h <;> exact absurd h.1 (lt_irrefl _)
        · rfl
      subst hbw
      have hts : ts = new.tail.reverse ++ old := by
        unfold integrate at hi
        simp only [hok, hsc, begin, hot, hox, hst] at hi
        simp only [TArg.times, hrun, Times.forOrbit, merge] at hi
        have h2 := congrArg (fun z => z.2.t) hi
        simp only at h2
        rw [k1] at h2
        cases h2
        rfl
      subst hts
      cases new with
      | nil => cases hh
      | cons y new =>
        cases hh
        rw [List.tail_cons, List.mem_append, List.mem_cons, List.mem_reverse]
        constructor
        · rintro (h | h)
          · exact Or.inr (Or.inr h)
          · exact Or.inl h
        · rintro (h | rfl | h)
          · exact Or.inr h
          · exact Or.inr (List.mem_of_head? h0)
          · exact Or.inl h
  rcases e2 with e2 | ⟨ts, e2, _⟩
  · exact ⟨o', old, hi, e1, by rw [e2]; exact ho, hmem old (by rw [e2]; exact ho)⟩
  · exact ⟨o', ts, hi, e1, e2, hmem ts e2⟩

/-- A routine that works step by step: the next stored state is a function of the two times and the current
state. -/
def stepInteg (σ : ℝ → ℝ → S → S) (_ : P) (v : S) : List ℝ → Except Err (List S)
  | [] => .ok []
  | t :: ts => .ok (go v t ts)
where
  /-- the states at `t :: ts`, starting from `v` at `t` -/
  go (v : S) (t : ℝ) : List ℝ → List S
    | [] => [v]
    | u :: us => v :: go (σ t u v) u us

namespace C36aux

theorem go_ne (σ : ℝ → ℝ → S → S) (v : S) (t : ℝ) (ts : List ℝ) : stepInteg.go σ v t ts ≠ [] := by
  cases ts <;> simp [stepInteg.go]

theorem go_append (σ : ℝ → ℝ → S → S) : ∀ (ts : List ℝ) (v : S) (t : ℝ) (us : List ℝ) (s : ℝ) (w : S),
    (t :: ts).getLast? = some s → (stepInteg.go σ v t ts).getLast? = some w →
    stepInteg.go σ v t (ts ++ us) = stepInteg.go σ v t ts ++ (stepInteg.go σ w s us).tail
  | [], v, t, us, s, w, hs, hw => by
    simp only [List.getLast?_singleton, Option.some.injEq, stepInteg.go] at hs hw
    subst hs hw
    cases us with
    | nil => simp [stepInteg.go]
    | cons u us => simp [stepInteg.go]
  | u :: ts, v, t, us, s, w, hs, hw => by
    rw [List.getLast?_cons_cons] at hs
    have hw' : (stepInteg.go σ (σ t u v) u ts).getLast? = some w := by
      simp only [stepInteg.go] at hw
      rwa [List.getLast?_cons_of_ne_nil (go_ne _ _ _ _)] at hw
    simp only [List.cons_append, stepInteg.go]
    rw [go_append σ ts _ _ us s w hs hw']

theorem forall₂_step {integ : S → Except Err (List S)} {g : S → List S} (hg : ∀ v, integ v = .ok (g v))
    {vs : List S} {out : List (List S)} (h : List.Forall₂ (fun v x => integ v = .ok x) vs out) :
    out = vs.map g := by
  refine forall₂_map_eq (h.imp fun v x hx => ?_)
  rw [← hg, hx]

theorem starts_map {g : S → List S} {vs starts : List S}
    (h : (vs.map g).mapM (startState .forward) = .ok starts) :
    List.Forall₂ (fun v s => (g v).getLast? = some s) vs starts := by
  have h2 := mapM_ok.1 h
  rw [List.forall₂_map_left_iff] at h2
  refine h2.imp fun v s hs => ?_
  rcases startState_ok hs with ⟨_, h⟩ | ⟨h, _⟩
  · exact h
  · cases h

theorem zip_starts {g : S → List S} {k : S → List S} {m : S → List S} {vs starts : List S}
    (h : List.Forall₂ (fun v s => (g v).getLast? = some s) vs starts)
    (hm : ∀ v s, (g v).getLast? = some s → m v = g v ++ (k s).tail) :
    List.zipWith (fun a b => a ++ b.tail) (vs.map g) (starts.map k) = vs.map m := by
  induction h with
  | nil => rfl
  | cons h1 h2 ih =>
    simp only [List.map_cons, List.zipWith_cons_cons, ih]
    rw [hm _ _ h1]

end C36aux

/-- For any step-by-step routine, a forward continuation stores exactly what a single call with all the times
would have stored. -/
theorem C36_single_call (σ : ℝ → ℝ → S → S) {o o1 o2 : Orbit S P} {a : ℝ} {old new : List ℝ} {p : P}
    {ode : Bool} {dt : Option ℝ} (ht : o.t = none) (hstart : new.head? = (a :: old).getLast?)
    (h1 : integrate (stepInteg σ) o (.shared (a :: old)) p ode dt = (.ok (), o1))
    (h2 : integrate (stepInteg σ) o1 (.shared new) p ode dt = (.ok (), o2))
    (hd : direction new (a :: old) = .ok (some .forward)) (hc : o.cannotContinue = false) :
    ∃ out, runAll (stepInteg σ) p (.shared (a :: old ++ new.tail)) o.vxvv = .ok out ∧
      o2.t = some (.shared (a :: old ++ new.tail)) ∧ o2.orbit = some out ∧ o2.vxvv = o.vxvv := by
  have hout := integrate_outcome (stepInteg σ) o (.shared (a :: old)) p ode dt
  rw [h1] at hout
  have ho1 : ∃ out, runAll (stepInteg σ) p (.shared (a :: old)) o.vxvv = .ok out ∧
      o1 = { o with t := some (.shared (a :: old)), pot := some p, origPot := some p, orbit := some out } := by
    simp only at hout
    generalize hr : (Except.ok () : Except Err Unit) = r at hout
    cases hout with
    | refused => cases hr
    | restartRaised => cases hr
    | restarted out hc hs h => exact ⟨out, h, rfl⟩
    | continueRaised => cases hr
    | continued d new old xs starts out hc ht' hd hold => rw [ht] at hold; cases hold
  obtain ⟨out1, hrun1, ho1⟩ := ho1
  have hsc : shouldContinue o1 (.shared new) = .ok (some .forward) := by
    rw [ho1]
    unfold shouldContinue
    simp only [hc]
    exact hd
  have hout2 := integrate_outcome (stepInteg σ) o1 (.shared new) p ode dt
  rw [h2] at hout2
  simp only at hout2
  generalize hr : (Except.ok () : Except Err Unit) = r at hout2
  have hold1 : o1.t = some (.shared (a :: old)) := by rw [ho1]
  have hx1 : o1.orbit = some out1 := by rw [ho1]
  have hv1 : o1.vxvv = o.vxvv := by rw [ho1]
  cases hout2 with
  | refused => cases hr
  | restartRaised => cases hr
  | restarted out hc' hs h => simp only [TArg.times] at hs; rw [hsc] at hs; cases hs
  | continueRaised => cases hr
  | continued d new' old' xs starts out hc' ht' hd' hold hx hst h =>
    cases ht'
    rw [hsc] at hd'
    cases hd'
    rw [hold1] at hold
    cases hold
    rw [hx1] at hx
    cases hx
    cases new with
    | nil => cases hst : (a :: old).getLast? <;> simp [direction] at hd
    | cons b new =>
      have hg1 : ∀ v, stepInteg (P := P) σ p v (a :: old) = .ok (stepInteg.go σ v a old) := fun v => rfl
      have hg2 : ∀ v, stepInteg (P := P) σ p v (b :: new) = .ok (stepInteg.go σ v b new) := fun v => rfl
      have e1 := forall₂_step hg1 (C35aux.runAll_shared.1 hrun1)
      have e2 := forall₂_step hg2 (C35aux.runAll_shared.1 h)
      rw [e1] at hst
      have hss := starts_map hst
      refine ⟨o.vxvv.map fun v => stepInteg.go σ v a (old ++ new), ?_, rfl, ?_, hv1⟩
      · rw [C35aux.runAll_shared, List.forall₂_map_right_iff, List.forall₂_same]
        intro v _
        rfl
      · simp only [merge, Option.some.injEq]
        rw [e1, e2]
        refine zip_starts hss ?_
        intro v s hs
        have hlast : (a :: old).getLast? = some b := by rw [← hstart]; rfl
        exact go_append σ old v a new b s hlast hs

/-- Free motion. -/
def freeFlow (s t : ℝ) (x : ℝ × ℝ) : ℝ × ℝ := (x.1 + x.2 * (t - s), x.2)

theorem freeFlow_isFlow : IsFlow freeFlow where
  refl s x := by simp [freeFlow]
  trans s t u x := by
    simp only [freeFlow, Prod.mk.injEq, and_true]
    ring

/-- The tolerance of the comparison of times: times that start 0.005 before the end of a stored integration
over [0, 1000] are taken to start at its end, so that the stored times are no longer monotone and the stored
states are not on one trajectory. -/
theorem C36_isclose_fails : ∃ (o1 o2 : Orbit (ℝ × ℝ) Unit),
    integrate (flowInteg freeFlow) (Orb.new [] [(0, 1)] (.one 8) (.one 220) false false) (.shared [0, 1000]) ()
      true none = (.ok (), o1) ∧
    integrate (flowInteg freeFlow) o1 (.shared [999.995, 999.996]) () true none = (.ok (), o2) ∧
    o2.t = some (.shared [0, 1000, 999.996]) ∧ o2.orbit = some [[(0, 1), (1000, 1), (1000.001, 1)]] ∧
    ∀ ts, ¬ OneTrajectory freeFlow o2 ts := by
  have hd : direction [999.995, 999.996] [0, 1000] = .ok (some .forward) := by
    unfold direction
    have hcl : isclose 999.995 1000 := by
      unfold isclose
      rw [abs_le]
      constructor <;> norm_num
    simp only [List.head?_cons, List.getLast?_cons_cons, List.getLast?_singleton, if_pos hcl]
    norm_num
  let o1 : Orbit (ℝ × ℝ) Unit := { (Orb.new [] [(0, 1)] (.one 8) (.one 220) false false : Orbit (ℝ × ℝ) Unit) with
    t := some (.shared [0, 1000]), pot := some (), origPot := some (),
    orbit := some [[freeFlow 0 0 (0, 1), freeFlow 0 1000 (0, 1)]] }
  have h1 : integrate (flowInteg freeFlow) (Orb.new [] [(0, 1)] (.one 8) (.one 220) false false)
      (.shared [0, 1000]) () true none = (.ok (), o1) := rfl
  have h2 : integrate (flowInteg freeFlow) o1 (.shared [999.995, 999.996]) () true none =
      (.ok (), { o1 with t := some (.shared [0, 1000, 999.996]),
                         orbit := some [[freeFlow 0 0 (0, 1), freeFlow 0 1000 (0, 1),
                           freeFlow 999.995 999.996 (freeFlow 0 1000 (0, 1))]] }) := by
    have hs : shouldContinue o1 (.shared [999.995, 999.996]) = .ok (some .forward) := hd
    have hc : checkTimes o1 (.shared [999.995, 999.996]) true none = .ok () := rfl
    unfold integrate
    simp only [TArg.times, hs, hc]
    rfl
  refine ⟨o1, _, h1, h2, rfl, ?_, ?_⟩
  · simp only [freeFlow]
    norm_num
  · rintro ts ⟨hts, hm, _⟩
    cases hts
    rcases hm with h | h
    · have := (List.pairwise_cons.1 (List.pairwise_cons.1 h).2).1 999.996 (by simp)
      norm_num at this
    · have := (List.pairwise_cons.1 h).1 1000 (by simp)
      norm_num at this

/-- `flip(inplace=True)` reverses the stored velocities but not the stored times: what is then stored is not a
trajectory. -/
theorem C36_flip_fails : ∃ (o1 : Orbit (ℝ × ℝ) Unit),
    integrate (flowInteg freeFlow) (Orb.new [] [(0, 1)] (.one 8) (.one 220) false false) (.shared [0, 1]) ()
      true none = (.ok (), o1) ∧ OneTrajectory freeFlow o1 [0, 1] ∧
    ∀ ts, ¬ OneTrajectory freeFlow (flipInplace (fun x => (x.1, -x.2)) o1) ts := by
  refine ⟨_, rfl, ⟨rfl, Or.inl (by simp), 0, by simp, rfl⟩, ?_⟩
  rintro ts ⟨hts, hm, τ, hτ, hx⟩
  cases hts
  have h := congrArg (fun z => z.map fun y => y.map fun w => w.map Prod.fst) hx
  change some [[(0 : ℝ) + 1 * (0 - 0), 0 + 1 * (1 - 0)]] =
    some [[(0 : ℝ) + -1 * (0 - τ), 0 + -1 * (1 - τ)]] at h
  have h' := Option.some.inj h
  have h1 := congrArg (fun z => (z.headD []).headD 0) h'
  have h2 := congrArg (fun z => (z.headD []).tail.headD 0) h'
  simp only [List.headD_cons, List.tail_cons] at h1 h2
  linarith

/-- Forward, then backward: six stored times on one trajectory. -/
example : ∃ o1 o2 : Orbit (ℝ × ℝ) Unit,
    integrate (flowInteg freeFlow) (Orb.new [] [(0, 1)] (.one 8) (.one 220) false false) (.shared [0, 1, 2]) ()
      true none = (.ok (), o1) ∧ Session freeFlow () [(0, 1)] o1 ∧
    integrate (flowInteg freeFlow) o1 (.shared [0, -1, -2, -3]) () true none = (.ok (), o2) ∧
    o2.t = some (.shared [-3, -2, -1, 0, 1, 2]) := by
  let o1 : Orbit (ℝ × ℝ) Unit := { (Orb.new [] [(0, 1)] (.one 8) (.one 220) false false : Orbit (ℝ × ℝ) Unit) with
    t := some (.shared [0, 1, 2]), pot := some (), origPot := some (),
    orbit := some [[freeFlow 0 0 (0, 1), freeFlow 0 1 (0, 1), freeFlow 0 2 (0, 1)]] }
  have h1 : integrate (flowInteg freeFlow) (Orb.new [] [(0, 1)] (.one 8) (.one 220) false false)
      (.shared [0, 1, 2]) () true none = (.ok (), o1) := rfl
  have hd : direction [0, -1, -2, -3] [0, 1, 2] = .ok (some .backward) := by
    unfold direction
    have hcl : ¬ isclose 0 2 := by
      unfold isclose
      rw [abs_le]
      norm_num
    have hcl2 : isclose 0 0 := by
      unfold isclose
      norm_num
    simp only [List.head?_cons, List.getLast?_cons_cons, List.getLast?_singleton, if_neg hcl, if_pos hcl2]
    norm_num
  have hs : shouldContinue o1 (.shared [0, -1, -2, -3]) = .ok (some .backward) := hd
  have hc : checkTimes o1 (.shared [0, -1, -2, -3]) true none = .ok () := rfl
  have h2 : integrate (flowInteg freeFlow) o1 (.shared [0, -1, -2, -3]) () true none =
      (.ok (), merge o1 [[freeFlow 0 0 (freeFlow 0 0 (0, 1)), freeFlow 0 (-1) (freeFlow 0 0 (0, 1)),
        freeFlow 0 (-2) (freeFlow 0 0 (0, 1)), freeFlow 0 (-3) (freeFlow 0 0 (0, 1))]] [0, -1, -2, -3]
        (some (.backward, [0, 1, 2], [[freeFlow 0 0 (0, 1), freeFlow 0 1 (0, 1), freeFlow 0 2 (0, 1)]],
          [(0, 1)]))) := by
    unfold integrate
    simp only [TArg.times, hs, hc]
    rfl
  refine ⟨o1, _, h1, ?_, h2, rfl⟩
  · have := Session.step (Φ := freeFlow) (p := ()) (vs := [(0, 1)])
      (Orb.new [] [(0, 1)] (.one 8) (.one 220) false false) [0, 1, 2] true none
      (.start _ rfl rfl rfl) (by simp) (Or.inl (by norm_num)) (fun old h => by cases h)
    rw [h1] at this
    exact this

end Verif
