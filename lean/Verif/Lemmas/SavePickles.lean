import Verif.Model.SavePickles
import Mathlib.Tactic.Linarith

set_option autoImplicit false

/-!
# Invariants of `save_pickles`
-/

namespace Verif.Pickles

/-- What holds in every reachable state. -/
structure Inv (c : Setting) (s : State) : Prop where
  tmp : s.pc = .clearOpen ∨ s.pc = .move ∨ s.pc = .unlink → s.tmp = some c.data
  fresh : s.pc = .setOpen ∨ s.pc = .test → s.tmp = some []
  part : ∀ off, s.pc = .dump off → off ≤ c.data.length ∧ ∃ l, s.tmp = some l ∧ l.length ≤ off ∧ l <+: c.data
  copy : ∀ n, s.pc = .copy n → s.tmp = some c.data ∧ n ≤ c.data.length ∧ s.target = some (c.data.take n)
  unlink : s.pc = .unlink → s.target = some c.data
  moved : s.pc = .clearSaving → s.target = some c.data
  saved : s.saving = false → s.target = some c.data
  same : c.sameFs = true → s.pc ≠ .unlink ∧ (∀ n, s.pc ≠ .copy n) ∧ (s.target = c.old ∨ s.target = some c.data)
  saving : s.saving = true ∨ s.pc = .check ∨ s.pc = .handler ∨ s.pc = .fin .loop ∨ s.pc = .fin .interrupt ∨
    s.pc = .done .returned ∨ s.pc = .done .interrupt
  check : s.pc = .check → s.saving = false
  quiet : s.pc.inTry = true → s.interrupted = false → s.count = 0
  start : s.pc = .mkstemp ∨ s.pc = .closeFd → s.interrupted = false ∧ s.count = 0 ∧ s.target = c.old ∧ s.fileOpen = none
  loop : s.pc = .fin .loop → (s.saving = true → s.interrupted = true) ∧ (s.saving = false → s.count = 0)
  ret : s.pc = .done .returned → s.count = 0 ∧ s.saving = false
  bound : s.pc.inTry = true → s.pc ≠ .open → s.pc ≠ .setOpen → s.fileOpen ≠ none
  bound' : s.saving = false → s.fileOpen ≠ none
  counted : s.interrupted = true ∨ s.pc = .handler ∨ s.pc = .fin .interrupt ∨ s.pc = .done .interrupt → 0 < s.count

theorem inv_init (c : Setting) : Inv c (init c) := by
  constructor <;> simp [init, Pc.inTry]

set_option maxHeartbeats 2000000 in
theorem inv_step (c : Setting) (e : Event) (s t : State) (h : Inv c s) (hs : Step c e s t) : Inv c t := by
  obtain ⟨pc, sv, it, fo, tmp, tg, cnt⟩ := s
  obtain ⟨h1, h0, h2, h3, h4, h5, h6, h7, h8, h9, h10, h11, h12, h13, h14, h15, h16⟩ := h
  simp only at h1 h0 h2 h3 h4 h5 h6 h7 h8 h9 h10 h11 h12 h13 h14 h15 h16
  cases hs <;> simp only at * <;> constructor <;> first
    | (simp [Pc.inTry]; done)
    | (intro off h; refine ⟨by grind, _, rfl, ?_, List.take_prefix _ _⟩; grind)
    | (intro off h; refine ⟨by grind, [], by grind, by simp, List.nil_prefix⟩)
    | grind [Pc.inTry, Pc.canFail]

theorem inv_run (c : Setting) (es : List Event) (s : State) (h : Run c es (init c) s) : Inv c s := by
  generalize hi : init c = s0 at h
  induction h with
  | nil s => subst hi; exact inv_init c
  | snoc es e s t u _ hs ih => exact inv_step c e t u (ih hi) hs

end Verif.Pickles
