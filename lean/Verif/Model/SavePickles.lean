import Mathlib.Data.List.Basic
import Mathlib.Data.Nat.Basic

set_option autoImplicit false

/-!
# `save_pickles` of `galpy/util/__init__.py`

The function as a transition system: at every point of the program a `KeyboardInterrupt` can arrive, an operation on
a file can fail, and the process can crash (a crash is simply looking at the state reached so far).  A file is its
list of bytes, `none` if it does not exist.
-/

namespace Verif.Pickles

/-- How the function ends. -/
inductive End where
  /-- It returns. -/
  | returned
  /-- It raises `KeyboardInterrupt`. -/
  | interrupt
  /-- It raises the `UnboundLocalError` of `if file_open:`. -/
  | unbound
  /-- It raises the error of an operation. -/
  | error
  deriving DecidableEq

/-- What happens after the `finally` clause. -/
inductive After where
  /-- Nothing is in flight: back to `while saving`. -/
  | loop
  /-- A `KeyboardInterrupt` is in flight. -/
  | interrupt
  /-- Another exception is in flight. -/
  | error
  deriving DecidableEq

/-- The points of the program (util/__init__.py 61-85). -/
inductive Pc where
  /-- `tempfile.mkstemp()` (63). -/
  | mkstemp
  /-- `os.close(file)` (64). -/
  | closeFd
  /-- `savefile = open(tmp_savefilename, "wb")` (67). -/
  | open
  /-- `file_open = True` (68). -/
  | setOpen
  /-- `if kwargs.get("testKeyboardInterrupt", False) and not interrupted` (69-70). -/
  | test
  /-- `pickle.dump(...)` for all the arguments (71-72); the number of bytes given to the file object so far. -/
  | dump (off : ℕ)
  /-- `savefile.close()` (73). -/
  | close
  /-- `file_open = False` (74). -/
  | clearOpen
  /-- `shutil.move(tmp_savefilename, savefilename)` (75). -/
  | move
  /-- Inside `shutil.move` when the two files are on different file systems: the number of bytes copied. -/
  | copy (n : ℕ)
  /-- The end of `shutil.move` for different file systems: the temporary file is removed. -/
  | unlink
  /-- `saving = False` (76). -/
  | clearSaving
  /-- `if interrupted: raise KeyboardInterrupt` (77-78). -/
  | check
  /-- `except KeyboardInterrupt` (79-83). -/
  | handler
  /-- `finally` (84-86). -/
  | fin (a : After)
  /-- After the end. -/
  | done (e : End)
  deriving DecidableEq

/-- The points inside the `try` block. -/
def Pc.inTry : Pc → Bool
  | .open | .setOpen | .test | .dump _ | .close | .clearOpen | .move | .copy _ | .unlink | .clearSaving | .check => true
  | _ => false

/-- The operations that can fail with an exception of their own. -/
def Pc.canFail : Pc → Bool
  | .open | .dump _ | .close | .move | .copy _ | .unlink => true
  | _ => false

/-- The variables of the function, the two files, and the number of `KeyboardInterrupt`s raised so far. -/
structure State where
  pc : Pc
  saving : Bool
  interrupted : Bool
  /-- `none`: the variable is not bound yet. -/
  fileOpen : Option Bool
  tmp : Option (List ℕ)
  target : Option (List ℕ)
  count : ℕ

/-- What the caller and the operating system decide: the bytes of the pickled arguments, the option
`testKeyboardInterrupt`, the previous content of the target, and whether the directory for temporary files is on the
same file system as the target. -/
structure Setting where
  data : List ℕ
  test : Bool
  old : Option (List ℕ)
  sameFs : Bool

/-- The beginning (util/__init__.py 61-62). -/
def init (c : Setting) : State := ⟨.mkstemp, true, false, none, none, c.old, 0⟩

/-- The kinds of steps. -/
inductive Event where
  /-- The program goes on. -/
  | go
  /-- A `KeyboardInterrupt` arrives. -/
  | interrupt
  /-- An operation raises an exception. -/
  | error
  deriving DecidableEq

/-- One step.  Simplifications: the target is not a directory; `os.rename` and `os.unlink` happen at once, everything
that writes bytes does so one by one; the bytes given to the file object reach the file at any time between the call
and the close; what the close in `finally` still writes to the temporary file is not followed (the next `open`
truncates it). -/
inductive Step (c : Setting) : Event → State → State → Prop
  | mkstemp (s : State) (h : s.pc = .mkstemp) : Step c .go s { s with pc := .closeFd, tmp := some [] }
  | closeFd (s : State) (h : s.pc = .closeFd) : Step c .go s { s with pc := .open }
  | open (s : State) (h : s.pc = .open) : Step c .go s { s with pc := .setOpen, tmp := some [] }
  | setOpen (s : State) (h : s.pc = .setOpen) : Step c .go s { s with pc := .test, fileOpen := some true }
  | test (s : State) (h : s.pc = .test) (hc : (c.test && !s.interrupted) = false) :
      Step c .go s { s with pc := .dump 0 }
  | testRaise (s : State) (h : s.pc = .test) (hc : (c.test && !s.interrupted) = true) :
      Step c .go s { s with pc := .handler, count := s.count + 1 }
  | dump (s : State) (off : ℕ) (h : s.pc = .dump off) (ho : off < c.data.length) :
      Step c .go s { s with pc := .dump (off + 1) }
  | flush (s : State) (off : ℕ) (l : List ℕ) (h : s.pc = .dump off) (ht : s.tmp = some l) (hl : l.length < off) :
      Step c .go s { s with tmp := some (c.data.take (l.length + 1)) }
  | dumped (s : State) (h : s.pc = .dump c.data.length) : Step c .go s { s with pc := .close }
  | close (s : State) (h : s.pc = .close) : Step c .go s { s with pc := .clearOpen, tmp := some c.data }
  | clearOpen (s : State) (h : s.pc = .clearOpen) : Step c .go s { s with pc := .move, fileOpen := some false }
  | rename (s : State) (h : s.pc = .move) (hc : c.sameFs = true) :
      Step c .go s { s with pc := .clearSaving, target := s.tmp, tmp := none }
  | startCopy (s : State) (h : s.pc = .move) (hc : c.sameFs = false) :
      Step c .go s { s with pc := .copy 0, target := some [] }
  | copy (s : State) (n : ℕ) (l : List ℕ) (h : s.pc = .copy n) (ht : s.tmp = some l) (hn : n < l.length) :
      Step c .go s { s with pc := .copy (n + 1), target := some (l.take (n + 1)) }
  | copied (s : State) (n : ℕ) (l : List ℕ) (h : s.pc = .copy n) (ht : s.tmp = some l) (hn : n = l.length) :
      Step c .go s { s with pc := .unlink }
  | unlink (s : State) (h : s.pc = .unlink) : Step c .go s { s with pc := .clearSaving, tmp := none }
  | clearSaving (s : State) (h : s.pc = .clearSaving) : Step c .go s { s with pc := .check, saving := false }
  | check (s : State) (h : s.pc = .check) (hi : s.interrupted = false) : Step c .go s { s with pc := .fin .loop }
  | checkRaise (s : State) (h : s.pc = .check) (hi : s.interrupted = true) : Step c .go s { s with pc := .handler }
  | handler (s : State) (h : s.pc = .handler) (hs : s.saving = true) :
      Step c .go s { s with pc := .fin .loop, interrupted := true }
  | handlerRaise (s : State) (h : s.pc = .handler) (hs : s.saving = false) :
      Step c .go s { s with pc := .fin .interrupt }
  | finUnbound (s : State) (a : After) (h : s.pc = .fin a) (hf : s.fileOpen = none) :
      Step c .go s { s with pc := .done .unbound }
  | finLoop (s : State) (h : s.pc = .fin .loop) (hf : s.fileOpen ≠ none) (hs : s.saving = true) :
      Step c .go s { s with pc := .open }
  | finReturn (s : State) (h : s.pc = .fin .loop) (hf : s.fileOpen ≠ none) (hs : s.saving = false) :
      Step c .go s { s with pc := .done .returned }
  | finInterrupt (s : State) (h : s.pc = .fin .interrupt) (hf : s.fileOpen ≠ none) :
      Step c .go s { s with pc := .done .interrupt }
  | finError (s : State) (h : s.pc = .fin .error) (hf : s.fileOpen ≠ none) :
      Step c .go s { s with pc := .done .error }
  /-- A `KeyboardInterrupt` before the loop leaves the function. -/
  | interruptBefore (s : State) (h : s.pc = .mkstemp ∨ s.pc = .closeFd) :
      Step c .interrupt s { s with pc := .done .interrupt, count := s.count + 1 }
  | interruptTry (s : State) (h : s.pc.inTry = true) :
      Step c .interrupt s { s with pc := .handler, count := s.count + 1 }
  | interruptHandler (s : State) (h : s.pc = .handler) :
      Step c .interrupt s { s with pc := .fin .interrupt, count := s.count + 1 }
  | interruptFin (s : State) (a : After) (h : s.pc = .fin a) :
      Step c .interrupt s { s with pc := .done .interrupt, count := s.count + 1 }
  /-- `mkstemp` or `os.close` fails. -/
  | errorBefore (s : State) (h : s.pc = .mkstemp ∨ s.pc = .closeFd) : Step c .error s { s with pc := .done .error }
  | errorTry (s : State) (h : s.pc.canFail = true) : Step c .error s { s with pc := .fin .error }

/-- An execution: a sequence of steps with events. -/
inductive Run (c : Setting) : List Event → State → State → Prop
  | nil (s : State) : Run c [] s s
  | snoc (es : List Event) (e : Event) (s t u : State) (h : Run c es s t) (hs : Step c e t u) : Run c (es ++ [e]) s u

end Verif.Pickles
