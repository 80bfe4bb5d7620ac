import Mathlib.Data.List.Basic
import Mathlib.Data.List.Range
import Mathlib.Data.Rat.Defs
import Mathlib.Tactic.Linarith

set_option autoImplicit false

/-!
# `galpy/util/multi.py`

The workers of `parallel_map` are processes: the model is a transition system in which any running worker may make
the next step, so that every scheduling of the workers is an execution of the model.
-/

namespace Verif.Parallel

/-- The Python values passed to and returned by the mapped function: integers and floats are enough to show what
numpy does to a list of mixed types.  Simplification: arrays, strings and objects are not modelled. -/
inductive Val where
  | int (n : ℤ)
  | flt (q : ℚ)
  deriving DecidableEq

/-- Whether a value is a float. -/
def Val.isFlt : Val → Bool
  | .int _ => false
  | .flt _ => true

/-- The float with the same value. -/
def Val.toFlt : Val → Val
  | .int n => .flt n
  | .flt q => .flt q

/-- Turning a list into a numpy array promotes every element to the common type (`numpy.array_split` of a list,
multi.py 224, and `numpy.concatenate`, multi.py 167). -/
def promote (l : List Val) : List Val := if l.any Val.isFlt then l.map Val.toFlt else l

/-- Where section `i` starts (`numpy.array_split`: the first `size % n` sections have `size // n + 1` elements, the
others `size // n`; multi.py 224). -/
def divPoint (size n i : ℕ) : ℕ := i * (size / n) + min i (size % n)

/-- `sequence = numpy.array_split(sequence, numcores)` (multi.py 224). -/
def arraySplit (l : List Val) (n : ℕ) : List (List Val) :=
  (List.range n).map fun i =>
    ((promote l).drop (divPoint l.length n i)).take (divPoint l.length n (i + 1) - divPoint l.length n i)

/-- What a worker process is doing. -/
inductive Status where
  /-- In the loop over its chunk. -/
  | running
  /-- It has put its values on the output queue and exited. -/
  | finished
  /-- It has put an exception on the error queue and exited. -/
  | failed
  /-- It disappeared: killed from outside, crashed, or left by an exception that is not an `Exception`
  (`SystemExit`, `KeyboardInterrupt`). -/
  | died
  deriving DecidableEq

/-- A worker (multi.py 61-117): the part of the chunk still to do, the list `vals`, and the status. -/
structure Worker where
  todo : List Val
  vals : List Val
  status : Status

/-- All the processes and the two shared queues (multi.py 209-216).  Simplification: the progress bar, the lock and
the shared counter of iterations are left out: they do not touch the results. -/
structure Sys (Err : Type) where
  workers : List Worker
  outQ : List (ℕ × List Val)
  errQ : List Err

variable {Err : Type}

/-- The processes as created (multi.py 230-247). -/
def start (chunks : List (List Val)) : Sys Err := ⟨chunks.map fun c => ⟨c, [], .running⟩, [], []⟩

/-- One step of one worker (multi.py 97-117). -/
inductive Step (f : Val → Except Err Val) : Sys Err → Sys Err → Prop
  /-- `result = f(val)` and `vals.append(result)`. -/
  | apply (s : Sys Err) (i : ℕ) (v r : Val) (rest vals : List Val)
      (hw : s.workers[i]? = some ⟨v :: rest, vals, .running⟩) (hf : f v = .ok r) :
      Step f s { s with workers := s.workers.set i ⟨rest, vals ++ [r], .running⟩ }
  /-- `err_q.put(e)` and `return`. -/
  | raise (s : Sys Err) (i : ℕ) (v : Val) (e : Err) (rest vals : List Val)
      (hw : s.workers[i]? = some ⟨v :: rest, vals, .running⟩) (hf : f v = .error e) :
      Step f s { s with workers := s.workers.set i ⟨v :: rest, vals, .failed⟩, errQ := s.errQ ++ [e] }
  /-- `out_q.put((ii, vals))`. -/
  | finish (s : Sys Err) (i : ℕ) (vals : List Val) (hw : s.workers[i]? = some ⟨[], vals, .running⟩) :
      Step f s { s with workers := s.workers.set i ⟨[], vals, .finished⟩, outQ := s.outQ ++ [(i, vals)] }
  /-- The process disappears. -/
  | die (s : Sys Err) (i : ℕ) (todo vals : List Val) (hw : s.workers[i]? = some ⟨todo, vals, .running⟩) :
      Step f s { s with workers := s.workers.set i ⟨todo, vals, .died⟩ }

/-- The states that can be reached: every interleaving of the steps. -/
inductive Reach (f : Val → Except Err Val) (s : Sys Err) : Sys Err → Prop
  | refl : Reach f s s
  | step (t u : Sys Err) (h : Reach f s t) (hs : Step f t u) : Reach f s u

/-- `proc.join()` for every process (multi.py 142-143): none is running any more. -/
def Joined (s : Sys Err) : Prop := ∀ w ∈ s.workers, w.status ≠ .running

/-- What the call ends with. -/
inductive Result (Err : Type) where
  /-- A list. -/
  | list (l : List Val)
  /-- A lazy `map` object over the sequence: nothing is evaluated yet. -/
  | lazy (l : List Val)
  /-- The exception of a worker. -/
  | workerError (e : Err)
  /-- The `ValueError` of numpy for something that cannot be split or concatenated. -/
  | valueError

/-- `results[idx] = result` for everything on the queue (multi.py 161-164). -/
def fill (num : ℕ) (outQ : List (ℕ × List Val)) : List (Option (List Val)) :=
  outQ.foldl (fun r p => r.set p.1 (some p.2)) (List.replicate num none)

/-- `list(numpy.concatenate(results))` (multi.py 167): a `None` among the results, or no results at all, is a
`ValueError`. -/
def concat (results : List (Option (List Val))) : Result Err :=
  if results = [] ∨ none ∈ results then .valueError
  else .list (promote (results.map (·.getD [])).flatten)

/-- `run_tasks` after all the processes have been joined (multi.py 152-167). -/
def collect (num : ℕ) (s : Sys Err) : Result Err :=
  match s.errQ with
  | e :: _ => .workerError e
  | [] => concat (fill num s.outQ)

/-- The number of processes (multi.py 196-197, 220-221). -/
def cores (ncpus : ℕ) (numcores : Option ℕ) (size : ℕ) : ℕ :=
  let n := numcores.getD ncpus
  if size < n then size else n

/-- The outcomes of `parallel_map(function, sequence, numcores)` (multi.py 170-249): `r` can be the result of the
call; the flag says whether a worker process disappeared meanwhile.  Simplification: not on Windows,
multiprocessing is available, the processes can be started. -/
inductive Outcome (ncpus : ℕ) (f : Val → Except Err Val) (l : List Val) (numcores : Option ℕ) :
    Bool → Result Err → Prop
  /-- A single element: a lazy `map` (multi.py 193-194). -/
  | single (h : l.length = 1) : Outcome ncpus f l numcores false (.lazy l)
  /-- `array_split` into no sections (multi.py 224). -/
  | none (h : l.length ≠ 1) (hn : cores ncpus numcores l.length = 0) : Outcome ncpus f l numcores false .valueError
  /-- The processes run in some order until all of them are gone. -/
  | run (h : l.length ≠ 1) (hn : cores ncpus numcores l.length ≠ 0) (s : Sys Err)
      (hr : Reach f (start (arraySplit l (cores ncpus numcores l.length))) s) (hj : Joined s) :
      Outcome ncpus f l numcores (s.workers.any fun w => w.status = .died)
        (collect (cores ncpus numcores l.length) s)

end Verif.Parallel
