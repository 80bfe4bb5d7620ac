import Verif.Lemmas.ParallelMap

set_option autoImplicit false

/-!
# C41: `parallel_map` is `map`

For every function, sequence, number of processes and every order in which the worker processes make their steps.
-/

namespace Verif

open Parallel

variable {Err : Type}

/-- All elements are of one type, so that numpy does not convert any. -/
def C41aux.Uniform (l : List Val) : Prop := (∀ v ∈ l, v.isFlt = true) ∨ (∀ v ∈ l, v.isFlt = false)

theorem C41aux.promote_uniform (l : List Val) (h : C41aux.Uniform l) : promote l = l := by
  unfold promote
  rcases h with h | h
  · split_ifs
    · conv_rhs => rw [← List.map_id l]
      refine List.map_congr_left fun v hv => ?_
      have := h v hv
      rcases v with n | q
      · simp [Val.isFlt] at this
      · rfl
    · rfl
  · rw [if_neg]
    simpa using h

theorem C41aux.cores_le (ncpus : ℕ) (numcores : Option ℕ) (size : ℕ) : cores ncpus numcores size ≤ size := by
  unfold cores; simp only; split_ifs <;> omega

theorem C41aux.forall₂_map (f : Val → Except Err Val) (g : Val → Val) (l rs : List Val)
    (hg : ∀ v ∈ l, f v = .ok (g v)) (h : List.Forall₂ (fun v r => f v = .ok r) l rs) : rs = l.map g := by
  induction h with
  | nil => rfl
  | cons h1 _ ih =>
    rw [List.map_cons, ← ih fun v hv => hg v (by simp [hv])]
    rw [hg _ (by simp)] at h1
    rw [Except.ok.inj h1]

theorem C41aux.split_ne_nil (l : List Val) (n : ℕ) (hn : n ≠ 0) : arraySplit l n ≠ [] := by
  intro h
  have := arraySplit_length l n
  rw [h] at this
  exact hn this.symm

/-- For every sequence of at least two elements, every number of processes and every order of the steps of the
workers, the call returns the list of the values in the order of the sequence. -/
theorem C41_map (ncpus : ℕ) (f : Val → Except Err Val) (g : Val → Val) (l : List Val) (numcores : Option ℕ)
    (r : Result Err) (hl : 2 ≤ l.length) (hn : 1 ≤ numcores.getD ncpus) (hg : ∀ v ∈ l, f v = .ok (g v))
    (hu : C41aux.Uniform l) (hu' : C41aux.Uniform (l.map g)) (h : Outcome ncpus f l numcores false r) :
    r = .list (l.map g) := by
  have hpos : cores ncpus numcores l.length ≠ 0 := by unfold cores; simp only; split_ifs <;> omega
  generalize hd : false = d at h
  cases h with
  | single h => omega
  | none h hn => exact absurd hn hpos
  | run h hn s hr hj =>
    have hinv := inv_reach f _ _ hr
    have he : s.errQ = [] := by
      by_contra he
      obtain ⟨e, c, done, v, rest, -, hc, h1, -, h2⟩ := collect_error f _ s hinv 0 he
      have hv : v ∈ l := by
        have : v ∈ (arraySplit l (cores ncpus numcores l.length)).flatten :=
          List.mem_flatten.2 ⟨c, hc, by simp [h1]⟩
        rwa [arraySplit_flatten _ _ (by omega), C41aux.promote_uniform l hu] at this
      rw [hg v hv] at h2
      cases h2
    obtain ⟨rs, h1, h2⟩ := collect_finished f _ s hinv (C41aux.split_ne_nil _ _ hn) hj (by
      intro w hw
      have := (List.any_eq_false.1 hd.symm) w hw
      simpa using this) he
    rw [arraySplit_length] at h2
    rw [arraySplit_flatten _ _ (by omega), C41aux.promote_uniform l hu] at h1
    rw [h2, C41aux.forall₂_map f g l rs hg h1, C41aux.promote_uniform _ hu']

/-- An exception of the function on any of the elements is raised by the call; the exception raised is the
function's own, on one of the elements. -/
theorem C41_error (ncpus : ℕ) (f : Val → Except Err Val) (l : List Val) (numcores : Option ℕ)
    (r : Result Err) (hl : 2 ≤ l.length) (hn : 1 ≤ numcores.getD ncpus) (hu : C41aux.Uniform l)
    (he : ∃ v ∈ l, ∃ e, f v = .error e) (h : Outcome ncpus f l numcores false r) :
    ∃ v ∈ l, ∃ e, f v = .error e ∧ r = .workerError e := by
  have hpos : cores ncpus numcores l.length ≠ 0 := by unfold cores; simp only; split_ifs <;> omega
  generalize hd : false = d at h
  cases h with
  | single h => omega
  | none h hn => exact absurd hn hpos
  | run h hn s hr hj =>
    have hinv := inv_reach f _ _ hr
    by_cases hq : s.errQ = []
    · exfalso
      obtain ⟨rs, h1, -⟩ := collect_finished f _ s hinv (C41aux.split_ne_nil _ _ hn) hj (by
        intro w hw
        have := (List.any_eq_false.1 hd.symm) w hw
        simpa using this) hq
      rw [arraySplit_flatten _ _ (by omega), C41aux.promote_uniform l hu] at h1
      obtain ⟨v, hv, e, hve⟩ := he
      clear hl hn hpos h hr hj hinv hd hq hu
      induction h1 with
      | nil => simp at hv
      | cons h2 _ ih =>
        rcases List.mem_cons.1 hv with rfl | hv
        · rw [h2] at hve; cases hve
        · exact ih hv
    · obtain ⟨e, c, done, v, rest, h0, hc, h1, -, h2⟩ := collect_error f _ s hinv (cores ncpus numcores l.length) hq
      have hv : v ∈ l := by
        have : v ∈ (arraySplit l (cores ncpus numcores l.length)).flatten :=
          List.mem_flatten.2 ⟨c, hc, by simp [h1]⟩
        rwa [arraySplit_flatten _ _ (by omega), C41aux.promote_uniform l hu] at this
      exact ⟨v, hv, e, h2, h0⟩

/-- If a worker process disappears the call raises an exception: it never returns a list with values missing. -/
theorem C41_died (ncpus : ℕ) (f : Val → Except Err Val) (l : List Val) (numcores : Option ℕ)
    (r : Result Err) (h : Outcome ncpus f l numcores true r) :
    r = .valueError ∨ ∃ e, r = .workerError e := by
  generalize hd : true = d at h
  cases h with
  | single h => cases hd
  | none h hn => cases hd
  | run h hn s hr hj =>
    have hinv := inv_reach f _ _ hr
    by_cases hq : s.errQ = []
    · left
      have := collect_died f _ s hinv (by
        obtain ⟨w, hw, h⟩ := List.any_eq_true.1 hd.symm
        exact ⟨w, hw, by simpa using h⟩) hq
      rwa [arraySplit_length] at this
    · right
      obtain ⟨e, _, _, _, _, h0, -⟩ := collect_error f _ s hinv (cores ncpus numcores l.length) hq
      exact ⟨e, h0⟩

/-- Every list that the call returns, whatever happened to the workers, is complete and in order. -/
theorem C41_sound (ncpus : ℕ) (f : Val → Except Err Val) (l out : List Val) (numcores : Option ℕ) (d : Bool)
    (hu : C41aux.Uniform l) (h : Outcome ncpus f l numcores d (.list out)) :
    ∃ rs, List.Forall₂ (fun v r => f v = .ok r) l rs ∧ out = promote rs := by
  rcases d with _ | _
  · generalize hd : false = d at h
    generalize hr : Result.list out = r at h
    cases h with
    | single h => cases hr
    | none h hn => cases hr
    | run h hn s hreach hj =>
      have hinv := inv_reach f _ _ hreach
      by_cases hq : s.errQ = []
      · obtain ⟨rs, h1, h2⟩ := collect_finished f _ s hinv (C41aux.split_ne_nil _ _ hn) hj (by
          intro w hw
          have := (List.any_eq_false.1 hd.symm) w hw
          simpa using this) hq
        rw [arraySplit_flatten _ _ (by omega), C41aux.promote_uniform l hu] at h1
        rw [arraySplit_length, ← hr] at h2
        exact ⟨rs, h1, Result.list.inj h2⟩
      · obtain ⟨e, _, _, _, _, h0, -⟩ := collect_error f _ s hinv (cores ncpus numcores l.length) hq
        rw [h0] at hr; cases hr
  · rcases C41_died ncpus f l numcores _ h with h | ⟨e, h⟩ <;> cases h

/-- The processes get chunks whose sizes differ by at most one, and none of them is idle. -/
theorem C41_balanced (ncpus : ℕ) (numcores : Option ℕ) (l c : List Val)
    (hc : c ∈ arraySplit l (cores ncpus numcores l.length)) :
    1 ≤ c.length ∧ l.length / cores ncpus numcores l.length ≤ c.length ∧
      c.length ≤ l.length / cores ncpus numcores l.length + 1 := by
  have hle := C41aux.cores_le ncpus numcores l.length
  generalize cores ncpus numcores l.length = n at *
  obtain ⟨i, hi, rfl⟩ := List.mem_map.1 hc
  have hi : i < n := List.mem_range.1 hi
  have hn : 0 < n := by omega
  have hdiv : 1 ≤ l.length / n := (Nat.one_le_div_iff hn).2 hle
  have hend : divPoint l.length n (i + 1) ≤ l.length := by
    have : ∀ k, divPoint l.length n (i + 1) ≤ divPoint l.length n (i + 1 + k) := by
      intro k
      induction k with
      | zero => exact le_rfl
      | succ k ih => exact ih.trans (divPoint_mono _ _ _)
    have h := this (n - (i + 1))
    rwa [show i + 1 + (n - (i + 1)) = n by omega, divPoint_last _ _ hn] at h
  have hm := divPoint_mono l.length n i
  simp only [List.length_take, List.length_drop, promote_length]
  rw [min_eq_left (by omega)]
  have : divPoint l.length n (i + 1) - divPoint l.length n i =
      l.length / n + (min (i + 1) (l.length % n) - min i (l.length % n)) := by
    simp only [divPoint, add_mul]; omega
  rw [this]
  omega

/-- The steps the workers still have to make. -/
def C41aux.left (s : Sys Err) : ℕ :=
  (s.workers.map fun w => if w.status = .running then w.todo.length + 1 else 0).sum

theorem C41aux.sum_set (ws : List Worker) (φ : Worker → ℕ) (i : ℕ) (w w' : Worker) (h : ws[i]? = some w)
    (hlt : φ w' < φ w) : ((ws.set i w').map φ).sum < (ws.map φ).sum := by
  induction ws generalizing i with
  | nil => simp at h
  | cons a ws ih =>
    cases i with
    | zero => simp only [List.getElem?_cons_zero, Option.some.injEq] at h; subst h; simpa using hlt
    | succ i => simpa using ih i (by simpa using h)

theorem C41aux.left_step (f : Val → Except Err Val) (s t : Sys Err) (h : Step f s t) :
    C41aux.left t < C41aux.left s := by
  cases h <;> exact C41aux.sum_set _ _ _ _ _ (by assumption) (by simp)

theorem C41aux.left_start (chunks : List (List Val)) :
    C41aux.left (start chunks : Sys Err) = chunks.flatten.length + chunks.length := by
  simp only [C41aux.left, start, List.map_map, Function.comp_def, if_true]
  induction chunks with
  | nil => rfl
  | cons c cs ih => simp only [List.map_cons, List.sum_cons, ih, List.flatten_cons, List.length_append, List.length_cons]; omega

/-- However the workers are scheduled, they are all gone after at most one step for each element and one for each
process, -/
theorem C41_terminates (f : Val → Except Err Val) (l : List Val) (n : ℕ) (hn : 0 < n) (e : ℕ → Sys Err) (k : ℕ)
    (h0 : e 0 = start (arraySplit l n)) (hs : ∀ i < k, Step f (e i) (e (i + 1))) : k ≤ l.length + n := by
  have : ∀ i ≤ k, C41aux.left (e i) + i ≤ l.length + n := by
    intro i
    induction i with
    | zero =>
      intro _
      rw [h0, C41aux.left_start, arraySplit_flatten _ _ hn, promote_length, arraySplit_length]; omega
    | succ i ih =>
      intro hi
      have h1 := ih (by omega)
      have h2 := C41aux.left_step f _ _ (hs i (by omega))
      omega
  have := this k le_rfl
  omega

/-- and as long as one of them is running one of them can make a step by itself. -/
theorem C41_progress (f : Val → Except Err Val) (s : Sys Err) (h : ¬ Joined s) :
    ∃ t, Step f s t ∧ (t.workers.any fun w => w.status = .died) = (s.workers.any fun w => w.status = .died) := by
  unfold Joined at h
  push Not at h
  obtain ⟨w, hw, hst⟩ := h
  obtain ⟨i, hi, hwi⟩ := List.getElem_of_mem hw
  have hd : ∀ w' : Worker, w'.status ≠ .died →
      ((s.workers.set i w').any fun w => w.status = .died) = (s.workers.any fun w => w.status = .died) := by
    intro w' hw'
    rw [Bool.eq_iff_iff, List.any_eq_true, List.any_eq_true]
    constructor
    · rintro ⟨x, hx, h⟩
      rcases List.mem_or_eq_of_mem_set hx with hx | rfl
      · exact ⟨x, hx, h⟩
      · exact absurd (by simpa using h) hw'
    · rintro ⟨x, hx, h⟩
      obtain ⟨j, hj, hxj⟩ := List.getElem_of_mem hx
      have hne : j ≠ i := by
        rintro rfl
        rw [hwi] at hxj; subst hxj; rw [hst] at h; simp at h
      refine ⟨x, ?_, h⟩
      apply List.mem_of_getElem? (i := j)
      rw [getElem?_set_other hne, List.getElem?_eq_getElem hj, hxj]
  have hw' : s.workers[i]? = some w := by rw [List.getElem?_eq_getElem hi, hwi]
  rcases w with ⟨todo, vals, st⟩
  simp only at hst; subst hst
  rcases todo with _ | ⟨v, rest⟩
  · exact ⟨_, .finish s i vals hw', hd _ (by simp)⟩
  · rcases hf : f v with e | r
    · exact ⟨_, .raise s i v e rest vals hw' hf, hd _ (by simp)⟩
    · exact ⟨_, .apply s i v r rest vals hw' hf, hd _ (by simp)⟩

/-- So the call always has an outcome without a process disappearing. -/
theorem C41_outcome (ncpus : ℕ) (f : Val → Except Err Val) (l : List Val) (numcores : Option ℕ) :
    ∃ r, Outcome ncpus f l numcores false r := by
  by_cases h1 : l.length = 1
  · exact ⟨_, .single h1⟩
  by_cases h2 : cores ncpus numcores l.length = 0
  · exact ⟨_, .none h1 h2⟩
  set s0 : Sys Err := start (arraySplit l (cores ncpus numcores l.length)) with hs0
  have key : ∀ (k : ℕ) (s : Sys Err), C41aux.left s ≤ k → Reach f s0 s →
      (s.workers.any fun w => w.status = .died) = false →
      ∃ t, Reach f s0 t ∧ Joined t ∧ (t.workers.any fun w => w.status = .died) = false := by
    intro k
    induction k with
    | zero =>
      intro s hk hr hd
      by_cases hj : Joined s
      · exact ⟨s, hr, hj, hd⟩
      · obtain ⟨t, ht, -⟩ := C41_progress f s hj
        have := C41aux.left_step f _ _ ht
        omega
    | succ k ih =>
      intro s hk hr hd
      by_cases hj : Joined s
      · exact ⟨s, hr, hj, hd⟩
      · obtain ⟨t, ht, hdt⟩ := C41_progress f s hj
        have := C41aux.left_step f _ _ ht
        exact ih t (by omega) (.step s t hr ht) (hdt.trans hd)
  obtain ⟨t, ht, hj, hd⟩ := key _ s0 le_rfl .refl (by
    rw [List.any_eq_false]
    intro w hw
    obtain ⟨c, -, rfl⟩ := List.mem_map.1 hw
    simp)
  have := Outcome.run h1 h2 t ht hj
  rw [hd] at this
  exact ⟨_, this⟩

/-- An empty sequence is not mapped to an empty list: the call raises a `ValueError`. -/
theorem C41_empty_fails (ncpus : ℕ) (f : Val → Except Err Val) (numcores : Option ℕ) (d : Bool) (r : Result Err)
    (h : Outcome ncpus f [] numcores d r) : r = .valueError := by
  have h0 : cores ncpus numcores ([] : List Val).length = 0 := by
    have := C41aux.cores_le ncpus numcores ([] : List Val).length
    simpa using this
  cases h with
  | single h => simp at h
  | none h hn => rfl
  | run h hn s hr hj => exact absurd h0 hn

/-- A sequence of one element gives a lazy iterator instead of a list: the function has not been called, and an
exception of it is not raised by the call. -/
theorem C41_single_fails (ncpus : ℕ) (f : Val → Except Err Val) (v : Val) (numcores : Option ℕ) (d : Bool)
    (r : Result Err) (h : Outcome ncpus f [v] numcores d r) : r = .lazy [v] := by
  cases h with
  | single h => rfl
  | none h hn => simp at h
  | run h hn s hr hj => simp at h

/-- A sequence of mixed types is converted before the function sees it. -/
theorem C41_mixed_fails :
    ∃ (f : Val → Except Unit Val) (g : Val → Val) (l : List Val), (∀ v ∈ l, f v = .ok (g v)) ∧
      ∃ r, Outcome 1 f l none false r ∧ r ≠ .list (l.map g) := by
  refine ⟨fun v => .ok (.int (if v.isFlt then 1 else 0)), fun v => .int (if v.isFlt then 1 else 0),
    [.int 1, .flt (5 / 2)], fun _ _ => rfl, ?_⟩
  obtain ⟨r, hr⟩ := C41_outcome 1 (fun v => (.ok (.int (if v.isFlt then 1 else 0)) : Except Unit Val))
    [.int 1, .flt (5 / 2)] none
  refine ⟨r, hr, ?_⟩
  rintro rfl
  generalize hd : false = d at hr
  generalize hr' : Result.list _ = r at hr
  cases hr with
  | single h => simp at h
  | none h hn => simp [cores] at hn
  | run h hn s hreach hj =>
    have hinv := inv_reach _ _ _ hreach
    by_cases hq : s.errQ = []
    · obtain ⟨rs, h1, h2⟩ := collect_finished _ _ s hinv (C41aux.split_ne_nil _ _ hn) hj (by
        intro w hw
        have := (List.any_eq_false.1 hd.symm) w hw
        simpa using this) hq
      rw [arraySplit_flatten _ _ (by omega)] at h1
      rw [arraySplit_length, ← hr'] at h2
      have h3 := C41aux.forall₂_map _ (fun v => .int (if v.isFlt then 1 else 0)) _ _ (fun _ _ => rfl) h1
      rw [h3] at h2
      simp [promote, Val.isFlt, Val.toFlt] at h2
    · obtain ⟨e, _, _, _, _, h0, -⟩ := collect_error _ _ s hinv (cores 1 none 2) hq
      change _ = collect (cores 1 none 2) s at hr'
      rw [h0] at hr'; cases hr'

/-- Which of several exceptions is raised depends on the scheduling: the one of a later element can win. -/
theorem C41_error_order_fails :
    ∃ (f : Val → Except ℕ Val) (v w : Val), f v = .error 0 ∧ f w = .error 1 ∧
      Outcome 2 f [v, w] none false (.workerError 1) := by
  set f : Val → Except ℕ Val := fun v => if v = .int 5 then .error 0 else .error 1 with hf
  refine ⟨f, .int 5, .int 6, by simp [hf], by simp [hf], ?_⟩
  have hc : cores 2 none ([.int 5, .int 6] : List Val).length = 2 := by simp [cores]
  have hstart : (start (arraySplit [.int 5, .int 6] 2) : Sys ℕ) =
      ⟨[⟨[.int 5], [], .running⟩, ⟨[.int 6], [], .running⟩], [], []⟩ := by
    simp [start, arraySplit, divPoint, promote, Val.isFlt, List.range_succ]
  have h1 := Step.raise (f := f) ⟨[⟨[.int 5], [], .running⟩, ⟨[.int 6], [], .running⟩], [], []⟩ 1 (.int 6) 1 [] []
    rfl (by simp [hf])
  have h2 := Step.raise (f := f) ⟨[⟨[.int 5], [], .running⟩, ⟨[.int 6], [], .failed⟩], [], [1]⟩ 0 (.int 5) 0 [] []
    rfl (by simp [hf])
  have hr : Reach f (start (arraySplit [.int 5, .int 6] 2))
      ⟨[⟨[.int 5], [], .failed⟩, ⟨[.int 6], [], .failed⟩], [], [1, 0]⟩ := by
    rw [hstart]; exact .step _ _ (.step _ _ .refl h1) h2
  have := Outcome.run (ncpus := 2) (f := f) (l := [.int 5, .int 6]) (numcores := none) (by simp) (by simp [cores])
    _ (by rw [hc]; exact hr) (by intro w hw; simp at hw; rcases hw with rfl | rfl <;> simp)
  simpa [collect] using this

/-! ### Instances -/

/-- Five elements on three processes. -/
example (r : Result Unit)
    (h : Outcome 8 (fun v => .ok v) [.int 1, .int 2, .int 3, .int 4, .int 5] (some 3) false r) :
    r = .list [.int 1, .int 2, .int 3, .int 4, .int 5] := by
  have hu : C41aux.Uniform [.int 1, .int 2, .int 3, .int 4, .int 5] := .inr (by simp [Val.isFlt])
  simpa using C41_map 8 (fun v => .ok v) id _ (some 3) r (by simp) (by simp) (fun _ _ => rfl) hu (by simpa using hu) h

example : arraySplit [.int 1, .int 2, .int 3, .int 4, .int 5] 3 = [[.int 1, .int 2], [.int 3, .int 4], [.int 5]] := by
  simp [arraySplit, divPoint, promote, Val.isFlt, List.range_succ]

/-- A function that raises for one of the elements. -/
example (r : Result String)
    (h : Outcome 4 (fun v => if v = .int 2 then .error "two" else .ok v) [.int 1, .int 2, .int 3] none false r) :
    r = .workerError "two" := by
  obtain ⟨v, -, e, h1, h2⟩ := C41_error 4 _ _ none r (by simp) (by simp) (.inr (by simp [Val.isFlt]))
    ⟨.int 2, by simp, "two", by simp⟩ h
  split_ifs at h1
  rw [h2, ← Except.error.inj h1]

/-- A process that disappears before it has done anything. -/
example : Outcome 2 (fun v => (.ok v : Except Unit Val)) [.int 5, .int 6] (some 1) true .valueError := by
  have h1 := Step.die (f := fun v => (.ok v : Except Unit Val)) ⟨[⟨[.int 5, .int 6], [], .running⟩], [], []⟩ 0 _ _ rfl
  have hstart : (start (arraySplit [.int 5, .int 6] 1) : Sys Unit) = ⟨[⟨[.int 5, .int 6], [], .running⟩], [], []⟩ := by
    simp [start, arraySplit, divPoint, promote, Val.isFlt, List.range_succ]
  have := Outcome.run (ncpus := 2) (f := fun v => (.ok v : Except Unit Val)) (l := [.int 5, .int 6])
    (numcores := some 1) (by simp) (by simp [cores]) _
    (by rw [show cores 2 (some 1) ([.int 5, .int 6] : List Val).length = 1 by simp [cores], hstart]
        exact .step _ _ .refl h1)
    (by intro w hw; simp at hw; rcases hw with rfl; simp)
  simpa [collect, concat, fill, cores] using this

end Verif
