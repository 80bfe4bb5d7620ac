import Verif.Model.ParallelMap

set_option autoImplicit false

/-!
# Invariants of the workers of `parallel_map`
-/

namespace Verif.Parallel

variable {Err : Type}

theorem promote_length (l : List Val) : (promote l).length = l.length := by
  unfold promote; split_ifs <;> simp

theorem divPoint_zero (size n : ℕ) : divPoint size n 0 = 0 := by simp [divPoint]

theorem divPoint_last (size n : ℕ) (hn : 0 < n) : divPoint size n n = size := by
  have h := Nat.mod_lt size hn
  rw [divPoint, min_eq_right h.le, Nat.div_add_mod]

theorem divPoint_mono (size n i : ℕ) : divPoint size n i ≤ divPoint size n (i + 1) := by
  simp only [divPoint, add_mul]
  omega

/-- The sections of a list between increasing points, put together again. -/
theorem flatten_sections {α : Type} (l : List α) (p : ℕ → ℕ) (h0 : p 0 = 0) (hm : ∀ i, p i ≤ p (i + 1)) (n : ℕ) :
    ((List.range n).map fun i => (l.drop (p i)).take (p (i + 1) - p i)).flatten = l.take (p n) := by
  induction n with
  | zero => simp [h0]
  | succ n ih =>
    rw [List.range_succ, List.map_append, List.flatten_append, ih]
    simp only [List.map_cons, List.map_nil, List.flatten_cons, List.flatten_nil, List.append_nil]
    have := hm n
    conv_rhs => rw [show p (n + 1) = p n + (p (n + 1) - p n) by omega, List.take_add]

theorem arraySplit_flatten (l : List Val) (n : ℕ) (hn : 0 < n) : (arraySplit l n).flatten = promote l := by
  unfold arraySplit
  rw [flatten_sections _ _ (divPoint_zero _ _) (divPoint_mono _ _), divPoint_last _ _ hn, ← promote_length,
    List.take_length]

theorem arraySplit_length (l : List Val) (n : ℕ) : (arraySplit l n).length = n := by simp [arraySplit]

/-- What holds in every reachable state. -/
structure Inv (f : Val → Except Err Val) (chunks : List (List Val)) (s : Sys Err) : Prop where
  len : s.workers.length = chunks.length
  work : ∀ (i : ℕ) (w : Worker) (c : List Val), s.workers[i]? = some w → chunks[i]? = some c →
    ∃ done, c = done ++ w.todo ∧ List.Forall₂ (fun v r => f v = .ok r) done w.vals
  out : ∀ p ∈ s.outQ, s.workers[p.1]? = some ⟨[], p.2, .finished⟩
  fin : ∀ (i : ℕ) (todo vals : List Val), s.workers[i]? = some ⟨todo, vals, .finished⟩ → (i, vals) ∈ s.outQ
  err : ∀ e ∈ s.errQ, ∃ (i : ℕ) (v : Val) (rest vals : List Val),
    s.workers[i]? = some ⟨v :: rest, vals, .failed⟩ ∧ f v = .error e
  fail : ∀ (i : ℕ) (todo vals : List Val), s.workers[i]? = some ⟨todo, vals, .failed⟩ → s.errQ ≠ []

theorem inv_start (f : Val → Except Err Val) (chunks : List (List Val)) : Inv f chunks (start chunks) where
  len := by simp [start]
  work := by
    intro i w c hw hc
    simp only [start, List.getElem?_map, hc, Option.map_some, Option.some.injEq] at hw
    subst hw
    exact ⟨[], by simp, .nil⟩
  out := by simp [start]
  fin := by
    intro i todo vals h
    simp only [start, List.getElem?_map, Option.map_eq_some_iff] at h
    obtain ⟨_, _, h⟩ := h
    simp at h
  err := by simp [start]
  fail := by
    intro i todo vals h
    simp only [start, List.getElem?_map, Option.map_eq_some_iff] at h
    obtain ⟨_, _, h⟩ := h
    simp at h

theorem getElem?_set_some {α : Type} {l : List α} {i j : ℕ} {a w : α} (h : (l.set i a)[j]? = some w) :
    (j = i ∧ w = a) ∨ (j ≠ i ∧ l[j]? = some w) := by
  rw [List.getElem?_set] at h
  split_ifs at h with h1 h2
  · left; exact ⟨h1.symm, (Option.some.inj h).symm⟩
  · right; exact ⟨fun h' => h1 h'.symm, h⟩

theorem getElem?_set_self' {α : Type} {l : List α} {i : ℕ} {a b : α} (h : l[i]? = some b) :
    (l.set i a)[i]? = some a := by
  have : i < l.length := by
    by_contra hc
    rw [List.getElem?_eq_none (by omega)] at h; cases h
  rw [List.getElem?_set_self this]

theorem getElem?_set_other {α : Type} {l : List α} {i j : ℕ} {a : α} (h : j ≠ i) :
    (l.set i a)[j]? = l[j]? := List.getElem?_set_ne h.symm

theorem inv_step (f : Val → Except Err Val) (chunks : List (List Val)) (s t : Sys Err) (h : Inv f chunks s)
    (hs : Step f s t) : Inv f chunks t := by
  cases hs with
  | apply i v r rest vals hw hf =>
    refine ⟨by simpa using h.len, ?_, ?_, ?_, ?_, ?_⟩
    · intro j w c hj hc
      rcases getElem?_set_some hj with ⟨rfl, rfl⟩ | ⟨hne, hj⟩
      · obtain ⟨done, h1, h2⟩ := h.work _ _ _ hw hc
        exact ⟨done ++ [v], by simpa using h1, List.rel_append h2 (.cons hf .nil)⟩
      · exact h.work _ _ _ hj hc
    · intro p hp
      have := h.out p hp
      by_cases hpi : p.1 = i
      · rw [hpi, hw] at this; simp at this
      · simpa [getElem?_set_other hpi] using this
    · intro j todo vals' hj
      rcases getElem?_set_some hj with ⟨-, h2⟩ | ⟨hne, hj⟩
      · simp at h2
      · exact h.fin _ _ _ hj
    · intro e he
      obtain ⟨j, v', rest', vals', h1, h2⟩ := h.err e he
      have hne : j ≠ i := by rintro rfl; rw [hw] at h1; simp at h1
      exact ⟨j, v', rest', vals', by simpa [getElem?_set_other hne] using h1, h2⟩
    · intro j todo vals' hj
      rcases getElem?_set_some hj with ⟨-, h2⟩ | ⟨hne, hj⟩
      · simp at h2
      · exact h.fail _ _ _ hj
  | raise i v e rest vals hw hf =>
    refine ⟨by simpa using h.len, ?_, ?_, ?_, ?_, ?_⟩
    · intro j w c hj hc
      rcases getElem?_set_some hj with ⟨rfl, rfl⟩ | ⟨hne, hj⟩
      · simpa using h.work _ _ _ hw hc
      · exact h.work _ _ _ hj hc
    · intro p hp
      have := h.out p hp
      by_cases hpi : p.1 = i
      · rw [hpi, hw] at this; simp at this
      · simpa [getElem?_set_other hpi] using this
    · intro j todo vals' hj
      rcases getElem?_set_some hj with ⟨-, h2⟩ | ⟨hne, hj⟩
      · simp at h2
      · exact h.fin _ _ _ hj
    · intro e' he
      rcases List.mem_append.1 he with he | he
      · obtain ⟨j, v', rest', vals', h1, h2⟩ := h.err e' he
        have hne : j ≠ i := by rintro rfl; rw [hw] at h1; simp at h1
        exact ⟨j, v', rest', vals', by simpa [getElem?_set_other hne] using h1, h2⟩
      · rw [List.mem_singleton.1 he]
        exact ⟨i, v, rest, vals, getElem?_set_self' hw, hf⟩
    · intro j todo vals' hj; simp
  | finish i vals hw =>
    refine ⟨by simpa using h.len, ?_, ?_, ?_, ?_, ?_⟩
    · intro j w c hj hc
      rcases getElem?_set_some hj with ⟨rfl, rfl⟩ | ⟨hne, hj⟩
      · simpa using h.work _ _ _ hw hc
      · exact h.work _ _ _ hj hc
    · intro p hp
      rcases List.mem_append.1 hp with hp | hp
      · have := h.out p hp
        by_cases hpi : p.1 = i
        · rw [hpi, hw] at this; simp at this
        · simpa [getElem?_set_other hpi] using this
      · rw [List.mem_singleton.1 hp]
        exact getElem?_set_self' hw
    · intro j todo vals' hj
      rcases getElem?_set_some hj with ⟨h1, h2⟩ | ⟨hne, hj⟩
      · simp only [Worker.mk.injEq, and_true] at h2
        simp [h1, h2.2]
      · exact List.mem_append.2 (.inl (h.fin _ _ _ hj))
    · intro e he
      obtain ⟨j, v', rest', vals', h1, h2⟩ := h.err e he
      have hne : j ≠ i := by rintro rfl; rw [hw] at h1; simp at h1
      exact ⟨j, v', rest', vals', by simpa [getElem?_set_other hne] using h1, h2⟩
    · intro j todo vals' hj
      rcases getElem?_set_some hj with ⟨-, h2⟩ | ⟨hne, hj⟩
      · simp at h2
      · exact h.fail _ _ _ hj
  | die i todo vals hw =>
    refine ⟨by simpa using h.len, ?_, ?_, ?_, ?_, ?_⟩
    · intro j w c hj hc
      rcases getElem?_set_some hj with ⟨rfl, rfl⟩ | ⟨hne, hj⟩
      · simpa using h.work _ _ _ hw hc
      · exact h.work _ _ _ hj hc
    · intro p hp
      have := h.out p hp
      by_cases hpi : p.1 = i
      · rw [hpi, hw] at this; simp at this
      · simpa [getElem?_set_other hpi] using this
    · intro j todo' vals' hj
      rcases getElem?_set_some hj with ⟨-, h2⟩ | ⟨hne, hj⟩
      · simp at h2
      · exact h.fin _ _ _ hj
    · intro e he
      obtain ⟨j, v', rest', vals', h1, h2⟩ := h.err e he
      have hne : j ≠ i := by rintro rfl; rw [hw] at h1; simp at h1
      exact ⟨j, v', rest', vals', by simpa [getElem?_set_other hne] using h1, h2⟩
    · intro j todo' vals' hj
      rcases getElem?_set_some hj with ⟨-, h2⟩ | ⟨hne, hj⟩
      · simp at h2
      · exact h.fail _ _ _ hj

theorem inv_reach (f : Val → Except Err Val) (chunks : List (List Val)) (s : Sys Err)
    (h : Reach f (start chunks) s) : Inv f chunks s := by
  induction h with
  | refl => exact inv_start f chunks
  | step t u _ hs ih => exact inv_step f chunks t u ih hs

/-- The results, when what is on the queue agrees with `g`. -/
theorem fill_getElem? (num : ℕ) (q : List (ℕ × List Val)) (g : ℕ → List Val) (hq : ∀ p ∈ q, p.1 < num ∧ p.2 = g p.1)
    (i : ℕ) (hi : i < num) :
    (fill num q)[i]? = some (if i ∈ q.map Prod.fst then some (g i) else none) := by
  have key : ∀ (q : List (ℕ × List Val)) (r : List (Option (List Val))), r.length = num →
      (∀ p ∈ q, p.2 = g p.1) →
      (q.foldl (fun r p => r.set p.1 (some p.2)) r)[i]? =
        if i ∈ q.map Prod.fst then some (some (g i)) else r[i]? := by
    intro q
    induction q with
    | nil => intro r _ _; simp
    | cons p q ih =>
      intro r hr hq
      rw [List.foldl_cons, ih _ (by simpa using hr) (fun p hp => hq p (by simp [hp]))]
      by_cases h1 : i ∈ q.map Prod.fst
      · rw [if_pos h1, if_pos (by simp only [List.map_cons, List.mem_cons]; exact .inr h1)]
      · rw [if_neg h1]
        by_cases h2 : i = p.1
        · rw [if_pos (by simp [h2]), h2, List.getElem?_set_self (by omega), hq p (by simp)]
        · rw [if_neg (by simp only [List.map_cons, List.mem_cons, not_or]; exact ⟨h2, h1⟩),
            List.getElem?_set_ne (fun h => h2 h.symm)]
  unfold fill
  rw [key q _ (by simp) (fun p hp => (hq p hp).2)]
  split_ifs
  · rfl
  · simp [List.getElem?_replicate, hi]

theorem fill_length (num : ℕ) (q : List (ℕ × List Val)) : (fill num q).length = num := by
  have key : ∀ (q : List (ℕ × List Val)) (r : List (Option (List Val))),
      (q.foldl (fun r p => r.set p.1 (some p.2)) r).length = r.length := by
    intro q
    induction q with
    | nil => intro r; rfl
    | cons p q ih => intro r; rw [List.foldl_cons, ih]; simp
  rw [fill, key]; simp

theorem forall₂_flatten {f : Val → Except Err Val} (cs : List (List Val)) (vs : List (List Val))
    (h : List.Forall₂ (List.Forall₂ fun v r => f v = .ok r) cs vs) :
    List.Forall₂ (fun v r => f v = .ok r) cs.flatten vs.flatten := by
  induction h with
  | nil => simp
  | cons h1 _ ih => rw [List.flatten_cons, List.flatten_cons]; exact List.rel_append h1 ih

/-- The result of the parent when all the workers are gone and none of them disappeared. -/
theorem collect_finished (f : Val → Except Err Val) (chunks : List (List Val)) (s : Sys Err) (h : Inv f chunks s)
    (hn : chunks ≠ []) (hj : Joined s) (hd : ∀ w ∈ s.workers, w.status ≠ .died) (he : s.errQ = []) :
    ∃ rs, List.Forall₂ (fun v r => f v = .ok r) chunks.flatten rs ∧
      collect chunks.length s = .list (promote rs) := by
  have hfin : ∀ (i : ℕ) (w : Worker), s.workers[i]? = some w → w.status = .finished := by
    intro i w hw
    have hm := List.mem_of_getElem? hw
    have h1 := hj w hm; have h2 := hd w hm
    rcases w with ⟨todo, vals, st⟩
    rcases st
    · exact absurd rfl h1
    · rfl
    · exact absurd he (h.fail _ _ _ hw)
    · exact absurd rfl h2
  have hout : ∀ (i : ℕ) (w : Worker), s.workers[i]? = some w → (i, w.vals) ∈ s.outQ := by
    intro i w hw
    have := hfin i w hw
    rcases w with ⟨todo, vals, st⟩
    simp only at this; subst this
    exact h.fin _ _ _ hw
  set vals := s.workers.map Worker.vals with hvals
  have hq : ∀ p ∈ s.outQ, p.1 < chunks.length ∧ p.2 = (vals[p.1]?).getD [] := by
    intro p hp
    have h1 := h.out p hp
    refine ⟨?_, ?_⟩
    · rw [← h.len]; exact (List.getElem?_eq_some_iff.1 h1).1
    · rw [hvals, List.getElem?_map, h1]; simp
  have hfill : fill chunks.length s.outQ = vals.map some := by
    apply List.ext_getElem?
    intro i
    by_cases hi : i < chunks.length
    · rw [fill_getElem? chunks.length s.outQ (fun i => (vals[i]?).getD []) hq i hi, if_pos]
      · obtain ⟨w, hw⟩ : ∃ w, s.workers[i]? = some w := ⟨_, List.getElem?_eq_getElem (by rw [h.len]; exact hi)⟩
        simp [hvals, List.getElem?_map, hw]
      · obtain ⟨w, hw⟩ : ∃ w, s.workers[i]? = some w := ⟨_, List.getElem?_eq_getElem (by rw [h.len]; exact hi)⟩
        exact List.mem_map.2 ⟨_, hout i w hw, rfl⟩
    · rw [List.getElem?_eq_none (by rw [fill_length]; omega), List.getElem?_eq_none (by simp [hvals, h.len]; omega)]
  refine ⟨vals.flatten, ?_, ?_⟩
  · apply forall₂_flatten
    rw [List.forall₂_iff_get]
    refine ⟨by simp [hvals, h.len], ?_⟩
    intro i h1 h2
    have hw : s.workers[i]? = some (s.workers[i]'(by rw [h.len]; exact h1)) := List.getElem?_eq_getElem _
    obtain ⟨done, h3, h4⟩ := h.work i _ _ hw (List.getElem?_eq_getElem h1)
    have hf := hfin i _ hw
    have ho := h.out _ (hout i _ hw)
    rw [hw] at ho
    have ht : (s.workers[i]'(by rw [h.len]; exact h1)).todo = [] := by
      have := Option.some.inj ho
      rw [this]
    rw [ht, List.append_nil] at h3
    simp only [List.get_eq_getElem, h3, hvals, List.getElem_map]
    exact h4
  · unfold collect concat
    rw [he]
    simp only
    rw [hfill, if_neg]
    · simp [Function.comp_def]
    · rintro (h1 | h1)
      · rw [List.map_eq_nil_iff, hvals, List.map_eq_nil_iff] at h1
        have := h.len; rw [h1] at this
        exact hn (List.length_eq_zero_iff.1 this.symm)
      · simp at h1

/-- A worker that disappeared leaves a hole in the results. -/
theorem collect_died (f : Val → Except Err Val) (chunks : List (List Val)) (s : Sys Err) (h : Inv f chunks s)
    (hd : ∃ w ∈ s.workers, w.status = .died) (he : s.errQ = []) :
    collect chunks.length s = .valueError := by
  obtain ⟨w, hw, hst⟩ := hd
  obtain ⟨i, hi, hwi⟩ := List.getElem_of_mem hw
  have hw' : s.workers[i]? = some w := by rw [List.getElem?_eq_getElem hi, hwi]
  set vals := s.workers.map Worker.vals with hvals
  have hq : ∀ p ∈ s.outQ, p.1 < chunks.length ∧ p.2 = (vals[p.1]?).getD [] := by
    intro p hp
    have h1 := h.out p hp
    refine ⟨?_, ?_⟩
    · rw [← h.len]; exact (List.getElem?_eq_some_iff.1 h1).1
    · rw [hvals, List.getElem?_map, h1]; simp
  have := fill_getElem? chunks.length s.outQ (fun i => (vals[i]?).getD []) hq i (by rw [← h.len]; exact hi)
  rw [if_neg] at this
  · unfold collect concat
    rw [he]
    simp only
    rw [if_pos (.inr (List.mem_of_getElem? this))]
  · intro hc
    obtain ⟨p, hp, hpi⟩ := List.mem_map.1 hc
    have h1 := h.out p hp
    rw [hpi, hw'] at h1
    rw [Option.some.inj h1] at hst
    simp at hst

/-- An exception on the queue is that of an element, all the elements before it in its chunk being fine. -/
theorem collect_error (f : Val → Except Err Val) (chunks : List (List Val)) (s : Sys Err) (h : Inv f chunks s)
    (n : ℕ) (he : s.errQ ≠ []) :
    ∃ (e : Err) (c : List Val) (done : List Val) (v : Val) (rest : List Val), collect n s = .workerError e ∧ c ∈ chunks ∧
      c = done ++ v :: rest ∧ (∀ x ∈ done, ∃ r, f x = .ok r) ∧ f v = .error e := by
  obtain ⟨e, q, hq⟩ := List.exists_cons_of_ne_nil he
  obtain ⟨i, v, rest, vals, hw, hf⟩ := h.err e (by simp [hq])
  have hi : i < chunks.length := by rw [← h.len]; exact (List.getElem?_eq_some_iff.1 hw).1
  obtain ⟨done, h1, h2⟩ := h.work _ _ _ hw (List.getElem?_eq_getElem hi)
  refine ⟨e, chunks[i], done, v, rest, ?_, List.getElem_mem hi, h1, ?_, hf⟩
  · unfold collect; rw [hq]
  · intro x hx
    obtain ⟨y, hy⟩ : ∃ y, f x = .ok y := by
      clear h1
      simp only at h2
      generalize vals = vs at h2
      induction h2 with
      | nil => simp at hx
      | cons h3 _ ih =>
        rcases List.mem_cons.1 hx with rfl | hx
        · exact ⟨_, h3⟩
        · exact ih hx
    exact ⟨y, hy⟩

end Verif.Parallel
