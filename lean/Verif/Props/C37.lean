import Verif.Props.C36

set_option autoImplicit false

/-!
# C37: `integrate` can be called in every state

It cannot: the comparison with the potential of the previous integration reads an attribute that indexing and
`integrate_dxdv` do not set (`C37_sliced_fails`, `C37_dxdv_fails`), and an interrupted first integration leaves
times without a trajectory (`C37_interrupted_fails`). `C37_partial` shows that these are the only ways.
-/

noncomputable section
namespace Verif
open Orb Spec

variable {S P : Type}

/-- A routine that returns a state for each time. -/
def Total (integ : P → S → List ℝ → Except Err (List S)) : Prop :=
  ∀ p v ts, ∃ xs, integ p v ts = .ok xs ∧ xs.length = ts.length

/-- Non-empty times. -/
def Orb.TArg.NonEmpty : TArg → Prop
  | .shared ts => ts ≠ []
  | .indiv _ rows => ∀ r ∈ rows, r ≠ []

/-- The objects obtained without the three problematic operations: indexing an object integrated with shared
times, `integrate_dxdv` on an object that has never been integrated otherwise, and an interrupted integration. -/
inductive Unproblematic : Orbit S P → Prop
  | new {shape : List Nat} {vs : List S} {ro vo : Scale} {a b : Bool} (h : vs.length = shape.prod) :
      Unproblematic (new shape vs ro vo a b)
  | getItem {o o' : Orbit S P} {key : Key} (h : Unproblematic o) (hk : getItem o key = .ok o')
      (hs : ∀ ts, o.orbit.isSome → o.t ≠ some (.shared ts)) : Unproblematic o'
  | reshape {o : Orbit S P} (sh : List Nat) (h : Unproblematic o) : Unproblematic (reshape o sh).2
  | integrate {o : Orbit S P} {integ : P → S → List ℝ → Except Err (List S)} (hi : Total integ) (t : TArg) (p : P)
      (ode : Bool) (dt : Option ℝ) (h : Unproblematic o) (ht : t.Fits) (hne : t.NonEmpty) :
      Unproblematic (integrate integ o t p ode dt).2
  | dxdv {o : Orbit S P} {integ : P → S → List ℝ → Except Err (List S)} (hi : Total integ) (ts : List ℝ) (p : P)
      (ode : Bool) (hne : ts ≠ []) (h : Unproblematic o) (ho : o.origPot.isSome) :
      Unproblematic (integrateDxdv integ o ts p ode).2
  | sos {o : Orbit S P} (sos : P → S → Except Err (List S × List ℝ)) (p : P) (h : Unproblematic o) :
      Unproblematic (integrateSOS sos o p).2
  | brute {o o' : Orbit S P} {integ : P → S → List ℝ → Except Err (List S)} (cols : List Nat) (t : TArg)
      (p : P) (ode : Bool) (dt : Option ℝ) (h : Unproblematic o) (ht : t.Fits)
      (hb : bruteSOS integ cols o t p ode dt = (.ok (), o')) : Unproblematic o'
  | flipInplace {o : Orbit S P} (rev : S → S) (h : Unproblematic o) : Unproblematic (flipInplace rev o)
  | flip {o : Orbit S P} (rev : S → S) (h : Unproblematic o) : Unproblematic (flip rev o)

namespace C37aux

/-- What the bookkeeping of a further integration needs. -/
def Ready (o : Orbit S P) : Prop :=
  o.cannotContinue = true ∨ o.t = none ∨ (∃ rs, o.t = some (.indiv rs)) ∨
    ∃ ts xs, o.t = some (.shared ts) ∧ ts ≠ [] ∧ o.origPot.isSome ∧ o.orbit = some xs ∧ ∀ x ∈ xs, x ≠ []

theorem forall₂_right {α β : Type} {r : α → β → Prop} {xs : List α} {ys : List β} (h : List.Forall₂ r xs ys)
    {y : β} (hy : y ∈ ys) : ∃ x ∈ xs, r x y := by
  induction h with
  | nil => cases hy
  | cons h1 h2 ih =>
    rcases List.mem_cons.1 hy with rfl | hy
    · exact ⟨_, by simp, h1⟩
    · obtain ⟨x, hx, hr⟩ := ih hy
      exact ⟨x, by simp [hx], hr⟩

theorem runAll_total {integ : P → S → List ℝ → Except Err (List S)} (hi : Total integ) (p : P) (t : Times)
    (vs : List S) : ∃ out, runAll integ p t vs = .ok out := by
  have : ∀ l : List (S × Nat), ∃ out, l.mapM (fun x : S × Nat => integ p x.1 (t.forOrbit x.2)) = .ok out := by
    intro l
    induction l with
    | nil => exact ⟨[], rfl⟩
    | cons x l ih =>
      obtain ⟨out, hout⟩ := ih
      obtain ⟨y, hy, _⟩ := hi p x.1 (t.forOrbit x.2)
      exact ⟨y :: out, mapM_ok.2 (.cons hy (mapM_ok.1 hout))⟩
  exact this _

theorem runAll_nonempty {integ : P → S → List ℝ → Except Err (List S)} (hi : Total integ) {p : P} {ts : List ℝ}
    (hne : ts ≠ []) {vs : List S} {out : List (List S)} (h : runAll integ p (.shared ts) vs = .ok out) :
    ∀ x ∈ out, x ≠ [] := by
  intro x hx
  obtain ⟨v, _, hv⟩ := forall₂_right (C35aux.runAll_shared.1 h) hx
  obtain ⟨xs, hxs, hl⟩ := hi p v ts
  rw [hv] at hxs
  cases hxs
  intro h0
  rw [h0] at hl
  exact hne (List.length_eq_zero_iff.1 hl.symm)

theorem ready_outcome {integ : P → S → List ℝ → Except Err (List S)} (hi : Total integ) {o o' : Orbit S P}
    {t : TArg} {p : P} {ode : Bool} {dt : Option ℝ} {r : Except Err Unit} (hr : Ready o) (hne : t.NonEmpty)
    (h : Outcome integ o t p ode dt r o') : Ready o' := by
  cases h with
  | refused => exact hr
  | restartRaised e hc hs h =>
    obtain ⟨out, hout⟩ := runAll_total hi p t.times o.vxvv
    rw [hout] at h
    cases h
  | restarted out hc hs h =>
    cases t with
    | shared ts => exact Or.inr (Or.inr (Or.inr ⟨ts, out, rfl, hne, rfl, rfl, runAll_nonempty hi hne h⟩))
    | indiv lead rows => exact Or.inr (Or.inr (Or.inl ⟨rows, rfl⟩))
  | continueRaised d new old xs starts e hc ht hd hold hx hst h =>
    obtain ⟨out, hout⟩ := runAll_total hi p (.shared new) starts
    rw [hout] at h
    cases h
  | continued d new old xs starts out hc ht hd hold hx hst h =>
    subst ht
    rcases hr with hr | hr | ⟨rs, hr⟩ | ⟨ts, xs', h1, h2, h3, h4, h5⟩
    · exact Or.inl (by cases d <;> exact hr)
    · rw [hr] at hold; cases hold
    · rw [hr] at hold; cases hold
    · rw [h1] at hold
      cases hold
      rw [h4] at hx
      cases hx
      refine Or.inr (Or.inr (Or.inr ?_))
      cases d with
      | forward =>
        refine ⟨old ++ new.tail, _, rfl, by simp [h2], rfl, rfl, ?_⟩
        intro x hx
        obtain ⟨i, hi, rfl⟩ := List.getElem_of_mem hx
        rw [List.getElem_zipWith]
        have hmem : xs[i]'(by rw [List.length_zipWith] at hi; omega) ∈ xs := List.getElem_mem _
        simp [h5 _ hmem]
      | backward =>
        refine ⟨new.tail.reverse ++ old, _, rfl, by simp [h2], rfl, rfl, ?_⟩
        intro x hx
        obtain ⟨i, hi, rfl⟩ := List.getElem_of_mem hx
        rw [List.getElem_zipWith]
        have hmem : xs[i]'(by rw [List.length_zipWith] at hi; omega) ∈ xs := List.getElem_mem _
        simp [h5 _ hmem]

theorem ready {o : Orbit S P} (h : Unproblematic o) : Ready o := by
  induction h with
  | new h => exact Or.inr (Or.inl rfl)
  | @getItem o o' key h hk hs ih =>
    obtain ⟨flat, vs, t, xs, p, nm, h1, h2, h3, h4, h5⟩ := getItem_ok hk
    rcases takeIntegration_ok h3 with ⟨_, ht, _, _⟩ | ⟨ys, zs, ho, _, _, _, ht⟩
    · rw [h5]; exact Or.inr (Or.inl ht)
    · rcases takeTimes_ok ht with ⟨ts, ht1, _⟩ | ⟨rs, rs', _, ht2, _⟩
      · exact absurd ht1 (hs ts (by rw [ho]; rfl))
      · rw [h5]; exact Or.inr (Or.inr (Or.inl ⟨rs', ht2⟩))
  | @reshape o sh h ih =>
    unfold Orb.reshape
    split_ifs
    · exact ih
    · exact ih
  | integrate hi t p ode dt h ht hne ih => exact ready_outcome hi ih hne (integrate_outcome _ _ t p ode dt)
  | @dxdv o integ hi ts p ode hne h ho ih =>
    unfold integrateDxdv
    cases evenlySpaced ode ts with
    | error e => exact ih
    | ok b =>
      cases b with
      | false => exact ih
      | true =>
        simp only
        cases hr : runAll integ p (.shared ts) o.vxvv with
        | error e =>
          obtain ⟨out, hout⟩ := runAll_total hi p (.shared ts) o.vxvv
          rw [hout] at hr
          cases hr
        | ok out => exact Or.inr (Or.inr (Or.inr ⟨ts, out, rfl, hne, ho, rfl, runAll_nonempty hi hne hr⟩))
  | @sos o sos p h ih =>
    unfold integrateSOS
    cases hr : o.vxvv.mapM (sos p) with
    | error e => exact ih
    | ok out => exact Or.inr (Or.inr (Or.inl ⟨_, rfl⟩))
  | @brute o o' integ cols t p ode dt h ht hb ih =>
    unfold bruteSOS at hb
    revert hb
    generalize Orb.integrate integ o t p ode dt = ro'
    obtain ⟨r, o1⟩ := ro'
    intro hb
    cases r with
    | error e => cases hb
    | ok u =>
      simp only at hb
      cases ht : o1.t with
      | none => rw [ht] at hb; cases hb
      | some st =>
        rw [ht] at hb
        cases st with
        | indiv rs => cases hb
        | shared ts =>
          cases hx : o1.orbit with
          | none => rw [hx] at hb; cases hb
          | some xs =>
            rw [hx] at hb
            simp only at hb
            cases h1 : take ts cols with
            | error e => rw [h1] at hb; cases hb
            | ok ts' =>
              cases h2 : xs.mapM (take · cols) with
              | error e => rw [h1, h2] at hb; cases hb
              | ok xs' =>
                rw [h1, h2] at hb
                cases hb
                exact Or.inl rfl
  | @flipInplace o rev h ih =>
    rcases ih with ih | ih | ⟨rs, ih⟩ | ⟨ts, xs, h1, h2, h3, h4, h5⟩
    · exact Or.inl ih
    · exact Or.inr (Or.inl ih)
    · exact Or.inr (Or.inr (Or.inl ⟨rs, ih⟩))
    · refine Or.inr (Or.inr (Or.inr ⟨ts, xs.map fun x => x.map rev, h1, h2, h3, ?_, ?_⟩))
      · simp only [Orb.flipInplace, h4, Option.map_some]
      · intro x hx
        obtain ⟨y, hy, rfl⟩ := List.mem_map.1 hx
        simpa using h5 y hy
  | flip rev h ih => exact Or.inr (Or.inl rfl)

end C37aux

open C37aux

/-- In every state reached without indexing an integrated object, `integrate_dxdv` on a new object and
interruptions, `integrate` with valid times and a routine that does not raise succeeds. (Missing: the three
kinds of states below, in which it raises `AttributeError`.) -/
theorem C37_partial {o : Orbit S P} (h : Unproblematic o) {integ : P → S → List ℝ → Except Err (List S)}
    (hi : Total integ) {t : TArg} {p : P} {ode : Bool} {dt : Option ℝ} (hne : t.NonEmpty)
    (hok : checkTimes o t ode dt = .ok ()) : ∃ o', integrate integ o t p ode dt = (.ok (), o') := by
  have hsc : ∃ d, shouldContinue o t.times = .ok d := by
    unfold shouldContinue
    rcases ready h with hr | hr | ⟨rs, hr⟩ | ⟨ts, xs, h1, h2, h3, h4, h5⟩
    · rw [hr]; exact ⟨none, rfl⟩
    · rw [hr]; split <;> exact ⟨none, rfl⟩
    · rw [hr]
      split
      · exact ⟨none, rfl⟩
      · cases o.pot <;> cases t.times <;> exact ⟨none, rfl⟩
    · rw [h1]
      split
      · exact ⟨none, rfl⟩
      · cases o.pot with
        | none => exact ⟨none, rfl⟩
        | some q =>
          cases t with
          | indiv lead rows => exact ⟨none, rfl⟩
          | shared new =>
            obtain ⟨q', hq'⟩ := Option.isSome_iff_exists.1 h3
            simp only [TArg.times, hq']
            unfold direction
            obtain ⟨a, ha⟩ : ∃ a, new.head? = some a := by
              cases new with
              | nil => exact absurd rfl hne
              | cons a l => exact ⟨a, rfl⟩
            obtain ⟨b, hb⟩ : ∃ b, new.getLast? = some b := by
              cases hb : new.getLast? with
              | none => exact absurd (List.getLast?_eq_none_iff.1 hb) hne
              | some b => exact ⟨b, rfl⟩
            obtain ⟨c, hc⟩ : ∃ a, ts.head? = some a := by
              cases ts with
              | nil => exact absurd rfl h2
              | cons a l => exact ⟨a, rfl⟩
            obtain ⟨d, hd⟩ : ∃ b, ts.getLast? = some b := by
              cases hb : ts.getLast? with
              | none => exact absurd (List.getLast?_eq_none_iff.1 hb) h2
              | some b => exact ⟨b, rfl⟩
            simp only [ha, hb, hc, hd]
            split_ifs <;> exact ⟨_, rfl⟩
  obtain ⟨d, hd⟩ := hsc
  have hb : ∃ saved o', begin o t.times p d = (.ok saved, o') := by
    cases d with
    | none => exact ⟨_, _, rfl⟩
    | some d =>
      obtain ⟨hcc, new, old, _, _, ht1, ht2, _, _, _⟩ := direction_ok_shared hd
      rcases ready h with hr | hr | ⟨rs, hr⟩ | ⟨ts, xs, h1, h2, h3, h4, h5⟩
      · rw [hcc] at hr; cases hr
      · rw [ht2] at hr; cases hr
      · rw [ht2] at hr; cases hr
      · have hst : ∃ starts, xs.mapM (startState d) = .ok starts := by
          clear h4
          induction xs with
          | nil => exact ⟨[], rfl⟩
          | cons x xs ih =>
            obtain ⟨ss, hss⟩ := ih fun y hy => h5 y (by simp [hy])
            have hx : x ≠ [] := h5 x (by simp)
            have : ∃ s, startState d x = .ok s := by
              unfold startState
              cases d with
              | forward =>
                simp only
                cases hb : x.getLast? with
                | none => exact absurd (List.getLast?_eq_none_iff.1 hb) hx
                | some b => exact ⟨b, rfl⟩
              | backward =>
                cases x with
                | nil => exact absurd rfl hx
                | cons y l => exact ⟨y, rfl⟩
            obtain ⟨s, hs⟩ := this
            exact ⟨s :: ss, mapM_ok.2 (.cons hs (mapM_ok.1 hss))⟩
        obtain ⟨starts, hst⟩ := hst
        unfold begin
        simp only [h1, h4, hst]
        exact ⟨_, _, rfl⟩
  obtain ⟨saved, o', hb⟩ := hb
  obtain ⟨out, hout⟩ := runAll_total hi p t.times o'.vxvv
  unfold integrate
  simp only [hok, hd, hb, hout]
  exact ⟨_, rfl⟩

/-- A routine that never raises. -/
def freeInteg : Unit → ℝ × ℝ → List ℝ → Except Err (List (ℝ × ℝ)) := flowInteg freeFlow

theorem freeInteg_total : Total freeInteg := fun _ v ts => ⟨ts.map fun t => freeFlow (ts.headD 0) t v, rfl, by simp⟩

/-- Integrate, select one orbit, integrate it further: `AttributeError`. -/
theorem C37_sliced_fails : ∃ (o o1 o2 : Orbit (ℝ × ℝ) Unit), Reach o ∧
    integrate freeInteg o (.shared [0, 1]) () true none = (.ok (), o1) ∧
    getItem o1 (.basic [.int 0]) = .ok o2 ∧
    ∀ ts, ts ≠ [] → ∀ ode dt, checkTimes o2 (.shared ts) ode dt = .ok () →
      (integrate freeInteg o2 (.shared ts) () ode dt).1 = .error .attributeError := by
  refine ⟨Orb.new [2] [(0, 1), (5, 1)] (.one 8) (.one 220) false false, _, _, Reach.new rfl, rfl, rfl, ?_⟩
  intro ts _ ode dt h
  unfold integrate
  simp only [h]
  rfl

/-- `integrate_dxdv` on a new object, then `integrate`: `AttributeError`. -/
theorem C37_dxdv_fails : ∃ (o o1 : Orbit (ℝ × ℝ) Unit), Reach o ∧
    integrateDxdv freeInteg o [0, 1] () true = (.ok (), o1) ∧
    ∀ ts, ts ≠ [] → ∀ ode dt, checkTimes o1 (.shared ts) ode dt = .ok () →
      (integrate freeInteg o1 (.shared ts) () ode dt).1 = .error .attributeError := by
  refine ⟨Orb.new [] [(0, 1)] (.one 8) (.one 220) false false, _, Reach.new rfl, rfl, ?_⟩
  intro ts _ ode dt h
  unfold integrate
  simp only [h]
  rfl

/-- An interrupted first integration, then an integration in the other direction: `AttributeError`. -/
theorem C37_interrupted_fails : ∃ (o o1 : Orbit (ℝ × ℝ) Unit), Reach o ∧
    integrate (fun _ _ _ => .error .integrator) o (.shared [0, 1]) () true none = (.error .integrator, o1) ∧
    (integrate freeInteg o1 (.shared [0, -1]) () true none).1 = .error .attributeError := by
  let o1 : Orbit (ℝ × ℝ) Unit := { (Orb.new [] [(0, 1)] (.one 8) (.one 220) false false :
    Orbit (ℝ × ℝ) Unit) with t := some (.shared [0, 1]), pot := some (), origPot := some () }
  refine ⟨Orb.new [] [(0, 1)] (.one 8) (.one 220) false false, o1, Reach.new rfl, rfl, ?_⟩
  have hd : direction [0, -1] [0, 1] = .ok (some .backward) := by
    unfold direction
    have hcl : ¬ isclose 0 1 := by
      unfold isclose
      rw [abs_le]
      norm_num
    have hcl2 : isclose 0 0 := by
      unfold isclose
      norm_num
    simp only [List.head?_cons, List.getLast?_cons_cons, List.getLast?_singleton, if_neg hcl, if_pos hcl2]
    norm_num
  have hs : shouldContinue o1 (.shared [0, -1]) = .ok (some .backward) := hd
  have hc : checkTimes o1 (.shared [0, -1]) true none = .ok () := rfl
  unfold integrate
  simp only [TArg.times, hs, hc]
  rfl

/-- A state that satisfies the hypotheses of `C37_partial`: two orbits, integrated, flipped and reshaped. -/
example : Unproblematic (reshape (flipInplace (fun x => (x.1, -x.2)) (integrate freeInteg
    (Orb.new [2] [(0, 1), (5, 1)] (.one 8) (.one 220) false false) (.shared [0, 1]) () true none).2) [1, 2]).2 :=
  .reshape _ (.flipInplace _ (.integrate freeInteg_total _ _ _ _ (.new rfl) trivial (by simp [Orb.TArg.NonEmpty])))

end Verif
