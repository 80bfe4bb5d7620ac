import Verif.Props.C37

set_option autoImplicit false

/-!
# C38: an integration that raises or is interrupted

The object left behind does not satisfy the claim: during a continuation the initial conditions are the end
state (`C38_continued_fails`), and in any case the new times are stored beside the old trajectory
(`C38_mismatch_fails`).
-/

noncomputable section
namespace Verif
open Orb Spec

variable {S P : Type}

/-- What is true of the object after an `integrate` call that raised: the stored trajectories are the old ones;
the initial conditions are the old ones unless the call was a continuation; and if the call was refused by the
checks of its times, nothing has changed. (Missing for the claim: the times.) -/
theorem C38_partial (integ : P → S → List ℝ → Except Err (List S)) (o : Orbit S P) (t : TArg) (p : P) (ode : Bool)
    (dt : Option ℝ) (e : Err) (h : (integrate integ o t p ode dt).1 = .error e) :
    let o' := (integrate integ o t p ode dt).2;
    o'.orbit = o.orbit ∧ o'.shape = o.shape ∧ o'.name = o.name ∧
    ((∀ d, shouldContinue o t.times ≠ .ok (some d)) → o'.vxvv = o.vxvv) ∧
    (checkTimes o t ode dt ≠ .ok () → o' = o) := by
  intro o'
  have hout := integrate_outcome integ o t p ode dt
  rw [h] at hout
  change Outcome _ o _ p ode dt _ o' at hout
  clear_value o'
  generalize hr : (Except.error e : Except Err Unit) = r at hout
  cases hout with
  | refused => exact ⟨rfl, rfl, rfl, fun _ => rfl, fun _ => rfl⟩
  | restartRaised e hc hs h => exact ⟨rfl, rfl, rfl, fun _ => rfl, fun h => absurd hc h⟩
  | restarted => cases hr
  | continueRaised d new old xs starts e hc ht hd hold hx hst h =>
    subst ht
    exact ⟨rfl, rfl, rfl, fun h => absurd hd (h d), fun h => absurd hc h⟩
  | continued => cases hr

/-- An interrupted continuation: the initial condition (0, 1) has become (1, 1), and the new times are stored
beside the old trajectory. -/
theorem C38_continued_fails : ∃ (o o1 o2 : Orbit (ℝ × ℝ) Unit), Reach o ∧ o.vxvv = [(0, 1)] ∧
    integrate freeInteg o (.shared [0, 1]) () true none = (.ok (), o1) ∧
    integrate (fun _ _ _ => .error .integrator) o1 (.shared [1, 2, 3]) () true none = (.error .integrator, o2) ∧
    o2.vxvv = [(1, 1)] ∧ o2.t = some (.shared [1, 2, 3]) ∧ o2.orbit = some [[(0, 1), (1, 1)]] := by
  let o1 : Orbit (ℝ × ℝ) Unit := { (Orb.new [] [(0, 1)] (.one 8) (.one 220) false false :
    Orbit (ℝ × ℝ) Unit) with
    t := some (.shared [0, 1]), pot := some (), origPot := some (),
    orbit := some [[freeFlow 0 0 (0, 1), freeFlow 0 1 (0, 1)]] }
  have hd : direction [1, 2, 3] [0, 1] = .ok (some .forward) := by
    unfold direction
    have hcl : isclose 1 1 := by
      unfold isclose
      norm_num
    simp only [List.head?_cons, List.getLast?_cons_cons, List.getLast?_singleton, if_pos hcl]
    norm_num
  have hs : shouldContinue o1 (.shared [1, 2, 3]) = .ok (some .forward) := hd
  have hc : checkTimes o1 (.shared [1, 2, 3]) true none = .ok () := rfl
  refine ⟨Orb.new [] [(0, 1)] (.one 8) (.one 220) false false, o1,
    { o1 with t := some (.shared [1, 2, 3]), vxvv := [freeFlow 0 1 (0, 1)] }, Reach.new rfl, rfl, rfl, ?_, ?_,
    rfl, ?_⟩
  · unfold integrate
    simp only [TArg.times, hs, hc]
    rfl
  · simp [freeFlow]
  · simp [o1, freeFlow]

/-- Also without a continuation the times no longer match the stored trajectory. -/
theorem C38_mismatch_fails : ∃ (o o1 o2 : Orbit (ℝ × ℝ) Unit), Reach o ∧
    integrate freeInteg o (.shared [0, 1]) () true none = (.ok (), o1) ∧
    integrate (fun _ _ _ => .error .integrator) o1 (.shared [5, 6, 7]) () true none = (.error .integrator, o2) ∧
    o2.t = some (.shared [5, 6, 7]) ∧ o2.orbit = some [[(0, 1), (1, 1)]] := by
  let o1 : Orbit (ℝ × ℝ) Unit := { (Orb.new [] [(0, 1)] (.one 8) (.one 220) false false :
    Orbit (ℝ × ℝ) Unit) with
    t := some (.shared [0, 1]), pot := some (), origPot := some (),
    orbit := some [[freeFlow 0 0 (0, 1), freeFlow 0 1 (0, 1)]] }
  have hd : direction [5, 6, 7] [0, 1] = .ok none := by
    unfold direction
    have hcl : ¬ isclose 5 1 := by
      unfold isclose
      rw [abs_le]
      norm_num
    have hcl2 : ¬ isclose 5 0 := by
      unfold isclose
      rw [abs_le]
      norm_num
    simp only [List.head?_cons, List.getLast?_cons_cons, List.getLast?_singleton, if_neg hcl, if_neg hcl2]
  have hs : shouldContinue o1 (.shared [5, 6, 7]) = .ok none := hd
  have hc : checkTimes o1 (.shared [5, 6, 7]) true none = .ok () := rfl
  refine ⟨Orb.new [] [(0, 1)] (.one 8) (.one 220) false false, o1, { o1 with t := some (.shared [5, 6, 7]) },
    Reach.new rfl, rfl, ?_, rfl, ?_⟩
  · unfold integrate
    simp only [TArg.times, hs, hc]
    rfl
  · simp [o1, freeFlow]

/-- The hypothesis of `C38_partial` is satisfiable: a routine that raises. -/
example : (integrate (fun _ _ _ => .error .integrator)
    (Orb.new [] [(0, 1)] (.one 8) (.one 220) false false : Orbit (ℝ × ℝ) Unit) (.shared [0, 1]) () true none).1 =
    .error .integrator := rfl

end Verif
