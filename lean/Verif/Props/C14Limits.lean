import Verif.Props.C14

set_option autoImplicit false

/-!
# C14: searches with a limit

The searches of `zvc`, `zvc_range` and the action-angle classes stop at a fixed limit.  They always end; what they return is
a bracket, and what they refuse is refused only because the limit was reached.
-/

noncomputable section
namespace Verif
open RootSearch Classical Filter Topology C14Spec

namespace C14aux

/-- Upward growth by a factor with a limit ends. -/
theorem up_ends {β : Type} (step : ℝ → Step ℝ β) (c x M : ℝ) (hx : 0 < x) (hc : 1 < c)
    (hs : ∀ y, 0 < y → (∃ b, step y = .done b) ∨ (step y = .next (y * c) ∧ y < M)) :
    ∃ n b, ∀ m, n ≤ m → run step m x = some b := by
  have ht : Tendsto (fun k : ℕ => x * c ^ k) atTop atTop := (tendsto_pow_atTop_atTop_of_one_lt hc).const_mul_atTop hx
  have hc0 : 0 < c := by linarith
  have he : ∃ k : ℕ, ∃ b, step (x * c ^ k) = .done b := by
    obtain ⟨k, hk⟩ := (ht.eventually_ge_atTop M).exists
    rcases hs (x * c ^ k) (by positivity) with h | ⟨-, h⟩
    · exact ⟨k, h⟩
    · linarith
  obtain ⟨b, hb⟩ := Nat.find_spec he
  refine ⟨Nat.find he + 1, b, fun m hm => run_mono _ _ m _ _ ?_ hm⟩
  refine run_of_iter step (fun y => y * c) b (Nat.find he) x (fun j hj => ?_) (by rw [iter_mul]; exact hb)
  rw [iter_mul, iter_mul]
  rcases hs (x * c ^ j) (by positivity) with h | ⟨h, -⟩
  · exact absurd h (Nat.find_min he hj)
  · rw [h, pow_succ, mul_assoc]

/-- Downward shrinking by a factor with a positive limit ends. -/
theorem down_ends {β : Type} (step : ℝ → Step ℝ β) (c x M : ℝ) (hx : 0 < x) (hc : 0 < c) (hc1 : c < 1) (hM : 0 < M)
    (hs : ∀ y, 0 < y → (∃ b, step y = .done b) ∨ (step y = .next (y * c) ∧ M < y)) :
    ∃ n b, ∀ m, n ≤ m → run step m x = some b := by
  have ht : Tendsto (fun k : ℕ => x * c ^ k) atTop (𝓝 0) := by
    have := (tendsto_pow_atTop_nhds_zero_of_lt_one hc.le hc1).const_mul x
    rwa [mul_zero] at this
  have he : ∃ k : ℕ, ∃ b, step (x * c ^ k) = .done b := by
    obtain ⟨k, hk⟩ := (ht.eventually (gt_mem_nhds hM)).exists
    rcases hs (x * c ^ k) (by positivity) with h | ⟨-, h⟩
    · exact ⟨k, h⟩
    · linarith
  obtain ⟨b, hb⟩ := Nat.find_spec he
  refine ⟨Nat.find he + 1, b, fun m hm => run_mono _ _ m _ _ ?_ hm⟩
  refine run_of_iter step (fun y => y * c) b (Nat.find he) x (fun j hj => ?_) (by rw [iter_mul]; exact hb)
  rw [iter_mul, iter_mul]
  rcases hs (x * c ^ j) (by positivity) with h | ⟨h, -⟩
  · exact absurd h (Nat.find_min he hj)
  · rw [h, pow_succ, mul_assoc]

/-- What a loop returns is what its last pass returns, at a state reached by multiplying by the factor. -/
theorem last_pass {β : Type} (step : ℝ → Step ℝ β) (c x : ℝ) (hs : ∀ y y', step y = .next y' → y' = y * c) (n : ℕ) (b : β)
    (h : run step n x = some b) : ∃ k : ℕ, step (x * c ^ k) = .done b ∧ ∀ j < k, ∃ y, step (x * c ^ j) = .next y := by
  obtain ⟨k, -, hn, hd⟩ := iter_of_run step (fun y => y * c) hs b n x h
  rw [iter_mul] at hd
  refine ⟨k, hd, fun j hj => ?_⟩
  have := hn j hj
  rw [iter_mul] at this
  exact ⟨_, this⟩

end C14aux

/-! ### Zero-velocity curve -/

/-- `zvc` always answers: eleven passes of the loop are enough for every potential and energy. -/
theorem C14_zvc_ends (g : ℝ → ℝ) (E : ℝ) : ∃ r, ∀ n, 11 ≤ n → zvc g E n = some r := by
  have key : ∃ b, run (zvcStep g E) 11 1 = some b := by
    have he : ∃ k : ℕ, ∃ b, zvcStep g E (1 * 2 ^ k) = .done b := ⟨10, 1 * 2 ^ 10, by
      unfold zvcStep
      rw [if_neg (by norm_num)]⟩
    obtain ⟨b, hb⟩ := Nat.find_spec he
    have hle : Nat.find he ≤ 10 := Nat.find_min' he ⟨1 * 2 ^ 10, by
      unfold zvcStep
      rw [if_neg (by norm_num)]⟩
    refine ⟨b, run_mono _ (Nat.find he + 1) 11 _ _ ?_ (by omega)⟩
    refine run_of_iter _ (fun y => y * 2) b (Nat.find he) 1 (fun j hj => ?_) (by rw [iter_mul]; exact hb)
    rw [iter_mul, iter_mul]
    have hmin := Nat.find_min he hj
    unfold zvcStep at hmin ⊢
    split_ifs at hmin ⊢ with hc
    · congr 1
      ring
    · exact absurd ⟨_, rfl⟩ hmin
  obtain ⟨b, hb⟩ := key
  by_cases h1 : |g 0 - E| < 1 / 10 ^ 8
  · exact ⟨.zero, fun n _ => by unfold zvc; rw [if_pos h1]⟩
  by_cases h2 : g 0 > E
  · exact ⟨.nan, fun n _ => by unfold zvc; rw [if_neg h1, if_pos h2]⟩
  refine ⟨if (g 0 - E) * (g b - E) > 0 then .error else .interval b, fun n hn => ?_⟩
  unfold zvc
  rw [if_neg h1, if_neg h2, run_mono _ 11 n _ _ hb hn]
  rfl

/-- What `zvc` answers: an interval contains a height at which the effective potential equals the energy; NaN means that the
point in the plane is not allowed; an error means that the energy is still above the effective potential at height 1024 (and
at every smaller power of two). -/
theorem C14_zvc (g : ℝ → ℝ) (hg : Continuous g) (E : ℝ) (n : ℕ) (r : Zvc) (h : zvc g E n = some r) :
    match r with
    | .zero => |g 0 - E| < 1 / 10 ^ 8
    | .nan => E < g 0
    | .error => g 0 < E ∧ ∃ z, 1000 ≤ z ∧ g z < E
    | .interval hi => 0 < hi ∧ g 0 ≤ E ∧ E ≤ g hi ∧ ∃ z, 0 ≤ z ∧ z ≤ hi ∧ g z = E := by
  unfold zvc at h
  split_ifs at h with h1 h2
  · simp only [Option.some.injEq] at h
    subst h
    exact h1
  · simp only [Option.some.injEq] at h
    subst h
    exact h2
  · cases hr : run (zvcStep g E) n 1 with
    | none => rw [hr] at h; simp at h
    | some b =>
      rw [hr] at h
      simp only [Option.map_some, Option.some.injEq] at h
      obtain ⟨k, hk, -⟩ := C14aux.last_pass (zvcStep g E) 2 1 (fun y y' hy => by
        unfold zvcStep at hy
        split_ifs at hy
        simp only [Step.next.injEq] at hy
        exact hy.symm) n b hr
      rw [one_mul] at hk
      unfold zvcStep at hk
      split_ifs at hk with hc
      simp only [Step.done.injEq] at hk
      rw [hk] at hc
      have hb : 0 < b := by rw [← hk]; positivity
      push Not at h2
      split_ifs at h with h3
      · subst h
        have h4 : g 0 < E := by
          rcases lt_or_eq_of_le h2 with h4 | h4
          · exact h4
          · rw [h4] at h3
            simp at h3
        have h5 : g b < E := by
          by_contra h5
          push Not at h5
          have : (g 0 - E) * (g b - E) ≤ 0 := mul_nonpos_of_nonpos_of_nonneg (by linarith) (by linarith)
          linarith
        refine ⟨h4, b, ?_, h5⟩
        by_contra h6
        push Not at h6
        exact hc ⟨by linarith, h6⟩
      · subst h
        have h6 : E ≤ g b := by
          by_contra h6
          push Not at h6
          rcases lt_or_eq_of_le h2 with h4 | h4
          · exact h3 (mul_pos_of_neg_of_neg (by linarith) (by linarith))
          · rw [h4] at h1
            simp at h1
        refine ⟨hb, h2, h6, ?_⟩
        obtain ⟨z, hz, hz'⟩ := intermediate_value_Icc hb.le hg.continuousOn (show E ∈ Set.Icc (g 0) (g b) from ⟨h2, h6⟩)
        exact ⟨z, hz.1, hz.2, hz'⟩

/-- A case with an interval: a harmonic potential. -/
example : zvc (fun z => z ^ 2) 9 11 = some (.interval 4) := by
  unfold zvc
  rw [if_neg (by norm_num [abs_of_neg]), if_neg (by norm_num)]
  have h : run (zvcStep (fun z => z ^ 2) 9) 11 1 = some (4 : ℝ) := by
    rw [run, zvcStep, if_pos (by norm_num)]
    simp only
    rw [run, zvcStep, if_pos (by norm_num)]
    simp only
    rw [run, zvcStep, if_neg (by norm_num)]
    simp only
    norm_num
  rw [h]
  norm_num

/-- The limit is not harmless: with a solution beyond 1024 the answer is an error. -/
theorem C14_zvc_limit_fails : ∃ (g : ℝ → ℝ) (E z : ℝ), Continuous g ∧ 0 < z ∧ g z = E ∧ ∀ n, 11 ≤ n → zvc g E n = some .error := by
  refine ⟨fun z => z, 2000, 2000, continuous_id, by norm_num, rfl, fun n hn => ?_⟩
  have h : run (zvcStep (fun z => z) 2000) 11 1 = some (1024 : ℝ) := by
    refine run_of_iter _ (fun y => y * 2) _ 10 1 (fun j hj => ?_) ?_
    · rw [iter_mul, iter_mul, zvcStep, if_pos]
      · congr 1
        ring
      · have : (2 : ℝ) ^ j ≤ 2 ^ 9 := pow_le_pow_right₀ (by norm_num) (by omega)
        constructor <;> norm_num at * <;> linarith
    · rw [iter_mul, zvcStep, if_neg (by norm_num)]
      norm_num
  unfold zvc
  rw [if_neg (by norm_num [abs_of_neg]), if_neg (by norm_num), run_mono _ 11 n _ _ h hn]
  norm_num

/-! ### Range of the zero-velocity curve -/

theorem C14aux.range_down (g : ℝ → ℝ) (E y : ℝ) : zvcRangeStep g E false y =
    if g y < E ∧ y > 1 / 10 ^ 8 then .next (y / 2) else .done y := by simp [zvcRangeStep]

theorem C14aux.range_up (g : ℝ → ℝ) (E y : ℝ) : zvcRangeStep g E true y =
    if g y < E ∧ y < 1000 then .next (y * 2) else .done y := by simp [zvcRangeStep]

/-- `zvc_range` always answers. -/
theorem C14_zvc_range_ends (g : ℝ → ℝ) (E RLz : ℝ) (hR : 0 < RLz) : ∃ n r, ∀ m, n ≤ m → zvcRange g E RLz m = some r := by
  obtain ⟨n1, lo, h1⟩ := C14aux.down_ends (zvcRangeStep g E false) (1 / 2) RLz (1 / 10 ^ 8) hR (by norm_num) (by norm_num)
    (by positivity) (fun y _ => by
      rw [C14aux.range_down]
      split_ifs with hc
      · exact Or.inr ⟨by congr 1; ring, hc.2⟩
      · exact Or.inl ⟨_, rfl⟩)
  obtain ⟨n2, hi, h2⟩ := C14aux.up_ends (zvcRangeStep g E true) 2 RLz 1000 hR (by norm_num) (fun y _ => by
      rw [C14aux.range_up]
      split_ifs with hc
      · exact Or.inr ⟨rfl, hc.2⟩
      · exact Or.inl ⟨_, rfl⟩)
  by_cases h3 : g RLz > E
  · exact ⟨0, .nan, fun m _ => by unfold zvcRange; rw [if_pos h3]⟩
  refine ⟨max n1 n2, if (g lo - E) * (g RLz - E) > 0 then .error else if (g RLz - E) * (g hi - E) > 0 then .error
    else .intervals lo hi, fun m hm => ?_⟩
  unfold zvcRange
  rw [if_neg h3, h1 m (le_trans (le_max_left _ _) hm), h2 m (le_trans (le_max_right _ _) hm)]
  simp only [Option.bind_eq_bind, Option.bind_some]
  split_ifs <;> rfl

/-- What `zvc_range` answers: two intervals, on either side of the guiding radius, each with a point at which the effective
potential equals the energy; NaN when even the circular orbit has more energy; an error only when the effective potential
is below the energy at the inner or the outer limit. -/
theorem C14_zvc_range (g : ℝ → ℝ) (hg : ContinuousOn g (Set.Ioi 0)) (E RLz : ℝ) (hR : 0 < RLz) (n : ℕ) (r : ZvcRange)
    (h : zvcRange g E RLz n = some r) :
    match r with
    | .nan => E < g RLz
    | .error => g RLz < E ∧ ((∃ R, 0 < R ∧ R ≤ 1 / 10 ^ 8 ∧ g R < E) ∨ ∃ R, 1000 ≤ R ∧ g R < E)
    | .intervals lo hi => 0 < lo ∧ lo ≤ RLz ∧ RLz ≤ hi ∧ (∃ R, lo ≤ R ∧ R ≤ RLz ∧ g R = E) ∧
        ∃ R, RLz ≤ R ∧ R ≤ hi ∧ g R = E := by
  unfold zvcRange at h
  split_ifs at h with h1
  · simp only [Option.some.injEq] at h
    subst h
    exact h1
  push Not at h1
  have pass : ∀ up b, run (zvcRangeStep g E up) n RLz = some b →
      ∃ k : ℕ, b = RLz * (if up then 2 else 1 / 2) ^ k ∧ (g b < E → if up then 1000 ≤ b else b ≤ 1 / 10 ^ 8) := by
    intro up b hb
    cases up with
    | false =>
      obtain ⟨k, hk, -⟩ := C14aux.last_pass (zvcRangeStep g E false) (1 / 2) RLz (fun y y' hy => by
        rw [C14aux.range_down] at hy
        split_ifs at hy
        simp only [Step.next.injEq] at hy
        rw [← hy]; ring) n b hb
      rw [C14aux.range_down] at hk
      split_ifs at hk with hc
      simp only [Step.done.injEq] at hk
      rw [hk] at hc
      refine ⟨k, by simpa using hk.symm, fun hlt => ?_⟩
      simp only [Bool.false_eq_true, ↓reduceIte]
      by_contra h6
      push Not at h6
      exact hc ⟨hlt, h6⟩
    | true =>
      obtain ⟨k, hk, -⟩ := C14aux.last_pass (zvcRangeStep g E true) 2 RLz (fun y y' hy => by
        rw [C14aux.range_up] at hy
        split_ifs at hy
        simp only [Step.next.injEq] at hy
        exact hy.symm) n b hb
      rw [C14aux.range_up] at hk
      split_ifs at hk with hc
      simp only [Step.done.injEq] at hk
      rw [hk] at hc
      refine ⟨k, by simpa using hk.symm, fun hlt => ?_⟩
      simp only [↓reduceIte]
      by_contra h6
      push Not at h6
      exact hc ⟨hlt, h6⟩
  cases hl : run (zvcRangeStep g E false) n RLz with
  | none => rw [hl] at h; simp at h
  | some lo =>
    rw [hl] at h
    simp only [Option.bind_eq_bind, Option.bind_some] at h
    obtain ⟨k, hk, hlim⟩ := pass false lo hl
    simp only [Bool.false_eq_true, ↓reduceIte] at hk hlim
    have hlo : 0 < lo := by rw [hk]; positivity
    have hlo' : lo ≤ RLz := by
      rw [hk]
      exact mul_le_of_le_one_right hR.le (pow_le_one₀ (by norm_num) (by norm_num))
    have lt_of : ∀ a b : ℝ, a ≤ E → (b - E) * (a - E) > 0 → a < E ∧ b < E := fun a b ha hp => by
      have h4 : a < E := by
        rcases lt_or_eq_of_le ha with h4 | h4
        · exact h4
        · rw [h4] at hp; simp at hp
      refine ⟨h4, ?_⟩
      by_contra h5
      push Not at h5
      have : (b - E) * (a - E) ≤ 0 := mul_nonpos_of_nonneg_of_nonpos (by linarith) (by linarith)
      linarith
    have ge_of : ∀ a b : ℝ, a ≤ E → ¬ (b - E) * (a - E) > 0 → a = E ∨ E ≤ b := fun a b ha hp => by
      rcases lt_or_eq_of_le ha with h4 | h4
      · right
        by_contra h5
        push Not at h5
        exact hp (mul_pos_of_neg_of_neg (by linarith) (by linarith))
      · exact Or.inl h4
    split_ifs at h with h2
    · simp only [Option.some.injEq] at h
      subst h
      obtain ⟨h3, h4⟩ := lt_of _ _ h1 h2
      exact ⟨h3, Or.inl ⟨lo, hlo, hlim h4, h4⟩⟩
    · cases hu : run (zvcRangeStep g E true) n RLz with
      | none => rw [hu] at h; simp at h
      | some hi =>
        rw [hu] at h
        simp only [Option.bind_some] at h
        obtain ⟨j, hj, hlimu⟩ := pass true hi hu
        simp only [↓reduceIte] at hj hlimu
        have hhi : RLz ≤ hi := by
          rw [hj]
          exact le_mul_of_one_le_right hR.le (one_le_pow₀ (by norm_num))
        split_ifs at h with h5
        · simp only [Option.some.injEq] at h
          subst h
          obtain ⟨h3, h4⟩ := lt_of _ (g hi) h1 (by rw [mul_comm]; exact h5)
          exact ⟨h3, Or.inr ⟨hi, hlimu h4, h4⟩⟩
        · simp only [Option.some.injEq] at h
          subst h
          refine ⟨hlo, hlo', hhi, ?_, ?_⟩
          · rcases ge_of _ _ h1 h2 with h6 | h6
            · exact ⟨RLz, hlo', le_rfl, h6⟩
            · obtain ⟨R, hR1, hR2⟩ := intermediate_value_Icc' hlo'
                (hg.mono fun x hx => lt_of_lt_of_le hlo hx.1) (show E ∈ Set.Icc (g RLz) (g lo) from ⟨h1, h6⟩)
              exact ⟨R, hR1.1, hR1.2, hR2⟩
          · rcases ge_of _ (g hi) h1 (by rw [mul_comm]; exact h5) with h6 | h6
            · exact ⟨RLz, le_rfl, hhi, h6⟩
            · obtain ⟨R, hR1, hR2⟩ := intermediate_value_Icc hhi
                (hg.mono fun x hx => lt_of_lt_of_le hR hx.1) (show E ∈ Set.Icc (g RLz) (g hi) from ⟨h1, h6⟩)
              exact ⟨R, hR1.1, hR1.2, hR2⟩

/-- Beyond a guiding radius of 1000 there is never an answer, whatever the potential, although the orbit has a range. -/
theorem C14_zvc_range_far_fails (g : ℝ → ℝ) (E RLz : ℝ) (hR : 1000 ≤ RLz) (hE : g RLz < E) (n : ℕ) (lo hi : ℝ) :
    zvcRange g E RLz n ≠ some (.intervals lo hi) := by
  intro h
  unfold zvcRange at h
  rw [if_neg (by linarith)] at h
  cases hl : run (zvcRangeStep g E false) n RLz with
  | none => rw [hl] at h; simp at h
  | some l =>
    rw [hl] at h
    simp only [Option.bind_eq_bind, Option.bind_some] at h
    split_ifs at h with h2
    · simp at h
    · cases n with
      | zero => simp [run] at hl
      | succ n =>
        have hu : run (zvcRangeStep g E true) (n + 1) RLz = some RLz := by
          rw [run, C14aux.range_up, if_neg (fun hc => by linarith [hc.2])]
        rw [hu] at h
        simp only [Option.bind_some] at h
        rw [if_pos (mul_pos_of_neg_of_neg (by linarith) (by linarith))] at h
        simp at h

/-- A case: `g R = 1/R^2 - 2/R` around its minimum at `R = 1` with `E = -3/4`. -/
example : ∃ n r, ∀ m, n ≤ m → zvcRange (fun R => 1 / R ^ 2 - 2 / R) (-3 / 4) 1 m = some r :=
  C14_zvc_range_ends _ _ 1 one_pos

end Verif
