import Verif.Props.C14Limits

set_option autoImplicit false

/-!
# C14: the searches of the action-angle classes

Pericentre and apocentre (`actionAngleSpherical`), turning points in prolate spheroidal coordinates (`actionAngleStaeckel`)
and the maximum height of a one-dimensional orbit (`actionAngleVertical`).
-/

noncomputable section
namespace Verif
open RootSearch Classical Filter Topology C14Spec

namespace C14aux

theorem rap_step (f : ℝ → ℝ) (s r : ℝ) : rapRperiStep f true s r =
    if s * f r > 0 ∧ r > 1 / 10 ^ 9 then (if r > 100 then .done none else .next (r * 2))
    else .done (some (if r < 1 / 10 ^ 9 then 0 else r)) := by simp [rapRperiStep]

theorem rperi_step (f : ℝ → ℝ) (s r : ℝ) : rapRperiStep f false s r =
    if s * f r > 0 ∧ r > 1 / 10 ^ 9 then .next (r / 2) else .done (some (if r < 1 / 10 ^ 9 then 0 else r)) := by
  simp [rapRperiStep]

end C14aux

/-! ### Pericentre and apocentre -/

/-- Both searches always end. -/
theorem C14_rap_rperi_ends (f : ℝ → ℝ) (R : ℝ) (hR : 0 < R) (rap : Bool) (s : ℝ) :
    ∃ n b, ∀ m, n ≤ m → rapRperiFindStart f R rap s m = some b := by
  unfold rapRperiFindStart
  cases rap with
  | true =>
    refine C14aux.up_ends _ 2 _ 101 (by simpa using hR) (by norm_num) fun y _ => ?_
    rw [C14aux.rap_step]
    split_ifs with h1 h2
    · exact Or.inl ⟨_, rfl⟩
    · exact Or.inr ⟨rfl, by linarith⟩
    · exact Or.inl ⟨_, rfl⟩
    · exact Or.inl ⟨_, rfl⟩
  | false =>
    refine C14aux.down_ends _ (1 / 2) _ (1 / 10 ^ 9) (by simpa using hR) (by norm_num) (by norm_num) (by positivity)
      fun y _ => ?_
    rw [C14aux.rperi_step]
    split_ifs with h1
    · exact Or.inr ⟨by congr 1; ring, h1.2⟩
    · exact Or.inl ⟨_, rfl⟩
    · exact Or.inl ⟨_, rfl⟩

/-- **Apocentre.** With a start inside the allowed range, what the search returns is a radius beyond it, and the radial
equation has a solution in between; `UnboundError` means that the radius still has kinetic energy beyond 100. -/
theorem C14_rap (f : ℝ → ℝ) (hf : ContinuousOn f (Set.Ioi 0)) (R : ℝ) (hR : 1 / 10 ^ 9 < R) (hs : 0 < f R) (n : ℕ)
    (b : Option ℝ) (h : rapRperiFindStart f R true 1 n = some b) :
    match b with
    | none => ∃ r, 100 < r ∧ 0 < f r
    | some r => 2 * R ≤ r ∧ f r ≤ 0 ∧ ∃ x, R ≤ x ∧ x ≤ r ∧ f x = 0 := by
  have hR0 : 0 < R := lt_trans (by positivity) hR
  unfold rapRperiFindStart at h
  simp only [↓reduceIte] at h
  obtain ⟨k, hk, -⟩ := C14aux.last_pass (rapRperiStep f true 1) 2 (2 * R) (fun y y' hy => by
    rw [C14aux.rap_step] at hy
    split_ifs at hy
    simp only [Step.next.injEq] at hy
    exact hy.symm) n b h
  rw [C14aux.rap_step, one_mul] at hk
  have hge : 2 * R ≤ 2 * R * 2 ^ k := le_mul_of_one_le_right (by positivity) (one_le_pow₀ (by norm_num))
  generalize 2 * R * 2 ^ k = r at hk hge
  have h9 : ¬ r < 1 / 10 ^ 9 := by
    push Not
    linarith
  split_ifs at hk with h1 h2
  · simp only [Step.done.injEq] at hk
    subst hk
    exact ⟨r, h2, h1.1⟩
  · simp only [Step.done.injEq] at hk
    subst hk
    have hfr : f r ≤ 0 := by
      by_contra h3
      push Not at h3
      exact h1 ⟨h3, by linarith⟩
    refine ⟨hge, hfr, ?_⟩
    obtain ⟨x, hx, hx'⟩ := intermediate_value_Icc' (show R ≤ r by linarith)
      (hf.mono fun y hy => lt_of_lt_of_le hR0 hy.1) (show (0 : ℝ) ∈ Set.Icc (f r) (f R) from ⟨hfr, hs.le⟩)
    exact ⟨x, hx.1, hx.2, hx'⟩

/-- **Pericentre.** The search returns nought when it reaches radii below `10^-9`; otherwise it returns a radius inside the
start with a solution in between, except that the limit `10^-9` itself is returned without any test. -/
theorem C14_rperi (f : ℝ → ℝ) (hf : ContinuousOn f (Set.Ioi 0)) (R : ℝ) (hR : 0 < R) (hs : 0 < f R) (n : ℕ)
    (b : Option ℝ) (h : rapRperiFindStart f R false 1 n = some b) :
    ∃ r, b = some r ∧ 0 ≤ r ∧ r ≤ R / 2 ∧ (r = 0 ∨ r = 1 / 10 ^ 9 ∨ (0 < r ∧ f r ≤ 0 ∧ ∃ x, r ≤ x ∧ x ≤ R ∧ f x = 0)) := by
  unfold rapRperiFindStart at h
  simp only [Bool.false_eq_true, ↓reduceIte] at h
  obtain ⟨k, hk, -⟩ := C14aux.last_pass (rapRperiStep f false 1) (1 / 2) (R / 2) (fun y y' hy => by
    rw [C14aux.rperi_step] at hy
    split_ifs at hy
    simp only [Step.next.injEq] at hy
    rw [← hy]
    ring) n b h
  rw [C14aux.rperi_step, one_mul] at hk
  have hle : R / 2 * (1 / 2) ^ k ≤ R / 2 := mul_le_of_le_one_right (by positivity) (pow_le_one₀ (by norm_num) (by norm_num))
  have hpos : 0 < R / 2 * (1 / 2) ^ k := by positivity
  generalize R / 2 * (1 / 2) ^ k = r at hk hle hpos
  split_ifs at hk with h1 h2
  · simp only [Step.done.injEq] at hk
    exact ⟨0, hk.symm, le_rfl, by positivity, Or.inl rfl⟩
  · simp only [Step.done.injEq] at hk
    refine ⟨r, hk.symm, hpos.le, hle, ?_⟩
    push Not at h2
    rcases lt_or_eq_of_le h2 with h3 | h3
    · right; right
      have hfr : f r ≤ 0 := by
        by_contra h4
        push Not at h4
        exact h1 ⟨h4, h3⟩
      obtain ⟨x, hx, hx'⟩ := intermediate_value_Icc (show r ≤ R by linarith)
        (hf.mono fun y hy => lt_of_lt_of_le hpos hy.1) (show (0 : ℝ) ∈ Set.Icc (f r) (f R) from ⟨hfr, hs.le⟩)
      exact ⟨hpos, hfr, x, hx.1, hx.2, hx'⟩
    · exact Or.inr (Or.inl h3.symm)

/-- The radial equation of an orbit in a spherical potential is continuous away from the centre. -/
theorem C14_radial_equation_continuous (phi : ℝ → ℝ) (hphi : ContinuousOn phi (Set.Ioi 0)) (E L : ℝ) :
    ContinuousOn (rapRperiEq phi E L) (Set.Ioi 0) := by
  unfold rapRperiEq
  exact (continuousOn_const.sub hphi).sub (continuousOn_const.div (continuousOn_id.pow 2)
    fun x hx => pow_ne_zero 2 (ne_of_gt hx))

/-- The search calls bound orbits unbound: whenever the start radius is above 50 and the orbit still moves outwards at
twice that radius, the answer is `UnboundError`. -/
theorem C14_unbound_fails (f : ℝ → ℝ) (R : ℝ) (hR : 50 < R) (hf : 0 < f (2 * R)) (n : ℕ) :
    rapRperiFindStart f R true 1 (n + 1) = some none := by
  unfold rapRperiFindStart
  simp only [↓reduceIte]
  rw [run, C14aux.rap_step, if_pos ⟨by linarith, by linarith [show (1 : ℝ) / 10 ^ 9 < 100 by norm_num]⟩,
    if_pos (by linarith)]

/-- A case: the bound Kepler orbit with pericentre 10 and apocentre 1000, met at `R = 60`. -/
example : let f := rapRperiEq (fun r => -1 / r) (-1 / 1010) (√(2000 / 101))
    f 10 = 0 ∧ f 1000 = 0 ∧ 0 < f 60 ∧ rapRperiFindStart f 60 true 1 1 = some none := by
  have hs : √(2000 / 101 : ℝ) ^ 2 = 2000 / 101 := Real.sq_sqrt (by norm_num)
  refine ⟨?_, ?_, ?_, C14_unbound_fails _ 60 (by norm_num) ?_ 0⟩
  all_goals
    unfold rapRperiEq
    rw [hs]
    norm_num

/-- A case: the Kepler orbit with pericentre 1/2 and apocentre 3/2, met at `R = 1`; the search returns 2. -/
example : rapRperiFindStart (rapRperiEq (fun r => -1 / r) (-1 / 2) (√(3 / 4))) 1 true 1 1 = some (some 2) := by
  have hs : √(3 / 4 : ℝ) ^ 2 = 3 / 4 := Real.sq_sqrt (by norm_num)
  unfold rapRperiFindStart
  simp only [↓reduceIte]
  rw [run, C14aux.rap_step, if_neg]
  · norm_num
  · unfold rapRperiEq
    rw [hs]
    norm_num

/-! ### Turning points in `u` and `v` -/

namespace C14aux

theorem pair_iter (c : ℝ) (s : ℝ × ℝ) (k : ℕ) : (fun s : ℝ × ℝ => (s.1 * c, s.1))^[k + 1] s = (s.1 * c ^ (k + 1), s.1 * c ^ k) := by
  induction k with
  | zero => simp
  | succ k ih =>
    rw [Function.iterate_succ_apply', ih]
    simp only [Prod.mk.injEq, and_true]
    ring

theorem umax_step (f : ℝ → ℝ) (s : ℝ × ℝ) : uminUmaxStep f true s =
    if f s.1 ≥ 0 ∧ s.1 > 1 / 10 ^ 9 then (if s.1 > 100 then .done none else .next (s.1 * (11 / 10), s.1))
    else .done (some (if s.1 < 1 / 10 ^ 9 then (0, s.2) else s)) := by simp [uminUmaxStep]

theorem umin_step (f : ℝ → ℝ) (s : ℝ × ℝ) : uminUmaxStep f false s =
    if f s.1 ≥ 0 ∧ s.1 > 1 / 10 ^ 9 then .next (s.1 * (9 / 10), s.1)
    else .done (some (if s.1 < 1 / 10 ^ 9 then (0, s.2) else s)) := by simp [uminUmaxStep]

/-- What the search knows at every pass: the previous value is a factor away and the function was not negative there. -/
theorem pair_last {β : Type} (step : ℝ × ℝ → Step (ℝ × ℝ) β) (f : ℝ → ℝ) (c u : ℝ)
    (hs : ∀ y y', step y = .next y' → y' = (y.1 * c, y.1) ∧ 0 ≤ f y.1) (hu : 0 ≤ f u) (n : ℕ) (b : β)
    (h : run step n (u * c, u) = some b) : ∃ k : ℕ, step (u * c ^ (k + 1), u * c ^ k) = .done b ∧ 0 ≤ f (u * c ^ k) := by
  obtain ⟨k, -, hn, hd⟩ := iter_of_run step (fun s => (s.1 * c, s.1)) (fun y y' hy => (hs y y' hy).1) b n _ h
  cases k with
  | zero => exact ⟨0, by simpa using hd, by simpa using hu⟩
  | succ k =>
    rw [pair_iter] at hd
    refine ⟨k + 1, ?_, ?_⟩
    · rw [← hd]
      simp only [Prod.mk.injEq]
      congr 2 <;> ring
    · have h1 := (hs _ _ (hn k (by omega))).2
      cases k with
      | zero => simpa using h1
      | succ k =>
        rw [pair_iter] at h1
        simp only at h1
        convert h1 using 2
        ring

end C14aux

/-- **Outer turning point in `u`.** The pair that is returned brackets a solution; `UnboundError` only above 100. -/
theorem C14_umax (f : ℝ → ℝ) (hf : ContinuousOn f (Set.Ioi 0)) (u : ℝ) (hu : 1 / 10 ^ 9 < u) (hfu : 0 ≤ f u) (n : ℕ)
    (b : Option (ℝ × ℝ)) (h : uminUmaxFindStart f u true n = some b) :
    match b with
    | none => ∃ x, 100 < x ∧ 0 ≤ f x
    | some (x, prev) => u ≤ prev ∧ prev < x ∧ 0 ≤ f prev ∧ f x < 0 ∧ ∃ y, prev ≤ y ∧ y ≤ x ∧ f y = 0 := by
  have hu0 : 0 < u := lt_trans (by positivity) hu
  unfold uminUmaxFindStart at h
  simp only [↓reduceIte] at h
  obtain ⟨k, hk, hp⟩ := C14aux.pair_last (uminUmaxStep f true) f (11 / 10) u (fun y y' hy => by
    rw [C14aux.umax_step] at hy
    split_ifs at hy with h1
    simp only [Step.next.injEq] at hy
    exact ⟨hy.symm, h1.1⟩) hfu n b h
  rw [C14aux.umax_step] at hk
  have hge : u ≤ u * (11 / 10) ^ k := le_mul_of_one_le_right hu0.le (one_le_pow₀ (by norm_num))
  have hlt : u * (11 / 10) ^ k < u * (11 / 10) ^ (k + 1) := by
    rw [pow_succ]
    have : 0 < u * (11 / 10) ^ k := by positivity
    nlinarith
  generalize u * (11 / 10) ^ (k + 1) = x at hk hlt
  generalize u * (11 / 10) ^ k = prev at hk hlt hge hp
  have h9 : ¬ x < 1 / 10 ^ 9 := by
    push Not
    linarith
  simp only at hk
  split_ifs at hk with h1 h2
  · simp only [Step.done.injEq] at hk
    subst hk
    exact ⟨x, h2, h1.1⟩
  · simp only [Step.done.injEq] at hk
    subst hk
    have hfx : f x < 0 := by
      by_contra h3
      push Not at h3
      exact h1 ⟨h3, by linarith⟩
    refine ⟨hge, hlt, hp, hfx, ?_⟩
    obtain ⟨y, hy, hy'⟩ := intermediate_value_Icc' hlt.le
      (hf.mono fun y hy => lt_of_lt_of_le (lt_of_lt_of_le hu0 hge) hy.1) (show (0 : ℝ) ∈ Set.Icc (f x) (f prev) from ⟨hfx.le, hp⟩)
    exact ⟨y, hy.1, hy.2, hy'⟩

/-- **Inner turning point in `u`.** -/
theorem C14_umin (f : ℝ → ℝ) (hf : ContinuousOn f (Set.Ioi 0)) (u : ℝ) (hu : 0 < u) (hfu : 0 ≤ f u) (n : ℕ)
    (b : Option (ℝ × ℝ)) (h : uminUmaxFindStart f u false n = some b) :
    ∃ x prev, b = some (x, prev) ∧ 0 ≤ x ∧ x < prev ∧ prev ≤ u ∧ 0 ≤ f prev ∧
      (x = 0 ∨ x = 1 / 10 ^ 9 ∨ (f x < 0 ∧ ∃ y, x ≤ y ∧ y ≤ prev ∧ f y = 0)) := by
  unfold uminUmaxFindStart at h
  simp only [Bool.false_eq_true, ↓reduceIte] at h
  obtain ⟨k, hk, hp⟩ := C14aux.pair_last (uminUmaxStep f false) f (9 / 10) u (fun y y' hy => by
    rw [C14aux.umin_step] at hy
    split_ifs at hy with h1
    simp only [Step.next.injEq] at hy
    exact ⟨hy.symm, h1.1⟩) hfu n b h
  rw [C14aux.umin_step] at hk
  have hle : u * (9 / 10) ^ k ≤ u := mul_le_of_le_one_right hu.le (pow_le_one₀ (by norm_num) (by norm_num))
  have hpos : 0 < u * (9 / 10) ^ k := by positivity
  have hpos' : 0 < u * (9 / 10) ^ (k + 1) := by positivity
  have hlt : u * (9 / 10) ^ (k + 1) < u * (9 / 10) ^ k := by
    rw [pow_succ]
    nlinarith
  generalize u * (9 / 10) ^ (k + 1) = x at hk hlt hpos'
  generalize u * (9 / 10) ^ k = prev at hk hlt hle hp hpos
  simp only at hk
  split_ifs at hk with h1 h2
  · simp only [Step.done.injEq] at hk
    exact ⟨0, prev, hk.symm, le_rfl, hpos, hle, hp, Or.inl rfl⟩
  · simp only [Step.done.injEq] at hk
    refine ⟨x, prev, hk.symm, hpos'.le, hlt, hle, hp, ?_⟩
    push Not at h2
    rcases lt_or_eq_of_le h2 with h3 | h3
    · right; right
      have hfx : f x < 0 := by
        by_contra h4
        push Not at h4
        exact h1 ⟨h4, h3⟩
      refine ⟨hfx, ?_⟩
      obtain ⟨y, hy, hy'⟩ := intermediate_value_Icc hlt.le
        (hf.mono fun y hy => lt_of_lt_of_le hpos' hy.1) (show (0 : ℝ) ∈ Set.Icc (f x) (f prev) from ⟨hfx.le, hp⟩)
      exact ⟨y, hy.1, hy.2, hy'⟩
    · exact Or.inr (Or.inl h3.symm)

/-- A case: `f u = 4 - u` starting at `u = 3.8`: the first try is 4.18. -/
example : uminUmaxFindStart (fun u => 4 - u) 3.8 true 1 = some (some (4.18, 3.8)) := by
  unfold uminUmaxFindStart
  simp only [↓reduceIte]
  rw [run, C14aux.umax_step, if_neg (by norm_num)]
  norm_num

/-- **Turning point in `v`.** -/
theorem C14_vmin (f : ℝ → ℝ) (hf : ContinuousOn f (Set.Ioi 0)) (v : ℝ) (hv : 0 < v) (hfv : 0 ≤ f v) :
    (∃ n x, ∀ m, n ≤ m → vminFindStart f v m = some x) ∧
    ∀ n x, vminFindStart f v n = some x → 0 ≤ x ∧ x < v ∧
      (x = 0 ∨ x = 1 / 10 ^ 9 ∨ (0 < x ∧ f x < 0 ∧ ∃ y, x ≤ y ∧ y ≤ v ∧ f y = 0)) := by
  constructor
  · unfold vminFindStart
    refine C14aux.down_ends _ (9 / 10) _ (1 / 10 ^ 9) (by positivity) (by norm_num) (by norm_num) (by positivity)
      fun y _ => ?_
    unfold vminStep
    split_ifs with h1
    · exact Or.inr ⟨rfl, h1.2⟩
    · exact Or.inl ⟨_, rfl⟩
    · exact Or.inl ⟨_, rfl⟩
  · intro n x h
    unfold vminFindStart at h
    obtain ⟨k, hk, -⟩ := C14aux.last_pass (vminStep f) (9 / 10) (9 / 10 * v) (fun y y' hy => by
      unfold vminStep at hy
      split_ifs at hy
      simp only [Step.next.injEq] at hy
      exact hy.symm) n x h
    have hpos : 0 < 9 / 10 * v * (9 / 10) ^ k := by positivity
    have hle : 9 / 10 * v * (9 / 10) ^ k ≤ 9 / 10 * v :=
      mul_le_of_le_one_right (by positivity) (pow_le_one₀ (by norm_num) (by norm_num))
    unfold vminStep at hk
    generalize 9 / 10 * v * (9 / 10) ^ k = r at hk hle hpos
    split_ifs at hk with h1 h2
    · simp only [Step.done.injEq] at hk
      exact ⟨hk.le, by rw [← hk]; exact hv, Or.inl hk.symm⟩
    · simp only [Step.done.injEq] at hk
      subst hk
      refine ⟨hpos.le, by linarith, ?_⟩
      push Not at h2
      rcases lt_or_eq_of_le h2 with h3 | h3
      · right; right
        have hfx : f r < 0 := by
          by_contra h4
          push Not at h4
          exact h1 ⟨h4, h3⟩
        refine ⟨hpos, hfx, ?_⟩
        obtain ⟨y, hy, hy'⟩ := intermediate_value_Icc (show r ≤ v by linarith)
          (hf.mono fun y hy => lt_of_lt_of_le hpos hy.1) (show (0 : ℝ) ∈ Set.Icc (f r) (f v) from ⟨hfx.le, hfv⟩)
        exact ⟨y, hy.1, hy.2, hy'⟩
      · exact Or.inr (Or.inl h3.symm)

/-! ### Maximum height of a one-dimensional orbit -/

/-- The search always ends; an interval contains a point where the potential equals the energy, on the positive side of the
start; the other answer is the start itself when it is at rest there, or the value -9999.99. -/
theorem C14_xmax (phi : ℝ → ℝ) (hphi : Continuous phi) (x vx : ℝ) :
    (∃ n r, ∀ m, n ≤ m → calcxmax phi x vx m = some r) ∧
    ∀ n r, calcxmax phi x vx n = some r →
      match r with
      | .value y => (vx = 0 ∧ y = |x|) ∨ (y = -9999.99 ∧ ∃ z, 50 < z ∧ phi z < vx ^ 2 / 2 + phi x)
      | .interval lo hi => lo = x ∧ x < hi ∧ 0 < hi ∧ phi lo < vx ^ 2 / 2 + phi x ∧ vx ^ 2 / 2 + phi x ≤ phi hi ∧
          ∃ z, lo ≤ z ∧ z ≤ hi ∧ phi z = vx ^ 2 / 2 + phi x := by
  have hstart : 0 < (if x = 0 then (1 : ℝ) / 10 ^ 5 else 2 * |x|) := by
    split_ifs with h
    · positivity
    · have := abs_pos.2 h
      positivity
  constructor
  · by_cases hv : vx = 0
    · exact ⟨0, .value |x|, fun m _ => by unfold calcxmax; rw [if_pos hv]⟩
    obtain ⟨n, b, hb⟩ := C14aux.up_ends (xmaxStep phi (vx ^ 2 / 2 + phi x)) 2 _ 101 hstart (by norm_num) (fun y _ => by
      unfold xmaxStep
      split_ifs with h1 h2
      · exact Or.inl ⟨_, rfl⟩
      · exact Or.inr ⟨rfl, by linarith⟩
      · exact Or.inl ⟨_, rfl⟩)
    exact ⟨n, _, fun m hm => by
      unfold calcxmax
      dsimp only
      rw [if_neg hv, hb m hm]
      rfl⟩
  · intro n r h
    unfold calcxmax at h
    dsimp only at h
    have hge : x < (if x = 0 then (1 : ℝ) / 10 ^ 5 else 2 * |x|) := by
      split_ifs with h0
      · rw [h0]; positivity
      · have := abs_pos.2 h0
        linarith [le_abs_self x]
    generalize (if x = 0 then (1 : ℝ) / 10 ^ 5 else 2 * |x|) = start at h hstart hge
    by_cases hv : vx = 0
    · rw [if_pos hv] at h
      simp only [Option.some.injEq] at h
      subst h
      exact Or.inl ⟨hv, rfl⟩
    rw [if_neg hv] at h
    cases hr : run (xmaxStep phi (vx ^ 2 / 2 + phi x)) n start with
    | none => rw [hr] at h; simp at h
    | some b =>
      rw [hr] at h
      obtain ⟨k, hk, -⟩ := C14aux.last_pass _ 2 start (fun y y' hy => by
        unfold xmaxStep at hy
        split_ifs at hy
        simp only [Step.next.injEq] at hy
        exact hy.symm) n b hr
      have hle : start ≤ start * 2 ^ k := le_mul_of_one_le_right hstart.le (one_le_pow₀ (by norm_num))
      unfold xmaxStep at hk
      generalize start * 2 ^ k = e at hk hle
      split_ifs at hk with h1 h2
      · simp only [Step.done.injEq] at hk
        subst hk
        simp only [Option.map_some, Option.some.injEq] at h
        subst h
        exact Or.inr ⟨rfl, e, by linarith, by linarith⟩
      · simp only [Step.done.injEq] at hk
        subst hk
        simp only [Option.map_some, Option.some.injEq] at h
        subst h
        have hv2 : 0 < vx ^ 2 := by positivity
        push Not at h1
        refine ⟨rfl, by linarith, by linarith, by linarith, by linarith, ?_⟩
        obtain ⟨z, hz, hz'⟩ := intermediate_value_Icc (show x ≤ e by linarith) hphi.continuousOn
          (show vx ^ 2 / 2 + phi x ∈ Set.Icc (phi x) (phi e) from ⟨by linarith, by linarith⟩)
        exact ⟨z, hz.1, hz.2, hz'⟩

/-- The value -9999.99 is returned as a maximum height for bound orbits: a harmonic oscillator of amplitude 200. -/
theorem C14_xmax_sentinel_fails : ∃ (phi : ℝ → ℝ) (x vx : ℝ), Continuous phi ∧ phi 200 = vx ^ 2 / 2 + phi x ∧
    (∀ z, 200 < |z| → vx ^ 2 / 2 + phi x < phi z) ∧ ∃ n, ∀ m, n ≤ m → calcxmax phi x vx m = some (.value (-9999.99)) := by
  refine ⟨fun z => z ^ 2 / 2, 60, √(200 ^ 2 - 60 ^ 2), by fun_prop, ?_, ?_, 1, ?_⟩
  · rw [Real.sq_sqrt (by norm_num)]
    norm_num
  · intro z hz
    rw [Real.sq_sqrt (by norm_num)]
    have : 200 ^ 2 < |z| ^ 2 := pow_lt_pow_left₀ hz (by norm_num) (by norm_num)
    rw [sq_abs] at this
    linarith
  · intro m hm
    obtain ⟨m, rfl⟩ := Nat.exists_eq_add_of_le hm
    unfold calcxmax
    dsimp only
    rw [if_neg (ne_of_gt (Real.sqrt_pos.2 (by norm_num))), if_neg (by norm_num), Nat.add_comm 1 m, run, xmaxStep, if_pos, if_pos]
    · rfl
    · norm_num [abs_of_pos]
    · rw [Real.sq_sqrt (by norm_num)]
      norm_num [abs_of_pos]

/-- A case with an interval: the oscillator started at the origin with speed 3. -/
example : ∃ n lo hi, ∀ m, n ≤ m → calcxmax (fun z => z ^ 2 / 2) 0 3 m = some (.interval lo hi) := by
  obtain ⟨⟨n, r, hr⟩, h2⟩ := C14_xmax (fun z => z ^ 2 / 2) (by fun_prop) 0 3
  cases r with
  | interval lo hi => exact ⟨n, lo, hi, hr⟩
  | value y =>
    rcases h2 n _ (hr n le_rfl) with ⟨h, -⟩ | ⟨-, z, hz, hz'⟩
    · norm_num at h
    · nlinarith

end Verif
