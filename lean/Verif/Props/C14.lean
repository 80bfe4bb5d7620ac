import Verif.Lemmas.RootSearch

set_option autoImplicit false

/-!
# C14: the searches that precede root finding return genuine brackets

Specification: a bracket is a pair of positive radii between which the equation has a solution.
-/

noncomputable section
namespace Verif
open RootSearch Classical Filter Topology

namespace C14Spec

/-- `(lo, hi)` brackets a solution of `F r = c`. -/
def Brackets (F : ℝ → ℝ) (c lo hi : ℝ) : Prop :=
  0 < lo ∧ 0 < hi ∧ (F lo - c) * (F hi - c) ≤ 0 ∧ ∃ r, 0 < r ∧ min lo hi ≤ r ∧ r ≤ max lo hi ∧ F r = c

end C14Spec

open C14Spec

namespace C14aux

theorem uIcc_pos {lo hi : ℝ} (h1 : 0 < lo) (h2 : 0 < hi) : Set.uIcc lo hi ⊆ Set.Ioi 0 := fun r hr => by
  rw [Set.uIcc, Set.mem_Icc] at hr
  exact lt_of_lt_of_le (lt_min h1 h2) hr.1

theorem brackets (F : ℝ → ℝ) (c lo hi : ℝ) (h1 : 0 < lo) (h2 : 0 < hi) (hc : ContinuousOn F (Set.Ioi 0))
    (h : (F lo - c) * (F hi - c) ≤ 0) : Brackets F c lo hi := by
  refine ⟨h1, h2, h, ?_⟩
  obtain ⟨r, hr, hz⟩ := root_between (fun r => F r - c) lo hi ((hc.mono (uIcc_pos h1 h2)).sub continuousOn_const) h
  have hr' := hr
  rw [Set.uIcc, Set.mem_Icc] at hr'
  exact ⟨r, uIcc_pos h1 h2 hr, hr'.1, hr'.2, by simpa [sub_eq_zero] using hz⟩

theorem bracket_spec (f : ℝ → ℝ) (r0 : ℝ) (hr : 0 < r0) (n : ℕ) (lo hi : ℝ) (h : bracket f r0 n = some (lo, hi)) :
    0 < lo ∧ 0 < hi ∧ f lo * f hi ≤ 0 ∧ 2 * r0 ≤ hi := by
  unfold bracket at h
  cases hs : findStart f r0 false n with
  | none => simp [hs] at h
  | some rstart =>
    rw [hs] at h
    simp only [Option.bind_eq_bind, Option.bind_some] at h
    obtain ⟨k, -, hk, hf, -⟩ := (findStart_up f r0 rstart n).1 hs
    have hp : 0 < rstart := by rw [hk]; positivity
    have hge : 2 * r0 ≤ rstart := by
      rw [hk]
      exact le_mul_of_one_le_right (by positivity) (one_le_pow₀ (by norm_num))
    split_ifs at h with hc
    · simp only [Option.some.injEq, Prod.mk.injEq] at h
      obtain ⟨rfl, rfl⟩ := h
      exact ⟨by positivity, hp, hc, hge⟩
    · cases hl : findStart f (1 / 10 ^ 5) true n with
      | none =>
        rw [hl] at h
        simp at h
      | some rlower =>
        rw [hl] at h
        simp only [Option.bind_some, Option.some.injEq, Prod.mk.injEq] at h
        obtain ⟨rfl, rfl⟩ := h
        obtain ⟨j, -, hj, hf', -⟩ := (findStart_down f _ rlower n).1 hl
        exact ⟨by rw [hj]; positivity, hp, mul_nonpos_of_nonpos_of_nonneg hf' hf, hge⟩

theorem findStart_mono (f : ℝ → ℝ) (r0 r : ℝ) (lower : Bool) (n m : ℕ) (h : findStart f r0 lower n = some r)
    (hm : n ≤ m) : findStart f r0 lower m = some r := run_mono _ n m _ _ h hm

theorem bracket_ends (f : ℝ → ℝ) (r0 : ℝ) (hr : 0 < r0) (hu : ∀ᶠ r in atTop, 0 ≤ f r)
    (hd : ∀ᶠ r in 𝓝[>] 0, f r ≤ 0) : ∃ n lo hi, ∀ m, n ≤ m → bracket f r0 m = some (lo, hi) := by
  obtain ⟨n1, hi, h1⟩ := findStart_up_ends f r0 hr hu
  obtain ⟨n2, lo, h2⟩ := findStart_down_ends f (1 / 10 ^ 5) (by positivity) hd
  refine ⟨max n1 n2, if f (1 / 10 ^ 5) * f hi ≤ 0 then 1 / 10 ^ 5 else lo, hi, fun m hm => ?_⟩
  unfold bracket
  rw [findStart_mono _ _ _ _ _ m h1 (le_trans (le_max_left _ _) hm),
    findStart_mono _ _ _ _ _ m h2 (le_trans (le_max_right _ _) hm)]
  simp only [Option.bind_eq_bind, Option.bind_some]
  split_ifs <;> rfl

end C14aux

/-! ### The three search loops -/

/-- The upward search ends with `r` exactly when `r` is the first of `2 r0, 4 r0, 8 r0, …` at which the function is not
negative; it ends at all exactly when there is one. -/
theorem C14_search_up (f : ℝ → ℝ) (r0 r : ℝ) :
    ((∃ n, findStart f r0 false n = some r) ↔ ∃ k : ℕ, r = 2 * r0 * 2 ^ k ∧ 0 ≤ f r ∧ ∀ j < k, f (2 * r0 * 2 ^ j) < 0) ∧
    ((∃ n x, findStart f r0 false n = some x) ↔ ∃ k : ℕ, 0 ≤ f (2 * r0 * 2 ^ k)) := by
  refine ⟨⟨?_, ?_⟩, ⟨?_, ?_⟩⟩
  · rintro ⟨n, h⟩
    obtain ⟨k, -, h⟩ := (findStart_up f r0 r n).1 h
    exact ⟨k, h⟩
  · rintro ⟨k, h⟩
    exact ⟨k + 1, (findStart_up f r0 r _).2 ⟨k, by omega, h⟩⟩
  · rintro ⟨n, x, h⟩
    obtain ⟨k, -, h1, h2, -⟩ := (findStart_up f r0 x n).1 h
    exact ⟨k, h1 ▸ h2⟩
  · intro he
    exact ⟨Nat.find he + 1, _, (findStart_up f r0 _ _).2 ⟨Nat.find he, by omega, rfl, Nat.find_spec he,
      fun j hj => not_le.1 (Nat.find_min he hj)⟩⟩

/-- The downward search likewise with `2 r0, r0, r0/2, …`. -/
theorem C14_search_down (f : ℝ → ℝ) (r0 r : ℝ) :
    ((∃ n, findStart f r0 true n = some r) ↔ ∃ k : ℕ, r = 2 * r0 / 2 ^ k ∧ f r ≤ 0 ∧ ∀ j < k, 0 < f (2 * r0 / 2 ^ j)) ∧
    ((∃ n x, findStart f r0 true n = some x) ↔ ∃ k : ℕ, f (2 * r0 / 2 ^ k) ≤ 0) := by
  refine ⟨⟨?_, ?_⟩, ⟨?_, ?_⟩⟩
  · rintro ⟨n, h⟩
    obtain ⟨k, -, h⟩ := (findStart_down f r0 r n).1 h
    exact ⟨k, h⟩
  · rintro ⟨k, h⟩
    exact ⟨k + 1, (findStart_down f r0 r _).2 ⟨k, by omega, h⟩⟩
  · rintro ⟨n, x, h⟩
    obtain ⟨k, -, h1, h2, -⟩ := (findStart_down f r0 x n).1 h
    exact ⟨k, h1 ▸ h2⟩
  · intro he
    exact ⟨Nat.find he + 1, _, (findStart_down f r0 _ _).2 ⟨Nat.find he, by omega, rfl, Nat.find_spec he,
      fun j hj => not_le.1 (Nat.find_min he hj)⟩⟩

/-- A case: for `f r = r - 5` and `r0 = 1` the upward search tries 2, 4, 8. -/
example : findStart (fun r => r - 5) 1 false 10 = some 8 :=
  (findStart_up _ _ _ _).2 ⟨2, by norm_num, by norm_num, by norm_num, fun j hj => by
    rcases (show j = 0 ∨ j = 1 by omega) with rfl | rfl <;> norm_num⟩

/-- **Guiding radius.** Whatever the rotation curve, any interval handed to the root finder contains a radius whose
circular orbit has the requested angular momentum. -/
theorem C14_rl (vc : ℝ → ℝ) (hvc : ContinuousOn vc (Set.Ioi 0)) (lz : ℝ) (hlz : lz ≠ 0) (n : ℕ) (lo hi : ℝ)
    (h : rl vc lz n = some (lo, hi)) : Brackets (fun r => r * vc r) |lz| lo hi := by
  obtain ⟨h1, h2, h3, -⟩ := C14aux.bracket_spec _ _ (abs_pos.2 hlz) n lo hi h
  exact C14aux.brackets _ _ lo hi h1 h2 (continuousOn_id.mul hvc) h3

/-- The searches end when the angular momentum of circular orbits exceeds `|Lz|` far out and is below it close in. -/
theorem C14_rl_ends (vc : ℝ → ℝ) (lz : ℝ) (hlz : lz ≠ 0) (hout : Tendsto (fun r => r * vc r) atTop atTop)
    (hin : Tendsto (fun r => r * vc r) (𝓝[>] 0) (𝓝 0)) :
    ∃ n lo hi, ∀ m, n ≤ m → rl vc lz m = some (lo, hi) := by
  refine C14aux.bracket_ends _ _ (abs_pos.2 hlz) ?_ ?_
  · filter_upwards [hout.eventually_ge_atTop |lz|] with r hr
    unfold rlFunc
    linarith
  · filter_upwards [hin.eventually (Iio_mem_nhds (abs_pos.2 hlz))] with r hr
    unfold rlFunc
    linarith

/-- A case: a flat rotation curve. -/
example (lz : ℝ) (hlz : lz ≠ 0) : ∃ n lo hi, (∀ m, n ≤ m → rl (fun _ => 1) lz m = some (lo, hi)) ∧
    Brackets (fun r => r * 1) |lz| lo hi := by
  obtain ⟨n, lo, hi, h⟩ := C14_rl_ends (fun _ => 1) lz hlz (by simp only [mul_one]; exact tendsto_id)
    (by simp only [mul_one]; exact tendsto_id.mono_left nhdsWithin_le_nhds)
  exact ⟨n, lo, hi, h, C14_rl _ continuousOn_const lz hlz n lo hi (h n le_rfl)⟩

/-- **Radius of the circular orbit with given energy.** -/
theorem C14_rE (vc phi : ℝ → ℝ) (hvc : ContinuousOn vc (Set.Ioi 0)) (hphi : ContinuousOn phi (Set.Ioi 0)) (E : ℝ)
    (n : ℕ) (lo hi : ℝ) (h : rE vc phi E n = some (lo, hi)) : Brackets (fun r => vc r ^ 2 / 2 + phi r) E lo hi := by
  obtain ⟨h1, h2, h3, -⟩ := C14aux.bracket_spec _ _ one_pos n lo hi h
  exact C14aux.brackets _ _ lo hi h1 h2 (((hvc.pow 2).div_const 2).add hphi) h3

/-- The searches end for every energy between the limits of the energy of circular orbits. -/
theorem C14_rE_ends (vc phi : ℝ → ℝ) (E : ℝ) (hout : ∀ᶠ r in atTop, E ≤ vc r ^ 2 / 2 + phi r)
    (hin : ∀ᶠ r in 𝓝[>] 0, vc r ^ 2 / 2 + phi r ≤ E) :
    ∃ n lo hi, ∀ m, n ≤ m → rE vc phi E m = some (lo, hi) := by
  refine C14aux.bracket_ends _ _ one_pos ?_ ?_
  · filter_upwards [hout] with r hr
    unfold rEFunc
    linarith
  · filter_upwards [hin] with r hr
    unfold rEFunc
    linarith

/-- If every circular orbit has an energy below `E` (for instance `E ≥ 0` in a potential that vanishes at infinity) the
search for `rE` goes on for ever: no number of passes suffices. -/
theorem C14_rE_unbound_fails (vc phi : ℝ → ℝ) (E : ℝ) (h : ∀ r, 0 < r → vc r ^ 2 / 2 + phi r < E) (n : ℕ) :
    rE vc phi E n = none := by
  unfold rE bracket
  cases hs : findStart (rEFunc vc phi E) 1 false n with
  | none => rfl
  | some x =>
    obtain ⟨k, -, hk, hf, -⟩ := (findStart_up _ _ _ _).1 hs
    have := h x (by rw [hk]; positivity)
    unfold rEFunc at hf
    linarith

/-- A case: a point mass and `E = 0`. -/
example (n : ℕ) : rE (fun r => √(1 / r)) (fun r => -1 / r) 0 n = none :=
  C14_rE_unbound_fails _ _ _ (fun r hr => by
    rw [Real.sq_sqrt (by positivity)]
    have : 0 < 1 / r := by positivity
    have e : -1 / r = -(1 / r) := by ring
    rw [e]
    linarith) n

/-- A case: a point mass and `E = -1`, with the root at `r = 1/2`. -/
example : ∃ n lo hi, (∀ m, n ≤ m → rE (fun r => √(1 / r)) (fun r => -1 / r) (-1) m = some (lo, hi)) := by
  refine C14_rE_ends _ _ _ ?_ ?_
  · filter_upwards [eventually_ge_atTop 1] with r hr
    have hr0 : 0 < r := by linarith
    rw [Real.sq_sqrt (by positivity)]
    have : 1 / r ≤ 1 := by rw [div_le_one hr0]; exact hr
    have e : -1 / r = -(1 / r) := by ring
    rw [e]
    linarith
  · filter_upwards [Ioo_mem_nhdsGT (show (0 : ℝ) < 1 / 2 by norm_num)] with r hr
    have hr0 : 0 < r := hr.1
    rw [Real.sq_sqrt (by positivity)]
    have : 2 ≤ 1 / r := by rw [le_div_iff₀ hr0]; linarith [hr.2]
    have e : -1 / r = -(1 / r) := by ring
    rw [e]
    linarith

/-- **Half-mass radius.** -/
theorem C14_rhalf (mass : ℝ → ℝ) (hm : ContinuousOn mass (Set.Ioi 0)) (tot : ℝ) (ht : 0 < tot) (n : ℕ) (lo hi : ℝ)
    (h : rhalf mass tot n = some (lo, hi)) : Brackets mass (tot / 2) lo hi := by
  unfold rhalf at h
  cases hs : findStart (rhalfFunc mass tot) 1 false n with
  | none => simp [hs] at h
  | some x =>
    cases hl : findStart (rhalfFunc mass tot) 1 true n with
    | none => simp [hs, hl] at h
    | some y =>
      rw [hs, hl] at h
      simp only [Option.bind_eq_bind, Option.bind_some, Option.some.injEq, Prod.mk.injEq] at h
      obtain ⟨rfl, rfl⟩ := h
      obtain ⟨k, -, hk, hf, -⟩ := (findStart_up _ _ _ _).1 hs
      obtain ⟨j, -, hj, hf', -⟩ := (findStart_down _ _ _ _).1 hl
      have h1 : 0 ≤ mass x - tot / 2 := by
        unfold rhalfFunc at hf
        have : 0.5 * tot ≤ mass x := (le_div_iff₀ ht).1 (by linarith)
        linarith
      have h2 : mass y - tot / 2 ≤ 0 := by
        unfold rhalfFunc at hf'
        have : mass y ≤ 0.5 * tot := (div_le_iff₀ ht).1 (by linarith)
        linarith
      exact C14aux.brackets mass (tot / 2) y x (by rw [hj]; positivity) (by rw [hk]; positivity) hm
        (mul_nonpos_of_nonpos_of_nonneg h2 h1)

/-- The searches for the half-mass radius end when the enclosed mass tends to the total mass and to nought. -/
theorem C14_rhalf_ends (mass : ℝ → ℝ) (tot : ℝ) (ht : 0 < tot) (hout : Tendsto mass atTop (𝓝 tot))
    (hin : Tendsto mass (𝓝[>] 0) (𝓝 0)) : ∃ n lo hi, ∀ m, n ≤ m → rhalf mass tot m = some (lo, hi) := by
  obtain ⟨n1, hi, h1⟩ := findStart_up_ends (rhalfFunc mass tot) 1 one_pos (by
    filter_upwards [hout.eventually (lt_mem_nhds (show tot / 2 < tot by linarith))] with r hr
    unfold rhalfFunc
    have : 0.5 ≤ mass r / tot := (le_div_iff₀ ht).2 (by linarith)
    linarith)
  obtain ⟨n2, lo, h2⟩ := findStart_down_ends (rhalfFunc mass tot) 1 one_pos (by
    filter_upwards [hin.eventually (gt_mem_nhds (show 0 < tot / 2 by linarith))] with r hr
    unfold rhalfFunc
    have : mass r / tot ≤ 0.5 := (div_le_iff₀ ht).2 (by linarith)
    linarith)
  refine ⟨max n1 n2, lo, hi, fun m hm => ?_⟩
  unfold rhalf
  rw [C14aux.findStart_mono _ _ _ _ _ m h1 (le_trans (le_max_left _ _) hm),
    C14aux.findStart_mono _ _ _ _ _ m h2 (le_trans (le_max_right _ _) hm)]
  rfl

end Verif
