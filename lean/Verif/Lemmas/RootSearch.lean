import Verif.Model.RootSearch
import Mathlib.Topology.Order.IntermediateValue
import Mathlib.Order.Filter.AtTopBot.Archimedean
import Mathlib.Analysis.SpecificLimits.Basic
import Mathlib.Tactic.LinearCombination
import Mathlib.Tactic.Positivity

set_option autoImplicit false

/-! # Loops: general facts -/

noncomputable section
namespace Verif.RootSearch
open Classical Filter Topology

theorem run_mono {α β : Type} (step : α → Step α β) : ∀ (n m : ℕ) (a : α) (b : β), run step n a = some b → n ≤ m →
    run step m a = some b
  | 0, _, _, _, h, _ => by simp [run] at h
  | n + 1, 0, _, _, _, hm => by omega
  | n + 1, m + 1, a, b, h, hm => by
    simp only [run] at h ⊢
    cases hs : step a with
    | next a' =>
      rw [hs] at h
      exact run_mono step n m a' b h (by omega)
    | done b' =>
      rw [hs] at h
      exact h

/-- If after `k` further passes the loop ends, `k + 1` passes suffice. -/
theorem run_of_iter {α β : Type} (step : α → Step α β) (g : α → α) (b : β) : ∀ (k : ℕ) (a : α),
    (∀ j < k, step (g^[j] a) = .next (g^[j + 1] a)) → step (g^[k] a) = .done b → run step (k + 1) a = some b
  | 0, a, _, hd => by
    simp only [Function.iterate_zero, id] at hd
    simp [run, hd]
  | k + 1, a, hn, hd => by
    have h0 := hn 0 (by omega)
    simp only [Function.iterate_zero, id, zero_add, Function.iterate_one] at h0
    rw [run, h0]
    refine run_of_iter step g b k (g a) (fun j hj => ?_) ?_
    · have := hn (j + 1) (by omega)
      simpa only [Function.iterate_succ_apply] using this
    · simpa only [Function.iterate_succ_apply] using hd

/-- A loop that ends has gone through finitely many passes. -/
theorem iter_of_run {α β : Type} (step : α → Step α β) (g : α → α)
    (hg : ∀ a a', step a = .next a' → a' = g a) (b : β) : ∀ (n : ℕ) (a : α), run step n a = some b →
    ∃ k, k < n ∧ (∀ j < k, step (g^[j] a) = .next (g^[j + 1] a)) ∧ step (g^[k] a) = .done b
  | 0, a, h => by simp [run] at h
  | n + 1, a, h => by
    simp only [run] at h
    cases hs : step a with
    | done b' =>
      rw [hs] at h
      refine ⟨0, by omega, fun j hj => by omega, ?_⟩
      simp only [Function.iterate_zero, id]
      rw [hs]
      simp only [Option.some.injEq] at h
      rw [h]
    | next a' =>
      rw [hs] at h
      have ha := hg a a' hs
      subst ha
      obtain ⟨k, hk, hn, hd⟩ := iter_of_run step g hg b n (g a) h
      refine ⟨k + 1, by omega, fun j hj => ?_, ?_⟩
      · cases j with
        | zero => simpa using hs
        | succ j =>
          have := hn j (by omega)
          simpa only [Function.iterate_succ_apply] using this
      · simpa only [Function.iterate_succ_apply] using hd

theorem iter_mul (c x : ℝ) (k : ℕ) : (fun r : ℝ => r * c)^[k] x = x * c ^ k := by
  induction k with
  | zero => simp
  | succ k ih =>
    rw [Function.iterate_succ_apply', ih]
    ring

theorem iter_half (x : ℝ) (k : ℕ) : (fun r : ℝ => r / 2)^[k] x = x / 2 ^ k := by
  induction k with
  | zero => simp
  | succ k ih =>
    rw [Function.iterate_succ_apply', ih]
    field_simp
    ring

/-- The upward search ends after `k` doublings exactly at the first radius where the function is not negative. -/
theorem findStart_up (f : ℝ → ℝ) (r0 r : ℝ) (n : ℕ) : findStart f r0 false n = some r ↔
    ∃ k < n, r = 2 * r0 * 2 ^ k ∧ 0 ≤ f r ∧ ∀ j < k, f (2 * r0 * 2 ^ j) < 0 := by
  have hstep : ∀ x, findStep f false x = if f x < 0 then .next (x * 2) else .done x := fun x => by
    unfold findStep
    simp only [Bool.false_eq_true, ↓reduceIte]
    congr 1
    rw [eq_iff_iff]
    constructor <;> intro h <;> linarith
  constructor
  · intro h
    obtain ⟨k, hk, hn, hd⟩ := iter_of_run (findStep f false) (fun r => r * 2) (fun a a' h => by
      rw [hstep] at h
      split_ifs at h
      simp only [Step.next.injEq] at h
      exact h.symm) r n (2 * r0) h
    simp only [iter_mul, hstep] at hn hd
    refine ⟨k, hk, ?_⟩
    split_ifs at hd with hc
    simp only [Step.done.injEq] at hd
    refine ⟨hd.symm, by rw [← hd]; exact not_lt.1 hc, fun j hj => ?_⟩
    have := hn j hj
    split_ifs at this with h'
    exact h'
  · rintro ⟨k, hk, rfl, h0, hj⟩
    refine run_mono _ (k + 1) n _ _ ?_ (by omega)
    refine run_of_iter _ (fun r => r * 2) _ k (2 * r0) (fun j hjk => ?_) ?_
    · rw [iter_mul, iter_mul, hstep, if_pos (hj j hjk)]
      congr 1
      ring
    · rw [iter_mul, hstep, if_neg (not_lt.2 h0)]

/-- The downward search. -/
theorem findStart_down (f : ℝ → ℝ) (r0 r : ℝ) (n : ℕ) : findStart f r0 true n = some r ↔
    ∃ k < n, r = 2 * r0 / 2 ^ k ∧ f r ≤ 0 ∧ ∀ j < k, 0 < f (2 * r0 / 2 ^ j) := by
  have hstep : ∀ x, findStep f true x = if 0 < f x then .next (x / 2) else .done x := fun x => by
    unfold findStep
    simp only [↓reduceIte]
    congr 1
    rw [eq_iff_iff]
    constructor <;> intro h <;> linarith
  constructor
  · intro h
    obtain ⟨k, hk, hn, hd⟩ := iter_of_run (findStep f true) (fun r => r / 2) (fun a a' h => by
      rw [hstep] at h
      split_ifs at h
      simp only [Step.next.injEq] at h
      exact h.symm) r n (2 * r0) h
    simp only [iter_half, hstep] at hn hd
    refine ⟨k, hk, ?_⟩
    split_ifs at hd with hc
    simp only [Step.done.injEq] at hd
    refine ⟨hd.symm, by rw [← hd]; exact not_lt.1 hc, fun j hj => ?_⟩
    have := hn j hj
    split_ifs at this with h'
    exact h'
  · rintro ⟨k, hk, rfl, h0, hj⟩
    refine run_mono _ (k + 1) n _ _ ?_ (by omega)
    refine run_of_iter _ (fun r => r / 2) _ k (2 * r0) (fun j hjk => ?_) ?_
    · rw [iter_half, iter_half, hstep, if_pos (hj j hjk)]
      congr 1
      field_simp
      ring
    · rw [iter_half, hstep, if_neg (not_lt.2 h0)]

/-- The searches end when the function has the right sign far out and close in. -/
theorem findStart_up_ends (f : ℝ → ℝ) (r0 : ℝ) (hr : 0 < r0) (hf : ∀ᶠ r in atTop, 0 ≤ f r) :
    ∃ n r, findStart f r0 false n = some r := by
  have ht : Tendsto (fun k : ℕ => 2 * r0 * (2 : ℝ) ^ k) atTop atTop :=
    (tendsto_pow_atTop_atTop_of_one_lt (by norm_num)).const_mul_atTop (by positivity)
  have he : ∃ k : ℕ, 0 ≤ f (2 * r0 * 2 ^ k) := ((ht.eventually hf).exists)
  refine ⟨Nat.find he + 1, 2 * r0 * 2 ^ (Nat.find he), (findStart_up _ _ _ _).2 ⟨Nat.find he, by omega, rfl,
    Nat.find_spec he, fun j hj => not_le.1 (Nat.find_min he hj)⟩⟩

theorem findStart_down_ends (f : ℝ → ℝ) (r0 : ℝ) (hr : 0 < r0) (hf : ∀ᶠ r in 𝓝[>] 0, f r ≤ 0) :
    ∃ n r, findStart f r0 true n = some r := by
  have ht : Tendsto (fun k : ℕ => 2 * r0 / (2 : ℝ) ^ k) atTop (𝓝[>] 0) := by
    refine tendsto_nhdsWithin_iff.2 ⟨?_, Eventually.of_forall fun k => by simp only [Set.mem_Ioi]; positivity⟩
    have h := (tendsto_pow_atTop_nhds_zero_of_lt_one (r := (1 / 2 : ℝ)) (by norm_num) (by norm_num)).const_mul (2 * r0)
    rw [mul_zero] at h
    refine h.congr fun k => ?_
    rw [one_div, inv_pow]
    rfl
  have he : ∃ k : ℕ, f (2 * r0 / 2 ^ k) ≤ 0 := ((ht.eventually hf).exists)
  refine ⟨Nat.find he + 1, 2 * r0 / 2 ^ (Nat.find he), (findStart_down _ _ _ _).2 ⟨Nat.find he, by omega, rfl,
    Nat.find_spec he, fun j hj => not_le.1 (Nat.find_min he hj)⟩⟩

/-- A continuous function with opposite signs at two positive radii has a root in between. -/
theorem root_between (f : ℝ → ℝ) (lo hi : ℝ) (hc : ContinuousOn f (Set.uIcc lo hi)) (h : f lo * f hi ≤ 0) :
    ∃ r ∈ Set.uIcc lo hi, f r = 0 := by
  have h1 := intermediate_value_uIcc hc
  have h0 : (0 : ℝ) ∈ Set.uIcc (f lo) (f hi) := by
    rcases mul_nonpos_iff.1 h with ⟨h2, h3⟩ | ⟨h2, h3⟩
    · exact Set.mem_uIcc.2 (Or.inr ⟨h3, h2⟩)
    · exact Set.mem_uIcc.2 (Or.inl ⟨h2, h3⟩)
  obtain ⟨r, hr, hz⟩ := h1 h0
  exact ⟨r, hr, hz⟩

end Verif.RootSearch
