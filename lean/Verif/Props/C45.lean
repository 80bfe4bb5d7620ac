import Verif.Model.UtilNumerics

set_option autoImplicit false

/-!
# C45: `logsumexp`
-/

noncomputable section
namespace Verif
open Real Util

theorem C45aux.lse {ι : Type*} (s : Finset ι) (hs : s.Nonempty) (x : ι → ℝ) (M : ℝ) :
    M + log (∑ i ∈ s, exp (x i - M)) = log (∑ i ∈ s, exp (x i)) := by
  have hp : 0 < ∑ i ∈ s, exp (x i - M) := Finset.sum_pos (fun i _ => exp_pos _) hs
  have e : ∑ i ∈ s, exp (x i) = exp M * ∑ i ∈ s, exp (x i - M) := by
    rw [Finset.mul_sum]
    refine Finset.sum_congr rfl fun i _ => ?_
    rw [← Real.exp_add]; congr 1; ring
  rw [e, Real.log_mul (exp_pos _).ne' hp.ne', Real.log_exp]

/-- Along the first axis of a table with at least one row. -/
theorem C45_axis0 {n m : ℕ} (arr : Fin n → Fin m → ℝ) (hn : 0 < n) (j : Fin m) :
    logsumexp0 arr j = some (log (∑ i, exp (arr i j))) := by
  haveI : Nonempty (Fin n) := ⟨⟨0, hn⟩⟩
  simp only [logsumexp0, amax, dif_pos hn, Option.map_some, expArgs0]
  rw [C45aux.lse _ Finset.univ_nonempty (fun i => arr i j)]

/-- Along the second axis of a table with at least one column. -/
theorem C45_axis1 {n m : ℕ} (arr : Fin n → Fin m → ℝ) (hm : 0 < m) (i : Fin n) :
    logsumexp1 arr i = some (log (∑ j, exp (arr i j))) := by
  haveI : Nonempty (Fin m) := ⟨⟨0, hm⟩⟩
  simp only [logsumexp1, amax, dif_pos hm, Option.map_some, expArgs1]
  rw [C45aux.lse _ Finset.univ_nonempty (fun j => arr i j)]

/-- Over the whole table. -/
theorem C45_axisNone {n m : ℕ} (arr : Fin n → Fin m → ℝ) (hn : 0 < n) (hm : 0 < m) :
    logsumexpNone arr = some (log (∑ i, ∑ j, exp (arr i j))) := by
  haveI : Nonempty (Fin m) := ⟨⟨0, hm⟩⟩
  haveI : Nonempty (Fin n) := ⟨⟨0, hn⟩⟩
  simp only [logsumexpNone, amax2, dif_pos (And.intro hn hm), Option.map_some, expArgsNone]
  congr 1
  generalize Finset.sup' (Finset.univ : Finset (Fin n × Fin m)) _ (fun p => arr p.1 p.2) = M
  rw [← Fintype.sum_prod_type', ← Fintype.sum_prod_type',
    C45aux.lse _ Finset.univ_nonempty (fun p : Fin n × Fin m => arr p.1 p.2)]

/-- No number that is exponentiated is positive, and in every sum one of them is zero: nothing overflows, and the
logarithm is taken of a number between one and the number of terms. -/
theorem C45_stable {n m : ℕ} (arr : Fin n → Fin m → ℝ) :
    (∀ j M, (amax fun i => arr i j) = some M → (∀ i, expArgs0 arr (fun _ => M) i j ≤ 0) ∧
        (∃ i, expArgs0 arr (fun _ => M) i j = 0) ∧ 1 ≤ ∑ i, exp (expArgs0 arr (fun _ => M) i j) ∧
        ∑ i, exp (expArgs0 arr (fun _ => M) i j) ≤ n) ∧
      (∀ i M, (amax fun j => arr i j) = some M → (∀ j, expArgs1 arr (fun _ => M) i j ≤ 0) ∧
        (∃ j, expArgs1 arr (fun _ => M) i j = 0) ∧ 1 ≤ ∑ j, exp (expArgs1 arr (fun _ => M) i j) ∧
        ∑ j, exp (expArgs1 arr (fun _ => M) i j) ≤ m) ∧
      ∀ M, amax2 arr = some M → (∀ i j, expArgsNone arr M i j ≤ 0) ∧ ∃ i j, expArgsNone arr M i j = 0 := by
  have key : ∀ {k : ℕ} (x : Fin k → ℝ) (M : ℝ), amax x = some M → (∀ i, x i - M ≤ 0) ∧ (∃ i, x i - M = 0) ∧
      1 ≤ ∑ i, exp (x i - M) ∧ ∑ i, exp (x i - M) ≤ k := by
    intro k x M h
    unfold amax at h
    split_ifs at h with hk
    simp only [Option.some.injEq] at h
    have h1 : ∀ i, x i - M ≤ 0 := fun i => by
      rw [← h]; exact sub_nonpos.2 (Finset.le_sup' x (Finset.mem_univ i))
    obtain ⟨i0, -, hi0⟩ := Finset.exists_mem_eq_sup' (s := Finset.univ) ⟨⟨0, hk⟩, Finset.mem_univ _⟩ x
    have h2 : x i0 - M = 0 := by rw [← h, hi0, sub_self]
    refine ⟨h1, ⟨i0, h2⟩, ?_, ?_⟩
    · calc (1 : ℝ) = exp (x i0 - M) := by rw [h2, exp_zero]
        _ ≤ _ := Finset.single_le_sum (f := fun i => exp (x i - M)) (fun i _ => (exp_pos _).le) (Finset.mem_univ i0)
    · calc ∑ i, exp (x i - M) ≤ ∑ _i : Fin k, (1 : ℝ) :=
            Finset.sum_le_sum fun i _ => Real.exp_le_one_iff.2 (h1 i)
        _ = k := by simp
  refine ⟨fun j M h => key _ M h, fun i M h => key _ M h, fun M h => ?_⟩
  unfold amax2 at h
  split_ifs at h with hk
  simp only [Option.some.injEq] at h
  refine ⟨fun i j => ?_, ?_⟩
  · unfold expArgsNone
    rw [← h]
    exact sub_nonpos.2 (Finset.le_sup' (fun p : Fin n × Fin m => arr p.1 p.2) (Finset.mem_univ (i, j)))
  · obtain ⟨p, -, hp⟩ := Finset.exists_mem_eq_sup' (s := Finset.univ)
      ⟨((⟨0, hk.1⟩ : Fin n), (⟨0, hk.2⟩ : Fin m)), Finset.mem_univ _⟩ (fun p : Fin n × Fin m => arr p.1 p.2)
    exact ⟨p.1, p.2, by unfold expArgsNone; rw [← h, hp, sub_self]⟩

/-- An array with one axis, with the default `axis=0`: the result is the array with `log n` added to each entry,
not the logarithm of the sum. -/
theorem C45_flat_fails {n : ℕ} (arr : Fin n → ℝ) (j : Fin n) :
    logsumexpFlat arr j = some (arr j + log n) ∧
      ((∃ i, arr j < arr i ∧ ∀ k, arr j ≤ arr k) → logsumexpFlat arr j ≠ some (log (∑ i, exp (arr i)))) := by
  have hn : 0 < n := j.pos
  have hn' : (n : ℝ) ≠ 0 := Nat.cast_ne_zero.2 hn.ne'
  have e : logsumexpFlat arr j = some (arr j + log n) := by
    simp only [logsumexpFlat, amax, dif_pos hn, Option.map_some, Finset.sum_const, Finset.card_univ, Fintype.card_fin,
      nsmul_eq_mul]
    rw [Real.log_mul hn' (exp_pos _).ne', Real.log_exp]
    congr 1; ring
  refine ⟨e, ?_⟩
  rintro ⟨i, hi, hk⟩ h
  rw [e, Option.some.injEq, show arr j + log n = log (n * exp (arr j)) by
    rw [Real.log_mul hn' (exp_pos _).ne', Real.log_exp]; ring] at h
  have hlt : ∑ _i : Fin n, exp (arr j) < ∑ i, exp (arr i) :=
    Finset.sum_lt_sum (fun k _ => Real.exp_le_exp.2 (hk k)) ⟨i, Finset.mem_univ _, Real.exp_lt_exp.2 hi⟩
  have hp : 0 < n * exp (arr j) := mul_pos (Nat.cast_pos.2 hn) (exp_pos _)
  rw [Finset.sum_const, Finset.card_univ, Fintype.card_fin, nsmul_eq_mul] at hlt
  have := Real.log_lt_log hp hlt
  linarith

/-! ### Instances -/

/-- A large argument. -/
example : logsumexp0 ![![1000, 2], ![1001, 3]] 0 = some (log (exp 1000 + exp 1001)) := by
  rw [C45_axis0 _ (by norm_num)]; simp [Fin.sum_univ_two]

example : logsumexp1 ![![1000, 2], ![1001, 3]] 1 = some (log (exp 1001 + exp 3)) := by
  rw [C45_axis1 _ (by norm_num)]; simp [Fin.sum_univ_two]

example : logsumexpFlat ![1, 2] 0 ≠ some (log (exp 1 + exp 2)) := by
  have := (C45_flat_fails ![1, 2] 0).2 ⟨1, by simp, fun k => by fin_cases k <;> simp⟩
  simpa [Fin.sum_univ_two] using this

end Verif
