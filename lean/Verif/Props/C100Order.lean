import Verif.Props.C100
import Verif.Model.Dop853Tab
import Mathlib.Analysis.SpecialFunctions.Integrals.Basic

set_option autoImplicit false

/-!
# C100: the coefficients of the file

With the numbers of the file a step integrates polynomials in time to degree seven, and reproduces the series of linear
equations with constant coefficients to the eighth power of the step, up to the rounding of the last printed digits.
-/

noncomputable section
namespace Verif
open Dop853 C100Spec

namespace C100aux

/-- Sums of products of coefficients along chains of stages. -/
def kap : ℕ → ℕ → ℚ
  | 0, _ => 1
  | m + 1, i => ((List.range i).map fun j => qa i j * kap m j).sum
def bet (k : ℕ) : ℚ := ((List.range 13).map fun j => qb j * kap k j).sum
def mom (k : ℕ) : ℚ := ((List.range 13).map fun j => qb j * qc j ^ k).sum

theorem bet_close : ∀ k < 8, |bet k - 1 / ((k + 1).factorial : ℚ)| ≤ 1e-28 := by decide +kernel
theorem bet_tail : ∀ k < 12, 8 ≤ k → 0 ≤ bet k ∧ bet k ≤ 1 / ((k + 1).factorial : ℚ) := by decide +kernel
theorem mom_close : ∀ k < 8, |mom k - 1 / ((k : ℚ) + 1)| ≤ 1e-28 := by decide +kernel
theorem kap_top : ∀ i < 13, 1 ≤ i → kap 12 i = 0 := by decide +kernel
theorem qa_zero : ∀ i < 13, qa i 0 = 0 := by decide +kernel
theorem qa_gap : ∀ i < 13, ∀ j < 13, (j = 2 ∧ i ≠ 3) ∨ (j = 3 ∧ i ≠ 4 ∧ i ≠ 5) → qa i j = 0 := by decide +kernel
theorem qb_gap : ∀ j < 13, j ∉ used → qb j = 0 := by decide +kernel

theorem A_eq {i j : ℕ} (hi : i < 13) (hj : j < 13) : A fileTab i j = (qa i j : ℝ) := by
  unfold A
  split_ifs with h
  · rw [qa_gap i hi j hj h, Rat.cast_zero]
  · rfl

theorem node_eq {i : ℕ} : node fileTab i = (qc i : ℝ) := by
  unfold node
  split_ifs with h
  · subst h; simp [qc]
  · rfl

theorem kap_succ {m i : ℕ} (hi : i < 13) (h1 : 1 ≤ i) :
    (kap (m + 1) i : ℝ) = ∑ j ∈ Finset.Ico 1 i, A fileTab i j * (kap m j : ℝ) := by
  have : kap (m + 1) i = ∑ j ∈ Finset.range i, qa i j * kap m j := rfl
  rw [this, Finset.range_eq_Ico, Finset.sum_eq_sum_Ico_succ_bot (by omega), qa_zero i hi, zero_mul, zero_add, Rat.cast_sum]
  refine Finset.sum_congr rfl fun j hj => ?_
  rw [Finset.mem_Ico] at hj
  rw [A_eq hi (by omega), Rat.cast_mul]

theorem used_range (g : ℕ → ℝ) : ((∑ j ∈ used, (qb j : ℝ) * g j)) = ∑ j ∈ Finset.range 13, (qb j : ℝ) * g j := by
  refine Finset.sum_subset (by decide) fun j hj hn => ?_
  rw [qb_gap j (Finset.mem_range.1 hj) hn, Rat.cast_zero, zero_mul]

theorem bet_eq (k : ℕ) : (bet k : ℝ) = ∑ j ∈ used, (qb j : ℝ) * (kap k j : ℝ) := by
  have : bet k = ∑ j ∈ Finset.range 13, qb j * kap k j := rfl
  rw [this, used_range, Rat.cast_sum]
  simp only [Rat.cast_mul]
theorem mom_eq (k : ℕ) : (mom k : ℝ) = ∑ j ∈ used, (qb j : ℝ) * (qc j : ℝ) ^ k := by
  have : mom k = ∑ j ∈ Finset.range 13, qb j * qc j ^ k := rfl
  rw [this, used_range, Rat.cast_sum]
  simp only [Rat.cast_mul, Rat.cast_pow]

theorem cast_close {q : ℚ} {r : ℚ} (h : |q - r| ≤ 1e-28) : |(q : ℝ) - (r : ℝ)| ≤ 1e-28 := by
  have : ((|q - r| : ℚ) : ℝ) ≤ ((1e-28 : ℚ) : ℝ) := by exact_mod_cast h
  rw [Rat.cast_abs, Rat.cast_sub] at this
  refine this.trans_eq ?_
  norm_num

variable {n : ℕ}

theorem used_bd {j : ℕ} (hj : j ∈ used) : 1 ≤ j ∧ j ≤ 12 := by
  have : ∀ j ∈ used, 1 ≤ j ∧ j ≤ 12 := by decide
  exact this j hj

theorem lin_slopes (M : V n →ₗ[ℝ] V n) {x x' : V n} {t h : ℝ} {K : ℕ → V n}
    (rk : RK fileTab (fun x _ => M x) x t h x' K) (i : ℕ) (h1 : 1 ≤ i) (h2 : i ≤ 12) :
    K i = ∑ m ∈ Finset.range 12, ((kap m i : ℝ) * h ^ m) • (M ^ (m + 1)) x := by
  have first : ∀ i, (((kap 0 i : ℚ) : ℝ) * h ^ 0) • (M ^ (0 + 1)) x = M x := fun i => by
    simp [kap]
  induction i using Nat.strong_induction_on with
  | _ i ih =>
    have up : x + h • ∑ j ∈ Finset.Ico 1 i, A fileTab i j • K j
        = x + ∑ m ∈ Finset.range 12, ((kap (m + 1) i : ℝ) * h ^ (m + 1)) • (M ^ (m + 1)) x := by
      congr 1
      have : ∀ j ∈ Finset.Ico 1 i, A fileTab i j • K j
          = ∑ m ∈ Finset.range 12, A fileTab i j • ((kap m j : ℝ) * h ^ m) • (M ^ (m + 1)) x := fun j hj => by
        rw [Finset.mem_Ico] at hj
        rw [ih j hj.2 hj.1 (by omega), Finset.smul_sum]
      rw [Finset.sum_congr rfl this, Finset.sum_comm, Finset.smul_sum]
      refine Finset.sum_congr rfl fun m _ => ?_
      rw [kap_succ (by omega) h1, Finset.sum_mul, Finset.sum_smul, Finset.smul_sum]
      refine Finset.sum_congr rfl fun j _ => ?_
      simp only [smul_smul]
      congr 1
      ring
    have val : M (x + ∑ m ∈ Finset.range 12, ((kap (m + 1) i : ℝ) * h ^ (m + 1)) • (M ^ (m + 1)) x)
        = ∑ m ∈ Finset.range 12, ((kap m i : ℝ) * h ^ m) • (M ^ (m + 1)) x := by
      rw [map_add, map_sum]
      simp only [map_smul]
      have e : ∀ m, M ((M ^ (m + 1)) x) = (M ^ (m + 1 + 1)) x := fun m => by
        rw [pow_succ' M (m + 1)]; rfl
      simp only [e]
      have s := Finset.sum_range_succ' (fun m => ((kap m i : ℝ) * h ^ m) • (M ^ (m + 1)) x) 12
      rw [Finset.sum_range_succ, kap_top i (by omega) h1, Rat.cast_zero, zero_mul, zero_smul, add_zero, first] at s
      rw [s, add_comm]
    by_cases hi : i = 1
    · subst hi
      rw [rk.first, ← val, ← up]
      simp
    · rw [rk.stage i (by omega) h2, up, val]

end C100aux
open C100aux

/-- For a linear equation with constant coefficients a step is a polynomial in the step and the matrix whose coefficients up to
the eighth power are those of the exponential to 28 digits; the four that remain are between zero and those of the
exponential. -/
theorem C100_linear : ∃ β : ℕ → ℝ, (∀ k ≤ 8, |β k - 1 / (k.factorial : ℝ)| ≤ 1e-28)
    ∧ (∀ k, 9 ≤ k → k ≤ 12 → 0 ≤ β k ∧ β k ≤ 1 / (k.factorial : ℝ))
    ∧ ∀ (n : ℕ) (M : V n →ₗ[ℝ] V n) (x x' : V n) (t h : ℝ) (K : ℕ → V n), RK fileTab (fun x _ => M x) x t h x' K →
      x' = ∑ k ∈ Finset.range 13, (β k * h ^ k) • (M ^ k) x := by
  refine ⟨fun k => if k = 0 then 1 else (bet (k - 1) : ℝ), fun k hk => ?_, fun k h1 h2 => ?_, ?_⟩
  · by_cases h0 : k = 0
    · subst h0; norm_num
    · obtain ⟨m, rfl⟩ := Nat.exists_eq_succ_of_ne_zero h0
      have := cast_close (bet_close m (by omega))
      simpa using this
  · obtain ⟨m, rfl⟩ := Nat.exists_eq_succ_of_ne_zero (show k ≠ 0 by omega)
    obtain ⟨a, b⟩ := bet_tail m (by omega) (by omega)
    have a' : (0 : ℝ) ≤ bet m := by exact_mod_cast a
    have b' : (bet m : ℝ) ≤ ((1 / ((m + 1).factorial : ℚ) : ℚ) : ℝ) := by exact_mod_cast b
    have b'' : (bet m : ℝ) ≤ 1 / ((m + 1).factorial : ℝ) := by simpa using b'
    exact ⟨a', b''⟩
  · intro n M x x' t h K rk
    rw [rk.new, Finset.sum_range_succ', add_comm]
    congr 1
    · have : ∀ j ∈ used, fileTab.b j • K j
          = ∑ m ∈ Finset.range 12, (qb j : ℝ) • ((kap m j : ℝ) * h ^ m) • (M ^ (m + 1)) x := fun j hj => by
        rw [lin_slopes M rk j (used_bd hj).1 (used_bd hj).2, Finset.smul_sum]
        rfl
      rw [Finset.sum_congr rfl this, Finset.sum_comm, Finset.smul_sum]
      refine Finset.sum_congr rfl fun m _ => ?_
      simp only [Nat.succ_ne_zero, if_false, Nat.add_sub_cancel]
      rw [bet_eq, Finset.sum_mul, Finset.sum_smul, Finset.smul_sum]
      refine Finset.sum_congr rfl fun j _ => ?_
      simp only [smul_smul]
      congr 1
      ring
    · simp

namespace C100aux
variable {n : ℕ}

theorem poly_slope {N : ℕ} {v : ℕ → V n} {x x' : V n} {t h : ℝ} {K : ℕ → V n}
    (rk : RK fileTab (fun _ u => ∑ k ∈ Finset.range N, (u - t) ^ k • v k) x t h x' K) {j : ℕ} (h1 : 1 ≤ j) (h2 : j ≤ 12) :
    K j = ∑ k ∈ Finset.range N, ((qc j : ℝ) * h) ^ k • v k := by
  by_cases e : j = 1
  · subst e
    rw [rk.first]
    simp [qc]
  · rw [rk.stage j (by omega) h2, node_eq]
    simp only [add_sub_cancel_left]

theorem poly_new {N : ℕ} {v : ℕ → V n} {x x' : V n} {t h : ℝ} {K : ℕ → V n}
    (rk : RK fileTab (fun _ u => ∑ k ∈ Finset.range N, (u - t) ^ k • v k) x t h x' K) (i : Fin n) :
    x' i - x i = ∑ k ∈ Finset.range N, (mom k : ℝ) * (h ^ (k + 1) * v k i) := by
  rw [rk.new]
  simp only [Pi.add_apply, Pi.smul_apply, Finset.sum_apply, smul_eq_mul, add_sub_cancel_left]
  have : ∀ j ∈ used, fileTab.b j * K j i = ∑ k ∈ Finset.range N, (qb j : ℝ) * (((qc j : ℝ) * h) ^ k * v k i) := by
    intro j hj
    rw [poly_slope rk (used_bd hj).1 (used_bd hj).2, Finset.sum_apply, Finset.mul_sum]
    rfl
  rw [Finset.sum_congr rfl this, Finset.sum_comm, Finset.mul_sum]
  refine Finset.sum_congr rfl fun k _ => ?_
  rw [mom_eq, Finset.sum_mul, Finset.mul_sum]
  refine Finset.sum_congr rfl fun j _ => ?_
  ring

theorem poly_int (N : ℕ) (v : ℕ → V n) (t h : ℝ) (i : Fin n) :
    ∫ u in t..t + h, ∑ k ∈ Finset.range N, (u - t) ^ k * v k i
      = ∑ k ∈ Finset.range N, 1 / ((k : ℝ) + 1) * (h ^ (k + 1) * v k i) := by
  rw [intervalIntegral.integral_finset_sum fun k _ =>
    ((by fun_prop : Continuous fun u : ℝ => (u - t) ^ k * v k i)).intervalIntegrable _ _]
  refine Finset.sum_congr rfl fun k _ => ?_
  rw [intervalIntegral.integral_mul_const, intervalIntegral.integral_comp_sub_right (fun u => u ^ k), integral_pow]
  simp only [sub_self, add_sub_cancel_left, ne_eq, Nat.succ_ne_zero, not_false_eq_true, zero_pow, sub_zero]
  ring

/-- Moments of the coefficients of the dense output, and its coefficients as a polynomial. -/
def dd (i k : ℕ) : ℚ := ((List.range 17).map fun j => qd i j * qc j ^ k).sum
def ee (k : ℕ) : ℕ → ℚ
  | 1 => 0 ^ k
  | 2 => 2 * mom k - (0 ^ k + 1) + dd 4 k - (0 ^ k - mom k)
  | 3 => dd 5 k + dd 6 k - dd 4 k - (2 * mom k - (0 ^ k + 1)) - dd 4 k
  | 4 => dd 7 k - 2 * dd 6 k - dd 5 k - (dd 5 k + dd 6 k - dd 4 k)
  | 5 => dd 6 k - 2 * dd 7 k - (dd 7 k - 2 * dd 6 k - dd 5 k)
  | 6 => dd 7 k - (dd 6 k - 2 * dd 7 k)
  | 7 => -dd 7 k
  | _ => 0
theorem ee_close : ∀ k < 7, ∀ m < 8, |ee k m - (if m = k + 1 then 1 / ((k : ℚ) + 1) else 0)| ≤ 1e-25 := by decide +kernel
theorem qd_gap : ∀ i < 8, ∀ j < 17, j ∉ sd → qd i j = 0 := by decide +kernel

theorem dd_eq {i : ℕ} (hi : i < 8) (k : ℕ) : (dd i k : ℝ) = ∑ j ∈ sd, (qd i j : ℝ) * (qc j : ℝ) ^ k := by
  have e : dd i k = ∑ j ∈ Finset.range 17, qd i j * qc j ^ k := rfl
  rw [e, Rat.cast_sum]
  simp only [Rat.cast_mul, Rat.cast_pow]
  refine (Finset.sum_subset (by decide) fun j hj hn => ?_).symm
  rw [qd_gap i hi j (Finset.mem_range.1 hj) hn, Rat.cast_zero, zero_mul]

end C100aux

/-- A right-hand side that is a polynomial of degree seven in time is integrated to 28 digits by one step of any length. -/
theorem C100_quadrature {n : ℕ} (v : ℕ → V n) (x x' : V n) (t h : ℝ) (K : ℕ → V n)
    (rk : RK fileTab (fun _ u => ∑ k ∈ Finset.range 8, (u - t) ^ k • v k) x t h x' K) (i : Fin n) :
    |x' i - x i - ∫ u in t..t + h, ∑ k ∈ Finset.range 8, (u - t) ^ k * v k i|
      ≤ 1e-28 * ∑ k ∈ Finset.range 8, |h| ^ (k + 1) * |v k i| := by
  rw [poly_new rk, poly_int, ← Finset.sum_sub_distrib, Finset.mul_sum]
  refine (Finset.abs_sum_le_sum_abs _ _).trans (Finset.sum_le_sum fun k hk => ?_)
  rw [← sub_mul, abs_mul, abs_mul, abs_pow]
  refine mul_le_mul_of_nonneg_right ?_ (by positivity)
  have := cast_close (mom_close k (Finset.mem_range.1 hk))
  simpa using this

/-- Inside an accepted step the rows follow the integral of a right-hand side that is a polynomial of degree six in time, to 24
digits: the dense output has no larger error than the steps. -/
theorem C100_dense {n : ℕ} (v : ℕ → V n) (p : Piece n) {rtol atol hb : ℝ}
    (ok : p.OK fileTab (fun _ u => ∑ k ∈ Finset.range 7, (u - p.t) ^ k • v k) rtol atol hb) {θ : ℝ} (h0 : 0 ≤ θ) (h1 : θ ≤ 1)
    (i : Fin n) :
    |p.γ (p.t + θ * p.h) i - p.x i - ∫ u in p.t..p.t + θ * p.h, ∑ k ∈ Finset.range 7, (u - p.t) ^ k * v k i|
      ≤ 1e-24 * ∑ k ∈ Finset.range 7, |p.h| ^ (k + 1) * |v k i| := by
  obtain ⟨K, rk, _, D⟩ := ok.rk
  set h := p.h
  have hs : ∀ j ∈ sd, K j = ∑ k ∈ Finset.range 7, ((qc j : ℝ) * h) ^ k • v k := by
    intro j hj
    have : ∀ j ∈ sd, (1 ≤ j ∧ j ≤ 12) ∨ j = 13 ∨ j = 14 ∨ j = 15 ∨ j = 16 := by decide
    rcases this j hj with ⟨a, b⟩ | rfl | rfl | rfl | rfl
    · exact poly_slope rk a b
    · rw [D.k13]; simp [qc]
    · rw [D.k14]; simp only [add_sub_cancel_left]; rfl
    · rw [D.k15]; simp only [add_sub_cancel_left]; rfl
    · rw [D.k16]; simp only [add_sub_cancel_left]; rfl
  have hn := poly_new rk i
  have e1 : h * K 1 i = ∑ k ∈ Finset.range 7, (0 : ℝ) ^ k * (h ^ (k + 1) * v k i) := by
    rw [hs 1 (by decide), Finset.sum_apply, Finset.mul_sum]
    refine Finset.sum_congr rfl fun k _ => ?_
    have : ((qc 1 : ℚ) : ℝ) = 0 := by simp [qc]
    simp only [this, zero_mul, Pi.smul_apply, smul_eq_mul]
    rcases Nat.eq_zero_or_pos k with rfl | hk
    · simp
    · rw [zero_pow hk.ne']; ring
  have e13 : h * K 13 i = ∑ k ∈ Finset.range 7, 1 * (h ^ (k + 1) * v k i) := by
    rw [hs 13 (by decide), Finset.sum_apply, Finset.mul_sum]
    refine Finset.sum_congr rfl fun k _ => ?_
    have : ((qc 13 : ℚ) : ℝ) = 1 := by simp [qc]
    simp only [this, one_mul, Pi.smul_apply, smul_eq_mul]
    ring
  have eh : ∀ m < 8, high fileTab h K m i = ∑ k ∈ Finset.range 7, (dd m k : ℝ) * (h ^ (k + 1) * v k i) := by
    intro m hm
    unfold high
    simp only [Pi.smul_apply, Finset.sum_apply, smul_eq_mul]
    have : ∀ j ∈ sd, fileTab.d m j * K j i = ∑ k ∈ Finset.range 7, (qd m j : ℝ) * (((qc j : ℝ) * h) ^ k * v k i) := by
      intro j hj
      rw [hs j hj, Finset.sum_apply, Finset.mul_sum]
      rfl
    rw [Finset.sum_congr rfl this, Finset.sum_comm, Finset.mul_sum]
    refine Finset.sum_congr rfl fun k _ => ?_
    rw [dd_eq hm, Finset.sum_mul, Finset.mul_sum]
    refine Finset.sum_congr rfl fun j _ => ?_
    ring
  have hγ : p.γ (p.t + θ * h) i - p.x i
      = ∑ k ∈ Finset.range 7, (∑ m ∈ Finset.range 8, (ee k m : ℝ) * θ ^ m) * (h ^ (k + 1) * v k i) := by
    rw [D.curve θ]
    simp only [Pi.add_apply, Pi.sub_apply, Pi.smul_apply, smul_eq_mul, mul_add h, e1, e13, hn, eh 4 (by norm_num),
      eh 5 (by norm_num), eh 6 (by norm_num), eh 7 (by norm_num), add_sub_cancel_left]
    simp only [Finset.mul_sum, ← Finset.sum_add_distrib, ← Finset.sum_sub_distrib]
    refine Finset.sum_congr rfl fun k _ => ?_
    simp only [Finset.sum_range_succ, Finset.sum_range_zero, ee]
    push_cast
    ring
  rw [hγ, poly_int, ← Finset.sum_sub_distrib, Finset.mul_sum]
  refine (Finset.abs_sum_le_sum_abs _ _).trans (Finset.sum_le_sum fun k hk => ?_)
  have hk' := Finset.mem_range.1 hk
  have el : (∑ m ∈ Finset.range 8, (ee k m : ℝ) * θ ^ m) * (h ^ (k + 1) * v k i)
      - 1 / ((k : ℝ) + 1) * ((θ * h) ^ (k + 1) * v k i)
      = (∑ m ∈ Finset.range 8, ((ee k m : ℝ) - (if m = k + 1 then 1 / ((k : ℝ) + 1) else 0)) * θ ^ m)
        * (h ^ (k + 1) * v k i) := by
    have : ∑ m ∈ Finset.range 8, (if m = k + 1 then 1 / ((k : ℝ) + 1) else 0) * θ ^ m = 1 / ((k : ℝ) + 1) * θ ^ (k + 1) := by
      rw [Finset.sum_eq_single (k + 1)]
      · simp
      · intro m _ hm; simp [hm]
      · intro hm; exact absurd (Finset.mem_range.2 (by omega)) hm
    simp only [sub_mul, Finset.sum_sub_distrib, this]
    ring
  rw [el, abs_mul, abs_mul (h ^ (k + 1)), abs_pow]
  refine mul_le_mul_of_nonneg_right ?_ (by positivity)
  refine (Finset.abs_sum_le_sum_abs _ _).trans ?_
  have bd : ∀ m ∈ Finset.range 8, |((ee k m : ℝ) - (if m = k + 1 then 1 / ((k : ℝ) + 1) else 0)) * θ ^ m| ≤ 1e-25 := by
    intro m hm
    have c : ((|ee k m - (if m = k + 1 then 1 / ((k : ℚ) + 1) else 0)| : ℚ) : ℝ) ≤ ((1e-25 : ℚ) : ℝ) := by
      exact_mod_cast ee_close k hk' m (Finset.mem_range.1 hm)
    rw [Rat.cast_abs, Rat.cast_sub] at c
    have c' : |(ee k m : ℝ) - (if m = k + 1 then 1 / ((k : ℝ) + 1) else 0)| ≤ 1e-25 := by
      refine le_trans (le_of_eq ?_) (c.trans_eq (by norm_num))
      split_ifs <;> simp
    rw [abs_mul, abs_pow, abs_of_nonneg h0]
    calc _ ≤ 1e-25 * 1 := mul_le_mul c' (pow_le_one₀ h0 h1) (by positivity) (by norm_num)
      _ = 1e-25 := mul_one _
  refine (Finset.sum_le_sum bd).trans ?_
  rw [Finset.sum_const, Finset.card_range]
  norm_num

/-- A step of the harmonic oscillator from rest, as the integrator makes it. -/
example : ∃ x' : V 2, ∃ K, RK fileTab (fun x _ => (Matrix.toLin' !![0, 1; -1, 0] : V 2 →ₗ[ℝ] V 2) x) ![1, 0] 0 0.1 x' K := by
  obtain ⟨k2, k3, k4, k5, k6, k7, k8, k9, k10, k11, k12, kb, q, _⟩ := stages_seq
    (⟨fileTab, fun x _ => (Matrix.toLin' !![0, 1; -1, 0] : V 2 →ₗ[ℝ] V 2) x, 1, 0, 1, 1, 0, 1, 1, 1⟩ : Par 2) ![1, 0] 0 0.1
    ((Matrix.toLin' !![0, 1; -1, 0] : V 2 →ₗ[ℝ] V 2) ![1, 0])
  exact ⟨_, _, C100aux.seq_rk q rfl 0 0 0 0⟩

end Verif
