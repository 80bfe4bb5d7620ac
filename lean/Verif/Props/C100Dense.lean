import Verif.Props.C100Order

set_option autoImplicit false

/-!
# C100: dense output and error estimates with the coefficients of the file
-/

noncomputable section
namespace Verif
open Dop853 C100Spec

namespace C100aux
variable {n : ℕ}

/-- The coefficients of all sixteen stages; the thirteenth is the new state. -/
def qx (i j : ℕ) : ℚ := if i = 13 then qb j else qa i j
def kapD : ℕ → ℕ → ℚ
  | 0, _ => 1
  | m + 1, i => ((List.range i).map fun j => qx i j * kapD m j).sum
def ddL (i m : ℕ) : ℚ := ((List.range 17).map fun j => qd i j * kapD m j).sum
def gg (m : ℕ) : ℕ → ℚ
  | 1 => 0 ^ m
  | 2 => 2 * kapD (m + 1) 13 - (0 ^ m + kapD m 13) + ddL 4 m - (0 ^ m - kapD (m + 1) 13)
  | 3 => ddL 5 m + ddL 6 m - ddL 4 m - (2 * kapD (m + 1) 13 - (0 ^ m + kapD m 13)) - ddL 4 m
  | 4 => ddL 7 m - 2 * ddL 6 m - ddL 5 m - (ddL 5 m + ddL 6 m - ddL 4 m)
  | 5 => ddL 6 m - 2 * ddL 7 m - (ddL 7 m - 2 * ddL 6 m - ddL 5 m)
  | 6 => ddL 7 m - (ddL 6 m - 2 * ddL 7 m)
  | 7 => -ddL 7 m
  | _ => 0
theorem gg_close : ∀ m < 7, ∀ p < 8, |gg m p - (if p = m + 1 then 1 / ((m + 1).factorial : ℚ) else 0)| ≤ 1e-25 := by
  decide +kernel
theorem qx_zero : ∀ i < 17, qx i 0 = 0 := by decide +kernel
theorem qx_ico : ∀ i < 13, ∀ j < i, j ∉ Finset.Ico 1 i → qa i j = 0 := by decide +kernel
theorem qx_14 : ∀ j < 14, j ∉ s14 → qa 14 j = 0 := by decide +kernel
theorem qx_15 : ∀ j < 15, j ∉ s15 → qa 15 j = 0 := by decide +kernel
theorem qx_16 : ∀ j < 16, j ∉ s16 → qa 16 j = 0 := by decide +kernel

theorem kapD_sum (m i : ℕ) : kapD (m + 1) i = ∑ j ∈ Finset.range i, qx i j * kapD m j := rfl
theorem kapD_zero (m : ℕ) : ∀ i, 1 ≤ i → i ≤ m → i ≤ 16 → kapD m i = 0 := by
  induction m with
  | zero => intro i a b; omega
  | succ m ih =>
    intro i a b c
    rw [kapD_sum]
    refine Finset.sum_eq_zero fun j hj => ?_
    rw [Finset.mem_range] at hj
    rcases Nat.eq_zero_or_pos j with rfl | h
    · rw [qx_zero i (by omega), zero_mul]
    · rw [ih j h (by omega) (by omega), mul_zero]

theorem sub_sum (q : ℕ → ℚ) (K : ℕ → V n) {s : Finset ℕ} {i : ℕ} (hs : s ⊆ Finset.range i)
    (hz : ∀ j < i, j ∉ s → q j = 0) : ∑ j ∈ s, (q j : ℝ) • K j = ∑ j ∈ Finset.range i, (q j : ℝ) • K j := by
  refine Finset.sum_subset hs fun j hj hn => ?_
  rw [hz j (Finset.mem_range.1 hj) hn, Rat.cast_zero, zero_smul]

theorem all_slopes {f : V n → V n} {x x' : V n} {t h : ℝ} {K : ℕ → V n} {γ : ℝ → V n}
    (rk : RK fileTab (fun x _ => f x) x t h x' K) (D : Dense fileTab (fun x _ => f x) x t h x' K γ) (i : ℕ) (h1 : 1 ≤ i)
    (h2 : i ≤ 16) : K i = f (x + h • ∑ j ∈ Finset.range i, (qx i j : ℝ) • K j) := by
  have c : i = 1 ∨ (2 ≤ i ∧ i ≤ 12) ∨ i = 13 ∨ i = 14 ∨ i = 15 ∨ i = 16 := by omega
  rcases c with rfl | ⟨a, b⟩ | rfl | rfl | rfl | rfl
  · rw [rk.first, Finset.sum_range_one, qx_zero 1 (by norm_num)]
    simp
  · rw [rk.stage i a b]
    have : ∑ j ∈ Finset.Ico 1 i, A fileTab i j • K j = ∑ j ∈ Finset.range i, (qx i j : ℝ) • K j := by
      have e : ∀ j, qx i j = qa i j := fun j => if_neg (by omega)
      simp only [e]
      rw [← sub_sum (qa i) K (s := Finset.Ico 1 i) (fun j hj => by simp at hj ⊢; omega) (qx_ico i (by omega))]
      refine Finset.sum_congr rfl fun j hj => ?_
      rw [Finset.mem_Ico] at hj
      rw [A_eq (by omega) (by omega)]
    rw [this]
  · rw [D.k13]
    refine congrArg f ?_
    rw [rk.new]
    congr 2
    exact sub_sum qb K (by decide) qb_gap
  · rw [D.k14]
    refine congrArg f ?_
    congr 2
    exact sub_sum (qa 14) K (by decide) qx_14
  · rw [D.k15]
    refine congrArg f ?_
    congr 2
    exact sub_sum (qa 15) K (by decide) qx_15
  · rw [D.k16]
    refine congrArg f ?_
    congr 2
    exact sub_sum (qa 16) K (by decide) qx_16

theorem lin_all (M : V n →ₗ[ℝ] V n) {x x' : V n} {t h : ℝ} {K : ℕ → V n} {γ : ℝ → V n}
    (rk : RK fileTab (fun x _ => M x) x t h x' K) (D : Dense fileTab (fun x _ => M x) x t h x' K γ) (i : ℕ) (h1 : 1 ≤ i)
    (h2 : i ≤ 16) :
    h • ∑ j ∈ Finset.range i, (qx i j : ℝ) • K j
      = ∑ m ∈ Finset.range 16, ((kapD (m + 1) i : ℝ) * h ^ (m + 1)) • (M ^ (m + 1)) x
    ∧ K i = ∑ m ∈ Finset.range 16, ((kapD m i : ℝ) * h ^ m) • (M ^ (m + 1)) x := by
  have first : ∀ i, (((kapD 0 i : ℚ) : ℝ) * h ^ 0) • (M ^ (0 + 1)) x = M x := fun i => by
    simp [kapD]
  induction i using Nat.strong_induction_on with
  | _ i ih =>
    have up : h • ∑ j ∈ Finset.range i, (qx i j : ℝ) • K j
        = ∑ m ∈ Finset.range 16, ((kapD (m + 1) i : ℝ) * h ^ (m + 1)) • (M ^ (m + 1)) x := by
      have : ∀ j ∈ Finset.range i, (qx i j : ℝ) • K j
          = ∑ m ∈ Finset.range 16, (qx i j : ℝ) • ((kapD m j : ℝ) * h ^ m) • (M ^ (m + 1)) x := fun j hj => by
        rw [Finset.mem_range] at hj
        rcases Nat.eq_zero_or_pos j with rfl | hp
        · simp [qx_zero i (by omega)]
        · rw [(ih j hj hp (by omega)).2, Finset.smul_sum]
      rw [Finset.sum_congr rfl this, Finset.sum_comm, Finset.smul_sum]
      refine Finset.sum_congr rfl fun m _ => ?_
      rw [kapD_sum, Rat.cast_sum, Finset.sum_mul, Finset.sum_smul, Finset.smul_sum]
      refine Finset.sum_congr rfl fun j _ => ?_
      simp only [smul_smul, Rat.cast_mul]
      congr 1
      ring
    refine ⟨up, ?_⟩
    rw [all_slopes rk D i h1 h2, up, map_add, map_sum]
    simp only [map_smul]
    have e : ∀ m, M ((M ^ (m + 1)) x) = (M ^ (m + 1 + 1)) x := fun m => by
      rw [pow_succ' M (m + 1)]; rfl
    simp only [e]
    have s := Finset.sum_range_succ' (fun m => ((kapD m i : ℝ) * h ^ m) • (M ^ (m + 1)) x) 16
    rw [Finset.sum_range_succ, kapD_zero 16 i h1 h2 h2, Rat.cast_zero, zero_mul, zero_smul, add_zero, first] at s
    rw [s, add_comm]

end C100aux
open C100aux

/-- Inside an accepted step of a linear equation with constant coefficients the rows are a polynomial in the step and the
matrix, whose coefficients up to the seventh power are those of the exponential at that time to 24 digits. -/
theorem C100_linear_dense : ∃ β : ℕ → ℝ → ℝ,
    (∀ k ≤ 7, ∀ θ, 0 ≤ θ → θ ≤ 1 → |β k θ - θ ^ k / (k.factorial : ℝ)| ≤ 1e-24)
    ∧ ∀ (n : ℕ) (M : V n →ₗ[ℝ] V n) (p : Piece n) (rtol atol hb : ℝ), p.OK fileTab (fun x _ => M x) rtol atol hb → ∀ θ,
      p.γ (p.t + θ * p.h) = ∑ k ∈ Finset.range 17, (β k θ * p.h ^ k) • (M ^ k) p.x := by
  refine ⟨fun k θ => if k = 0 then 1 else ∑ m ∈ Finset.range 8, (gg (k - 1) m : ℝ) * θ ^ m, fun k hk θ h0 h1 => ?_, ?_⟩
  · by_cases hz : k = 0
    · subst hz; norm_num
    obtain ⟨q, rfl⟩ := Nat.exists_eq_succ_of_ne_zero hz
    simp only [Nat.succ_eq_add_one, Nat.succ_ne_zero, if_false, Nat.add_sub_cancel]
    have el : ∑ m ∈ Finset.range 8, (gg q m : ℝ) * θ ^ m - θ ^ (q + 1) / ((q + 1).factorial : ℝ)
        = ∑ m ∈ Finset.range 8, ((gg q m : ℝ) - (if m = q + 1 then 1 / ((q + 1).factorial : ℝ) else 0)) * θ ^ m := by
      have : ∑ m ∈ Finset.range 8, (if m = q + 1 then 1 / ((q + 1).factorial : ℝ) else 0) * θ ^ m
          = θ ^ (q + 1) / ((q + 1).factorial : ℝ) := by
        rw [Finset.sum_eq_single (q + 1)]
        · rw [if_pos rfl]; ring
        · intro m _ hm; simp [hm]
        · intro hm; exact absurd (Finset.mem_range.2 (by omega)) hm
      simp only [sub_mul, Finset.sum_sub_distrib, this]
    rw [el]
    refine (Finset.abs_sum_le_sum_abs _ _).trans ?_
    have bd : ∀ m ∈ Finset.range 8,
        |((gg q m : ℝ) - (if m = q + 1 then 1 / ((q + 1).factorial : ℝ) else 0)) * θ ^ m| ≤ 1e-25 := by
      intro m hm
      have c : ((|gg q m - (if m = q + 1 then 1 / ((q + 1).factorial : ℚ) else 0)| : ℚ) : ℝ) ≤ ((1e-25 : ℚ) : ℝ) := by
        exact_mod_cast gg_close q (by omega) m (Finset.mem_range.1 hm)
      rw [Rat.cast_abs, Rat.cast_sub] at c
      have c' : |(gg q m : ℝ) - (if m = q + 1 then 1 / ((q + 1).factorial : ℝ) else 0)| ≤ 1e-25 := by
        refine le_trans (le_of_eq ?_) (c.trans_eq (by norm_num))
        split_ifs <;> simp
      rw [abs_mul, abs_pow, abs_of_nonneg h0]
      calc _ ≤ 1e-25 * 1 := mul_le_mul c' (pow_le_one₀ h0 h1) (by positivity) (by norm_num)
        _ = 1e-25 := mul_one _
    refine (Finset.sum_le_sum bd).trans ?_
    rw [Finset.sum_const, Finset.card_range]
    norm_num
  · intro n M p rtol atol hb ok θ
    obtain ⟨K, rk, _, D⟩ := ok.rk
    set h := p.h
    set x := p.x
    have hn : p.x' - x = ∑ m ∈ Finset.range 16, ((kapD (m + 1) 13 : ℝ) * h ^ (m + 1)) • (M ^ (m + 1)) x := by
      rw [← (lin_all M rk D 13 (by norm_num) (by norm_num)).1, rk.new, add_sub_cancel_left]
      congr 1
      exact sub_sum qb K (by decide) qb_gap
    have e1 : h • K 1 = ∑ m ∈ Finset.range 16, ((0 : ℝ) ^ m * h ^ (m + 1)) • (M ^ (m + 1)) x := by
      rw [(lin_all M rk D 1 (by norm_num) (by norm_num)).2, Finset.smul_sum]
      refine Finset.sum_congr rfl fun m _ => ?_
      have : (kapD m 1 : ℝ) = 0 ^ m := by
        rcases Nat.eq_zero_or_pos m with rfl | hm
        · simp [kapD]
        · rw [kapD_zero m 1 le_rfl hm (by norm_num), zero_pow hm.ne', Rat.cast_zero]
      rw [this, smul_smul]
      congr 1
      ring
    have e13 : h • K 13 = ∑ m ∈ Finset.range 16, ((kapD m 13 : ℝ) * h ^ (m + 1)) • (M ^ (m + 1)) x := by
      rw [(lin_all M rk D 13 (by norm_num) (by norm_num)).2, Finset.smul_sum]
      refine Finset.sum_congr rfl fun m _ => ?_
      rw [smul_smul]
      congr 1
      ring
    have eh : ∀ q < 8, high fileTab h K q = ∑ m ∈ Finset.range 16, ((ddL q m : ℝ) * h ^ (m + 1)) • (M ^ (m + 1)) x := by
      intro q hq
      unfold high
      have : ∀ j ∈ sd, fileTab.d q j • K j
          = ∑ m ∈ Finset.range 16, (qd q j : ℝ) • ((kapD m j : ℝ) * h ^ m) • (M ^ (m + 1)) x := fun j hj => by
        have b : ∀ j ∈ sd, 1 ≤ j ∧ j ≤ 16 := by decide
        rw [(lin_all M rk D j (b j hj).1 (b j hj).2).2, Finset.smul_sum]
        rfl
      rw [Finset.sum_congr rfl this, Finset.sum_comm, Finset.smul_sum]
      refine Finset.sum_congr rfl fun m _ => ?_
      have ed : (ddL q m : ℝ) = ∑ j ∈ sd, (qd q j : ℝ) * (kapD m j : ℝ) := by
        have e : ddL q m = ∑ j ∈ Finset.range 17, qd q j * kapD m j := rfl
        rw [e, Rat.cast_sum]
        simp only [Rat.cast_mul]
        refine (Finset.sum_subset (by decide) fun j hj hn => ?_).symm
        rw [qd_gap q hq j (Finset.mem_range.1 hj) hn, Rat.cast_zero, zero_mul]
      rw [ed, Finset.sum_mul, Finset.sum_smul, Finset.smul_sum]
      refine Finset.sum_congr rfl fun j _ => ?_
      simp only [smul_smul]
      congr 1
      ring
    rw [D.curve θ, Finset.sum_range_succ', add_comm]
    congr 1
    · simp only [smul_add h, e1, e13, hn, eh 4 (by norm_num), eh 5 (by norm_num), eh 6 (by norm_num), eh 7 (by norm_num)]
      simp only [Finset.smul_sum, ← Finset.sum_add_distrib, ← Finset.sum_sub_distrib, smul_smul, ← add_smul, ← sub_smul]
      refine Finset.sum_congr rfl fun m _ => ?_
      congr 1
      simp only [Nat.succ_ne_zero, if_false, Nat.add_sub_cancel, Finset.sum_range_succ, Finset.sum_range_zero, gg]
      push_cast
      ring
    · simp

namespace C100aux
variable {n : ℕ}

def erm (k : ℕ) : ℚ := ((List.range 13).map fun j => qer j * qc j ^ k).sum
def e3m (k : ℕ) : ℚ := mom k - (qbhh 1 * qc 1 ^ k + qbhh 2 * qc 9 ^ k + qbhh 3 * qc 12 ^ k)
theorem erm_close : ∀ k < 5, |erm k| ≤ 1e-27 := by decide +kernel
theorem e3m_close : ∀ k < 3, |e3m k| ≤ 1e-29 := by decide +kernel
theorem qer_gap : ∀ j < 13, j ∉ used → qer j = 0 := by decide +kernel

theorem erm_eq (k : ℕ) : (erm k : ℝ) = ∑ j ∈ used, (qer j : ℝ) * (qc j : ℝ) ^ k := by
  have : erm k = ∑ j ∈ Finset.range 13, qer j * qc j ^ k := rfl
  rw [this, Rat.cast_sum]
  simp only [Rat.cast_mul, Rat.cast_pow]
  refine (Finset.sum_subset (by decide) fun j hj hn => ?_).symm
  rw [qer_gap j (Finset.mem_range.1 hj) hn, Rat.cast_zero, zero_mul]

/-- Every step is accepted for some tolerance. -/
theorem some_piece (T : Tab) (f : V n → ℝ → V n) (x : V n) (t : ℝ) {h : ℝ} (h0 : h ≠ 0) : ∃ atol, 0 < atol ∧ ∃ p : Piece n,
    p.OK T f 0 atol |h| ∧ p.t = t ∧ p.h = h ∧ p.x = x := by
  classical
  obtain ⟨k2, k3, k4, k5, k6, k7, k8, k9, k10, k11, k12, kb, q, e⟩ := stages_seq
    (⟨T, f, 1, 0, 1, 1, 0, 1, 1, 1⟩ : Par n) x t h (f x t)
  set E := ∑ i, ((T.er 1 • f x t + T.er 6 • k6 + T.er 7 • k7 + T.er 8 • k8 + T.er 9 • k9 + T.er 10 • k10 + T.er 11 • k11
    + T.er 12 • k12) i) ^ 2 with hE
  have E0 : 0 ≤ E := Finset.sum_nonneg fun i _ => sq_nonneg _
  set a := |h| * √E + 1 with ha
  have a0 : 0 < a := by positivity
  set P : Par n := ⟨T, f, 1, 0, a, 1, 0, 1, 1, 1⟩ with hP
  have e' : stages P x t h (f x t) = ⟨f x t, k6, k7, k8, k9, k10, k11, k12, kb, x + h • kb⟩ :=
    Seq.stages (P := P) ⟨q.e2, q.e3, q.e4, q.e5, q.e6, q.e7, q.e8, q.e9, q.e10, q.e11, q.e12, q.eb⟩
  have he : errOf P x h (stages P x t h (f x t)) ≤ 1 := by
    rw [e']
    unfold errOf
    simp only [hP, zero_mul, add_zero, div_pow, ← Finset.sum_div]
    rw [← hE]
    set F := ∑ i, ((kb - T.bhh 1 • f x t - T.bhh 2 • k9 - T.bhh 3 • k12) i) ^ 2
    have F0 : 0 ≤ F := Finset.sum_nonneg fun i _ => sq_nonneg _
    rcases E0.eq_or_lt with z | pos
    · rw [← z]; simp
    rcases Nat.eq_zero_or_pos n with hn | hn
    · simp [hn]
    have n1 : (1 : ℝ) ≤ n := by exact_mod_cast hn
    have d0 : 0 < E / a ^ 2 + 0.01 * (F / a ^ 2) := by positivity
    rw [if_neg (not_le.2 d0)]
    have q1 : E / a ^ 2 ≤ (E / a ^ 2 + 0.01 * (F / a ^ 2)) * n := by
      have : 0 ≤ 0.01 * (F / a ^ 2) := by positivity
      nlinarith [div_pos pos (pow_pos a0 2)]
    have q2 : √(1 / ((E / a ^ 2 + 0.01 * (F / a ^ 2)) * n)) ≤ √(1 / (E / a ^ 2)) :=
      Real.sqrt_le_sqrt (one_div_le_one_div_of_le (by positivity) q1)
    have q3 : √(1 / (E / a ^ 2)) = a / √E := by
      rw [one_div_div, Real.sqrt_div (by positivity), Real.sqrt_sq a0.le]
    have sE : 0 < √E := Real.sqrt_pos.2 pos
    calc _ ≤ |h| * (E / a ^ 2) * (a / √E) := by
          rw [← q3]
          exact mul_le_mul_of_nonneg_left q2 (by positivity)
      _ = |h| * √E / a := by
          nth_rw 1 [← Real.sq_sqrt E0]
          field_simp
      _ ≤ 1 := by rw [div_le_one a0]; linarith
  obtain ⟨c1, c2, c3, c4⟩ := curve (P := P) x t h0 (stages P x t h (f x t)) (f (stages P x t h (f x t)).k5 (t + h))
  exact ⟨a, a0, ⟨t, h, x, _, fun u => dense u t h (rcont P x t h (stages P x t h (f x t))
    (f (stages P x t h (f x t)).k5 (t + h)))⟩, ⟨h0, le_rfl, err_ok P x t h0 _ rfl he, c1, c2, c3, c4⟩, rfl, rfl, rfl⟩

end C100aux

/-- The two error estimates vanish, to 27 digits, for right-hand sides that are polynomials of degree four and two in time. -/
theorem C100_error {n : ℕ} (v : ℕ → V n) (x x' : V n) (t h : ℝ) (K : ℕ → V n) (i : Fin n) :
    (RK fileTab (fun _ u => ∑ k ∈ Finset.range 5, (u - t) ^ k • v k) x t h x' K →
      |est5 fileTab K i| ≤ 1e-27 * ∑ k ∈ Finset.range 5, |h| ^ k * |v k i|)
    ∧ (RK fileTab (fun _ u => ∑ k ∈ Finset.range 3, (u - t) ^ k • v k) x t h x' K →
      |est3 fileTab K i| ≤ 1e-29 * ∑ k ∈ Finset.range 3, |h| ^ k * |v k i|) := by
  have fin : ∀ (N : ℕ) (c : ℕ → ℝ) (ε : ℝ), (∀ k < N, |c k| ≤ ε) →
      |∑ k ∈ Finset.range N, c k * (h ^ k * v k i)| ≤ ε * ∑ k ∈ Finset.range N, |h| ^ k * |v k i| := by
    intro N c ε hc
    rw [Finset.mul_sum]
    refine (Finset.abs_sum_le_sum_abs _ _).trans (Finset.sum_le_sum fun k hk => ?_)
    rw [abs_mul, abs_mul, abs_pow]
    exact mul_le_mul_of_nonneg_right (hc k (Finset.mem_range.1 hk)) (by positivity)
  refine ⟨fun rk => ?_, fun rk => ?_⟩
  · have : est5 fileTab K i = ∑ k ∈ Finset.range 5, (erm k : ℝ) * (h ^ k * v k i) := by
      unfold est5
      simp only [Finset.sum_apply, Pi.smul_apply, smul_eq_mul]
      have e : ∀ j ∈ used, fileTab.er j * K j i = ∑ k ∈ Finset.range 5, (qer j : ℝ) * (((qc j : ℝ) * h) ^ k * v k i) := by
        intro j hj
        rw [poly_slope rk (used_bd hj).1 (used_bd hj).2, Finset.sum_apply, Finset.mul_sum]
        rfl
      rw [Finset.sum_congr rfl e, Finset.sum_comm]
      refine Finset.sum_congr rfl fun k _ => ?_
      rw [erm_eq, Finset.sum_mul]
      refine Finset.sum_congr rfl fun j _ => ?_
      ring
    rw [this]
    refine fin 5 _ _ fun k hk => ?_
    have : ((|erm k| : ℚ) : ℝ) ≤ ((1e-27 : ℚ) : ℝ) := by exact_mod_cast erm_close k hk
    rw [Rat.cast_abs] at this
    exact this.trans_eq (by norm_num)
  · have : est3 fileTab K i = ∑ k ∈ Finset.range 3, (e3m k : ℝ) * (h ^ k * v k i) := by
      unfold est3
      simp only [Pi.sub_apply, Pi.add_apply, Finset.sum_apply, Pi.smul_apply, smul_eq_mul]
      have e : ∀ (q : ℝ) (j : ℕ), 1 ≤ j → j ≤ 12 →
          q * K j i = ∑ k ∈ Finset.range 3, q * (((qc j : ℝ) * h) ^ k * v k i) := by
        intro q j a b
        rw [poly_slope rk a b, Finset.sum_apply, Finset.mul_sum]
        rfl
      rw [Finset.sum_congr rfl fun j hj => e (fileTab.b j) j (used_bd hj).1 (used_bd hj).2, Finset.sum_comm,
        e _ 1 (by norm_num) (by norm_num), e _ 9 (by norm_num) (by norm_num), e _ 12 (by norm_num) (by norm_num),
        ← Finset.sum_add_distrib, ← Finset.sum_add_distrib, ← Finset.sum_sub_distrib]
      refine Finset.sum_congr rfl fun k _ => ?_
      have m : ∑ j ∈ used, fileTab.b j * (((qc j : ℝ) * h) ^ k * v k i) = (mom k : ℝ) * (h ^ k * v k i) := by
        rw [mom_eq, Finset.sum_mul]
        refine Finset.sum_congr rfl fun j _ => ?_
        change (qb j : ℝ) * _ = _
        ring
      rw [m]
      change _ - ((qbhh 1 : ℝ) * _ + (qbhh 2 : ℝ) * _ + (qbhh 3 : ℝ) * _) = _
      simp only [e3m, Rat.cast_sub, Rat.cast_add, Rat.cast_mul, Rat.cast_pow]
      ring
    rw [this]
    refine fin 3 _ _ fun k hk => ?_
    have : ((|e3m k| : ℚ) : ℝ) ≤ ((1e-29 : ℚ) : ℝ) := by exact_mod_cast e3m_close k hk
    rw [Rat.cast_abs] at this
    exact this.trans_eq (by norm_num)

/-- The harmonic oscillator. -/
example : ∃ atol, 0 < atol ∧ ∃ p : Piece 2, p.OK fileTab (fun x _ => (Matrix.toLin' !![0, 1; -1, 0] : V 2 →ₗ[ℝ] V 2) x) 0 atol
    |0.1| ∧ p.t = 0 ∧ p.h = 0.1 ∧ p.x = ![1, 0] :=
  some_piece fileTab _ ![1, 0] 0 (by norm_num)

/-- A polynomial of degree six. -/
example : ∃ atol, 0 < atol ∧ ∃ p : Piece 2, p.OK fileTab (fun _ u => ∑ k ∈ Finset.range 7, (u - p.t) ^ k • ![(k : ℝ), 1]) 0 atol
    |-0.5| := by
  obtain ⟨a, h, p, ok, e, _⟩ := some_piece fileTab (fun _ u => ∑ k ∈ Finset.range 7, (u - 3) ^ k • ![(k : ℝ), 1]) ![1, 0] 3
    (show (-0.5 : ℝ) ≠ 0 by norm_num)
  exact ⟨a, h, p, by rw [e]; exact ok⟩

end Verif
