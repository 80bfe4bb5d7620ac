import Verif.Model.DF.StripTimes
import Verif.Props.C96
import Mathlib.MeasureTheory.Measure.Lebesgue.Basic

set_option autoImplicit false

/-!
# C99: stripping times follow the given distribution
-/

noncomputable section
open Real MeasureTheory

namespace Verif
open StripTimes
open Contraction (lin)

namespace C99Spec

/-- Twice the trapezoidal sum of the values of the distribution at the first `j + 1` of the times, in units of the time between them. -/
def sum (p : ℕ → ℝ) (j : ℕ) : ℝ := ∑ i ∈ Finset.range j, (p i + p (i + 1))
/-- The fraction of the particles that are stripped before the `j`th of `N` equal steps from the start of the disruption to the present. -/
def before (p : ℕ → ℝ) (N j : ℕ) : ℝ := sum p j / sum p N
/-- The `j`th time. -/
def time (T : ℝ) (N j : ℕ) : ℝ := -T + T * j / N

end C99Spec
open C99Spec

namespace C99aux

theorem time_eq (T : ℝ) (N j : ℕ) : grid T N j = time T N j := by simp only [grid, time]; ring
theorem time_lt {T : ℝ} (hT : 0 < T) {N i j : ℕ} (hN : 0 < N) (h : i < j) : time T N i < time T N j := by
  have hN' : (0 : ℝ) < N := by exact_mod_cast hN
  have h' : (i : ℝ) < j := by exact_mod_cast h
  simp only [time]
  gcongr

theorem cum_eq (T : ℝ) (N : ℕ) (p : ℕ → ℝ) (j : ℕ) : cumTrap (grid T N) p j = T / N / 2 * sum p j := by
  induction j with
  | zero => simp [cumTrap, C99Spec.sum]
  | succ j ih =>
    have e : C99Spec.sum p (j + 1) = C99Spec.sum p j + (p j + p (j + 1)) := Finset.sum_range_succ _ _
    rw [cumTrap, ih, e]
    simp only [grid]
    push_cast
    ring

section
variable {p : ℕ → ℝ} {N : ℕ} (hp : ∀ i ≤ N, 0 ≤ p i)
include hp

theorem sum_le {i j : ℕ} (h : i ≤ j) (hj : j ≤ N) : sum p i ≤ sum p j := by
  induction j, h using Nat.le_induction with
  | base => rfl
  | succ j h ih =>
    refine (ih (by omega)).trans ?_
    rw [C99Spec.sum, C99Spec.sum, Finset.sum_range_succ]
    have := hp j (by omega)
    have := hp (j + 1) hj
    linarith

theorem before_le (hs : 0 < sum p N) {i j : ℕ} (h : i ≤ j) (hj : j ≤ N) : before p N i ≤ before p N j :=
  div_le_div_of_nonneg_right (sum_le hp h hj) hs.le

theorem acc_eq (hs : 0 < sum p N) {j : ℕ} (hj : j ≤ N) : accMax (before p N) j = before p N j := by
  induction j with
  | zero => rfl
  | succ j ih => rw [accMax, ih (by omega), max_eq_right (before_le hp hs (by omega) hj)]
end

/-- What the code computes, in terms of the specification. -/
theorem setup_eq {T : ℝ} (hT : 0 < T) {N : ℕ} (hN : 0 < N) {pdf : ℝ → ℝ} (hp : ∀ i ≤ N, 0 ≤ pdf (time T N i))
    (hs : 0 < sum (fun i => pdf (time T N i)) N) :
    setup T N pdf = .ok (lin (fun i => accMax (before (fun i => pdf (time T N i)) N) ((kept (accMax (before (fun i => pdf (time T N i)) N)) N).getD i 0))
      (fun i => time T N ((kept (accMax (before (fun i => pdf (time T N i)) N)) N).getD i 0)) ((kept (accMax (before (fun i => pdf (time T N i)) N)) N).length - 1)) := by
  have hN' : (0 : ℝ) < N := by exact_mod_cast hN
  have hg : grid T N = time T N := funext fun j => time_eq T N j
  have hc : ∀ j, cumTrap (grid T N) (fun i => pdf (grid T N i)) j = T / N / 2 * sum (fun i => pdf (time T N i)) j := fun j => by rw [cum_eq, hg]
  have hb : (fun i => cumTrap (grid T N) (fun i => pdf (grid T N i)) i / cumTrap (grid T N) (fun i => pdf (grid T N i)) N) = before (fun i => pdf (time T N i)) N := by
    funext i
    rw [hc, hc, before, mul_div_mul_left _ _ (by positivity)]
  simp only [setup]
  rw [if_neg, if_neg]
  · rw [hb, hg]
  · rw [hc, not_le]
    positivity
  · rintro ⟨i, hi, h⟩
    rw [hg] at h
    exact absurd (hp i hi) (not_le.2 h)

theorem strict {x y : ℕ → ℝ} {n : ℕ} (hx : ∀ i < n, x i < x (i + 1)) (hy : ∀ i < n, y i < y (i + 1)) {u w : ℝ} (h0 : x 0 ≤ u) (h : u < w) (h1 : w ≤ x n) :
    lin x y n u < lin x y n w := by
  induction n with
  | zero => exact absurd (h0.trans_lt h) (not_lt.2 h1)
  | succ n ih =>
    have a := hx n (by omega)
    have b := hy n (by omega)
    have hs : 0 < (y (n + 1) - y n) / (x (n + 1) - x n) := div_pos (by linarith) (by linarith)
    have i1 : ∀ i < n, x i < x (i + 1) := fun i hi => hx i (by omega)
    have i2 : ∀ i < n, y i < y (i + 1) := fun i hi => hy i (by omega)
    by_cases c : u ≤ x n
    · rw [lin, if_pos c]
      by_cases d : w ≤ x n
      · rw [lin, if_pos d]
        exact ih i1 i2 d
      · refine (C96aux.upper i1 (fun i hi => (i2 i hi).le) u).trans_lt ?_
        rw [lin, if_neg d, if_pos h1]
        have := mul_pos hs (by linarith [not_le.1 d] : 0 < w - x n)
        linarith
    · have d : ¬ w ≤ x n := fun d => c (h.le.trans d)
      rw [lin, if_neg c, if_pos (h.le.trans h1), lin, if_neg d, if_pos h1]
      have := mul_lt_mul_of_pos_left (by linarith : u - x n < w - x n) hs
      linarith

section
variable {p : ℕ → ℝ} {N : ℕ}

theorem gD {l : List ℕ} {i : ℕ} (h : i < l.length) : l.getD i 0 = l[i] := by simp [h]

theorem mem_kept {c : ℕ → ℝ} {j : ℕ} : j ∈ kept c N ↔ j ≤ N ∧ ∀ i < j, c i ≠ c j := by
  simp [kept, Nat.lt_succ_iff]

theorem kept_sorted (c : ℕ → ℝ) : (kept c N).Pairwise (· < ·) := (List.pairwise_lt_range).filter _

theorem kept_lt (c : ℕ → ℝ) {i j : ℕ} (h : i < j) (hj : j < (kept c N).length) : (kept c N).getD i 0 < (kept c N).getD j 0 := by
  rw [gD (h.trans hj), gD hj]
  exact List.pairwise_iff_getElem.1 (kept_sorted c) i j _ _ h

theorem getD_mem (c : ℕ → ℝ) {i : ℕ} (h : i < (kept c N).length) : (kept c N).getD i 0 ∈ kept c N := by
  rw [gD h]
  exact List.getElem_mem h

theorem exists_idx (c : ℕ → ℝ) {j : ℕ} (h : j ∈ kept c N) : ∃ k, k < (kept c N).length ∧ (kept c N).getD k 0 = j := by
  obtain ⟨k, hk, e⟩ := List.mem_iff_getElem.1 h
  exact ⟨k, hk, by rw [gD hk, e]⟩

end

/-- The properties of the interpolation that the theorems use. -/
structure Good (T : ℝ) (N : ℕ) (p : ℕ → ℝ) (inv : ℝ → ℝ) : Prop where
  range : ∀ u, -T ≤ inv u ∧ inv u ≤ 0
  node : ∀ j ≤ N, (∀ i < j, before p N i ≠ before p N j) → inv (before p N j) = time T N j
  mono : Monotone inv
  strict : ∀ u w, 0 ≤ u → u < w → w ≤ 1 → inv u < inv w
  cont : Continuous inv

theorem good {T : ℝ} (hT : 0 < T) {N : ℕ} (hN : 0 < N) {pdf : ℝ → ℝ} (hp : ∀ i ≤ N, 0 ≤ pdf (time T N i))
    (hs : 0 < sum (fun i => pdf (time T N i)) N) : ∃ inv, setup T N pdf = .ok inv ∧ Good T N (fun i => pdf (time T N i)) inv := by
  refine ⟨_, setup_eq hT hN hp hs, ?_⟩
  set p := fun i => pdf (time T N i) with hpdef
  set c := accMax (before p N) with hc
  set l := kept c N with hl
  have hce : ∀ j ≤ N, c j = before p N j := fun j hj => acc_eq hp hs hj
  have h0 : 0 ∈ l := mem_kept.2 ⟨by omega, by omega⟩
  have hlen : 0 < l.length := List.length_pos_of_mem h0
  have hle : ∀ i, i < l.length → l.getD i 0 ≤ N := fun i hi => (mem_kept.1 (getD_mem c hi)).1
  have hx : ∀ i < l.length - 1, c (l.getD i 0) < c (l.getD (i + 1) 0) := by
    intro i hi
    have hlt := kept_lt c (i := i) (j := i + 1) (by omega) (show i + 1 < l.length by omega)
    have hm := mem_kept.1 (getD_mem c (show i + 1 < l.length by omega))
    refine lt_of_le_of_ne ?_ (hm.2 _ hlt)
    rw [hce _ (hlt.le.trans hm.1), hce _ hm.1]
    exact before_le hp hs hlt.le hm.1
  have hy : ∀ i < l.length - 1, time T N (l.getD i 0) < time T N (l.getD (i + 1) 0) := fun i hi =>
    time_lt hT hN (kept_lt c (by omega) (show i + 1 < l.length by omega))
  have hz : l.getD 0 0 = 0 := by
    obtain ⟨k, hk, e⟩ := exists_idx c h0
    rcases Nat.eq_zero_or_pos k with rfl | h
    · exact e
    · have := kept_lt c h hk
      omega
  have hN' : (0 : ℝ) < N := by exact_mod_cast hN
  have hnode : ∀ j ≤ N, (∀ i < j, before p N i ≠ before p N j) → ∃ k, k ≤ l.length - 1 ∧ l.getD k 0 = j := by
    intro j hj hi
    obtain ⟨k, hk, e⟩ := exists_idx (N := N) c (j := j) (mem_kept.2 ⟨hj, fun i hij => by rw [hce i (by omega), hce j hj]; exact hi i hij⟩)
    rw [← hl] at hk
    exact ⟨k, by omega, e⟩
  refine ⟨fun u => ⟨?_, ?_⟩, ?_, C96aux.mono hx fun i hi => (hy i hi).le, ?_, C96aux.cont hx⟩
  · refine le_trans (le_of_eq ?_) (C96aux.lower hx (fun i hi => (hy i hi).le) u)
    rw [hz]
    simp [time]
  · refine (C96aux.upper hx (fun i hi => (hy i hi).le) u).trans ?_
    have := hle (l.length - 1) (by omega)
    have h' : ((l.getD (l.length - 1) 0 : ℕ) : ℝ) ≤ N := by exact_mod_cast this
    simp only [time]
    have : T * ((l.getD (l.length - 1) 0 : ℕ) : ℝ) / N ≤ T := by
      rw [div_le_iff₀ hN']
      gcongr
    linarith
  · intro j hj hi
    obtain ⟨k, hk, e⟩ := hnode j hj hi
    have := C96aux.node (y := fun i => time T N (l.getD i 0)) hx hk
    rwa [e, hce j hj] at this
  · intro u w hu huw hw
    have x0 : c (l.getD 0 0) = 0 := by
      rw [hz, hce 0 (by omega)]
      simp [before, C99Spec.sum]
    have hN1 : before p N N = 1 := div_self hs.ne'
    have ex : ∃ j, j ≤ N ∧ before p N j = 1 := ⟨N, le_rfl, hN1⟩
    classical
    obtain ⟨hf1, hf2⟩ := Nat.find_spec ex
    obtain ⟨k, hk, e⟩ := hnode (Nat.find ex) hf1 fun i hi h => Nat.find_min ex hi ⟨by omega, by rw [h, hf2]⟩
    have xn : 1 ≤ c (l.getD (l.length - 1) 0) := by
      have := C96aux.inc_le hx hk le_rfl
      rw [e, hce _ hf1, hf2] at this
      exact this
    exact strict hx hy (by rw [x0]; exact hu) huw (hw.trans xn)

end C99aux
open C99aux

/-- The times are between the start of the disruption and the present, and up to every time of the grid that does not end an interval without stripping they follow the distribution:
the fraction of random numbers that give earlier times is that of the particles stripped before.  Missing: the ends of such intervals, where this is false (`C99_gap_fails`). -/
theorem C99_times_partial (T : ℝ) (hT : 0 < T) (N : ℕ) (hN : 0 < N) (pdf : ℝ → ℝ) (hp : ∀ i ≤ N, 0 ≤ pdf (time T N i))
    (hs : ∃ i ≤ N, 0 < pdf (time T N i)) :
    ∃ inv, setup T N pdf = .ok inv ∧ (∀ u, -T ≤ inv u ∧ inv u ≤ 0) ∧
      ∀ j ≤ N, (j = 0 ∨ 0 < pdf (time T N (j - 1)) ∨ 0 < pdf (time T N j)) →
        (∀ u, 0 ≤ u → u ≤ 1 → (inv u ≤ time T N j ↔ u ≤ before (fun i => pdf (time T N i)) N j)) ∧
        volume {u | 0 ≤ u ∧ u ≤ 1 ∧ inv u ≤ time T N j} = ENNReal.ofReal (before (fun i => pdf (time T N i)) N j) := by
  set p := fun i => pdf (time T N i) with hpd
  have hs' : 0 < C99Spec.sum p N := by
    obtain ⟨i, hi, h⟩ := hs
    rcases Nat.lt_or_ge i N with h' | h'
    · have h1 : C99Spec.sum p i ≥ 0 := by simpa [C99Spec.sum] using sum_le hp (Nat.zero_le i) hi
      have h2 : C99Spec.sum p (i + 1) = C99Spec.sum p i + (p i + p (i + 1)) := by rw [C99Spec.sum, Finset.sum_range_succ, ← C99Spec.sum]
      have h3 := sum_le hp (show i + 1 ≤ N by omega) le_rfl
      have h4 : 0 ≤ p (i + 1) := hp _ h'
      have h5 : 0 < p i := h
      linarith
    · obtain rfl : i = N := by omega
      obtain ⟨n, rfl⟩ := Nat.exists_eq_succ_of_ne_zero hN.ne'
      have h1 : C99Spec.sum p n ≥ 0 := by simpa [C99Spec.sum] using sum_le hp (Nat.zero_le n) (Nat.le_succ n)
      have h4 : 0 ≤ p n := hp _ (Nat.le_succ n)
      have h5 : 0 < p (n + 1) := h
      rw [C99Spec.sum, Finset.sum_range_succ, ← C99Spec.sum]
      linarith
  obtain ⟨inv, h1, h2⟩ := good hT hN hp hs'
  refine ⟨inv, h1, h2.range, fun j hj hb => ?_⟩
  have hk : ∀ i < j, before p N i ≠ before p N j := by
    intro i hi
    rcases hb with rfl | hb
    · omega
    obtain ⟨m, rfl⟩ := Nat.exists_eq_succ_of_ne_zero (show j ≠ 0 by omega)
    have a := before_le hp hs' (show i ≤ m by omega) (by omega)
    have b : before p N m < before p N (m + 1) := by
      refine div_lt_div_of_pos_right ?_ hs'
      rw [C99Spec.sum, C99Spec.sum, Finset.sum_range_succ]
      have e1 : 0 ≤ p m := hp m (by omega)
      have e2 : 0 ≤ p (m + 1) := hp (m + 1) hj
      have e3 : 0 < p m ∨ 0 < p (m + 1) := hb
      rcases e3 with h | h <;> linarith
    exact (a.trans_lt b).ne
  have hn := h2.node j hj hk
  have b0 : 0 ≤ before p N j := by
    have := before_le hp hs' (Nat.zero_le j) hj
    simpa [before, C99Spec.sum] using this
  have b1 : before p N j ≤ 1 := by
    have := before_le hp hs' hj le_rfl
    rwa [show before p N N = 1 from div_self hs'.ne'] at this
  have key : ∀ u, 0 ≤ u → u ≤ 1 → (inv u ≤ time T N j ↔ u ≤ before p N j) := by
    intro u h0 h1
    constructor
    · intro h
      by_contra hc
      have := h2.strict _ _ b0 (not_le.1 hc) h1
      rw [hn] at this
      linarith
    · intro h
      rw [← hn]
      exact h2.mono h
  refine ⟨key, ?_⟩
  rw [show {u | 0 ≤ u ∧ u ≤ 1 ∧ inv u ≤ time T N j} = Set.Icc 0 (before p N j) by
    ext u
    simp only [Set.mem_setOf_eq, Set.mem_Icc]
    constructor
    · rintro ⟨a, b, c⟩
      exact ⟨a, (key u a b).1 c⟩
    · rintro ⟨a, b⟩
      exact ⟨a, b.trans b1, (key u a (b.trans b1)).2 b⟩, Real.volume_Icc, sub_zero]

/-- The code's 10000 steps and a distribution that is not zero anywhere. -/
example : ∃ inv, setup 5 10000 (fun t => 1 + t ^ 2) = .ok inv ∧
    volume {u | 0 ≤ u ∧ u ≤ 1 ∧ inv u ≤ time 5 10000 1000} = ENNReal.ofReal (before (fun i => 1 + time 5 10000 i ^ 2) 10000 1000) := by
  obtain ⟨inv, h1, -, h2⟩ := C99_times_partial 5 (by norm_num) 10000 (by norm_num) (fun t => 1 + t ^ 2) (fun _ _ => by positivity) ⟨0, by norm_num, by positivity⟩
  exact ⟨inv, h1, (h2 1000 (by norm_num) (Or.inr (Or.inl (by positivity)))).2⟩

/-- Distributions that are zero on an interval: times inside it are drawn.  At the end of every interval of at least one step without stripping, other than at the present, there are random numbers
greater than the fraction of particles stripped before that give a time inside of the interval. -/
theorem C99_gap_fails (T : ℝ) (hT : 0 < T) (N : ℕ) (hN : 0 < N) (pdf : ℝ → ℝ) (hp : ∀ i ≤ N, 0 ≤ pdf (time T N i)) (j : ℕ) (hj : j + 1 ≤ N)
    (h0 : pdf (time T N j) = 0) (h1 : pdf (time T N (j + 1)) = 0) (hs : before (fun i => pdf (time T N i)) N (j + 1) < 1)
    (hs' : 0 < C99Spec.sum (fun i => pdf (time T N i)) N) :
    ∃ inv, setup T N pdf = .ok inv ∧ ∃ i ≤ j, (∀ m, i ≤ m → m ≤ j + 1 → pdf (time T N m) = 0) ∧
      ∃ u, before (fun i => pdf (time T N i)) N (j + 1) < u ∧ u ≤ 1 ∧ time T N i < inv u ∧ inv u < time T N (j + 1) := by
  set p := fun i => pdf (time T N i) with hpd
  obtain ⟨inv, e1, e2⟩ := good hT hN hp hs'
  have eq : before p N j = before p N (j + 1) := by
    have e : C99Spec.sum p (j + 1) = C99Spec.sum p j + (p j + p (j + 1)) := Finset.sum_range_succ _ _
    rw [before, before, e]
    simp [hpd, h0, h1]
  have ex : ∃ i, before p N i = before p N (j + 1) := ⟨j, eq⟩
  classical
  have hle : Nat.find ex ≤ j := Nat.find_min' ex eq
  have hf := Nat.find_spec ex
  set i := Nat.find ex with hi
  have hn := e2.node i (by omega) fun m hm h => Nat.find_min ex hm (h.trans hf)
  rw [hf] at hn
  refine ⟨inv, e1, i, hle, ?_, ?_⟩
  · -- the sum does not grow, so every term is zero
    have hz : ∀ m, i ≤ m → m ≤ j → p m + p (m + 1) = 0 := by
      intro m h2 h3
      have a := before_le hp hs' h2 (by omega)
      have b := before_le hp hs' (show m ≤ m + 1 by omega) (by omega)
      have c := before_le hp hs' (show m + 1 ≤ j + 1 by omega) hj
      have d : before p N (m + 1) = before p N m := by linarith
      rw [before, before, div_left_inj' hs'.ne', C99Spec.sum, C99Spec.sum, Finset.sum_range_succ] at d
      linarith
    intro m h2 h3
    rcases h3.eq_or_lt with rfl | h3
    · exact h1
    · have a := hz m h2 (by omega)
      have b : 0 ≤ p m := hp m (by omega)
      have c : 0 ≤ p (m + 1) := hp (m + 1) (by omega)
      show p m = 0
      linarith
  · have ht : inv (before p N (j + 1)) < time T N (j + 1) := by
      rw [hn]
      exact time_lt hT hN (by omega)
    have hev := (e2.cont.tendsto (before p N (j + 1))).eventually (gt_mem_nhds ht)
    obtain ⟨ε, hε, hb⟩ := Metric.eventually_nhds_iff.1 hev
    have b0 : 0 ≤ before p N (j + 1) := by
      have := before_le hp hs' (Nat.zero_le (j + 1)) hj
      simpa [before, C99Spec.sum] using this
    refine ⟨before p N (j + 1) + min (ε / 2) (1 - before p N (j + 1)), ?_, ?_, ?_, ?_⟩
    · have := lt_min (half_pos hε) (sub_pos.2 hs)
      linarith
    · have := min_le_right (ε / 2) (1 - before p N (j + 1))
      linarith
    · rw [← hn]
      have a := lt_min (half_pos hε) (sub_pos.2 hs)
      have := min_le_right (ε / 2) (1 - before p N (j + 1))
      exact e2.strict _ _ b0 (by linarith) (by linarith)
    · apply hb
      have a := lt_min (half_pos hε) (sub_pos.2 hs)
      have := min_le_left (ε / 2) (1 - before p N (j + 1))
      rw [Real.dist_eq, add_sub_cancel_left, abs_of_pos a]
      linarith

/-- Stripping in the second half only: particles are stripped in the first half. -/
example : ∃ inv, setup 1 10000 (fun t => if t < -(1 / 2) then 0 else 1) = .ok inv ∧ ∃ u, 0 < u ∧ u ≤ 1 ∧ inv u < -(9999 / 10000) := by
  set pdf : ℝ → ℝ := fun t => if t < -(1 / 2) then 0 else 1 with hpdf
  have hp : ∀ i ≤ 10000, 0 ≤ pdf (time 1 10000 i) := fun i _ => by simp only [hpdf]; split_ifs <;> norm_num
  have h0 : pdf (time 1 10000 0) = 0 := if_pos (by norm_num [time])
  have h1 : pdf (time 1 10000 (0 + 1)) = 0 := if_pos (by norm_num [time])
  have hl : pdf (time 1 10000 10000) = 1 := if_neg (by norm_num [time])
  have hs : 0 < C99Spec.sum (fun i => pdf (time 1 10000 i)) 10000 := by
    have e : C99Spec.sum (fun i => pdf (time 1 10000 i)) 10000 = C99Spec.sum (fun i => pdf (time 1 10000 i)) 9999 + (pdf (time 1 10000 9999) + pdf (time 1 10000 10000)) :=
      Finset.sum_range_succ _ _
    have a : 0 ≤ C99Spec.sum (fun i => pdf (time 1 10000 i)) 9999 := by
      have := sum_le hp (Nat.zero_le 9999) (by norm_num)
      simpa [C99Spec.sum] using this
    have b := hp 9999 (by norm_num)
    rw [e, hl]
    linarith
  have hb : before (fun i => pdf (time 1 10000 i)) 10000 (0 + 1) = 0 := by
    have e : C99Spec.sum (fun i => pdf (time 1 10000 i)) (0 + 1) = 0 := by
      rw [C99Spec.sum, Finset.sum_range_one, h0, h1, add_zero]
    rw [before, e, zero_div]
  obtain ⟨inv, e1, i, -, -, u, e2, e3, -, e5⟩ := C99_gap_fails 1 one_pos 10000 (by norm_num) pdf hp 0 (by norm_num) h0 h1 (by rw [hb]; norm_num) hs
  refine ⟨inv, e1, u, by rwa [hb] at e2, e3, ?_⟩
  have : time 1 10000 (0 + 1) = -(9999 / 10000) := by norm_num [time]
  rwa [this] at e5

/-- Distributions that are negative at a time of the grid, or zero at all of them, are refused. -/
theorem C99_raises (T : ℝ) (hT : 0 < T) (N : ℕ) (hN : 0 < N) (pdf : ℝ → ℝ) :
    ((∃ i ≤ N, pdf (time T N i) < 0) → setup T N pdf = .error "ValueError") ∧
    ((∀ i ≤ N, pdf (time T N i) = 0) → setup T N pdf = .error "ValueError") := by
  have hg : grid T N = time T N := funext fun j => time_eq T N j
  constructor
  · intro h
    simp only [setup, hg]
    rw [if_pos h]
  · intro h
    have hz : C99Spec.sum (fun i => pdf (time T N i)) N = 0 := Finset.sum_eq_zero fun i hi => by
      have := Finset.mem_range.1 hi
      simp [h i (by omega), h (i + 1) (by omega)]
    simp only [setup]
    rw [if_neg, if_pos]
    · rw [cum_eq, hg, hz, mul_zero]
    · rw [hg]
      rintro ⟨i, hi, h'⟩
      rw [h i hi] at h'
      exact lt_irrefl _ h'

example : setup 1 10000 (fun t => t) = .error "ValueError" :=
  (C99_raises 1 one_pos 10000 (by norm_num) _).1 ⟨0, by norm_num, by norm_num [time]⟩

end Verif
