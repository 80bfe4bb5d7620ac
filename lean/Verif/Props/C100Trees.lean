import Verif.Props.C100Order
import Verif.Lemmas.BSeries

set_option autoImplicit false

/-!
# C100: order of the DOP853 step for non-linear equations
-/

open Filter Topology Asymptotics

noncomputable section
namespace Verif
open Dop853 C100Spec

namespace C100aux

/-- The method of the file. -/
def dop8 : Tableau ℚ Unit 12 where
  A _ i j := if j < i then qa (i.1 + 1) (j.1 + 1) else 0
  b _ i := qb (i.1 + 1)

set_option maxRecDepth 100000 in
theorem dop8_all : ((List.range 8).all fun n => (treesF [()] 8 (n + 1)).all fun t => decide (
    |defectL 12 (fun c => List.ofFn fun i => List.ofFn (dop8.A c i)) (fun c => List.ofFn (dop8.b c)) t| ≤ 1e-28)) = true := by
  decide +kernel

theorem dop8_defect (t : Tree Unit) (ht : t.size ≤ 8) : |dop8.cast.defect t| ≤ 1e-28 := by
  have h := dop8_all
  simp only [List.all_eq_true, List.mem_range, decide_eq_true_eq] at h
  have hp := t.size_pos
  have := h (t.size - 1) (by omega) t (by
    rw [Nat.sub_add_cancel hp]
    exact mem_treesF (fun c => by simp) 8 t ht)
  rw [← defectL_eq] at this
  rw [dop8.cast_defect, ← Rat.cast_abs]
  have c : ((|dop8.defect t| : ℚ) : ℝ) ≤ ((1e-28 : ℚ) : ℝ) := by exact_mod_cast this
  exact c.trans_eq (by norm_num)

variable {n : ℕ}

theorem fin_sum (i : ℕ) (hi : i ≤ 12) (G : ℕ → V n) :
    ∑ j : Fin 12, (if j.1 < i then G (j.1 + 1) else 0) = ∑ j ∈ Finset.Ico 1 (i + 1), G j := by
  rw [Fin.sum_univ_eq_sum_range (fun j => if j < i then G (j + 1) else 0) 12, Finset.sum_Ico_eq_sum_range,
    Nat.add_sub_cancel, ← Finset.sum_filter]
  have : (Finset.range 12).filter (fun j => j < i) = Finset.range i := by
    ext j; simp; omega
  rw [this]
  exact Finset.sum_congr rfl fun j _ => by rw [add_comm]

theorem rk_isStep {g : V n → V n} {x x' : V n} {t h : ℝ} {K : ℕ → V n} (rk : RK fileTab (fun x _ => g x) x t h x' K) :
    dop8.cast.IsStep (fun _ => g) h x x' := by
  have hK : ∀ i, 1 ≤ i → i ≤ 12 → g (x + h • ∑ j ∈ Finset.Ico 1 i, A fileTab i j • K j) = K i := by
    intro i a b
    by_cases e : i = 1
    · subst e; rw [rk.first]; simp
    · exact (rk.stage i (by omega) b).symm
  refine ⟨fun i => x + h • ∑ j ∈ Finset.Ico 1 (i.1 + 1), A fileTab (i.1 + 1) j • K j, fun i => ?_, ?_⟩
  · simp only [Finset.univ_unique, Finset.sum_singleton]
    congr 2
    rw [← fin_sum i.1 i.2.le]
    refine Finset.sum_congr rfl fun j _ => ?_
    rw [hK (j.1 + 1) (by omega) (by omega)]
    simp only [Tableau.cast, dop8, Fin.lt_def]
    split_ifs with hj
    · rw [A_eq (by omega) (by omega)]
    · rw [Rat.cast_zero, zero_smul]
  · simp only [Finset.univ_unique, Finset.sum_singleton]
    rw [rk.new]
    congr 2
    have e : ∀ j : Fin 12, dop8.cast.b default j • g (x + h • ∑ k ∈ Finset.Ico 1 (j.1 + 1), A fileTab (j.1 + 1) k • K k)
        = if j.1 < 12 then (fun j => (qb j : ℝ) • K j) (j.1 + 1) else 0 := fun j => by
      rw [hK (j.1 + 1) (by omega) (by omega), if_pos j.2]
      rfl
    rw [Finset.sum_congr rfl fun j _ => e j, fin_sum 12 le_rfl (fun j => (qb j : ℝ) • K j)]
    refine Finset.sum_subset (by decide) fun j hj hn => ?_
    rw [Finset.mem_Ico] at hj
    rw [show fileTab.b j = (qb j : ℝ) from rfl, qb_gap j (by omega) hn, Rat.cast_zero, zero_smul]

end C100aux
open C100aux

/-- The step is of eighth order for every analytic autonomous equation, up to the rounding of the coefficients to 28 digits:
the error of one step of length `h` from a solution is at most `C (1e-28 |h| + |h|⁹)`. -/
theorem C100_order {n : ℕ} {g : V n → V n} {t : ℝ} {y : ℝ → V n} (hg : AnalyticAt ℝ g (y t))
    (hy : ∀ᶠ s in 𝓝 t, HasDerivAt y (g (y s)) s) {z : ℝ → V n} {K : ℝ → ℕ → V n}
    (hz : ∀ h, RK fileTab (fun x _ => g x) (y t) t h (z h) (K h)) :
    ∃ C, ∀ᶠ h in 𝓝 (0 : ℝ), ‖z h - y (t + h)‖ ≤ C * (1e-28 * |h| + |h| ^ 9) := by
  obtain ⟨p, hp⟩ := hg
  have htend : Tendsto (fun h : ℝ => t + h) (𝓝 0) (𝓝 t) := by
    have : Tendsto (fun h : ℝ => t + h) (𝓝 0) (𝓝 (t + 0)) := (continuous_const.add continuous_id).tendsto 0
    rwa [add_zero] at this
  have key := local_error (κ := Unit) (f := fun _ => g) (p := fun _ => p) (y := y t) (T := dop8.cast) (fun _ => hp)
    (fun c i j hij => by
      simp only [Tableau.cast, dop8]
      rw [if_neg (not_lt.2 hij), Rat.cast_zero]) (y' := z) (fun h => rk_isStep (hz h)) (u := fun h => y (t + h))
    (by simp) (by
      filter_upwards [htend.eventually hy] with h hh
      have := hh.scomp h ((hasDerivAt_id h).const_add t)
      rw [one_smul] at this
      simpa [Function.comp_def] using this) 8
  obtain ⟨C, hC⟩ := key.bound
  set M := ∑ t ∈ treesLE Unit 8, ‖elemDiff (fun _ : Unit => p) t []‖ with hM
  have hM0 : 0 ≤ M := Finset.sum_nonneg fun _ _ => norm_nonneg _
  refine ⟨max C M, ?_⟩
  filter_upwards [hC, Metric.ball_mem_nhds (0 : ℝ) one_pos] with h hC hh
  rw [Metric.mem_ball, dist_zero_right, Real.norm_eq_abs] at hh
  have hsum : ‖∑ t ∈ treesLE Unit 8, (h ^ t.size * dop8.cast.defect t) • elemDiff (fun _ : Unit => p) t []‖
      ≤ 1e-28 * |h| * M := by
    rw [hM, Finset.mul_sum]
    refine (norm_sum_le _ _).trans (Finset.sum_le_sum fun t ht => ?_)
    rw [norm_smul, norm_mul, norm_pow, Real.norm_eq_abs, Real.norm_eq_abs]
    have h1 := dop8_defect t (mem_treesLE.1 ht)
    have h2 : |h| ^ t.size ≤ |h| := by
      have := pow_le_pow_of_le_one (abs_nonneg h) hh.le t.size_pos
      simpa using this
    calc |h| ^ t.size * |dop8.cast.defect t| * ‖elemDiff (fun _ : Unit => p) t []‖
        ≤ |h| * 1e-28 * ‖elemDiff (fun _ : Unit => p) t []‖ := by gcongr
      _ = _ := by ring
  have h1 := norm_le_norm_add_norm_sub' (z h - y (t + h))
    (∑ t ∈ treesLE Unit 8, (h ^ t.size * dop8.cast.defect t) • elemDiff (fun _ : Unit => p) t [])
  refine h1.trans ((add_le_add hsum hC).trans ?_)
  rw [norm_pow, Real.norm_eq_abs, mul_add]
  have : (0 : ℝ) ≤ 1e-28 * |h| := by positivity
  have h4 : 0 ≤ |h| ^ 9 := by positivity
  have := mul_le_mul_of_nonneg_left (le_max_right C M) this
  have := mul_le_mul_of_nonneg_right (le_max_left C M) h4
  norm_num at *
  linarith

/-- The slopes exist for every equation and step. -/
example (g : V 2 → V 2) (x : V 2) (h : ℝ) : ∃ x' K, RK fileTab (fun x _ => g x) x 0 h x' K := by
  obtain ⟨k2, k3, k4, k5, k6, k7, k8, k9, k10, k11, k12, kb, q, _⟩ := stages_seq
    (⟨fileTab, fun x _ => g x, 1, 0, 1, 1, 0, 1, 1, 1⟩ : Par 2) x 0 h (g x)
  exact ⟨_, _, C100aux.seq_rk q rfl 0 0 0 0⟩

end Verif
