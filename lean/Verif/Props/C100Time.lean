import Verif.Props.C100Trees
import Mathlib.Analysis.Analytic.Constructions
import Mathlib.Analysis.Calculus.Deriv.Prod

set_option autoImplicit false

/-!
# C100: order of the DOP853 step for equations with explicit time

The times of the stages are the nodes of the file, which differ from the sums of the rows by the rounding of the
coefficients. The time is a second part of the equation whose coefficients are those of the file changed by that rounding.
-/

open Filter Topology Asymptotics

noncomputable section
namespace Verif
open Dop853 C100Spec

namespace C100aux

/-- The tree without its colours. -/
def forget {κ : Type} : Tree κ → Tree Unit
  | .leaf _ => .leaf ()
  | .graft t u => .graft (forget t) (forget u)

theorem forget_size {κ : Type} (t : Tree κ) : (forget t).size = t.size := by
  induction t with
  | leaf c => rfl
  | graft t u h1 h2 => simp [forget, Tree.size, h1, h2]

theorem forget_below {κ : Type} (t : Tree κ) : (forget t).belowDensity = t.belowDensity := by
  induction t with
  | leaf c => rfl
  | graft t u h1 h2 => simp [forget, Tree.belowDensity, h1, h2, forget_size]

section
variable {s : ℕ}

theorem dot_le {a x : Fin s → ℚ} {Q X : ℚ} (ha : ∑ j, |a j| ≤ Q) (hx : ∀ j, |x j| ≤ X) (hX : 0 ≤ X) :
    |∑ j, a j * x j| ≤ Q * X := by
  refine (Finset.abs_sum_le_sum_abs _ _).trans (le_trans ?_ (mul_le_mul_of_nonneg_right ha hX))
  rw [Finset.sum_mul]
  refine Finset.sum_le_sum fun j _ => ?_
  rw [abs_mul]
  exact mul_le_mul_of_nonneg_left (hx j) (abs_nonneg _)

theorem dot_diff {a a0 x x0 : Fin s → ℚ} {Q δ X E : ℚ} (h0 : ∑ j, |a0 j| ≤ Q) (hd : ∑ j, |a j - a0 j| ≤ δ)
    (hx : ∀ j, |x j| ≤ X) (hE : ∀ j, |x j - x0 j| ≤ E) (hX : 0 ≤ X) (hE0 : 0 ≤ E) :
    |∑ j, a j * x j - ∑ j, a0 j * x0 j| ≤ δ * X + Q * E := by
  have e : ∑ j, a j * x j - ∑ j, a0 j * x0 j = ∑ j, (a j - a0 j) * x j + ∑ j, a0 j * (x j - x0 j) := by
    rw [← Finset.sum_sub_distrib, ← Finset.sum_add_distrib]
    exact Finset.sum_congr rfl fun j _ => by ring
  rw [e]
  exact (abs_add_le _ _).trans (add_le_add (dot_le hd hx hX) (dot_le h0 hE hE0))

theorem weight_pert {κ : Type} {T : Tableau ℚ κ s} {T0 : Tableau ℚ Unit s} {R δ : ℚ} (hR : 1 ≤ R) (hδ : 0 ≤ δ)
    (h0 : ∀ i, ∑ j, |T0.A () i j| ≤ R) (h1 : ∀ c i, ∑ j, |T.A c i j| ≤ R)
    (hd : ∀ c i, ∑ j, |T.A c i j - T0.A () i j| ≤ δ) (t : Tree κ) : ∀ m : ℕ, t.size = m + 1 → ∀ i,
    |T.weight t i| ≤ R ^ m ∧ |T0.weight (forget t) i| ≤ R ^ m
      ∧ |T.weight t i - T0.weight (forget t) i| ≤ m * R ^ m * δ := by
  have R0 : 0 ≤ R := by linarith
  induction t with
  | leaf c =>
    intro m hm i
    obtain rfl : m = 0 := by simpa [Tree.size] using hm.symm
    simp [Tableau.weight, forget]
  | graft t u iht ihu =>
    intro m hm i
    obtain ⟨m1, e1⟩ : ∃ m1, t.size = m1 + 1 := ⟨t.size - 1, by have := t.size_pos; omega⟩
    obtain ⟨m2, e2⟩ : ∃ m2, u.size = m2 + 1 := ⟨u.size - 1, by have := u.size_pos; omega⟩
    obtain rfl : m = m1 + (m2 + 1) := by simp only [Tree.size] at hm; omega
    obtain ⟨a1, a2, a3⟩ := iht m1 e1 i
    have b := ihu m2 e2
    have s1 : |∑ j, T.A u.color i j * T.weight u j| ≤ R ^ (m2 + 1) :=
      (dot_le (h1 _ i) (fun j => (b j).1) (by positivity)).trans_eq (by ring)
    have s2 : |∑ j, T0.A () i j * T0.weight (forget u) j| ≤ R ^ (m2 + 1) :=
      (dot_le (h0 i) (fun j => (b j).2.1) (by positivity)).trans_eq (by ring)
    have s3 : |∑ j, T.A u.color i j * T.weight u j - ∑ j, T0.A () i j * T0.weight (forget u) j|
        ≤ (m2 + 1) * R ^ (m2 + 1) * δ := by
      refine (dot_diff (h0 i) (hd u.color i) (fun j => (b j).1) (fun j => (b j).2.2) (by positivity)
        (by positivity)).trans ?_
      have : δ * R ^ m2 ≤ R ^ (m2 + 1) * δ := by
        rw [mul_comm]
        exact mul_le_mul_of_nonneg_right (pow_le_pow_right₀ hR (by omega)) hδ
      calc δ * R ^ m2 + R * (m2 * R ^ m2 * δ) ≤ R ^ (m2 + 1) * δ + R * (m2 * R ^ m2 * δ) := by linarith
        _ = _ := by ring
    refine ⟨?_, ?_, ?_⟩
    · rw [Tableau.weight, abs_mul, pow_add]
      exact mul_le_mul a1 s1 (abs_nonneg _) (by positivity)
    · rw [forget, Tableau.weight, abs_mul, pow_add]
      exact mul_le_mul a2 s2 (abs_nonneg _) (by positivity)
    · rw [forget, Tableau.weight, Tableau.weight]
      set S := ∑ j, T.A u.color i j * T.weight u j
      set S0 := ∑ j, T0.A (forget u).color i j * T0.weight (forget u) j
      have e : T.weight t i * S - T0.weight (forget t) i * S0
          = T.weight t i * (S - S0) + (T.weight t i - T0.weight (forget t) i) * S0 := by ring
      rw [e]
      refine (abs_add_le _ _).trans ?_
      rw [abs_mul, abs_mul]
      have p1 := mul_le_mul a1 s3 (abs_nonneg _) (by positivity)
      have p2 := mul_le_mul a3 s2 (abs_nonneg _) (by positivity)
      refine (add_le_add p1 p2).trans_eq ?_
      push_cast
      ring

theorem defect_pert {κ : Type} {T : Tableau ℚ κ s} {T0 : Tableau ℚ Unit s} {R δ B : ℚ} (hR : 1 ≤ R) (hδ : 0 ≤ δ)
    (h0 : ∀ i, ∑ j, |T0.A () i j| ≤ R) (h1 : ∀ c i, ∑ j, |T.A c i j| ≤ R)
    (hd : ∀ c i, ∑ j, |T.A c i j - T0.A () i j| ≤ δ) (hb : ∑ j, |T0.b () j| ≤ B)
    (hbd : ∀ c, ∑ j, |T.b c j - T0.b () j| ≤ δ) (t : Tree κ) {N : ℕ} (ht : t.size ≤ N + 1) :
    |T.defect t - T0.defect (forget t)| ≤ δ * R ^ N + B * (N * R ^ N * δ) := by
  have R0 : 0 ≤ R := by linarith
  obtain ⟨m, e⟩ : ∃ m, t.size = m + 1 := ⟨t.size - 1, by have := t.size_pos; omega⟩
  have w := weight_pert hR hδ h0 h1 hd t m e
  have hm : (m : ℚ) ≤ N := by exact_mod_cast (by omega : m ≤ N)
  have hp : R ^ m ≤ R ^ N := pow_le_pow_right₀ hR (by omega)
  have g : T.defect t - T0.defect (forget t)
      = ∑ i, T.b t.color i * T.weight t i - ∑ i, T0.b () i * T0.weight (forget t) i := by
    rw [Tableau.defect, Tableau.defect, Tree.density, Tree.density, forget_size, forget_below]
    ring
  rw [g]
  refine dot_diff hb (hbd t.color) (fun j => (w j).1.trans hp) (fun j => (w j).2.2.trans ?_) (by positivity) (by positivity)
  gcongr

end

/-- The method of the file with the time as a part, `true`. -/
def dop8t : Tableau ℚ Bool 12 where
  A c i j := dop8.A () i j + if c = true ∧ j = 0 ∧ i ≠ 0 then qc (i.1 + 1) - ∑ k, dop8.A () i k else 0
  b c j := dop8.b () j + if c = true ∧ j = 0 then 1 - ∑ k, dop8.b () k else 0

set_option maxRecDepth 100000 in
theorem dop8t_checks : (∀ i, ∑ j, |dop8.A () i j| ≤ 97) ∧ (∀ c i, ∑ j, |dop8t.A c i j| ≤ 97)
    ∧ (∀ c i, ∑ j, |dop8t.A c i j - dop8.A () i j| ≤ 6e-29) ∧ ∑ j, |dop8.b () j| ≤ 13
    ∧ (∀ c, ∑ j, |dop8t.b c j - dop8.b () j| ≤ 6e-29) ∧ (∀ i, ∑ j, dop8t.A true i j = qc (i.1 + 1))
    ∧ ∑ j, dop8t.b true j = 1 ∧ (∀ i j, i ≤ j → ∀ c, dop8t.A c i j = 0) := by
  decide +kernel

theorem dop8t_defect (t : Tree Bool) (ht : t.size ≤ 8) : |dop8t.cast.defect t| ≤ 1e-12 := by
  obtain ⟨c1, c2, c3, c4, c5, -⟩ := dop8t_checks
  have p := defect_pert (by norm_num) (by norm_num) c1 c2 c3 c4 c5 t (N := 7) ht
  have q : |((dop8t.defect t : ℚ) : ℝ) - ((dop8.defect (forget t) : ℚ) : ℝ)| ≤ 5e-13 := by
    have : |dop8t.defect t - dop8.defect (forget t)| ≤ 5e-13 := p.trans (by norm_num)
    have c : ((|dop8t.defect t - dop8.defect (forget t)| : ℚ) : ℝ) ≤ ((5e-13 : ℚ) : ℝ) := by exact_mod_cast this
    rw [Rat.cast_abs, Rat.cast_sub] at c
    exact c.trans_eq (by norm_num)
  have r := dop8_defect (forget t) (by rwa [forget_size])
  rw [dop8.cast_defect] at r
  rw [dop8t.cast_defect]
  rw [abs_le] at *
  constructor <;> norm_num at * <;> linarith [q.1, q.2, r.1, r.2]

variable {n : ℕ}

/-- The two parts of an equation with explicit time, the clock and the motion. -/
def parts (f : V n → ℝ → V n) : Bool → ℝ × V n → ℝ × V n
  | true => fun _ => (1, 0)
  | false => fun x => (0, f x.2 x.1)

theorem rk_isStep_time {f : V n → ℝ → V n} {x x' : V n} {t h : ℝ} {K : ℕ → V n} (rk : RK fileTab f x t h x' K) :
    dop8t.cast.IsStep (parts f) h (t, x) (t + h, x') := by
  obtain ⟨-, -, -, -, -, c6, c7, -⟩ := dop8t_checks
  have hK : ∀ i, 1 ≤ i → i ≤ 12 →
      f (x + h • ∑ j ∈ Finset.Ico 1 i, A fileTab i j • K j) (t + (qc i : ℝ) * h) = K i := by
    intro i a b
    by_cases e : i = 1
    · subst e; rw [rk.first]; simp [qc]
    · rw [← node_eq]
      exact (rk.stage i (by omega) b).symm
  have r6 : ∀ i, ∑ j, dop8t.cast.A true i j = (qc (i.1 + 1) : ℝ) := fun i => by
    rw [← c6 i, Rat.cast_sum]; rfl
  have r7 : ∑ j, dop8t.cast.b true j = 1 := by
    have : ((∑ j, dop8t.b true j : ℚ) : ℝ) = 1 := by rw [c7, Rat.cast_one]
    rw [← this, Rat.cast_sum]; rfl
  refine ⟨fun i => (t + (qc (i.1 + 1) : ℝ) * h, x + h • ∑ j ∈ Finset.Ico 1 (i.1 + 1), A fileTab (i.1 + 1) j • K j),
    fun i => ?_, ?_⟩
  · simp only [Fintype.sum_bool, parts]
    refine Prod.ext ?_ ?_
    · simp [Prod.fst_sum]
      rw [r6 i, mul_comm]
    · simp only [Prod.snd_add, Prod.smul_snd, Prod.snd_sum, smul_zero, Finset.sum_const_zero, zero_add]
      congr 2
      rw [← fin_sum i.1 i.2.le]
      refine Finset.sum_congr rfl fun j _ => ?_
      rw [hK (j.1 + 1) (by omega) (by omega)]
      simp only [Tableau.cast, dop8t, dop8, Fin.lt_def, Bool.false_eq_true, false_and, if_false, add_zero]
      split_ifs with hj
      · rw [A_eq (by omega) (by omega)]
      · rw [Rat.cast_zero, zero_smul]
  · simp only [Fintype.sum_bool, parts]
    refine Prod.ext ?_ ?_
    · simp [Prod.fst_sum]
      rw [r7, mul_one]
    · simp only [Prod.snd_add, Prod.smul_snd, Prod.snd_sum, smul_zero, Finset.sum_const_zero, zero_add]
      rw [rk.new]
      congr 2
      have e : ∀ j : Fin 12, dop8t.cast.b false j • f (x + h • ∑ k ∈ Finset.Ico 1 (j.1 + 1), A fileTab (j.1 + 1) k • K k)
            (t + (qc (j.1 + 1) : ℝ) * h)
          = if j.1 < 12 then (fun j => (qb j : ℝ) • K j) (j.1 + 1) else 0 := fun j => by
        rw [hK (j.1 + 1) (by omega) (by omega), if_pos j.2]
        simp only [Tableau.cast, dop8t, dop8, Bool.false_eq_true, false_and, if_false, add_zero]
      rw [Finset.sum_congr rfl fun j _ => e j, fin_sum 12 le_rfl (fun j => (qb j : ℝ) • K j)]
      refine Finset.sum_subset (by decide) fun j hj hn => ?_
      rw [Finset.mem_Ico] at hj
      rw [show fileTab.b j = (qb j : ℝ) from rfl, qb_gap j (by omega) hn, Rat.cast_zero, zero_smul]

end C100aux
open C100aux

/-- The step is of eighth order for every analytic equation, also with explicit time, up to the rounding of the
coefficients and nodes: the error of one step of length `h` from a solution is at most `C (1e-12 |h| + |h|⁹)`. -/
theorem C100_order_time {n : ℕ} {f : V n → ℝ → V n} {t : ℝ} {y : ℝ → V n}
    (hf : AnalyticAt ℝ (fun x : ℝ × V n => f x.2 x.1) (t, y t))
    (hy : ∀ᶠ s in 𝓝 t, HasDerivAt y (f (y s) s) s) {z : ℝ → V n} {K : ℝ → ℕ → V n}
    (hz : ∀ h, RK fileTab f (y t) t h (z h) (K h)) :
    ∃ C, ∀ᶠ h in 𝓝 (0 : ℝ), ‖z h - y (t + h)‖ ≤ C * (1e-12 * |h| + |h| ^ 9) := by
  have hp : ∀ c, AnalyticAt ℝ (parts f c) (t, y t) := fun c => by
    cases c
    · exact analyticAt_const.prod hf
    · exact analyticAt_const
  choose p hp using hp
  have htend : Tendsto (fun h : ℝ => t + h) (𝓝 0) (𝓝 t) := by
    have : Tendsto (fun h : ℝ => t + h) (𝓝 0) (𝓝 (t + 0)) := (continuous_const.add continuous_id).tendsto 0
    rwa [add_zero] at this
  have key := local_error (κ := Bool) (f := parts f) (p := p) (y := (t, y t)) (T := dop8t.cast) hp
    (fun c i j hij => by
      have := dop8t_checks.2.2.2.2.2.2.2 i j hij c
      simp only [Tableau.cast]
      rw [this, Rat.cast_zero]) (y' := fun h => (t + h, z h)) (fun h => rk_isStep_time (hz h))
    (u := fun h => (t + h, y (t + h)))
    (by simp) (by
      filter_upwards [htend.eventually hy] with h hh
      have h1 : HasDerivAt (fun h => t + h) 1 h := (hasDerivAt_id h).const_add t
      have h2 : HasDerivAt (fun h => y (t + h)) (f (y (t + h)) (t + h)) h := by
        have := hh.scomp h h1
        rwa [one_smul] at this
      refine (h1.prodMk h2).congr_deriv ?_
      simp [parts]) 8
  obtain ⟨C, hC⟩ := key.bound
  set M := ∑ t ∈ treesLE Bool 8, ‖elemDiff p t []‖ with hM
  have hM0 : 0 ≤ M := Finset.sum_nonneg fun _ _ => norm_nonneg _
  refine ⟨max C M, ?_⟩
  filter_upwards [hC, Metric.ball_mem_nhds (0 : ℝ) one_pos] with h hC hh
  rw [Metric.mem_ball, dist_zero_right, Real.norm_eq_abs] at hh
  have hsum : ‖∑ t ∈ treesLE Bool 8, (h ^ t.size * dop8t.cast.defect t) • elemDiff p t []‖
      ≤ 1e-12 * |h| * M := by
    rw [hM, Finset.mul_sum]
    refine (norm_sum_le _ _).trans (Finset.sum_le_sum fun t ht => ?_)
    rw [norm_smul, norm_mul, norm_pow, Real.norm_eq_abs, Real.norm_eq_abs]
    have h1 := dop8t_defect t (mem_treesLE.1 ht)
    have h2 : |h| ^ t.size ≤ |h| := by
      have := pow_le_pow_of_le_one (abs_nonneg h) hh.le t.size_pos
      simpa using this
    calc |h| ^ t.size * |dop8t.cast.defect t| * ‖elemDiff p t []‖
        ≤ |h| * 1e-12 * ‖elemDiff p t []‖ := by gcongr
      _ = _ := by ring
  have h1 := norm_le_norm_add_norm_sub' (((t + h, z h) : ℝ × V n) - (t + h, y (t + h)))
    (∑ t ∈ treesLE Bool 8, (h ^ t.size * dop8t.cast.defect t) • elemDiff p t [])
  refine (norm_snd_le (((t + h, z h) : ℝ × V n) - (t + h, y (t + h)))).trans
    (h1.trans ((add_le_add hsum hC).trans ?_))
  rw [norm_pow, Real.norm_eq_abs, mul_add]
  have : (0 : ℝ) ≤ 1e-12 * |h| := by positivity
  have h4 : 0 ≤ |h| ^ 9 := by positivity
  have := mul_le_mul_of_nonneg_left (le_max_right C M) this
  have := mul_le_mul_of_nonneg_right (le_max_left C M) h4
  norm_num at *
  linarith

/-- An equation with explicit time, with its solution and the slopes of the steps. -/
example : ∃ (f : V 1 → ℝ → V 1) (y : ℝ → V 1) (z : ℝ → V 1) (K : ℝ → ℕ → V 1),
    AnalyticAt ℝ (fun x : ℝ × V 1 => f x.2 x.1) (0, y 0) ∧ (∀ s, HasDerivAt y (f (y s) s) s)
      ∧ (∀ h, RK fileTab f (y 0) 0 h (z h) (K h)) ∧ f 0 0 ≠ f 0 1 := by
  have h : ∀ h, ∃ x' K, RK fileTab (fun (_ : V 1) s (_ : Fin 1) => s) (fun _ => (0 : ℝ) ^ 2 / 2) 0 h x' K := fun h => by
    obtain ⟨k2, k3, k4, k5, k6, k7, k8, k9, k10, k11, k12, kb, q, _⟩ := stages_seq
      (⟨fileTab, fun (_ : V 1) s (_ : Fin 1) => s, 1, 0, 1, 1, 0, 1, 1, 1⟩ : Par 1) (fun _ => (0 : ℝ) ^ 2 / 2) 0 h (fun _ => 0)
    exact ⟨_, _, C100aux.seq_rk q rfl 0 0 0 0⟩
  choose z K hz using h
  refine ⟨fun _ s _ => s, fun s _ => s ^ 2 / 2, z, K, ?_, fun s => ?_, hz, fun h => by simpa using congrFun h 0⟩
  · exact analyticAt_pi_iff.2 fun _ => analyticAt_fst
  · refine hasDerivAt_pi.2 fun _ => ?_
    exact ((hasDerivAt_pow 2 s).div_const 2).congr_deriv (by simp)

end Verif
