import Verif.Model.RungeKutta
import Verif.Lemmas.Symplectic
import Verif.Spec.Tableaux
import Verif.Lemmas.Trees
import Mathlib.Logic.Relation
import Mathlib.Tactic.Module

set_option autoImplicit false

/-! # Lemmas on the Runge-Kutta integrators -/

namespace Verif.RK
open Verif.Symp (trunc)

variable {V : Type*} [AddCommGroup V] [Module ℝ V]

/-! ### Steps -/

theorem isStep_withTime {s : ℕ} (T : Tableau ℝ Unit s) (f : ℝ → V → V) (t h : ℝ) (y : V) (a : Fin s → V)
    (ha : ∀ i, a i = f (t + (∑ j, T.A () i j) * h) (y + h • ∑ j, T.A () i j • a j)) (hb : ∑ j, T.b () j = 1) :
    T.IsStep (withTime f) h (t, y) (t + h, y + h • ∑ i, T.b () i • a i) := by
  refine ⟨fun i => (t + (∑ j, T.A () i j) * h, y + h • ∑ j, T.A () i j • a j), fun i => ?_, ?_⟩
  · simp only [withTime, ← ha, Finset.univ_unique, Finset.sum_singleton, Prod.smul_mk, smul_eq_mul, mul_one]
    ext1
    · simp [Prod.fst_sum, mul_comm]
    · simp [Prod.snd_sum]
  · simp only [withTime, ← ha, Finset.univ_unique, Finset.sum_singleton, Prod.smul_mk, smul_eq_mul, mul_one]
    ext1
    · simp [Prod.fst_sum]
      rw [show (∑ i, T.b PUnit.unit i) = 1 from hb, mul_one]
    · simp [Prod.snd_sum]

theorem rk4_isStep (f : ℝ → V → V) (t h : ℝ) (y : V) :
    rk4Tableau.cast.IsStep (withTime f) h (t, y) (t + h, rk4Onestep f t h y y) := by
  unfold rk4Onestep
  obtain ⟨a1, h1⟩ : ∃ a, a = f t y := ⟨_, rfl⟩
  rw [← h1]
  obtain ⟨a2, h2⟩ : ∃ a, a = f (t + h / 2) (y + (h / 2) • a1) := ⟨_, rfl⟩
  simp only [← h2]
  obtain ⟨a3, h3⟩ : ∃ a, a = f (t + h / 2) (y + (h / 2) • a2) := ⟨_, rfl⟩
  simp only [← h3]
  obtain ⟨a4, h4⟩ : ∃ a, a = f (t + h) (y + h • a3) := ⟨_, rfl⟩
  simp only [← h4]
  have key := isStep_withTime rk4Tableau.cast f t h y ![a1, a2, a3, a4] (by
    intro i
    obtain rfl | rfl | rfl | rfl : i = 0 ∨ i = 1 ∨ i = 2 ∨ i = 3 := by fin_cases i <;> simp
    · simp [Tableau.cast, rk4Tableau, Fin.sum_univ_succ, h1]
    · simp [Tableau.cast, rk4Tableau, Fin.sum_univ_succ]
      convert h2 using 2 <;> first | module | ring
    · simp [Tableau.cast, rk4Tableau, Fin.sum_univ_succ]
      convert h3 using 2 <;> first | module | ring
    · simp [Tableau.cast, rk4Tableau, Fin.sum_univ_succ]
      convert h4 using 2 <;> first | module | ring) (by
    simp [Tableau.cast, rk4Tableau, Fin.sum_univ_succ]; norm_num)
  convert key using 2
  simp [Tableau.cast, rk4Tableau, Fin.sum_univ_succ]
  module

theorem rk6_isStep (f : ℝ → V → V) (t h : ℝ) (y : V) :
    rk6Tableau.cast.IsStep (withTime f) h (t, y) (t + h, rk6Onestep f t h y y) := by
  unfold rk6Onestep
  obtain ⟨a1, h1⟩ : ∃ a, a = f t y := ⟨_, rfl⟩
  simp only [← h1]
  obtain ⟨a2, h2⟩ : ∃ a, a = f (t + h / 3) (y + (1 / 3 : ℝ) • h • a1) := ⟨_, rfl⟩
  simp only [← h2]
  obtain ⟨a3, h3⟩ : ∃ a, a = f (t + 2 * h / 3) (y + (2 / 3 : ℝ) • h • a2) := ⟨_, rfl⟩
  simp only [← h3]
  generalize h4 : f (t + h / 3) _ = a4
  generalize h5 : f (t + h / 2) _ = a5
  generalize h6 : f (t + h / 2) _ = a6
  generalize h7 : f (t + h) _ = a7
  have key := isStep_withTime rk6Tableau.cast f t h y ![a1, a2, a3, a4, a5, a6, a7] (by
    intro i
    obtain rfl | rfl | rfl | rfl | rfl | rfl | rfl :
      i = 0 ∨ i = 1 ∨ i = 2 ∨ i = 3 ∨ i = 4 ∨ i = 5 ∨ i = 6 := by fin_cases i <;> simp
    · simp [Tableau.cast, rk6Tableau, Fin.sum_univ_succ, h1]
    · simp [Tableau.cast, rk6Tableau, Fin.sum_univ_succ]
      convert h2 using 2 <;> first | module | ring
    · simp [Tableau.cast, rk6Tableau, Fin.sum_univ_succ]
      convert h3 using 2 <;> first | module | ring
    · simp [Tableau.cast, rk6Tableau, Fin.sum_univ_succ]
      convert h4.symm using 2 <;> first | module | ring
    · simp [Tableau.cast, rk6Tableau, Fin.sum_univ_succ]
      convert h5.symm using 2 <;> first | module | ring
    · simp [Tableau.cast, rk6Tableau, Fin.sum_univ_succ]
      convert h6.symm using 2 <;> first | module | ring
    · simp [Tableau.cast, rk6Tableau, Fin.sum_univ_succ]
      convert h7.symm using 2 <;> first | module | ring) (by
    simp [Tableau.cast, rk6Tableau, Fin.sum_univ_succ]; norm_num)
  convert key using 2
  simp [Tableau.cast, rk6Tableau, Fin.sum_univ_succ]
  module

theorem dop_isStep (f : ℝ → V → V) (t h : ℝ) (y : V) :
    dop5Tableau.cast.IsStep (withTime f) h (t, y) (t + h, (dopStages f t h y (f t y)).1) ∧
    dop4Tableau.cast.IsStep (withTime f) h (t, y)
      (t + h, (dopStages f t h y (f t y)).1 - (dopStages f t h y (f t y)).2.1) ∧
    (dopStages f t h y (f t y)).2.2 = f (t + h) (dopStages f t h y (f t y)).1 := by
  unfold dopStages
  obtain ⟨a1, h1⟩ : ∃ a, a = f t y := ⟨_, rfl⟩
  simp only [← h1]
  generalize h2 : f (t + 0.2 * h) _ = a2
  generalize h3 : f (t + 0.3 * h) _ = a3
  generalize h4 : f (t + 0.8 * h) _ = a4
  generalize h5 : f (t + 8 / 9 * h) _ = a5
  generalize h6 : f (t + h) (_ + (-5103 / 18656 : ℝ) • _) = a6
  generalize h7 : f (t + h) (y + _ + _ + _ + _ + (11 / 84 : ℝ) • _) = a7
  have hA : ∀ i, ![a1, a2, a3, a4, a5, a6, a7] i = f (t + (∑ j, ((dopMatrix i j : ℚ) : ℝ)) * h)
      (y + h • ∑ j, ((dopMatrix i j : ℚ) : ℝ) • ![a1, a2, a3, a4, a5, a6, a7] j) := by
    intro i
    obtain rfl | rfl | rfl | rfl | rfl | rfl | rfl :
      i = 0 ∨ i = 1 ∨ i = 2 ∨ i = 3 ∨ i = 4 ∨ i = 5 ∨ i = 6 := by fin_cases i <;> simp
    · simp [dopMatrix, Fin.sum_univ_succ, h1]
    · simp [dopMatrix, Fin.sum_univ_succ]
      convert h2.symm using 2 <;> first | module | ring_nf
    · simp [dopMatrix, Fin.sum_univ_succ]
      convert h3.symm using 2 <;> first | module | ring_nf
    · simp [dopMatrix, Fin.sum_univ_succ]
      convert h4.symm using 2 <;> first | module | ring_nf
    · simp [dopMatrix, Fin.sum_univ_succ]
      convert h5.symm using 2 <;> first | module | ring_nf
    · simp [dopMatrix, Fin.sum_univ_succ]
      convert h6.symm using 2 <;> first | module | ring_nf
    · simp [dopMatrix, Fin.sum_univ_succ]
      convert h7.symm using 2 <;> first | module | ring_nf
  refine ⟨?_, ?_, ?_⟩
  · have key := isStep_withTime dop5Tableau.cast f t h y ![a1, a2, a3, a4, a5, a6, a7] hA (by
      simp [Tableau.cast, dop5Tableau, Fin.sum_univ_succ]; norm_num)
    convert key using 2
    simp [Tableau.cast, dop5Tableau, Fin.sum_univ_succ]
    module
  · have key := isStep_withTime dop4Tableau.cast f t h y ![a1, a2, a3, a4, a5, a6, a7] hA (by
      simp [Tableau.cast, dop4Tableau, Fin.sum_univ_succ]; norm_num)
    convert key using 2
    simp [Tableau.cast, dop4Tableau, Fin.sum_univ_succ]
    module
  · trivial

/-! ### Step size estimate -/

theorem rkEstLoop_spec (errOf : ℝ → ℝ) (ex : ℝ) {h : ℝ} (hh : h ≠ 0) : ∀ (fuel m : ℕ), 0 < m → m < 10000 →
    10000 ≤ m * 2 ^ fuel → ∃ k : ℕ, 0 < k ∧ k < 10000 ∧ m ∣ k ∧ rkEstLoop errOf ex h fuel (h / m) = h / k ∧
      (errOf (h / k) ^ ex ≤ 1 ∨ 10000 ≤ k * ⌈errOf (h / k) ^ ex⌉) := by
  intro fuel
  induction fuel with
  | zero => intro m h1 h2 h3; omega
  | succ fuel ih =>
    intro m h1 h2 h3
    have hm : (m : ℝ) ≠ 0 := by positivity
    rw [rkEstLoop]
    by_cases hc : 1 < ((⌈errOf (h / m) ^ ex⌉ : ℤ) : ℝ) ∧ h / (h / m) * (⌈errOf (h / m) ^ ex⌉ : ℤ) < 10000
    · rw [if_pos hc]
      obtain ⟨c1, c2⟩ := hc
      have hc0 : 1 < ⌈errOf (h / m) ^ ex⌉ := by exact_mod_cast c1
      obtain ⟨c, hcc⟩ := Int.eq_ofNat_of_zero_le (by omega : 0 ≤ ⌈errOf (h / m) ^ ex⌉)
      rw [hcc] at c1 c2 hc0 ⊢
      have hc2 : 2 ≤ c := by exact_mod_cast hc0
      have e : h / (h / m) = m := by field_simp
      rw [e] at c2
      have hmc : m * c < 10000 := by exact_mod_cast c2
      have e2 : h / m / ((c : ℤ) : ℝ) = h / ((m * c : ℕ) : ℝ) := by push_cast; rw [div_div]
      rw [e2]
      obtain ⟨k, k1, k2, k3, k4, k5⟩ := ih (m * c) (by positivity) hmc (by
        rw [pow_succ] at h3
        calc 10000 ≤ m * (2 ^ fuel * 2) := h3
          _ = m * 2 * 2 ^ fuel := by ring
          _ ≤ m * c * 2 ^ fuel := by gcongr)
      exact ⟨k, k1, k2, (Dvd.intro _ rfl).trans k3, k4, k5⟩
    · rw [if_neg hc]
      refine ⟨m, h1, h2, dvd_rfl, rfl, ?_⟩
      rw [not_and_or, not_lt, not_lt] at hc
      rcases hc with hc | hc
      · left
        have : ⌈errOf (h / m) ^ ex⌉ ≤ 1 := by exact_mod_cast hc
        have := Int.ceil_le.1 this
        exact_mod_cast this
      · right
        have e : h / (h / m) = m := by field_simp
        rw [e] at hc
        exact_mod_cast hc

theorem rkEstLoop_run (errOf : ℝ → ℝ) (ex : ℝ) {h : ℝ} (hh : h ≠ 0) : ∃ k : ℕ, 0 < k ∧ k < 10000 ∧
    rkEstLoop errOf ex h 14 h = h / k ∧ (errOf (h / k) ^ ex ≤ 1 ∨ 10000 ≤ k * ⌈errOf (h / k) ^ ex⌉) := by
  obtain ⟨k, h1, h2, -, h3, h4⟩ := rkEstLoop_spec errOf ex hh 14 1 one_pos (by norm_num) (by norm_num)
  rw [Nat.cast_one, div_one] at h3
  exact ⟨k, h1, h2, h3, h4⟩

/-! ### Runs -/

theorem rkInterval_eq (onestep : ℝ → ℝ → V → V → V) (dt : ℝ) (ndt : ℤ) (b : RKBuf V) :
    rkInterval onestep dt ndt b = (rkSub onestep dt)^[(ndt - 1).toNat + 1] b := by
  rw [Function.iterate_succ_apply']
  rfl

/-- One step as a map of time and state. -/
def stepMap (onestep : ℝ → ℝ → V → V → V) (dt : ℝ) (x : ℝ × V) : ℝ × V := (x.1 + dt, onestep x.1 dt x.2 x.2)

theorem rkSub_iterate (onestep : ℝ → ℝ → V → V → V) (dt : ℝ) (n : ℕ) (x : ℝ × V) :
    (rkSub onestep dt)^[n] ⟨x.2, x.2, x.1⟩ =
      ⟨((stepMap onestep dt)^[n] x).2, ((stepMap onestep dt)^[n] x).2, ((stepMap onestep dt)^[n] x).1⟩ := by
  induction n generalizing x with
  | zero => rfl
  | succ n ih =>
    rw [Function.iterate_succ_apply, Function.iterate_succ_apply, ← ih]
    rfl

theorem rkOutputs_eq (onestep : ℝ → ℝ → V → V → V) (dt : ℝ) (ndt : ℤ) (n ii : ℕ) (x : ℝ × V) :
    x :: (rkOutputs (rkInterval onestep dt ndt) (fun _ => false) n ii ⟨x.2, x.2, x.1⟩).1 =
      (List.range (n + 1)).map fun i => ((stepMap onestep dt)^[(ndt - 1).toNat + 1])^[i] x := by
  induction n generalizing ii x with
  | zero => rfl
  | succ n ih =>
    rw [List.range_succ_eq_map (n := n + 1), List.map_cons, List.map_map]
    simp only [rkOutputs, Bool.false_eq_true, if_false]
    rw [rkInterval_eq, rkSub_iterate]
    have := ih (ii + 1) ((stepMap onestep dt)^[(ndt - 1).toNat + 1] x)
    simp only [Function.iterate_zero, id_eq]
    congr 1

theorem rkOutputs_interrupted (step : RKBuf V → RKBuf V) (intr : ℕ → Bool) (n ii : ℕ) (b : RKBuf V) :
    (rkOutputs step intr n ii b).1 <+: (rkOutputs step (fun _ => false) n ii b).1 ∧
    ((rkOutputs step intr n ii b).2 = 0 ↔ ∀ j < n, intr (ii + j) = false) ∧
    ((rkOutputs step intr n ii b).2 = 0 → rkOutputs step intr n ii b = rkOutputs step (fun _ => false) n ii b) ∧
    ((rkOutputs step intr n ii b).2 = 0 ∨ (rkOutputs step intr n ii b).2 = -10) := by
  induction n generalizing ii b with
  | zero => simp [rkOutputs]
  | succ n ih =>
    obtain ⟨h1, h2, h3, h4⟩ := ih (ii + 1) (step b)
    by_cases hi : intr ii = true
    · simp only [rkOutputs, hi, if_true, Bool.false_eq_true, if_false]
      refine ⟨List.nil_prefix, ?_, by norm_num, by norm_num⟩
      constructor
      · intro h; norm_num at h
      · intro h
        have := h 0 (by omega)
        simp [hi] at this
    · simp only [rkOutputs, hi, Bool.false_eq_true, if_false]
      refine ⟨List.cons_prefix_cons.2 ⟨rfl, h1⟩, ?_, ?_, h4⟩
      · rw [h2]
        constructor
        · intro h j hj
          cases j with
          | zero => simpa using hi
          | succ j =>
            have := h j (by omega)
            rwa [show ii + (j + 1) = ii + 1 + j by omega]
        · intro h j hj
          have := h (j + 1) (by omega)
          rwa [show ii + 1 + j = ii + (j + 1) by omega]
      · intro h
        rw [h3 h]

/-! ### Dormand-Prince -/

theorem dopPow2_mem (e : ℝ) : -3 ≤ dopPow2 e ∧ dopPow2 e ≤ 3 := by
  unfold dopPow2
  split_ifs
  · norm_num
  · simp only
    split_ifs <;> omega

/-- Which error norms lead to acceptance. -/
theorem dopPow2_nonneg {e : ℝ} (he : 0 ≤ e) : 0 ≤ dopPow2 e ↔ e < (0.85 * Real.sqrt 2) ^ 5 := by
  have hs : 0 < Real.sqrt 2 := by positivity
  rcases he.eq_or_lt with rfl | hpos
  · simp only [dopPow2, if_true]
    constructor
    · intro _; positivity
    · intro _; norm_num
  have hl2 : 0 < Real.log 2 := Real.log_pos (by norm_num)
  set x := Real.log (0.85 * e ^ (-0.2 : ℝ)) / Real.log 2 with hx
  have h1 : 0 ≤ dopPow2 e ↔ 0 ≤ cround x := by
    rw [dopPow2, if_neg hpos.ne', ← hx]
    simp only
    split_ifs <;> omega
  have h2 : 0 ≤ cround x ↔ -(1 / 2) < x := by
    unfold cround
    split_ifs with h
    · constructor
      · intro _; linarith
      · intro _; exact Int.floor_nonneg.2 (by linarith)
    · rw [← Int.sub_one_lt_iff, Int.lt_ceil]
      push_cast
      constructor <;> intro _ <;> linarith
  rw [h1, h2, hx, lt_div_iff₀ hl2, Real.lt_log_iff_exp_lt (by positivity)]
  have h3 : Real.exp (-(1 / 2) * Real.log 2) = (Real.sqrt 2)⁻¹ := by
    rw [show -(1 / 2) * Real.log 2 = -(1 / 2 * Real.log 2) by ring, Real.exp_neg, Real.sqrt_eq_rpow,
      Real.rpow_def_of_pos (by norm_num : (0 : ℝ) < 2), mul_comm]
  rw [h3, show (-0.2 : ℝ) = -(1 / 5) by norm_num, Real.rpow_neg hpos.le, ← div_eq_mul_inv, lt_div_iff₀ (by positivity),
    inv_mul_lt_iff₀ hs]
  have h4 : e = (e ^ (1 / 5 : ℝ)) ^ (5 : ℕ) := by
    rw [← Real.rpow_natCast, ← Real.rpow_mul hpos.le]
    norm_num
  conv_rhs => rw [h4]
  rw [pow_lt_pow_iff_left₀ (by positivity) (by positivity) (by norm_num), mul_comm]

/-- What one round of the loop does, in either direction `σ`: `d` is the step tried. -/
theorem dopBody_spec (f : ℝ → V → V) (norm : V → V → ℝ) {σ dt D t₀ : ℝ} (hσ : σ = 1 ∨ σ = -1) (hdt : 0 < σ * dt)
    (hD : 0 < σ * D) {s : DopState V} (hs : 0 < σ * s.dt_one) (hr : 0 < σ * (t₀ + dt - s.tc)) :
    ∃ d, ((σ * s.dt_one < σ * D / 10000 ∧ d = min (σ * D / 10000) (σ * (t₀ + dt - s.tc))) ∨
        (σ * D / 10000 ≤ σ * s.dt_one ∧ d = min (σ * s.dt_one) (σ * (t₀ + dt - s.tc)))) ∧ 0 < d ∧
      ((0 ≤ dopPow2 (norm s.yo (dopStages f s.tc (σ * d) s.yo s.a1).2.1) ∨ σ * s.dt_one < σ * D / 10000) →
        dopBody f norm dt D t₀ s = ⟨(dopStages f s.tc (σ * d) s.yo s.a1).1, (dopStages f s.tc (σ * d) s.yo s.a1).2.2,
          s.tc + σ * d, σ * d * 2 ^ dopPow2 (norm s.yo (dopStages f s.tc (σ * d) s.yo s.a1).2.1),
          if σ * s.dt_one < σ * D / 10000 then (if s.err % 2 = 0 then s.err + 1 else s.err) else s.err⟩) ∧
      (¬ (0 ≤ dopPow2 (norm s.yo (dopStages f s.tc (σ * d) s.yo s.a1).2.1) ∨ σ * s.dt_one < σ * D / 10000) →
        dopBody f norm dt D t₀ s = { s with
          dt_one := σ * d * 2 ^ dopPow2 (norm s.yo (dopStages f s.tc (σ * d) s.yo s.a1).2.1) }) := by
  have hacc : 10000 < D / s.dt_one ↔ σ * s.dt_one < σ * D / 10000 := by
    have : D / s.dt_one = (σ * D) / (σ * s.dt_one) := by
      rcases hσ with rfl | rfl <;> simp
    rw [this, lt_div_iff₀ hs, lt_div_iff₀ (by norm_num), mul_comm]
  -- the step after the reset
  set x : ℝ := if σ * s.dt_one < σ * D / 10000 then D / 10000 else s.dt_one with hx
  have hxpos : 0 < σ * x := by
    rw [hx]
    split_ifs
    · rw [← mul_div_assoc]; positivity
    · exact hs
  -- the step after clipping
  refine ⟨min (σ * x) (σ * (t₀ + dt - s.tc)), ?_, lt_min hxpos hr, ?_⟩
  · rw [hx]
    by_cases h : σ * s.dt_one < σ * D / 10000
    · left; rw [if_pos h, ← mul_div_assoc]; exact ⟨h, rfl⟩
    · right; rw [if_neg h]; exact ⟨not_lt.1 h, rfl⟩
  set d := min (σ * x) (σ * (t₀ + dt - s.tc)) with hd
  set e1 : ℤ := if σ * s.dt_one < σ * D / 10000 then (if s.err % 2 = 0 then s.err + 1 else s.err) else s.err with he1
  have hbody : dopBody f norm dt D t₀ s = dopActual f norm (decide (σ * s.dt_one < σ * D / 10000))
      { s with dt_one := σ * d, err := e1 } := by
    have hs1 : (if (decide (10000 < D / s.dt_one)) = true then ({ s with dt_one := D / 10000, err := if s.err % 2 = 0 then s.err + 1 else s.err } : DopState V) else s)
        = { s with dt_one := x, err := e1 } := by
      rw [hx, he1]
      simp only [hacc, decide_eq_true_eq]
      split_ifs <;> rfl
    simp only [dopBody]
    rw [hs1]
    simp only [hacc]
    congr 1
    rcases hσ with rfl | rfl
    · have hdt' : 0 < dt := by linarith
      simp only [one_mul] at hd ⊢
      simp only [not_lt.2 hdt'.le, false_and, if_false, hdt'.le, true_and]
      by_cases h : t₀ + dt - s.tc < x
      · rw [if_pos h, hd, min_eq_right h.le]
      · rw [if_neg h, hd, min_eq_left (not_lt.1 h)]
    · have hdt' : dt < 0 := by linarith
      simp only [not_le.2 hdt', false_and, if_false, hdt', true_and]
      by_cases h : x < t₀ + dt - s.tc
      · rw [if_pos h, hd, min_eq_right (by linarith)]
        simp
      · rw [if_neg h, hd, min_eq_left (by linarith [not_lt.1 h])]
        simp
  rw [hbody]
  simp only [dopActual, decide_eq_true_eq]
  constructor
  · intro h
    rw [if_pos h]
  · intro h
    rw [if_neg h]
    have : ¬ σ * s.dt_one < σ * D / 10000 := fun h' => h (Or.inr h')
    simp only [he1, if_neg this]

/-- A step of the Dormand-Prince method of order five in direction `σ`. -/
def DopFree (f : ℝ → V → V) (σ : ℝ) (x x' : ℝ × V) : Prop :=
  ∃ d, 0 < σ * d ∧ dop5Tableau.cast.IsStep (withTime f) d x x'

/-- The same with a bound on the norm of the difference from the embedded method. -/
def DopOk (f : ℝ → V → V) (norm : V → V → ℝ) (σ : ℝ) (x x' : ℝ × V) : Prop :=
  ∃ d, 0 < σ * d ∧ dop5Tableau.cast.IsStep (withTime f) d x x' ∧
    ∃ z, dop4Tableau.cast.IsStep (withTime f) d x (x'.1, z) ∧ norm x.2 (x'.2 - z) < (0.85 * Real.sqrt 2) ^ 5

open Relation in
theorem dop_loop (f : ℝ → V → V) (norm : V → V → ℝ) (hnorm : ∀ y e, 0 ≤ norm y e) {σ dt D t₀ : ℝ}
    (hσ : σ = 1 ∨ σ = -1) (hdt : 0 < σ * dt) (hD : 0 < σ * D) (a b : ℕ) (s : DopState V)
    (hs : 0 < σ * s.dt_one) (hr : 0 ≤ σ * (t₀ + dt - s.tc)) (ha1 : s.a1 = f s.tc s.yo)
    (ha : ⌊σ * (t₀ + dt - s.tc) / (σ * D / 10000)⌋₊ = a) (hb : ⌊σ * s.dt_one / (σ * D / 10000)⌋₊ = b) :
    ∃ n, ¬ dopCond dt t₀ ((dopBody f norm dt D t₀)^[n] s) ∧
      (∀ k < n, dopCond dt t₀ ((dopBody f norm dt D t₀)^[k] s)) ∧
      ((dopBody f norm dt D t₀)^[n] s).tc = t₀ + dt ∧
      ((dopBody f norm dt D t₀)^[n] s).a1 = f (t₀ + dt) ((dopBody f norm dt D t₀)^[n] s).yo ∧
      0 < σ * ((dopBody f norm dt D t₀)^[n] s).dt_one ∧
      ReflTransGen (DopFree f σ) (s.tc, s.yo) (t₀ + dt, ((dopBody f norm dt D t₀)^[n] s).yo) ∧
      (((dopBody f norm dt D t₀)^[n] s).err = s.err ∨
        s.err % 2 = 0 ∧ ((dopBody f norm dt D t₀)^[n] s).err = s.err + 1) ∧
      (s.err % 2 = 0 → ((dopBody f norm dt D t₀)^[n] s).err = s.err →
        ReflTransGen (DopOk f norm σ) (s.tc, s.yo) (t₀ + dt, ((dopBody f norm dt D t₀)^[n] s).yo)) := by
  have hcond : ∀ s : DopState V, dopCond dt t₀ s ↔ 0 < σ * (t₀ + dt - s.tc) := by
    intro s
    unfold dopCond
    rcases hσ with rfl | rfl
    · have : 0 < dt := by linarith
      constructor
      · rintro (h | h) <;> linarith [h.1, h.2]
      · intro h; left; constructor <;> linarith
    · have : dt < 0 := by linarith
      constructor
      · rintro (h | h) <;> linarith [h.1, h.2]
      · intro h; right; constructor <;> linarith
  have hσσ : σ * σ = 1 := by rcases hσ with rfl | rfl <;> norm_num
  have hη : 0 < σ * D / 10000 := by positivity
  induction a using Nat.strong_induction_on generalizing b s with
  | _ a iha =>
  induction b using Nat.strong_induction_on generalizing s with
  | _ b ihb =>
  rcases hr.eq_or_lt with hr0 | hrpos
  · have hσ0 : σ ≠ 0 := by rcases hσ with rfl | rfl <;> norm_num
    have htc : s.tc = t₀ + dt := by
      have := (mul_eq_zero.1 hr0.symm).resolve_left hσ0
      linarith
    refine ⟨0, ?_, by simp, htc, ?_, hs, ?_, Or.inl rfl, ?_⟩
    · rw [hcond, Function.iterate_zero, id_eq, ← hr0]; exact lt_irrefl 0
    · rw [Function.iterate_zero, id_eq, ha1, htc]
    · rw [Function.iterate_zero, id_eq, htc]
    · intro _ _
      rw [Function.iterate_zero, id_eq, htc]
  obtain ⟨d, hd, hdpos, hacc, hrej⟩ := dopBody_spec f norm hσ hdt hD hs hrpos
  have hstep := dop_isStep f s.tc (σ * d) s.yo
  rw [← ha1] at hstep
  set r := dopStages f s.tc (σ * d) s.yo s.a1 with hr'
  have hσd : σ * (σ * d) = d := by rw [← mul_assoc, hσσ, one_mul]
  have hdle : d ≤ σ * (t₀ + dt - s.tc) := by
    rcases hd with h | h <;> rw [h.2] <;> exact min_le_right _ _
  by_cases hA : 0 ≤ dopPow2 (norm s.yo r.2.1) ∨ σ * s.dt_one < σ * D / 10000
  · -- accepted
    have hs' := hacc hA
    set s' := dopBody f norm dt D t₀ s with hs'def
    have hrem : σ * (t₀ + dt - s'.tc) = σ * (t₀ + dt - s.tc) - d := by
      rw [hs']; simp only; linear_combination -hσd
    have h1 : 0 < σ * s'.dt_one := by
      rw [hs']; simp only; rw [← mul_assoc, hσd]; positivity
    have h2 : 0 ≤ σ * (t₀ + dt - s'.tc) := by rw [hrem]; linarith
    have h3 : s'.a1 = f s'.tc s'.yo := by rw [hs']; exact hstep.2.2
    have hfree : DopFree f σ (s.tc, s.yo) (s'.tc, s'.yo) :=
      ⟨σ * d, by rw [hσd]; exact hdpos, by rw [hs']; exact hstep.1⟩
    have hok : ¬ σ * s.dt_one < σ * D / 10000 → DopOk f norm σ (s.tc, s.yo) (s'.tc, s'.yo) := by
      intro hn
      refine ⟨σ * d, by rw [hσd]; exact hdpos, by rw [hs']; exact hstep.1, r.1 - r.2.1, by rw [hs']; exact hstep.2.1, ?_⟩
      have : s'.yo - (r.1 - r.2.1) = r.2.1 := by rw [hs']; exact sub_sub_cancel _ _
      rw [this]
      exact (dopPow2_nonneg (hnorm _ _)).1 (hA.resolve_right hn)
    have herr : s'.err = s.err ∨ s.err % 2 = 0 ∧ s'.err = s.err + 1 := by
      rw [hs']; simp only; split_ifs <;> simp_all
    have herr' : s.err % 2 = 0 → s'.err = s.err → ¬ σ * s.dt_one < σ * D / 10000 := by
      intro he h hc
      rw [hs'] at h; simp only [if_pos hc, if_pos he] at h
      omega
    -- the rest of the loop
    have hrest : ∃ n, ¬ dopCond dt t₀ ((dopBody f norm dt D t₀)^[n] s') ∧
      (∀ k < n, dopCond dt t₀ ((dopBody f norm dt D t₀)^[k] s')) ∧
      ((dopBody f norm dt D t₀)^[n] s').tc = t₀ + dt ∧
      ((dopBody f norm dt D t₀)^[n] s').a1 = f (t₀ + dt) ((dopBody f norm dt D t₀)^[n] s').yo ∧
      0 < σ * ((dopBody f norm dt D t₀)^[n] s').dt_one ∧
      ReflTransGen (DopFree f σ) (s'.tc, s'.yo) (t₀ + dt, ((dopBody f norm dt D t₀)^[n] s').yo) ∧
      (((dopBody f norm dt D t₀)^[n] s').err = s'.err ∨
        s'.err % 2 = 0 ∧ ((dopBody f norm dt D t₀)^[n] s').err = s'.err + 1) ∧
      (s'.err % 2 = 0 → ((dopBody f norm dt D t₀)^[n] s').err = s'.err →
        ReflTransGen (DopOk f norm σ) (s'.tc, s'.yo) (t₀ + dt, ((dopBody f norm dt D t₀)^[n] s').yo)) := by
      by_cases hend : d = σ * (t₀ + dt - s.tc)
      · have hr0 : σ * (t₀ + dt - s'.tc) = 0 := by rw [hrem, hend, sub_self]
        have hσ0 : σ ≠ 0 := by rcases hσ with rfl | rfl <;> norm_num
        have htc : s'.tc = t₀ + dt := by
          have := (mul_eq_zero.1 hr0).resolve_left hσ0
          linarith
        refine ⟨0, ?_, by simp, htc, ?_, h1, ?_, Or.inl rfl, ?_⟩
        · rw [hcond, Function.iterate_zero, id_eq, hr0]; exact lt_irrefl 0
        · rw [Function.iterate_zero, id_eq, h3, htc]
        · rw [Function.iterate_zero, id_eq, htc]
        · intro _ _
          rw [Function.iterate_zero, id_eq, htc]
      · have hge : σ * D / 10000 ≤ d := by
          rcases hd with ⟨_, h⟩ | ⟨h0, h⟩
          · rcases min_choice (σ * D / 10000) (σ * (t₀ + dt - s.tc)) with h' | h'
            · rw [h, h']
            · exact absurd (h.trans h') hend
          · rcases min_choice (σ * s.dt_one) (σ * (t₀ + dt - s.tc)) with h' | h'
            · rw [h, h']; exact h0
            · exact absurd (h.trans h') hend
        refine iha _ ?_ _ s' h1 h2 h3 rfl rfl
        rw [← ha, hrem]
        have h4 : (σ * (t₀ + dt - s.tc) - d) / (σ * D / 10000) ≤ σ * (t₀ + dt - s.tc) / (σ * D / 10000) - 1 := by
          rw [sub_div]
          have : 1 ≤ d / (σ * D / 10000) := (one_le_div₀ hη).2 hge
          linarith
        have h5 : 1 ≤ σ * (t₀ + dt - s.tc) / (σ * D / 10000) := (one_le_div₀ hη).2 (hge.trans hdle)
        have h6 : 1 ≤ ⌊σ * (t₀ + dt - s.tc) / (σ * D / 10000)⌋₊ := Nat.le_floor (by exact_mod_cast h5)
        have h7 := Nat.floor_le_floor h4
        have h8 : ⌊σ * (t₀ + dt - s.tc) / (σ * D / 10000) - 1⌋₊ = ⌊σ * (t₀ + dt - s.tc) / (σ * D / 10000)⌋₊ - 1 := by
          have := Nat.floor_sub_natCast (σ * (t₀ + dt - s.tc) / (σ * D / 10000)) 1
          exact_mod_cast this
        omega
    obtain ⟨n, n1, n2, n3, n4, n5, n6, n7, n8⟩ := hrest
    refine ⟨n + 1, ?_, ?_, ?_, ?_, ?_, ?_, ?_, ?_⟩
    · rw [Function.iterate_succ_apply]; exact n1
    · intro k hk
      cases k with
      | zero => rw [hcond]; exact hrpos
      | succ k => rw [Function.iterate_succ_apply]; exact n2 k (by omega)
    · rw [Function.iterate_succ_apply]; exact n3
    · rw [Function.iterate_succ_apply]; exact n4
    · rw [Function.iterate_succ_apply]; exact n5
    · rw [Function.iterate_succ_apply]; exact ReflTransGen.head hfree n6
    · rw [Function.iterate_succ_apply, ← hs'def]
      omega
    · rw [Function.iterate_succ_apply, ← hs'def]
      intro he h
      have e1 : s'.err = s.err := by omega
      exact ReflTransGen.head (hok (herr' he e1)) (n8 (by omega) (by omega))
  · -- rejected
    have hs' := hrej hA
    have hp : dopPow2 (norm s.yo r.2.1) ≤ -1 := by
      have : ¬ 0 ≤ dopPow2 (norm s.yo r.2.1) := fun h => hA (Or.inl h)
      omega
    have hge : σ * D / 10000 ≤ σ * s.dt_one := not_lt.1 fun h => hA (Or.inr h)
    have hdle2 : d ≤ σ * s.dt_one := by
      rcases hd with h | h
      · exact absurd h.1 (not_lt.2 hge)
      · rw [h.2]; exact min_le_left _ _
    set s' := dopBody f norm dt D t₀ s with hs'def
    have hdt1 : σ * s'.dt_one = d * 2 ^ dopPow2 (norm s.yo r.2.1) := by
      rw [hs']; simp only; rw [← mul_assoc, hσd]
    have htc : s'.tc = s.tc := by rw [hs']
    have hyo : s'.yo = s.yo := by rw [hs']
    have ha1' : s'.a1 = s.a1 := by rw [hs']
    have he' : s'.err = s.err := by rw [hs']
    have hhalf : σ * s'.dt_one ≤ σ * s.dt_one / 2 := by
      rw [hdt1]
      have : (2 : ℝ) ^ dopPow2 (norm s.yo r.2.1) ≤ 2 ^ (-1 : ℤ) := zpow_le_zpow_right₀ (by norm_num) hp
      calc d * 2 ^ dopPow2 (norm s.yo r.2.1) ≤ (σ * s.dt_one) * 2 ^ (-1 : ℤ) := by gcongr
        _ = _ := by rw [zpow_neg_one]; ring
    obtain ⟨n, n1, n2, n3, n4, n5, n6, n7, n8⟩ := ihb ⌊σ * s'.dt_one / (σ * D / 10000)⌋₊ (by
      rw [← hb]
      have h1 : 1 ≤ σ * s.dt_one / (σ * D / 10000) := (one_le_div₀ hη).2 hge
      have h2 : σ * s'.dt_one / (σ * D / 10000) ≤ σ * s.dt_one / (σ * D / 10000) / 2 := by
        rw [div_right_comm]; gcongr
      have h3 : 1 ≤ ⌊σ * s.dt_one / (σ * D / 10000)⌋₊ := Nat.le_floor (by exact_mod_cast h1)
      have h4 := Nat.lt_floor_add_one (σ * s.dt_one / (σ * D / 10000))
      have h5 : (1 : ℝ) ≤ (⌊σ * s.dt_one / (σ * D / 10000)⌋₊ : ℝ) := by exact_mod_cast h3
      rw [Nat.floor_lt (by rw [hdt1]; positivity)]
      linarith) s' (by rw [hdt1]; positivity) (by rw [htc]; exact hr) (by rw [ha1', htc, hyo]; exact ha1)
      (by rw [htc]; exact ha) rfl
    rw [htc, hyo] at n6 n8
    rw [he'] at n7 n8
    refine ⟨n + 1, ?_, ?_, ?_, ?_, ?_, ?_, ?_, ?_⟩
    · rw [Function.iterate_succ_apply]; exact n1
    · intro k hk
      cases k with
      | zero => rw [hcond]; exact hrpos
      | succ k => rw [Function.iterate_succ_apply]; exact n2 k (by omega)
    · rw [Function.iterate_succ_apply]; exact n3
    · rw [Function.iterate_succ_apply]; exact n4
    · rw [Function.iterate_succ_apply]; exact n5
    · rw [Function.iterate_succ_apply]; exact n6
    · rw [Function.iterate_succ_apply]; exact n7
    · rw [Function.iterate_succ_apply]; exact n8

open Relation in
/-- `bovy_dopr54_onestep` ends, in one way only. -/
theorem dop_onestep (f : ℝ → V → V) (norm : V → V → ℝ) (hnorm : ∀ y e, 0 ≤ norm y e) {σ dt : ℝ}
    (hσ : σ = 1 ∨ σ = -1) (hdt : 0 < σ * dt) (s : DopState V)
    (hs : 0 < σ * s.dt_one) (ha1 : s.a1 = f s.tc s.yo) :
    ∃ s', (∀ s'', DopOnestep f norm dt s s'' ↔ s'' = s') ∧ s'.tc = s.tc + dt ∧ s'.a1 = f s'.tc s'.yo ∧
      0 < σ * s'.dt_one ∧ ReflTransGen (DopFree f σ) (s.tc, s.yo) (s'.tc, s'.yo) ∧
      (s'.err = s.err ∨ s.err % 2 = 0 ∧ s'.err = s.err + 1) ∧
      (s.err % 2 = 0 → s'.err = s.err → ReflTransGen (DopOk f norm σ) (s.tc, s.yo) (s'.tc, s'.yo)) := by
  obtain ⟨n, n1, n2, n3, n4, n5, n6, n7, n8⟩ := dop_loop f norm hnorm hσ hdt hs _ _ s hs
    (by rw [add_sub_cancel_left]; exact hdt.le) ha1 rfl rfl
  refine ⟨(dopBody f norm dt s.dt_one s.tc)^[n] s, ?_, n3, ?_, n5, ?_, n7, ?_⟩
  · intro s''
    constructor
    · rintro ⟨m, rfl, m1, m2⟩
      rcases lt_trichotomy m n with h | h | h
      · exact absurd (n2 m h) m1
      · rw [h]
      · exact absurd (m2 n h) n1
    · rintro rfl
      exact ⟨n, rfl, n1, n2⟩
  · rw [n3]; exact n4
  · rw [n3]; exact n6
  · rw [n3]; exact n8

open Relation in
/-- The loop over outputs without interruption. -/
theorem dop_outputs (f : ℝ → V → V) (norm : V → V → ℝ) (hnorm : ∀ y e, 0 ≤ norm y e) {σ dt : ℝ}
    (hσ : σ = 1 ∨ σ = -1) (hdt : 0 < σ * dt) (n ii : ℕ) (s : DopState V)
    (hs : 0 < σ * s.dt_one) (ha1 : s.a1 = f s.tc s.yo) :
    ∃ rows e, (∀ rows' e', DopOutputs f norm dt (fun _ => false) n ii s rows' e' ↔ rows' = rows ∧ e' = e) ∧
      (((s.tc, s.yo) :: rows).map Prod.fst = (List.range (n + 1)).map fun i : ℕ => s.tc + i * dt) ∧
      List.IsChain (ReflTransGen (DopFree f σ)) ((s.tc, s.yo) :: rows) ∧
      (e = s.err ∨ s.err % 2 = 0 ∧ e = s.err + 1) ∧
      (s.err % 2 = 0 → e = s.err → List.IsChain (ReflTransGen (DopOk f norm σ)) ((s.tc, s.yo) :: rows)) := by
  induction n generalizing ii s with
  | zero =>
    refine ⟨[], s.err, fun rows' e' => ?_, by simp, List.isChain_singleton _, Or.inl rfl, fun _ _ => List.isChain_singleton _⟩
    constructor
    · intro h; cases h; exact ⟨rfl, rfl⟩
    · rintro ⟨rfl, rfl⟩; exact .done ii s
  | succ n ih =>
    obtain ⟨s', h1, h2, h3, h4, h5, h6, h7⟩ := dop_onestep f norm hnorm hσ hdt s hs ha1
    obtain ⟨rows, e, k1, k2, k3, k4, k5⟩ := ih (ii + 1) s' h4 h3
    refine ⟨(s'.tc, s'.yo) :: rows, e, fun rows' e' => ?_, ?_, List.isChain_cons_cons.2 ⟨h5, k3⟩, by omega, ?_⟩
    · constructor
      · intro h
        cases h with
        | interrupted _ _ _ h => cases h
        | step _ _ _ s'' rows'' e'' h g1 g2 =>
          obtain rfl := (h1 _).1 g1
          obtain ⟨rfl, rfl⟩ := (k1 _ _).1 g2
          exact ⟨rfl, rfl⟩
      · rintro ⟨rfl, rfl⟩
        exact .step n ii s s' rows e' rfl ((h1 _).2 rfl) ((k1 _ _).2 ⟨rfl, rfl⟩)
    · rw [List.map_cons, k2, List.range_succ_eq_map (n := n + 1), List.map_cons, List.map_map]
      refine congrArg₂ _ (by simp) (List.map_congr_left fun i _ => ?_)
      simp only [h2, Function.comp_apply, Nat.succ_eq_add_one, Nat.cast_add, Nat.cast_one]
      ring
    · intro he h
      exact List.isChain_cons_cons.2 ⟨h7 he (by omega), k5 (by omega) (by omega)⟩

/-- An interruption cuts the rows short. -/
theorem dop_interrupted (f : ℝ → V → V) (norm : V → V → ℝ) {dt : ℝ} (intr : ℕ → Bool) {n ii : ℕ}
    {s : DopState V} {rows₀ : List (ℝ × V)} {e₀ : ℤ} (h₀ : DopOutputs f norm dt (fun _ => false) n ii s rows₀ e₀) :
    ∃ rows e, DopOutputs f norm dt intr n ii s rows e ∧ rows <+: rows₀ ∧
      ((∀ j < n, intr (ii + j) = false) → rows = rows₀ ∧ e = e₀) ∧
      (∀ j < n, intr (ii + j) = true → rows.length ≤ j ∧ e = -10) := by
  induction h₀ with
  | done ii s =>
    exact ⟨[], s.err, .done ii s, List.prefix_rfl, fun _ => ⟨rfl, rfl⟩, fun j hj => by omega⟩
  | interrupted n ii s h => cases h
  | step n ii s s' rows₁ e₁ h h1 h2 ih =>
    by_cases hi : intr ii = true
    · refine ⟨[], -10, .interrupted n ii s hi, List.nil_prefix, ?_, fun j hj _ => ⟨Nat.zero_le _, rfl⟩⟩
      intro hall
      have := hall 0 (by omega)
      simp [hi] at this
    · obtain ⟨rows, e, g1, g2, g3, g4⟩ := ih
      refine ⟨(s'.tc, s'.yo) :: rows, e, .step n ii s s' rows e (by simpa using hi) h1 g1,
        List.cons_prefix_cons.2 ⟨rfl, g2⟩, ?_, ?_⟩
      · intro hall
        obtain ⟨rfl, rfl⟩ := g3 fun j hj => by
          have := hall (j + 1) (by omega)
          rwa [show ii + 1 + j = ii + (j + 1) by omega]
        exact ⟨rfl, rfl⟩
      · intro j hj hij
        cases j with
        | zero => exact absurd hij hi
        | succ j =>
          obtain ⟨h1, h2⟩ := g4 j (by omega) (by rwa [show ii + 1 + j = ii + (j + 1) by omega])
          exact ⟨by simpa using h1, h2⟩

end Verif.RK
