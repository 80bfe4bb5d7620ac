import Verif.Model.Wrappers
import Verif.Util.Deriv
import Mathlib.Analysis.Calculus.ContDiff.Deriv
import Mathlib.Analysis.Calculus.Deriv.MeanValue

set_option autoImplicit false

/-!
# C15: smooth growth
-/

open Filter Topology Set

namespace Verif
open Wrap

theorem C15_before (tform tsteady : ℝ) {t : ℝ} (h : t < tform) :
    dehnenSmooth tform tsteady true t = 0 ∧ dehnenSmooth tform tsteady false t = 1 := by
  simp [dehnenSmooth, h]

theorem C15_after {tform tsteady : ℝ} (hts : tform < tsteady) {t : ℝ} (h : tsteady ≤ t) :
    dehnenSmooth tform tsteady true t = 1 ∧ dehnenSmooth tform tsteady false t = 0 := by
  have h1 : ¬ t < tform := by linarith
  simp [dehnenSmooth, h1, not_lt.2 h]

/-- Decay is one minus growth. -/
theorem C15_decay (tform tsteady t : ℝ) :
    dehnenSmooth tform tsteady false t = 1 - dehnenSmooth tform tsteady true t := by
  simp [dehnenSmooth]

theorem C15aux.xi {tform tsteady t : ℝ} (h1 : tform ≤ t) (h2 : t < tsteady) :
    -1 ≤ 2 * (t - tform) / (tsteady - tform) - 1 ∧ 2 * (t - tform) / (tsteady - tform) - 1 ≤ 1 := by
  have hd : 0 < tsteady - tform := by linarith
  constructor
  · have : 0 ≤ 2 * (t - tform) / (tsteady - tform) := by
      apply div_nonneg _ hd.le
      linarith
    linarith
  · have : 2 * (t - tform) / (tsteady - tform) ≤ 2 := by
      rw [div_le_iff₀ hd]
      linarith
    linarith

/-- The polynomial and its derivatives. -/
noncomputable def C15aux.p (x : ℝ) : ℝ := 3 / 16 * x ^ 5 - 5 / 8 * x ^ 3 + 15 / 16 * x + 1 / 2

theorem C15aux.p_hd (x : ℝ) : HasDerivAt C15aux.p (15 / 16 * (1 - x ^ 2) ^ 2) x := by
  have := hd_add (hd_add (hd_sub (hd_const_mul (3 / 16) (hd_pow 5 (hd_id x)))
    (hd_const_mul (5 / 8) (hd_pow 3 (hd_id x)))) (hd_const_mul (15 / 16) (hd_id x)))
    (hd_const (1 / 2) x)
  refine this.congr_deriv ?_
  norm_num
  ring

theorem C15aux.p_mono : Monotone C15aux.p :=
  monotone_of_deriv_nonneg (fun x => (C15aux.p_hd x).differentiableAt) fun x => by
    rw [(C15aux.p_hd x).deriv]
    positivity

/-- The factor as the polynomial of a coordinate clamped to `[-1, 1]`. -/
theorem C15aux.clamp {tform tsteady : ℝ} (hts : tform < tsteady) (t : ℝ) :
    dehnenSmooth tform tsteady true t =
      C15aux.p (max (-1) (min 1 (2 * (t - tform) / (tsteady - tform) - 1))) := by
  have hd : 0 < tsteady - tform := by linarith
  unfold dehnenSmooth
  simp only [if_true]
  split_ifs with h1 h2
  · have : 2 * (t - tform) / (tsteady - tform) - 1 ≤ -1 := by
      have : 2 * (t - tform) / (tsteady - tform) ≤ 0 := div_nonpos_of_nonpos_of_nonneg (by linarith) hd.le
      linarith
    rw [min_eq_right (by linarith), max_eq_left this]
    norm_num [C15aux.p]
  · obtain ⟨a, b⟩ := C15aux.xi (not_lt.1 h1) h2
    rw [min_eq_right b, max_eq_right a]
    rfl
  · have : 1 ≤ 2 * (t - tform) / (tsteady - tform) - 1 := by
      have : 2 ≤ 2 * (t - tform) / (tsteady - tform) := by
        rw [le_div_iff₀ hd]
        linarith
      linarith
    rw [min_eq_left this, max_eq_right (by norm_num)]
    norm_num [C15aux.p]

/-- The factor stays between 0 and 1. -/
theorem C15_range {tform tsteady : ℝ} (hts : tform < tsteady) (grow : Bool) (t : ℝ) :
    0 ≤ dehnenSmooth tform tsteady grow t ∧ dehnenSmooth tform tsteady grow t ≤ 1 := by
  have key : 0 ≤ dehnenSmooth tform tsteady true t ∧ dehnenSmooth tform tsteady true t ≤ 1 := by
    rw [C15aux.clamp hts]
    have e0 : C15aux.p (-1) = 0 := by norm_num [C15aux.p]
    have e1 : C15aux.p 1 = 1 := by norm_num [C15aux.p]
    constructor
    · rw [← e0]
      exact C15aux.p_mono (le_max_left _ _)
    · refine le_trans ?_ e1.le
      exact C15aux.p_mono (max_le (neg_le_self zero_le_one) (min_le_left _ _))
  cases grow
  · rw [C15_decay]
    constructor <;> linarith
  · exact key

/-- Growth never decreases the factor. -/
theorem C15_monotone {tform tsteady : ℝ} (hts : tform < tsteady) :
    Monotone (dehnenSmooth tform tsteady true) ∧ Antitone (dehnenSmooth tform tsteady false) := by
  have hd : 0 < tsteady - tform := by linarith
  have h1 : Monotone (dehnenSmooth tform tsteady true) := by
    intro s t hst
    rw [C15aux.clamp hts, C15aux.clamp hts]
    apply C15aux.p_mono
    apply max_le_max le_rfl
    apply min_le_min le_rfl
    have : 2 * (s - tform) / (tsteady - tform) ≤ 2 * (t - tform) / (tsteady - tform) := by
      apply div_le_div_of_nonneg_right _ hd.le
      linarith
    linarith
  refine ⟨h1, fun s t hst => ?_⟩
  rw [C15_decay, C15_decay]
  linarith [h1 hst]

/-- Strictly increasing while the perturbation grows. -/
theorem C15_strict {tform tsteady : ℝ} (hts : tform < tsteady) :
    StrictMonoOn (dehnenSmooth tform tsteady true) (Icc tform tsteady) := by
  have hd : 0 < tsteady - tform := by linarith
  have hp : StrictMonoOn C15aux.p (Icc (-1) 1) := by
    apply strictMonoOn_of_deriv_pos (convex_Icc _ _)
    · exact fun x _ => (C15aux.p_hd x).continuousAt.continuousWithinAt
    · intro x hx
      rw [interior_Icc] at hx
      rw [(C15aux.p_hd x).deriv]
      have : 0 < 1 - x ^ 2 := by nlinarith [hx.1, hx.2]
      positivity
  have hc : ∀ t ∈ Icc tform tsteady, 2 * (t - tform) / (tsteady - tform) - 1 ∈ Icc (-1 : ℝ) 1 := by
    intro t ht
    constructor
    · have : 0 ≤ 2 * (t - tform) / (tsteady - tform) := div_nonneg (by linarith [ht.1]) hd.le
      linarith
    · have : 2 * (t - tform) / (tsteady - tform) ≤ 2 := by
        rw [div_le_iff₀ hd]
        linarith [ht.2]
      linarith
  intro s hs t ht hst
  rw [C15aux.clamp hts, C15aux.clamp hts]
  have a := hc s hs
  have b := hc t ht
  rw [min_eq_right a.2, max_eq_right a.1, min_eq_right b.2, max_eq_right b.1]
  apply hp a b
  have : 2 * (s - tform) / (tsteady - tform) < 2 * (t - tform) / (tsteady - tform) := by
    apply div_lt_div_of_pos_right _ hd
    linarith
  linarith

/-- Two functions that meet with the same slope form one differentiable function. -/
theorem C15aux.glue {f g h : ℝ → ℝ} {g' h' : ℝ → ℝ} {a : ℝ} (hg : ∀ x, HasDerivAt g (g' x) x)
    (hh : ∀ x, HasDerivAt h (h' x) x) (e0 : g a = h a) (e1 : g' a = h' a)
    (hl : ∀ x < a, f x = g x) (hr : ∀ x, a ≤ x → f x = h x) (x : ℝ) :
    HasDerivAt f (if x < a then g' x else h' x) x := by
  rcases lt_trichotomy x a with hx | rfl | hx
  · rw [if_pos hx]
    exact (hg x).congr_of_eventuallyEq (by filter_upwards [Iio_mem_nhds hx] with y hy using hl y hy)
  · rw [if_neg (lt_irrefl x)]
    rw [← hasDerivWithinAt_univ, ← Iic_union_Ici (a := x)]
    apply HasDerivWithinAt.union
    · refine ((hg x).hasDerivWithinAt.congr (fun y hy => ?_) ?_).congr_deriv e1
      · rcases (mem_Iic.1 hy).lt_or_eq with k | k
        · exact hl y k
        · rw [k, hr x le_rfl, e0]
      · rw [hr x le_rfl, e0]
    · exact (hh x).hasDerivWithinAt.congr (fun y hy => hr y hy) (hr x le_rfl)
  · rw [if_neg (not_lt.2 hx.le)]
    exact (hh x).congr_of_eventuallyEq (by filter_upwards [Ioi_mem_nhds hx] with y hy using hr y hy.le)

/-- A function of the clamped coordinate: `0` up to `-1`, `g` between, `c` from `1` on. -/
noncomputable def C15aux.pc (g : ℝ → ℝ) (c : ℝ) (x : ℝ) : ℝ :=
  if x < -1 then 0 else if x < 1 then g x else c

theorem C15aux.pc_hd {g g' : ℝ → ℝ} {c : ℝ} (hg : ∀ x, HasDerivAt g (g' x) x) (h0 : g (-1) = 0)
    (h1 : g 1 = c) (k0 : g' (-1) = 0) (k1 : g' 1 = 0) (x : ℝ) :
    HasDerivAt (C15aux.pc g c) (C15aux.pc g' 0 x) x := by
  have r := C15aux.glue (f := fun x => if x < 1 then g x else c) (g := g) (h := fun _ => c) (a := 1)
    (g' := g') (h' := fun _ => 0) hg (fun x => hasDerivAt_const x c) h1 k1
    (fun x hx => by simp [hx]) (fun x hx => by simp [not_lt.2 hx])
  have := C15aux.glue (f := C15aux.pc g c) (g := fun _ => 0) (h := fun x => if x < 1 then g x else c)
    (a := -1) (g' := fun _ => 0) (h' := fun x => if x < 1 then g' x else 0)
    (fun x => hasDerivAt_const x 0) r (by simp [h0]) (by simp [k0])
    (fun x hx => by simp [C15aux.pc, hx]) (fun x hx => by simp [C15aux.pc, not_lt.2 hx]) x
  exact this

theorem C15aux.pc_cont {g : ℝ → ℝ} (hg : Continuous g) (h0 : g (-1) = 0) (h1 : g 1 = 0) :
    Continuous (C15aux.pc g 0) := by
  have e : C15aux.pc g 0 = fun x => g (max (-1) (min 1 x)) := by
    funext x
    unfold C15aux.pc
    split_ifs with a b
    · rw [min_eq_right (by linarith), max_eq_left a.le, h0]
    · rw [min_eq_right b.le, max_eq_right (not_lt.1 a)]
    · rw [min_eq_left (not_lt.1 b), max_eq_right (by norm_num), h1]
  rw [e]
  fun_prop

theorem C15aux.pc_smooth : ContDiff ℝ 2 (C15aux.pc C15aux.p 1) := by
  have d1 : ∀ x, HasDerivAt (C15aux.pc C15aux.p 1) (C15aux.pc (fun x => 15 / 16 * (1 - x ^ 2) ^ 2) 0 x) x :=
    C15aux.pc_hd C15aux.p_hd (by norm_num [C15aux.p]) (by norm_num [C15aux.p]) (by norm_num) (by norm_num)
  have d2 : ∀ x, HasDerivAt (C15aux.pc (fun x => 15 / 16 * (1 - x ^ 2) ^ 2) 0)
      (C15aux.pc (fun x => -(15 / 4) * x * (1 - x ^ 2)) 0 x) x := by
    refine C15aux.pc_hd (fun x => ?_) (by norm_num) (by norm_num) (by norm_num) (by norm_num)
    refine (hd_const_mul (15 / 16) (hd_pow 2 (hd_sub (hd_const 1 x) (hd_pow 2 (hd_id x))))).congr_deriv ?_
    norm_num
    ring
  have c2 : Continuous (C15aux.pc (fun x => -(15 / 4) * x * (1 - x ^ 2)) 0) :=
    C15aux.pc_cont (by fun_prop) (by norm_num) (by norm_num)
  rw [show (2 : WithTop ℕ∞) = 1 + 1 by norm_num, contDiff_succ_iff_deriv]
  refine ⟨fun x => (d1 x).differentiableAt, by simp, ?_⟩
  rw [show deriv (C15aux.pc C15aux.p 1) = _ from funext fun x => (d1 x).deriv, contDiff_one_iff_deriv]
  refine ⟨fun x => (d2 x).differentiableAt, ?_⟩
  rw [show deriv (fun x => C15aux.pc (fun x => 15 / 16 * (1 - x ^ 2) ^ 2) 0 x) = _ from
    funext fun x => (d2 x).deriv]
  exact c2

/-- The factor is twice continuously differentiable in time, also where the growth starts and ends. -/
theorem C15_smooth {tform tsteady : ℝ} (hts : tform < tsteady) (grow : Bool) :
    ContDiff ℝ 2 (dehnenSmooth tform tsteady grow) := by
  have hd : 0 < tsteady - tform := by linarith
  have key : ContDiff ℝ 2 (dehnenSmooth tform tsteady true) := by
    have e : dehnenSmooth tform tsteady true =
        fun t => C15aux.pc C15aux.p 1 (2 * (t - tform) / (tsteady - tform) - 1) := by
      funext t
      have a : t < tform ↔ 2 * (t - tform) / (tsteady - tform) - 1 < -1 := by
        rw [sub_lt_iff_lt_add, div_lt_iff₀ hd]
        constructor <;> intro h <;> linarith
      have b : t < tsteady ↔ 2 * (t - tform) / (tsteady - tform) - 1 < 1 := by
        rw [sub_lt_iff_lt_add, div_lt_iff₀ hd]
        constructor <;> intro h <;> linarith
      simp only [dehnenSmooth, C15aux.pc, C15aux.p, if_true, a, b]
    rw [e]
    exact C15aux.pc_smooth.comp (by fun_prop)
  cases grow
  · have : dehnenSmooth tform tsteady false = fun t => 1 - dehnenSmooth tform tsteady true t :=
      funext fun t => C15_decay _ _ _
    rw [this]
    exact contDiff_const.sub key
  · exact key

/-- With array input every entry is what the single time gives. -/
theorem C15_array (tform tsteady : ℝ) (ts : List ℝ) :
    dehnenSmoothArray tform tsteady ts = ts.map (dehnenSmooth tform tsteady true) := by
  unfold dehnenSmoothArray
  simp only [List.map_map]
  apply List.map_congr_left
  intro t _
  simp only [Function.comp_apply, dehnenSmooth, if_true]
  by_cases h1 : t < tform
  · have : ¬ (t < tsteady ∧ tform ≤ t) := fun h => absurd h.2 (not_le.2 h1)
    simp [h1, this]
  · by_cases h2 : t < tsteady
    · simp [h1, h2, not_lt.1 h1]
    · simp [h1, h2]

/-- The default end of the growth lies after its start exactly when the start time is negative. -/
theorem C15_default_times (tform : ℝ) :
    (dehnenTimes tform none).1 < (dehnenTimes tform none).2 ↔ tform < 0 := by
  simp only [dehnenTimes]
  constructor <;> intro h <;> linarith

/-- With a nonnegative start time and the default end the factor jumps from 0 to 1. -/
theorem C15_default_fails {tform : ℝ} (h : 0 ≤ tform) :
    ¬ Continuous (dehnenSmooth (dehnenTimes tform none).1 (dehnenTimes tform none).2 true) := by
  intro hc
  have e : ∀ t, dehnenSmooth (dehnenTimes tform none).1 (dehnenTimes tform none).2 true t =
      if t < tform then 0 else 1 := by
    intro t
    simp only [dehnenSmooth, dehnenTimes, if_true]
    by_cases h1 : t < tform
    · simp [h1]
    · have : ¬ t < tform / 2 := by
        have := not_lt.1 h1
        linarith
      simp [h1, this]
  have hn : ∀ᶠ t in 𝓝 tform, (1 / 2 : ℝ) <
      dehnenSmooth (dehnenTimes tform none).1 (dehnenTimes tform none).2 true t :=
    hc.continuousAt.eventually (lt_mem_nhds (by rw [e]; norm_num))
  obtain ⟨l, hl, hs⟩ := (mem_nhds_iff_exists_Ioo_subset.1 hn).imp fun l ⟨u, hl, hs⟩ =>
    And.intro hl.1 (fun y (hy : l < y ∧ y < tform) => hs ⟨hy.1, hy.2.trans hl.2⟩)
  have := hs ((l + tform) / 2) ⟨by linarith, by linarith⟩
  simp only [mem_setOf_eq, e, if_pos (show (l + tform) / 2 < tform by linarith)] at this
  norm_num at this

/-- The documented amplitude: growth starts at `start`, lasts `duration`. -/
noncomputable def C15Spec.growth (start duration t : ℝ) : ℝ :=
  let xi := max (-1) (min 1 (2 * ((t - start) / duration) - 1));
  3 / 16 * xi ^ 5 - 5 / 8 * xi ^ 3 + 15 / 16 * xi + 1 / 2

/-- The factor is the documented function of the arguments the user gives: `tsteady` is the time from
`tform` to the fully grown state, by default `-tform/2`. -/
theorem C15_documented (tform : ℝ) (tsteady : Option ℝ) (hd : 0 < tsteady.getD (-tform / 2)) (t : ℝ) :
    dehnenSmooth (dehnenTimes tform tsteady).1 (dehnenTimes tform tsteady).2 true t =
        C15Spec.growth tform (tsteady.getD (-tform / 2)) t ∧
      dehnenSmooth (dehnenTimes tform tsteady).1 (dehnenTimes tform tsteady).2 false t =
        1 - C15Spec.growth tform (tsteady.getD (-tform / 2)) t := by
  have e : dehnenTimes tform tsteady = (tform, tform + tsteady.getD (-tform / 2)) := by
    cases tsteady with
    | none => simp only [dehnenTimes, Option.getD_none]; congr 1; ring
    | some s => rfl
  rw [C15_decay, e]
  generalize tsteady.getD (-tform / 2) = d at hd
  have key : dehnenSmooth tform (tform + d) true t = C15Spec.growth tform d t := by
    simp only [dehnenSmooth, C15Spec.growth, if_true, add_sub_cancel_left]
    split_ifs with h1 h2
    · have : (t - tform) / d < 0 := div_neg_of_neg_of_pos (by linarith) hd
      rw [min_eq_right (by linarith), max_eq_left (by linarith)]
      norm_num
    · have a1 : 0 ≤ (t - tform) / d := div_nonneg (by linarith) hd.le
      have a2 : (t - tform) / d ≤ 1 := (div_le_one hd).2 (by linarith)
      rw [min_eq_right (by linarith), max_eq_right (by linarith), mul_div_assoc]
    · have a2 : 1 ≤ (t - tform) / d := (one_le_div hd).2 (by linarith)
      rw [min_eq_left (by linarith), max_eq_right (by norm_num)]
      norm_num
  exact ⟨key, by rw [key]⟩

example : (0 : ℝ) < (some 3 : Option ℝ).getD (-(-4) / 2) := by norm_num
example : ContDiff ℝ 2 (dehnenSmooth (-4) (-2) false) := C15_smooth (by norm_num) false
example : dehnenSmooth (-4) (-2) true (-3) = 1 / 2 := by norm_num [dehnenSmooth]
example : (dehnenTimes (-4) none).1 < (dehnenTimes (-4) none).2 := (C15_default_times (-4)).2 (by norm_num)

end Verif
