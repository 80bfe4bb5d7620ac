import Mathlib.Analysis.Calculus.ParametricIntervalIntegral
import Mathlib.Analysis.SpecialFunctions.Integrability.Basic
import Mathlib.Analysis.SpecialFunctions.Pow.Deriv
import Mathlib.Analysis.Calculus.Deriv.Prod
import Mathlib.Analysis.Calculus.FDeriv.Pow
import Mathlib.Analysis.Normed.Operator.Prod
import Mathlib.MeasureTheory.Integral.IntervalIntegral.FundThmCalculus

set_option autoImplicit false

/-!
# Integrals over the family of similar ellipsoids

`∫₀¹ h(x² A(s) + y² B(s) + z² C(s)) w(s) ds` with `A, B, C` comparable to `s²`: integrability and differentiation with
respect to the point, for `h` with a power-law singularity at zero.
-/

open Set MeasureTheory Filter Topology Interval

namespace Verif.EllInt

/-- `h` is continuous on the positive numbers and at most of order `u ^ (-κ)` at zero. -/
structure Bdd (κ : ℝ) (h : ℝ → ℝ) : Prop where
  cont : ContinuousOn h (Ioi 0)
  bound : ∀ U : ℝ, 0 < U → ∃ C : ℝ, ∀ u ∈ Ioc 0 U, |h u| ≤ C * u ^ (-κ)

/-- A weight of order `s ^ k`. -/
structure Wt (k : ℝ) (w : ℝ → ℝ) : Prop where
  cont : ContinuousOn w (Ioc 0 1)
  bound : ∃ W : ℝ, 0 ≤ W ∧ ∀ s ∈ Ioc (0:ℝ) 1, |w s| ≤ W * s ^ k

/-- A coefficient comparable to `s ^ 2`. -/
structure Sq (A : ℝ → ℝ) : Prop where
  cont : ContinuousOn A (Ioc 0 1)
  lower : ∃ l : ℝ, 0 < l ∧ ∀ s ∈ Ioc (0:ℝ) 1, l * s ^ 2 ≤ A s
  upper : ∃ L : ℝ, 0 < L ∧ ∀ s ∈ Ioc (0:ℝ) 1, A s ≤ L * s ^ 2

theorem Sq.pos {A : ℝ → ℝ} (h : Sq A) {s : ℝ} (hs : s ∈ Ioc (0:ℝ) 1) : 0 < A s := by
  obtain ⟨l, hl, hb⟩ := h.lower
  have := hs.1
  exact lt_of_lt_of_le (by positivity) (hb s hs)

theorem Sq.wt {A : ℝ → ℝ} (h : Sq A) : Wt 2 A := by
  obtain ⟨L, hL, hb⟩ := h.upper
  refine ⟨h.cont, L, hL.le, fun s hs => ?_⟩
  rw [abs_of_pos (h.pos hs), show (2:ℝ) = ((2:ℕ):ℝ) by norm_num, Real.rpow_natCast]
  exact hb s hs

theorem Wt.mul {k l : ℝ} {v w : ℝ → ℝ} (hv : Wt k v) (hw : Wt l w) : Wt (k + l) (fun s => v s * w s) := by
  obtain ⟨V, hV, bV⟩ := hv.bound
  obtain ⟨W, hW, bW⟩ := hw.bound
  refine ⟨hv.cont.mul hw.cont, V * W, by positivity, fun s hs => ?_⟩
  rw [abs_mul, Real.rpow_add hs.1]
  have h1 := bV s hs
  have h2 := bW s hs
  have := Real.rpow_nonneg hs.1.le k
  calc |v s| * |w s| ≤ (V * s ^ k) * (W * s ^ l) := by gcongr
    _ = _ := by ring

/-- The squared ellipsoidal radius. -/
def u (A B C : ℝ → ℝ) (q : ℝ × ℝ × ℝ) (s : ℝ) : ℝ := q.1 ^ 2 * A s + q.2.1 ^ 2 * B s + q.2.2 ^ 2 * C s
/-- The squared distance to the centre. -/
def N (q : ℝ × ℝ × ℝ) : ℝ := q.1 ^ 2 + q.2.1 ^ 2 + q.2.2 ^ 2

section
variable {A B C : ℝ → ℝ} (hA : Sq A) (hB : Sq B) (hC : Sq C)
include hA hB hC

/-- One pair of constants for all three coefficients. -/
theorem u_bounds : ∃ l L : ℝ, 0 < l ∧ 0 < L ∧ ∀ q : ℝ × ℝ × ℝ, ∀ s ∈ Ioc (0:ℝ) 1,
    l * N q * s ^ 2 ≤ u A B C q s ∧ u A B C q s ≤ L * N q := by
  obtain ⟨lA, hlA, bA⟩ := hA.lower
  obtain ⟨lB, hlB, bB⟩ := hB.lower
  obtain ⟨lC, hlC, bC⟩ := hC.lower
  obtain ⟨LA, hLA, cA⟩ := hA.upper
  obtain ⟨LB, hLB, cB⟩ := hB.upper
  obtain ⟨LC, hLC, cC⟩ := hC.upper
  refine ⟨min lA (min lB lC), LA + LB + LC, by positivity, by positivity, fun q s hs => ?_⟩
  have h2 : s ^ 2 ≤ 1 := pow_le_one₀ hs.1.le hs.2
  have h0 : 0 ≤ s ^ 2 := sq_nonneg s
  have m1 : min lA (min lB lC) ≤ lA := min_le_left _ _
  have m2 : min lA (min lB lC) ≤ lB := (min_le_right _ _).trans (min_le_left _ _)
  have m3 : min lA (min lB lC) ≤ lC := (min_le_right _ _).trans (min_le_right _ _)
  have q1 := sq_nonneg q.1
  have q2 := sq_nonneg q.2.1
  have q3 := sq_nonneg q.2.2
  have a1 : min lA (min lB lC) * s ^ 2 ≤ A s := (mul_le_mul_of_nonneg_right m1 h0).trans (bA s hs)
  have a2 : min lA (min lB lC) * s ^ 2 ≤ B s := (mul_le_mul_of_nonneg_right m2 h0).trans (bB s hs)
  have a3 : min lA (min lB lC) * s ^ 2 ≤ C s := (mul_le_mul_of_nonneg_right m3 h0).trans (bC s hs)
  have c1 : A s ≤ LA + LB + LC := by
    have := cA s hs
    nlinarith
  have c2 : B s ≤ LA + LB + LC := by
    have := cB s hs
    nlinarith
  have c3 : C s ≤ LA + LB + LC := by
    have := cC s hs
    nlinarith
  unfold u N
  constructor
  · nlinarith [mul_le_mul_of_nonneg_left a1 q1, mul_le_mul_of_nonneg_left a2 q2, mul_le_mul_of_nonneg_left a3 q3]
  · nlinarith [mul_le_mul_of_nonneg_left c1 q1, mul_le_mul_of_nonneg_left c2 q2, mul_le_mul_of_nonneg_left c3 q3]

theorem u_pos {q : ℝ × ℝ × ℝ} (hq : 0 < N q) {s : ℝ} (hs : s ∈ Ioc (0:ℝ) 1) : 0 < u A B C q s := by
  obtain ⟨l, L, hl, hL, hb⟩ := u_bounds hA hB hC
  have := hs.1
  exact lt_of_lt_of_le (by positivity) (hb q s hs).1

theorem u_cont (q : ℝ × ℝ × ℝ) : ContinuousOn (u A B C q) (Ioc 0 1) :=
  ((hA.cont.const_mul _).add (hB.cont.const_mul _)).add (hC.cont.const_mul _)

theorem hu_cont {h : ℝ → ℝ} (hh : ContinuousOn h (Ioi 0)) {q : ℝ × ℝ × ℝ} (hq : 0 < N q) :
    ContinuousOn (fun s => h (u A B C q s)) (Ioc 0 1) :=
  hh.comp (u_cont hA hB hC q) fun _ hs => u_pos hA hB hC hq hs

/-- A uniform bound of the integrand for points at distances between two positive ones. -/
theorem hu_bound {h w : ℝ → ℝ} {κ k : ℝ} (hκ : 0 ≤ κ) (hh : Bdd κ h) (hw : Wt k w) {n₀ n₁ : ℝ} (h0 : 0 < n₀)
    (h1 : n₀ ≤ n₁) : ∃ K : ℝ, 0 ≤ K ∧ ∀ q : ℝ × ℝ × ℝ, n₀ ≤ N q → N q ≤ n₁ → ∀ s ∈ Ioc (0:ℝ) 1,
    |h (u A B C q s) * w s| ≤ K * s ^ (k - 2 * κ) := by
  obtain ⟨l, L, hl, hL, hb⟩ := u_bounds hA hB hC
  have hn₁ : 0 < n₁ := h0.trans_le h1
  obtain ⟨c, hc⟩ := hh.bound (L * n₁) (by positivity)
  obtain ⟨W, hW, bW⟩ := hw.bound
  have hc0 : 0 ≤ c := by
    have := (abs_nonneg _).trans (hc (L * n₁) ⟨by positivity, le_rfl⟩)
    have h2 : 0 < (L * n₁) ^ (-κ) := Real.rpow_pos_of_pos (by positivity) _
    by_contra hneg
    rw [not_le] at hneg
    nlinarith
  refine ⟨c * (l * n₀) ^ (-κ) * W, by have := Real.rpow_nonneg (show 0 ≤ l * n₀ by positivity) (-κ); positivity, ?_⟩
  intro q hq0 hq1 s hs
  have hs0 := hs.1
  obtain ⟨b0, b1⟩ := hb q s hs
  have hpos : 0 < l * n₀ * s ^ 2 := by positivity
  have b0' : l * n₀ * s ^ 2 ≤ u A B C q s := le_trans (by gcongr) b0
  have b1' : u A B C q s ≤ L * n₁ := b1.trans (by gcongr)
  have e1 := hc _ ⟨hpos.trans_le b0', b1'⟩
  have e2 : u A B C q s ^ (-κ) ≤ (l * n₀ * s ^ 2) ^ (-κ) := Real.rpow_le_rpow_of_nonpos hpos b0' (by linarith)
  have e3 : (l * n₀ * s ^ 2) ^ (-κ) = (l * n₀) ^ (-κ) * s ^ (-(2 * κ)) := by
    rw [Real.mul_rpow (by positivity) (by positivity), ← Real.rpow_natCast, ← Real.rpow_mul hs0.le]
    congr 2; push_cast; ring
  rw [abs_mul, show k - 2 * κ = -(2 * κ) + k by ring, Real.rpow_add hs0]
  have := bW s hs
  have p1 := Real.rpow_nonneg (show 0 ≤ l * n₀ by positivity) (-κ)
  have p2 := Real.rpow_nonneg hs0.le (-(2 * κ))
  calc |h (u A B C q s)| * |w s| ≤ (c * ((l * n₀) ^ (-κ) * s ^ (-(2 * κ)))) * (W * s ^ k) := by
        gcongr
        exact e1.trans (by rw [← e3]; gcongr)
    _ = _ := by ring

theorem integrable {h w : ℝ → ℝ} {κ k : ℝ} (hκ : 0 ≤ κ) (hh : Bdd κ h) (hw : Wt k w) (hk : -1 < k - 2 * κ)
    {q : ℝ × ℝ × ℝ} (hq : 0 < N q) : IntervalIntegrable (fun s => h (u A B C q s) * w s) volume 0 1 := by
  obtain ⟨K, hK, hb⟩ := hu_bound hA hB hC hκ hh hw hq le_rfl
  have hi : IntervalIntegrable (fun s : ℝ => K * s ^ (k - 2 * κ)) volume 0 1 :=
    (intervalIntegral.intervalIntegrable_rpow' hk).const_mul K
  rw [intervalIntegrable_iff_integrableOn_Ioc_of_le zero_le_one] at hi ⊢
  refine Integrable.mono' hi (((hu_cont hA hB hC hh.cont hq).mul hw.cont).aestronglyMeasurable measurableSet_Ioc) ?_
  rw [ae_restrict_iff' measurableSet_Ioc]
  exact ae_of_all _ fun s hs => by simpa [Real.norm_eq_abs] using hb q le_rfl le_rfl s hs

/-- Differentiation under the integral sign. -/
theorem hasFDerivAt {h h' w : ℝ → ℝ} {κ k : ℝ} (hκ : 0 ≤ κ) (hh : Bdd κ h) (hh' : Bdd (κ + 1) h')
    (hd : ∀ v : ℝ, 0 < v → HasDerivAt h (h' v) v) (hw : Wt k w) (hk : -1 < k - 2 * κ) {q : ℝ × ℝ × ℝ} (hq : 0 < N q) :
    HasFDerivAt (fun q => ∫ s in (0:ℝ)..1, h (u A B C q s) * w s)
      ((2 * q.1 * ∫ s in (0:ℝ)..1, h' (u A B C q s) * (A s * w s)) • ContinuousLinearMap.fst ℝ ℝ (ℝ × ℝ)
        + (2 * q.2.1 * ∫ s in (0:ℝ)..1, h' (u A B C q s) * (B s * w s))
          • (ContinuousLinearMap.fst ℝ ℝ ℝ).comp (ContinuousLinearMap.snd ℝ ℝ (ℝ × ℝ))
        + (2 * q.2.2 * ∫ s in (0:ℝ)..1, h' (u A B C q s) * (C s * w s))
          • (ContinuousLinearMap.snd ℝ ℝ ℝ).comp (ContinuousLinearMap.snd ℝ ℝ (ℝ × ℝ))) q := by
  set P1 := ContinuousLinearMap.fst ℝ ℝ (ℝ × ℝ) with hP1
  set P2 := (ContinuousLinearMap.fst ℝ ℝ ℝ).comp (ContinuousLinearMap.snd ℝ ℝ (ℝ × ℝ)) with hP2
  set P3 := (ContinuousLinearMap.snd ℝ ℝ ℝ).comp (ContinuousLinearMap.snd ℝ ℝ (ℝ × ℝ)) with hP3
  have wA : Wt (2 + k) fun s => A s * w s := hA.wt.mul hw
  have wB : Wt (2 + k) fun s => B s * w s := hB.wt.mul hw
  have wC : Wt (2 + k) fun s => C s * w s := hC.wt.mul hw
  have hκ' : 0 ≤ κ + 1 := by linarith
  have hk' : -1 < 2 + k - 2 * (κ + 1) := by linarith
  have iA := integrable hA hB hC hκ' hh' wA hk' hq
  have iB := integrable hA hB hC hκ' hh' wB hk' hq
  have iC := integrable hA hB hC hκ' hh' wC hk' hq
  let F' : ℝ × ℝ × ℝ → ℝ → (ℝ × ℝ × ℝ →L[ℝ] ℝ) := fun q s =>
    (2 * q.1 * (h' (u A B C q s) * (A s * w s))) • P1 + (2 * q.2.1 * (h' (u A B C q s) * (B s * w s))) • P2
      + (2 * q.2.2 * (h' (u A B C q s) * (C s * w s))) • P3
  let S : Set (ℝ × ℝ × ℝ) := {r | N q / 2 < N r ∧ N r < 2 * N q}
  have cN : Continuous N := by unfold N; fun_prop
  have hS : S ∈ 𝓝 q := by
    have : IsOpen S := (isOpen_lt continuous_const cN).inter (isOpen_lt cN continuous_const)
    exact this.mem_nhds ⟨by linarith, by linarith⟩
  have hSp : ∀ r ∈ S, 0 < N r := fun r hr => by have := hr.1; linarith
  have hn0 : 0 < N q / 2 := by positivity
  have hn1 : N q / 2 ≤ 2 * N q := by linarith
  obtain ⟨KA, hKA, bA⟩ := hu_bound hA hB hC hκ' hh' wA hn0 hn1
  obtain ⟨KB, hKB, bB⟩ := hu_bound hA hB hC hκ' hh' wB hn0 hn1
  obtain ⟨KC, hKC, bC⟩ := hu_bound hA hB hC hκ' hh' wC hn0 hn1
  have e : Ι (0:ℝ) 1 = Ioc 0 1 := uIoc_of_le zero_le_one
  have main := intervalIntegral.hasFDerivAt_integral_of_dominated_of_fderiv_le (μ := volume) (a := 0) (b := 1)
    (F := fun q s => h (u A B C q s) * w s) (F' := F') (x₀ := q)
    (bound := fun s => (2 * (1 + 2 * N q) * (KA + KB + KC)) * s ^ (2 + k - 2 * (κ + 1))) hS ?_ ?_ ?_ ?_ ?_ ?_
  · refine main.congr_fderiv ?_
    have j1 : IntervalIntegrable (fun s => (2 * q.1 * (h' (u A B C q s) * (A s * w s))) • P1) volume 0 1 :=
      ⟨(iA.const_mul _).1.smul_const _, (iA.const_mul _).2.smul_const _⟩
    have j2 : IntervalIntegrable (fun s => (2 * q.2.1 * (h' (u A B C q s) * (B s * w s))) • P2) volume 0 1 :=
      ⟨(iB.const_mul _).1.smul_const _, (iB.const_mul _).2.smul_const _⟩
    have j3 : IntervalIntegrable (fun s => (2 * q.2.2 * (h' (u A B C q s) * (C s * w s))) • P3) volume 0 1 :=
      ⟨(iC.const_mul _).1.smul_const _, (iC.const_mul _).2.smul_const _⟩
    simp only [F']
    rw [intervalIntegral.integral_add (j1.add j2) j3, intervalIntegral.integral_add j1 j2,
      intervalIntegral.integral_smul_const, intervalIntegral.integral_smul_const, intervalIntegral.integral_smul_const,
      intervalIntegral.integral_const_mul, intervalIntegral.integral_const_mul, intervalIntegral.integral_const_mul]
  · filter_upwards [hS] with r hr
    rw [e]
    exact ((hu_cont hA hB hC hh.cont (hSp r hr)).mul hw.cont).aestronglyMeasurable measurableSet_Ioc
  · exact integrable hA hB hC hκ hh hw hk hq
  · rw [e]
    have c := hu_cont hA hB hC hh'.cont hq
    exact ((((c.mul wA.cont).const_mul _).smul continuousOn_const).add
      ((((c.mul wB.cont).const_mul _).smul continuousOn_const)) |>.add
      (((c.mul wC.cont).const_mul _).smul continuousOn_const)).aestronglyMeasurable measurableSet_Ioc
  · rw [e]
    refine ae_of_all _ fun s hs r hr => ?_
    have n1 : ‖P1‖ ≤ 1 := ContinuousLinearMap.norm_fst_le ℝ ℝ (ℝ × ℝ)
    have n2 : ‖P2‖ ≤ 1 := (ContinuousLinearMap.opNorm_comp_le _ _).trans
      (mul_le_one₀ (ContinuousLinearMap.norm_fst_le ℝ ℝ ℝ) (norm_nonneg _) (ContinuousLinearMap.norm_snd_le ℝ ℝ (ℝ × ℝ)))
    have n3 : ‖P3‖ ≤ 1 := (ContinuousLinearMap.opNorm_comp_le _ _).trans
      (mul_le_one₀ (ContinuousLinearMap.norm_snd_le ℝ ℝ ℝ) (norm_nonneg _) (ContinuousLinearMap.norm_snd_le ℝ ℝ (ℝ × ℝ)))
    have hN : N r ≤ 2 * N q := hr.2.le
    have hN' : N q / 2 ≤ N r := hr.1.le
    have key : ∀ (c x K : ℝ) (P : ℝ × ℝ × ℝ →L[ℝ] ℝ), ‖P‖ ≤ 1 → x ^ 2 ≤ N r →
        |c| ≤ K * s ^ (2 + k - 2 * (κ + 1)) → 
        ‖(2 * x * c) • P‖ ≤ 2 * (1 + 2 * N q) * K * s ^ (2 + k - 2 * (κ + 1)) := by
      intro c x K P hP hx hc
      rw [norm_smul, Real.norm_eq_abs, abs_mul, abs_mul, abs_two]
      have hx' : |x| ≤ 1 + 2 * N q := by
        have : |x| ≤ 1 + x ^ 2 := by nlinarith [sq_abs x, sq_nonneg (|x| - 1), abs_nonneg x]
        linarith
      have hNq : 0 ≤ 1 + 2 * N q := by linarith
      calc 2 * |x| * |c| * ‖P‖ ≤ 2 * (1 + 2 * N q) * (K * s ^ (2 + k - 2 * (κ + 1))) * 1 := by
            have := (abs_nonneg c).trans hc
            gcongr
        _ = _ := by ring
    have q1 := sq_nonneg r.1
    have q2 := sq_nonneg r.2.1
    have q3 := sq_nonneg r.2.2
    have k1 := key _ r.1 KA P1 n1 (by unfold N; linarith) (bA r hN' hN s hs)
    have k2 := key _ r.2.1 KB P2 n2 (by unfold N; linarith) (bB r hN' hN s hs)
    have k3 := key _ r.2.2 KC P3 n3 (by unfold N; linarith) (bC r hN' hN s hs)
    calc ‖F' r s‖ ≤ _ := (norm_add_le _ _).trans (add_le_add_left (norm_add_le _ _) _)
      _ ≤ _ := add_le_add (add_le_add k1 k2) k3
      _ = _ := by ring
  · exact (intervalIntegral.intervalIntegrable_rpow' hk').const_mul _
  · rw [e]
    refine ae_of_all _ fun s hs r hr => ?_
    have hu := u_pos hA hB hC (hSp r hr) hs
    have d1 : HasFDerivAt (fun r : ℝ × ℝ × ℝ => r.1) P1 r := P1.hasFDerivAt
    have d2 : HasFDerivAt (fun r : ℝ × ℝ × ℝ => r.2.1) P2 r := P2.hasFDerivAt
    have d3 : HasFDerivAt (fun r : ℝ × ℝ × ℝ => r.2.2) P3 r := P3.hasFDerivAt
    have du := (((d1.pow 2).mul_const (A s)).fun_add ((d2.pow 2).mul_const (B s))).fun_add
      ((d3.pow 2).mul_const (C s))
    have := ((hd _ hu).comp_hasFDerivAt r du).mul_const (w s)
    refine this.congr_fderiv ?_
    ext <;> simp [F', P1, P2, P3] <;> ring

/-- Along a curve. -/
theorem hasDerivAt {h h' w : ℝ → ℝ} {κ k : ℝ} (hκ : 0 ≤ κ) (hh : Bdd κ h) (hh' : Bdd (κ + 1) h')
    (hd : ∀ v : ℝ, 0 < v → HasDerivAt h (h' v) v) (hw : Wt k w) (hk : -1 < k - 2 * κ) {x y z : ℝ → ℝ}
    {x' y' z' r : ℝ} (hx : HasDerivAt x x' r) (hy : HasDerivAt y y' r) (hz : HasDerivAt z z' r)
    (hq : 0 < N (x r, y r, z r)) :
    HasDerivAt (fun r => ∫ s in (0:ℝ)..1, h (u A B C (x r, y r, z r) s) * w s)
      (2 * x r * x' * (∫ s in (0:ℝ)..1, h' (u A B C (x r, y r, z r) s) * (A s * w s))
        + 2 * y r * y' * (∫ s in (0:ℝ)..1, h' (u A B C (x r, y r, z r) s) * (B s * w s))
        + 2 * z r * z' * (∫ s in (0:ℝ)..1, h' (u A B C (x r, y r, z r) s) * (C s * w s))) r := by
  have := (hasFDerivAt hA hB hC hκ hh hh' hd hw hk hq).comp_hasDerivAt r (hx.prodMk (hy.prodMk hz))
  refine this.congr_deriv ?_
  simp
  ring

end

end Verif.EllInt
