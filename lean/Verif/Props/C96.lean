import Verif.Model.Pot.AdiabaticContraction
import Mathlib.Analysis.SpecialFunctions.Pow.Continuity
import Mathlib.Topology.Order.IntermediateValue

set_option autoImplicit false

/-!
# C96: adiabatic contraction of a halo

`AdiabaticContractionWrapperPotential`: the equations that the contracted radii and masses satisfy have one solution each, in which shells keep their order, `r M(r)` is
conserved (Blumenthal et al.), nothing happens if the baryons follow the halo, and a shell moves inwards if the baryons within it are more than their share.
-/

noncomputable section
namespace Verif
open Real Set Contraction Filter Topology

/-- Radii in increasing order, positive, with positive growing dark mass and growing baryonic mass. -/
structure C96Spec.Masses (n : ℕ) (x M B : ℕ → ℝ) : Prop where
  x0 : 0 < x 0
  inc : ∀ i < n, x i < x (i + 1)
  m0 : 0 < M 0
  m : ∀ i < n, M i ≤ M (i + 1)
  b0 : 0 ≤ B 0
  b : ∀ i < n, B i ≤ B (i + 1)

namespace C96aux

variable {n : ℕ} {x y : ℕ → ℝ}

theorem inc_le (hx : ∀ i < n, x i < x (i + 1)) {i j : ℕ} (h : i ≤ j) (hj : j ≤ n) : x i ≤ x j := by
  induction j with
  | zero => rw [Nat.le_zero.1 h]
  | succ j ih =>
    rcases h.eq_or_lt with rfl | h
    · rfl
    · exact (ih (Nat.lt_succ_iff.1 h) (by omega)).trans (hx j (by omega)).le

theorem inc_lt (hx : ∀ i < n, x i < x (i + 1)) {i j : ℕ} (h : i < j) (hj : j ≤ n) : x i < x j :=
  (hx i (by omega)).trans_le (inc_le hx h hj)

theorem mono_le (hy : ∀ i < n, y i ≤ y (i + 1)) {i j : ℕ} (h : i ≤ j) (hj : j ≤ n) : y i ≤ y j := by
  induction j with
  | zero => rw [Nat.le_zero.1 h]
  | succ j ih =>
    rcases h.eq_or_lt with rfl | h
    · rfl
    · exact (ih (Nat.lt_succ_iff.1 h) (by omega)).trans (hy j (by omega))

/-- Linear interpolation returns the values at the nodes. -/
theorem node (hx : ∀ i < n, x i < x (i + 1)) {k : ℕ} (hk : k ≤ n) : lin x y n (x k) = y k := by
  induction n with
  | zero => rw [Nat.le_zero.1 hk]; rfl
  | succ n ih =>
    rw [lin]
    rcases hk.eq_or_lt with rfl | hk
    · have h := hx n (by omega)
      rw [if_neg (not_le.2 h), if_pos le_rfl, div_mul_cancel₀ _ (sub_ne_zero.2 h.ne')]
      ring
    · rw [if_pos (inc_le hx (by omega) (by omega)), ih (fun i hi => hx i (by omega)) (by omega)]

theorem upper (hx : ∀ i < n, x i < x (i + 1)) (hy : ∀ i < n, y i ≤ y (i + 1)) (q : ℝ) : lin x y n q ≤ y n := by
  induction n with
  | zero => exact le_rfl
  | succ n ih =>
    have h1 := hx n (by omega)
    have h2 := hy n (by omega)
    rw [lin]
    split_ifs with c d
    · exact (ih (fun i hi => hx i (by omega)) fun i hi => hy i (by omega)).trans h2
    · have : (y (n + 1) - y n) / (x (n + 1) - x n) * (q - x n) ≤ (y (n + 1) - y n) / (x (n + 1) - x n) * (x (n + 1) - x n) :=
        mul_le_mul_of_nonneg_left (by linarith) (div_nonneg (by linarith) (by linarith))
      rw [div_mul_cancel₀ _ (sub_ne_zero.2 h1.ne')] at this
      linarith
    · exact le_rfl

theorem lower (hx : ∀ i < n, x i < x (i + 1)) (hy : ∀ i < n, y i ≤ y (i + 1)) (q : ℝ) : y 0 ≤ lin x y n q := by
  induction n with
  | zero => exact le_rfl
  | succ n ih =>
    have h1 := hx n (by omega)
    have h2 := hy n (by omega)
    have h3 : y 0 ≤ y n := mono_le (n := n) (fun i hi => hy i (by omega)) (by omega) le_rfl
    rw [lin]
    split_ifs with c d
    · exact ih (fun i hi => hx i (by omega)) fun i hi => hy i (by omega)
    · have : 0 ≤ (y (n + 1) - y n) / (x (n + 1) - x n) * (q - x n) :=
        mul_nonneg (div_nonneg (by linarith) (by linarith)) (by linarith [not_le.1 c])
      linarith
    · linarith

theorem mono (hx : ∀ i < n, x i < x (i + 1)) (hy : ∀ i < n, y i ≤ y (i + 1)) : Monotone (lin x y n) := by
  induction n with
  | zero => exact fun _ _ _ => le_rfl
  | succ n ih =>
    have h1 := hx n (by omega)
    have h2 := hy n (by omega)
    have hs : 0 ≤ (y (n + 1) - y n) / (x (n + 1) - x n) := div_nonneg (by linarith) (by linarith)
    have i1 : ∀ i < n, x i < x (i + 1) := fun i hi => hx i (by omega)
    have i2 : ∀ i < n, y i ≤ y (i + 1) := fun i hi => hy i (by omega)
    intro p q hpq
    by_cases c : p ≤ x n
    · rw [lin, if_pos c]
      by_cases d : q ≤ x n
      · rw [lin, if_pos d]; exact ih i1 i2 hpq
      · refine (upper i1 i2 p).trans ?_
        rw [lin, if_neg d]
        split_ifs with e
        · have := mul_nonneg hs (by linarith [not_le.1 d] : 0 ≤ q - x n)
          linarith
        · exact h2
    · have d : ¬ q ≤ x n := fun d => c (hpq.trans d)
      by_cases e : q ≤ x (n + 1)
      · rw [lin, if_neg c, if_pos (hpq.trans e), lin, if_neg d, if_pos e]
        have := mul_le_mul_of_nonneg_left (by linarith : p - x n ≤ q - x n) hs
        linarith
      · refine (upper hx hy p).trans ?_
        rw [lin, if_neg d, if_neg e]

theorem cont (hx : ∀ i < n, x i < x (i + 1)) : Continuous (lin x y n) := by
  induction n with
  | zero => exact continuous_const
  | succ n ih =>
    have h1 := hx n (by omega)
    have i1 : ∀ i < n, x i < x (i + 1) := fun i hi => hx i (by omega)
    have e : lin x y (n + 1) = fun q => if q ≤ x n then lin x y n q else
        if q ≤ x (n + 1) then (y (n + 1) - y n) / (x (n + 1) - x n) * (q - x n) + y n else y (n + 1) := rfl
    rw [e]
    refine Continuous.if_le (ih i1) (Continuous.if_le (by fun_prop) continuous_const continuous_id continuous_const fun q hq => ?_) continuous_id continuous_const fun q hq => ?_
    · rw [hq, div_mul_cancel₀ _ (sub_ne_zero.2 h1.ne')]; ring
    · rw [hq, if_pos h1.le, node i1 le_rfl, sub_self, mul_zero, zero_add]

theorem smul (c : ℝ) (q : ℝ) : lin x (fun i => c * y i) n q = c * lin x y n q := by
  induction n with
  | zero => rfl
  | succ n ih =>
    rw [lin, lin]
    split_ifs
    · exact ih
    · ring
    · rfl

theorem lin_congr {y' : ℕ → ℝ} (h : ∀ i ≤ n, y i = y' i) (q : ℝ) : lin x y n q = lin x y' n q := by
  induction n with
  | zero => exact h 0 le_rfl
  | succ n ih => rw [lin, lin, h n (by omega), h (n + 1) le_rfl, ih fun i hi => h i (by omega)]

/-! ### The equation for one shell -/

variable {m f r : ℝ} {β : ℝ → ℝ}

theorem shell_iff (hm : 0 < m) (hb : ∀ s, 0 ≤ β s) (s : ℝ) : s = r * (m / (1 - f)) / (m + β s) ↔ s * (m + β s) = r * (m / (1 - f)) := by
  have : 0 < m + β s := by linarith [hb s]
  rw [eq_div_iff this.ne']

theorem shell_pos (hm : 0 < m) (hf : f < 1) (hr : 0 < r) (hb : ∀ s, 0 ≤ β s) {s : ℝ} (h : s * (m + β s) = r * (m / (1 - f))) : 0 < s := by
  have h1 : 0 < m + β s := by linarith [hb s]
  have h2 : 0 < r * (m / (1 - f)) := mul_pos hr (div_pos hm (by linarith))
  rw [← h] at h2
  exact (mul_pos_iff_of_pos_right h1).1 h2

theorem shell_lt (hm : 0 < m) (hb : ∀ s, 0 ≤ β s) (hβ : MonotoneOn β (Ici 0)) {s t : ℝ} (hs : 0 ≤ s) (h : s < t) : s * (m + β s) < t * (m + β t) := by
  have h1 := hb s
  have h2 := hβ hs (hs.trans h.le) h.le
  calc s * (m + β s) < t * (m + β s) := mul_lt_mul_of_pos_right h (by linarith)
    _ ≤ t * (m + β t) := mul_le_mul_of_nonneg_left (by linarith) (hs.trans h.le)

theorem shell_unique (hm : 0 < m) (hf : f < 1) (hr : 0 < r) (hb : ∀ s, 0 ≤ β s) (hβ : MonotoneOn β (Ici 0)) (hc : ContinuousOn β (Ici 0)) :
    ∃! s, s = r * (m / (1 - f)) / (m + β s) := by
  have hK : 0 < r * (m / (1 - f)) := mul_pos hr (div_pos hm (by linarith))
  have hT : 0 ≤ r * (m / (1 - f)) / m := by positivity
  have co : ContinuousOn (fun s => s * (m + β s)) (Icc 0 (r * (m / (1 - f)) / m)) :=
    continuousOn_id.mul (continuousOn_const.add (hc.mono fun s hs => hs.1))
  obtain ⟨s, hs, e⟩ := intermediate_value_Icc hT co (show r * (m / (1 - f)) ∈ _ from ⟨by simpa using hK.le, by
    have := mul_nonneg hT (hb (r * (m / (1 - f)) / m))
    have h1 : r * (m / (1 - f)) / m * m = r * (m / (1 - f)) := div_mul_cancel₀ _ hm.ne'
    change r * (m / (1 - f)) ≤ r * (m / (1 - f)) / m * (m + β (r * (m / (1 - f)) / m))
    rw [mul_add, h1]
    linarith⟩)
  refine ⟨s, (shell_iff hm hb s).2 e, fun t ht => ?_⟩
  have e' := (shell_iff hm hb t).1 ht
  have ps := shell_pos hm hf hr hb e
  have pt := shell_pos hm hf hr hb e'
  rcases lt_trichotomy t s with h | h | h
  · exact absurd (e'.trans e.symm) (shell_lt hm hb hβ pt.le h).ne
  · exact h
  · exact absurd (e.trans e'.symm) (shell_lt hm hb hβ ps.le h).ne

/-- A larger shell stays a larger shell. -/
theorem shell_order {m' r' : ℝ} (hm : 0 < m) (hmm : m ≤ m') (hf : f < 1) (hr : 0 < r) (hrr : r < r') (hb : ∀ s, 0 ≤ β s) (hβ : MonotoneOn β (Ici 0)) {s t : ℝ}
    (hs : s = r * (m / (1 - f)) / (m + β s)) (ht : t = r' * (m' / (1 - f)) / (m' + β t)) : s < t := by
  have hm' := hm.trans_le hmm
  have e := (shell_iff hm hb s).1 hs
  have e' := (shell_iff hm' hb t).1 ht
  have ps := shell_pos hm hf hr hb e
  have pt := shell_pos hm' hf (hr.trans hrr) hb e'
  by_contra c
  have hl : t ≤ s := not_lt.1 c
  have hf' : 0 < 1 - f := by linarith
  have hB := hβ pt.le ps.le hl
  have hB0 := hb t
  have q1 : s * (m + β s) / m = r / (1 - f) := by rw [e]; field_simp
  have q2 : t * (m' + β t) / m' = r' / (1 - f) := by rw [e']; field_simp
  have q3 : r / (1 - f) < r' / (1 - f) := div_lt_div_of_pos_right hrr hf'
  have q4 : t * (m' + β t) / m' ≤ s * (m + β s) / m := by
    rw [show t * (m' + β t) / m' = t * (1 + β t / m') by field_simp, show s * (m + β s) / m = s * (1 + β s / m) by field_simp]
    have : β t / m' ≤ β s / m := div_le_div₀ (hb s) hB hm hmm
    have : 0 ≤ β t / m' := div_nonneg hB0 hm'.le
    exact mul_le_mul hl (by linarith) (by linarith) ps.le
  rw [q1, q2] at q4
  linarith

/-- A shell moves inwards if the baryons within it are at least their share, outwards if they are at most their share. -/
theorem shell_move (hm : 0 < m) (hf : f < 1) (hr : 0 < r) (hb : ∀ s, 0 ≤ β s) (hβ : MonotoneOn β (Ici 0)) {s : ℝ}
    (hs : s = r * (m / (1 - f)) / (m + β s)) : (f / (1 - f) * m ≤ β r → s ≤ r) ∧ (β r ≤ f / (1 - f) * m → r ≤ s) := by
  have e := (shell_iff hm hb s).1 hs
  have ps := shell_pos hm hf hr hb e
  have hf' : 0 < 1 - f := by linarith
  have k : m / (1 - f) = m + f / (1 - f) * m := by field_simp; ring
  constructor
  · intro h
    by_contra c
    have := shell_lt hm hb hβ hr.le (not_le.1 c)
    have h2 : r * (m / (1 - f)) ≤ r * (m + β r) := mul_le_mul_of_nonneg_left (by rw [k]; linarith) hr.le
    linarith
  · intro h
    by_contra c
    have := shell_lt hm hb hβ ps.le (not_le.1 c)
    have h2 : r * (m + β r) ≤ r * (m / (1 - f)) := mul_le_mul_of_nonneg_left (by rw [k]; linarith) hr.le
    linarith

theorem pos_of {n : ℕ} {x M B : ℕ → ℝ} (h : C96Spec.Masses n x M B) {i : ℕ} (hi : i ≤ n) : 0 < x i ∧ 0 < M i :=
  ⟨h.x0.trans_le (inc_le h.inc (Nat.zero_le i) hi), h.m0.trans_le (mono_le h.m (Nat.zero_le i) hi)⟩

theorem baryons {n : ℕ} {x M B : ℕ → ℝ} (h : C96Spec.Masses n x M B) : (∀ s, 0 ≤ lin x B n s) ∧ Monotone (lin x B n) ∧ Continuous (lin x B n) :=
  ⟨fun s => h.b0.trans (lower h.inc h.b s), mono h.inc h.b, cont h.inc⟩

end C96aux

open C96aux in
/-- **C96 (Blumenthal et al.).** For growing masses the equations for the contracted radii have exactly one solution. In it the product of radius and mass within it is what it was
before (when dark matter and baryons together were `M / (1 - f)`), the shells keep their order, and the new mass within a radius to which a shell has moved is that of the shell. -/
theorem C96_blumenthal {n : ℕ} {x M B : ℕ → ℝ} (h : C96Spec.Masses n x M B) {f : ℝ} (hf : f < 1) :
    (∀ i ≤ n, ∃! s, s = blumenthalMap n x B f (x i) (M i) s) ∧ ∀ rf : ℕ → ℝ, (∀ i ≤ n, rf i = blumenthalMap n x B f (x i) (M i) (rf i)) →
      (∀ i ≤ n, 0 < rf i ∧ rf i * (M i + lin x B n (rf i)) = x i * (M i / (1 - f))) ∧ (∀ i < n, rf i < rf (i + 1))
      ∧ ∀ i ≤ n, ∀ j ≤ n, x i = rf j → blumenthal n x M rf i * x i ^ 2 = M j := by
  obtain ⟨b1, b2, b3⟩ := baryons h
  refine ⟨fun i hi => shell_unique (pos_of h hi).2 hf (pos_of h hi).1 b1 (b2.monotoneOn _) b3.continuousOn, fun rf hrf => ?_⟩
  have ord : ∀ i < n, rf i < rf (i + 1) := fun i hi => shell_order (pos_of h hi.le).2 (h.m i hi) hf (pos_of h hi.le).1 (h.inc i hi) b1 (b2.monotoneOn _) (hrf i hi.le) (hrf (i + 1) hi)
  refine ⟨fun i hi => ?_, ord, fun i hi j hj e => ?_⟩
  · have e := (shell_iff (pos_of h hi).2 b1 (rf i)).1 (hrf i hi)
    exact ⟨shell_pos (pos_of h hi).2 hf (pos_of h hi).1 b1 e, e⟩
  · have := (pos_of h hi).1
    rw [blumenthal, div_mul_cancel₀ _ (by positivity), e, node ord hj]

open C96aux in
/-- **C96 (direction).** If the baryons within a radius are at least their share of the mass, the shell there moves inwards and the dark mass within the radius does not decrease; if they are at
most their share, the reverse; with exactly their share everywhere nothing changes. -/
theorem C96_direction {n : ℕ} {x M B : ℕ → ℝ} (h : C96Spec.Masses n x M B) {f : ℝ} (hf : f < 1) (rf : ℕ → ℝ)
    (hrf : ∀ i ≤ n, rf i = blumenthalMap n x B f (x i) (M i) (rf i)) {i : ℕ} (hi : i ≤ n) :
    (f / (1 - f) * M i ≤ B i → rf i ≤ x i ∧ M i / x i ^ 2 ≤ blumenthal n x M rf i) ∧ (B i ≤ f / (1 - f) * M i → x i ≤ rf i ∧ blumenthal n x M rf i ≤ M i / x i ^ 2)
    ∧ (B i = f / (1 - f) * M i → rf i = x i ∧ blumenthal n x M rf i = M i / x i ^ 2) := by
  obtain ⟨b1, b2, b3⟩ := baryons h
  have ord := ((C96_blumenthal h hf).2 rf hrf).2.1
  obtain ⟨px, pm⟩ := pos_of h hi
  have mv := shell_move pm hf px b1 (b2.monotoneOn _) (hrf i hi)
  rw [node h.inc hi] at mv
  have mo := mono (y := M) ord h.m
  have nd := node (y := M) ord hi
  have a1 : f / (1 - f) * M i ≤ B i → rf i ≤ x i ∧ M i / x i ^ 2 ≤ blumenthal n x M rf i := fun hb => by
    refine ⟨mv.1 hb, div_le_div_of_nonneg_right ?_ (by positivity)⟩
    have := mo (mv.1 hb)
    rwa [nd] at this
  have a2 : B i ≤ f / (1 - f) * M i → x i ≤ rf i ∧ blumenthal n x M rf i ≤ M i / x i ^ 2 := fun hb => by
    refine ⟨mv.2 hb, div_le_div_of_nonneg_right ?_ (by positivity)⟩
    have := mo (mv.2 hb)
    rwa [nd] at this
  exact ⟨a1, a2, fun e => ⟨le_antisymm (a1 e.ge).1 (a2 e.le).1, le_antisymm (a2 e.le).2 (a1 e.ge).2⟩⟩

namespace C96aux

theorem rMean_props {Rvir : ℝ} (hR : 0 < Rvir) : MonotoneOn (rMean Rvir) (Ici 0) ∧ ContinuousOn (rMean Rvir) (Ici 0) := by
  constructor
  · intro s hs t ht hst
    unfold rMean
    have : (0 : ℝ) ≤ s / Rvir := div_nonneg hs hR.le
    gcongr
  · unfold rMean
    refine continuousOn_const.mul (ContinuousOn.rpow_const (by fun_prop) fun s hs => Or.inr (by norm_num))

theorem meanBaryons {n : ℕ} {x M B : ℕ → ℝ} (h : C96Spec.Masses n x M B) {Rvir : ℝ} (hR : 0 < Rvir) :
    (∀ s, 0 ≤ lin x B n (rMean Rvir s)) ∧ MonotoneOn (fun s => lin x B n (rMean Rvir s)) (Ici 0) ∧ ContinuousOn (fun s => lin x B n (rMean Rvir s)) (Ici 0) := by
  obtain ⟨b1, b2, b3⟩ := baryons h
  obtain ⟨r1, r2⟩ := rMean_props hR
  exact ⟨fun s => b1 _, fun s hs t ht hst => b2 (r1 hs ht hst), b3.comp_continuousOn r2⟩

theorem meanDark {n : ℕ} {x M B : ℕ → ℝ} (h : C96Spec.Masses n x M B) {Rvir : ℝ} (hR : 0 < Rvir) {i j : ℕ} (hij : i ≤ j) (hj : j ≤ n) :
    0 < mMean n x M Rvir i ∧ mMean n x M Rvir i ≤ mMean n x M Rvir j :=
  ⟨h.m0.trans_le (lower h.inc h.m _), mono h.inc h.m ((rMean_props hR).1 (pos_of h (hij.trans hj)).1.le (pos_of h hj).1.le (inc_le h.inc hij hj))⟩

end C96aux

open C96aux in
/-- **C96 (Gnedin et al.).** The same with the masses at the mean radii of the orbits. -/
theorem C96_gnedin {n : ℕ} {x M B : ℕ → ℝ} (h : C96Spec.Masses n x M B) {f Rvir : ℝ} (hf : f < 1) (hR : 0 < Rvir) :
    (∀ i ≤ n, ∃! s, s = gnedinMap n x B Rvir f (x i) (mMean n x M Rvir i) s) ∧ ∀ rf : ℕ → ℝ, (∀ i ≤ n, rf i = gnedinMap n x B Rvir f (x i) (mMean n x M Rvir i) (rf i)) →
      (∀ i ≤ n, 0 < rf i ∧ rf i * (lin x M n (rMean Rvir (x i)) + lin x B n (rMean Rvir (rf i))) = x i * (lin x M n (rMean Rvir (x i)) / (1 - f)))
      ∧ (∀ i < n, rf i < rf (i + 1)) ∧ (∀ i ≤ n, ∀ j ≤ n, x i = rf j → gnedin n x M rf i * x i ^ 2 = M j)
      ∧ ((∀ i ≤ n, B i = f / (1 - f) * M i) → ∀ i ≤ n, rf i = x i ∧ gnedin n x M rf i = M i / x i ^ 2) := by
  obtain ⟨b1, b2, b3⟩ := meanBaryons h hR
  refine ⟨fun i hi => shell_unique (meanDark h hR le_rfl hi).1 hf (pos_of h hi).1 b1 b2 b3, fun rf hrf => ?_⟩
  have ord : ∀ i < n, rf i < rf (i + 1) := fun i hi => shell_order (meanDark h hR le_rfl hi.le).1 (meanDark h hR (Nat.le_succ i) hi).2 hf (pos_of h hi.le).1 (h.inc i hi) b1 b2 (hrf i hi.le) (hrf (i + 1) hi)
  refine ⟨fun i hi => ?_, ord, fun i hi j hj e => ?_, fun e i hi => ?_⟩
  · have e := (shell_iff (β := fun s => lin x B n (rMean Rvir s)) (meanDark h hR le_rfl hi).1 b1 (rf i)).1 (hrf i hi)
    exact ⟨shell_pos (β := fun s => lin x B n (rMean Rvir s)) (meanDark h hR le_rfl hi).1 hf (pos_of h hi).1 b1 e, e⟩
  · have := (pos_of h hi).1
    rw [gnedin, div_mul_cancel₀ _ (by positivity), e, node ord hj]
  · have mv := shell_move (meanDark h hR le_rfl hi).1 hf (pos_of h hi).1 b1 b2 (hrf i hi)
    have k : lin x B n (rMean Rvir (x i)) = f / (1 - f) * mMean n x M Rvir i := by
      rw [mMean, ← smul]
      exact lin_congr e _
    have e1 := le_antisymm (mv.1 k.ge) (mv.2 k.le)
    refine ⟨e1, ?_⟩
    rw [gnedin]
    conv_lhs => rw [← e1]
    rw [node ord hi, e1]

/-! ### Cautun et al. -/

namespace C96aux

theorem cautun_map {m b f M : ℝ} (hm : 0 < m) (hf : f < 1) (hM : 0 < M + b) :
    cautunMap m b f M = m * 1.023 * (m / (1 - f)) ^ (-0.54 : ℝ) * (M + b) ^ (0.54 : ℝ) := by
  have h1 : 0 < 1 - f := by linarith
  unfold cautunMap
  rw [div_rpow (by positivity) hM.le, rpow_neg hM.le (0.54 : ℝ), div_inv_eq_mul, ← mul_assoc]

/-- The mass over the power of mass plus baryons grows with the mass. -/
theorem ratio_lt {b s t : ℝ} (hb : 0 ≤ b) (hs : 0 < s) (h : s < t) : s * (t + b) ^ (0.54 : ℝ) < t * (s + b) ^ (0.54 : ℝ) := by
  have ht := hs.trans h
  have h1 : (t + b) / (s + b) ≤ t / s := by
    rw [div_le_div_iff₀ (by linarith) hs]
    nlinarith
  have h2 : ((t + b) / (s + b)) ^ (0.54 : ℝ) ≤ (t / s) ^ (0.54 : ℝ) := rpow_le_rpow (by positivity) h1 (by norm_num)
  have h3 : (t / s) ^ (0.54 : ℝ) < t / s := by
    have := rpow_lt_rpow_of_exponent_lt (x := t / s) ((one_lt_div hs).2 h) (by norm_num : (0.54 : ℝ) < 1)
    rwa [rpow_one] at this
  have h4 := h2.trans_lt h3
  rw [div_rpow (by positivity) (by positivity), div_lt_div_iff₀ (rpow_pos_of_pos (by positivity) _) hs] at h4
  linarith

end C96aux

open C96aux in
/-- **C96 (Cautun et al.).** The equation for the contracted mass has exactly one solution, which is positive and grows with the baryonic mass; the force is this mass over the squared radius. -/
theorem C96_cautun {m b f : ℝ} (hm : 0 < m) (hb : 0 ≤ b) (hf : f < 1) :
    (∃! M, 0 < M + b ∧ M = cautunMap m b f M) ∧ ∀ M, 0 < M + b → M = cautunMap m b f M → 0 < M
      ∧ (∀ r, cautun r m M = M / r ^ 2) ∧ ∀ b' M', b < b' → 0 < M' + b' → M' = cautunMap m b' f M' → M < M' := by
  have hc : 0 < m * 1.023 * (m / (1 - f)) ^ (-0.54 : ℝ) := by
    have : 0 < 1 - f := by linarith
    positivity
  set c := m * 1.023 * (m / (1 - f)) ^ (-0.54 : ℝ) with hc0
  have pos : ∀ {b M : ℝ}, 0 < M + b → M = cautunMap m b f M → 0 < M ∧ M = c * (M + b) ^ (0.54 : ℝ) := fun {b M} h e => by
    rw [cautun_map hm hf h] at e
    exact ⟨by rw [e]; exact mul_pos hc (rpow_pos_of_pos h _), e⟩
  have uniq : ∀ {s t : ℝ}, 0 < s → 0 < t → s = c * (s + b) ^ (0.54 : ℝ) → t = c * (t + b) ^ (0.54 : ℝ) → ¬ s < t := fun {s t} hs ht e1 e2 h => by
    have := ratio_lt hb hs h
    have e3 : c * (s * (t + b) ^ (0.54 : ℝ)) = c * (t * (s + b) ^ (0.54 : ℝ)) := by linear_combination (-s) * e2 + t * e1
    exact absurd (mul_left_cancel₀ hc.ne' e3) this.ne
  refine ⟨?_, fun M h e => ⟨(pos h e).1, fun r => by rw [cautun, div_mul_cancel₀ _ hm.ne'], fun b' M' hbb h' e' => ?_⟩⟩
  · -- existence between the solution without baryons and a large value
    set M1 := c ^ (1 / 0.46 : ℝ) with hM1
    have p1 : 0 < M1 := rpow_pos_of_pos hc _
    have q1 : c * M1 ^ (0.54 : ℝ) = M1 := by
      rw [hM1, ← rpow_mul hc.le]
      nth_rw 1 [← rpow_one c]
      rw [← rpow_add hc]
      norm_num
    set K := max b ((c * 2 ^ (0.54 : ℝ)) ^ (1 / 0.46 : ℝ)) with hK
    have c2 : 0 < c * 2 ^ (0.54 : ℝ) := mul_pos hc (rpow_pos_of_pos two_pos _)
    set K1 := (c * 2 ^ (0.54 : ℝ)) ^ (1 / 0.46 : ℝ) with hK1
    have pK1 : 0 < K1 := rpow_pos_of_pos c2 _
    have pK : 0 < K := pK1.trans_le (le_max_right _ _)
    have q2 : c * 2 ^ (0.54 : ℝ) ≤ K ^ (0.46 : ℝ) := by
      have : K1 ^ (0.46 : ℝ) = c * 2 ^ (0.54 : ℝ) := by
        rw [hK1, ← rpow_mul c2.le]
        norm_num
      rw [← this]
      exact rpow_le_rpow pK1.le (le_max_right _ _) (by norm_num)
    have q3 : c * (K + b) ^ (0.54 : ℝ) ≤ K := by
      have h1 : (K + b) ^ (0.54 : ℝ) ≤ (2 * K) ^ (0.54 : ℝ) := rpow_le_rpow (by positivity) (by linarith [le_max_left b K1]) (by norm_num)
      rw [mul_rpow two_pos.le pK.le] at h1
      have h2 : K = K ^ (0.46 : ℝ) * K ^ (0.54 : ℝ) := by rw [← rpow_add pK]; norm_num
      calc c * (K + b) ^ (0.54 : ℝ) ≤ c * (2 ^ (0.54 : ℝ) * K ^ (0.54 : ℝ)) := mul_le_mul_of_nonneg_left h1 hc.le
        _ = c * 2 ^ (0.54 : ℝ) * K ^ (0.54 : ℝ) := by ring
        _ ≤ K ^ (0.46 : ℝ) * K ^ (0.54 : ℝ) := mul_le_mul_of_nonneg_right q2 (rpow_nonneg pK.le _)
        _ = K := h2.symm
    have q4 : M1 ≤ c * (M1 + b) ^ (0.54 : ℝ) := by
      nth_rw 1 [← q1]
      exact mul_le_mul_of_nonneg_left (rpow_le_rpow p1.le (by linarith) (by norm_num)) hc.le
    have hMK : M1 ≤ K := by
      refine (rpow_le_rpow hc.le ?_ (by norm_num)).trans (le_max_right _ _)
      exact le_mul_of_one_le_right hc.le (one_le_rpow (by norm_num) (by norm_num))
    have co : ContinuousOn (fun M => M - c * (M + b) ^ (0.54 : ℝ)) (Icc M1 K) :=
      continuousOn_id.sub (continuousOn_const.mul (ContinuousOn.rpow_const (by fun_prop) fun _ _ => Or.inr (by norm_num)))
    obtain ⟨M, hM, e⟩ := intermediate_value_Icc hMK co (show (0 : ℝ) ∈ _ from ⟨by linarith, by linarith⟩)
    have pM : 0 < M := p1.trans_le hM.1
    have e' : M = c * (M + b) ^ (0.54 : ℝ) := by linarith [e]
    have pMb : 0 < M + b := by linarith
    refine ⟨M, ⟨pMb, by rw [cautun_map hm hf pMb]; exact e'⟩, fun t ht => ?_⟩
    obtain ⟨pt, et⟩ := pos ht.1 ht.2
    exact le_antisymm (not_lt.1 (uniq pM pt e' et)) (not_lt.1 (uniq pt pM et e'))
  · obtain ⟨p1, e1⟩ := pos h e
    obtain ⟨p2, e2⟩ := pos h' e'
    by_contra c0
    have hl : M' ≤ M := not_lt.1 c0
    have h1 : M' * (M + b') ^ (0.54 : ℝ) ≤ M * (M' + b') ^ (0.54 : ℝ) := by
      rcases hl.eq_or_lt with rfl | hl
      · exact le_rfl
      · exact (ratio_lt (by linarith) p2 hl).le
    have h2 : (M + b) ^ (0.54 : ℝ) < (M + b') ^ (0.54 : ℝ) := rpow_lt_rpow h.le (by linarith) (by norm_num)
    have h3 : M' * (M + b) ^ (0.54 : ℝ) < M * (M' + b') ^ (0.54 : ℝ) := (mul_lt_mul_of_pos_left h2 p2).trans_le h1
    have e3 : c * (M' * (M + b) ^ (0.54 : ℝ)) = c * (M * (M' + b') ^ (0.54 : ℝ)) := by linear_combination (-M') * e1 + M * e2
    exact absurd (mul_left_cancel₀ hc.ne' e3) h3.ne

/-! ### The potential -/

namespace C96aux

theorem cons_inc {n : ℕ} {x : ℕ → ℝ} (h0 : 0 < x 0) (hx : ∀ i < n, x i < x (i + 1)) : ∀ i < n + 1, cons0 x i < cons0 x (i + 1)
  | 0, _ => h0
  | i + 1, h => hx i (by omega)

theorem func_node {x F : ℕ → ℝ} (h0 : 0 < x 0) (hx : ∀ i < 300, x i < x (i + 1)) {i : ℕ} (hi : i ≤ 301) : forceFunc x F (cons0 x i) = -cons0 F i := by
  rw [forceFunc, node (cons_inc h0 hx) hi]

end C96aux

open C96aux in
/-- **C96 (grid).** The radii run from `rmin` to `rmax` in increasing order, with the default `rmin` too, and the default baryon fraction is below one. -/
theorem C96_grid {rmin rmax : ℝ} (h : 0 < rmin) (hm : rmin < rmax) : grid rmin rmax 0 = rmin ∧ grid rmin rmax 300 = rmax
    ∧ (∀ i, 0 < grid rmin rmax i ∧ grid rmin rmax i < grid rmin rmax (i + 1)) ∧ (0 < initRmin rmax none ∧ initRmin rmax none < rmax)
    ∧ ∀ B M : ℕ → ℝ, 0 ≤ B 300 → 0 < M 300 → initFbar B M none < 1 := by
  have hq : 1 < rmax / rmin := (one_lt_div h).2 hm
  refine ⟨by simp [grid], ?_, fun i => ⟨?_, ?_⟩, ⟨?_, ?_⟩, fun B M hB hM => ?_⟩
  · rw [grid, show ((300 : ℕ) : ℝ) / 300 = 1 by norm_num, rpow_one]
    field_simp
  · exact mul_pos h (rpow_pos_of_pos (by positivity) _)
  · refine mul_lt_mul_of_pos_left (rpow_lt_rpow_of_exponent_lt hq ?_) h
    push_cast
    linarith
  · have := h.trans hm
    unfold initRmin
    positivity
  · have := h.trans hm
    unfold initRmin
    linarith
  · rw [initFbar, div_lt_one (by linarith)]
    linarith

open C96aux in
/-- **C96 (force).** With any spline through its points the force at the radii of the grid is minus the contracted force, beyond the grid it is that of the mass within the last radius, and the
potential tends to the difference of the integrals of the linear and of the spline interpolation, which would be nought if these were the same. -/
theorem C96_force {fit : (ℕ → ℝ) → (ℕ → ℝ) → ℝ → ℝ} {x : ℕ → ℝ} (hfit : ∀ y : ℕ → ℝ, ∀ i ≤ 301, fit (cons0 x) y (cons0 x i) = y i) (h0 : 0 < x 0)
    (hx : ∀ i < 300, x i < x (i + 1)) (amp : ℝ) (F : ℕ → ℝ) :
    (∀ i ≤ 300, InterpSph.rforce (build fit amp x F) (x i) = -F i)
    ∧ (∀ r, x 300 ≤ r → InterpSph.rforce (build fit amp x F) r = -(F 300 * x 300 ^ 2) / r ^ 2)
    ∧ Tendsto (InterpSph.revaluate (build fit amp x F)) atTop
      (𝓝 ((∫ r in (0 : ℝ)..x 300, forceFunc x F r) - ∫ r in (0 : ℝ)..x 300, (build fit amp x F).spline r)) := by
  have p300 : 0 < x 300 := h0.trans_le (inc_le hx (Nat.zero_le _) le_rfl)
  have sp : ∀ i ≤ 300, (build fit amp x F).spline (x i) = -F i := fun i hi => by
    have := hfit (fun i => forceFunc x F (cons0 x i)) (i + 1) (by omega)
    have h2 := func_node (F := F) h0 hx (i := i + 1) (by omega)
    rw [h2] at this
    exact this
  have mt : (build fit amp x F).totalMass = F 300 * x 300 ^ 2 := by
    have := sp 300 le_rfl
    change -(x 300 ^ 2) * (build fit amp x F).spline (x 300) = _
    rw [this]
    ring
  have out : ∀ r, x 300 ≤ r → InterpSph.rforce (build fit amp x F) r = -(F 300 * x 300 ^ 2) / r ^ 2 := fun r hr => by
    have e : (build fit amp x F).rmax = x 300 := rfl
    rw [InterpSph.rforce, e, if_pos hr, mt]
  refine ⟨fun i hi => ?_, out, ?_⟩
  · rcases hi.eq_or_lt with rfl | hi'
    · rw [out _ le_rfl]
      field_simp
    · have e : (build fit amp x F).rmax = x 300 := rfl
      rw [InterpSph.rforce, e, if_neg (not_le.2 (inc_lt hx hi' le_rfl)), sp i hi]
  · have e : (build fit amp x F).Phimax = (∫ r in (0 : ℝ)..x 300, forceFunc x F r) - ∫ r in (0 : ℝ)..x 300, (build fit amp x F).spline r := by
      have e1 : (build fit amp x F).Phi0 = phi0 x F := by simp [InterpSph.Obj.Phi0, InterpSph.Obj.potSpline, build]
      rw [InterpSph.Obj.Phimax, e1, mt]
      change -(∫ r in (0 : ℝ)..x 300, (build fit amp x F).spline r) + ((∫ r in (0 : ℝ)..x 300, forceFunc x F r) - F 300 * x 300) + F 300 * x 300 ^ 2 / x 300 = _
      field_simp
      ring
    rw [← e]
    have lim : Tendsto (fun r : ℝ => -(build fit amp x F).totalMass / r + (build fit amp x F).Phimax) atTop (𝓝 (0 + (build fit amp x F).Phimax)) :=
      (tendsto_const_nhds.div_atTop tendsto_id).add_const _
    rw [zero_add] at lim
    refine lim.congr' ?_
    filter_upwards [eventually_ge_atTop (x 300)] with r hr
    have e : (build fit amp x F).rmax = x 300 := rfl
    rw [InterpSph.revaluate, e, if_pos hr]

/-- **C96 (amplitude).** The amplitude is not used: twice the amplitude does not give twice the force, for every contraction that leaves a force at the last radius. -/
theorem C96_amp_fails {fit : (ℕ → ℝ) → (ℕ → ℝ) → ℝ → ℝ} {x : ℕ → ℝ} (hfit : ∀ y : ℕ → ℝ, ∀ i ≤ 301, fit (cons0 x) y (cons0 x i) = y i) (h0 : 0 < x 0)
    (hx : ∀ i < 300, x i < x (i + 1)) {F : ℕ → ℝ} (hF : F 300 ≠ 0) :
    InterpSph.rforce (build fit 2 x F) (x 300) ≠ 2 * InterpSph.rforce (build fit 1 x F) (x 300) := by
  rw [(C96_force hfit h0 hx 2 F).1 300 le_rfl, (C96_force hfit h0 hx 1 F).1 300 le_rfl]
  intro h
  exact hF (by linarith)

/-! ### Cases -/

namespace C96aux

/-- Dark mass growing with radius, more baryons than their share. -/
theorem ex : C96Spec.Masses 300 (grid 0.02 50) (grid 0.02 50) (fun i => 0.5 * grid 0.02 50 i) := by
  obtain ⟨g1, -, g3, -⟩ := C96_grid (rmin := 0.02) (rmax := 50) (by norm_num) (by norm_num)
  exact ⟨(g3 0).1, fun i _ => (g3 i).2, (g3 0).1, fun i _ => (g3 i).2.le, by have := (g3 0).1; positivity, fun i _ => by have := (g3 i).2; linarith⟩

end C96aux

open C96aux

example : ∃ rf : ℕ → ℝ, ∀ i ≤ 300, rf i = blumenthalMap 300 (grid 0.02 50) (fun i => 0.5 * grid 0.02 50 i) 0.157 (grid 0.02 50 i) (grid 0.02 50 i) (rf i) := by
  have h := (C96_blumenthal ex (f := 0.157) (by norm_num)).1
  choose! rf h1 _ using h
  exact ⟨rf, fun i hi => h1 i hi⟩

example (rf : ℕ → ℝ) (h : ∀ i ≤ 300, rf i = blumenthalMap 300 (grid 0.02 50) (fun i => 0.5 * grid 0.02 50 i) 0.157 (grid 0.02 50 i) (grid 0.02 50 i) (rf i)) :
    rf 7 ≤ grid 0.02 50 7 ∧ grid 0.02 50 7 / grid 0.02 50 7 ^ 2 ≤ blumenthal 300 (grid 0.02 50) (grid 0.02 50) rf 7 := by
  refine (C96_direction ex (by norm_num) rf h (by norm_num)).1 ?_
  have := (C96_grid (rmin := 0.02) (rmax := 50) (by norm_num) (by norm_num)).2.2.1 7
  norm_num
  linarith [this.1]

example : ∀ i ≤ 300, ∃! s, s = gnedinMap 300 (grid 0.02 50) (fun i => 0.5 * grid 0.02 50 i) 30 0.157 (grid 0.02 50 i) (mMean 300 (grid 0.02 50) (grid 0.02 50) 30 i) s :=
  (C96_gnedin ex (by norm_num) (by norm_num)).1

example : ∃! M, 0 < M + 1 ∧ M = cautunMap 3 1 0.157 M := (C96_cautun (by norm_num) (by norm_num) (by norm_num)).1

/-- Linear interpolation is an interpolation. -/
example : InterpSph.rforce (build (fun x y => lin x y 301) 1 (grid 0.02 50) fun i => 1 / grid 0.02 50 i) 50 = -(1 / 50) := by
  obtain ⟨g1, g2, g3, -⟩ := C96_grid (rmin := 0.02) (rmax := 50) (by norm_num) (by norm_num)
  have := (C96_force (fit := fun x y => lin x y 301) (fun y i hi => node (cons_inc (g3 0).1 fun i _ => (g3 i).2) hi) (g3 0).1 (fun i _ => (g3 i).2) 1
    fun i => 1 / grid 0.02 50 i).1 300 le_rfl
  rwa [g2] at this

end Verif
