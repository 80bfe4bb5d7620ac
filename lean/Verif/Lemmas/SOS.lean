import Verif.Model.SOS
import Verif.Spec.Dynamics
import Verif.Lemmas.EOM
import Verif.Lemmas.Coords
import Mathlib.Analysis.Calculus.Deriv.Inverse
import Mathlib.Analysis.Calculus.Deriv.MeanValue
import Mathlib.Topology.Order.MonotoneContinuity
import Mathlib.MeasureTheory.Integral.IntervalIntegral.FundThmCalculus

set_option autoImplicit false

/-!
# Reparametrisation and gluing of solutions, lists of the surface-of-section driver
-/

open Set Filter Topology

namespace Verif.SOS

/-- A function with positive derivative on an open interval has a differentiable inverse there. -/
theorem reparam {T T' : ℝ → ℝ} {a b : ℝ} (hT : ∀ s ∈ Ioo a b, HasDerivAt T (T' s) s)
    (hp : ∀ s ∈ Ioo a b, 0 < T' s) :
    StrictMonoOn T (Ioo a b) ∧ IsOpen (T '' Ioo a b) ∧ ∃ g : ℝ → ℝ, (∀ s ∈ Ioo a b, g (T s) = s) ∧
      ∀ s ∈ Ioo a b, HasDerivAt g (T' s)⁻¹ (T s) := by
  have hm : StrictMonoOn T (Ioo a b) := by
    apply strictMonoOn_of_deriv_pos (convex_Ioo a b)
    · exact fun s hs => (hT s hs).continuousAt.continuousWithinAt
    · intro s hs
      rw [interior_Ioo] at hs
      rw [(hT s hs).deriv]
      exact hp s hs
  have hnb : ∀ s ∈ Ioo a b, T '' Ioo a b ∈ 𝓝 (T s) := by
    intro s hs
    have h1 : (a + s) / 2 ∈ Ioo a b := ⟨by linarith [hs.1], by linarith [hs.1, hs.2]⟩
    have h2 : (s + b) / 2 ∈ Ioo a b := ⟨by linarith [hs.1, hs.2], by linarith [hs.2]⟩
    have hsub : Icc ((a + s) / 2) ((s + b) / 2) ⊆ Ioo a b := fun u hu =>
      ⟨lt_of_lt_of_le h1.1 hu.1, lt_of_le_of_lt hu.2 h2.2⟩
    have hc : ContinuousOn T (Icc ((a + s) / 2) ((s + b) / 2)) := fun u hu =>
      (hT u (hsub hu)).continuousAt.continuousWithinAt
    have hiv := intermediate_value_Icc (by linarith [hs.1, hs.2]) hc
    have l1 := hm h1 hs (by linarith [hs.1])
    have l2 := hm hs h2 (by linarith [hs.2])
    exact mem_of_superset (Icc_mem_nhds l1 l2) (hiv.trans (image_mono hsub))
  refine ⟨hm, ?_, Function.invFunOn T (Ioo a b), ?_, ?_⟩
  · rw [isOpen_iff_mem_nhds]
    rintro _ ⟨s, hs, rfl⟩
    exact hnb s hs
  · intro s hs
    exact hm.injOn.leftInvOn_invFunOn hs
  · intro s hs
    have hl := hm.injOn.leftInvOn_invFunOn
    have hgs : Function.invFunOn T (Ioo a b) (T s) = s := hl hs
    have hgm : StrictMonoOn (Function.invFunOn T (Ioo a b)) (T '' Ioo a b) := by
      rintro _ ⟨u, hu, rfl⟩ _ ⟨w, hw, rfl⟩ huw
      rw [hl hu, hl hw]
      exact (hm.lt_iff_lt hu hw).1 huw
    have hcont : ContinuousAt (Function.invFunOn T (Ioo a b)) (T s) := by
      refine hgm.continuousAt_of_image_mem_nhds (hnb s hs) ?_
      rw [hgs, ← image_comp]
      have : (Function.invFunOn T (Ioo a b) ∘ T) '' Ioo a b = Ioo a b := by
        ext u
        constructor
        · rintro ⟨w, hw, rfl⟩
          simpa [hl hw] using hw
        · intro hu
          exact ⟨u, hu, hl hu⟩
      rw [this]
      exact Ioo_mem_nhds hs.1 hs.2
    refine HasDerivAt.of_local_left_inverse (f := T) hcont ?_ (hp s hs).ne' ?_
    · rw [hgs]
      exact hT s hs
    · filter_upwards [hnb s hs] with u hu
      obtain ⟨w, hw, rfl⟩ := hu
      rw [hl hw]

/-- Two curves that meet with the same slope form one differentiable curve. -/
theorem glue {E : Type*} [NormedAddCommGroup E] [NormedSpace ℝ E] {f g : ℝ → E} {c : ℝ} {s : ℝ}
    {f' g' : ℝ → E} (hf : s ≤ c → HasDerivAt f (f' s) s) (hg : c ≤ s → HasDerivAt g (g' s) s)
    (e0 : f c = g c) (e1 : f' c = g' c) :
    HasDerivAt (fun x => if x < c then f x else g x) (if s < c then f' s else g' s) s := by
  rcases lt_trichotomy s c with h | rfl | h
  · rw [if_pos h]
    refine (hf h.le).congr_of_eventuallyEq ?_
    filter_upwards [Iio_mem_nhds h] with y hy
    simp [mem_Iio.1 hy]
  · rw [if_neg (lt_irrefl s), ← hasDerivWithinAt_univ, ← Iic_union_Ici (a := s)]
    apply HasDerivWithinAt.union
    · refine ((hf le_rfl).hasDerivWithinAt.congr (fun y hy => ?_) ?_).congr_deriv e1
      · rcases (mem_Iic.1 hy).lt_or_eq with k | k
        · simp [k]
        · simp [k, e0]
      · simp [e0]
    · refine (hg le_rfl).hasDerivWithinAt.congr (fun y hy => ?_) (by simp)
      simp [not_lt.2 (mem_Ici.1 hy)]
  · rw [if_neg (not_lt.2 h.le)]
    refine (hg h.le).congr_of_eventuallyEq ?_
    filter_upwards [Ioi_mem_nhds h] with y hy
    simp [not_lt.2 (mem_Ioi.1 hy).le]

/-! ## Lists -/

theorem everyNth_map {S : Type} {k n : ℕ} (hk : 0 < k) (f : ℕ → S) :
    everyNth k ((List.range (n * k)).map f) = (List.range n).map fun i => f (k * i) := by
  unfold everyNth
  have e : (((List.range (n * k)).map f).length + k - 1) / k = n := by
    simp only [List.length_map, List.length_range]
    rw [show n * k + k - 1 = k * n + (k - 1) by rw [mul_comm]; omega, Nat.mul_add_div hk,
      Nat.div_eq_of_lt (by omega), add_zero]
  rw [e, ← List.filterMap_eq_map (f := fun i => f (k * i))]
  apply List.filterMap_congr
  intro i hi
  have hi' : i < n := List.mem_range.1 hi
  have : k * i < n * k := by
    rw [mul_comm n k]
    exact Nat.mul_lt_mul_of_pos_left hi' hk
  simp [this]

theorem forward_map {f : ℝ → ℝ} : ∀ {l : List ℝ}, l.Pairwise (· < ·) →
    (∀ x ∈ l, ∀ y ∈ l, x < y → f x < f y) → forward (l.map f) l
  | [], _, _ => trivial
  | [_], _, _ => trivial
  | x :: y :: l, h, hf => by
    have h' := List.pairwise_cons.1 h
    have hxy : x < y := h'.1 y (by simp)
    refine ⟨mul_pos (sub_pos.2 (hf x (by simp) y (by simp) hxy)) (sub_pos.2 hxy), ?_⟩
    exact forward_map (l := y :: l) h'.2 fun u hu w hw => hf u (List.mem_cons_of_mem _ hu) w
      (List.mem_cons_of_mem _ hw)

theorem pairwise_range_map {n : ℕ} {f : ℕ → ℝ} (hf : ∀ i j, i < j → f i < f j) :
    ((List.range n).map f).Pairwise (· < ·) := by
  rw [List.pairwise_map]
  exact List.Pairwise.imp (fun {i j} h => hf i j h) List.pairwise_lt_range

theorem linspace_pairwise {b : ℝ} (hb : 0 < b) : (linspace101 b).Pairwise (· < ·) := by
  apply pairwise_range_map
  intro i j h
  have : (i : ℝ) < j := by exact_mod_cast h
  have hb' : 0 < b / 100 := by positivity
  nlinarith

theorem linspace_mem {b x : ℝ} (hb : 0 ≤ b) (h : x ∈ linspace101 b) : 0 ≤ x ∧ x ≤ b := by
  unfold linspace101 at h
  obtain ⟨i, hi, rfl⟩ := List.mem_map.1 h
  have h0 : (0 : ℝ) ≤ i := Nat.cast_nonneg i
  have h1 : (i : ℝ) ≤ 100 := by exact_mod_cast Nat.lt_succ_iff.1 (List.mem_range.1 hi)
  constructor
  · positivity
  · nlinarith

theorem linspace_last (b : ℝ) : (linspace101 b).getLast? = some b := by
  unfold linspace101
  rw [List.getLast?_map, show (101 : ℕ) = 100 + 1 from rfl, List.range_succ, List.getLast?_append]
  simp
  ring

/-! ## Angles -/

theorem pmod_range {x y : ℝ} (hy : 0 < y) : 0 ≤ pmod x y ∧ pmod x y < y := by
  unfold pmod
  have h1 := Int.floor_le (x / y)
  have h2 := Int.lt_floor_add_one (x / y)
  rw [le_div_iff₀ hy] at h1
  rw [div_lt_iff₀ hy] at h2
  constructor <;> nlinarith

end Verif.SOS
