import Verif.Props.C91Profile

set_option autoImplicit false

/-!
# C91: the two systems solved by the constructor

With an exact solver the two systems, the second with `W` as the independent variable, are one solution of Poisson's equation.
-/

noncomputable section
namespace Verif
open Real MeasureTheory Set Filter King C91Spec C91aux
open scoped Topology

namespace C91aux

/-- A function with derivative `g` on both sides of a point, both continuous there. -/
theorem glue {f g : ℝ → ℝ} {a x b : ℝ} (h1 : a < x) (h2 : x < b) (hd : ∀ y ∈ Ioo a b, y ≠ x → HasDerivAt f (g y) y) (hf : ContinuousAt f x)
    (hg : ContinuousAt g x) : HasDerivAt f (g x) x := by
  have A : HasDerivWithinAt f (g x) (Ici x) x := by
    have diff : DifferentiableOn ℝ f (Ioo x b) := fun y hy => (hd y ⟨h1.trans hy.1, hy.2⟩ hy.1.ne').differentiableAt.differentiableWithinAt
    refine hasDerivWithinAt_Ici_of_tendsto_deriv diff hf.continuousWithinAt (Ioo_mem_nhdsGT h2) ?_
    have : Tendsto g (𝓝[>] x) (𝓝 (g x)) := tendsto_inf_left hg
    refine this.congr' ?_
    filter_upwards [Ioo_mem_nhdsGT h2] with y hy
    exact (hd y ⟨h1.trans hy.1, hy.2⟩ hy.1.ne').deriv.symm
  have B : HasDerivWithinAt f (g x) (Iic x) x := by
    have diff : DifferentiableOn ℝ f (Ioo a x) := fun y hy => (hd y ⟨hy.1, hy.2.trans h2⟩ hy.2.ne).differentiableAt.differentiableWithinAt
    refine hasDerivWithinAt_Iic_of_tendsto_deriv diff hf.continuousWithinAt (Ioo_mem_nhdsLT h1) ?_
    have : Tendsto g (𝓝[<] x) (𝓝 (g x)) := tendsto_inf_left hg
    refine this.congr' ?_
    filter_upwards [Ioo_mem_nhdsLT h1] with y hy
    exact (hd y ⟨hy.1, hy.2.trans h2⟩ hy.2.ne).deriv.symm
  simpa using B.union A

/-- The first system: `W` decreases by at most `(2 π / 3) dens(W0) r²`. -/
theorem phase1 {dens W u : ℝ → ℝ} {W0 R : ℝ} (hR : 0 ≤ R) (hdens : Continuous dens) (hmono : Monotone dens) (hnn : ∀ w, 0 ≤ dens w) (hW : ContinuousOn W (Icc 0 R)) (hu : ContinuousOn u (Icc 0 R))
    (w0 : W 0 = W0) (d1 : ∀ r ∈ Ioo 0 R, HasDerivAt W (u r) r) (d2 : ∀ r ∈ Ioo 0 R, HasDerivAt u (-(4 * π) * dens (W r) - 2 * u r / r) r) :
    ∀ r ∈ Icc 0 R, W0 - 2 * π / 3 * dens W0 * r ^ 2 ≤ W r := by
  have un : ∀ r ∈ Ioo 0 R, u r ≤ 0 := fun r hr => by
    have m := mass_int hdens hW hu d2 hr.1.le hr.2.le
    have : 0 ≤ ∫ s in (0 : ℝ)..r, 4 * π * s ^ 2 * dens (W s) :=
      intervalIntegral.integral_nonneg hr.1.le fun s _ => mul_nonneg (by positivity) (hnn _)
    have r2 : 0 < r ^ 2 := pow_pos hr.1 2
    nlinarith
  have anti : AntitoneOn W (Icc 0 R) := by
    refine antitoneOn_of_hasDerivWithinAt_nonpos (f' := u) (convex_Icc 0 R) hW (fun r hr => ?_) fun r hr => ?_
    · rw [interior_Icc] at hr ⊢; exact (d1 r hr).hasDerivWithinAt
    · rw [interior_Icc] at hr; exact un r hr
  have lo : ∀ r ∈ Ioo 0 R, -(4 * π / 3 * dens W0 * r) ≤ u r := fun r hr => by
    have m := mass_int hdens hW hu d2 hr.1.le hr.2.le
    have c : ∫ s in (0 : ℝ)..r, 4 * π * s ^ 2 * dens (W s) ≤ ∫ s in (0 : ℝ)..r, 4 * π * s ^ 2 * dens W0 := by
      refine intervalIntegral.integral_mono_on hr.1.le ?_ (Continuous.intervalIntegrable (by fun_prop) _ _) fun s hs => ?_
      · exact ContinuousOn.intervalIntegrable_of_Icc hr.1.le (ContinuousOn.mul (by fun_prop) (hdens.comp_continuousOn (hW.mono (Icc_subset_Icc_right hr.2.le))))
      · refine mul_le_mul_of_nonneg_left (hmono ?_) (by positivity)
        rw [← w0]
        exact anti ⟨le_rfl, hR⟩ ⟨hs.1, hs.2.trans hr.2.le⟩ hs.1
    have e : ∫ s in (0 : ℝ)..r, 4 * π * s ^ 2 * dens W0 = 4 * π / 3 * dens W0 * r * r ^ 2 := by
      rw [intervalIntegral.integral_mul_const, intervalIntegral.integral_const_mul, integral_pow]
      norm_num; ring
    rw [e, ← m] at c
    have r2 : 0 < r ^ 2 := pow_pos hr.1 2
    by_contra n
    have := mul_lt_mul_of_pos_right (not_le.1 n) r2
    linarith
  intro r hr
  have mono : MonotoneOn (fun r => W r + 2 * π / 3 * dens W0 * r ^ 2) (Icc 0 R) := by
    refine monotoneOn_of_hasDerivWithinAt_nonneg (f' := fun r => u r + 4 * π / 3 * dens W0 * r) (convex_Icc 0 R) (hW.add (by fun_prop)) (fun r hr => ?_) fun r hr => ?_
    · rw [interior_Icc] at hr ⊢
      refine (((d1 r hr).add (((hasDerivAt_id r).pow 2).const_mul (2 * π / 3 * dens W0))).congr_deriv ?_).hasDerivWithinAt
      simp; ring
    · rw [interior_Icc] at hr; have := lo r hr; linarith
  have := mono ⟨le_rfl, hR⟩ hr hr.1
  simp only [w0] at this
  linarith

/-- The second system: the radius stays positive and grows as `W` decreases, and the derivative stays negative. -/
theorem phase2 {dens ρ u : ℝ → ℝ} {b : ℝ} (hb : 0 < b) (hpos : ∀ w, 0 < w → 0 < dens w) (hρ : ContinuousOn ρ (Icc 0 b)) (hu : ContinuousOn u (Icc 0 b))
    (r0 : 0 < ρ b) (u0 : u b < 0) (d1 : ∀ t ∈ Ioo 0 b, HasDerivAt ρ (1 / u t) t)
    (d2 : ∀ t ∈ Ioo 0 b, HasDerivAt u (-1 / u t * (4 * π * dens t + 2 * u t / ρ t)) t) : ∀ t ∈ Icc 0 b, u t < 0 ∧ 0 < ρ t := by
  by_contra con
  push Not at con
  obtain ⟨t1, ht1, hn1⟩ := con
  set A : Set ℝ := (Icc 0 b ∩ u ⁻¹' Ici 0) ∪ (Icc 0 b ∩ ρ ⁻¹' Iic 0) with hA
  have cl : IsClosed A := (hu.preimage_isClosed_of_isClosed isClosed_Icc isClosed_Ici).union (hρ.preimage_isClosed_of_isClosed isClosed_Icc isClosed_Iic)
  have sub : A ⊆ Icc 0 b := union_subset inter_subset_left inter_subset_left
  have ne : A.Nonempty := by
    refine ⟨t1, ?_⟩
    rcases lt_or_ge (u t1) 0 with h | h
    · exact Or.inr ⟨ht1, hn1 h⟩
    · exact Or.inl ⟨ht1, h⟩
  obtain ⟨m, hm, hmax⟩ := (isCompact_Icc.of_isClosed_subset cl sub).exists_isGreatest ne
  have m0 := (sub hm).1
  have mb : m < b := by
    refine lt_of_le_of_ne (sub hm).2 fun e => ?_
    rcases hm with h | h
    · have : 0 ≤ u m := h.2
      rw [e] at this; linarith
    · have : ρ m ≤ 0 := h.2
      rw [e] at this; linarith
  have ok : ∀ t ∈ Ioc m b, u t < 0 ∧ 0 < ρ t := fun t ht => by
    have hi : t ∈ Icc 0 b := ⟨m0.trans ht.1.le, ht.2⟩
    constructor
    · by_contra c
      exact absurd (hmax (Or.inl ⟨hi, not_lt.1 c⟩)) (not_le.2 ht.1)
    · by_contra c
      exact absurd (hmax (Or.inr ⟨hi, not_lt.1 c⟩)) (not_le.2 ht.1)
  have S : Icc m b ⊆ Icc 0 b := Icc_subset_Icc_left m0
  have ra : AntitoneOn ρ (Icc m b) := by
    refine antitoneOn_of_hasDerivWithinAt_nonpos (f' := fun t => 1 / u t) (convex_Icc m b) (hρ.mono S) (fun r hr => ?_) fun r hr => ?_
    · rw [interior_Icc] at hr ⊢; exact (d1 r ⟨m0.trans_lt hr.1, hr.2⟩).hasDerivWithinAt
    · rw [interior_Icc] at hr; exact (one_div_neg.2 (ok r ⟨hr.1, hr.2.le⟩).1).le
  have rm : 0 < ρ m := r0.trans_le (ra ⟨le_rfl, mb.le⟩ ⟨mb.le, le_rfl⟩ mb.le)
  have gm : MonotoneOn (fun t => u t * ρ t ^ 2) (Icc m b) := by
    refine monotoneOn_of_hasDerivWithinAt_nonneg (f' := fun t => -(4 * π * dens t * ρ t ^ 2 / u t)) (convex_Icc m b) ((hu.mono S).mul ((hρ.mono S).pow 2)) (fun r hr => ?_) fun r hr => ?_
    · rw [interior_Icc] at hr ⊢
      have o := ok r ⟨hr.1, hr.2.le⟩
      have hi : r ∈ Ioo 0 b := ⟨m0.trans_lt hr.1, hr.2⟩
      refine (((d2 r hi).mul ((d1 r hi).pow 2)).congr_deriv ?_).hasDerivWithinAt
      have n1 := o.1.ne
      have n2 := o.2.ne'
      simp only [Pi.pow_apply]
      push_cast
      field_simp
      ring
    · rw [interior_Icc] at hr
      have o := ok r ⟨hr.1, hr.2.le⟩
      have := hpos r (m0.trans_lt hr.1)
      rw [neg_nonneg]
      exact div_nonpos_of_nonneg_of_nonpos (by positivity) o.1.le
  have g := gm ⟨le_rfl, mb.le⟩ ⟨mb.le, le_rfl⟩ mb.le
  simp only [] at g
  have c : u b * ρ b ^ 2 < 0 := mul_neg_of_neg_of_pos u0 (by positivity)
  have um : u m < 0 := by
    by_contra n
    have := mul_nonneg (not_lt.1 n) (sq_nonneg (ρ m))
    linarith
  rcases hm with h | h
  · exact absurd um (not_lt.2 h.2)
  · exact absurd rm (not_lt.2 h.2)

/-- The inverse of a decreasing function on an interval, with its derivative. -/
theorem inverse {ρ u : ℝ → ℝ} {b : ℝ} (hb : 0 < b) (hρ : ContinuousOn ρ (Icc 0 b)) (hu : ∀ t ∈ Icc 0 b, u t < 0) (d1 : ∀ t ∈ Ioo 0 b, HasDerivAt ρ (1 / u t) t) :
    ∃ w : ℝ → ℝ, Continuous w ∧ StrictAntiOn ρ (Icc 0 b) ∧ (∀ t ∈ Icc 0 b, w (ρ t) = t) ∧ (∀ r ∈ Icc (ρ b) (ρ 0), w r ∈ Icc 0 b ∧ ρ (w r) = r) ∧
      ∀ r ∈ Ioo (ρ b) (ρ 0), w r ∈ Ioo 0 b ∧ HasDerivAt w (u (w r)) r := by
  have sa : StrictAntiOn ρ (Icc 0 b) := by
    refine strictAntiOn_of_hasDerivWithinAt_neg (f' := fun t => 1 / u t) (convex_Icc 0 b) hρ (fun r hr => ?_) fun r hr => ?_
    · rw [interior_Icc] at hr ⊢; exact (d1 r hr).hasDerivWithinAt
    · rw [interior_Icc] at hr; exact one_div_neg.2 (hu r ⟨hr.1.le, hr.2.le⟩)
  set c : ℝ → ℝ := fun s => max 0 (min s b) with hc
  have cm : ∀ s, c s ∈ Icc 0 b := fun s => ⟨le_max_left _ _, max_le hb.le (min_le_right _ _)⟩
  have ci : ∀ {s}, s ∈ Icc 0 b → c s = s := fun {s} hs => by simp only [hc]; rw [min_eq_left hs.2, max_eq_right hs.1]
  have cmono : Monotone c := fun s s' h => max_le_max le_rfl (min_le_min h le_rfl)
  have clip : ∀ {s s'}, s ≤ s' → c s' - c s ≤ s' - s := fun {s s'} h => by
    simp only [hc]
    rcases le_total s b with h1 | h1 <;> rcases le_total s' b with h2 | h2 <;>
      simp only [min_eq_left, min_eq_right, h1, h2] <;>
      rcases le_total 0 s with h3 | h3 <;> rcases le_total 0 s' with h4 | h4 <;>
      simp only [max_eq_left, max_eq_right, h3, h4, hb.le] <;> linarith
  have ccont : Continuous c := by simp only [hc]; fun_prop
  set h : ℝ → ℝ := fun s => -ρ (c s) + (s - c s) with hh
  have hcont : Continuous h := by
    simp only [hh]
    exact ((hρ.comp_continuous ccont cm).neg).add (by fun_prop)
  have hmono : StrictMono h := fun s s' l => by
    simp only [hh]
    rcases (cmono l.le).eq_or_lt with e | e
    · rw [e]; linarith
    · have := sa (cm s) (cm s') e
      have := clip l.le
      linarith
  have bnd : ∀ s, ρ b ≤ ρ (c s) ∧ ρ (c s) ≤ ρ 0 := fun s =>
    ⟨sa.antitoneOn (cm s) ⟨hb.le, le_rfl⟩ (cm s).2, sa.antitoneOn ⟨le_rfl, hb.le⟩ (cm s) (cm s).1⟩
  have surj : Function.Surjective h := by
    refine hcont.surjective ?_ ?_
    · refine tendsto_atTop_mono (f := fun s => s + (-ρ 0 - b)) (fun s => ?_) (tendsto_atTop_add_const_right _ _ tendsto_id)
      simp only [hh]; have := (bnd s).2; have := (cm s).2; linarith
    · refine tendsto_atBot_mono' (f₂ := h) (f₁ := fun s => s + (-ρ b)) atBot (Eventually.of_forall fun s => ?_) (tendsto_atBot_add_const_right _ _ tendsto_id)
      simp only [hh]; have := (bnd s).1; have := (cm s).1; linarith
  set e := StrictMono.orderIsoOfSurjective h hmono surj with he
  have eh : ∀ s, e s = h s := fun s => rfl
  have wr : ∀ s, e.symm (h s) = s := fun s => by rw [← eh]; exact e.symm_apply_apply s
  have hw : ∀ y, h (e.symm y) = y := fun y => by rw [← eh]; exact e.apply_symm_apply y
  have hin : ∀ {t}, t ∈ Icc 0 b → h t = -ρ t := fun {t} ht => by simp only [hh, ci ht]; ring
  have wc : Continuous fun r => e.symm (-r) := e.symm.continuous.comp continuous_neg
  have inv : ∀ r ∈ Icc (ρ b) (ρ 0), e.symm (-r) ∈ Icc 0 b ∧ ρ (e.symm (-r)) = r := fun r hr => by
    have m : e.symm (-r) ∈ Icc 0 b := by
      constructor
      · rw [← wr 0, hin ⟨le_rfl, hb.le⟩]
        exact e.symm.monotone (by linarith [hr.2])
      · rw [← wr b, hin ⟨hb.le, le_rfl⟩]
        exact e.symm.monotone (by linarith [hr.1])
    refine ⟨m, ?_⟩
    have := hw (-r)
    rw [hin m] at this
    linarith
  refine ⟨fun r => e.symm (-r), wc, sa, fun t ht => ?_, inv, fun r hr => ?_⟩
  · simp only []
    rw [← hin ht, wr]
  · obtain ⟨m, k⟩ := inv r ⟨hr.1.le, hr.2.le⟩
    have m' : e.symm (-r) ∈ Ioo 0 b := by
      refine ⟨lt_of_le_of_ne m.1 fun q => ?_, lt_of_le_of_ne m.2 fun q => ?_⟩
      · rw [← q] at k; exact absurd hr.2 (by rw [k]; exact lt_irrefl _)
      · rw [q] at k; exact absurd hr.1 (by rw [k]; exact lt_irrefl _)
    refine ⟨m', ?_⟩
    have un := hu _ m
    have d := HasDerivAt.of_local_left_inverse (f := ρ) (g := fun r => e.symm (-r)) (a := r) wc.continuousAt (d1 _ m') (one_div_ne_zero un.ne) (by
      filter_upwards [Ioo_mem_nhds hr.1 hr.2] with y hy
      exact (inv y ⟨hy.1.le, hy.2.le⟩).2)
    refine d.congr_deriv ?_
    rw [one_div, inv_inv]

/-- The two systems are one solution. -/
theorem joined {dens : ℝ → ℝ} {y1 y2 : ℝ → ℝ × ℝ} {W0 rb : ℝ} (hdens : Continuous dens) (hmono : Monotone dens) (hnn : ∀ w, 0 ≤ dens w) (hpos : ∀ w, 0 < w → 0 < dens w)
    (hrb : 0 < rb) (hb : 2 * π / 3 * dens W0 * rb ^ 2 < W0)
    (h1 : Solves (rhs1 dens) 0 rb (W0, 0) y1) (h2 : Solves (rhs2 dens) (y1 rb).1 0 (rb, (y1 rb).2) y2) :
    0 < (y1 rb).1 ∧ StrictAntiOn (fun t => (y2 t).1) (Icc 0 (y1 rb).1) ∧ ∃ W dW : ℝ → ℝ, Profile dens W0 (y2 0).1 W dW ∧
      (∀ r ∈ Icc 0 (y2 0).1, 0 ≤ W r) ∧ (∀ r ∈ Icc 0 rb, W r = (y1 r).1 ∧ dW r = (y1 r).2) ∧
      ∀ t ∈ Icc 0 (y1 rb).1, W (y2 t).1 = t ∧ dW (y2 t).1 = (y2 t).2 := by
  have c1 := h1.cont
  rw [uIcc_of_le hrb.le] at c1
  have e1 := h1.d1
  have f1 := h1.d2
  rw [min_eq_left hrb.le, max_eq_right hrb.le] at e1 f1
  have cW : ContinuousOn (fun r => (y1 r).1) (Icc 0 rb) := continuous_fst.comp_continuousOn c1
  have cu : ContinuousOn (fun r => (y1 r).2) (Icc 0 rb) := continuous_snd.comp_continuousOn c1
  have W00 : (y1 0).1 = W0 := by rw [h1.start]
  have u00 : (y1 0).2 = 0 := by rw [h1.start]
  have g1 : ∀ r ∈ Ioo 0 rb, HasDerivAt (fun r => (y1 r).2) (-(4 * π) * dens (y1 r).1 - 2 * (y1 r).2 / r) r := fun r hr => by
    have := f1 r hr
    simp only [rhs1, if_pos hr.1, gt_iff_lt] at this
    exact this
  have lo := phase1 hrb.le hdens hmono hnn cW cu W00 e1 g1
  have pos1 : ∀ r ∈ Icc 0 rb, 0 < (y1 r).1 := fun r hr => by
    have := lo r hr
    have q : r ^ 2 ≤ rb ^ 2 := by have := hr.1; have := hr.2; nlinarith
    have p0 : 0 ≤ 2 * π / 3 * dens W0 := mul_nonneg (by positivity) (hnn _)
    have := mul_le_mul_of_nonneg_left q p0
    linarith
  have B0 : 0 < (y1 rb).1 := pos1 rb ⟨hrb.le, le_rfl⟩
  have un : (y1 rb).2 < 0 := by
    have m := mass_int hdens cW cu g1 hrb.le le_rfl
    have ip : 0 < ∫ s in (0 : ℝ)..rb, 4 * π * s ^ 2 * dens (y1 s).1 := by
      refine intervalIntegral.intervalIntegral_pos_of_pos_on (ContinuousOn.intervalIntegrable_of_Icc hrb.le (ContinuousOn.mul (by fun_prop) (hdens.comp_continuousOn cW)))
        (fun s hs => ?_) hrb
      have := hpos _ (pos1 s ⟨hs.1.le, hs.2.le⟩)
      have := hs.1
      positivity
    rw [← m] at ip
    have : 0 < rb ^ 2 := by positivity
    by_contra n
    have := mul_nonneg (not_lt.1 n) this.le
    linarith
  -- the second system
  generalize hB : (y1 rb).1 = b at *
  have c2 := h2.cont
  rw [uIcc_of_ge B0.le] at c2
  have e2 := h2.d1
  have f2 := h2.d2
  rw [min_eq_right B0.le, max_eq_left B0.le] at e2 f2
  have cρ : ContinuousOn (fun t => (y2 t).1) (Icc 0 b) := continuous_fst.comp_continuousOn c2
  have cv : ContinuousOn (fun t => (y2 t).2) (Icc 0 b) := continuous_snd.comp_continuousOn c2
  have rbb : (y2 b).1 = rb := by rw [h2.start]
  have ubb : (y2 b).2 = (y1 rb).2 := by rw [h2.start]
  have ok := phase2 (ρ := fun t => (y2 t).1) (u := fun t => (y2 t).2) B0 hpos cρ cv (by simp only [rbb]; exact hrb) (by simp only [ubb]; exact un) e2 f2
  obtain ⟨w, wc, sa, wρ, inv, dw⟩ := inverse (ρ := fun t => (y2 t).1) (u := fun t => (y2 t).2) B0 cρ (fun t ht => (ok t ht).1) e2
  simp only [rbb] at inv dw wρ
  have rlt : rb < (y2 0).1 := by
    have := sa ⟨le_rfl, B0.le⟩ ⟨B0.le, le_rfl⟩ B0
    simpa only [rbb] using this
  have wrb : w rb = b := by have := wρ b ⟨B0.le, le_rfl⟩; rwa [rbb] at this
  refine ⟨B0, sa, fun r => if r ≤ rb then (y1 r).1 else w r, fun r => if r ≤ rb then (y1 r).2 else (y2 (w r)).2, ?_⟩
  have lW : ∀ {r}, r ≤ rb → (if r ≤ rb then (y1 r).1 else w r) = (y1 r).1 := fun h => if_pos h
  have ldW : ∀ {r}, r ≤ rb → (if r ≤ rb then (y1 r).2 else (y2 (w r)).2) = (y1 r).2 := fun h => if_pos h
  have rW : ∀ {r}, rb ≤ r → (if r ≤ rb then (y1 r).1 else w r) = w r := fun {r} h => by
    rcases h.eq_or_lt with e | e
    · rw [if_pos e.ge, ← e, wrb, hB]
    · rw [if_neg (not_le.2 e)]
  have rdW : ∀ {r}, rb ≤ r → (if r ≤ rb then (y1 r).2 else (y2 (w r)).2) = (y2 (w r)).2 := fun {r} h => by
    rcases h.eq_or_lt with e | e
    · rw [if_pos e.ge, ← e, wrb, ubb]
    · rw [if_neg (not_le.2 e)]
  set W : ℝ → ℝ := fun r => if r ≤ rb then (y1 r).1 else w r with hWdef
  set dW : ℝ → ℝ := fun r => if r ≤ rb then (y1 r).2 else (y2 (w r)).2 with hdWdef
  have un : Icc 0 (y2 0).1 = Icc 0 rb ∪ Icc rb (y2 0).1 := (Icc_union_Icc_eq_Icc hrb.le rlt.le).symm
  have contW : ContinuousOn W (Icc 0 (y2 0).1) := by
    rw [un]
    exact (cW.congr fun r hr => lW hr.2).union_of_isClosed (wc.continuousOn.congr fun r hr => rW hr.1) isClosed_Icc isClosed_Icc
  have contdW : ContinuousOn dW (Icc 0 (y2 0).1) := by
    rw [un]
    exact (cu.congr fun r hr => ldW hr.2).union_of_isClosed ((cv.comp wc.continuousOn fun r hr => (inv r hr).1).congr fun r hr => rdW hr.1) isClosed_Icc isClosed_Icc
  have nb : Icc 0 (y2 0).1 ∈ 𝓝 rb := Icc_mem_nhds hrb rlt
  have D1 : ∀ r ∈ Ioo 0 (y2 0).1, r ≠ rb → HasDerivAt W (dW r) r := fun r hr n => by
    rcases lt_or_gt_of_ne n with h | h
    · refine ((e1 r ⟨hr.1, h⟩).congr_of_eventuallyEq ?_).congr_deriv (ldW h.le).symm
      filter_upwards [gt_mem_nhds h] with x hx
      exact lW (le_of_lt hx)
    · refine ((dw r ⟨h, hr.2⟩).2.congr_of_eventuallyEq ?_).congr_deriv (rdW h.le).symm
      filter_upwards [lt_mem_nhds h] with x hx
      exact rW (le_of_lt hx)
  have D2 : ∀ r ∈ Ioo 0 (y2 0).1, r ≠ rb → HasDerivAt dW (-(4 * π) * dens (W r) - 2 * dW r / r) r := fun r hr n => by
    rcases lt_or_gt_of_ne n with h | h
    · refine ((g1 r ⟨hr.1, h⟩).congr_of_eventuallyEq ?_).congr_deriv ?_
      · filter_upwards [gt_mem_nhds h] with x hx
        exact ldW (le_of_lt hx)
      · simp only [hWdef, hdWdef, if_pos h.le]
    · obtain ⟨m, d⟩ := dw r ⟨h, hr.2⟩
      have o := ok (w r) ⟨m.1.le, m.2.le⟩
      have i := (inv r ⟨h.le, hr.2.le⟩).2
      refine (((f2 (w r) m).comp r d).congr_of_eventuallyEq ?_).congr_deriv ?_
      · filter_upwards [lt_mem_nhds h] with x hx
        exact rdW (le_of_lt hx)
      · simp only [hWdef, hdWdef, if_neg (not_le.2 h), rhs2]
        rw [show (y2 (w r)).1 = r from i]
        have n1 := o.1.ne
        have n2 : r ≠ 0 := hr.1.ne'
        field_simp
        ring
  refine ⟨⟨contW, contdW, ?_, ?_, ?_, fun r hr => ?_, fun r hr => ?_⟩, fun r hr => ?_, fun r hr => ⟨lW hr.2, ldW hr.2⟩, fun t ht => ?_⟩
  · show W 0 = W0
    simp only [hWdef, if_pos hrb.le, W00]
  · simp only [hdWdef, if_pos hrb.le, u00]
  · simp only [hWdef, if_neg (not_le.2 rlt)]
    exact wρ 0 ⟨le_rfl, B0.le⟩
  · by_cases h : r = rb
    · rw [h]; exact glue hrb rlt D1 (contW.continuousAt nb) (contdW.continuousAt nb)
    · exact D1 r hr h
  · by_cases h : r = rb
    · rw [h]
      refine glue hrb rlt D2 (contdW.continuousAt nb) ?_
      have a := contW.continuousAt nb
      have b := contdW.continuousAt nb
      exact (continuousAt_const.mul (hdens.continuousAt.comp a)).sub ((continuousAt_const.mul b).div continuousAt_id hrb.ne')
    · exact D2 r hr h
  · rcases le_total r rb with h | h
    · simp only [hWdef, if_pos h]; exact (pos1 r ⟨hr.1, h⟩).le
    · have : W r = w r := rW h
      rw [this]; exact (inv r ⟨h, hr.2⟩).1.1
  · have ge : rb ≤ (y2 t).1 := by
      have := sa.antitoneOn ht ⟨B0.le, le_rfl⟩ ht.2
      simpa only [rbb] using this
    refine ⟨(rW ge).trans (wρ t ht), (rdW ge).trans ?_⟩
    rw [wρ t ht]

theorem raise_eq {eps : ℝ} {c : ℕ → ℝ} : ∀ {n : ℕ}, (∀ i, i + 1 < n → c i ≤ c (i + 1)) → ∀ i < n, raise eps c i = c i := by
  intro n h i
  induction i with
  | zero => intro _; rfl
  | succ i ih =>
    intro hi
    rw [raise, ih (by omega), if_neg (not_lt.2 (h i hi))]

theorem linspace_mem {a b : ℝ} {n i : ℕ} (hn : 2 ≤ n) (hi : i < n) : ∃ s, 0 ≤ s ∧ s ≤ 1 ∧ linspace a b n i = a + s * (b - a) := by
  have h1 : (2 : ℝ) ≤ n := by exact_mod_cast hn
  have h2 : (i : ℝ) ≤ n - 1 := by
    have : (i : ℝ) + 1 ≤ n := by exact_mod_cast hi
    linarith
  refine ⟨i / (n - 1), div_nonneg (by positivity) (by linarith), (div_le_one (by linarith)).2 h2, ?_⟩
  rw [linspace]; ring

theorem rbreak_ok {dens : ℝ → ℝ} {W0 : ℝ} (hd : 0 < dens W0) (h : 1.5e-4 < W0) : 0 < rbreak dens W0 ∧ 2 * π / 3 * dens W0 * rbreak dens W0 ^ 2 < W0 := by
  have q : 0 < 9 / 4 / π / dens W0 := by positivity
  have r2 : King.r0 dens W0 ^ 2 = 9 / 4 / π / dens W0 := sq_sqrt q.le
  have p : 0 < King.r0 dens W0 := sqrt_pos.2 q
  have e : 2 * π / 3 * dens W0 * King.r0 dens W0 ^ 2 = 3 / 2 := by rw [r2]; field_simp; norm_num
  unfold rbreak
  split_ifs with c
  · refine ⟨by positivity, ?_⟩
    rw [div_pow, show 2 * π / 3 * dens W0 * (King.r0 dens W0 ^ 2 / 100 ^ 2) = 2 * π / 3 * dens W0 * King.r0 dens W0 ^ 2 / 100 ^ 2 by ring, e]
    norm_num at h ⊢
    exact h
  · exact ⟨p, by rw [e]; linarith⟩

end C91aux

/-- The structure of the model: with an exact solver the arrays of radii, `W` and derivatives are values of one solution of Poisson's
equation from the centre to the tidal radius, `W` is not negative, and the array of masses is that of the masses enclosed, for any
positive density growing with `W` and every central value larger than `1.5e-4`. -/
theorem C91_solution (S : Solver) {dens : ℝ → ℝ} (hdens : Continuous dens) (hmono : Monotone dens) (hnn : ∀ w, 0 ≤ dens w) (hpos : ∀ w, 0 < w → 0 < dens w)
    {W0 : ℝ} (hW : 1.5e-4 < W0) {npt : ℕ} (hn : 2 ≤ npt) (h1 : Solves (rhs1 dens) 0 (rbreak dens W0) (W0, 0) (sol1 S dens W0))
    (h2 : Solves (rhs2 dens) (sol1 S dens W0 (rbreak dens W0)).1 0 (rbreak dens W0, (sol1 S dens W0 (rbreak dens W0)).2) (sol2 S dens W0)) :
    0 < sfRt S dens W0 npt ∧ ∃ W dW : ℝ → ℝ, Profile dens W0 (sfRt S dens W0 npt) W dW ∧ (∀ r ∈ Icc 0 (sfRt S dens W0 npt), 0 ≤ W r) ∧
      (∀ i < npt, arrR S dens W0 npt i ∈ Icc 0 (sfRt S dens W0 npt) ∧ arrW S dens W0 npt i = W (arrR S dens W0 npt i) ∧ arrdW S dens W0 npt i = dW (arrR S dens W0 npt i)) ∧
      (∀ i, i + 1 < npt → arrR S dens W0 npt i < arrR S dens W0 npt (i + 1)) ∧
      (∀ eps, ∀ i < npt, cumulMass eps S dens W0 npt i = ∫ s in (0 : ℝ)..arrR S dens W0 npt i, 4 * π * s ^ 2 * dens (W s)) ∧
      ∀ eps, sfMass eps S dens W0 npt = -dW (sfRt S dens W0 npt) * sfRt S dens W0 npt ^ 2 := by
  have W0p : 0 < W0 := lt_trans (by norm_num) hW
  obtain ⟨hrb, hb⟩ := rbreak_ok (hpos W0 W0p) hW
  obtain ⟨B0, sa, W, dW, P, nn, l, r⟩ := joined hdens hmono hnn hpos hrb hb h1 h2
  generalize hrbd : rbreak dens W0 = rb at *
  have ebb : (sol2 S dens W0 (sol1 S dens W0 rb).1).1 = rb := by rw [h2.start]
  have lsW : ∀ i, ¬ i < npt / 2 - 1 → arrW S dens W0 npt i = linspace (sol1 S dens W0 rb).1 0 (npt - npt / 2 + 1) (i - (npt / 2 - 1)) := fun i hi => by
    rw [arrW, if_neg hi, hrbd]
  have inW : ∀ i < npt, ¬ i < npt / 2 - 1 → arrW S dens W0 npt i ∈ Icc 0 (sol1 S dens W0 rb).1 := fun i hi hc => by
    rw [lsW i hc]
    obtain ⟨s, s0, s1, e⟩ := linspace_mem (a := (sol1 S dens W0 rb).1) (b := 0) (n := npt - npt / 2 + 1) (i := i - (npt / 2 - 1)) (by omega) (by omega)
    rw [e]
    constructor <;> nlinarith
  have last : arrW S dens W0 npt (npt - 1) = 0 := by
    rw [lsW _ (by omega), linspace, show npt - 1 - (npt / 2 - 1) = npt - npt / 2 by omega]
    have : ((npt - npt / 2 : ℕ) : ℝ) ≠ 0 := by
      have : npt - npt / 2 ≠ 0 := by omega
      exact_mod_cast this
    push_cast
    rw [zero_sub, add_sub_cancel_right, mul_div_cancel₀ _ this, add_neg_cancel]
  have rt : sfRt S dens W0 npt = (sol2 S dens W0 0).1 := by rw [sfRt, arrR, if_neg (by omega), last]
  have rtge : rb < (sol2 S dens W0 0).1 := by
    have := sa ⟨le_rfl, B0.le⟩ ⟨B0.le, le_rfl⟩ B0
    simp only [ebb] at this
    exact this
  have in1 : ∀ i, i < npt / 2 - 1 → linspace 0 rb (npt / 2) i ∈ Ico 0 rb := fun i hi => by
    have h3 : ((i : ℝ)) < (npt / 2 : ℕ) - 1 := by
      have : ((i + 1 : ℕ) : ℝ) < (npt / 2 : ℕ) := by exact_mod_cast (by omega : i + 1 < npt / 2)
      push_cast at this ⊢
      linarith
    have h4 : (0 : ℝ) < (npt / 2 : ℕ) - 1 := lt_of_le_of_lt (by positivity) h3
    rw [linspace]
    constructor
    · have : 0 ≤ (i : ℝ) * ((rb - 0) / ((npt / 2 : ℕ) - 1)) := mul_nonneg (by positivity) (div_nonneg (by linarith) h4.le)
      linarith
    · rw [zero_add, sub_zero, ← mul_div_assoc, div_lt_iff₀ h4]
      nlinarith
  have vals : ∀ i < npt, arrR S dens W0 npt i ∈ Icc 0 (sfRt S dens W0 npt) ∧ arrW S dens W0 npt i = W (arrR S dens W0 npt i) ∧ arrdW S dens W0 npt i = dW (arrR S dens W0 npt i) := fun i hi => by
    by_cases c : i < npt / 2 - 1
    · have m := in1 i c
      have v := l _ ⟨m.1, m.2.le⟩
      rw [rt, arrR, if_pos c, arrW, if_pos c, arrdW, if_pos c, hrbd]
      exact ⟨⟨m.1, m.2.le.trans rtge.le⟩, v.1.symm, v.2.symm⟩
    · have m := inW i hi c
      have v := r _ m
      have a := sa.antitoneOn m ⟨B0.le, le_rfl⟩ m.2
      have b := sa.antitoneOn ⟨le_rfl, B0.le⟩ m m.1
      simp only [ebb] at a b
      rw [rt, arrR, if_neg c, arrdW, if_neg c]
      exact ⟨⟨hrb.le.trans a, b⟩, v.1.symm, v.2.symm⟩
  have inc : ∀ i, i + 1 < npt → arrR S dens W0 npt i < arrR S dens W0 npt (i + 1) := fun i hi => by
    by_cases c : i + 1 < npt / 2 - 1
    · rw [arrR, if_pos (by omega), arrR, if_pos c, hrbd, linspace, linspace]
      have h4 : (0 : ℝ) < (npt / 2 : ℕ) - 1 := by
        have : ((1 : ℕ) : ℝ) < (npt / 2 : ℕ) := by exact_mod_cast (by omega : 1 < npt / 2)
        push_cast at this ⊢
        linarith
      have : 0 < (rb - 0) / ((npt / 2 : ℕ) - 1 : ℝ) := div_pos (by linarith) h4
      push_cast
      nlinarith
    · have m' := inW (i + 1) hi c
      have a' := sa.antitoneOn m' ⟨B0.le, le_rfl⟩ m'.2
      simp only [ebb] at a'
      by_cases c' : i < npt / 2 - 1
      · have m := in1 i c'
        rw [arrR, if_pos c', arrR, if_neg c, hrbd]
        exact m.2.trans_le a'
      · have m := inW i (by omega) c'
        rw [arrR, if_neg c', arrR, if_neg c]
        refine sa m' m ?_
        rw [lsW i c', lsW (i + 1) c, linspace, linspace, show i + 1 - (npt / 2 - 1) = (i - (npt / 2 - 1)) + 1 by omega]
        have h4 : (0 : ℝ) < (npt - npt / 2 : ℕ) := by exact_mod_cast (by omega : 0 < npt - npt / 2)
        have : 0 < (sol1 S dens W0 rb).1 / ((npt - npt / 2 : ℕ) : ℝ) := div_pos B0 h4
        push_cast
        rw [zero_sub, add_sub_cancel_right, neg_div]
        linarith
  have cm : ∀ eps, ∀ i < npt, cumulMass eps S dens W0 npt i = ∫ s in (0 : ℝ)..arrR S dens W0 npt i, 4 * π * s ^ 2 * dens (W s) := fun eps i hi => by
    have f : ∀ j < npt, -arrdW S dens W0 npt j * arrR S dens W0 npt j ^ 2 = ∫ s in (0 : ℝ)..arrR S dens W0 npt j, 4 * π * s ^ 2 * dens (W s) := fun j hj => by
      obtain ⟨m, _, v⟩ := vals j hj
      rw [v]
      rw [rt] at m
      exact C91_mass hdens P m.1 m.2
    rw [cumulMass, raise_eq (n := npt) (fun j hj => ?_) i hi, f i hi]
    rw [f j (by omega), f (j + 1) hj]
    have m := (vals j (by omega)).1
    have m' := (vals (j + 1) hj).1
    rw [rt] at m m'
    refine intervalIntegral.integral_mono_interval le_rfl m.1 (inc j hj).le ?_ ?_
    · exact Eventually.of_forall fun s => mul_nonneg (by positivity) (hnn _)
    · exact ContinuousOn.intervalIntegrable_of_Icc m'.1 (ContinuousOn.mul (by fun_prop) (hdens.comp_continuousOn (P.cont.mono (Icc_subset_Icc_right m'.2))))
  have rp : 0 < sfRt S dens W0 npt := by rw [rt]; exact hrb.trans rtge
  have P' : Profile dens W0 (sfRt S dens W0 npt) W dW := by rw [rt]; exact P
  refine ⟨rp, W, dW, P', by rw [rt]; exact nn, vals, inc, cm, fun eps => ?_⟩
  rw [sfMass, cm eps _ (by omega), C91_mass hdens P' rp.le le_rfl]
  rfl

/-- King's density is continuous, grows with `W`, and vanishes exactly where `W` is not positive: the theorem above applies to it. -/
theorem C91_king : Continuous densW ∧ Monotone densW ∧ (∀ w, 0 ≤ densW w) ∧ ∀ w, 0 < densW w ↔ 0 < w :=
  ⟨densW_cont, densW_mono, densW_nonneg, fun w => ⟨fun h => by
    by_contra c
    rw [densW_nonpos (not_lt.1 c)] at h
    exact lt_irrefl _ h, densW_pos⟩⟩

/-- The scales: the central density is the density at the centre, and King's radius, the central density and the velocity scale
satisfy King's relation `4 π ρ0 r0² = 9 σ²`. -/
theorem C91_scales (p : Par) (hW : 0 < p.W0) (h0 : p.W 0 = p.W0) (hM : 0 < p.M) (ht : 0 < p.rt) (hm : 0 < p.sfMass) (hR : 0 < p.sfRt) :
    p.rho0 = p.dens 0 ∧ 4 * π * p.rho0 * p.r0 ^ 2 = 9 * p.sigma ^ 2 := by
  have hr : 0 < p.radiusScale := div_pos ht hR
  have hs : 0 < p.massScale / p.radiusScale := div_pos (div_pos hM hm) hr
  have d := densW_pos hW
  refine ⟨by rw [Par.rho0, Par.dens, zero_div, h0]; rfl, ?_⟩
  have r2 : King.r0 densW p.W0 ^ 2 = 9 / 4 / π / densW p.W0 := sq_sqrt (by positivity)
  rw [Par.r0, mul_pow, r2, Par.rho0, King.rho0, Par.sigma, Par.velocityScale, sq_sqrt hs.le, Par.densityScale]
  field_simp

example : 4 * π * parab.rho0 * parab.r0 ^ 2 = 9 * parab.sigma ^ 2 :=
  (C91_scales parab (by norm_num [parab]) (by norm_num [parab]) (by norm_num [parab]) (by norm_num [parab]) (by norm_num [parab]) (by norm_num [parab])).2

namespace C91aux

/-- An exact solver for a homogeneous sphere, for the example. -/
def ballS : Solver := fun _ t0 _ t => if t0 = 0 then (3 - t ^ 2, -2 * t) else (√(3 - t), -2 * √(3 - t))

theorem ball_rbreak : rbreak (fun _ => 3 / (2 * π)) 3 = √(3 / 2) := by
  rw [rbreak, if_neg (by norm_num), King.r0, King.rho0]
  congr 1
  field_simp
  norm_num

theorem ball_first (t : ℝ) : sol1 ballS (fun _ => 3 / (2 * π)) 3 t = (3 - t ^ 2, -2 * t) := by rw [sol1, ballS, if_pos rfl]

theorem ball_break : sol1 ballS (fun _ => 3 / (2 * π)) 3 √(3 / 2) = (3 / 2, -2 * √(3 / 2)) := by
  rw [ball_first, sq_sqrt (by norm_num)]; norm_num

theorem ball_second (t : ℝ) : sol2 ballS (fun _ => 3 / (2 * π)) 3 t = (√(3 - t), -2 * √(3 - t)) := by
  rw [sol2, ball_rbreak, ball_break, ballS, if_neg (by norm_num)]

theorem ball_solves1 : Solves (rhs1 fun _ => 3 / (2 * π)) 0 √(3 / 2) (3, 0) (sol1 ballS (fun _ => 3 / (2 * π)) 3) := by
  have e : sol1 ballS (fun _ => 3 / (2 * π)) 3 = fun t => (3 - t ^ 2, -2 * t) := funext ball_first
  rw [e]
  have p : (0 : ℝ) ≤ √(3 / 2) := sqrt_nonneg _
  refine ⟨by norm_num, by fun_prop, fun t _ => ?_, fun t ht => ?_⟩
  · refine (((hasDerivAt_id t).pow 2).const_sub 3).congr_deriv ?_
    simp [rhs1]
  · rw [min_eq_left p, max_eq_right p] at ht
    have : t ≠ 0 := ht.1.ne'
    refine ((hasDerivAt_id t).const_mul (-2)).congr_deriv ?_
    simp only [rhs1, gt_iff_lt, if_pos ht.1]
    field_simp
    norm_num

theorem ball_solves2 : Solves (rhs2 fun _ => 3 / (2 * π)) (3 / 2) 0 (√(3 / 2), -2 * √(3 / 2)) (sol2 ballS (fun _ => 3 / (2 * π)) 3) := by
  have e : sol2 ballS (fun _ => 3 / (2 * π)) 3 = fun t => (√(3 - t), -2 * √(3 - t)) := funext ball_second
  rw [e]
  have key : ∀ t ∈ Ioo (min (3 / 2) 0) (max (3 / 2 : ℝ) 0), HasDerivAt (fun s => √(3 - s)) (-1 / (2 * √(3 - t))) t ∧ 0 < √(3 - t) := fun t ht => by
    rw [min_eq_right (by norm_num), max_eq_left (by norm_num)] at ht
    have : 0 < 3 - t := by linarith [ht.2]
    exact ⟨((hasDerivAt_id t).const_sub 3).sqrt this.ne', sqrt_pos.2 this⟩
  refine ⟨by norm_num, by fun_prop, fun t ht => ?_, fun t ht => ?_⟩
  · obtain ⟨d, p⟩ := key t ht
    refine d.congr_deriv ?_
    simp only [rhs2]
    field_simp
  · obtain ⟨d, p⟩ := key t ht
    refine (d.const_mul (-2)).congr_deriv ?_
    simp only [rhs2]
    field_simp
    norm_num

end C91aux

example : ∃ W dW : ℝ → ℝ, Profile (fun _ => 3 / (2 * π)) 3 (sfRt ballS (fun _ => 3 / (2 * π)) 3 1001) W dW := by
  have p : (0 : ℝ) < 3 / (2 * π) := by positivity
  obtain ⟨_, W, dW, P, _⟩ := C91_solution ballS (dens := fun _ => 3 / (2 * π)) continuous_const monotone_const (fun _ => p.le) (fun _ _ => p) (W0 := 3)
    (by norm_num) (npt := 1001) (by norm_num) (by rw [ball_rbreak]; exact ball_solves1) (by rw [ball_rbreak, ball_break]; exact ball_solves2)
  exact ⟨W, dW, P⟩

end Verif
