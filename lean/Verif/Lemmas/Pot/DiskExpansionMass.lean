import Verif.Lemmas.Pot.DiskExpansion
import Mathlib.MeasureTheory.Integral.Prod
import Mathlib.MeasureTheory.Integral.IntervalIntegral.FundThmCalculus

set_option autoImplicit false

noncomputable section
namespace Verif.DiskExp
open Real Filter Topology MeasureTheory Set

/-- What the mass needs beyond `Pair.Ok`: the second derivative and the vertical profile are continuous and the surface density
and its derivatives have limits at the centre. -/
structure Pair.Centre (p : Pair) : Prop where
  h : Continuous p.h
  d2s : ContinuousOn p.d2s (Ioi 0)
  lim : ∃ c0 c1 c2, Tendsto p.s (𝓝[>] 0) (𝓝 c0) ∧ Tendsto p.ds (𝓝[>] 0) (𝓝 c1) ∧ Tendsto p.d2s (𝓝[>] 0) (𝓝 c2)

/-- Extension to the centre by the limit. -/
def ext (f : ℝ → ℝ) (c : ℝ) (r : ℝ) : ℝ := if 0 < r then f r else c

theorem ext_pos {f : ℝ → ℝ} {c r : ℝ} (h : 0 < r) : ext f c r = f r := if_pos h

theorem ext_cont {f : ℝ → ℝ} {c : ℝ} (h : ContinuousOn f (Ioi 0)) (hc : Tendsto f (𝓝[>] 0) (𝓝 c)) : Continuous (ext f c) := by
  rw [continuous_iff_continuousAt]
  intro x
  rcases lt_trichotomy x 0 with hx | rfl | hx
  · refine (continuousAt_const (y := c)).congr ?_
    filter_upwards [gt_mem_nhds hx] with y hy
    simp [ext, not_lt.2 hy.le]
  · have e : ext f c 0 = c := by simp [ext]
    rw [ContinuousAt, e, ← nhdsLE_sup_nhdsGT, tendsto_sup]
    refine ⟨?_, ?_⟩
    · refine tendsto_const_nhds.congr' ?_
      filter_upwards [self_mem_nhdsWithin] with y hy
      simp [ext, not_lt.2 (mem_Iic.1 hy)]
    · refine hc.congr' ?_
      filter_upwards [self_mem_nhdsWithin] with y hy
      exact (ext_pos hy).symm
  · refine ((h x hx).continuousAt (Ioi_mem_nhds hx)).congr ?_
    filter_upwards [lt_mem_nhds hx] with y hy
    exact (ext_pos hy).symm

section pair
variable {p : Pair} {S S1 S2 : ℝ → ℝ}

/-- The radial derivative of the flux through the sphere. -/
def G (p : Pair) (S S1 S2 : ℝ → ℝ) (ρ θ : ℝ) : ℝ :=
  (2 * ρ * (S1 ρ * p.H (ρ * cos θ) + S ρ * p.dH (ρ * cos θ) * cos θ)
    + ρ ^ 2 * (S2 ρ * p.H (ρ * cos θ) + 2 * S1 ρ * p.dH (ρ * cos θ) * cos θ + S ρ * p.h (ρ * cos θ) * cos θ ^ 2)) * sin θ

theorem theta_zero (k : p.Ok) (hh : Continuous p.h) (ρ : ℝ) :
    ∫ θ in (0 : ℝ)..π, (ρ ^ 2 * p.h (ρ * cos θ) * (1 - cos θ ^ 2) - 2 * ρ * cos θ * p.dH (ρ * cos θ)) * sin θ = 0 := by
  have hd : Continuous p.dH := continuous_iff_continuousAt.2 fun z => (k.dH z).continuousAt
  have := intervalIntegral.integral_eq_sub_of_hasDerivAt (a := 0) (b := π)
    (f := fun θ => -(ρ * (1 - cos θ ^ 2) * p.dH (ρ * cos θ)))
    (f' := fun θ => (ρ ^ 2 * p.h (ρ * cos θ) * (1 - cos θ ^ 2) - 2 * ρ * cos θ * p.dH (ρ * cos θ)) * sin θ) ?_ ?_
  · rw [this]
    simp
  · intro θ _
    have h1 : HasDerivAt (fun θ : ℝ => p.dH (ρ * cos θ)) (p.h (ρ * cos θ) * (ρ * -sin θ)) θ :=
      HasDerivAt.comp (h := fun θ : ℝ => ρ * cos θ) θ (k.dH _) ((Real.hasDerivAt_cos θ).const_mul ρ)
    apply HasDerivAt.congr_deriv
    · hasderiv
    · push_cast
      ring
  · exact (by fun_prop : Continuous _).intervalIntegrable _ _

theorem pair_mass (k : p.Ok) (hh : Continuous p.h) (cS : Continuous S) (c1 : Continuous S1) (c2 : Continuous S2)
    (eS : ∀ r, 0 < r → S r = p.s r) (e1 : ∀ r, 0 < r → S1 r = p.ds r) (e2 : ∀ r, 0 < r → S2 r = p.d2s r) {R : ℝ} (hR : 0 < R) :
    IntervalIntegrable (fun ρ => ∫ θ in (0 : ℝ)..π, p.rho ρ (ρ * cos θ) * (ρ ^ 2 * sin θ)) volume 0 R
    ∧ (∫ ρ in (0 : ℝ)..R, ∫ θ in (0 : ℝ)..π, p.rho ρ (ρ * cos θ) * (ρ ^ 2 * sin θ))
      = ∫ θ in (0 : ℝ)..π, p.a * (R ^ 2 * (p.ds R * p.H (R * cos θ) + p.s R * p.dH (R * cos θ) * cos θ) * sin θ) := by
  have hd : Continuous p.dH := continuous_iff_continuousAt.2 fun z => (k.dH z).continuousAt
  have hH : Continuous p.H := continuous_iff_continuousAt.2 fun z => (k.H z).continuousAt
  have cG : Continuous (Function.uncurry (G p S S1 S2)) := by
    unfold Function.uncurry G
    fun_prop
  have cG' : ∀ ρ, Continuous (G p S S1 S2 ρ) := fun ρ => by unfold G; fun_prop
  have cG'' : ∀ θ, Continuous (fun ρ => G p S S1 S2 ρ θ) := fun θ => by unfold G; fun_prop
  -- inner integral
  have i1 : ∀ ρ ∈ uIoc 0 R, (∫ θ in (0 : ℝ)..π, p.rho ρ (ρ * cos θ) * (ρ ^ 2 * sin θ))
      = p.a * ∫ θ in (0 : ℝ)..π, G p S S1 S2 ρ θ := by
    intro ρ hρ
    rw [uIoc_of_le hR.le] at hρ
    have h0 := hρ.1
    have z := theta_zero k hh ρ
    have e : (∫ θ in (0 : ℝ)..π, G p S S1 S2 ρ θ) = ∫ θ in (0 : ℝ)..π, (G p S S1 S2 ρ θ
        + p.s ρ * ((ρ ^ 2 * p.h (ρ * cos θ) * (1 - cos θ ^ 2) - 2 * ρ * cos θ * p.dH (ρ * cos θ)) * sin θ)) := by
      rw [intervalIntegral.integral_add ((cG' ρ).intervalIntegrable _ _)
        ((by fun_prop : Continuous fun θ : ℝ =>
          p.s ρ * ((ρ ^ 2 * p.h (ρ * cos θ) * (1 - cos θ ^ 2) - 2 * ρ * cos θ * p.dH (ρ * cos θ)) * sin θ)).intervalIntegrable _ _),
        intervalIntegral.integral_const_mul, z, mul_zero, add_zero]
    rw [e, ← intervalIntegral.integral_const_mul]
    refine intervalIntegral.integral_congr fun θ _ => ?_
    simp only [Pair.rho, G, eS ρ h0, e1 ρ h0, e2 ρ h0]
    field_simp
    ring
  have i2 : ∀ θ : ℝ, (∫ ρ in (0 : ℝ)..R, G p S S1 S2 ρ θ)
      = R ^ 2 * (p.ds R * p.H (R * cos θ) + p.s R * p.dH (R * cos θ) * cos θ) * sin θ := by
    intro θ
    have := intervalIntegral.integral_eq_sub_of_hasDerivAt_of_le hR.le
      (f := fun ρ => ρ ^ 2 * (S1 ρ * p.H (ρ * cos θ) + S ρ * p.dH (ρ * cos θ) * cos θ) * sin θ)
      (f' := fun ρ => G p S S1 S2 ρ θ) (by fun_prop) ?_ ((cG'' θ).intervalIntegrable _ _)
    · rw [this, eS R hR, e1 R hR]
      simp
    · intro ρ hρ
      have h0 : 0 < ρ := hρ.1
      have a1 : HasDerivAt (fun ρ : ℝ => p.dH (ρ * cos θ)) (p.h (ρ * cos θ) * (1 * cos θ)) ρ :=
        HasDerivAt.comp (h := fun ρ : ℝ => ρ * cos θ) ρ (k.dH _) ((hasDerivAt_id ρ).mul_const _)
      have a2 : HasDerivAt (fun ρ : ℝ => p.H (ρ * cos θ)) (p.dH (ρ * cos θ) * (1 * cos θ)) ρ :=
        HasDerivAt.comp (h := fun ρ : ℝ => ρ * cos θ) ρ (k.H _) ((hasDerivAt_id ρ).mul_const _)
      have a3 : HasDerivAt S (S1 ρ) ρ := by
        rw [e1 ρ h0]
        exact (k.s ρ h0).congr_of_eventuallyEq ((lt_mem_nhds h0).mono fun x hx => eS x hx)
      have a4 : HasDerivAt S1 (S2 ρ) ρ := by
        rw [e2 ρ h0]
        exact (k.ds ρ h0).congr_of_eventuallyEq ((lt_mem_nhds h0).mono fun x hx => e1 x hx)
      apply HasDerivAt.congr_deriv
      · hasderiv
      · simp only [G]
        push_cast
        ring
  refine ⟨?_, ?_⟩
  · have : Continuous fun ρ => p.a * ∫ θ in (0 : ℝ)..π, G p S S1 S2 ρ θ :=
      continuous_const.mul (intervalIntegral.continuous_parametric_intervalIntegral_of_continuous' cG _ _)
    exact (this.intervalIntegrable 0 R).congr fun ρ hρ => (i1 ρ hρ).symm
  rw [intervalIntegral.integral_congr_ae (Eventually.of_forall i1), intervalIntegral.integral_const_mul,
    intervalIntegral_intervalIntegral_swap (F := G p S S1 S2) ?_, ← intervalIntegral.integral_const_mul]
  · refine intervalIntegral.integral_congr fun θ _ => ?_
    simp only [i2]
  · refine (cG.continuousOn.integrableOn_compact (K := uIcc 0 R ×ˢ uIcc 0 π) (isCompact_uIcc.prod isCompact_uIcc)).mono_set ?_
    exact prod_mono uIoc_subset_uIcc uIoc_subset_uIcc

end pair

theorem massIntegrand_eq (ps : List Pair) {r : ℝ} (hr : 0 < r) (θ : ℝ) :
    massIntegrand ps r θ = (ps.map fun p => p.a * (r ^ 2 * (p.ds r * p.H (r * cos θ) + p.s r * p.dH (r * cos θ) * cos θ) * sin θ)).sum := by
  unfold massIntegrand
  simp only [add_assoc]
  rw [foldl_add (fun p : Pair => p.a * p.ds r * p.H (r * cos θ) * (r * sin θ) ^ 2
    + p.a * (p.ds r * p.H (r * cos θ) * (r * cos θ) / r + p.s r * p.dH (r * cos θ)) * (r * cos θ) * r), zero_add,
    ← List.sum_map_mul_right]
  congr 1
  refine List.map_congr_left fun p _ => ?_
  have := sin_sq_add_cos_sq θ
  have e : p.ds r * p.H (r * cos θ) * (r * cos θ) / r = p.ds r * p.H (r * cos θ) * cos θ := by field_simp
  rw [e]
  linear_combination p.a * p.ds r * p.H (r * cos θ) * r ^ 2 * sin θ * this

theorem int_list {α : Type} (l : List α) (f : α → ℝ → ℝ) {a b : ℝ} (h : ∀ p ∈ l, IntervalIntegrable (f p) volume a b) :
    IntervalIntegrable (fun x => (l.map fun p => f p x).sum) volume a b
    ∧ (∫ x in a..b, (l.map fun p => f p x).sum) = (l.map fun p => ∫ x in a..b, f p x).sum := by
  induction l with
  | nil => simp
  | cons p l ih =>
    obtain ⟨i, e⟩ := ih fun q hq => h q (by simp [hq])
    have hp := h p (by simp)
    refine ⟨?_, ?_⟩
    · simpa using hp.add i
    · simp only [List.map_cons, List.sum_cons]
      rw [intervalIntegral.integral_add hp i, e]

theorem dens_sub (me : Pot) (ps : List Pair) (R z φ t : ℝ) :
    (raw me ps).dens R z φ t - me.dens R z φ t = (ps.map fun p => p.rho (√(R ^ 2 + z ^ 2)) z).sum := by
  simp only [raw, dens, foldl_add (fun p : Pair => p.rho _ z)]
  ring

theorem mass_eq (me : Pot) (meMass : ℝ → ℝ) {ps : List Pair} (k : ∀ p ∈ ps, p.Ok) (c : ∀ p ∈ ps, p.Centre) {R : ℝ} (hR : 0 < R) (t : ℝ) :
    mass meMass ps R = meMass R + ∫ r in (0 : ℝ)..R, ∫ θ in (0 : ℝ)..π, ∫ φ in (0 : ℝ)..(2 * π),
      ((raw me ps).dens (r * sin θ) (r * cos θ) φ t - me.dens (r * sin θ) (r * cos θ) φ t) * (r ^ 2 * sin θ) := by
  have key : ∀ p ∈ ps, IntervalIntegrable (fun ρ => ∫ θ in (0 : ℝ)..π, p.rho ρ (ρ * cos θ) * (ρ ^ 2 * sin θ)) volume 0 R
    ∧ (∫ ρ in (0 : ℝ)..R, ∫ θ in (0 : ℝ)..π, p.rho ρ (ρ * cos θ) * (ρ ^ 2 * sin θ))
      = ∫ θ in (0 : ℝ)..π, p.a * (R ^ 2 * (p.ds R * p.H (R * cos θ) + p.s R * p.dH (R * cos θ) * cos θ) * sin θ) := by
    intro p hp
    obtain ⟨c0, c1, c2, l0, l1, l2⟩ := (c p hp).lim
    have ks : ContinuousOn p.s (Ioi 0) := fun x hx => ((k p hp).s x hx).continuousAt.continuousWithinAt
    have kd : ContinuousOn p.ds (Ioi 0) := fun x hx => ((k p hp).ds x hx).continuousAt.continuousWithinAt
    exact pair_mass (k p hp) (c p hp).h (ext_cont ks l0) (ext_cont kd l1) (ext_cont (c p hp).d2s l2) (fun r h => ext_pos h)
      (fun r h => ext_pos h) (fun r h => ext_pos h) hR
  have cont : ∀ p ∈ ps, Continuous p.H ∧ Continuous p.dH := fun p hp =>
    ⟨continuous_iff_continuousAt.2 fun z => ((k p hp).H z).continuousAt,
      continuous_iff_continuousAt.2 fun z => ((k p hp).dH z).continuousAt⟩
  unfold mass
  congr 1
  have e1 : (∫ θ in (0 : ℝ)..π, massIntegrand ps R θ)
      = (ps.map fun p => ∫ ρ in (0 : ℝ)..R, ∫ θ in (0 : ℝ)..π, p.rho ρ (ρ * cos θ) * (ρ ^ 2 * sin θ)).sum := by
    simp only [massIntegrand_eq ps hR]
    rw [(int_list ps _ fun p hp => ?_).2]
    · congr 1
      exact List.map_congr_left fun p hp => (key p hp).2.symm
    · obtain ⟨h1, h2⟩ := cont p hp
      exact (by fun_prop : Continuous _).intervalIntegrable _ _
  rw [e1, ← (int_list ps _ fun p hp => (key p hp).1).2, ← intervalIntegral.integral_const_mul]
  refine intervalIntegral.integral_congr_ae (Eventually.of_forall fun r hr => ?_)
  rw [uIoc_of_le hR.le] at hr
  have h0 : 0 < r := hr.1
  have e2 : ∀ θ : ℝ, √((r * sin θ) ^ 2 + (r * cos θ) ^ 2) = r := fun θ => by
    rw [show (r * sin θ) ^ 2 + (r * cos θ) ^ 2 = r ^ 2 * (sin θ ^ 2 + cos θ ^ 2) by ring, sin_sq_add_cos_sq, mul_one, sqrt_sq h0.le]
  simp only [dens_sub, e2, intervalIntegral.integral_const, sub_zero, smul_eq_mul]
  rw [intervalIntegral.integral_const_mul]
  congr 1
  rw [← (int_list ps _ fun p hp => ?_).2]
  · refine intervalIntegral.integral_congr fun θ _ => ?_
    simp only [List.sum_map_mul_right]
  · obtain ⟨h1, h2⟩ := cont p hp
    have h3 := (c p hp).h
    unfold Pair.rho
    exact (by fun_prop : Continuous _).intervalIntegrable _ _

end Verif.DiskExp
