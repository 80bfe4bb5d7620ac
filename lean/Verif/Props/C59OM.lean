import Verif.Props.C59Eddington

set_option autoImplicit false

/-!
# C59: Osipkov-Merritt distribution functions for any potential and density, and the closed forms
of the Hernquist sphere
-/

noncomputable section
open Real MeasureTheory Set Filter Topology

namespace Verif
open Sph C59aux C59Spec

/-- The derivatives handed to the Eddington inversion are those of the augmented density
`ν (1 + r²/ra²)`. -/
theorem C59_augmented_derivs (ra : ℝ) {ν dnu d2nu : ℝ → ℝ} {r : ℝ} (h1 : HasDerivAt ν (dnu r) r)
    (h2 : HasDerivAt dnu (d2nu r) r) :
    HasDerivAt (fun r => ν r * (1 + r ^ 2 / ra ^ 2)) (omDnudr ra ν dnu r) r ∧
      HasDerivAt (omDnudr ra ν dnu) (omD2nudr2 ra ν dnu d2nu r) r := by
  have hq : HasDerivAt (fun r : ℝ => 1 + r ^ 2 / ra ^ 2) (2 * r / ra ^ 2) r :=
    ((((hasDerivAt_id r).fun_pow 2).div_const (ra ^ 2)).const_add 1).congr_deriv (by simp)
  have hl : HasDerivAt (fun r : ℝ => r / ra ^ 2) (1 / ra ^ 2) r := (hasDerivAt_id r).div_const _
  refine ⟨(h1.fun_mul hq).congr_deriv (by rw [omDnudr]; ring), ?_⟩
  refine HasDerivAt.congr_deriv (((h2.fun_mul hq).fun_add ((h1.const_mul 2).fun_mul hl)).congr_of_eventuallyEq ?_) ?_
  · exact Eventually.of_forall fun x => by simp only [omDnudr]; ring
  · rw [omD2nudr2]; ring

/-- A moment of an Osipkov-Merritt function of order zero in the tangential velocity is that of the
isotropic function of the same argument, reduced by `1 + r²/ra²`. -/
theorem C59aux.om_iso (P : Pot) (phiMax ra : ℝ) (fQ : ℝ → ℝ) (r : ℝ) :
    omVmoment P phiMax ra fQ r 0 0 = isoVmoment P phiMax (fun E => fQ (-E)) r 0 0 / (1 + r ^ 2 / ra ^ 2) := by
  rw [iso00, omVmoment, if_neg (by norm_num), vmaxAtR]
  have e : ∀ v : ℝ, -phi P r - 0.5 * v ^ 2 = -(phi P r + v ^ 2 / 2) := fun v => by ring
  simp only [e, Nat.cast_zero, zero_div, zero_add, add_zero, Gamma_one, rpow_one, mul_one, Gamma_one_half_eq]
  rw [show (0.5 : ℝ) * 3 = 3 / 2 by norm_num, Gamma_three_half]
  have := (sqrt_pos.2 pi_pos).ne'
  field_simp
  ring

/-- The general Osipkov-Merritt distribution function has the density it was asked for. -/
theorem C59_osipkovmerritt {P : Pot} {ν dnu d2nu : ℝ → ℝ} {bnd : ℝ} (h : C59Spec.Halo P) (ra : ℝ)
    (t : Tracer P (fun r => ν r * (1 + r ^ 2 / ra ^ 2)) (omDnudr ra ν dnu) (omD2nudr2 ra ν dnu d2nu) bnd)
    {rphi : ℝ → ℝ} (hi : ∀ r, 0 < r → rphi (phi P r) = r) {Emin r : ℝ} (hr : 0 < r) (hE : Emin ≤ phi P r) :
    omVmoment P 0 ra (fun Q => eddFE P (omDnudr ra ν dnu) (omD2nudr2 ra ν dnu d2nu) rphi bnd 0 Emin (-Q)) r 0 0 = ν r := by
  rw [om_iso]
  simp only [neg_neg]
  rw [C59_eddington h t hi hr hE]
  have : 0 < 1 + r ^ 2 / ra ^ 2 := by positivity
  field_simp

/-- A sum of potentials as the tracer: the isotropic class accepts it, this one raises, because it
asks whether the density is a `list`. -/
theorem C59_composite_fails (ra : ℝ) (ps : List ((ℝ → ℝ) × (ℝ → ℝ))) (r : ℝ) :
    omDnudrOf ra (.composite ps) r = none ∧ eddDnudrOf (.composite ps) r = some ((ps.map fun p => p.2 r).sum) :=
  ⟨rfl, rfl⟩

/-! ## Densities given as functions of the potential -/

namespace C59aux

theorem tracer_of_profile {P : Pot} (h : C59Spec.Halo P) {ρ ρ' ρ'' ν dnu d2nu : ℝ → ℝ} {ψm : ℝ}
    (hψ : ∀ r, 0 < r → -phi P r < ψm) (h0 : ∀ ψ ∈ Ico 0 ψm, HasDerivAt ρ (ρ' ψ) ψ)
    (h1 : ∀ ψ ∈ Ico 0 ψm, HasDerivAt ρ' (ρ'' ψ) ψ) (hc : ContinuousOn ρ'' (Ico 0 ψm)) (hρ0 : ρ 0 = 0)
    (hν : ∀ r, 0 < r → ν r = ρ (-phi P r)) (hd1 : ∀ r, 0 < r → HasDerivAt ν (dnu r) r)
    (hd2 : ∀ r, 0 < r → HasDerivAt dnu (d2nu r) r) (hc2 : ContinuousOn d2nu (Ioi 0)) :
    Tracer P ν dnu d2nu (ρ' 0) := by
  have hm : ∀ r, 0 < r → -phi P r ∈ Ico 0 ψm := fun r hr => ⟨by linarith [h.inv.neg hr], hψ r hr⟩
  have h00 : (0 : ℝ) ∈ Ico 0 ψm := ⟨le_rfl, lt_of_le_of_lt (hm 1 one_pos).1 (hm 1 one_pos).2⟩
  have hd : ∀ r, 0 < r → HasDerivAt (fun r => -phi P r) (P.Rforce r 0 0 0) r := fun r hr =>
    (h.force r hr).neg.congr_deriv (neg_neg _)
  have hlim : Tendsto (fun r => -phi P r) atTop (𝓝 0) := by simpa using h.lim.neg
  have eu : ∀ r, 0 < r → dnu r / P.Rforce r 0 0 0 = ρ' (-phi P r) := by
    intro r hr
    have h2 : HasDerivAt ν (ρ' (-phi P r) * P.Rforce r 0 0 0) r := by
      refine ((h0 _ (hm r hr)).comp r (hd r hr)).congr_of_eventuallyEq ?_
      filter_upwards [lt_mem_nhds hr] with x hx using hν x hx
    rw [(hd1 r hr).unique h2, mul_div_assoc, div_self (h.inward r hr).ne, mul_one]
  have hu : ∀ r, 0 < r → HasDerivAt (fun r => dnu r / P.Rforce r 0 0 0) (ρ'' (-phi P r) * P.Rforce r 0 0 0) r := by
    intro r hr
    refine ((h1 _ (hm r hr)).comp r (hd r hr)).congr_of_eventuallyEq ?_
    filter_upwards [lt_mem_nhds hr] with x hx using eu x hx
  refine ⟨hd1, hd2, hc2, ?_, ?_, fun r hr => ?_⟩
  · have := (h0 0 h00).continuousAt.tendsto.comp hlim
    rw [hρ0] at this
    refine this.congr' ?_
    filter_upwards [eventually_gt_atTop 0] with x hx using (hν x hx).symm
  · refine ((h1 0 h00).continuousAt.tendsto.comp hlim).congr' ?_
    filter_upwards [eventually_gt_atTop 0] with x hx using (eu x hx).symm
  · refine (integrableOn_congr_fun (fun x hx => (hu x (hr.trans hx)).deriv) measurableSet_Ioi).2 ?_
    obtain ⟨M, hM⟩ := (isCompact_Icc (a := 0) (b := -phi P r)).exists_bound_of_continuousOn
      (hc.mono fun x hx => ⟨hx.1, lt_of_le_of_lt hx.2 (hψ r hr)⟩)
    have hF : IntegrableOn (fun x => P.Rforce x 0 0 0) (Ioi r) :=
      integrableOn_Ioi_deriv_of_nonpos' (fun x hx => hd x (lt_of_lt_of_le hr hx))
        (fun x hx => (h.inward x (hr.trans hx)).le) hlim
    refine Integrable.bdd_mul (c := M) hF ?_ ?_
    · refine ContinuousOn.aestronglyMeasurable ?_ measurableSet_Ioi
      exact hc.comp (h.inv.contΦ.neg.mono (Ioi_subset_Ioi hr.le)) fun x hx => hm x (hr.trans hx)
    · refine (ae_restrict_iff' measurableSet_Ioi).2 (Eventually.of_forall fun x hx => ?_)
      refine hM _ ⟨(hm x (hr.trans hx)).1, ?_⟩
      have := h.inv.mono hr (hr.trans hx) hx
      linarith

end C59aux

end Verif
