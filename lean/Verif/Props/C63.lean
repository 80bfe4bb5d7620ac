import Verif.Props.C59
import Verif.Props.C04
import Verif.Util.Hyper
import Verif.Lemmas.Coords
import Mathlib.MeasureTheory.Measure.Lebesgue.Basic

set_option autoImplicit false

/-!
# C63: samples of a spherical distribution function follow it

A draw is a function of independent uniform numbers in `(0, 1)`. The probability of an event is the
Lebesgue measure of the set of uniform numbers for which it happens; `C63Spec.Prob S x p` says that
the draw `S` is at most `x` with probability `p`. The theorems compare this probability with the
integral of the density (for radii), of the solid angle (for angles) and of the distribution function
itself (for velocities) over the same range.
-/

noncomputable section
open Real MeasureTheory Set Filter Topology

namespace Verif
open Sph

namespace C63Spec

/-- The draw `S u`, for `u` uniform in `(0, 1)`, is at most `x` with probability `p`. -/
def Prob (S : ℝ → ℝ) (x p : ℝ) : Prop := volume {u | u ∈ Ioo (0 : ℝ) 1 ∧ S u ≤ x} = ENNReal.ofReal p

/-- The mass between two radii. -/
def shellMass (ρ : ℝ → ℝ) (r₀ r₁ : ℝ) : ℝ := ∫ x in r₀..r₁, 4 * π * x ^ 2 * ρ x

end C63Spec
open C63Spec

namespace C63aux

theorem prob_of_iff {S : ℝ → ℝ} {x p : ℝ} (h0 : 0 ≤ p) (h1 : p ≤ 1)
    (h : ∀ u, 0 < u → u < 1 → (S u ≤ x ↔ u ≤ p)) : Prob S x p := by
  unfold Prob
  rcases h1.lt_or_eq with h1 | rfl
  · have : {u | u ∈ Ioo (0 : ℝ) 1 ∧ S u ≤ x} = Ioc 0 p := by
      ext u
      constructor
      · rintro ⟨hu, hs⟩
        exact ⟨hu.1, (h u hu.1 hu.2).1 hs⟩
      · rintro ⟨hu, hs⟩
        exact ⟨⟨hu, by linarith⟩, (h u hu (by linarith)).2 hs⟩
    rw [this, volume_Ioc, sub_zero]
  · have : {u | u ∈ Ioo (0 : ℝ) 1 ∧ S u ≤ x} = Ioo 0 1 := by
      ext u
      exact ⟨fun hu => hu.1, fun hu => ⟨hu, (h u hu.1 hu.2).2 hu.2.le⟩⟩
    rw [this, volume_Ioo, sub_zero]

theorem total_unique {ρ m : ℝ → ℝ} {M M' : ℝ} (hm : EnclosedMass ρ m) (hl : Tendsto m atTop (𝓝 M))
    (h : Tendsto (fun r => shellMass ρ 0 r) atTop (𝓝 M')) : M' = M := by
  refine tendsto_nhds_unique h (hl.congr' ?_)
  filter_upwards [eventually_gt_atTop 0] with r hr using ((hm r hr).2).symm

end C63aux
open C63aux

/-! ### Radii -/

/-- Radii drawn from `isotropicPlummerdf` enclose the mass fraction of the density. -/
theorem C63_radius_plummer (amp b M : ℝ) (hm : 0 < amp) (hb : 0 < b)
    (hM : Tendsto (fun r => shellMass (fun r => ((Plummer.pot b).scale amp).dens r 0 0 0) 0 r) atTop (𝓝 M)) {r : ℝ} (hr : 0 < r) :
    Prob (PlummerDF.icmf b) r (shellMass (fun r => ((Plummer.pot b).scale amp).dens r 0 0 0) 0 r / M) := by
  obtain ⟨h1, h2⟩ := C04_Plummer amp b hb.ne'
  rw [total_unique h1.enclosed h2 hM, shellMass, (h1.enclosed r hr).2, mul_div_cancel_left₀ _ hm.ne', Plummer.mass]
  have hk : 1 ≤ 1 + b ^ 2 / r ^ 2 := by
    have : 0 ≤ b ^ 2 / r ^ 2 := by positivity
    linarith
  refine prob_of_iff (by positivity) (rpow_le_one_of_one_le_of_nonpos hk (by norm_num)) fun u hu0 hu1 => ?_
  have hw : 1 < u ^ (-2 / 3 : ℝ) := one_lt_rpow_of_pos_of_lt_one_of_neg hu0 hu1 (by norm_num)
  set w := u ^ (-2 / 3 : ℝ) with hwdef
  have hu : u = w ^ (-(3 / 2) : ℝ) := by rw [hwdef, ← rpow_mul hu0.le]; norm_num
  have hs : 0 < √(w - 1) := sqrt_pos.2 (by linarith)
  rw [hu, rpow_le_rpow_iff_of_neg (by linarith) (by linarith) (by norm_num), PlummerDF.icmf, ← hu, ← hwdef, div_le_iff₀ hs]
  rw [← abs_of_pos hb, ← abs_of_pos (mul_pos hr hs), ← sq_le_sq, mul_pow, sq_sqrt (by linarith), abs_of_pos hb,
    ← le_sub_iff_add_le', div_le_iff₀ (by positivity), mul_comm]

/-- Radii drawn from the three Hernquist classes enclose the mass fraction of the density. -/
theorem C63_radius_hernquist (amp a M : ℝ) (hm : 0 < amp) (ha : 0 < a)
    (hM : Tendsto (fun r => shellMass (fun r => ((Hernquist.pot a).scale amp).dens r 0 0 0) 0 r) atTop (𝓝 M)) {r : ℝ} (hr : 0 < r) :
    Prob (HernquistDF.icmf a) r (shellMass (fun r => ((Hernquist.pot a).scale amp).dens r 0 0 0) 0 r / M) := by
  obtain ⟨h1, h2⟩ := C04_Hernquist amp a ha
  have har : 0 < a + r := by linarith
  have e : amp * Hernquist.mass a r / (amp / 2) = (r / (a + r)) ^ 2 := by
    rw [Hernquist.mass]
    field_simp
    ring
  rw [total_unique h1.enclosed h2 hM, shellMass, (h1.enclosed r hr).2, e]
  have hq : r / (a + r) < 1 := by rw [div_lt_one har]; linarith
  have hq0 : 0 < r / (a + r) := by positivity
  refine prob_of_iff (by positivity) (by nlinarith) fun u hu0 hu1 => ?_
  have hs1 : √u < 1 := by rw [sqrt_lt' one_pos]; linarith
  have hs0 : 0 < √u := sqrt_pos.2 hu0
  rw [HernquistDF.icmf, div_le_iff₀ (by linarith), ← sqrt_le_left hq0.le, le_div_iff₀ har]
  constructor <;> intro h <;> nlinarith

/-- Radii drawn from the two power-law classes enclose the mass fraction of the density between the
two limiting radii of the instance. -/
theorem C63_radius_powerlaw (amp γ rmin rmax : ℝ) (hm : 0 < amp) (hγ : γ < 3) (h0 : 0 ≤ rmin) (h1 : rmin < rmax)
    {r : ℝ} (hr : rmin ≤ r) (hr' : r ≤ rmax) :
    let ρ := fun r => ((PowerSpherical.pot γ).scale amp).dens r 0 0 0;
    Prob (PowerDF.icmf γ rmin rmax) r (shellMass ρ rmin r / shellMass ρ rmin rmax) := by
  intro ρ
  have hg : 0 < 3 - γ := by linarith
  have hmass : ∀ s, rmin ≤ s → shellMass ρ rmin s = amp * (s ^ (3 - γ) - rmin ^ (3 - γ)) := by
    intro s hs
    have e : shellMass ρ rmin s = ∫ x in rmin..s, amp * (3 - γ) * x ^ (2 - γ) := by
      refine intervalIntegral.integral_congr_ae (Eventually.of_forall fun x hx => ?_)
      rw [uIoc_of_le hs] at hx
      have hx0 : 0 < x := lt_of_le_of_lt h0 hx.1
      simp only [ρ, Pot.scale, PowerSpherical.pot, Pot.axi, PowerSpherical.dens]
      rw [show x ^ 2 + (0 : ℝ) ^ 2 = x ^ 2 by ring, sqrt_sq hx0.le, rpow_sub hx0, rpow_two]
      have := (rpow_pos_of_pos hx0 γ).ne'
      field_simp
    rw [e, intervalIntegral.integral_const_mul, integral_rpow (Or.inl (by linarith)), show 2 - γ + 1 = 3 - γ by ring]
    field_simp
  have hp1 := rpow_le_rpow h0 hr hg.le
  have hp2 := rpow_le_rpow (h0.trans hr) hr' hg.le
  have hp3 := rpow_lt_rpow h0 h1 hg
  rw [hmass r hr, hmass rmax h1.le, mul_div_mul_left _ _ hm.ne']
  refine prob_of_iff (div_nonneg (by linarith) (by linarith)) ((div_le_one (by linarith)).2 (by linarith)) fun u hu0 hu1 => ?_
  have hpos : 0 ≤ u * (rmax ^ (3 - γ) - rmin ^ (3 - γ)) + rmin ^ (3 - γ) := by
    have := rpow_nonneg h0 (3 - γ)
    nlinarith
  rw [le_div_iff₀ (by linarith), le_sub_iff_add_le]
  simp only [PowerDF.icmf]
  constructor
  · intro h
    have := rpow_le_rpow (rpow_nonneg hpos _) h hg.le
    rwa [← rpow_mul hpos, one_div_mul_cancel hg.ne', rpow_one] at this
  · intro h
    have := rpow_le_rpow hpos h (show 0 ≤ 1 / (3 - γ) by positivity)
    rwa [← rpow_mul (h0.trans hr), mul_one_div_cancel hg.ne', rpow_one] at this

/-- Radii drawn through the tabulated mass profile: for an interpolant that increases and passes
through the tabulated points (as the linear one does), the radii enclose the mass fraction exactly at
every tabulated radius. -/
theorem C63_radius_table {ρ mass interp : ℝ → ℝ} (hmass : EnclosedMass ρ mass) {a rmin mmax r : ℝ} (ha : 0 < a) (h0 : 0 ≤ rmin)
    (hr : rmin < r) (hpos : mass rmin ≤ mass r) (hle : mass r ≤ mmax) (hlt : (if 0 < rmin then mass rmin else 0) < mmax)
    (hr0 : 0 ≤ mass r)
    (hi : StrictMonoOn interp (Icc 0 1)) (hrange : ∀ u ∈ Ioo (0 : ℝ) 1, -1 < interp u ∧ interp u < 1)
    (hnode : interp (cmfNode mass mmax rmin r) = RToxi a r) :
    Prob (fun u => xiToR a (interp u)) r (shellMass ρ rmin r / (mmax - if 0 < rmin then mass rmin else 0)) := by
  have hr00 : 0 < r := lt_of_le_of_lt h0 hr
  have e : shellMass ρ rmin r / (mmax - if 0 < rmin then mass rmin else 0) = cmfNode mass mmax rmin r := by
    rw [cmfNode]
    by_cases h : 0 < rmin
    · rw [if_pos h, if_pos h, shellMass, ← intervalIntegral.integral_interval_sub_left (hmass r hr00).1 (hmass rmin h).1,
        (hmass r hr00).2, (hmass rmin h).2]
    · have : rmin = 0 := le_antisymm (not_lt.1 h) h0
      rw [if_neg h, if_neg h, this, shellMass, (hmass r hr00).2, sub_zero]
  have hp : cmfNode mass mmax rmin r ∈ Icc (0 : ℝ) 1 := by
    rw [cmfNode]
    by_cases h : 0 < rmin
    · rw [if_pos h] at hlt ⊢
      exact ⟨div_nonneg (by linarith) (by linarith), (div_le_one (by linarith)).2 (by linarith)⟩
    · rw [if_neg h] at hlt ⊢
      exact ⟨div_nonneg hr0 hlt.le, (div_le_one hlt).2 hle⟩
  rw [e]
  refine prob_of_iff hp.1 hp.2 fun u hu0 hu1 => ?_
  rw [← hi.le_iff_le ⟨hu0.le, hu1.le⟩ hp, hnode, xiToR, RToxi]
  obtain ⟨g0, g1⟩ := hrange u ⟨hu0, hu1⟩
  have k1 : 0 < r / a + 1 := by positivity
  have k2 : 0 < 1 - interp u := by linarith
  rw [← mul_div_assoc, div_le_iff₀ k2, le_div_iff₀ k1]
  have k3 : a * (r / a) = r := by field_simp
  constructor
  · intro h
    have : a * (interp u * (r / a + 1)) ≤ a * (r / a - 1) := by
      rw [mul_sub, k3]
      nlinarith
    exact le_of_mul_le_mul_left this ha
  · intro h
    have := mul_le_mul_of_nonneg_left h ha.le
    rw [mul_sub, k3] at this
    nlinarith

/-! ### Angles -/

theorem C63aux.arccos_le {y θ : ℝ} (h0 : -1 ≤ y) (h1 : y ≤ 1) (g0 : 0 ≤ θ) (g1 : θ ≤ π) : arccos y ≤ θ ↔ cos θ ≤ y := by
  rw [← strictAntiOn_cos.le_iff_ge ⟨g0, g1⟩ ⟨arccos_nonneg y, arccos_le_pi y⟩, cos_arccos h0 h1]

/-- The position angles are uniform on the sphere. -/
theorem C63_position_angles {φ₀ θ₀ : ℝ} (h1 : 0 ≤ φ₀) (h2 : φ₀ ≤ 2 * π) (h3 : 0 ≤ θ₀) (h4 : θ₀ ≤ π) :
    volume {p : ℝ × ℝ | p.1 ∈ Ioo (0 : ℝ) 1 ∧ p.2 ∈ Ioo (0 : ℝ) 1 ∧
        (samplePositionAngles p.1 p.2).1 ≤ φ₀ ∧ (samplePositionAngles p.1 p.2).2 ≤ θ₀}
      = ENNReal.ofReal ((∫ _φ in (0 : ℝ)..φ₀, ∫ θ in (0 : ℝ)..θ₀, sin θ) / (4 * π)) := by
  have hc1 := cos_le_one θ₀
  have hc2 := neg_one_le_cos θ₀
  have p1 : Prob (fun u => u * 2 * π) φ₀ (φ₀ / (2 * π)) := by
    refine prob_of_iff (by positivity) ((div_le_one (by positivity)).2 h2) fun u _ _ => ?_
    rw [le_div_iff₀ (by positivity), mul_assoc]
  have p2 : Prob (fun u => arccos (1 - 2 * u)) θ₀ ((1 - cos θ₀) / 2) := by
    refine prob_of_iff (by linarith) (by linarith) fun u hu0 hu1 => ?_
    rw [arccos_le (by linarith) (by linarith) h3 h4]
    constructor <;> intro h <;> linarith
  have e : {p : ℝ × ℝ | p.1 ∈ Ioo (0 : ℝ) 1 ∧ p.2 ∈ Ioo (0 : ℝ) 1 ∧
        (samplePositionAngles p.1 p.2).1 ≤ φ₀ ∧ (samplePositionAngles p.1 p.2).2 ≤ θ₀}
      = {u | u ∈ Ioo (0 : ℝ) 1 ∧ u * 2 * π ≤ φ₀} ×ˢ {u | u ∈ Ioo (0 : ℝ) 1 ∧ arccos (1 - 2 * u) ≤ θ₀} := by
    ext p
    simp only [mem_setOf_eq, mem_prod, samplePositionAngles]
    tauto
  unfold Prob at p1 p2
  rw [e, Measure.volume_eq_prod, Measure.prod_prod, p1, p2, ← ENNReal.ofReal_mul (by positivity)]
  congr 1
  rw [integral_sin, intervalIntegral.integral_const, cos_zero, sub_zero, smul_eq_mul]
  field_simp
  ring

/-- The velocity angle of an isotropic distribution function is uniform on the sphere. -/
theorem C63_eta_isotropic {η₀ : ℝ} (h0 : 0 ≤ η₀) (h1 : η₀ ≤ π) :
    Prob isoSampleEta η₀ ((∫ η in (0 : ℝ)..η₀, sin η) / ∫ η in (0 : ℝ)..π, sin η) := by
  have hc1 := cos_le_one η₀
  have hc2 := neg_one_le_cos η₀
  rw [integral_sin, integral_sin, cos_zero, cos_pi, show (1 : ℝ) - -1 = 2 by norm_num]
  refine prob_of_iff (by linarith) (by linarith) fun u hu0 hu1 => ?_
  rw [isoSampleEta, arccos_le (by linarith) (by linarith) h0 h1]
  constructor <;> intro h <;> linarith

/-- The normalisation of the density of `cos η`. -/
theorem C63aux.arc_total {β : ℝ} (hβ : β < 1) :
    IntervalIntegrable (fun t : ℝ => (1 - t ^ 2) ^ (-β)) volume (-1) 1 ∧
    ∫ t in (-1 : ℝ)..1, (1 - t ^ 2) ^ (-β) = √π * Gamma (1 - β) / Gamma (3 / 2 - β) := by
  have hv : ∫ t in (-1 : ℝ)..1, (1 - t ^ 2) ^ (-β) = √π * Gamma (1 - β) / Gamma (3 / 2 - β) := by
    rw [integral_subst_mono (f := fun η => -cos η) (f' := fun η => sin η) (a := 0) (b := π) (c := -1) (d := 1) pi_pos.le
      (by norm_num) (fun x _ => (hasDerivAt_cos x).fun_neg.congr_deriv (neg_neg _)) (fun x hx => sin_pos_of_pos_of_lt_pi hx.1 hx.2) ?_
      (fun t => (1 - t ^ 2) ^ (-β))]
    · have h := half_beta (p := 1 - 2 * β) (by linarith) 0
      rw [B, Nat.cast_zero, zero_add, Gamma_one_half_eq, show (1 - 2 * β + 1) / 2 = 1 - β by ring,
        show 1 - β + 1 / 2 = 3 / 2 - β by ring] at h
      rw [mul_comm (√π), ← h]
      refine intervalIntegral.integral_congr_ae ((measure_eq_zero_iff_ae_notMem.1 (measure_singleton π)).mono fun η hη hm => ?_)
      rw [uIoc_of_le pi_pos.le] at hm
      have hs : 0 < sin η := sin_pos_of_pos_of_lt_pi hm.1 (lt_of_le_of_ne hm.2 hη)
      simp only [neg_sq, mul_zero, pow_zero, mul_one]
      rw [← sin_sq, ← rpow_natCast, ← rpow_mul hs.le]
      nth_rewrite 1 [← rpow_one (sin η)]
      rw [← rpow_add hs]
      congr 1
      push_cast
      ring
    · ext y
      constructor
      · rintro ⟨x, hx, rfl⟩
        have h1 := strictAntiOn_cos ⟨le_rfl, pi_pos.le⟩ ⟨hx.1.le, hx.2.le⟩ hx.1
        have h2 := strictAntiOn_cos ⟨hx.1.le, hx.2.le⟩ ⟨pi_pos.le, le_rfl⟩ hx.2
        rw [cos_zero] at h1
        rw [cos_pi] at h2
        exact ⟨by simp only; linarith, by simp only; linarith⟩
      · rintro ⟨h0, h1⟩
        refine ⟨arccos (-y), ⟨arccos_pos.2 (by linarith), ?_⟩, ?_⟩
        · refine lt_of_le_of_ne (arccos_le_pi _) fun h => ?_
          have := arccos_eq_pi.1 h
          linarith
        · simp only
          rw [cos_arccos (by linarith) (by linarith), neg_neg]
  refine ⟨?_, hv⟩
  by_contra h
  rw [intervalIntegral.integral_undef h] at hv
  have : 0 < √π * Gamma (1 - β) / Gamma (3 / 2 - β) :=
    div_pos (mul_pos (sqrt_pos.2 pi_pos) (Gamma_pos_of_pos (by linarith))) (Gamma_pos_of_pos (by linarith))
  linarith

/-- The tabulated distribution of `cos η` of a constant-anisotropy distribution function is the one of
the density `sin η · (sin η)^(-2β)` in `η`, that is `(1 - t²)^(-β)` in `t = cos η`. -/
theorem C63_eta_constantbeta_table {β x : ℝ} (hβ : β < 1) (hx : |x| < 1) :
    cbCosEtaCmf β x = (∫ t in (-1 : ℝ)..x, (1 - t ^ 2) ^ (-β)) / ∫ t in (-1 : ℝ)..1, (1 - t ^ 2) ^ (-β) := by
  obtain ⟨hx0, hx1⟩ := abs_lt.1 hx
  obtain ⟨hint, htot⟩ := C63aux.arc_total hβ
  have i0 : IntervalIntegrable (fun t : ℝ => (1 - t ^ 2) ^ (-β)) volume 0 1 :=
    hint.mono_set (by rw [uIcc_of_le, uIcc_of_le] <;> first | exact Icc_subset_Icc (by norm_num) le_rfl | norm_num)
  have i1 : IntervalIntegrable (fun t : ℝ => (1 - t ^ 2) ^ (-β)) volume (-1) 0 :=
    hint.mono_set (by rw [uIcc_of_le, uIcc_of_le] <;> first | exact Icc_subset_Icc le_rfl (by norm_num) | norm_num)
  have i2 : IntervalIntegrable (fun t : ℝ => (1 - t ^ 2) ^ (-β)) volume 0 x :=
    hint.mono_set (by
      rw [uIcc_of_le (show (-1 : ℝ) ≤ 1 by norm_num)]
      exact uIcc_subset_Icc ⟨by norm_num, by norm_num⟩ ⟨hx0.le, hx1.le⟩)
  have hsym : ∫ t in (-1 : ℝ)..0, (1 - t ^ 2) ^ (-β) = ∫ t in (0 : ℝ)..1, (1 - t ^ 2) ^ (-β) := by
    have := intervalIntegral.integral_comp_neg (a := 0) (b := 1) (fun t : ℝ => (1 - t ^ 2) ^ (-β))
    simp only [neg_sq, neg_zero] at this
    exact this.symm
  have hT := intervalIntegral.integral_add_adjacent_intervals i1 i0
  have hX := intervalIntegral.integral_add_adjacent_intervals i1 i2
  have hpos : 0 < √π * Gamma (1 - β) / Gamma (3 / 2 - β) :=
    div_pos (mul_pos (sqrt_pos.2 pi_pos) (Gamma_pos_of_pos (by linarith))) (Gamma_pos_of_pos (by linarith))
  have ha := Hyper.arc β hx
  rw [cbCosEtaCmf, show (0.5 : ℝ) = 1 / 2 by norm_num, show (1.5 : ℝ) = 3 / 2 by norm_num, ha, ← hX]
  rw [htot]
  rw [hsym] at hT ⊢
  rw [show ∫ t in (0 : ℝ)..1, (1 - t ^ 2) ^ (-β) = √π * Gamma (1 - β) / Gamma (3 / 2 - β) / 2 by linarith]
  have g1 := (Gamma_pos_of_pos (show 0 < 1 - β by linarith)).ne'
  have g2 := (Gamma_pos_of_pos (show 0 < 3 / 2 - β by linarith)).ne'
  have g3 := (sqrt_pos.2 pi_pos).ne'
  generalize Gamma (3 / 2 - β) = w at *
  field_simp
  ring

/-- The velocity angles of a constant-anisotropy distribution function, drawn by inverting the table
exactly. -/
theorem C63_eta_constantbeta {β x : ℝ} (hβ : β < 1) (hx : |x| < 1) {S : ℝ → ℝ}
    (hS : ∀ u ∈ Ioo (0 : ℝ) 1, |S u| < 1 ∧ cbCosEtaCmf β (S u) = u) :
    Prob S x ((∫ t in (-1 : ℝ)..x, (1 - t ^ 2) ^ (-β)) / ∫ t in (-1 : ℝ)..1, (1 - t ^ 2) ^ (-β)) := by
  obtain ⟨hint, htot⟩ := C63aux.arc_total hβ
  have hpos : 0 < ∫ t in (-1 : ℝ)..1, (1 - t ^ 2) ^ (-β) := by
    rw [htot]
    exact div_pos (mul_pos (sqrt_pos.2 pi_pos) (Gamma_pos_of_pos (by linarith))) (Gamma_pos_of_pos (by linarith))
  have hf : ∀ t ∈ Ioo (-1 : ℝ) 1, 0 < (1 - t ^ 2) ^ (-β) := fun t ht => rpow_pos_of_pos (by nlinarith [ht.1, ht.2]) _
  have sub : ∀ a b : ℝ, -1 ≤ a → a ≤ b → b ≤ 1 → IntervalIntegrable (fun t : ℝ => (1 - t ^ 2) ^ (-β)) volume a b := by
    intro a b h1 h2 h3
    refine hint.mono_set ?_
    rw [uIcc_of_le h2, uIcc_of_le (show (-1 : ℝ) ≤ 1 by norm_num)]
    exact Icc_subset_Icc h1 h3
  have mono : ∀ a b : ℝ, -1 < a → a < b → b < 1 →
      ∫ t in (-1 : ℝ)..a, (1 - t ^ 2) ^ (-β) < ∫ t in (-1 : ℝ)..b, (1 - t ^ 2) ^ (-β) := by
    intro a b h1 h2 h3
    rw [← intervalIntegral.integral_add_adjacent_intervals (sub (-1) a le_rfl h1.le (by linarith)) (sub a b h1.le h2.le h3.le)]
    have := intervalIntegral.intervalIntegral_pos_of_pos_on (sub a b h1.le h2.le h3.le)
      (fun t ht => hf t ⟨by linarith [ht.1], by linarith [ht.2]⟩) h2
    linarith
  obtain ⟨hx0, hx1⟩ := abs_lt.1 hx
  have n0 : 0 ≤ ∫ t in (-1 : ℝ)..x, (1 - t ^ 2) ^ (-β) :=
    (intervalIntegral.intervalIntegral_pos_of_pos_on (sub (-1) x le_rfl hx0.le hx1.le)
      (fun t ht => hf t ⟨ht.1, by linarith [ht.2]⟩) hx0).le
  have n1 : ∫ t in (-1 : ℝ)..x, (1 - t ^ 2) ^ (-β) ≤ ∫ t in (-1 : ℝ)..1, (1 - t ^ 2) ^ (-β) := by
    rw [← intervalIntegral.integral_add_adjacent_intervals (sub (-1) x le_rfl hx0.le hx1.le) (sub x 1 hx0.le hx1.le le_rfl)]
    have := intervalIntegral.intervalIntegral_pos_of_pos_on (sub x 1 hx0.le hx1.le le_rfl)
      (fun t ht => hf t ⟨by linarith [ht.1], ht.2⟩) hx1
    linarith
  refine prob_of_iff (div_nonneg n0 hpos.le) ((div_le_one hpos).2 n1) fun u hu0 hu1 => ?_
  obtain ⟨s1, s2⟩ := hS u ⟨hu0, hu1⟩
  obtain ⟨s3, s4⟩ := abs_lt.1 s1
  rw [C63_eta_constantbeta_table hβ s1] at s2
  rw [div_eq_iff hpos.ne'] at s2
  rw [le_div_iff₀ hpos, ← s2]
  constructor
  · intro h
    rcases h.lt_or_eq with h | h
    · exact (mono _ _ s3 h hx1).le
    · rw [h]
  · intro h
    by_contra hc
    exact absurd h (not_le.2 (mono _ _ hx0 (not_le.1 hc) s4))

/-- The velocity angles of an Osipkov-Merritt distribution function: with the sign drawn as `1` or `-1`
with equal chance, `cos η` has density proportional to `(1 + (r/ra)² sin² η)^(-3/2)`. -/
theorem C63_eta_osipkovmerritt {ra r x : ℝ} (hx0 : -1 ≤ x) (hx1 : x ≤ 1) :
    let g := fun t : ℝ => (1 + r ^ 2 / ra ^ 2 * (1 - t ^ 2)) ^ (-(3 / 2) : ℝ);
    (volume {c | c ∈ Ioo (0 : ℝ) 1 ∧ omSampleCos ra r c 1 ≤ x} + volume {c | c ∈ Ioo (0 : ℝ) 1 ∧ omSampleCos ra r c (-1) ≤ x}) / 2
      = ENNReal.ofReal ((∫ t in (-1 : ℝ)..x, g t) / ∫ t in (-1 : ℝ)..1, g t) := by
  intro g
  set A := r ^ 2 / ra ^ 2 with hA
  have hA0 : 0 ≤ A := by positivity
  set G : ℝ → ℝ := fun t => t / ((1 + A) * √(1 + A * (1 - t ^ 2))) with hG
  have hin : ∀ t ∈ Icc (-1 : ℝ) 1, 0 < 1 + A * (1 - t ^ 2) := fun t ht => by
    have : 0 ≤ 1 - t ^ 2 := by nlinarith [ht.1, ht.2]
    positivity
  have hd : ∀ t ∈ Icc (-1 : ℝ) 1, HasDerivAt G (g t) t := by
    intro t ht
    have hp := hin t ht
    have hs := sqrt_pos.2 hp
    have d1 : HasDerivAt (fun t : ℝ => 1 + A * (1 - t ^ 2)) (A * (-(2 * t))) t := by
      have := (((hasDerivAt_pow 2 t).const_sub 1).const_mul A).const_add 1
      simpa using this
    have d2 := (hasDerivAt_id t).fun_div ((d1.sqrt hp.ne').const_mul (1 + A)) (by positivity)
    refine d2.congr_deriv ?_
    have e : g t = 1 / √(1 + A * (1 - t ^ 2)) ^ 3 := by
      simp only [g]
      rw [← hA]
      generalize 1 + A * (1 - t ^ 2) = y at *
      rw [rpow_neg hp.le, sqrt_eq_rpow, ← rpow_natCast, ← rpow_mul hp.le, one_div]
      norm_num
    rw [e]
    have hsq : √(1 + A * (1 - t ^ 2)) ^ 2 = 1 + A * (1 - t ^ 2) := sq_sqrt hp.le
    simp only [id]
    generalize √(1 + A * (1 - t ^ 2)) = w at *
    have h1A : 1 + A ≠ 0 := by positivity
    field_simp
    linear_combination hsq
  have hgc : ContinuousOn g (Icc (-1) 1) := fun t ht =>
    (ContinuousAt.rpow_const (f := fun t : ℝ => 1 + A * (1 - t ^ 2)) (by fun_prop) (Or.inl (hin t ht).ne')).continuousWithinAt
  have hint : ∀ y ∈ Icc (-1 : ℝ) 1, ∫ t in (-1 : ℝ)..y, g t = G y - G (-1) := by
    intro y hy
    have hsub : uIcc (-1 : ℝ) y ⊆ Icc (-1) 1 := by
      rw [uIcc_of_le hy.1]
      exact Icc_subset_Icc le_rfl hy.2
    exact intervalIntegral.integral_eq_sub_of_hasDerivAt (fun t ht => hd t (hsub ht)) ((hgc.mono hsub).intervalIntegrable)
  have g1 : G 1 = 1 / (1 + A) := by simp [hG]
  have g2 : G (-1) = -(1 / (1 + A)) := by simp [hG, neg_div]
  have h1A : 0 < 1 + A := by positivity
  have hratio : (∫ t in (-1 : ℝ)..x, g t) / (∫ t in (-1 : ℝ)..1, g t) = (1 + x / √(1 + A * (1 - x ^ 2))) / 2 := by
    rw [hint x ⟨hx0, hx1⟩, hint 1 ⟨by norm_num, le_rfl⟩, g1, g2]
    have := sqrt_pos.2 (hin x ⟨hx0, hx1⟩)
    simp only [hG]
    field_simp
    ring
  set q := x / √(1 + A * (1 - x ^ 2)) with hq
  have hs := sqrt_pos.2 (hin x ⟨hx0, hx1⟩)
  have hq1 : |q| ≤ 1 := by
    rw [hq, abs_div, abs_of_pos hs, div_le_one hs]
    refine le_sqrt_of_sq_le ?_
    rw [sq_abs]
    nlinarith [mul_nonneg hA0 (show 0 ≤ 1 - x ^ 2 by nlinarith)]
  obtain ⟨hq2, hq3⟩ := abs_le.1 hq1
  -- the draw and its inverse
  have hinv : ∀ c, 0 < c → c < 1 → ∀ y, 0 ≤ y → y ≤ 1 →
      (c * √(1 + A) / √(A * c ^ 2 + 1) ≤ y ↔ c ≤ y / √(1 + A * (1 - y ^ 2))) := by
    intro c hc0 hc1 y hy0 hy1
    have k1 : 0 < √(A * c ^ 2 + 1) := sqrt_pos.2 (by positivity)
    have k2 := sqrt_pos.2 (hin y ⟨by linarith, hy1⟩)
    rw [div_le_iff₀ k1, le_div_iff₀ k2, ← sq_le_sq₀ (by positivity) (by positivity), ← sq_le_sq₀ (by positivity) hy0,
      mul_pow, mul_pow, mul_pow, sq_sqrt h1A.le, sq_sqrt (by positivity), sq_sqrt (hin y ⟨by linarith, hy1⟩).le]
    constructor <;> intro h <;> nlinarith
  have hinv' : ∀ c, 0 < c → c < 1 → ∀ y, 0 ≤ y → y ≤ 1 →
      (y ≤ c * √(1 + A) / √(A * c ^ 2 + 1) ↔ y / √(1 + A * (1 - y ^ 2)) ≤ c) := by
    intro c hc0 hc1 y hy0 hy1
    have k1 : 0 < √(A * c ^ 2 + 1) := sqrt_pos.2 (by positivity)
    have k2 := sqrt_pos.2 (hin y ⟨by linarith, hy1⟩)
    rw [le_div_iff₀ k1, div_le_iff₀ k2, ← sq_le_sq₀ (by positivity) (by positivity), ← sq_le_sq₀ hy0 (by positivity),
      mul_pow, mul_pow, mul_pow, sq_sqrt h1A.le, sq_sqrt (by positivity), sq_sqrt (hin y ⟨by linarith, hy1⟩).le]
    constructor <;> intro h <;> nlinarith
  have hcpos : ∀ c, 0 < c → 0 < c * √(1 + A) / √(A * c ^ 2 + 1) := fun c hc => by
    have k1 : 0 < √(A * c ^ 2 + 1) := sqrt_pos.2 (by positivity)
    positivity
  have hcle : ∀ c, 0 < c → c < 1 → c * √(1 + A) / √(A * c ^ 2 + 1) ≤ 1 := fun c hc0 hc1 => by
    have := (hinv c hc0 hc1 1 zero_le_one le_rfl).2 (by simpa using hc1.le)
    exact this
  have pp : Prob (fun c => omSampleCos ra r c 1) x (max q 0) := by
    refine prob_of_iff (le_max_right _ _) (max_le hq3 zero_le_one) fun c hc0 hc1 => ?_
    rw [omSampleCos, mul_one, ← hA]
    rcases le_or_gt 0 x with h | h
    · rw [hinv c hc0 hc1 x h hx1, max_eq_left (div_nonneg h hs.le)]
    · have : q ≤ 0 := div_nonpos_of_nonpos_of_nonneg h.le hs.le
      rw [max_eq_right this]
      have := hcpos c hc0
      constructor <;> intro h' <;> linarith
  have pm : Prob (fun c => omSampleCos ra r c (-1)) x (1 + min q 0) := by
    unfold Prob
    rw [show {u | u ∈ Ioo (0 : ℝ) 1 ∧ omSampleCos ra r u (-1) ≤ x} = {u | u ∈ Ioo (0 : ℝ) 1 ∧ -min q 0 ≤ u} from ?_]
    · rcases le_or_gt 0 q with h | h
      · rw [min_eq_right h]
        have : {u : ℝ | u ∈ Ioo (0 : ℝ) 1 ∧ -0 ≤ u} = Ioo 0 1 := by
          ext u
          simp only [neg_zero, mem_setOf_eq, and_iff_left_iff_imp]
          exact fun h => h.1.le
        rw [this, volume_Ioo]
        simp
      · rw [min_eq_left h.le]
        have : {u : ℝ | u ∈ Ioo (0 : ℝ) 1 ∧ -q ≤ u} = Ico (-q) 1 := by
          ext u
          simp only [mem_setOf_eq, mem_Ioo, mem_Ico]
          constructor
          · rintro ⟨⟨_, h2⟩, h3⟩
            exact ⟨h3, h2⟩
          · rintro ⟨h3, h2⟩
            exact ⟨⟨by linarith, h2⟩, h3⟩
        rw [this, volume_Ico, sub_neg_eq_add]
    · ext c
      simp only [mem_setOf_eq, and_congr_right_iff]
      rintro ⟨hc0, hc1⟩
      rw [omSampleCos, ← hA, mul_neg_one]
      have h1 := hcpos c hc0
      rcases le_or_gt 0 x with h | h
      · have : 0 ≤ q := div_nonneg h hs.le
        rw [min_eq_right this]
        constructor <;> intro h' <;> linarith
      · have : q ≤ 0 := div_nonpos_of_nonpos_of_nonneg h.le hs.le
        rw [min_eq_left this]
        have key := hinv' c hc0 hc1 (-x) (by linarith) (by linarith)
        rw [neg_sq, neg_div, ← hq] at key
        rw [← key, neg_le]
  unfold Prob at pp pm
  rw [pp, pm, ← ENNReal.ofReal_add (le_max_right _ _) (by
    have : -1 ≤ min q 0 := le_min hq2 (by norm_num)
    linarith), hratio]
  rw [show max q 0 + (1 + min q 0) = 1 + q by have := max_add_min q 0; linarith]
  rw [ENNReal.ofReal_div_of_pos two_pos]
  simp

/-! ### Speeds -/

/-- Isotropic distribution functions: speeds with the tabulated density are speeds of the distribution
function in every direction. -/
theorem C63_speed_isotropic (P : Pot) (fE : ℝ → ℝ) (r η : ℝ) {vmax v₀ : ℝ} {V : ℝ → ℝ}
    (hV : ∀ w, 0 ≤ w → w ≤ vmax → Prob V w ((∫ v in (0 : ℝ)..w, isoPvAtR P fE v r) / ∫ v in (0 : ℝ)..vmax, isoPvAtR P fE v r))
    (h0 : 0 ≤ v₀) (h1 : v₀ ≤ vmax) :
    let f := fun v => v ^ 2 * isoCall fE (phi P r + v ^ 2 / 2) (r * (v * sin η)) 0;
    Prob V v₀ ((∫ v in (0 : ℝ)..v₀, f v) / ∫ v in (0 : ℝ)..vmax, f v) := by
  intro f
  have e : f = fun v => isoPvAtR P fE v r := by
    funext v
    simp only [f, isoCall, isoPvAtR]
    rw [show (0.5 : ℝ) * v ^ 2 = v ^ 2 / 2 by ring, mul_comm]
  rw [e]
  exact hV v₀ h0 h1

/-- Constant anisotropy: the same, away from the radial direction. -/
theorem C63_speed_constantbeta (P : Pot) (β : ℝ) (fE : ℝ → ℝ) {r η : ℝ} (hr : 0 < r) (hη : 0 < sin η) {vmax v₀ : ℝ} {V : ℝ → ℝ}
    (hV : ∀ w, 0 ≤ w → w ≤ vmax → Prob V w ((∫ v in (0 : ℝ)..w, cbPvAtR P β fE v r) / ∫ v in (0 : ℝ)..vmax, cbPvAtR P β fE v r))
    (h0 : 0 ≤ v₀) (h1 : v₀ ≤ vmax) :
    let f := fun v => v ^ 2 * cbCall β fE (phi P r + v ^ 2 / 2) (r * (v * sin η)) 0;
    Prob V v₀ ((∫ v in (0 : ℝ)..v₀, f v) / ∫ v in (0 : ℝ)..vmax, f v) := by
  intro f
  have hc : 0 < (r * sin η) ^ (-2 * β) := rpow_pos_of_pos (by positivity) _
  have e : ∀ w, 0 ≤ w → ∫ v in (0 : ℝ)..w, f v = (r * sin η) ^ (-2 * β) * ∫ v in (0 : ℝ)..w, cbPvAtR P β fE v r := by
    intro w hw
    rw [← intervalIntegral.integral_const_mul]
    refine intervalIntegral.integral_congr_ae (Eventually.of_forall fun v hv => ?_)
    rw [uIoc_of_le hw] at hv
    have hv0 : 0 < v := hv.1
    simp only [f, cbCall, cbPvAtR]
    rw [show (0.5 : ℝ) * v ^ 2 = v ^ 2 / 2 by ring, show r * (v * sin η) = (r * sin η) * v by ring,
      mul_rpow (by positivity) hv0.le, show 2 - 2 * β = (2 : ℕ) + (-2 * β) by push_cast; ring, rpow_add hv0, rpow_natCast]
    ring
  rw [e v₀ h0, e vmax (h0.trans h1), mul_div_mul_left _ _ hc.ne']
  exact hV v₀ h0 h1

/-- The distribution function along one direction of velocity in the scaled speed of the
Osipkov-Merritt classes. The factor in front is the density of the direction. -/
theorem C63_speed_osipkovmerritt_scaled (P : Pot) {ra : ℝ} (hra : ra ≠ 0) (fQ : ℝ → ℝ) (r η v₀ : ℝ) :
    ∫ v in (0 : ℝ)..v₀, v ^ 2 * omCall ra fQ (phi P r + v ^ 2 / 2) (r * (v * sin η)) 0
      = (1 + r ^ 2 / ra ^ 2 * (1 - cos η ^ 2)) ^ (-(3 / 2) : ℝ)
        * ∫ w in (0 : ℝ)..v₀ * √(1 + r ^ 2 / ra ^ 2 * sin η ^ 2), omPvAtR P fQ w r := by
  have hp : 0 < 1 + r ^ 2 / ra ^ 2 * sin η ^ 2 := by positivity
  set s := √(1 + r ^ 2 / ra ^ 2 * sin η ^ 2) with hs
  have hs0 : 0 < s := sqrt_pos.2 hp
  have hsq : s ^ 2 = 1 + r ^ 2 / ra ^ 2 * sin η ^ 2 := sq_sqrt hp.le
  have h := intervalIntegral.mul_integral_comp_mul_right (a := 0) (b := v₀) (f := fun w => omPvAtR P fQ w r) s
  rw [zero_mul] at h
  have e3 : (1 + r ^ 2 / ra ^ 2 * (1 - cos η ^ 2)) ^ (-(3 / 2) : ℝ) = 1 / s ^ 3 := by
    rw [← sin_sq, ← hsq, rpow_neg (by positivity), ← rpow_natCast, ← rpow_mul hs0.le, ← rpow_natCast, one_div]
    norm_num
  rw [← h, e3, ← mul_assoc, ← intervalIntegral.integral_const_mul]
  refine intervalIntegral.integral_congr fun v _ => ?_
  simp only [omCall, omPvAtR]
  rw [show -(phi P r + v ^ 2 / 2) - 0.5 * (r * (v * sin η)) ^ 2 / ra ^ 2 = -phi P r - 0.5 * (v * s) ^ 2 by
    rw [mul_pow v s, hsq]; ring]
  field_simp

/-- Osipkov-Merritt: rescaled speeds are speeds of the distribution function in every direction, up to
the largest speed at which it does not vanish. -/
theorem C63_speed_osipkovmerritt (P : Pot) {ra : ℝ} (hra : ra ≠ 0) (fQ : ℝ → ℝ) (r η : ℝ) {vmax v₀ : ℝ} {V : ℝ → ℝ}
    (hV : ∀ w, 0 ≤ w → w ≤ vmax → Prob V w ((∫ v in (0 : ℝ)..w, omPvAtR P fQ v r) / ∫ v in (0 : ℝ)..vmax, omPvAtR P fQ v r))
    (h0 : 0 ≤ v₀) (h1 : v₀ * √(1 + r ^ 2 / ra ^ 2 * sin η ^ 2) ≤ vmax) :
    let f := fun v => v ^ 2 * omCall ra fQ (phi P r + v ^ 2 / 2) (r * (v * sin η)) 0;
    Prob (fun u => omSampleV ra r η (V u)) v₀
      ((∫ v in (0 : ℝ)..v₀, f v) / ∫ v in (0 : ℝ)..vmax / √(1 + r ^ 2 / ra ^ 2 * sin η ^ 2), f v) := by
  intro f
  have hp : 0 < 1 + r ^ 2 / ra ^ 2 * sin η ^ 2 := by positivity
  have hs0 : 0 < √(1 + r ^ 2 / ra ^ 2 * sin η ^ 2) := sqrt_pos.2 hp
  have hc : (1 + r ^ 2 / ra ^ 2 * (1 - cos η ^ 2)) ^ (-(3 / 2) : ℝ) ≠ 0 := by
    rw [← sin_sq]; exact (rpow_pos_of_pos hp _).ne'
  simp only [f]
  rw [C63_speed_osipkovmerritt_scaled P hra, C63_speed_osipkovmerritt_scaled P hra, mul_div_mul_left _ _ hc,
    div_mul_cancel₀ _ hs0.ne']
  have := hV _ (by positivity) h1
  unfold Prob at this ⊢
  simp only [omSampleV, div_le_iff₀ hs0]
  exact this

/-! ### Phase-space points -/

/-- A point drawn without a given position lies at the drawn radius and angles, its speed is the drawn
one, and the velocity has the drawn components along the radius, the polar direction and the azimuth. -/
theorem C63_point (r θ φ v η ψ : ℝ) :
    let p := sample6D r θ φ v η ψ;
    p.R = r * sin θ ∧ p.z = r * cos θ ∧ p.phi = φ ∧ p.vR ^ 2 + p.vT ^ 2 + p.vz ^ 2 = v ^ 2 ∧
    p.vR * sin θ + p.vz * cos θ = v * cos η ∧ p.vR * cos θ - p.vz * sin θ = v * sin η * cos ψ ∧
    p.vT = v * sin η * sin ψ ∧ C59Spec.Lsq p.R p.vR p.vT p.z p.vz = (r * (v * sin η)) ^ 2 := by
  have h1 := sin_sq_add_cos_sq θ
  have h2 := sin_sq_add_cos_sq η
  have h3 := sin_sq_add_cos_sq ψ
  refine ⟨rfl, rfl, rfl, ?_, ?_, ?_, rfl, ?_⟩
  · simp only [sample6D, sampleVelocity]
    linear_combination (v ^ 2 * cos η ^ 2 + v ^ 2 * sin η ^ 2 * cos ψ ^ 2) * h1 + v ^ 2 * sin η ^ 2 * h3 + v ^ 2 * h2
  · simp only [sample6D, sampleVelocity]
    linear_combination (v * cos η) * h1
  · simp only [sample6D, sampleVelocity]
    linear_combination (v * sin η * cos ψ) * h1
  · simp only [sample6D, sampleVelocity, C59Spec.Lsq]
    linear_combination (r ^ 2 * v ^ 2 * sin η ^ 2 * sin ψ ^ 2
      + r ^ 2 * v ^ 2 * sin η ^ 2 * cos ψ ^ 2 * (sin θ ^ 2 + cos θ ^ 2 + 1)) * h1 + r ^ 2 * v ^ 2 * sin η ^ 2 * h3

/-- The distribution function at a drawn point is the one the speed and angle were drawn from. -/
theorem C63_call (P : Pot) (f : ℝ → ℝ → ℝ) (hP : ∀ R z, P.val R z 0 0 = phi P (√(R ^ 2 + z ^ 2))) {r v η : ℝ} (θ φ ψ : ℝ)
    (hr : 0 < r) (hv : 0 ≤ v) (hη : 0 ≤ sin η) :
    let p := sample6D r θ φ v η ψ;
    call P (fun E L _ => f E L) p.R p.vR p.vT p.z p.vz = f (phi P r + v ^ 2 / 2) (r * (v * sin η)) := by
  intro p
  obtain ⟨h1, h2, -, h4, -, -, -, h8⟩ := C63_point r θ φ v η ψ
  have hR : p.R ^ 2 + p.z ^ 2 = r ^ 2 := by
    rw [h1, h2]
    linear_combination r ^ 2 * sin_sq_add_cos_sq θ
  rw [C59_point P _ _ _ _ _ _ (by rw [hR]; positivity), hP, hR, sqrt_sq hr.le, h4, h8, sqrt_sq (by positivity)]

/-- A point drawn at a given position stays there, and its velocity has the drawn components. -/
theorem C63_at {R z : ℝ} (hz : R ≠ 0 ∨ z ≠ 0) (φ v η ψ r' θ' φ' : ℝ) :
    let p := sample (some R) (some z) (some φ) r' θ' φ' v η ψ;
    let r := √(R ^ 2 + z ^ 2);
    p.R = R ∧ p.z = z ∧ p.phi = φ ∧ p.vR ^ 2 + p.vT ^ 2 + p.vz ^ 2 = v ^ 2 ∧
    (p.vR * R + p.vz * z) / r = v * cos η ∧ (p.vR * z - p.vz * R) / r = v * sin η * cos ψ ∧
    p.vT = v * sin η * sin ψ ∧ C59Spec.Lsq p.R p.vR p.vT p.z p.vz = (r * (v * sin η)) ^ 2 := by
  intro p r
  have hpos : 0 < R ^ 2 + z ^ 2 := by
    rcases hz with h | h <;> positivity
  have hr : 0 < r := sqrt_pos.2 hpos
  have hcos : r * cos (Coords.atan2 R z) = z := by
    have := Coords.polar_cos z R
    rwa [add_comm] at this
  have hsin : r * sin (Coords.atan2 R z) = R := by
    have := Coords.polar_sin z R
    rwa [add_comm] at this
  obtain ⟨h1, h2, -, h4, h5, h6, h7, h8⟩ := C63_point r (Coords.atan2 R z) φ v η ψ
  have e : p = sample6D r (Coords.atan2 R z) φ v η ψ := by
    simp only [p, sample, sampleAt, sample6D, hcos, hsin, Option.getD_some]
  rw [← e] at h1 h2 h4 h5 h6 h7 h8
  refine ⟨rfl, rfl, rfl, h4, ?_, ?_, h7, h8⟩
  · rw [← h5, div_eq_iff hr.ne']
    linear_combination -p.vR * hsin - p.vz * hcos
  · rw [← h6, div_eq_iff hr.ne']
    linear_combination p.vz * hsin - p.vR * hcos

/-! ### What does not hold -/

/-- `sample(rmin=...)` promises the minimum radius at which to sample. The classes with an analytic
inverse mass profile ignore it: any `rmin` is undercut with positive probability. -/
theorem C63_rmin_fails (b rmin : ℝ) (hb : 0 < b) (hr : 0 < rmin) (interp : ℝ → ℝ → ℝ) :
    0 < volume {u | u ∈ Ioo (0 : ℝ) 1 ∧ sampleR (some (PlummerDF.icmf b)) interp rmin u < rmin} := by
  obtain ⟨h1, h2⟩ := C04_Plummer 1 b hb.ne'
  have hM : Tendsto (fun r => shellMass (fun r => ((Plummer.pot b).scale 1).dens r 0 0 0) 0 r) atTop (𝓝 1) := by
    refine h2.congr' ?_
    filter_upwards [eventually_gt_atTop 0] with r hr using (h1.enclosed r hr).2.symm
  have h := C63_radius_plummer 1 b 1 one_pos hb hM (half_pos hr)
  unfold Prob at h
  have hpos : 0 < shellMass (fun r => ((Plummer.pot b).scale 1).dens r 0 0 0) 0 (rmin / 2) / 1 := by
    rw [shellMass, (h1.enclosed _ (half_pos hr)).2, Plummer.mass]
    have : 0 < 1 + b ^ 2 / (rmin / 2) ^ 2 := by positivity
    have := rpow_pos_of_pos this (-(3 / 2))
    linarith
  refine lt_of_lt_of_le (ENNReal.ofReal_pos.2 hpos) (h ▸ measure_mono ?_)
  rintro u ⟨hu, hs⟩
  refine ⟨hu, ?_⟩
  show PlummerDF.icmf b u < rmin
  linarith

/-- `sample(phi=...)` promises velocities at this azimuth; without `R` and `z` it is ignored. -/
theorem C63_lone_azimuth_fails : ∃ φ r θ' φ' v η ψ : ℝ,
    (sample none none (some φ) r θ' φ' v η ψ).phi ≠ φ :=
  ⟨1, 1, 1, 2, 1, 1, 1, by simp [sample, sample6D]⟩

/-! ### Examples -/

example : ∃ (P : Pot) (ra : ℝ), ra ≠ 0 ∧ ∀ R z, P.val R z 0 0 = phi P (√(R ^ 2 + z ^ 2)) := by
  refine ⟨Plummer.pot 1, 1, one_ne_zero, fun R z => ?_⟩
  simp only [phi, Plummer.pot, Pot.axi, Plummer.evaluate]
  rw [sq_sqrt (by positivity)]
  ring_nf

/-- The table of a homogeneous sphere of radius one, at radius one half. -/
example : Prob (fun u => xiToR 1 (RToxi 1 (u ^ (1 / 3 : ℝ)))) (1 / 2) (shellMass (fun _ => 3 / (4 * π)) 0 (1 / 2) / (1 - 0)) := by
  have h := C63_radius_table (ρ := fun _ => 3 / (4 * π)) (mass := fun r => r ^ 3) (interp := fun u => RToxi 1 (u ^ (1 / 3 : ℝ)))
    (a := 1) (rmin := 0) (mmax := 1) (r := 1 / 2) ?_ one_pos le_rfl (by norm_num) (by norm_num) (by norm_num) (by norm_num) (by norm_num)
    ?_ ?_ ?_
  · simpa using h
  · intro r hr
    refine ⟨(by fun_prop : Continuous fun x : ℝ => 4 * π * x ^ 2 * (3 / (4 * π))).intervalIntegrable _ _, ?_⟩
    have e : ∀ x : ℝ, 4 * π * x ^ 2 * (3 / (4 * π)) = 3 * x ^ 2 := fun x => by field_simp
    simp only [e]
    rw [intervalIntegral.integral_const_mul, integral_pow]
    push_cast
    ring
  · intro u hu w hw huw
    have h1 := rpow_lt_rpow hu.1 huw (show (0 : ℝ) < 1 / 3 by norm_num)
    have h2 := rpow_nonneg hu.1 (1 / 3 : ℝ)
    simp only [RToxi, div_one]
    rw [div_lt_div_iff₀ (by linarith) (by linarith)]
    nlinarith
  · intro u hu
    have h1 := rpow_pos_of_pos hu.1 (1 / 3 : ℝ)
    simp only [RToxi, div_one]
    rw [lt_div_iff₀ (by linarith), div_lt_one (by linarith)]
    constructor <;> linarith
  · simp only [cmfNode, lt_irrefl, if_false, div_one]
    congr 1
    rw [← rpow_natCast, ← rpow_mul (by norm_num)]
    norm_num

/-- Exact inversion of the table of angles for `β = 0`. -/
example : ∀ u ∈ Ioo (0 : ℝ) 1, |2 * u - 1| < 1 ∧ cbCosEtaCmf 0 (2 * u - 1) = u := by
  intro u hu
  have h : |2 * u - 1| < 1 := abs_lt.2 ⟨by linarith [hu.1], by linarith [hu.2]⟩
  refine ⟨h, ?_⟩
  rw [C63_eta_constantbeta_table one_pos h]
  simp only [neg_zero, rpow_zero, intervalIntegral.integral_const, smul_eq_mul, mul_one]
  ring

/-- Exact speeds of a distribution function that is constant up to speed one. -/
example (P : Pot) (r w : ℝ) (h0 : 0 ≤ w) (h1 : w ≤ 1) : Prob (fun u => u ^ (1 / 3 : ℝ)) w
    ((∫ v in (0 : ℝ)..w, isoPvAtR P (fun _ => 1) v r) / ∫ v in (0 : ℝ)..1, isoPvAtR P (fun _ => 1) v r) := by
  simp only [isoPvAtR, one_mul, integral_pow]
  norm_num
  rw [show w ^ 3 / 3 / (1 / 3) = w ^ 3 by ring]
  refine prob_of_iff (by positivity) (pow_le_one₀ h0 h1) fun u hu0 _ => ?_
  have e : (u ^ (1 / 3 : ℝ)) ^ 3 = u := by
    rw [← rpow_natCast, ← rpow_mul hu0.le]
    norm_num
  rw [← pow_le_pow_iff_left₀ (rpow_nonneg hu0.le _) h0 three_ne_zero, e]

end Verif
