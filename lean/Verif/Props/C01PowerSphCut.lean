import Verif.Lemmas.Pot.PowerSphericalCutoff
import Verif.Lemmas.Pot.Sum
import Verif.Props.C04
import Verif.Props.C59Derivs
import Mathlib.Analysis.Real.Pi.Bounds
import Mathlib.Analysis.Complex.ExponentialBounds

set_option autoImplicit false

/-!
# C01, C02, C03, C04, C51, C59, C71 for PowerSphericalPotentialwCutoff

Inner slopes `α < 3` (finite mass).  The value needs `α < 2`: for `α ≥ 2` the potential itself diverges at the centre and
`_evaluate` returns NaN.
-/

noncomputable section
namespace Verif
open Real Filter Topology Set C59Spec

namespace C01aux
/-- A point of the domain. -/
theorem pdom {R z : ℝ} (φ : ℝ) (h : 0 < R ^ 2 + z ^ 2) : Spherical.Dom (Ioi 0) R z φ := sqrt_pos.2 h

namespace PSC
open PowerSphCut
/-- The same forces with a value that exists for every `α < 3`. -/
def valS (α rc r : ℝ) : ℝ := ∫ x in (1:ℝ)..r, massG α rc x / x ^ 2
theorem valS_deriv {α rc : ℝ} (h : α < 3) (hc : 0 < rc) {r : ℝ} (hr : 0 < r) :
    HasDerivAt (valS α rc) (massG α rc r / r ^ 2) r := by
  have hcont : ∀ x ∈ Ioi (0:ℝ), ContinuousAt (fun x => massG α rc x / x ^ 2) x := fun x hx =>
    (massG_deriv h hc hx).continuousAt.div (by fun_prop) (pow_ne_zero 2 (ne_of_gt hx))
  refine intervalIntegral.integral_hasDerivAt_right ?_ ?_ (hcont r hr)
  · refine ContinuousOn.intervalIntegrable fun x hx => (hcont x ?_).continuousWithinAt
    exact lt_of_lt_of_le (lt_min one_pos hr) hx.1
  · exact ContinuousOn.stronglyMeasurableAtFilter isOpen_Ioi (s := Ioi 0)
      (fun x hx => (hcont x hx).continuousWithinAt) r hr
/-- The Python record with that value. -/
def potS (α rc : ℝ) : Pot :=
  Pot.axi (fun R z => valS α rc √(R ^ 2 + z ^ 2)) (Rforce α rc) (zforce α rc) (R2deriv α rc) (z2deriv α rc)
    (Rzderiv α rc) (dens α rc)
theorem consistentS {α rc : ℝ} (h : α < 3) (hc : 0 < rc) : Consistent (potS α rc) (Spherical.Dom (Ioi 0)) := by
  have ok : Spherical.RadialOK (Spherical.stat (valS α rc) (fun r => -(massG α rc r / r ^ 2))
      (fun r => 4 * π * r ^ (-α) * exp (-((r / rc) ^ 2)) - 2 * massG α rc r / r ^ 3)
      (fun r => r ^ (-α) * exp (-((r / rc) ^ 2)))) (Ioi 0) :=
    Spherical.RadialOK.stat isOpen_Ioi (fun _ h => h) (fun r hr => by simpa using valS_deriv h hc hr)
      (fun r hr => force_deriv h hc hr) (fun r hr => by
        have := ne_of_gt (mem_Ioi.1 hr)
        field_simp; ring)
  refine Spherical.consistent_axi ok (fun _ _ => ⟨rfl, rfl, rfl, rfl⟩) ?_ ?_ ?_ ?_ ?_ ?_ ?_
  · intro R z r _ hr e _; simp only [e]; rfl
  all_goals
    intro R z r _ hr e ez
    first | unfold Rforce | unfold zforce | unfold R2deriv | unfold z2deriv | unfold Rzderiv | unfold dens
    simp only [← sq, e, Spherical.stat, mass_eq h hc hr, npow hr, rpow_neg hr.le]
    try simp only [ez]
    have := rpow_pos_of_pos hr α
    try field_simp
    try ring
end PSC
end C01aux
open C01aux

/-- Forces. -/
theorem C01_PowerSphCut {α rc : ℝ} (h : α < 2) (hc : 0 < rc) (amp R z φ t : ℝ) (h0 : 0 < R ^ 2 + z ^ 2) :
    GradAt ((PowerSphCut.pot α rc).scale amp) R z φ t :=
  ((PowerSphCut.consistent h hc).scale amp).grad R z φ t (pdom φ h0)
example : GradAt ((PowerSphCut.pot 1.8 (1.9 / 8)).scale 3) 1 0 0 0 :=
  C01_PowerSphCut (by norm_num) (by norm_num) _ _ _ _ _ (by norm_num)

/-- The value 0 returned at the centre is the limit of the values around it. -/
theorem C01_PowerSphCut_centre {α rc : ℝ} (h : α < 2) (hc : 0 < rc) (amp φ t : ℝ) :
    ContinuousAt (fun q : ℝ × ℝ => ((PowerSphCut.pot α rc).scale amp).val q.1 q.2 φ t) (0, 0) := by
  have hlim : Tendsto (fun r : ℝ => PowerSphCut.valG α rc r) (𝓝[>] 0) (𝓝 0) := by
    have key : ∀ r : ℝ, 0 < r → |PowerSphCut.valG α rc r|
        ≤ 2 * π * (1 / (1 - α / 2)) * r ^ (2 - α) + 2 * π * (1 / (1.5 - α / 2)) * r ^ (2 - α) := by
      intro r hr
      have hu : 0 < r / rc := by positivity
      have s1 : 0 < 1 - α / 2 := by linarith
      have s2 := PowerSphCut.s_pos (by linarith : α < 3)
      have b1 := lowerGamma_le s1 (sq_nonneg (r / rc))
      have b2 := lowerGamma_le s2 (sq_nonneg (r / rc))
      have p1 := (lowerGamma_pos s1 (by positivity : 0 < (r / rc) ^ 2)).le
      have p2 := (lowerGamma_pos s2 (by positivity : 0 < (r / rc) ^ 2)).le
      rw [PowerSphCut.sq_rpow hu.le, div_rpow hr.le hc.le] at b1 b2
      have q := rpow_pos_of_pos hc (3 - α)
      unfold PowerSphCut.valG PowerSphCut.massG
      refine (abs_sub _ _).trans (add_le_add ?_ ?_)
      · rw [abs_of_nonneg (by positivity)]
        rw [show 2 * (1 - α / 2) = 2 - α by ring] at b1
        calc _ ≤ 2 * π * rc ^ (3 - α) * (1 / rc * (r ^ (2 - α) / rc ^ (2 - α) / (1 - α / 2))) := by gcongr
          _ = _ := by
            have := rpow_pos_of_pos hc (2 - α)
            rw [show 3 - α = 2 - α + 1 by ring, rpow_add hc, rpow_one]
            field_simp
      · rw [abs_of_nonneg (by positivity)]
        rw [show 2 * ((1.5:ℝ) - α / 2) = 3 - α by norm_num; ring] at b2
        calc _ ≤ 2 * π * rc ^ (3 - α) * (r ^ (3 - α) / rc ^ (3 - α) / (1.5 - α / 2)) / r := by gcongr
          _ = _ := by
            rw [show r ^ (3 - α) = r ^ (2 - α) * r by rw [← rpow_add_one hr.ne']; congr 1; ring]
            field_simp
    have z0 : Tendsto (fun r : ℝ => r ^ (2 - α)) (𝓝[>] 0) (𝓝 0) := by
      have : ContinuousAt (fun r : ℝ => r ^ (2 - α)) 0 := continuousAt_rpow_const _ _ (Or.inr (by linarith))
      have := this.tendsto
      rw [zero_rpow (by linarith)] at this
      exact this.mono_left nhdsWithin_le_nhds
    refine squeeze_zero_norm' (a := fun r : ℝ => 2 * π * (1 / (1 - α / 2)) * r ^ (2 - α)
      + 2 * π * (1 / (1.5 - α / 2)) * r ^ (2 - α)) ?_ ?_
    · filter_upwards [self_mem_nhdsWithin] with r hr
      exact key r hr
    · simpa using (z0.const_mul (2 * π * (1 / (1 - α / 2)))).add (z0.const_mul (2 * π * (1 / (1.5 - α / 2))))
  have v0 : ((PowerSphCut.pot α rc).scale amp).val 0 0 φ t = 0 := by
    simp [Pot.scale, PowerSphCut.pot, Pot.axi, PowerSphCut.evaluate]
  rw [ContinuousAt]
  beta_reduce
  rw [v0, Metric.tendsto_nhds]
  intro ε hε
  have hlim' := (hlim.const_mul amp)
  rw [mul_zero, Metric.tendsto_nhds] at hlim'
  have h1 := hlim' ε hε
  rw [eventually_nhdsWithin_iff] at h1
  have hr : Tendsto (fun q : ℝ × ℝ => √(q.1 ^ 2 + q.2 ^ 2)) (𝓝 (0, 0)) (𝓝 0) := by
    have : ContinuousAt (fun q : ℝ × ℝ => √(q.1 ^ 2 + q.2 ^ 2)) (0, 0) := by fun_prop
    simpa [ContinuousAt] using this
  filter_upwards [hr.eventually h1] with q hq
  rcases eq_or_lt_of_le (sqrt_nonneg (q.1 ^ 2 + q.2 ^ 2)) with e | e
  · have : ((PowerSphCut.pot α rc).scale amp).val q.1 q.2 φ t = 0 := by
      simp only [Pot.scale, PowerSphCut.pot, Pot.axi, PowerSphCut.evaluate, ← e, if_true, mul_zero]
    rw [this]; simpa using hε
  · have := hq e
    rw [show ((PowerSphCut.pot α rc).scale amp).val q.1 q.2 φ t = amp * PowerSphCut.valG α rc √(q.1 ^ 2 + q.2 ^ 2) from
      congrArg (amp * ·) (PowerSphCut.val_eq h e rfl)]
    exact this

/-- Second derivatives. -/
theorem C02_PowerSphCut {α rc : ℝ} (h : α < 2) (hc : 0 < rc) (amp R z φ t : ℝ) (h0 : 0 < R ^ 2 + z ^ 2) :
    HessAt ((PowerSphCut.pot α rc).scale amp) R z φ t :=
  ((PowerSphCut.consistent h hc).scale amp).hess R z φ t (pdom φ h0)
/-- The second derivatives are minus the derivatives of the forces, also where the value diverges. -/
theorem C02_PowerSphCut_steep {α rc : ℝ} (h : α < 3) (hc : 0 < rc) (amp R z φ t : ℝ) (h0 : 0 < R ^ 2 + z ^ 2) :
    ForceHess ((PowerSphCut.pot α rc).scale amp) R z φ t := by
  have c := (PSC.consistentS h hc).scale amp
  have f := ForceHess.of_hess (c.near (Spherical.Dom.axisOpen isOpen_Ioi) t (pdom φ h0)) (c.hess R z φ t (pdom φ h0))
  exact ⟨f.RR, f.Rz, f.Rp, f.zR, f.zz, f.zp, f.pR, f.pz, f.pp⟩
example : ForceHess ((PowerSphCut.pot 2.5 1).scale 3) 1 0 0 0 :=
  C02_PowerSphCut_steep (by norm_num) (by norm_num) _ _ _ _ _ (by norm_num)

/-- Poisson. -/
theorem C03_PowerSphCut {α rc : ℝ} (h : α < 2) (hc : 0 < rc) (amp R z φ t : ℝ) (h0 : 0 < R ^ 2 + z ^ 2) (hR0 : R ≠ 0) :
    PoissonAt ((PowerSphCut.pot α rc).scale amp) R z φ t :=
  ((PowerSphCut.consistent h hc).scale amp).poisson R z φ t (pdom φ h0) hR0
/-- Poisson's equation between the second derivatives, the force and the density, also where the value diverges. -/
theorem C03_PowerSphCut_steep {α rc : ℝ} (h : α < 3) (hc : 0 < rc) (amp R z φ t : ℝ) (h0 : 0 < R ^ 2 + z ^ 2)
    (hR0 : R ≠ 0) : PoissonAlg ((PowerSphCut.pot α rc).scale amp) R z φ t := by
  have c := (PSC.consistentS h hc).scale amp
  have p := (poissonAt_iff (c.grad R z φ t (pdom φ h0)) (c.hess R z φ t (pdom φ h0))).1 (c.poisson R z φ t (pdom φ h0) hR0)
  exact p
example : PoissonAt ((PowerSphCut.pot 1.8 (1.9 / 8)).scale 3) 1 2 0 0 :=
  C03_PowerSphCut (by norm_num) (by norm_num) _ _ _ _ _ (by norm_num) (by norm_num)

/-- The stored amplitude is the one that makes the density at `r1` the documented `amp · exp(-(r1/rc)²)`. -/
theorem C03_PowerSphCut_amp {α rc r1 : ℝ} (h1 : 0 < r1) (amp : ℝ) (φ t : ℝ) :
    ((PowerSphCut.pot α rc).scale (PowerSphCut.initAmp amp r1 α)).dens r1 0 φ t = amp * exp (-((r1 / rc) ^ 2)) := by
  have := rpow_pos_of_pos h1 α
  simp only [Pot.scale, PowerSphCut.pot, Pot.axi, PowerSphCut.dens, PowerSphCut.initAmp, zero_pow two_ne_zero, add_zero,
    sqrt_sq h1.le]
  field_simp

/-- The mass method is the integral of the density, obeys Gauss' theorem and tends to the value returned at infinity. -/
theorem C04_PowerSphCut {α rc : ℝ} (h : α < 3) (hc : 0 < rc) (amp : ℝ) :
    MassOf ((PowerSphCut.pot α rc).scale amp) (fun r => amp * PowerSphCut.mass α rc r) ∧
      Tendsto (fun r => amp * PowerSphCut.mass α rc r) atTop (𝓝 (amp * PowerSphCut.massInf α rc)) := by
  have hs := PowerSphCut.s_pos h
  have dm : ∀ r, 0 < r → HasDerivAt (PowerSphCut.mass α rc) (4 * π * r ^ 2 * (PowerSphCut.pot α rc).dens r 0 0 0) r := by
    intro r hr
    refine ((PowerSphCut.massG_deriv h hc hr).congr_of_eventuallyEq ?_).congr_deriv ?_
    · filter_upwards [lt_mem_nhds hr] with x hx using PowerSphCut.mass_eq h hc hx
    · simp only [PowerSphCut.pot, Pot.axi, PowerSphCut.dens, zero_pow two_ne_zero, add_zero, sqrt_sq hr.le]
      rw [rpow_sub hr, rpow_two]; ring
  refine ⟨.scale amp ⟨.of_deriv ?_ dm ?_, dm, ?_⟩, ?_⟩
  · intro r hr
    simp only [PowerSphCut.pot, Pot.axi, PowerSphCut.dens]
    positivity
  · have b : ∀ r : ℝ, 0 < r → PowerSphCut.mass α rc r ≤ 2 * π / (1.5 - α / 2) * r ^ (3 - α) := by
      intro r hr
      have b2 := lowerGamma_le hs (sq_nonneg (r / rc))
      have hu : 0 < r / rc := by positivity
      rw [PowerSphCut.sq_rpow hu.le, div_rpow hr.le hc.le, show 2 * ((1.5:ℝ) - α / 2) = 3 - α by norm_num; ring] at b2
      have q := rpow_pos_of_pos hc (3 - α)
      rw [PowerSphCut.mass_eq h hc hr, PowerSphCut.massG]
      calc _ ≤ 2 * π * rc ^ (3 - α) * (r ^ (3 - α) / rc ^ (3 - α) / (1.5 - α / 2)) := by gcongr
        _ = _ := by field_simp
    have z0 : Tendsto (fun r : ℝ => 2 * π / (1.5 - α / 2) * r ^ (3 - α)) (𝓝[>] 0) (𝓝 0) := by
      have : ContinuousAt (fun r : ℝ => r ^ (3 - α)) 0 := continuousAt_rpow_const _ _ (Or.inr (by linarith))
      have := (this.tendsto.const_mul (2 * π / (1.5 - α / 2)))
      rw [zero_rpow (by linarith), mul_zero] at this
      exact this.mono_left nhdsWithin_le_nhds
    refine tendsto_of_tendsto_of_tendsto_of_le_of_le' tendsto_const_nhds z0 ?_ ?_
    · filter_upwards [self_mem_nhdsWithin] with r hr
      rw [PowerSphCut.mass_eq h hc hr, PowerSphCut.massG]
      have hr' : 0 < r := hr
      have := lowerGamma_pos hs (by positivity : 0 < (r / rc) ^ 2)
      positivity
    · filter_upwards [self_mem_nhdsWithin] with r hr using b r hr
  · refine gauss_of_central (g := fun r => -PowerSphCut.mass α rc r / r ^ 3) ?_ ?_ ?_
    · intro R z φ t _
      simp only [PowerSphCut.pot, Pot.axi, PowerSphCut.Rforce, ← sq]; ring
    · intro R z φ t _
      simp only [PowerSphCut.pot, Pot.axi, PowerSphCut.zforce, ← sq]; ring
    · intro r hr
      simp only [PowerSphCut.pot, Pot.axi, PowerSphCut.Rforce, ← sq, zero_pow two_ne_zero, add_zero, sqrt_sq hr.le]
      field_simp
  · refine Tendsto.const_mul amp ?_
    have hx : Tendsto (fun r : ℝ => (r / rc) ^ 2) atTop atTop :=
      (tendsto_pow_atTop two_ne_zero).comp (tendsto_id.atTop_div_const hc)
    have := ((lowerGamma_lim hs).comp hx).const_mul (2 * π * rc ^ (3 - α))
    refine this.congr' ?_
    filter_upwards [eventually_gt_atTop 0] with r hr
    exact (PowerSphCut.mass_eq h hc hr).symm
example : MassOf ((PowerSphCut.pot 1.8 (1.9 / 8)).scale 2) (fun r => 2 * PowerSphCut.mass 1.8 (1.9 / 8) r) :=
  (C04_PowerSphCut (by norm_num) (by norm_num) 2).1

/-- `mass(1)` with an integer radius is not the mass within `R = 1`: the result is truncated to an integer (`α = 1`, `rc = 1`:
3 instead of `2π(1 - 1/e) ≈ 3.97`). -/
theorem C04_PowerSphCut_int_fails : ∃ (α rc : ℝ) (n : ℤ), α < 2 ∧ 0 < rc ∧ 0 < n ∧
    (PowerSphCut.massInt α rc n : ℝ) ≠ PowerSphCut.mass α rc n := by
  refine ⟨1, 1, 1, by norm_num, one_pos, one_pos, ?_⟩
  have e : PowerSphCut.mass 1 1 1 = 2 * π * (1 - exp (-1)) := by
    rw [PowerSphCut.mass_eq (by norm_num) one_pos one_pos, PowerSphCut.massG, lowerGamma]
    norm_num
  have h3 : (3:ℝ) < 2 * π * (1 - exp (-1)) := by
    have : exp (-1) < 1 / 2 := by
      rw [exp_neg, inv_eq_one_div]
      exact one_div_lt_one_div_of_lt (by norm_num) (by linarith [exp_one_gt_d9])
    nlinarith [pi_gt_three]
  have h4 : 2 * π * (1 - exp (-1)) < 4 := by
    have : (0.367:ℝ) < exp (-1) := by
      rw [exp_neg, lt_inv_comm₀ (by norm_num) (exp_pos _)]
      have := exp_one_lt_d9
      norm_num at *; linarith
    have p1 := pi_lt_d2; have p2 := pi_gt_three
    nlinarith [mul_lt_mul_of_pos_left this (by linarith : (0:ℝ) < π)]
  unfold PowerSphCut.massInt
  simp only [Int.cast_one, e]
  rw [if_pos (by linarith)]
  have : ⌊2 * π * (1 - exp (-1))⌋ = 3 := by
    rw [Int.floor_eq_iff]; push_cast; constructor <;> linarith
  rw [this]; push_cast; linarith

/-- The derivatives of the density used by the spherical distribution functions, and the JAX force. -/
theorem C59_densderivs_PowerSphCut {α rc : ℝ} (amp : ℝ) {r : ℝ} (hr : 0 < r) (hc : 0 < rc) :
    DensDerivs (fun r => ((PowerSphCut.pot α rc).scale amp).dens r 0 0 0) (PowerSphCut.ddensdr amp α rc)
      (PowerSphCut.d2densdr2 amp α rc) (PowerSphCut.ddenstwobetadr amp α rc) r := by
  have he : ∀ x : ℝ, HasDerivAt (fun r : ℝ => exp (-((r / rc) ^ 2))) (exp (-((x / rc) ^ 2)) * (-(2 * x / rc ^ 2))) x := by
    intro x
    have : HasDerivAt (fun r : ℝ => -((r / rc) ^ 2)) (-(2 * x / rc ^ 2)) x := by
      have := (((hasDerivAt_id x).div_const rc).pow 2).neg
      refine this.congr_deriv ?_
      simp only [id]; push_cast; field_simp
    exact this.exp
  have hp : ∀ p : ℝ, HasDerivAt (fun r : ℝ => r ^ p) (p * (r ^ p / r)) r := by
    intro p
    refine (hasDerivAt_rpow_const (Or.inl hr.ne')).congr_deriv ?_
    rw [rpow_sub_one hr.ne']
  have ed : ∀ x, 0 < x → ((PowerSphCut.pot α rc).scale amp).dens x 0 0 0 = amp * (x ^ (-α) * exp (-((x / rc) ^ 2))) := by
    intro x hx
    simp only [Pot.scale, PowerSphCut.pot, Pot.axi, PowerSphCut.dens, zero_pow two_ne_zero, add_zero, sqrt_sq hx.le,
      rpow_neg hx.le, one_div]
  refine ⟨?_, ?_, fun β => ?_⟩
  · have := (((hp (-α)).mul (he r)).const_mul amp)
    refine (this.congr_of_eventuallyEq ?_).congr_deriv ?_
    · filter_upwards [lt_mem_nhds hr] with x hx using ed x hx
    · unfold PowerSphCut.ddensdr
      rw [show -1 - α = -α - 1 by ring, rpow_sub_one hr.ne']
      field_simp; ring
  · have hq : HasDerivAt (fun r : ℝ => 2 * r ^ 2 / rc ^ 2 + α) (4 * r / rc ^ 2) r := by
      have := ((((hasDerivAt_id r).pow 2).const_mul 2).div_const (rc ^ 2)).add_const α
      refine this.congr_deriv ?_
      simp only [id]; push_cast; ring
    have := (((hp (-1 - α)).const_mul (-amp)).mul (he r)).mul hq
    refine this.congr_deriv ?_
    simp only [Pi.mul_apply]
    unfold PowerSphCut.d2densdr2
    rw [show -2 - α = -1 - α - 1 by ring, rpow_sub_one hr.ne' (-1 - α)]
    field_simp; ring
  · have := (((hp (-α + 2 * β)).mul (he r)).const_mul amp)
    refine (this.congr_of_eventuallyEq ?_).congr_deriv ?_
    · filter_upwards [lt_mem_nhds hr] with x hx
      rw [ed x hx]
      simp only [Pi.mul_apply]
      rw [rpow_add hx]; ring
    · unfold PowerSphCut.ddenstwobetadr
      rw [show -α + 2 * β = -(α - 2 * β) by ring, rpow_neg hr.le]
      have := rpow_pos_of_pos hr (α - 2 * β)
      field_simp; ring
example : DensDerivs (fun r => ((PowerSphCut.pot 1 2).scale 3).dens r 0 0 0) (PowerSphCut.ddensdr 3 1 2)
    (PowerSphCut.d2densdr2 3 1 2) (PowerSphCut.ddenstwobetadr 3 1 2) 1 :=
  C59_densderivs_PowerSphCut 3 one_pos two_pos

/-- The radial force used by the JAX integrator of the constant-anisotropy distribution function. -/
theorem C59_rforce_jax_PowerSphCut {α rc : ℝ} (h : α < 3) (hc : 0 < rc) (amp : ℝ) {r : ℝ} (hr : 0 < r) :
    PowerSphCut.rforceJax amp α rc r = ((PowerSphCut.pot α rc).scale amp).Rforce r 0 0 0 := by
  have hs := PowerSphCut.s_pos h
  simp only [PowerSphCut.rforceJax, Pot.scale, PowerSphCut.pot, Pot.axi, PowerSphCut.Rforce, PowerSphCut.s_eq, ← sq,
    zero_pow two_ne_zero, add_zero, sqrt_sq hr.le]
  rw [exp_log (Gamma_pos_of_pos hs), PowerSphCut.mass_eq h hc hr, PowerSphCut.massG, ← gammainc_mul hs]
  field_simp

/-- The uncached C functions. -/
theorem C51_PowerSphCut {α rc : ℝ} (h : α < 2) (hc : 0 < rc) (amp R z φ t : ℝ) (h0 : 0 < R ^ 2 + z ^ 2) :
    PowerSphCut.cEval amp α rc R z = ((PowerSphCut.pot α rc).scale amp).val R z φ t ∧
    PowerSphCut.cR2deriv amp α rc R z = ((PowerSphCut.pot α rc).scale amp).R2deriv R z φ t ∧
    PowerSphCut.cz2deriv amp α rc R z = ((PowerSphCut.pot α rc).scale amp).z2deriv R z φ t ∧
    PowerSphCut.cRzderiv amp α rc R z = ((PowerSphCut.pot α rc).scale amp).Rzderiv R z φ t ∧
    PowerSphCut.cDens amp α rc R z = ((PowerSphCut.pot α rc).scale amp).dens R z φ t := by
  have hr := sqrt_pos.2 h0
  have h3 : α < 3 := by linarith
  have e2 := PowerSphCut.cPlanarR2deriv_eq (rc := rc) amp h3 hr
  have e1 := PowerSphCut.cPlanarRforce_eq (rc := rc) amp h3 (r := √(R ^ 2 + z ^ 2))
  have ez : z ^ 2 = √(R ^ 2 + z ^ 2) ^ 2 - R ^ 2 := by rw [sq_sqrt h0.le]; ring
  refine ⟨PowerSphCut.cEval_eq amp h h0, ?_, ?_, ?_, PowerSphCut.cDens_eq amp h0⟩
  · refine (Spherical.cR2_eq amp (PowerSphCut.rad α rc) R z t h0 e2 e1).trans ?_
    simp only [Pot.scale, PowerSphCut.pot, Pot.axi, Spherical.R2deriv, PowerSphCut.R2deriv, ← sq, PowerSphCut.npow hr,
      PowerSphCut.mass_eq h3 hc hr, PowerSphCut.rad, Spherical.stat]
    generalize √(R ^ 2 + z ^ 2) = r at *
    field_simp; ring
  · refine (Spherical.cz2_eq amp (PowerSphCut.rad α rc) R z t h0 e2 e1).trans ?_
    simp only [Pot.scale, PowerSphCut.pot, Pot.axi, Spherical.z2deriv, PowerSphCut.z2deriv, ← sq, PowerSphCut.npow hr,
      PowerSphCut.mass_eq h3 hc hr, PowerSphCut.rad, Spherical.stat]
    generalize √(R ^ 2 + z ^ 2) = r at *
    field_simp; ring
  · refine (Spherical.cRz_eq amp (PowerSphCut.rad α rc) R z t h0 e2 e1).trans ?_
    simp only [Pot.scale, PowerSphCut.pot, Pot.axi, Spherical.Rzderiv, PowerSphCut.Rzderiv, ← sq, PowerSphCut.npow hr,
      PowerSphCut.mass_eq h3 hc hr, PowerSphCut.rad, Spherical.stat]
    generalize √(R ^ 2 + z ^ 2) = r at *
    field_simp; ring
/-- The planar C functions. -/
theorem C51_PowerSphCut_planar {α rc : ℝ} (h : α < 3) (hc : 0 < rc) (amp R φ t : ℝ) (hR : 0 < R) :
    PowerSphCut.cPlanarRforce amp α rc R = ((PowerSphCut.pot α rc).scale amp).Rforce R 0 φ t ∧
    PowerSphCut.cPlanarR2deriv amp α rc R = ((PowerSphCut.pot α rc).scale amp).R2deriv R 0 φ t := by
  rw [PowerSphCut.cPlanarRforce_eq amp h, PowerSphCut.cPlanarR2deriv_eq amp h hR]
  simp only [Pot.scale, PowerSphCut.pot, Pot.axi, PowerSphCut.R2deriv, PowerSphCut.Rforce, ← sq, zero_pow two_ne_zero, add_zero,
    sqrt_sq hR.le, PowerSphCut.npow hR, PowerSphCut.mass_eq h hc hR]
  constructor <;> field_simp
  ring
example : PowerSphCut.cEval 3 1 2 1 1 = ((PowerSphCut.pot 1 2).scale 3).val 1 1 0 0 :=
  (C51_PowerSphCut (by norm_num) two_pos 3 1 1 0 0 (by norm_num)).1

/-- The C `Rforce` and `zforce`, which share a cached force: after any sequence of C calls on one argument array, each returns
the Python value at the requested point. -/
theorem C71_PowerSphCut_C {α rc : ℝ} (h : α < 2) (hc : 0 < rc) (amp : ℝ) (l : List (PowerSphCut.CFun × ℝ × ℝ))
    (f : PowerSphCut.CFun) (R z φ t : ℝ) (h0 : 0 < R ^ 2 + z ^ 2) :
    (PowerSphCut.cCall amp α rc (l.foldl (fun s c => (PowerSphCut.cCall amp α rc s c).1) .fresh) (f, R, z)).2
      = (match f with
        | .eval => ((PowerSphCut.pot α rc).scale amp).val
        | .Rforce => ((PowerSphCut.pot α rc).scale amp).Rforce
        | .zforce => ((PowerSphCut.pot α rc).scale amp).zforce
        | .R2deriv => ((PowerSphCut.pot α rc).scale amp).R2deriv
        | .z2deriv => ((PowerSphCut.pot α rc).scale amp).z2deriv
        | .Rzderiv => ((PowerSphCut.pot α rc).scale amp).Rzderiv
        | .dens => ((PowerSphCut.pot α rc).scale amp).dens) R z φ t := by
  have h3 : α < 3 := by linarith
  have inv : ∀ (l : List (PowerSphCut.CFun × ℝ × ℝ)) (s : PowerSphCut.CArgs),
      (0 < s.r2 → s.force = -amp * PowerSphCut.cmass s.r2 α rc / s.r2 ^ (1.5 : ℝ)) →
      let s' := l.foldl (fun s c => (PowerSphCut.cCall amp α rc s c).1) s
      (0 < s'.r2 → s'.force = -amp * PowerSphCut.cmass s'.r2 α rc / s'.r2 ^ (1.5 : ℝ)) := by
    intro l
    induction l with
    | nil => intro s hs; exact hs
    | cons c l ih =>
      intro s hs
      refine ih _ ?_
      have look : ∀ R Z, 0 < (PowerSphCut.cLookup amp α rc R Z s).1.r2 → (PowerSphCut.cLookup amp α rc R Z s).1.force
          = -amp * PowerSphCut.cmass (PowerSphCut.cLookup amp α rc R Z s).1.r2 α rc
            / (PowerSphCut.cLookup amp α rc R Z s).1.r2 ^ (1.5 : ℝ) := by
        intro R Z
        simp only [PowerSphCut.cLookup]
        split_ifs
        · exact hs
        · intro _; rfl
      obtain ⟨f, R, Z⟩ := c
      cases f <;> first | exact hs | exact look R Z
  have hs := inv l .fresh (fun k => absurd k (lt_irrefl _))
  generalize l.foldl (fun s c => (PowerSphCut.cCall amp α rc s c).1) .fresh = s at hs
  have hr := sqrt_pos.2 h0
  have look : (PowerSphCut.cLookup amp α rc R z s).2
      = amp * -(PowerSphCut.massG α rc √(R ^ 2 + z ^ 2) / √(R ^ 2 + z ^ 2) ^ 3) := by
    rw [← PowerSphCut.clookup_eq amp h3 h0]
    simp only [PowerSphCut.cLookup]
    split_ifs with k
    · rw [show R * R + z * z = s.r2 from k]
      refine hs ?_
      rw [← k]; nlinarith
    · rfl
  have c := C51_PowerSphCut h hc amp R z φ t h0
  cases f
  · exact c.1
  · simp only [PowerSphCut.cCall, look, Pot.scale, PowerSphCut.pot, Pot.axi, PowerSphCut.Rforce, ← sq,
      PowerSphCut.mass_eq h3 hc hr]
    ring
  · simp only [PowerSphCut.cCall, look, Pot.scale, PowerSphCut.pot, Pot.axi, PowerSphCut.zforce, ← sq,
      PowerSphCut.mass_eq h3 hc hr]
    ring
  · exact c.2.1
  · exact c.2.2.1
  · exact c.2.2.2.1
  · exact c.2.2.2.2
example : (PowerSphCut.cCall 3 1 2 (PowerSphCut.cCall 3 1 2 .fresh (.zforce, 1, 2)).1 (.Rforce, 2, 1)).2
    = ((PowerSphCut.pot 1 2).scale 3).Rforce 2 1 0 0 :=
  C71_PowerSphCut_C (by norm_num) two_pos 3 [(.zforce, 1, 2)] .Rforce 2 1 0 0 (by norm_num)

example : ContinuousAt (fun q : ℝ × ℝ => ((PowerSphCut.pot 1.8 (1.9 / 8)).scale 3).val q.1 q.2 0 0) (0, 0) :=
  C01_PowerSphCut_centre (by norm_num) (by norm_num) 3 0 0
example : ((PowerSphCut.pot 1.8 1).scale (PowerSphCut.initAmp 3 2 1.8)).dens 2 0 0 0 = 3 * exp (-4) := by
  rw [C03_PowerSphCut_amp two_pos]; norm_num

end Verif
