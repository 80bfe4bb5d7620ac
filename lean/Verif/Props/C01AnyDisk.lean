import Verif.Lemmas.Pot.AnyDiskSheet
import Verif.Lemmas.Pot.Ops
import Mathlib.MeasureTheory.Integral.ExpDecay

set_option autoImplicit false

/-!
# C01, C02, C03: AnyAxisymmetricRazorThinDiskPotential

For every surface density `S` of finite mass.  Off the plane `z = 0`; on the plane the integrands are not integrable in the
ordinary sense (the code relies on principal values and finite parts there), which is not covered.
-/

noncomputable section
namespace Verif
open Real MeasureTheory Set Filter Topology

namespace C01AnyDiskaux
open AnyDisk
theorem grad {S : ℝ → ℝ} (h : Fin S) {R z : ℝ} (hR : 0 < R) (hz : z ≠ 0) (φ t : ℝ) : GradAt (pot S) R z φ t := by
  have g := (sup_consistent h).grad R z φ t ⟨hR, hz⟩
  refine ⟨?_, ?_, ?_⟩
  · have := g.dR
    change HasDerivAt (fun x => evaluate S x z) (-(Rforce S R z)) R
    rw [Rf_sup h hR hz]
    refine HasDerivAt.congr_of_eventuallyEq this ?_
    filter_upwards [lt_mem_nhds hR] with x hx using val_sup h hx hz
  · have := g.dz
    change HasDerivAt (fun x => evaluate S R x) (-(zforce S R z)) z
    rw [zf_sup h hR hz]
    refine HasDerivAt.congr_of_eventuallyEq this ?_
    filter_upwards [eventually_ne_nhds hz] with x hx using val_sup h hR hx
  · simpa [pot, Pot.axi] using hasDerivAt_const φ (evaluate S R z)

theorem hess {S : ℝ → ℝ} (h : Fin S) {R z : ℝ} (hR : 0 < R) (hz : 1e-9 ≤ |z|) (φ t : ℝ) : HessAt (pot S) R z φ t := by
  have hz0 := floor_ne hz
  refine HessAt.of_force ⟨?_, ?_, ?_⟩ ?_
  · filter_upwards [lt_mem_nhds hR] with x hx using grad h hx hz0 φ t
  · filter_upwards [eventually_ne_nhds hz0] with x hx using grad h hR hx φ t
  · exact Eventually.of_forall fun x => grad h hR hz0 x t
  · refine ForceHess.axi ?_ ?_ ?_ ?_
    · rw [R2_sup h hR hz]
      refine (sup_R_R h hR hz0).congr_of_eventuallyEq ?_
      filter_upwards [lt_mem_nhds hR] with x hx using Rf_sup h hx hz0
    · rw [Rz_sup h hR hz0]
      refine (sup_R_z h hR hz0).congr_of_eventuallyEq ?_
      filter_upwards [eventually_ne_nhds hz0] with x hx using Rf_sup h hR hx
    · rw [Rz_sup h hR hz0]
      refine (sup_z_R h hR hz0).congr_of_eventuallyEq ?_
      filter_upwards [lt_mem_nhds hR] with x hx using zf_sup h hx hz0
    · rw [z2_sup h hR hz]
      refine (sup_z_z h hR hz0).congr_of_eventuallyEq ?_
      filter_upwards [eventually_ne_nhds hz0] with x hx using zf_sup h hR hx

theorem dens0 {S : ℝ → ℝ} (h : Fin S) {R z : ℝ} (hR : 0 < R) (hz : 1e-9 ≤ |z|) : dens S R z = 0 := by
  have hz0 := floor_ne hz
  unfold dens
  rw [Rf_sup h hR hz0, R2_sup h hR hz, z2_sup h hR hz, zero_div, add_zero]
  have := sup_laplace h hR hz0
  rw [show -sup S Ring.Rforce R z / R + sup S Ring.R2deriv R z + sup S Ring.z2deriv R z = 0 by rw [← this]; ring]
  simp
theorem exp_fin : Fin (fun R => 1.5 * exp (-3 * R)) := by
  refine integrable_of_isBigO_exp_neg (b := 2) two_pos (by fun_prop) ?_
  refine Asymptotics.IsBigO.of_bound 1.5 ?_
  filter_upwards [eventually_ge_atTop 0] with a ha
  have h : a ≤ exp a := by linarith [add_one_le_exp a]
  rw [Real.norm_eq_abs, Real.norm_eq_abs, abs_of_nonneg (by positivity), abs_of_pos (exp_pos _)]
  calc a * (1.5 * exp (-3 * a)) ≤ exp a * (1.5 * exp (-3 * a)) := by gcongr
    _ = 1.5 * (exp a * exp (-3 * a)) := by ring
    _ = 1.5 * exp (-2 * a) := by rw [← exp_add]; ring_nf
end C01AnyDiskaux
open C01AnyDiskaux

/-- Razor-thin disk of any surface density: forces, everywhere off the plane and off the axis. -/
theorem C01_AnyDisk (amp : ℝ) {S : ℝ → ℝ} (h : IntegrableOn (fun a => a * S a) (Ioi 0)) {R z : ℝ} (hR : 0 < R) (hz : z ≠ 0)
    (φ t : ℝ) : GradAt ((AnyDisk.pot S).scale amp) R z φ t :=
  (grad h hR hz φ t).scale amp

/-- Second derivatives, wherever the code does not replace `|z|` by zero. -/
theorem C02_AnyDisk (amp : ℝ) {S : ℝ → ℝ} (h : IntegrableOn (fun a => a * S a) (Ioi 0)) {R z : ℝ} (hR : 0 < R)
    (hz : 1e-9 ≤ |z|) (φ t : ℝ) : HessAt ((AnyDisk.pot S).scale amp) R z φ t :=
  (hess h hR hz φ t).scale amp

/-- Off the plane the density vanishes and the potential is harmonic. -/
theorem C03_AnyDisk (amp : ℝ) {S : ℝ → ℝ} (h : IntegrableOn (fun a => a * S a) (Ioi 0)) {R z : ℝ} (hR : 0 < R)
    (hz : 1e-9 ≤ |z|) (φ t : ℝ) :
    PoissonAt ((AnyDisk.pot S).scale amp) R z φ t ∧ ((AnyDisk.pot S).scale amp).dens R z φ t = 0 := by
  have e := dens0 h hR hz
  refine ⟨?_, by simp [Pot.scale, AnyDisk.pot, Pot.axi, e]⟩
  refine (poissonAt_iff (C01_AnyDisk amp h hR (AnyDisk.floor_ne hz) φ t) (C02_AnyDisk amp h hR hz φ t)).2 ?_
  have hl := AnyDisk.sup_laplace h hR (AnyDisk.floor_ne hz)
  have h1 := AnyDisk.Rf_sup h hR (AnyDisk.floor_ne hz)
  have h2 := AnyDisk.R2_sup h hR hz
  have h3 := AnyDisk.z2_sup h hR hz
  rw [← h1, ← h2, ← h3] at hl
  unfold PoissonAlg
  simp only [Pot.scale, AnyDisk.pot, Pot.axi, e]
  linear_combination -amp * hl

/-- The value is Newton's potential of the disk. -/
theorem C03_AnyDisk_source (amp : ℝ) {S : ℝ → ℝ} (h : IntegrableOn (fun a => a * S a) (Ioi 0)) {R z : ℝ} (hR : 0 < R)
    (hz : z ≠ 0) (φ t : ℝ) : ((AnyDisk.pot S).scale amp).val R z φ t =
      -∫ a in Ioi (0 : ℝ), ∫ α in (0 : ℝ)..(2 * π),
        amp * S a * a / √((R - a * cos α) ^ 2 + (0 - a * sin α) ^ 2 + z ^ 2) := by
  change amp * AnyDisk.evaluate S R z = _
  rw [AnyDisk.val_sup h hR hz, AnyDisk.sup, ← integral_const_mul, ← integral_neg]
  refine setIntegral_congr_fun measurableSet_Ioi fun a ha => ?_
  rw [Ring.evaluate_integral ha (AnyDisk.ring_ok hR hz), mul_neg, mul_neg, ← mul_assoc, ← intervalIntegral.integral_const_mul]
  simp only [mul_div_assoc]

/-- The jump of the vertical force across the plane is that of a sheet whose surface density is what `surfdens` returns. -/
theorem C03_AnyDisk_sheet (amp : ℝ) {S : ℝ → ℝ} (h : IntegrableOn (fun a => a * S a) (Ioi 0)) {R : ℝ} (hR : 0 < R)
    (hS : ContinuousAt S R) (z' φ t : ℝ) :
    Tendsto (fun z => ((AnyDisk.pot S).scale amp).zforce R z φ t) (𝓝[>] 0) (𝓝 (-(2 * π * (amp * AnyDisk.surfdens S R z')))) ∧
    Tendsto (fun z => ((AnyDisk.pot S).scale amp).zforce R z φ t) (𝓝[<] 0) (𝓝 (2 * π * (amp * AnyDisk.surfdens S R z'))) ∧
    ((AnyDisk.pot S).scale amp).zforce R 0 φ t = 0 := by
  refine ⟨?_, ?_, ?_⟩
  · rw [show -(2 * π * (amp * AnyDisk.surfdens S R z')) = amp * -(2 * π * S R) by unfold AnyDisk.surfdens; ring]
    exact (AnyDisk.sheet h hR hS).const_mul amp
  · rw [show 2 * π * (amp * AnyDisk.surfdens S R z') = amp * (2 * π * S R) by unfold AnyDisk.surfdens; ring]
    exact (AnyDisk.sheet_below h hR hS).const_mul amp
  · simp [Pot.scale, AnyDisk.pot, Pot.axi, AnyDisk.zforce]

/-- On the symmetry axis the value is Newton's potential of the disk too, and the value at the centre continues it. -/
theorem C03_AnyDisk_centre (amp : ℝ) {S : ℝ → ℝ} (h : IntegrableOn S (Ioi 0)) (φ t : ℝ) :
    (∀ z, z ≠ 0 → ((AnyDisk.pot S).scale amp).val 0 z φ t = -∫ a in Ioi (0 : ℝ), amp * S a * (2 * π * a) / √(a ^ 2 + z ^ 2)) ∧
    ContinuousAt (fun z => ((AnyDisk.pot S).scale amp).val 0 z φ t) 0 := by
  refine ⟨fun z hz => ?_, continuousAt_const.mul (AnyDisk.centre h)⟩
  change amp * AnyDisk.evaluate S 0 z = _
  rw [AnyDisk.axis hz, ← integral_const_mul, ← integral_const_mul, ← integral_neg]
  refine setIntegral_congr_fun measurableSet_Ioi fun a _ => ?_
  ring

/-- The default surface density of the class at a point where the substitution of `_quad_apeak` is used. -/
example : GradAt ((AnyDisk.pot fun R => 1.5 * exp (-3 * R)).scale 1) 1 1e-5 0 0 ∧
    HessAt ((AnyDisk.pot fun R => 1.5 * exp (-3 * R)).scale 1) 1 1e-5 0 0 ∧
    PoissonAt ((AnyDisk.pot fun R => 1.5 * exp (-3 * R)).scale 1) 1 1e-5 0 0 :=
  ⟨C01_AnyDisk 1 exp_fin one_pos (by norm_num) 0 0, C02_AnyDisk 1 exp_fin one_pos (by norm_num [abs_of_pos]) 0 0,
    (C03_AnyDisk 1 exp_fin one_pos (by norm_num [abs_of_pos]) 0 0).1⟩

example : Tendsto (fun z => ((AnyDisk.pot fun R => 1.5 * exp (-3 * R)).scale 1).zforce 1 z 0 0) (𝓝[>] 0)
    (𝓝 (-(2 * π * (1 * (1.5 * exp (-3 * 1)))))) :=
  (C03_AnyDisk_sheet 1 exp_fin one_pos (by fun_prop) 1 0 0).1

example : ContinuousAt (fun z => ((AnyDisk.pot fun R => 1.5 * exp (-3 * R)).scale 1).val 0 z 0 0) 0 := by
  refine (C03_AnyDisk_centre 1 ?_ 0 0).2
  exact (exp_neg_integrableOn_Ioi 0 (by norm_num : (0 : ℝ) < 3)).const_mul 1.5

end Verif
