import Verif.Lemmas.Pot.RadialProfiles
import Verif.Props.C01PowerSphCut
import Mathlib.Analysis.SpecialFunctions.ImproperIntegrals
import Mathlib.MeasureTheory.Integral.DominatedConvergence

set_option autoImplicit false

/-!
# C01-C04, C51 for Einasto, AnySpherical, interpSpherical and Null; C74
-/

noncomputable section
namespace Verif
open Real Filter Topology Set MeasureTheory C01aux

/-! ### Einasto -/

/-- Forces are minus the gradient of the potential everywhere outside the centre. -/
theorem C01_Einasto {h n : ℝ} (hh : 0 < h) (hn : 0 < n) (amp R z φ t : ℝ) (h0 : 0 < R ^ 2 + z ^ 2) :
    GradAt ((Einasto.pot h n).scale amp) R z φ t :=
  ((Spherical.consistent (Einasto.radOK hh hn)).scale amp).grad R z φ t (pdom φ h0)
example : GradAt ((Einasto.pot 2 4).scale 3) 1 2 0 0 := C01_Einasto two_pos (by norm_num) _ _ _ _ _ (by norm_num)
/-- The value returned at the centre is the limit of the potential. -/
theorem C01_Einasto_centre {h n : ℝ} (hh : 0 < h) (hn : 0 < n) :
    Tendsto (fun r => (Einasto.pot h n).val r 0 0 0) (𝓝[>] 0) (𝓝 ((Einasto.pot h n).val 0 0 0 0)) := by
  have e0 : (Einasto.pot h n).val 0 0 0 0 = -0 - 4 * π * h ^ 2 * n * (Gamma (2 * n) - 0) := by
    simp [Einasto.pot, Spherical.pot, Spherical.evaluate, Einasto.radial, Einasto.revaluate, Einasto.core]
  have hX : Tendsto (Einasto.X h n) (𝓝[>] 0) (𝓝 0) := by
    have : ContinuousAt (fun r : ℝ => (r / h) ^ (1 / n)) 0 :=
      (continuousAt_id.div_const h).rpow_const (Or.inr (by positivity))
    have := this.tendsto
    rw [zero_div, zero_rpow (by positivity)] at this
    exact this.mono_left nhdsWithin_le_nhds
  have hl : ∀ s, 0 < s → Tendsto (fun r => lowerGamma s (Einasto.X h n r)) (𝓝[>] 0) (𝓝 0) := by
    intro s hs
    have z0 : Tendsto (fun r => Einasto.X h n r ^ s / s) (𝓝[>] 0) (𝓝 0) := by
      have := (hX.rpow_const (p := s) (Or.inr hs.le)).div_const s
      rwa [zero_rpow hs.ne', zero_div] at this
    refine tendsto_of_tendsto_of_tendsto_of_le_of_le' tendsto_const_nhds z0 ?_ ?_
    · filter_upwards [self_mem_nhdsWithin] with r hr using (lowerGamma_pos hs (Einasto.X_pos hh hr)).le
    · filter_upwards [self_mem_nhdsWithin] with r hr using lowerGamma_le hs (Einasto.X_pos hh hr).le
  have hm : Tendsto (fun r => Einasto.massG h n r / r) (𝓝[>] 0) (𝓝 0) := by
    have z0 : Tendsto (fun r : ℝ => 4 * π / 3 * r ^ 2) (𝓝[>] 0) (𝓝 0) := by
      have : ContinuousAt (fun r : ℝ => 4 * π / 3 * r ^ 2) 0 := by fun_prop
      have := this.tendsto
      norm_num at this
      exact this.mono_left nhdsWithin_le_nhds
    refine tendsto_of_tendsto_of_tendsto_of_le_of_le' tendsto_const_nhds z0 ?_ ?_
    · filter_upwards [self_mem_nhdsWithin] with r hr
      have hr' : 0 < r := hr
      have := lowerGamma_pos (show 0 < 3 * n by positivity) (Einasto.X_pos (n := n) hh hr')
      unfold Einasto.massG
      positivity
    · filter_upwards [self_mem_nhdsWithin] with r hr
      have hr' : 0 < r := hr
      have b := lowerGamma_le (show 0 < 3 * n by positivity) (Einasto.X_pos (n := n) hh hr').le
      rw [Einasto.X_pow hh hn hr', show ((r / h) ^ (3:ℝ)) = (r / h) ^ 3 by norm_cast] at b
      calc Einasto.massG h n r / r ≤ 4 * π * h ^ 3 * n * ((r / h) ^ 3 / (3 * n)) / r := by unfold Einasto.massG; gcongr
        _ = _ := by field_simp
  rw [e0]
  refine ((hm.neg.sub (((hl (2 * n) (by positivity)).const_sub (Gamma (2 * n))).const_mul (4 * π * h ^ 2 * n)))).congr' ?_
  filter_upwards [self_mem_nhdsWithin] with r hr
  have hr' : 0 < r := hr
  rw [← Einasto.val_eq hh hn hr']
  simp only [Einasto.pot, Spherical.pot, Spherical.evaluate, Einasto.radial, zero_pow two_ne_zero, add_zero, sqrt_sq hr'.le]
example : Tendsto (fun r => (Einasto.pot 2 4).val r 0 0 0) (𝓝[>] 0) (𝓝 ((Einasto.pot 2 4).val 0 0 0 0)) :=
  C01_Einasto_centre two_pos four_pos
/-- Second derivatives. -/
theorem C02_Einasto {h n : ℝ} (hh : 0 < h) (hn : 0 < n) (amp R z φ t : ℝ) (h0 : 0 < R ^ 2 + z ^ 2) :
    HessAt ((Einasto.pot h n).scale amp) R z φ t :=
  ((Spherical.consistent (Einasto.radOK hh hn)).scale amp).hess R z φ t (pdom φ h0)
example : HessAt ((Einasto.pot 2 4).scale 3) 1 2 0 0 := C02_Einasto two_pos (by norm_num) _ _ _ _ _ (by norm_num)
/-- Poisson's equation. -/
theorem C03_Einasto {h n : ℝ} (hh : 0 < h) (hn : 0 < n) (amp R z φ t : ℝ) (h0 : 0 < R ^ 2 + z ^ 2) (hR : R ≠ 0) :
    PoissonAt ((Einasto.pot h n).scale amp) R z φ t :=
  ((Spherical.consistent (Einasto.radOK hh hn)).scale amp).poisson R z φ t (pdom φ h0) hR
example : PoissonAt ((Einasto.pot 2 4).scale 3) 1 2 0 0 :=
  C03_Einasto two_pos (by norm_num) _ _ _ _ _ (by norm_num) one_ne_zero

namespace C01aux
/-- Mass of a spherical class from its force. -/
theorem sph_gauss {P : Spherical.Radial} (st : ∀ r t, P.force r t = P.force r 0) {M : ℝ → ℝ}
    (hM : ∀ r, 0 < r → M r = Spherical.mass P r 0) (R z φ t : ℝ) (k : 0 < R ^ 2 + z ^ 2) :
    M (√(R ^ 2 + z ^ 2)) = gaussMass (Spherical.pot P) R z φ t := by
  refine gauss_of_central (g := fun r => P.force r 0 / r) ?_ ?_ ?_ R z φ t k
  · intro R z φ t _; simp only [Spherical.pot, Spherical.Rforce, st _ t]; ring
  · intro R z φ t _; simp only [Spherical.pot, Spherical.zforce, st _ t]; ring
  · intro r hr
    rw [hM r hr]
    simp only [Spherical.mass, Spherical.pot, Spherical.Rforce, zero_pow two_ne_zero, add_zero, sqrt_sq hr.le]
    field_simp
end C01aux

/-- The mass method is the integral of the density, obeys Gauss' theorem and tends to `4 π h³ n Γ(3n)` times the amplitude. -/
theorem C04_Einasto {h n : ℝ} (hh : 0 < h) (hn : 0 < n) (amp : ℝ) :
    MassOf ((Einasto.pot h n).scale amp) (fun r => amp * Spherical.mass (Einasto.radial h n) r 0) ∧
      Tendsto (fun r => amp * Spherical.mass (Einasto.radial h n) r 0) atTop (𝓝 (amp * (4 * π * h ^ 3 * n * Gamma (3 * n)))) := by
  have hs : 0 < 3 * n := by positivity
  have em : ∀ r, 0 < r → Spherical.mass (Einasto.radial h n) r 0 = Einasto.massG h n r := by
    intro r hr
    simp only [Spherical.mass, Einasto.radial, Einasto.force_eq hh hn hr]
    field_simp
  have dm : ∀ r, 0 < r → HasDerivAt (fun r => Spherical.mass (Einasto.radial h n) r 0)
      (4 * π * r ^ 2 * (Einasto.pot h n).dens r 0 0 0) r := by
    intro r hr
    refine ((Einasto.massG_deriv hh hn hr).congr_of_eventuallyEq ?_).congr_deriv ?_
    · filter_upwards [lt_mem_nhds hr] with x hx using em x hx
    · simp only [Einasto.pot, Spherical.pot, Spherical.dens, Einasto.radial, zero_pow two_ne_zero, add_zero, sqrt_sq hr.le]
  refine ⟨.scale amp ⟨.of_deriv ?_ dm ?_, dm, C01aux.sph_gauss (fun _ _ => rfl) fun _ _ => rfl⟩, ?_⟩
  · intro r hr
    simp only [Einasto.pot, Spherical.pot, Spherical.dens, Einasto.radial, Einasto.rdens]
    positivity
  · have z0 : Tendsto (fun r : ℝ => 4 * π / 3 * r ^ 3) (𝓝[>] 0) (𝓝 0) := by
      have : ContinuousAt (fun r : ℝ => 4 * π / 3 * r ^ 3) 0 := by fun_prop
      have := this.tendsto
      norm_num at this
      exact this.mono_left nhdsWithin_le_nhds
    refine tendsto_of_tendsto_of_tendsto_of_le_of_le' tendsto_const_nhds z0 ?_ ?_
    · filter_upwards [self_mem_nhdsWithin] with r hr
      have hr' : 0 < r := hr
      rw [em r hr']
      have := lowerGamma_pos hs (Einasto.X_pos (n := n) hh hr')
      unfold Einasto.massG
      positivity
    · filter_upwards [self_mem_nhdsWithin] with r hr
      have hr' : 0 < r := hr
      have b := lowerGamma_le hs (Einasto.X_pos (n := n) hh hr').le
      rw [Einasto.X_pow hh hn hr', show ((r / h) ^ (3:ℝ)) = (r / h) ^ 3 by norm_cast] at b
      rw [em r hr']
      calc Einasto.massG h n r ≤ 4 * π * h ^ 3 * n * ((r / h) ^ 3 / (3 * n)) := by unfold Einasto.massG; gcongr
        _ = _ := by field_simp
  · refine Tendsto.const_mul amp ?_
    have hX : Tendsto (Einasto.X h n) atTop atTop :=
      (tendsto_rpow_atTop (by positivity : 0 < 1 / n)).comp (tendsto_id.atTop_div_const hh)
    refine (((lowerGamma_lim hs).comp hX).const_mul (4 * π * h ^ 3 * n)).congr' ?_
    filter_upwards [eventually_gt_atTop 0] with r hr
    exact (em r hr).symm
example : MassOf ((Einasto.pot 2 4).scale 3) (fun r => 3 * Spherical.mass (Einasto.radial 2 4) r 0) :=
  (C04_Einasto two_pos four_pos 3).1

/-- The C functions are the Python methods. -/
theorem C51_Einasto {h n : ℝ} (hh : 0 < h) (hn : 0 < n) (amp R z φ t : ℝ) (h0 : 0 < R ^ 2 + z ^ 2) :
    Spherical.cEval amp (Einasto.cRadial h n) R z t = ((Einasto.pot h n).scale amp).val R z φ t ∧
    Spherical.cRforce amp (Einasto.cRadial h n) R z t = ((Einasto.pot h n).scale amp).Rforce R z φ t ∧
    Spherical.czforce amp (Einasto.cRadial h n) R z t = ((Einasto.pot h n).scale amp).zforce R z φ t ∧
    Spherical.cR2deriv amp (Einasto.cRadial h n) R z t = ((Einasto.pot h n).scale amp).R2deriv R z φ t ∧
    Spherical.cz2deriv amp (Einasto.cRadial h n) R z t = ((Einasto.pot h n).scale amp).z2deriv R z φ t ∧
    Spherical.cRzderiv amp (Einasto.cRadial h n) R z t = ((Einasto.pot h n).scale amp).Rzderiv R z φ t ∧
    Spherical.cDens amp (Einasto.cRadial h n) R z t = ((Einasto.pot h n).scale amp).dens R z φ t := by
  refine ⟨?_, ?_, ?_, ?_, ?_, ?_, ?_⟩
  · simp only [Spherical.cEval, Einasto.cRadial, ← sq, Pot.scale, Einasto.pot, Spherical.pot, Spherical.evaluate,
      Einasto.radial, Einasto.c_eq hh hn (sqrt_pos.2 h0)]
  · exact Spherical.cRforce_eq amp (Einasto.radial h n) R z t
  · exact Spherical.czforce_eq amp (Einasto.radial h n) R z t
  · exact Spherical.cR2deriv_eq amp (Einasto.radial h n) R z t h0
  · exact Spherical.cz2deriv_eq amp (Einasto.radial h n) R z t h0
  · exact Spherical.cRzderiv_eq amp (Einasto.radial h n) R z t h0
  · exact Spherical.cDens_eq amp (Einasto.radial h n) R z t
/-- The planar C functions. -/
theorem C51_Einasto_planar {h n : ℝ} (amp R φ t : ℝ) (hR : 0 < R) :
    Spherical.cPlanarRforce amp (Einasto.cRadial h n) R t = ((Einasto.pot h n).scale amp).Rforce R 0 φ t ∧
    Spherical.cPlanarR2deriv amp (Einasto.cRadial h n) R t = ((Einasto.pot h n).scale amp).R2deriv R 0 φ t :=
  ⟨Spherical.cPlanarRforce_eq amp (Einasto.radial h n) R t hR, Spherical.cPlanarR2deriv_eq amp (Einasto.radial h n) R t hR⟩
example : Spherical.cEval 3 (Einasto.cRadial 2 4) 1 1 0 = ((Einasto.pot 2 4).scale 3).val 1 1 0 0 :=
  (C51_Einasto two_pos four_pos 3 1 1 0 0 (by norm_num)).1

/-! ### C74: the three ways of giving an Einasto profile -/

namespace C74Spec
/-- The density profiles of the class documentation, EinastoPotential.py:15-29. -/
def documented (amp n dn : ℝ) : Einasto.Scale → ℝ → ℝ
  | .rs rs, r => amp * exp (-dn * ((r / rs) ^ (1 / n) - 1))
  | .rm2 rm2, r => amp * exp (-2 * n * ((r / rm2) ^ (1 / n) - 1))
  | .h h, r => amp * exp (-((r / h) ^ (1 / n)))
end C74Spec
open C74Spec

/-- The density has the documented shape; with `h` it is the documented one, with `rs` and `rm2` it is `e^{-dn}` and `e^{-2n}`
times the documented one. -/
theorem C74_shape_partial {amp n dn : ℝ} (hn : 0 < n) (hd : 0 < dn) {r : ℝ} (hr : 0 < r) (φ t : ℝ) :
    (∀ h, ((Einasto.init amp n dn (.h h)).pot n).dens r 0 φ t = documented amp n dn (.h h) r) ∧
    (∀ rs, 0 < rs → ((Einasto.init amp n dn (.rs rs)).pot n).dens r 0 φ t
      = exp (-dn) * documented amp n dn (.rs rs) r) ∧
    (∀ rm2, 0 < rm2 → ((Einasto.init amp n dn (.rm2 rm2)).pot n).dens r 0 φ t
      = exp (-2 * n) * documented amp n dn (.rm2 rm2) r) := by
  have e : ∀ s, ((Einasto.init amp n dn s).pot n).dens r 0 φ t = amp * exp (-((r / (Einasto.init amp n dn s).h) ^ (1 / n))) := by
    intro s
    cases s <;> simp only [Einasto.Obj.pot, Einasto.init, Pot.scale, Einasto.pot, Spherical.pot, Spherical.dens, Einasto.radial,
      Einasto.rdens, zero_pow two_ne_zero, add_zero, sqrt_sq hr.le]
  have key : ∀ d s : ℝ, 0 < d → 0 < s → (r / (s / d ^ n)) ^ (1 / n) = d * (r / s) ^ (1 / n) := by
    intro d s hd hs
    have := rpow_pos_of_pos hd n
    rw [show r / (s / d ^ n) = d ^ n * (r / s) by field_simp, mul_rpow this.le (by positivity), ← rpow_mul hd.le]
    rw [mul_one_div_cancel hn.ne', rpow_one]
  refine ⟨fun h => by rw [e]; rfl, fun rs hrs => ?_, fun rm2 hrm => ?_⟩
  · rw [e]
    simp only [Einasto.init, documented, key dn rs hd hrs]
    rw [mul_left_comm, ← exp_add]; congr 2; ring
  · rw [e]
    simp only [Einasto.init, documented, key (2 * n) rm2 (by positivity) hrm]
    rw [mul_left_comm, ← exp_add]; congr 2; ring
example : ((Einasto.init 3 4 11 (.h 2)).pot 4).dens 1 0 0 0 = documented 3 4 11 (.h 2) 1 :=
  (C74_shape_partial four_pos (by norm_num) one_pos 0 0).1 2

/-- The documented amplitude is not what one gets: with `amp = 1`, `n = 1`, `rm2 = 1` the density at `rm2` is documented to be
1, but it is `e^{-2}` (the constructor stores the corrected amplitude under a name nothing reads). -/
theorem C74_fails : ∃ (n rm2 : ℝ), 0 < n ∧ 0 < rm2 ∧ ∀ dn,
    documented 1 n dn (.rm2 rm2) rm2 = 1 ∧ ((Einasto.init 1 n dn (.rm2 rm2)).pot n).dens rm2 0 0 0 = exp (-2) ∧
    ((Einasto.init 1 n dn (.rm2 rm2)).pot n).dens rm2 0 0 0 ≠ documented 1 n dn (.rm2 rm2) rm2 := by
  refine ⟨1, 1, one_pos, one_pos, fun dn => ?_⟩
  have h1 : documented 1 1 dn (.rm2 1) 1 = 1 := by simp [documented]
  have h2 : ((Einasto.init 1 1 dn (.rm2 1)).pot 1).dens 1 0 0 0 = exp (-2) := by
    simp [Einasto.Obj.pot, Einasto.init, Pot.scale, Einasto.pot, Spherical.pot, Spherical.dens, Einasto.radial, Einasto.rdens]
  refine ⟨h1, h2, ?_⟩
  rw [h1, h2]
  have : exp (-2) < exp 0 := exp_lt_exp.2 (by norm_num)
  rw [exp_zero] at this
  exact this.ne

/-- `rm2` is the radius where the logarithmic slope of the density is `-2`, and the only one. -/
theorem C74_rm2 {amp n dn rm2 : ℝ} (ha : amp ≠ 0) (hn : 0 < n) (hr2 : 0 < rm2) {r : ℝ} (hr : 0 < r) :
    ∃ d, HasDerivAt (fun r => ((Einasto.init amp n dn (.rm2 rm2)).pot n).dens r 0 0 0) d r ∧
      (r * d / ((Einasto.init amp n dn (.rm2 rm2)).pot n).dens r 0 0 0 = -2 ↔ r = rm2) := by
  set h := (Einasto.init amp n dn (.rm2 rm2)).h with hh
  have hn2 : 0 < (2 * n) ^ n := rpow_pos_of_pos (by positivity) n
  have h0 : 0 < h := by simp only [hh, Einasto.init]; positivity
  have ed : ∀ r, 0 < r → ((Einasto.init amp n dn (.rm2 rm2)).pot n).dens r 0 0 0 = amp * exp (-Einasto.X h n r) := by
    intro r hr
    simp only [Einasto.Obj.pot, Einasto.init, Pot.scale, Einasto.pot, Spherical.pot, Spherical.dens, Einasto.radial,
      Einasto.rdens, zero_pow two_ne_zero, add_zero, sqrt_sq hr.le, Einasto.X, hh]
  refine ⟨amp * (exp (-Einasto.X h n r) * -(Einasto.X h n r / (n * r))), ?_, ?_⟩
  · refine (((Einasto.X_deriv h0 hn hr).neg.exp).const_mul amp).congr_of_eventuallyEq ?_
    filter_upwards [lt_mem_nhds hr] with x hx using ed x hx
  · rw [ed r hr]
    have e1 : r * (amp * (exp (-Einasto.X h n r) * -(Einasto.X h n r / (n * r)))) / (amp * exp (-Einasto.X h n r))
        = -(Einasto.X h n r / n) := by
      have := exp_pos (-Einasto.X h n r)
      field_simp
    rw [e1]
    have hX : Einasto.X h n r = 2 * n * (r / rm2) ^ (1 / n) := by
      simp only [Einasto.X, hh, Einasto.init]
      rw [show r / (rm2 / (2 * n) ^ n) = (2 * n) ^ n * (r / rm2) by field_simp, mul_rpow hn2.le (by positivity),
        ← rpow_mul (by positivity), mul_one_div_cancel hn.ne', rpow_one]
    rw [hX]
    constructor
    · intro e
      have : (r / rm2) ^ (1 / n) = 1 := by field_simp at e; linarith
      have k := congrArg (· ^ n) this
      simp only [one_rpow] at k
      rw [← rpow_mul (by positivity), one_div_mul_cancel hn.ne', rpow_one] at k
      exact (div_eq_one_iff_eq hr2.ne').1 k
    · rintro rfl
      rw [div_self hr.ne', one_rpow]; field_simp
example : ∃ d, HasDerivAt (fun r => ((Einasto.init 1 4 11 (.rm2 3)).pot 4).dens r 0 0 0) d 3 :=
  let ⟨d, h, _⟩ := C74_rm2 (dn := 11) one_ne_zero four_pos three_pos (r := 3) three_pos
  ⟨d, h⟩

/-- `rs` contains half of the total mass, whenever `fsolve` found a (positive) zero of its function. -/
theorem C74_rs {amp n dn rs : ℝ} (hn : 0 < n) (hd : 0 < dn) (hdn : Einasto.dnFunc n dn = 0) (hrs : 0 < rs) :
    let o := Einasto.init amp n dn (.rs rs)
    Tendsto (fun r => o._amp * Spherical.mass (Einasto.radial o.h n) r 0) atTop
      (𝓝 (2 * (o._amp * Spherical.mass (Einasto.radial o.h n) rs 0))) := by
  intro o
  have hn2 : 0 < dn ^ n := rpow_pos_of_pos hd n
  have h0 : 0 < o.h := by simp only [o, Einasto.init]; positivity
  have h3 : 0 < 3 * n := by positivity
  have hX : Einasto.X o.h n rs = dn := by
    simp only [Einasto.X, o, Einasto.init]
    rw [show rs / (rs / dn ^ n) = dn ^ n by field_simp, ← rpow_mul hd.le, mul_one_div_cancel hn.ne', rpow_one]
  have e : 2 * lowerGamma (3 * n) dn = Gamma (3 * n) := by
    have := Gamma_pos_of_pos h3
    simp only [Einasto.dnFunc, Einasto.gammaincc, div_mul_cancel₀ _ this.ne'] at hdn
    have := upper_lower h3 hd.le
    linarith
  have := (C04_Einasto h0 hn o._amp).2
  convert this using 2
  simp only [Spherical.mass, Einasto.radial, Einasto.force_eq h0 hn hrs, Einasto.massG, hX]
  rw [← e]
  field_simp
/-- Such a zero exists and is the only positive one. -/
theorem C74_dn {n : ℝ} (hn : 0 < n) : ∃! dn, 0 < dn ∧ Einasto.dnFunc n dn = 0 := by
  have h3 : 0 < 3 * n := by positivity
  have hG := Gamma_pos_of_pos h3
  have e : ∀ x, 0 < x → Einasto.dnFunc n x = Gamma (3 * n) - 2 * lowerGamma (3 * n) x := by
    intro x hx
    simp only [Einasto.dnFunc, Einasto.gammaincc, div_mul_cancel₀ _ hG.ne']
    have := upper_lower h3 hx.le
    linarith
  have mono : StrictMonoOn (lowerGamma (3 * n)) (Ioi 0) := by
    refine strictMonoOn_of_deriv_pos (convex_Ioi 0) (fun x hx => (lowerGamma_deriv h3 hx).continuousAt.continuousWithinAt)
      fun x hx => ?_
    rw [interior_Ioi] at hx
    have hx' : 0 < x := hx
    rw [(lowerGamma_deriv h3 hx').deriv]
    positivity
  have ex : ∃ x, 0 < x ∧ lowerGamma (3 * n) x = Gamma (3 * n) / 2 := by
    have hup : ∀ᶠ x in atTop, Gamma (3 * n) / 2 < lowerGamma (3 * n) x :=
      (lowerGamma_lim h3).eventually (lt_mem_nhds (by linarith))
    obtain ⟨b, hb, hb0⟩ := (hup.and (eventually_gt_atTop 0)).exists
    have z0 : Tendsto (fun x : ℝ => x ^ (3 * n) / (3 * n)) (𝓝[>] 0) (𝓝 0) := by
      have : ContinuousAt (fun x : ℝ => x ^ (3 * n) / (3 * n)) 0 :=
        (continuousAt_id.rpow_const (Or.inr h3.le)).div_const _
      have := this.tendsto
      rw [zero_rpow h3.ne', zero_div] at this
      exact this.mono_left nhdsWithin_le_nhds
    have hlo : ∀ᶠ x in 𝓝[>] (0:ℝ), x ^ (3 * n) / (3 * n) < Gamma (3 * n) / 2 := z0.eventually (gt_mem_nhds (by linarith))
    obtain ⟨a, ha, ha0, hab⟩ := (hlo.and ((eventually_mem_nhdsWithin).and
      (nhdsWithin_le_nhds (Iio_mem_nhds hb0)))).exists
    have ha' : 0 < a := ha0
    have hab' : a < b := hab
    have hc : ContinuousOn (lowerGamma (3 * n)) (Icc a b) := fun x hx =>
      (lowerGamma_deriv h3 (lt_of_lt_of_le ha' hx.1)).continuousAt.continuousWithinAt
    obtain ⟨x, hx, hxe⟩ := intermediate_value_Icc hab'.le hc
      (show Gamma (3 * n) / 2 ∈ _ from ⟨(lowerGamma_le h3 ha'.le).trans ha.le, hb.le⟩)
    exact ⟨x, lt_of_lt_of_le ha' hx.1, hxe⟩
  obtain ⟨x, hx, hxe⟩ := ex
  refine ⟨x, ⟨hx, by rw [e x hx, hxe]; ring⟩, ?_⟩
  rintro y ⟨hy, hye⟩
  rw [e y hy] at hye
  exact mono.injOn hy hx (by rw [hxe]; linarith)
example : ∃ dn, Tendsto (fun r => (Einasto.init 1 4 dn (.rs 3))._amp *
    Spherical.mass (Einasto.radial (Einasto.init 1 4 dn (.rs 3)).h 4) r 0) atTop
      (𝓝 (2 * ((Einasto.init 1 4 dn (.rs 3))._amp * Spherical.mass (Einasto.radial (Einasto.init 1 4 dn (.rs 3)).h 4) 3 0))) :=
  let ⟨dn, ⟨h1, h2⟩, _⟩ := C74_dn (n := 4) four_pos
  ⟨dn, C74_rs four_pos h1 h2 three_pos⟩

/-! ### Null -/

/-- NullPotential is a constant with zero forces, derivatives and density. -/
theorem C01_Null (amp R z φ t : ℝ) : GradAt (NullPot.scale amp) R z φ t ∧ HessAt (NullPot.scale amp) R z φ t ∧
    PoissonAt (NullPot.scale amp) R z φ t ∧ (NullPot.scale amp).val R z φ t = amp := by
  have h0 : ∀ c a : ℝ, HasDerivAt (fun _ : ℝ => c) (-0) a := fun c a => by simpa using hasDerivAt_const a c
  have c0 : Consistent NullPot fun _ _ _ => True :=
    Consistent.axi (D := fun _ _ => True) (fun _ _ _ => Eventually.of_forall fun _ => trivial)
      (fun _ _ _ => Eventually.of_forall fun _ => trivial) (fun _ _ _ => h0 _ _) (fun _ _ _ => h0 _ _) (fun _ _ _ => h0 _ _)
      (fun _ _ _ => h0 _ _) (fun _ _ _ => h0 _ _) (fun _ _ _ => h0 _ _) (fun _ _ _ _ => by simp)
  have c := c0.scale amp
  refine ⟨c.grad R z φ t trivial, c.hess R z φ t trivial, ?_, by simp [Pot.scale, NullPot, Pot.axi]⟩
  rw [poissonAt_iff (c.grad R z φ t trivial) (c.hess R z φ t trivial)]
  simp [PoissonAlg, Pot.scale, NullPot, Pot.axi]
example : GradAt (NullPot.scale 3) 1 0 0 0 := (C01_Null 3 1 0 0 0).1

/-! ### AnySpherical -/

/-- Forces are minus the gradient of the potential everywhere outside the centre, for every admissible density. -/
theorem C01_AnySpherical {ρ : ℝ → ℝ} (o : AnySph.Ok ρ) (amp R z φ t : ℝ) (h0 : 0 < R ^ 2 + z ^ 2) :
    GradAt ((AnySph.pot ρ).scale amp) R z φ t :=
  ((Spherical.consistent (AnySph.radOK o)).scale amp).grad R z φ t (pdom φ h0)
/-- Second derivatives. -/
theorem C02_AnySpherical {ρ : ℝ → ℝ} (o : AnySph.Ok ρ) (amp R z φ t : ℝ) (h0 : 0 < R ^ 2 + z ^ 2) :
    HessAt ((AnySph.pot ρ).scale amp) R z φ t :=
  ((Spherical.consistent (AnySph.radOK o)).scale amp).hess R z φ t (pdom φ h0)
/-- Poisson's equation: the potential's density is the function given. -/
theorem C03_AnySpherical {ρ : ℝ → ℝ} (o : AnySph.Ok ρ) (amp R z φ t : ℝ) (h0 : 0 < R ^ 2 + z ^ 2) (hR : R ≠ 0) :
    PoissonAt ((AnySph.pot ρ).scale amp) R z φ t ∧ ((AnySph.pot ρ).scale amp).dens R z φ t = amp * ρ (√(R ^ 2 + z ^ 2)) :=
  ⟨((Spherical.consistent (AnySph.radOK o)).scale amp).poisson R z φ t (pdom φ h0) hR, rfl⟩
/-- The mass is the integral of the density and obeys Gauss' theorem. -/
theorem C04_AnySpherical {ρ : ℝ → ℝ} (o : AnySph.Ok ρ) (amp : ℝ) :
    MassOf ((AnySph.pot ρ).scale amp) (fun r => amp * Spherical.mass (AnySph.radial ρ) r 0) := by
  have em : ∀ r, 0 < r → Spherical.mass (AnySph.radial ρ) r 0 = AnySph.rawmass ρ r := by
    intro r hr
    simp only [Spherical.mass, AnySph.radial, AnySph.rforce]
    field_simp
  have ed : ∀ r, 0 < r → (AnySph.pot ρ).dens r 0 0 0 = ρ r := by
    intro r hr
    simp only [AnySph.pot, Spherical.pot, Spherical.dens, AnySph.radial, zero_pow two_ne_zero, add_zero, sqrt_sq hr.le]
  refine .scale amp ⟨fun r hr => ?_, fun r hr => ?_, C01aux.sph_gauss (fun _ _ => rfl) fun _ _ => rfl⟩
  · have i := (AnySph.int2 o hr).const_mul (4 * π)
    have k : ∀ x ∈ Ioc (0:ℝ) r, 4 * π * (x ^ 2 * ρ x) = 4 * π * x ^ 2 * (AnySph.pot ρ).dens x 0 0 0 := fun x hx => by
      rw [ed x hx.1]; ring
    constructor
    · refine i.congr ?_
      rw [uIoc_of_le hr.le]
      exact k
    · rw [em r hr, AnySph.rawmass, ← intervalIntegral.integral_const_mul]
      refine (intervalIntegral.integral_congr_ae (Eventually.of_forall fun x hx => ?_)).symm
      rw [uIoc_of_le hr.le] at hx
      exact k x hx
  · refine ((AnySph.mass_deriv o hr).congr_of_eventuallyEq ?_).congr_deriv ?_
    · filter_upwards [lt_mem_nhds hr] with x hx using em x hx
    · rw [ed r hr]; ring

namespace C01aux
/-- An outer slope of `-3`: infinite mass, but finite potential. -/
def cusp (r : ℝ) : ℝ := 1 / (r * (1 + r ^ 2))
theorem cusp_outer {r : ℝ} (hr : 0 < r) : cusp r * r = (1 + r ^ 2)⁻¹ := by unfold cusp; field_simp
theorem cusp_ok : AnySph.Ok cusp where
  cont := by
    intro x hx
    have hx' : 0 < x := hx
    exact (continuousAt_const.div (by fun_prop) (by positivity)).continuousWithinAt
  inner := by
    have : IntegrableOn (fun x : ℝ => x / (1 + x ^ 2)) (Ioc 0 1) :=
      (Continuous.integrableOn_Icc (continuous_id.div (by fun_prop) fun x => by positivity)).mono_set Ioc_subset_Icc_self
    refine this.congr_fun (fun x hx => ?_) measurableSet_Ioc
    have hx' : 0 < x := hx.1
    simp only [cusp]; field_simp
  outer := by
    have : IntegrableOn (fun x : ℝ => (1 + x ^ 2)⁻¹) (Ioi 1) := integrable_inv_one_add_sq.integrableOn
    refine this.congr_fun (fun x hx => ?_) measurableSet_Ioi
    have hx' : 0 < x := lt_trans one_pos hx
    exact (cusp_outer hx').symm
end C01aux
example : GradAt ((AnySph.pot cusp).scale 2) 1 0 0 0 := C01_AnySpherical cusp_ok _ _ _ _ _ (by norm_num)
example : MassOf ((AnySph.pot cusp).scale 2) (fun r => 2 * Spherical.mass (AnySph.radial cusp) r 0) := C04_AnySpherical cusp_ok 2

/-- The potential at the centre, when finite, is the limit of the potential towards it. -/
theorem C01_AnySpherical_centre {ρ : ℝ → ℝ} (o : AnySph.Ok ρ) (hi : IntegrableOn (fun a => a * ρ a) (Ioi 0)) :
    ∃ v : ℝ, AnySph.revaluateScalar ρ (some 0) = v ∧ Tendsto (AnySph.revaluate ρ) (𝓝[>] 0) (𝓝 v) := by
  refine ⟨-4 * π * ∫ a in Ioi (0:ℝ), a * ρ a, ?_, ?_⟩
  · simp only [AnySph.revaluateScalar, if_true, AnySph.potZero, if_pos hi]
  have hprim : Tendsto (fun r => ∫ a in (0:ℝ)..r, |a * ρ a|) (𝓝[>] 0) (𝓝 0) := by
    have hI : IntegrableOn (fun a => |a * ρ a|) (Icc 0 1) :=
      ((integrableOn_Icc_iff_integrableOn_Ioc).2 (hi.mono_set fun x hx => hx.1)).abs
    have hc := intervalIntegral.continuousOn_primitive_interval (a := (0:ℝ)) (b := 1) (by rwa [uIcc_of_le zero_le_one])
    have := hc 0 (by simp)
    rw [uIcc_of_le zero_le_one] at this
    have t := this.tendsto
    rw [intervalIntegral.integral_same] at t
    refine t.mono_left ?_
    rw [nhdsWithin_Icc_eq_nhdsGE zero_lt_one]
    exact nhdsWithin_mono _ Ioi_subset_Ici_self
  have hprim' : Tendsto (fun r => ∫ a in (0:ℝ)..r, a * ρ a) (𝓝[>] 0) (𝓝 0) := by
    refine squeeze_zero_norm' ?_ hprim
    filter_upwards [self_mem_nhdsWithin] with r hr
    exact intervalIntegral.norm_integral_le_integral_norm (le_of_lt hr)
  have ii : ∀ r, 0 < r → IntervalIntegrable (fun a => a * ρ a) volume 0 r := fun r hr =>
    (intervalIntegrable_iff_integrableOn_Ioc_of_le hr.le).2 (hi.mono_set fun x hx => hx.1)
  have hmass : Tendsto (fun r => AnySph.rawmass ρ r / r) (𝓝[>] 0) (𝓝 0) := by
    have h2 := hprim.const_mul (4 * π)
    rw [mul_zero] at h2
    refine squeeze_zero_norm' ?_ h2
    filter_upwards [self_mem_nhdsWithin] with r hr
    have hr' : 0 < r := hr
    rw [AnySph.rawmass, norm_div, norm_mul, norm_of_nonneg (by positivity : 0 ≤ 4 * π), norm_of_nonneg hr'.le, mul_div_assoc]
    refine mul_le_mul_of_nonneg_left ?_ (by positivity)
    rw [div_le_iff₀ hr', ← intervalIntegral.integral_mul_const]
    refine (intervalIntegral.norm_integral_le_integral_norm hr'.le).trans ?_
    refine intervalIntegral.integral_mono_on hr'.le (AnySph.int2 o hr').norm ((ii r hr').abs.mul_const r) fun x hx => ?_
    rw [norm_eq_abs, show x ^ 2 * ρ x = x * ρ x * x by ring, abs_mul, abs_of_nonneg hx.1]
    exact mul_le_mul_of_nonneg_left hx.2 (abs_nonneg _)
  have key := (hmass.neg).sub (((hprim'.const_sub (∫ a in Ioi (0:ℝ), a * ρ a))).const_mul (4 * π))
  rw [sub_zero, neg_zero, zero_sub, ← neg_mul, ← neg_mul] at key
  refine key.congr' ?_
  filter_upwards [self_mem_nhdsWithin] with r hr
  have hr' : 0 < r := hr
  have := intervalIntegral.integral_interval_add_Ioi hi (hi.mono_set (Ioi_subset_Ioi hr'.le))
  rw [AnySph.revaluate, neg_div]
  simp only [mul_comm (ρ _)]
  rw [← this]; ring

/-- The potential vanishes at infinity for every admissible density, and that is the value returned at infinity if the
total mass is finite. -/
theorem C01_AnySpherical_infinity_partial {ρ : ℝ → ℝ} (o : AnySph.Ok ρ) :
    Tendsto (AnySph.revaluate ρ) atTop (𝓝 0) ∧
    (IntegrableOn (fun a => a ^ 2 * ρ a) (Ioi 0) → AnySph.revaluateScalar ρ none = 0) := by
  refine ⟨?_, fun h => by simp only [AnySph.revaluateScalar, AnySph.potInf, if_pos h]⟩
  have h1 : Tendsto (fun r => ∫ a in Ioi r, ρ a * a) atTop (𝓝 0) := by
    have := (intervalIntegral_tendsto_integral_Ioi 1 o.outer tendsto_id).const_sub (∫ a in Ioi 1, ρ a * a)
    rw [sub_self] at this
    refine this.congr' ?_
    filter_upwards [eventually_gt_atTop 0] with r hr using (AnySph.outer_eq o hr).symm
  have h2 : Tendsto (fun r : ℝ => ∫ a in Ioi 1, (Iic r).indicator (fun a => a ^ 2 * ρ a / r) a) atTop (𝓝 0) := by
    have z : (0:ℝ) = ∫ a in Ioi (1:ℝ), (0:ℝ) := by simp
    rw [z]
    refine tendsto_integral_filter_of_dominated_convergence (fun a => ‖ρ a * a‖) ?_ ?_ o.outer.norm ?_
    · filter_upwards with r
      refine (AEStronglyMeasurable.indicator ?_ measurableSet_Iic)
      have : ContinuousOn (fun a => a ^ 2 * ρ a / r) (Ioi 1) :=
        ((continuous_pow 2).continuousOn.mul (o.cont.mono (Ioi_subset_Ioi zero_le_one))).div_const r
      exact this.aestronglyMeasurable measurableSet_Ioi
    · filter_upwards [eventually_gt_atTop 0] with r hr
      refine (ae_restrict_iff' measurableSet_Ioi).2 (Eventually.of_forall fun a ha => ?_)
      have ha' : 0 < a := lt_trans one_pos ha
      by_cases k : a ∈ Iic r
      · rw [indicator_of_mem k, show a ^ 2 * ρ a / r = ρ a * a * (a / r) by ring, norm_mul]
        refine mul_le_of_le_one_right (norm_nonneg _) ?_
        rw [norm_of_nonneg (by positivity), div_le_one hr]
        exact k
      · rw [indicator_of_notMem k, norm_zero]; exact norm_nonneg _
    · refine Eventually.of_forall fun a => ?_
      have : Tendsto (fun r : ℝ => a ^ 2 * ρ a / r) atTop (𝓝 0) := tendsto_const_nhds.div_atTop tendsto_id
      refine this.congr' ?_
      filter_upwards [eventually_ge_atTop a] with r hr
      rw [indicator_of_mem (mem_Iic.2 hr)]
  have hmass : Tendsto (fun r => AnySph.rawmass ρ r / r) atTop (𝓝 0) := by
    have c : Tendsto (fun r : ℝ => 4 * π * (∫ a in (0:ℝ)..1, a ^ 2 * ρ a) / r) atTop (𝓝 0) :=
      tendsto_const_nhds.div_atTop tendsto_id
    have := c.add (h2.const_mul (4 * π))
    rw [mul_zero, add_zero] at this
    refine this.congr' ?_
    filter_upwards [eventually_ge_atTop 1] with r hr
    have hr' : 0 < r := lt_of_lt_of_le one_pos hr
    have e : ∫ a in Ioi 1, (Iic r).indicator (fun a => a ^ 2 * ρ a / r) a = (∫ a in (1:ℝ)..r, a ^ 2 * ρ a) / r := by
      rw [setIntegral_indicator measurableSet_Iic, Ioi_inter_Iic, ← intervalIntegral.integral_of_le hr,
        intervalIntegral.integral_div]
    rw [e, AnySph.rawmass, ← intervalIntegral.integral_add_adjacent_intervals (AnySph.int2 o one_pos)
      ((AnySph.int2 o one_pos).symm.trans (AnySph.int2 o hr'))]
    ring
  have := hmass.neg.sub (h1.const_mul (4 * π))
  rw [neg_zero, mul_zero, sub_zero] at this
  exact this.congr fun r => by rw [AnySph.revaluate, neg_div]
example : Tendsto (AnySph.revaluate cusp) atTop (𝓝 0) := (C01_AnySpherical_infinity_partial cusp_ok).1

/-- For a density falling as `r⁻³` (infinite mass) the potential vanishes at infinity but the value returned there is `+inf`. -/
theorem C01_AnySpherical_infinity_fails : ∃ ρ, AnySph.Ok ρ ∧ Tendsto (AnySph.revaluate ρ) atTop (𝓝 0) ∧
    AnySph.revaluateScalar ρ none = ⊤ := by
  refine ⟨cusp, cusp_ok, (C01_AnySpherical_infinity_partial cusp_ok).1, ?_⟩
  simp only [AnySph.revaluateScalar, AnySph.potInf]
  rw [if_neg]
  intro h
  have h1 : IntegrableOn (fun a => a ^ 2 * cusp a) (Ioi 1) := h.mono_set (Ioi_subset_Ioi zero_le_one)
  refine not_integrableOn_Ioi_inv (a := (1:ℝ)) ?_
  refine (h1.const_mul 2).mono' ?_ ?_
  · exact (ContinuousOn.inv₀ continuousOn_id fun x hx => ne_of_gt (lt_trans one_pos hx)).aestronglyMeasurable measurableSet_Ioi
  · refine (ae_restrict_iff' measurableSet_Ioi).2 (Eventually.of_forall fun a ha => ?_)
    have ha1 : 1 < a := ha
    have ha' : 0 < a := lt_trans one_pos ha
    rw [norm_of_nonneg (by positivity)]
    unfold cusp
    rw [show 2 * (a ^ 2 * (1 / (a * (1 + a ^ 2)))) = 2 * a / (1 + a ^ 2) by field_simp, inv_eq_one_div,
      div_le_div_iff₀ ha' (by positivity)]
    nlinarith

/-! ### interpSpherical -/

/-- The force is minus the gradient of the potential everywhere outside the centre, also where the spline joins the Keplerian
potential outside the grid. -/
theorem C01_interpSpherical {o : InterpSph.Obj} (k : InterpSph.Ok o) (amp R z φ t : ℝ) (h0 : 0 < R ^ 2 + z ^ 2) :
    GradAt ((InterpSph.pot o).scale amp) R z φ t := by
  have d := InterpSph.val_deriv k (sqrt_pos.2 h0)
  have hr := sqrt_pos.2 h0
  have dR : HasDerivAt (fun x => √(x ^ 2 + z ^ 2)) (R / √(R ^ 2 + z ^ 2)) R := by
    refine (((hasDerivAt_id R).pow 2).add_const (z ^ 2)).sqrt h0.ne' |>.congr_deriv ?_
    simp only [id, Pi.pow_apply]; push_cast; field_simp
  have dz : HasDerivAt (fun x => √(R ^ 2 + x ^ 2)) (z / √(R ^ 2 + z ^ 2)) z := by
    refine (((hasDerivAt_id z).pow 2).const_add (R ^ 2)).sqrt h0.ne' |>.congr_deriv ?_
    simp only [id, Pi.pow_apply]; push_cast; field_simp
  refine GradAt.scale amp ⟨?_, ?_, ?_⟩
  · refine (d.comp R dR).congr_deriv ?_
    simp only [InterpSph.pot, Spherical.pot, Spherical.Rforce, InterpSph.radial]; ring
  · refine (d.comp z dz).congr_deriv ?_
    simp only [InterpSph.pot, Spherical.pot, Spherical.zforce, InterpSph.radial]; ring
  · simpa [InterpSph.pot, Spherical.pot, Spherical.evaluate] using hasDerivAt_const φ _
/-- Second derivatives, except where the spline joins the Keplerian potential. -/
theorem C02_interpSpherical {o : InterpSph.Obj} (k : InterpSph.Ok o) (amp R z φ t : ℝ) (h0 : 0 < R ^ 2 + z ^ 2)
    (hm : √(R ^ 2 + z ^ 2) ≠ o.rmax) : HessAt ((InterpSph.pot o).scale amp) R z φ t :=
  ((Spherical.consistent (InterpSph.radOK k)).scale amp).hess R z φ t ⟨sqrt_pos.2 h0, hm⟩
/-- Poisson's equation. -/
theorem C03_interpSpherical {o : InterpSph.Obj} (k : InterpSph.Ok o) (amp R z φ t : ℝ) (h0 : 0 < R ^ 2 + z ^ 2)
    (hm : √(R ^ 2 + z ^ 2) ≠ o.rmax) (hR : R ≠ 0) : PoissonAt ((InterpSph.pot o).scale amp) R z φ t :=
  ((Spherical.consistent (InterpSph.radOK k)).scale amp).poisson R z φ t ⟨sqrt_pos.2 h0, hm⟩ hR
/-- The potential at the first grid point is the `Phi0` given, and beyond the last grid point the mass no longer grows. -/
theorem C04_interpSpherical {o : InterpSph.Obj} (hm : o.rmin < o.rmax) (hp : 0 < o.rmin) :
    (InterpSph.pot o).val o.rmin 0 0 0 = o.phi0 ∧
    ∀ r, o.rmax ≤ r → Spherical.mass (InterpSph.radial o) r 0 = Spherical.mass (InterpSph.radial o) o.rmax 0 := by
  constructor
  · simp only [InterpSph.pot, Spherical.pot, Spherical.evaluate, InterpSph.radial, InterpSph.revaluate, zero_pow two_ne_zero,
      add_zero, sqrt_sq hp.le, if_neg (not_le.2 hm), InterpSph.Obj.Phi0, InterpSph.Obj.potSpline,
      intervalIntegral.integral_same, neg_zero, zero_add]
  · intro r hr
    have h1 : 0 < o.rmax := hp.trans hm
    have h2 : 0 < r := h1.trans_le hr
    simp only [Spherical.mass, InterpSph.radial, InterpSph.rforce, if_pos hr, le_refl, if_true]
    field_simp
example : InterpSph.Ok ⟨fun r => -r, 1, 3, -2⟩ := ⟨contDiff_id.neg, three_pos⟩
example : GradAt ((InterpSph.pot ⟨fun r => -r, 1, 3, -2⟩).scale 1) 3 0 0 0 :=
  C01_interpSpherical ⟨contDiff_id.neg, three_pos⟩ _ _ _ _ _ (by norm_num)

/-- C and Python agree beyond the grid, and at the grid points in the force.  (Between the grid points they use different
splines through the same points.) -/
theorem C51_interpSpherical_partial {o : InterpSph.Obj} (gsl : ℝ → ℝ) {r : ℝ} :
    (o.rmax ≤ r → InterpSph.cRevaluate (o.cArgs gsl) r = InterpSph.revaluate o r ∧
      InterpSph.cRforce (o.cArgs gsl) r = InterpSph.rforce o r ∧ InterpSph.cR2deriv (o.cArgs gsl) r = InterpSph.r2deriv o r ∧
      InterpSph.cRdens (o.cArgs gsl) r = InterpSph.rdens o r) ∧
    (o.rmin ≤ r → gsl r = o.spline r → InterpSph.cRforce (o.cArgs gsl) r = InterpSph.rforce o r) := by
  have e1 : (o.cArgs gsl).rmax = o.rmax := rfl
  have e2 : (o.cArgs gsl).rmin = o.rmin := rfl
  constructor
  · intro h
    have h' : (o.cArgs gsl).rmax ≤ r := h
    rw [InterpSph.cRevaluate, InterpSph.cRforce, InterpSph.cR2deriv, InterpSph.cRdens, if_pos h', if_pos h', if_pos h', if_pos h',
      InterpSph.revaluate, InterpSph.rforce, InterpSph.r2deriv, InterpSph.rdens, if_pos h, if_pos h, if_pos h, if_pos h]
    refine ⟨rfl, ?_, ?_, rfl⟩
    · rw [sq, div_div]; rfl
    · rw [div_div, div_div]
      show -2 * o.totalMass / (r * (r * r)) = _
      ring
  · intro h e
    rw [InterpSph.cRforce, InterpSph.rforce, if_neg (show ¬ r < (o.cArgs gsl).rmin from not_lt.2 h)]
    by_cases k : o.rmax ≤ r
    · rw [if_pos k, if_pos (show (o.cArgs gsl).rmax ≤ r from k), sq, div_div]; rfl
    · rw [if_neg k, if_neg (show ¬ (o.cArgs gsl).rmax ≤ r from k)]; exact e
example : InterpSph.cRforce (InterpSph.Obj.cArgs ⟨fun r => -r, 1, 3, -2⟩ fun _ => 0) 4
    = InterpSph.rforce ⟨fun r => -r, 1, 3, -2⟩ 4 :=
  ((C51_interpSpherical_partial _).1 (by norm_num)).2.1

/-- Inside the first grid point the C force is zero while Python extrapolates: the two integrations differ, even if both splines
are the same function. -/
theorem C51_interpSpherical_fails : ∃ (o : InterpSph.Obj) (r : ℝ), InterpSph.Ok o ∧ 0 < r ∧ r < o.rmin ∧ o.rmin < o.rmax ∧
    InterpSph.cRforce (o.cArgs o.spline) r = 0 ∧ InterpSph.rforce o r = -1 := by
  refine ⟨⟨fun _ => -1, 1, 2, 0⟩, 1 / 2, ⟨contDiff_const, two_pos⟩, by norm_num, by norm_num, by norm_num, ?_, ?_⟩
  · simp only [InterpSph.cRforce, InterpSph.Obj.cArgs]; norm_num
  · simp only [InterpSph.rforce]; norm_num

example : ∃ v : ℝ, AnySph.revaluateScalar cusp (some 0) = v ∧ Tendsto (AnySph.revaluate cusp) (𝓝[>] 0) (𝓝 v) :=
  C01_AnySpherical_centre cusp_ok (integrable_inv_one_add_sq.integrableOn.congr_fun (fun x hx => by rw [mul_comm x, cusp_outer hx]) measurableSet_Ioi)
example : Tendsto (fun r => (Einasto.pot 2 4).val r 0 0 0) (𝓝[>] 0) (𝓝 ((Einasto.pot 2 4).val 0 0 0 0)) :=
  C01_Einasto_centre two_pos (by norm_num)

end Verif
