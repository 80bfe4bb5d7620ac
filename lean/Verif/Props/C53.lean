import Verif.Lemmas.Planar.Linear
import Mathlib.Tactic.NormNum

set_option autoImplicit false

/-!
# C53: one-dimensional analytic potentials

`KGPotential` and `IsothermalDiskPotential`: the force method is minus the derivative of the value,
the second-derivative method is its second derivative, the C functions called with the packed
arguments agree, and the isothermal disk satisfies the one-dimensional Poisson equation with the
documented density.
-/

namespace Verif
open Real

/-- `KGPotential`, amplitude included. The point `x = 0` with `D = 0` (a sheet of zero thickness) is
excluded. -/
theorem C53_KG (amp K F D x t : ℝ) (h : 0 < x ^ 2 + D ^ 2) :
    LGradAt ((KG.pot K F D).scale amp) x t ∧ LHessAt ((KG.pot K F D).scale amp) x t :=
  ⟨(KG.grad t h).scale amp, (KG.hess t h).scale amp⟩
example : LGradAt ((KG.pot 1 2 3).scale 5) 0 0 := (C53_KG 5 1 2 3 0 0 (by norm_num)).1

/-- The C functions of `KGPotential` with the packed arguments are the public methods, everywhere. -/
theorem C53_KG_C (amp K F D x t : ℝ) :
    KG.cForce (KG.cArgs amp K F D) x = ((KG.pot K F D).scale amp).force x t ∧
    KG.c2deriv (KG.cArgs amp K F D) x = ((KG.pot K F D).scale amp).force2deriv x t := by
  dsimp only [KG.cForce, KG.c2deriv, KG.cArgs, LPot.scale, KG.pot, KG.force, KG.force2deriv]
  rw [← pow_two]
  exact ⟨by ring, by ring⟩
example : KG.cForce (KG.cArgs 2 1 1 1) 1 = 2 * KG.force 1 1 1 1 := (C53_KG_C 2 1 1 1 1 0).1

/-- What the halo term of `KGPotential` means as a mass density by the one-dimensional Poisson
equation `Φ'' = 4 π ρ`: without a disk (`K = 0`), `F` corresponds to the density `F / (2 π)`. -/
theorem C53_KG_halo_density (F D x t : ℝ) (h : 0 < x ^ 2 + D ^ 2) :
    HasDerivAt (fun y => deriv (fun u => (KG.pot 0 F D).val u t) y) (4 * π * (F / (2 * π))) x := by
  have := KG.hess (K := 0) (F := F) t h
  refine HasDerivAt.congr_deriv this ?_
  dsimp only [KG.pot, KG.force2deriv]
  field_simp
  ring
example : HasDerivAt (fun y => deriv (fun u => (KG.pot 0 3 1).val u 0) y) (4 * π * (3 / (2 * π))) 2 :=
  C53_KG_halo_density 3 1 2 0 (by norm_num)

/-- So a density passed as the argument `F` (which the constructor multiplies by `4 π`) is not the
density of the resulting potential: `Φ'' = 8 π ρ`, not `4 π ρ`, for every non-zero density, whatever
the unit conversion. -/
theorem C53_KG_density_fails (densIn : ℝ → ℝ → ℝ) (ro vo : Option ℝ) (ro' vo' ρ D x t : ℝ)
    (h : 0 < x ^ 2 + D ^ 2) (hd : densIn vo' ro' ≠ 0) (hρ : ρ ≠ 0) :
    ∃ F, KG.setF densIn ro vo ro' vo' (.dens ρ) = .ok F ∧
      ¬ HasDerivAt (fun y => deriv (fun u => (KG.pot 0 F D).val u t) y)
        (4 * π * (ρ / densIn vo' ro')) x := by
  refine ⟨_, rfl, fun hh => ?_⟩
  have := hh.unique (C53_KG_halo_density _ D x t h)
  have hp := pi_ne_zero
  have e : 4 * π * (ρ / densIn vo' ro') = 0 := by
    field_simp at this
    have h2 : ρ = 0 := by nlinarith
    exact absurd h2 hρ
  rw [mul_eq_zero, div_eq_zero_iff] at e
  rcases e with e | e | e
  · exact hp (by linarith)
  · exact hρ e
  · exact hd e
example : ∃ F, KG.setF (fun _ _ => 2) none none 8 220 (.dens 1) = .ok F ∧
    ¬ HasDerivAt (fun y => deriv (fun u => (KG.pot 0 F 1).val u 0) y) (4 * π * (1 / 2)) 0 :=
  C53_KG_density_fails (fun _ _ => 2) none none 8 220 1 1 0 0 (by norm_num) (by norm_num)
    one_ne_zero

/-- A second derivative passed with units is converted with the constructor's own `ro` and `vo`, so
without them the constructor raises instead of using the configured defaults; with them it is the
intended conversion. -/
theorem C53_KG_units_fails (densIn : ℝ → ℝ → ℝ) (ro' vo' x r v : ℝ) :
    KG.setF densIn none none ro' vo' (.deriv x) = .error .typeError ∧
    KG.setF densIn (some r) none ro' vo' (.deriv x) = .error .typeError ∧
    KG.setF densIn none (some v) ro' vo' (.deriv x) = .error .typeError ∧
    KG.setF densIn (some r) (some v) r v (.deriv x) = .ok (x * r ^ 2 / v ^ 2) :=
  ⟨rfl, rfl, rfl, rfl⟩

/-- `IsothermalDiskPotential`, with the factor of a later multiplication included. -/
theorem C53_IsothermalDisk (mult amp σ x t : ℝ) (ha : 0 < amp) (hσ : 0 < σ) :
    LGradAt ((IsoDisk.pot amp σ).scale mult) x t ∧ LHessAt ((IsoDisk.pot amp σ).scale mult) x t :=
  ⟨(IsoDisk.grad t ha hσ).scale mult, (IsoDisk.hess t ha hσ).scale mult⟩
example : LGradAt ((IsoDisk.pot 2 1).scale 1) 3 0 :=
  (C53_IsothermalDisk 1 2 1 3 0 (by norm_num) (by norm_num)).1

/-- The C functions of `IsothermalDiskPotential` with the packed arguments are the public methods. -/
theorem C53_IsothermalDisk_C (mult amp σ x t : ℝ) (ha : 0 < amp) (hσ : 0 < σ) :
    IsoDisk.cForce (IsoDisk.cArgs mult amp σ) x = ((IsoDisk.pot amp σ).scale mult).force x t ∧
    IsoDisk.c2deriv (IsoDisk.cArgs mult amp σ) x
      = ((IsoDisk.pot amp σ).scale mult).force2deriv x t := by
  have hH : IsoDisk.height amp σ ≠ 0 := (div_pos hσ (sqrt_pos.2 (by positivity))).ne'
  dsimp only [IsoDisk.cForce, IsoDisk.c2deriv, IsoDisk.cArgs, LPot.scale, IsoDisk.pot,
    IsoDisk.force, IsoDisk.force2deriv]
  have e : x / (2 * IsoDisk.height amp σ) = 1 / 2 * x / IsoDisk.height amp σ := by field_simp
  rw [e]
  constructor <;> field_simp
example : IsoDisk.cForce (IsoDisk.cArgs 1 2 1) 3 = ((IsoDisk.pot 2 1).scale 1).force 3 0 :=
  (C53_IsothermalDisk_C 1 2 1 3 0 (by norm_num) (by norm_num)).1

/-- The one-dimensional Poisson equation: the second derivative of the value is `4 π` times the
documented density, written both as `amp sech²(x / 2H)` with `H² = σ²/(8 π amp)` and as the
Boltzmann law `amp exp(-Φ/σ²)`; and the potential vanishes in the midplane. -/
theorem C53_IsothermalDisk_Poisson (amp σ x t : ℝ) (ha : 0 < amp) (hσ : 0 < σ) :
    HasDerivAt (fun y => deriv (fun u => (IsoDisk.pot amp σ).val u t) y)
      (4 * π * (amp * exp (-(IsoDisk.pot amp σ).val x t / σ ^ 2))) x ∧
    amp * exp (-(IsoDisk.pot amp σ).val x t / σ ^ 2)
      = amp / cosh (x / (2 * √(σ ^ 2 / (8 * π * amp)))) ^ 2 ∧
    (IsoDisk.pot amp σ).val 0 t = 0 := by
  have h8 : 0 < 8 * π * amp := by positivity
  have hHpos : 0 < IsoDisk.height amp σ := div_pos hσ (sqrt_pos.2 h8)
  have hH := hHpos.ne'
  have h2 := IsoDisk.height_sq (σ := σ) ha
  refine ⟨?_, ?_, ?_⟩
  · refine HasDerivAt.congr_deriv (IsoDisk.hess t ha hσ) ?_
    dsimp only [IsoDisk.pot]
    rw [IsoDisk.boltzmann hσ]
    dsimp only [IsoDisk.force2deriv]
    generalize tanh (1 / 2 * x / IsoDisk.height amp σ) = w
    rw [← h2]
    generalize IsoDisk.height amp σ = H at *
    field_simp
    ring
  · have e : √(σ ^ 2 / (8 * π * amp)) = IsoDisk.height amp σ := by
      rw [sqrt_div (sq_nonneg σ), sqrt_sq hσ.le]; rfl
    have e2 : x / (2 * IsoDisk.height amp σ) = 1 / 2 * x / IsoDisk.height amp σ := by field_simp
    dsimp only [IsoDisk.pot]
    rw [e, e2, IsoDisk.boltzmann hσ, tanh_eq_sinh_div_cosh]
    have hc := cosh_pos (1 / 2 * x / IsoDisk.height amp σ)
    have := cosh_sq (1 / 2 * x / IsoDisk.height amp σ)
    generalize cosh (1 / 2 * x / IsoDisk.height amp σ) = c at *
    generalize sinh (1 / 2 * x / IsoDisk.height amp σ) = s at *
    field_simp
    linarith
  · simp [IsoDisk.pot, IsoDisk.evaluate]
example : (IsoDisk.pot 2 1).val 0 0 = 0 :=
  (C53_IsothermalDisk_Poisson 2 1 1 0 (by norm_num) (by norm_num)).2.2

end Verif
