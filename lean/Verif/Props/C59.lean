import Verif.Model.DF.Spherical
import Verif.Util.BetaInt
import Verif.Lemmas.DF.OM

set_option autoImplicit false

/-!
# C59: velocity moments and anisotropy of the spherical distribution functions

`C59Spec.moment` is the moment as documented: the integral of `vr^n vt^m f` over all velocities up
to the largest one, in spherical velocity coordinates, with `f` a function of the energy and the
modulus of the angular momentum of the phase-space point. The theorems say that the three shortcut
formulas of the code are this integral.
-/

noncomputable section
open Real MeasureTheory Set

namespace Verif
open Sph

namespace C59Spec

/-- The integral of `vr^n vt^m f(E, L)` over the velocities of modulus at most `vmax` at radius `r`
where the potential is `Φ`: `vr = v cos η`, `vt = v sin η`, `d³v = 2π v² sin η dη dv`. -/
def moment (f : ℝ → ℝ → ℝ) (Φ vmax r : ℝ) (n m : ℕ) : ℝ :=
  2 * π * ∫ v in (0 : ℝ)..vmax, ∫ η in (0 : ℝ)..π,
    (v * cos η) ^ n * (v * sin η) ^ m * f (Φ + v ^ 2 / 2) (r * (v * sin η)) * (v ^ 2 * sin η)

/-- The squared modulus of the angular momentum of a point given in cylindrical coordinates:
`x × v` has components `-z vT`, `z vR - R vz`, `R vT`. -/
def Lsq (R vR vT z vz : ℝ) : ℝ := (z * vT) ^ 2 + (z * vR - R * vz) ^ 2 + (R * vT) ^ 2

end C59Spec
open C59Spec

/-- A phase-space point is evaluated at its energy, the modulus of its angular momentum and the
z-component of it. -/
theorem C59_point (P : Pot) (f : ℝ → ℝ → ℝ → ℝ) (R vR vT z vz : ℝ) (h : 0 < R ^ 2 + z ^ 2) :
    call P f R vR vT z vz
      = f (P.val R z 0 0 + (vR ^ 2 + vT ^ 2 + vz ^ 2) / 2) (√(Lsq R vR vT z vz)) (R * vT) := by
  have hr := sqrt_pos.2 h
  have e : √(vR ^ 2 + vT ^ 2 + vz ^ 2 - ((R * vR + z * vz) / √(R ^ 2 + z ^ 2)) ^ 2) * √(R ^ 2 + z ^ 2)
      = √(Lsq R vR vT z vz) := by
    have h1 : vR ^ 2 + vT ^ 2 + vz ^ 2 - ((R * vR + z * vz) / √(R ^ 2 + z ^ 2)) ^ 2
        = Lsq R vR vT z vz / (R ^ 2 + z ^ 2) := by
      rw [div_pow, sq_sqrt h.le, Lsq]
      field_simp; ring
    rw [h1, ← sqrt_mul' _ h.le, div_mul_cancel₀ _ h.ne']
  simp only [call, toEL]
  rw [e]
  congr 1
  ring

example : ∃ R z : ℝ, 0 < R ^ 2 + z ^ 2 := ⟨1, 2, by norm_num⟩

theorem C59aux.call_eq (P : Pot) (f : ℝ → ℝ → ℝ → ℝ) {r v η : ℝ} (hr : 0 < r) (hv : 0 ≤ v) (hη : 0 ≤ sin η) :
    call P f r (v * cos η) (v * sin η) 0 0 = f (phi P r + v ^ 2 / 2) (r * (v * sin η)) (r * (v * sin η)) := by
  rw [C59_point P f _ _ _ _ _ (by positivity)]
  have h1 : √(Lsq r (v * cos η) (v * sin η) 0 0) = r * (v * sin η) := by
    rw [Lsq, show (0 * (v * sin η)) ^ 2 + (0 * (v * cos η) - r * 0) ^ 2 + (r * (v * sin η)) ^ 2
      = (r * (v * sin η)) ^ 2 by ring, sqrt_sq (by positivity)]
  rw [h1]
  congr 1
  rw [phi, show (v * cos η) ^ 2 + (v * sin η) ^ 2 + 0 ^ 2 = v ^ 2 * (sin η ^ 2 + cos η ^ 2) by ring, sin_sq_add_cos_sq]
  ring

/-- The general method is the documented moment, for every distribution function of `E` and `L`. -/
theorem C59_moment_general (P : Pot) (phiMax : ℝ) (f : ℝ → ℝ → ℝ) {r : ℝ} (hr : 0 < r) (n m : ℕ) :
    vmomentdensity P phiMax (fun E L _ => f E L) r n m = moment f (phi P r) (vmaxAtR P phiMax r) r n m := by
  rw [vmomentdensity, moment]
  congr 1
  refine intervalIntegral.integral_congr fun v hv => ?_
  rw [uIcc_of_le (show 0 ≤ vmaxAtR P phiMax r from sqrt_nonneg _)] at hv
  refine intervalIntegral.integral_congr fun η hη => ?_
  rw [uIcc_of_le pi_pos.le] at hη
  have hs := sin_nonneg_of_nonneg_of_le_pi hη.1 hη.2
  beta_reduce
  rw [C59aux.call_eq P _ hr hv.1 hs]
  ring

/-- The angular part of the moments. -/
theorem C59aux.angular (p : ℝ) (hp : 0 < p) (n : ℕ) :
    ∫ η in (0 : ℝ)..π, sin η ^ (2 * p - 1) * cos η ^ (2 * n) = Gamma p * Gamma (n + 1 / 2) / Gamma (p + (n + 1 / 2)) := by
  rw [half_beta (by linarith) n, B, show (2 * p - 1 + 1) / 2 = p by ring]

/-- Isotropic distribution functions: the shortcut is the documented moment, for every function of
the energy, every order of the radial velocity and every even order of the tangential velocity. -/
theorem C59_isotropic_moment (P : Pot) (phiMax : ℝ) (fE : ℝ → ℝ) (r : ℝ) (n m : ℕ) (hm : Even m) :
    isoVmoment P phiMax fE r n m = moment (fun E _ => fE E) (phi P r) (vmaxAtR P phiMax r) r n m := by
  obtain ⟨k, rfl⟩ := hm.two_dvd
  have key : ∀ v : ℝ, ∫ η in (0 : ℝ)..π, (v * cos η) ^ n * (v * sin η) ^ (2 * k) * fE (phi P r + v ^ 2 / 2) * (v ^ 2 * sin η)
      = v ^ (2 + 2 * k + n) * fE (phi P r + v ^ 2 / 2) * ∫ η in (0 : ℝ)..π, sin η ^ (2 * ((k : ℝ) + 1) - 1) * cos η ^ n := by
    intro v
    rw [← intervalIntegral.integral_const_mul]
    refine intervalIntegral.integral_congr fun η _ => ?_
    beta_reduce
    rw [show (2 * ((k : ℝ) + 1) - 1) = ((2 * k + 1 : ℕ) : ℝ) by push_cast; ring, rpow_natCast]
    ring
  rw [moment]
  simp only [key]
  rw [isoVmoment]
  rcases Nat.even_or_odd' n with ⟨j, rfl | rfl⟩
  · rw [if_neg (by omega), C59aux.angular _ (by positivity), intervalIntegral.integral_mul_const,
      Nat.mul_div_cancel_left _ two_pos, Nat.mul_div_cancel_left _ two_pos]
    have e : ∀ v : ℝ, phi P r + 0.5 * v ^ 2 = phi P r + v ^ 2 / 2 := fun v => by ring
    simp only [e]
    rw [show (j : ℝ) + 0.5 = j + 1 / 2 by norm_num, show (k : ℝ) + j + 1.5 = k + 1 + (j + 1 / 2) by ring]
    ring
  · rw [if_pos (by omega), half_odd]
    simp

/-- For an odd order of the tangential velocity the shortcut returns zero, which the documented
moment is not: the mean tangential speed of the Plummer model (or any other) is not zero. -/
theorem C59_odd_tangential_fails (P : Pot) (phiMax : ℝ) (fE : ℝ → ℝ) (r : ℝ) (hv : phi P r < phiMax)
    (hc : Continuous fE) (hf : ∀ E, E < phiMax → 0 < fE E) :
    isoVmoment P phiMax fE r 0 1 = 0 ∧
      0 < moment (fun E _ => fE E) (phi P r) (vmaxAtR P phiMax r) r 0 1 := by
  refine ⟨by simp [isoVmoment], ?_⟩
  have hvm : 0 < vmaxAtR P phiMax r := sqrt_pos.2 (by linarith)
  rw [moment]
  refine mul_pos (by positivity) ?_
  refine intervalIntegral.intervalIntegral_pos_of_pos_on ?_ ?_ hvm
  · refine Continuous.intervalIntegrable ?_ _ _
    refine intervalIntegral.continuous_parametric_intervalIntegral_of_continuous' ?_ _ _
    fun_prop
  · intro v hv'
    refine intervalIntegral.intervalIntegral_pos_of_pos_on ?_ ?_ pi_pos
    · refine Continuous.intervalIntegrable ?_ _ _
      fun_prop
    · intro η hη
      have hs := sin_pos_of_pos_of_lt_pi hη.1 hη.2
      have h0 := hv'.1
      have h1 : 0 < fE (phi P r + v ^ 2 / 2) := by
        refine hf _ ?_
        have := (lt_sqrt h0.le).1 hv'.2
        linarith
      have : (v * cos η) ^ 0 = 1 := pow_zero _
      rw [this]
      positivity

example : ∃ (P : Pot) (phiMax r : ℝ) (fE : ℝ → ℝ), phi P r < phiMax ∧ Continuous fE ∧ ∀ E, E < phiMax → 0 < fE E := by
  refine ⟨Plummer.pot 1, 0, 1, fun E => -E * Real.exp E, ?_, by fun_prop, fun E hE => mul_pos (by linarith) (exp_pos _)⟩
  simp only [phi, Plummer.pot, Pot.axi, Plummer.evaluate]
  rw [neg_div, neg_lt_zero]
  positivity

/-- Constant anisotropy: the shortcut is the documented moment of `L^(-2β) f(E)`. -/
theorem C59_constantbeta_moment (P : Pot) (phiMax β : ℝ) (hβ : β < 1) (fE : ℝ → ℝ) {r : ℝ} (hr : 0 < r)
    (n m : ℕ) (hm : Even m) :
    cbVmoment P phiMax β fE r n m
      = moment (fun E L => L ^ (-2 * β) * fE E) (phi P r) (vmaxAtR P phiMax r) r n m := by
  obtain ⟨k, rfl⟩ := hm.two_dvd
  have key : ∀ v : ℝ, 0 < v → ∫ η in (0 : ℝ)..π, (v * cos η) ^ n * (v * sin η) ^ (2 * k)
        * ((r * (v * sin η)) ^ (-2 * β) * fE (phi P r + v ^ 2 / 2)) * (v ^ 2 * sin η)
      = r ^ (-2 * β) * (v ^ (2 - 2 * β + (2 * k : ℕ) + n) * fE (phi P r + v ^ 2 / 2))
        * ∫ η in (0 : ℝ)..π, sin η ^ (2 * ((k : ℝ) + 1 - β) - 1) * cos η ^ n := by
    intro v hv
    rw [← intervalIntegral.integral_const_mul]
    refine intervalIntegral.integral_congr_ae ?_
    have hne : ∀ᵐ η : ℝ, η ≠ π := by simp [ae_iff]
    filter_upwards [hne] with η hη' hη
    rw [uIoc_of_le pi_pos.le] at hη
    have hs := sin_pos_of_pos_of_lt_pi hη.1 (lt_of_le_of_ne hη.2 hη')
    rw [mul_rpow hr.le (by positivity), mul_rpow hv.le hs.le,
      show (2 * ((k : ℝ) + 1 - β) - 1) = ((2 * k + 1 : ℕ) : ℝ) + -2 * β by push_cast; ring, rpow_add hs,
      rpow_natCast, show 2 - 2 * β + ((2 * k : ℕ) : ℝ) + (n : ℝ) = ((2 + 2 * k + n : ℕ) : ℝ) + -2 * β by
        push_cast; ring, rpow_add hv, rpow_natCast]
    ring
  rw [moment]
  have e0 : ∀ᵐ v : ℝ, v ∈ uIoc (0 : ℝ) (vmaxAtR P phiMax r) →
      (∫ η in (0 : ℝ)..π, (v * cos η) ^ n * (v * sin η) ^ (2 * k)
        * ((r * (v * sin η)) ^ (-2 * β) * fE (phi P r + v ^ 2 / 2)) * (v ^ 2 * sin η))
      = r ^ (-2 * β) * (v ^ (2 - 2 * β + (2 * k : ℕ) + n) * fE (phi P r + v ^ 2 / 2))
        * ∫ η in (0 : ℝ)..π, sin η ^ (2 * ((k : ℝ) + 1 - β) - 1) * cos η ^ n := by
    refine Filter.Eventually.of_forall fun v hv => ?_
    rw [uIoc_of_le (show 0 ≤ vmaxAtR P phiMax r from sqrt_nonneg _)] at hv
    exact key v hv.1
  rw [intervalIntegral.integral_congr_ae e0, intervalIntegral.integral_mul_const,
    intervalIntegral.integral_const_mul, cbVmoment]
  rcases Nat.even_or_odd' n with ⟨j, rfl | rfl⟩
  · rw [if_neg (by omega), C59aux.angular _ (by linarith [(Nat.cast_nonneg k : (0:ℝ) ≤ k)])]
    have e : ∀ v : ℝ, phi P r + 0.5 * v ^ 2 = phi P r + v ^ 2 / 2 := fun v => by ring
    simp only [e]
    rw [show ((2 * k : ℕ) : ℝ) / 2 - β + 1 = k + 1 - β by push_cast; ring,
      show (((2 * j : ℕ) : ℝ) + 1) / 2 = j + 1 / 2 by push_cast; ring,
      show (0.5 : ℝ) * (((2 * k : ℕ) : ℝ) + ((2 * j : ℕ) : ℝ) - 2 * β + 3) = k + 1 - β + (j + 1 / 2) by
        push_cast; ring]
    ring
  · rw [if_pos (by omega), half_odd]
    simp

/-- Osipkov-Merritt: the shortcut is the documented moment of `f(Q)`, `Q = -E - L²/(2 ra²)`. -/
theorem C59_osipkovmerritt_moment (P : Pot) (phiMax ra : ℝ) (hra : ra ≠ 0) (fQ : ℝ → ℝ) (hmeas : Measurable fQ)
    (hzero : ∀ Q, Q < -phiMax → fQ Q = 0) (r : ℝ) (hr : phi P r ≤ phiMax) (n m : ℕ) (hm : Even m)
    (hint : IntervalIntegrable (fun v => v ^ (2 + m + n) * fQ (-phi P r - v ^ 2 / 2)) volume 0 (vmaxAtR P phiMax r)) :
    omVmoment P phiMax ra fQ r n m
      = moment (fun E L => fQ (-E - L ^ 2 / (2 * ra ^ 2))) (phi P r) (vmaxAtR P phiMax r) r n m := by
  obtain ⟨j, rfl⟩ := hm.two_dvd
  have hV : 0 ≤ vmaxAtR P phiMax r := sqrt_nonneg _
  have hk : 0 ≤ r ^ 2 / ra ^ 2 := by positivity
  set k := r ^ 2 / ra ^ 2 with hkdef
  set V := vmaxAtR P phiMax r with hVdef
  have hgz : ∀ x, V < x → fQ (-phi P r - x ^ 2 / 2) = 0 := by
    intro x hx
    refine hzero _ ?_
    have h1 := pow_lt_pow_left₀ hx hV two_ne_zero
    rw [hVdef, vmaxAtR, sq_sqrt (by linarith)] at h1
    linarith
  have hgi := (intervalIntegrable_iff_integrableOn_Ioc_of_le hV).1 hint
  have hd := OMaux.double hk hV n (2 * j) (fun x => fQ (-phi P r - x ^ 2 / 2))
    (hmeas.comp (by fun_prop)) hgz hgi
  rw [moment]
  have e0 : (∫ v in (0 : ℝ)..V, ∫ η in (0 : ℝ)..π, (v * cos η) ^ n * (v * sin η) ^ (2 * j)
        * fQ (-(phi P r + v ^ 2 / 2) - (r * (v * sin η)) ^ 2 / (2 * ra ^ 2)) * (v ^ 2 * sin η))
      = ∫ v in (0 : ℝ)..V, ∫ η in (0 : ℝ)..π, cos η ^ n * sin η ^ (2 * j + 1)
        * (v ^ (2 + 2 * j + n) * fQ (-phi P r - (v * √(1 + k * sin η ^ 2)) ^ 2 / 2)) := by
    refine intervalIntegral.integral_congr fun v _ => intervalIntegral.integral_congr fun η _ => ?_
    beta_reduce
    rw [mul_pow v (√_), sq_sqrt (by positivity), show -(phi P r + v ^ 2 / 2) - (r * (v * sin η)) ^ 2 / (2 * ra ^ 2)
      = -phi P r - v ^ 2 * (1 + k * sin η ^ 2) / 2 by rw [hkdef]; field_simp; ring]
    ring
  rw [e0, hd, omVmoment]
  have hang := OMaux.angular hk n j
  have hang0 := OMaux.angular (le_refl (0 : ℝ)) n j
  simp only [add_zero, one_pow, one_mul, zero_mul, sqrt_one, div_one] at hang0
  rw [← hang0] at hang
  have h1k : (1 + k) ≠ 0 := by positivity
  have hk' : ∫ η in (0 : ℝ)..π, (cos η ^ n * sin η ^ (2 * j + 1)) / √(1 + k * sin η ^ 2) ^ (2 * j + n + 3)
      = (∫ η in (0 : ℝ)..π, sin η ^ (2 * ((j : ℝ) + 1) - 1) * cos η ^ n) / (1 + k) ^ (j + 1) := by
    rw [eq_div_iff (pow_ne_zero _ h1k), mul_comm, hang]
    refine intervalIntegral.integral_congr fun η _ => ?_
    beta_reduce
    rw [show (2 * ((j : ℝ) + 1) - 1) = ((2 * j + 1 : ℕ) : ℝ) by push_cast; ring, rpow_natCast]
    ring
  rw [hk']
  rcases Nat.even_or_odd' n with ⟨i, rfl | rfl⟩
  · rw [if_neg (by omega), C59aux.angular _ (by positivity)]
    have e : ∀ v : ℝ, -phi P r - 0.5 * v ^ 2 = -phi P r - v ^ 2 / 2 := fun v => by ring
    simp only [e]
    rw [show ((2 * j : ℕ) : ℝ) / 2 + 1 = ((j + 1 : ℕ) : ℝ) by push_cast; ring, rpow_natCast,
      show (((2 * i : ℕ) : ℝ) + 1) / 2 = i + 1 / 2 by push_cast; ring,
      show (0.5 : ℝ) * (((2 * j : ℕ) : ℝ) + ((2 * i : ℕ) : ℝ) + 3) = ((j + 1 : ℕ) : ℝ) + (i + 1 / 2) by
        push_cast; ring, show ((j : ℝ) + 1) = ((j + 1 : ℕ) : ℝ) by push_cast; ring]
    rw [← hkdef, ← hVdef]
    ring
  · rw [if_pos (by omega), half_odd]
    simp

/-- Isotropic: the anisotropy parameter is zero, and the tangential dispersion (of two directions)
is `√2` times the radial one. -/
theorem C59_isotropic_beta (P : Pot) (phiMax : ℝ) (fE : ℝ → ℝ) (r : ℝ) (h : isoVmoment P phiMax fE r 2 0 ≠ 0) :
    betaOf (isoVmoment P phiMax fE) r = 0 ∧
      sigmat (isoVmoment P phiMax fE) r = √2 * sigmar (isoVmoment P phiMax fE) r := by
  have e : isoVmoment P phiMax fE r 0 2 = 2 * isoVmoment P phiMax fE r 2 0 := by
    have h1 : Gamma ((1 : ℝ) + 0.5) = 0.5 * Gamma 0.5 := by
      rw [add_comm, Gamma_add_one (by norm_num)]
    have h2 : Gamma ((1 : ℝ) + 1) = 1 := by rw [Gamma_add_one one_ne_zero, Gamma_one, mul_one]
    simp only [isoVmoment]
    norm_num
    norm_num at h1
    rw [h1]
    ring
  refine ⟨by rw [betaOf, e]; field_simp; ring, ?_⟩
  rw [sigmat, sigmar, e, ← sqrt_mul (by norm_num), mul_div_assoc]

/-- Constant anisotropy: the anisotropy parameter is the given one. -/
theorem C59_constantbeta_beta (P : Pot) (phiMax β : ℝ) (hβ : β < 1) (fE : ℝ → ℝ) (r : ℝ)
    (h : cbVmoment P phiMax β fE r 2 0 ≠ 0) : betaOf (cbVmoment P phiMax β fE) r = β := by
  have e : cbVmoment P phiMax β fE r 0 2 = 2 * (1 - β) * cbVmoment P phiMax β fE r 2 0 := by
    have h1 : Gamma ((2 + 1) / 2 : ℝ) = 1 / 2 * Gamma (1 / 2) := by
      rw [show ((2 + 1) / 2 : ℝ) = 1 / 2 + 1 by norm_num, Gamma_add_one (by norm_num)]
    have h2 : Gamma (2 / 2 - β + 1) = (1 - β) * Gamma (0 / 2 - β + 1) := by
      rw [show 2 / 2 - β + 1 = (1 - β) + 1 by ring, Gamma_add_one (by linarith), show 0 / 2 - β + 1 = 1 - β by ring]
    simp only [cbVmoment, Nat.cast_ofNat, Nat.cast_zero]
    norm_num only
    norm_num only at h1 h2
    rw [if_neg (by norm_num), if_neg (by norm_num), h2, h1,
      show 2 - 2 * β + 2 + 0 = 2 - 2 * β + 0 + 2 by ring]
    ring
  rw [betaOf, e]; field_simp; ring

/-- Osipkov-Merritt: the anisotropy parameter is `r²/(r² + ra²)`. -/
theorem C59_osipkovmerritt_beta (P : Pot) (phiMax ra : ℝ) (hra : ra ≠ 0) (fQ : ℝ → ℝ) (r : ℝ)
    (h : omVmoment P phiMax ra fQ r 2 0 ≠ 0) :
    betaOf (omVmoment P phiMax ra fQ) r = r ^ 2 / (r ^ 2 + ra ^ 2) := by
  have hp : 0 < 1 + r ^ 2 / ra ^ 2 := by positivity
  have e : omVmoment P phiMax ra fQ r 0 2 = 2 * omVmoment P phiMax ra fQ r 2 0 / (1 + r ^ 2 / ra ^ 2) := by
    have h1 : Gamma ((2 + 1) / 2 : ℝ) = 1 / 2 * Gamma (1 / 2) := by
      rw [show ((2 + 1) / 2 : ℝ) = 1 / 2 + 1 by norm_num, Gamma_add_one (by norm_num)]
    have h2 : Gamma (2 / 2 + 1 : ℝ) = 1 := by
      rw [show (2 / 2 + 1 : ℝ) = 1 + 1 by ring, Gamma_add_one one_ne_zero, Gamma_one, mul_one]
    have h3 : Gamma (0 / 2 + 1 : ℝ) = 1 := by rw [zero_div, zero_add, Gamma_one]
    simp only [omVmoment, Nat.cast_ofNat, Nat.cast_zero]
    rw [if_neg (by norm_num), if_neg (by norm_num), h1, h2, h3,
      show (2 / 2 + 1 : ℝ) = ((2 : ℕ) : ℝ) by norm_num, show (0 / 2 + 1 : ℝ) = 1 by norm_num, rpow_natCast, rpow_one,
      show ((0 : ℝ) + 1) / 2 = 1 / 2 by norm_num, show (2 : ℝ) + 0 + 3 = 0 + 2 + 3 by ring]
    field_simp
  rw [betaOf, e]; field_simp; ring

/-- An `Orbit` holding several orbits is not evaluated orbit by orbit: their angular momenta are
added in quadrature, so an anisotropic distribution function gives every one of them a wrong value. -/
theorem C59_orbits_fails : ∃ (f : ℝ → ℝ → ℝ → ℝ) (o₁ o₂ : ℝ × ℝ × ℝ × ℝ),
    callOrbits f [o₁, o₂] ≠ callOrbits f [o₁] ++ callOrbits f [o₂] := by
  refine ⟨cbCall (-1) (fun _ => 1), (-1, 0, 0, 3), (-1, 0, 0, 4), ?_⟩
  simp only [callOrbits, cbCall, List.map_cons, List.map_nil, List.sum_cons, List.sum_nil]
  norm_num

/-! Concrete cases meeting the hypotheses above: a Plummer sphere with a constant distribution
function of the bound stars. -/

namespace C59aux

theorem plummer_neg : phi (Plummer.pot 1) 1 < 0 := by
  simp only [phi, Plummer.pot, Pot.axi, Plummer.evaluate]
  rw [neg_div, neg_lt_zero]
  positivity

theorem vmax_pos : 0 < vmaxAtR (Plummer.pot 1) 0 1 := sqrt_pos.2 (by linarith [plummer_neg])

theorem bound (v : ℝ) (hv : v ∈ Icc 0 (vmaxAtR (Plummer.pot 1) 0 1)) : phi (Plummer.pot 1) 1 + v ^ 2 / 2 ≤ 0 := by
  have h := pow_le_pow_left₀ hv.1 hv.2 2
  rw [vmaxAtR, sq_sqrt (by linarith [plummer_neg])] at h
  linarith

end C59aux
open C59aux

example : isoVmoment (Plummer.pot 1) 0 (fun _ => 1) 1 2 0 ≠ 0 := by
  refine ne_of_gt ?_
  rw [isoVmoment, if_neg (by norm_num)]
  simp only [mul_one, integral_pow]
  have := vmax_pos
  have h1 : 0 < Gamma (((0 / 2 : ℕ) : ℝ) + 1) := Gamma_pos_of_pos (by positivity)
  have h2 : 0 < Gamma (((2 / 2 : ℕ) : ℝ) + 0.5) := Gamma_pos_of_pos (by positivity)
  have h3 : 0 < Gamma (((0 / 2 : ℕ) : ℝ) + ((2 / 2 : ℕ) : ℝ) + 1.5) := Gamma_pos_of_pos (by positivity)
  norm_num at h1 h2 h3 ⊢
  positivity

example : cbVmoment (Plummer.pot 1) 0 (1 / 4) (fun _ => 1) 1 2 0 ≠ 0 := by
  refine ne_of_gt ?_
  rw [cbVmoment, if_neg (by norm_num)]
  simp only [mul_one]
  rw [integral_rpow (by norm_num)]
  have := vmax_pos
  have h1 : 0 < Gamma (((0 : ℕ) : ℝ) / 2 - 1 / 4 + 1) := Gamma_pos_of_pos (by norm_num)
  have h2 : 0 < Gamma ((((2 : ℕ) : ℝ) + 1) / 2) := Gamma_pos_of_pos (by norm_num)
  have h3 : 0 < Gamma (0.5 * (((0 : ℕ) : ℝ) + ((2 : ℕ) : ℝ) - 2 * (1 / 4) + 3)) := Gamma_pos_of_pos (by norm_num)
  norm_num at h1 h2 h3 ⊢
  positivity

example : ∃ fQ : ℝ → ℝ, Measurable fQ ∧ (∀ Q, Q < -0 → fQ Q = 0) ∧ omVmoment (Plummer.pot 1) 0 1 fQ 1 2 0 ≠ 0 ∧
    IntervalIntegrable (fun v => v ^ (2 + 0 + 2) * fQ (-phi (Plummer.pot 1) 1 - v ^ 2 / 2)) volume 0
      (vmaxAtR (Plummer.pot 1) 0 1) := by
  refine ⟨fun Q => if Q < 0 then 0 else 1, ?_, fun Q hQ => if_pos (by linarith), ?_, ?_⟩
  · exact Measurable.ite measurableSet_Iio measurable_const measurable_const
  · refine ne_of_gt ?_
    rw [omVmoment, if_neg (by norm_num)]
    have e : ∫ v in (0 : ℝ)..vmaxAtR (Plummer.pot 1) 0 1, v ^ (2 + 0 + 2)
          * (fun Q : ℝ => if Q < 0 then (0 : ℝ) else 1) (-phi (Plummer.pot 1) 1 - 0.5 * v ^ 2)
        = ∫ v in (0 : ℝ)..vmaxAtR (Plummer.pot 1) 0 1, v ^ (2 + 0 + 2) := by
      refine intervalIntegral.integral_congr fun v hv => ?_
      rw [uIcc_of_le vmax_pos.le] at hv
      have := bound v hv
      beta_reduce
      rw [if_neg (by linarith), mul_one]
    rw [e, integral_pow]
    have := vmax_pos
    have h1 : 0 < Gamma (((0 : ℕ) : ℝ) / 2 + 1) := Gamma_pos_of_pos (by norm_num)
    have h2 : 0 < Gamma ((((2 : ℕ) : ℝ) + 1) / 2) := Gamma_pos_of_pos (by norm_num)
    have h3 : 0 < Gamma (0.5 * (((0 : ℕ) : ℝ) + ((2 : ℕ) : ℝ) + 3)) := Gamma_pos_of_pos (by norm_num)
    norm_num at h1 h2 h3 ⊢
    positivity
  · refine IntervalIntegrable.congr (f := fun v => v ^ (2 + 0 + 2)) ?_ (Continuous.intervalIntegrable (by fun_prop) _ _)
    intro v hv
    rw [uIoc_of_le vmax_pos.le] at hv
    have := bound v ⟨hv.1.le, hv.2⟩
    beta_reduce
    rw [if_neg (by linarith), mul_one]

/-- One orbit is evaluated at the modulus of its angular momentum. -/
theorem C59_orbit (f : ℝ → ℝ → ℝ → ℝ) (E Lx Ly Lz : ℝ) :
    callOrbits f [(E, Lx, Ly, Lz)] = [f E (√(Lx ^ 2 + Ly ^ 2 + Lz ^ 2)) Lz] := by
  simp [callOrbits]

end Verif
