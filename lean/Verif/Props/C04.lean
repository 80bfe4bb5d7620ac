import Verif.Lemmas.Mass
import Verif.Lemmas.Pot.KuzminDisk
import Verif.Lemmas.Pot.PowerSpherical
import Verif.Lemmas.Pot.Ops

set_option autoImplicit false

/-!
# C04: enclosed mass of spherical potentials

For each closed-form `mass` method (public value, amplitude included): it is the integral of the
potential's own density, its derivative is the shell mass, it equals `r²` times the inward radial
force in every direction, and it has the total mass stated in the documentation.
-/

noncomputable section
open Filter Topology Real

namespace Verif

/-- Inward radial force times `r²` at the point `(R,z)`, from the public force methods. -/
def gaussMass (P : Pot) (R z φ t : ℝ) : ℝ :=
  -√(R ^ 2 + z ^ 2) ^ 2 * ((R * P.Rforce R z φ t + z * P.zforce R z φ t) / √(R ^ 2 + z ^ 2))

/-- What `mass` promises: mass `M` (including the amplitude) for a potential `P`. -/
structure MassOf (P : Pot) (M : ℝ → ℝ) : Prop where
  /-- it is the integral of the density over the ball -/
  enclosed : EnclosedMass (fun r => P.dens r 0 0 0) M
  /-- its derivative is the mass of the shell -/
  deriv : ∀ r, 0 < r → HasDerivAt M (4 * π * r ^ 2 * P.dens r 0 0 0) r
  /-- Gauss' theorem, in every direction -/
  gauss : ∀ R z φ t, 0 < R ^ 2 + z ^ 2 → M (√(R ^ 2 + z ^ 2)) = gaussMass P R z φ t

theorem MassOf.scale {P : Pot} {M : ℝ → ℝ} (amp : ℝ) (h : MassOf P M) :
    MassOf (P.scale amp) (fun r => amp * M r) where
  enclosed := h.enclosed.scale amp
  deriv := fun r hr => ((h.deriv r hr).const_mul amp).congr_deriv (by simp only [Pot.scale]; ring)
  gauss := fun R z φ t k => by
    rw [h.gauss R z φ t k]; simp only [gaussMass, Pot.scale]; ring

/-- Gauss' theorem from a central force of the right size on the axis `z = 0`. -/
theorem gauss_of_central {P : Pot} {M g : ℝ → ℝ}
    (hR : ∀ R z φ t, 0 < R ^ 2 + z ^ 2 → P.Rforce R z φ t = R * g (√(R ^ 2 + z ^ 2)))
    (hz : ∀ R z φ t, 0 < R ^ 2 + z ^ 2 → P.zforce R z φ t = z * g (√(R ^ 2 + z ^ 2)))
    (h0 : ∀ r, 0 < r → M r = -r ^ 2 * P.Rforce r 0 0 0) (R z φ t : ℝ) (k : 0 < R ^ 2 + z ^ 2) :
    M (√(R ^ 2 + z ^ 2)) = gaussMass P R z φ t := by
  have hp := sqrt_pos.2 k
  rw [h0 _ hp, gaussMass, hR R z φ t k, hz R z φ t k, hR _ _ _ _ (by positivity)]
  have e : √(√(R ^ 2 + z ^ 2) ^ 2 + 0 ^ 2) = √(R ^ 2 + z ^ 2) := by
    rw [zero_pow two_ne_zero, add_zero, sqrt_sq hp.le]
  rw [e]
  have e2 : R ^ 2 + z ^ 2 = √(R ^ 2 + z ^ 2) ^ 2 := (sq_sqrt k.le).symm
  generalize √(R ^ 2 + z ^ 2) = r at *
  rw [show R * (R * g r) + z * (z * g r) = (R ^ 2 + z ^ 2) * g r by ring, e2]
  field_simp

/-- Plummer: the mass method is right, and the total mass is the amplitude. -/
theorem C04_Plummer (amp b : ℝ) (hb : b ≠ 0) :
    MassOf ((Plummer.pot b).scale amp) (fun r => amp * Plummer.mass b r) ∧
      Tendsto (fun r => amp * Plummer.mass b r) atTop (𝓝 amp) := by
  refine ⟨.scale amp ⟨Plummer.enclosed hb, fun r hr => Plummer.mass_deriv hb hr, ?_⟩, ?_⟩
  · refine gauss_of_central (g := fun r => -((b ^ 2 + r ^ 2) ^ (-(3/2) : ℝ))) ?_ ?_
      (fun r hr => Plummer.mass_force hb hr)
    all_goals
      intro R z φ t k
      simp only [Plummer.pot, Pot.axi, Plummer.Rforce, Plummer.zforce, sq_sqrt k.le]
      rw [show b ^ 2 + (R ^ 2 + z ^ 2) = R ^ 2 + z ^ 2 + b ^ 2 by ring]; ring
  · simpa using (Plummer.mass_top b).const_mul amp
example : MassOf ((Plummer.pot 2).scale 3) (fun r => 3 * Plummer.mass 2 r) :=
  (C04_Plummer 3 2 (by norm_num)).1

/-- Dehnen (general inner slope): total `amp/(3-α)`. -/
theorem C04_Dehnen (amp a α : ℝ) (ha : 0 < a) (h3 : α < 3) :
    MassOf ((Dehnen.pot a α).scale amp) (fun r => amp * Dehnen.mass a α r) ∧
      Tendsto (fun r => amp * Dehnen.mass a α r) atTop (𝓝 (amp / (3 - α))) := by
  refine ⟨.scale amp ⟨Dehnen.enclosed ha h3, fun r hr => Dehnen.mass_deriv ha h3 hr, ?_⟩, ?_⟩
  · refine gauss_of_central (g := fun r => Dehnen.Rforce a α r 0 / r) ?_ ?_
      (fun r hr => Dehnen.mass_force ha h3 hr)
    all_goals
      intro R z φ t k
      have hp := sqrt_pos.2 k
      have e : √(√(R ^ 2 + z ^ 2) ^ 2 + 0 ^ 2) = √(R ^ 2 + z ^ 2) := by
        rw [zero_pow two_ne_zero, add_zero, sqrt_sq hp.le]
      simp only [Dehnen.pot, Pot.axi, Dehnen.Rforce, Dehnen.zforce, e]
      generalize √(R ^ 2 + z ^ 2) = r at *
      field_simp
  · simpa [div_eq_mul_inv] using (Dehnen.mass_top (α := α) ha).const_mul amp
example : MassOf ((Dehnen.pot 2 (3/2)).scale 3) (fun r => 3 * Dehnen.mass 2 (3/2) r) :=
  (C04_Dehnen 3 2 (3/2) (by norm_num) (by norm_num)).1

private theorem axis {r : ℝ} (hr : 0 < r) : 0 < r ^ 2 + (0 : ℝ) ^ 2 := by positivity

/-- Transfer of `MassOf` between classes that agree off the origin. -/
theorem MassOf.congr {P Q : Pot} {M : ℝ → ℝ} (h : MassOf P M)
    (hR : ∀ R z φ t, 0 < R ^ 2 + z ^ 2 → Q.Rforce R z φ t = P.Rforce R z φ t)
    (hz : ∀ R z φ t, 0 < R ^ 2 + z ^ 2 → Q.zforce R z φ t = P.zforce R z φ t)
    (hd : ∀ r, 0 < r → Q.dens r 0 0 0 = P.dens r 0 0 0) : MassOf Q M where
  enclosed := by
    intro r hr
    obtain ⟨h1, h2⟩ := h.enclosed r hr
    have e : Set.EqOn (fun x => 4 * π * x ^ 2 * P.dens x 0 0 0)
        (fun x => 4 * π * x ^ 2 * Q.dens x 0 0 0) (Set.uIoc 0 r) := by
      intro x hx
      rw [Set.uIoc_of_le hr.le] at hx
      simp only [hd x hx.1]
    refine ⟨h1.congr e, ?_⟩
    rw [← h2]
    refine (intervalIntegral.integral_congr_ae ?_).symm
    exact Filter.Eventually.of_forall fun x hx => e hx
  deriv := fun r hr => by rw [hd r hr]; exact h.deriv r hr
  gauss := fun R z φ t k => by
    rw [h.gauss R z φ t k]; simp only [gaussMass, hR R z φ t k, hz R z φ t k]

/-- DehnenCore: total `amp/3`. -/
theorem C04_DehnenCore (amp a : ℝ) (ha : 0 < a) :
    MassOf ((DehnenCore.pot a).scale amp) (fun r => amp * DehnenCore.mass a r) ∧
      Tendsto (fun r => amp * DehnenCore.mass a r) atTop (𝓝 (amp / 3)) := by
  have h := C04_Dehnen amp a 0 ha (by norm_num)
  rw [DehnenCore.mass_eq']
  refine ⟨h.1.congr ?_ ?_ ?_, by simpa using h.2⟩
  · intro R z φ t k
    have := (Dehnen.special_core ha k).2.1
    simp only [Pot.scale, DehnenCore.pot, Dehnen.pot, Pot.axi, this]
  · intro R z φ t k
    have := (Dehnen.special_core ha k).2.2.1
    simp only [Pot.scale, DehnenCore.pot, Dehnen.pot, Pot.axi, this]
  · intro r hr
    simp [Pot.scale, DehnenCore.pot, Dehnen.pot, Pot.axi, DehnenCore.dens, Dehnen.dens]
example : MassOf ((DehnenCore.pot 2).scale 3) (fun r => 3 * DehnenCore.mass 2 r) :=
  (C04_DehnenCore 3 2 (by norm_num)).1

/-- Hernquist: total `amp/2`. -/
theorem C04_Hernquist (amp a : ℝ) (ha : 0 < a) :
    MassOf ((Hernquist.pot a).scale amp) (fun r => amp * Hernquist.mass a r) ∧
      Tendsto (fun r => amp * Hernquist.mass a r) atTop (𝓝 (amp / 2)) := by
  have h := C04_Dehnen amp a 1 ha (by norm_num)
  rw [Hernquist.mass_eq']
  refine ⟨h.1.congr ?_ ?_ (fun r hr => rfl), by convert h.2 using 2; norm_num⟩
  · intro R z φ t k
    have := (Dehnen.special_hern ha k).2.1
    simp only [Pot.scale, Hernquist.pot, Dehnen.pot, Pot.axi, this]
  · intro R z φ t k
    have := (Dehnen.special_hern ha k).2.2.1
    simp only [Pot.scale, Hernquist.pot, Dehnen.pot, Pot.axi, this]
example : MassOf ((Hernquist.pot 2).scale 3) (fun r => 3 * Hernquist.mass 2 r) :=
  (C04_Hernquist 3 2 (by norm_num)).1

/-- Jaffe: total `amp`. -/
theorem C04_Jaffe (amp a : ℝ) (ha : 0 < a) :
    MassOf ((Jaffe.pot a).scale amp) (fun r => amp * Jaffe.mass a r) ∧
      Tendsto (fun r => amp * Jaffe.mass a r) atTop (𝓝 amp) := by
  have h := C04_Dehnen amp a 2 ha (by norm_num)
  rw [Jaffe.mass_eq']
  refine ⟨h.1.congr ?_ ?_ (fun r hr => rfl), by convert h.2 using 2; norm_num⟩
  · intro R z φ t k
    have := (Dehnen.special_jaffe ha k).1
    simp only [Pot.scale, Jaffe.pot, Dehnen.pot, Pot.axi, this]
  · intro R z φ t k
    have := (Dehnen.special_jaffe ha k).2.1
    simp only [Pot.scale, Jaffe.pot, Dehnen.pot, Pot.axi, this]
example : MassOf ((Jaffe.pot 2).scale 3) (fun r => 3 * Jaffe.mass 2 r) :=
  (C04_Jaffe 3 2 (by norm_num)).1

/-- NFW: the mass diverges logarithmically. -/
theorem C04_NFW (amp a : ℝ) (ha : 0 < a) :
    MassOf ((NFW.pot a).scale amp) (fun r => amp * NFW.mass a r) ∧
      Tendsto (NFW.mass a) atTop atTop := by
  refine ⟨.scale amp ⟨NFW.enclosed ha, fun r hr => NFW.mass_deriv ha hr, ?_⟩, ?_⟩
  · refine gauss_of_central (g := fun r => NFW.Rforce a r 0 / r) ?_ ?_
      (fun r hr => NFW.mass_force ha hr)
    all_goals
      intro R z φ t k
      have hp := sqrt_pos.2 k
      have e2 : R ^ 2 + z ^ 2 = √(R ^ 2 + z ^ 2) ^ 2 := (sq_sqrt k.le).symm
      simp only [NFW.pot, Pot.axi, NFW.Rforce, NFW.zforce]
      generalize √(R ^ 2 + z ^ 2) = r at *
      simp only [zero_pow two_ne_zero, add_zero, sqrt_sq hp.le, e2]
      field_simp
  · have h1 : Tendsto (fun r : ℝ => log (1 + r / a)) atTop atTop := by
      refine tendsto_log_atTop.comp ?_
      exact tendsto_atTop_add_const_left _ _ (tendsto_id.atTop_div_const ha)
    have h2 : ∀ᶠ r : ℝ in atTop, log (1 + r / a) - 1 ≤ NFW.mass a r := by
      filter_upwards [eventually_gt_atTop 0] with r hr
      unfold NFW.mass
      have : r / a / (1 + r / a) ≤ 1 := by
        rw [div_le_one (by positivity)]; linarith
      linarith
    exact tendsto_atTop_mono' _ h2 (tendsto_atTop_add_const_right _ _ h1)
example : MassOf ((NFW.pot 2).scale 3) (fun r => 3 * NFW.mass 2 r) :=
  (C04_NFW 3 2 (by norm_num)).1

/-- Kepler: `_mass` (constant 1) is Gauss' mass at every radius. -/
theorem C04_Kepler (amp R z φ t : ℝ) (h : 0 < R ^ 2 + z ^ 2) :
    amp * PowerSpherical.keplerMass (√(R ^ 2 + z ^ 2)) =
      gaussMass ((PowerSpherical.pot 3).scale amp) R z φ t := by
  have hp := sqrt_pos.2 h
  have e2 : R ^ 2 + z ^ 2 = √(R ^ 2 + z ^ 2) ^ 2 := (sq_sqrt h.le).symm
  have e3 : (√(R ^ 2 + z ^ 2) ^ 2) ^ (3 / 2 : ℝ) = √(R ^ 2 + z ^ 2) ^ 3 := by
    generalize √(R ^ 2 + z ^ 2) = r at hp
    rw [← rpow_natCast r 2, ← rpow_natCast r 3, ← rpow_mul hp.le]; norm_num
  simp only [gaussMass, PowerSpherical.keplerMass, Pot.scale, PowerSpherical.pot, Pot.axi,
    PowerSpherical.Rforce, PowerSpherical.zforce]
  rw [← sq_sqrt h.le] at e3 ⊢
  rw [sqrt_sq hp.le] at e3 ⊢
  rw [e3]
  generalize √(R ^ 2 + z ^ 2) = r at *
  rw [show R * (amp * (-R / r ^ 3)) + z * (amp * (-z / r ^ 3)) = -amp * (R ^ 2 + z ^ 2) / r ^ 3 by ring, e2]
  field_simp
example : (3 : ℝ) * PowerSpherical.keplerMass (√((3:ℝ) ^ 2 + 4 ^ 2)) =
      gaussMass ((PowerSpherical.pot 3).scale 3) 3 4 0 0 :=
  C04_Kepler 3 3 4 0 0 (by norm_num)

/-- Kuzmin disk: `_mass` integrates the surface density over the disk, and tends to `amp`. -/
theorem C04_KuzminDisk (amp a : ℝ) (ha : 0 < a) :
    (∀ R : ℝ, HasDerivAt (fun R => amp * KuzminDisk.mass a R)
        (2 * π * R * (amp * KuzminDisk.surfdens a R)) R) ∧
      amp * KuzminDisk.mass a 0 = 0 ∧
      Tendsto (fun R => amp * KuzminDisk.mass a R) atTop (𝓝 amp) := by
  refine ⟨fun R => ?_, ?_, ?_⟩
  · have hu : 0 < R ^ 2 + a ^ 2 := by positivity
    have hs := sqrt_pos.2 hu
    have hd : HasDerivAt (fun R : ℝ => amp * (1 - a / √(R ^ 2 + a ^ 2)))
        (amp * (0 - (0 * √(R ^ 2 + a ^ 2) - a * ((((2 : ℕ) : ℝ) * R ^ (2 - 1) * 1 + 0) / (2 * √(R ^ 2 + a ^ 2)))) /
          √(R ^ 2 + a ^ 2) ^ 2)) R := by
      have := hs.ne'
      have := hu.ne'
      hasderiv
    refine hd.congr_deriv ?_
    have e : (R ^ 2 + a ^ 2) ^ (-(3/2) : ℝ) = (√(R ^ 2 + a ^ 2) ^ 3)⁻¹ := by
      rw [rpow_neg hu.le]; congr 1
      generalize R ^ 2 + a ^ 2 = u at hu
      rw [sqrt_eq_rpow, ← rpow_natCast _ 3, ← rpow_mul hu.le]; norm_num
    simp only [KuzminDisk.surfdens, e]
    have := pi_ne_zero
    norm_num
    field_simp
  · simp [KuzminDisk.mass, sqrt_sq ha.le, ha.ne']
  · have h1 : Tendsto (fun R : ℝ => √(R ^ 2 + a ^ 2)) atTop atTop := by
      refine tendsto_atTop_mono (fun R => ?_) tendsto_id
      exact le_sqrt_of_sq_le (by simp only [id]; nlinarith)
    have h2 := ((tendsto_const_nhds (x := a)).div_atTop h1).const_sub 1
    simpa [KuzminDisk.mass] using h2.const_mul amp
example : HasDerivAt (fun R => 3 * KuzminDisk.mass 2 R) (2 * π * 1 * (3 * KuzminDisk.surfdens 2 1)) 1 :=
  (C04_KuzminDisk 3 2 (by norm_num)).1 1

end Verif
