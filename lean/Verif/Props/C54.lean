import Verif.Lemmas.Planar.Disks
import Mathlib.Tactic.NormNum

set_option autoImplicit false

/-!
# C54: planar analytic potentials

For each class: the force methods are minus the derivatives of the value, the second-derivative
methods its second derivatives, the value is the documented formula of the constructor's arguments,
and the C functions with the packed arguments are the public methods. `DehnenBarPotential` is in
`C54Bar.lean`. Disagreements with the documentation are the `_fails` theorems.
-/

namespace Verif
open Real

namespace C54Spec

/-- The documented growth factor, at `x = t / T` in units of the pattern period. -/
noncomputable def Grown (tform tsteady x g : ℝ) : Prop :=
  (x < tform → g = 0) ∧
  (tform ≤ x → x ≤ tform + tsteady → ∃ ξ, ξ = 2 * ((x - tform) / tsteady) - 1 ∧
    g = 3 / 16 * ξ ^ 5 - 5 / 8 * ξ ^ 3 + 15 / 16 * ξ + 1 / 2) ∧
  (tform + tsteady < x → g = 1)

end C54Spec

namespace C54aux

theorem grown {f s T : ℝ} (hs : 0 < s) (hT : 0 < T) (t : ℝ) :
    C54Spec.Grown f s (t / T) (Wrap.dehnenSmooth (f * T) (f * T + s * T) true t) := by
  have hsT : 0 < s * T := mul_pos hs hT
  refine ⟨fun h => ?_, fun h1 h2 => ⟨_, rfl, ?_⟩, fun h => ?_⟩
  · rw [div_lt_iff₀ hT] at h
    simp [Wrap.dehnenSmooth, h]
  · rw [le_div_iff₀ hT] at h1
    rw [div_le_iff₀ hT] at h2
    have e : 2 * (t - f * T) / (s * T) - 1 = 2 * ((t / T - f) / s) - 1 := by field_simp
    rcases h2.lt_or_eq with h2 | h2
    · have h3 : t < f * T + s * T := by linarith
      simp only [Wrap.dehnenSmooth, if_neg h1.not_gt, if_pos h3, if_true, add_sub_cancel_left, e]
    · have h3 : ¬ t < f * T + s * T := by linarith
      have e1 : 2 * ((t / T - f) / s) - 1 = 1 := by rw [h2]; field_simp; ring
      simp only [Wrap.dehnenSmooth, if_neg h1.not_gt, if_neg h3, if_true, e1]
      norm_num
  · rw [lt_div_iff₀ hT] at h
    have h1 : ¬ t < f * T := by nlinarith
    have h3 : ¬ t < f * T + s * T := by linarith
    simp only [Wrap.dehnenSmooth, if_neg h1, if_neg h3, if_true]

end C54aux

/-! ### Hénon-Heiles -/

/-- `HenonHeilesPotential`, everywhere. -/
theorem C54_HenonHeiles (amp R φ t : ℝ) :
    PGradAt (HenonHeiles.pot.scale amp) R φ t ∧ PHessAt (HenonHeiles.pot.scale amp) R φ t :=
  ⟨(HenonHeiles.grad R φ t).scale amp, (HenonHeiles.hess R φ t).scale amp⟩
example : PGradAt (HenonHeiles.pot.scale 2) 1 1 0 := (C54_HenonHeiles 2 1 1 0).1

/-- The value is the Hénon-Heiles polynomial `(x² + y² + 2 x² y - 2 y³/3) / 2` in Cartesian
coordinates. -/
theorem C54_HenonHeiles_value (amp R φ t : ℝ) :
    (HenonHeiles.pot.scale amp).val R φ t = amp * (1 / 2 * ((R * cos φ) ^ 2 + (R * sin φ) ^ 2
      + 2 * (R * cos φ) ^ 2 * (R * sin φ) - 2 / 3 * (R * sin φ) ^ 3)) := by
  dsimp only [PPot.scale, HenonHeiles.pot, HenonHeiles.evaluate]
  rw [sin_three_mul]
  have h := cos_sq' φ
  simp only [mul_pow, h]
  ring
example : (HenonHeiles.pot.scale 2).val 1 0 0 = 2 * (1 / 2 * ((1 * cos 0) ^ 2 + (1 * sin 0) ^ 2
      + 2 * (1 * cos 0) ^ 2 * (1 * sin 0) - 2 / 3 * (1 * sin 0) ^ 3)) := C54_HenonHeiles_value 2 1 0 0

/-- The C functions of `HenonHeilesPotential` are the public methods. -/
theorem C54_HenonHeiles_C (amp R φ t : ℝ) :
    HenonHeiles.cRforce amp R φ = (HenonHeiles.pot.scale amp).Rforce R φ t ∧
    HenonHeiles.cphitorque amp R φ = (HenonHeiles.pot.scale amp).phitorque R φ t ∧
    HenonHeiles.cR2deriv amp R φ = (HenonHeiles.pot.scale amp).R2deriv R φ t ∧
    HenonHeiles.cphi2deriv amp R φ = (HenonHeiles.pot.scale amp).phi2deriv R φ t ∧
    HenonHeiles.cRphideriv amp R φ = (HenonHeiles.pot.scale amp).Rphideriv R φ t := by
  simp only [HenonHeiles.cRforce, HenonHeiles.cphitorque, HenonHeiles.cR2deriv,
    HenonHeiles.cphi2deriv, HenonHeiles.cRphideriv, PPot.scale, HenonHeiles.pot, HenonHeiles.Rforce,
    HenonHeiles.phitorque, HenonHeiles.R2deriv, HenonHeiles.phi2deriv, HenonHeiles.Rphideriv]
  refine ⟨?_, ?_, ?_, ?_, ?_⟩ <;> first | trivial | ring
example : HenonHeiles.cRforce 2 1 1 = (HenonHeiles.pot.scale 2).Rforce 1 1 0 :=
  (C54_HenonHeiles_C 2 1 1 0).1

/-! ### Elliptical disk -/

/-- `EllipticalDiskPotential`, at positive radii and at every time (before, during and after
growth). -/
theorem C54_EllipticalDisk (k : Elliptical.Par) (R φ t : ℝ) (hR : 0 < R) :
    PGradAt (Elliptical.pot k) R φ t ∧ PHessAt (Elliptical.pot k) R φ t :=
  ⟨Elliptical.grad k φ t hR, Elliptical.hess k φ t hR⟩
example : PGradAt (Elliptical.pot ⟨1, 2, 3, 4, some (0, 1)⟩) 1 1 (1 / 2) :=
  (C54_EllipticalDisk _ 1 1 _ one_pos).1

/-- The value is the documented formula of the constructor's arguments. -/
theorem C54_EllipticalDisk_value (amp phib p twophio r1 R φ t : ℝ) (h1 : 0 < r1) (hR : 0 < R) :
    ∃ k, Elliptical.init amp phib p twophio r1 none none none = some k ∧
      (Elliptical.pot k).val R φ t = amp * (twophio / 2) * (R / r1) ^ p * cos (2 * (φ - phib)) := by
  refine ⟨_, rfl, ?_⟩
  simp only [Elliptical.pot, PPot.scale, Elliptical.evaluate, growth]
  rw [div_rpow hR.le h1.le]
  ring
example : ∃ k, Elliptical.init 1 2 3 4 5 none none none = some k ∧
      (Elliptical.pot k).val 1 0 0 = 1 * (4 / 2) * (1 / 5 : ℝ) ^ (3 : ℝ) * cos (2 * (0 - 2)) :=
  C54_EllipticalDisk_value 1 2 3 4 5 1 0 0 (by norm_num) one_pos

/-- Strength and orientation given as `cp, sp` are the documented `2φ₀ cos 2φ_b` and
`2φ₀ sin 2φ_b`, for every pair. -/
theorem C54_EllipticalDisk_cpsp (amp phib p twophio r1 cp sp R φ t : ℝ) (h1 : 0 < r1) (hR : 0 < R) :
    ∃ k, Elliptical.init amp phib p twophio r1 none none (some (cp, sp)) = some k ∧
      k.twophio * cos (2 * k.phib) = cp ∧ k.twophio * sin (2 * k.phib) = sp ∧
      (Elliptical.pot k).val R φ t
        = amp * (R / r1) ^ p / 2 * (cp * cos (2 * φ) + sp * sin (2 * φ)) := by
  have hn : √(cp * cp + sp * sp) = ‖(⟨cp, sp⟩ : ℂ)‖ := by
    rw [Complex.norm_def, Complex.normSq_apply]
  have hc : √(cp * cp + sp * sp) * cos (Coords.atan2 sp cp) = cp := by
    rw [hn]; exact Complex.norm_mul_cos_arg (⟨cp, sp⟩ : ℂ)
  have hs : √(cp * cp + sp * sp) * sin (Coords.atan2 sp cp) = sp := by
    rw [hn]; exact Complex.norm_mul_sin_arg (⟨cp, sp⟩ : ℂ)
  have e : 2 * (Coords.atan2 sp cp / 2) = Coords.atan2 sp cp := by ring
  refine ⟨_, rfl, ?_, ?_, ?_⟩
  · dsimp only; rw [e, hc]
  · dsimp only; rw [e, hs]
  · simp only [Elliptical.pot, PPot.scale, Elliptical.evaluate, growth]
    rw [mul_sub, e, cos_sub, div_rpow hR.le h1.le]
    linear_combination amp / r1 ^ p * (R ^ p / 2) * (cos (2 * φ) * hc + sin (2 * φ) * hs)
example : ∃ k, Elliptical.init 1 2 3 4 5 none none (some (-1, 0)) = some k ∧
      k.twophio * cos (2 * k.phib) = -1 ∧ k.twophio * sin (2 * k.phib) = 0 ∧
      (Elliptical.pot k).val 1 0 0
        = 1 * (1 / 5 : ℝ) ^ (3 : ℝ) / 2 * (-1 * cos (2 * 0) + 0 * sin (2 * 0)) :=
  C54_EllipticalDisk_cpsp 1 2 3 4 5 (-1) 0 1 0 0 (by norm_num) one_pos

/-- Growth: with `tform` and `tsteady` the value is the grown factor times the steady one; a
`tsteady` without `tform` raises. -/
theorem C54_EllipticalDisk_growth (amp phib p twophio r1 f s R φ t : ℝ) (hs : 0 < s) :
    ∃ k₀ k g, Elliptical.init amp phib p twophio r1 none none none = some k₀ ∧
      Elliptical.init amp phib p twophio r1 (some f) (some s) none = some k ∧
      C54Spec.Grown f s t g ∧
      (Elliptical.pot k).val R φ t = g * (Elliptical.pot k₀).val R φ t ∧
      Elliptical.init amp phib p twophio r1 none (some s) none = none := by
  refine ⟨_, _, Wrap.dehnenSmooth f (f + s) true t, rfl, rfl, ?_, ?_, rfl⟩
  · have := C54aux.grown (f := f) hs one_pos t
    simpa using this
  · simp only [Elliptical.pot, PPot.scale, Elliptical.evaluate, growth]
    ring
example : ∃ k₀ k g, Elliptical.init 1 2 3 4 5 none none none = some k₀ ∧
      Elliptical.init 1 2 3 4 5 (some 0) (some 1) none = some k ∧
      C54Spec.Grown 0 1 (1 / 2) g ∧
      (Elliptical.pot k).val 1 1 (1 / 2) = g * (Elliptical.pot k₀).val 1 1 (1 / 2) ∧
      Elliptical.init 1 2 3 4 5 none (some 1) none = none :=
  C54_EllipticalDisk_growth 1 2 3 4 5 0 1 1 1 (1 / 2) one_pos

/-- The C functions of `EllipticalDiskPotential` are the public methods. -/
theorem C54_EllipticalDisk_C (k : Elliptical.Par) (R φ t : ℝ) :
    Elliptical.cRforce k R φ t = (Elliptical.pot k).Rforce R φ t ∧
    Elliptical.cphitorque k R φ t = (Elliptical.pot k).phitorque R φ t ∧
    Elliptical.cR2deriv k R φ t = (Elliptical.pot k).R2deriv R φ t ∧
    Elliptical.cphi2deriv k R φ t = (Elliptical.pot k).phi2deriv R φ t ∧
    Elliptical.cRphideriv k R φ t = (Elliptical.pot k).Rphideriv R φ t := by
  simp only [Elliptical.cRforce, Elliptical.cphitorque, Elliptical.cR2deriv, Elliptical.cphi2deriv,
    Elliptical.cRphideriv, Elliptical.pot, PPot.scale, Elliptical.Rforce, Elliptical.phitorque,
    Elliptical.R2deriv, Elliptical.phi2deriv, Elliptical.Rphideriv]
  refine ⟨?_, ?_, ?_, ?_, ?_⟩ <;> ring
example : Elliptical.cRforce ⟨1, 2, 3, 4, none⟩ 1 1 0
    = (Elliptical.pot ⟨1, 2, 3, 4, none⟩).Rforce 1 1 0 := (C54_EllipticalDisk_C _ 1 1 0).1

/-! ### Logarithmic spirals -/

/-- `SteadyLogSpiralPotential` and `TransientLogSpiralPotential`, for every non-zero `alpha` and
radius and at every time. -/
theorem C54_LogSpiral (k : Spiral.Par) (A t₀ σ : ℝ) (times : Option (ℝ × ℝ)) (R φ t : ℝ)
    (hα : k.alpha ≠ 0) (hR : R ≠ 0) :
    PGradAt (Spiral.pot k (Spiral.steadyA A times)) R φ t ∧
    PHessAt (Spiral.pot k (Spiral.steadyA A times)) R φ t ∧
    PGradAt (Spiral.pot k (Spiral.transientA A t₀ σ)) R φ t ∧
    PHessAt (Spiral.pot k (Spiral.transientA A t₀ σ)) R φ t :=
  ⟨Spiral.grad k _ φ t hα hR, Spiral.hess k _ φ t hα hR, Spiral.grad k _ φ t hα hR,
    Spiral.hess k _ φ t hα hR⟩
example : PGradAt (Spiral.pot ⟨1, -7, 2, 1, 0⟩ (Spiral.steadyA 1 none)) 1 1 0 :=
  (C54_LogSpiral ⟨1, -7, 2, 1, 0⟩ 1 0 1 none 1 1 0 (by norm_num) one_ne_zero).1

/-- A pitch angle given to the constructor is the pitch angle of the arms: the pattern is constant
along the curve `d ln R / dφ = tan p` (and rotates rigidly with the pattern speed: the value at
`(φ + Ω_s Δt, t + Δt)` differs only by the amplitude). -/
theorem C54_LogSpiral_pitch (amp a m Ω γ p R φ δ t : ℝ) (A : ℝ → ℝ) (hp : tan p ≠ 0) (hR : 0 < R) :
    (Spiral.pot ⟨amp, Spiral.alphaOf a m (some p), m, Ω, γ⟩ A).val (R * exp (δ * tan p)) (φ + δ) t
      = (Spiral.pot ⟨amp, Spiral.alphaOf a m (some p), m, Ω, γ⟩ A).val R φ t ∧
    ∀ dt, A (t + dt) = A t →
      (Spiral.pot ⟨amp, Spiral.alphaOf a m (some p), m, Ω, γ⟩ A).val R (φ + Ω * dt) (t + dt)
      = (Spiral.pot ⟨amp, Spiral.alphaOf a m (some p), m, Ω, γ⟩ A).val R φ t := by
  refine ⟨?_, fun dt h => ?_⟩
  · simp only [Spiral.pot, PPot.scale, Spiral.evaluate, Spiral.chi, Spiral.alphaOf]
    rw [log_mul hR.ne' (exp_pos _).ne', log_exp]
    congr 3
    field_simp
    ring
  · simp only [Spiral.pot, PPot.scale, Spiral.evaluate, Spiral.chi, Spiral.alphaOf]
    rw [h]
    congr 3
    ring
example : (Spiral.pot ⟨1, Spiral.alphaOf 0 2 (some (π / 4)), 2, 1, 0⟩ (fun _ => 1)).val
      (1 * exp (3 * tan (π / 4))) (0 + 3) 0
    = (Spiral.pot ⟨1, Spiral.alphaOf 0 2 (some (π / 4)), 2, 1, 0⟩ (fun _ => 1)).val 1 0 0 :=
  (C54_LogSpiral_pitch 1 0 2 1 0 (π / 4) 1 0 3 0 _ (by rw [tan_pi_div_four]; norm_num) one_pos).1

/-- Growth of a steady spiral with positive pattern speed is as documented, in units of the period
`2 π / Ω_s`; without rotation the times are plain times. The default growth interval is two
periods. -/
theorem C54_SteadyLogSpiral_growth (Ω f s t A : ℝ) (hs : 0 < s) :
    (0 < Ω → ∃ T, Spiral.times Ω (some f) (some s) = some (some T) ∧
      ∃ g, C54Spec.Grown f s (t / (2 * π / Ω)) g ∧ Spiral.steadyA A (some T) t = g * A) ∧
    (∃ T, Spiral.times 0 (some f) (some s) = some (some T) ∧
      ∃ g, C54Spec.Grown f s t g ∧ Spiral.steadyA A (some T) t = g * A) ∧
    Spiral.times Ω (some f) none = Spiral.times Ω (some f) (some 2) ∧
    Spiral.times Ω none none = some none ∧ Spiral.steadyA A none t = A ∧
    Spiral.times Ω none (some s) = none := by
  refine ⟨fun hΩ => ?_, ?_, rfl, rfl, one_mul A, rfl⟩
  · refine ⟨_, rfl, Wrap.dehnenSmooth _ _ true t, ?_, rfl⟩
    rw [if_pos hΩ.ne']
    exact C54aux.grown hs (by positivity) t
  · refine ⟨_, rfl, Wrap.dehnenSmooth _ _ true t, ?_, rfl⟩
    simpa using C54aux.grown (f := f) hs one_pos t
example : ∃ T, Spiral.times 1 (some 0) (some 2) = some (some T) ∧
      ∃ g, C54Spec.Grown 0 2 (1 / (2 * π / 1)) g ∧ Spiral.steadyA 3 (some T) 1 = g * 3 :=
  (C54_SteadyLogSpiral_growth 1 0 2 1 3 two_pos).1 one_pos

/-- For a retrograde pattern the period `2 π / Ω_s` is negative, the two times come out with the
opposite sign and order, and the growth is not the documented function of `t / T_s`: with
`tform = -4`, `tsteady = 2` the documented amplitude at `t = 0` is the full one, the code's is 0. -/
theorem C54_SteadyLogSpiral_retrograde_fails (Ω A : ℝ) (hΩ : Ω < 0) (hA : A ≠ 0) :
    ∃ T, Spiral.times Ω (some (-4)) (some 2) = some (some T) ∧
      Spiral.steadyA A (some T) 0 = 0 ∧
      ∀ g, C54Spec.Grown (-4) 2 (0 / (2 * π / Ω)) g → Spiral.steadyA A (some T) 0 ≠ g * A := by
  have hT : 2 * π / Ω < 0 := div_neg_of_pos_of_neg (by positivity) hΩ
  have h0 : ∀ T', Wrap.dehnenSmooth (-4 * (2 * π / Ω)) T' true 0 = 0 := fun T' => by
    have : 0 < -4 * (2 * π / Ω) := by linarith
    simp only [Wrap.dehnenSmooth, if_pos this, if_true]
  refine ⟨_, rfl, ?_, fun g hg => ?_⟩
  · dsimp only [Spiral.steadyA, growth]
    rw [if_pos hΩ.ne, h0, zero_mul]
  · rw [hg.2.2 (by norm_num)]
    dsimp only [Spiral.steadyA, growth]
    rw [if_pos hΩ.ne, h0, zero_mul, one_mul]
    exact hA.symm
example : ∃ T, Spiral.times (-1) (some (-4)) (some 2) = some (some T) ∧
      Spiral.steadyA 1 (some T) 0 = 0 ∧ ∀ g, C54Spec.Grown (-4) 2 (0 / (2 * π / (-1))) g →
        Spiral.steadyA 1 (some T) 0 ≠ g * 1 :=
  C54_SteadyLogSpiral_retrograde_fails (-1) 1 (by norm_num) one_ne_zero

/-- The C functions of the spirals are the public methods. -/
theorem C54_LogSpiral_C (k : Spiral.Par) (A t₀ σ : ℝ) (times : Option (ℝ × ℝ)) (R φ t : ℝ) :
    (Spiral.cSteadyRforce k A times R φ t
        = (Spiral.pot k (Spiral.steadyA A times)).Rforce R φ t ∧
      Spiral.cSteadyphitorque k A times R φ t
        = (Spiral.pot k (Spiral.steadyA A times)).phitorque R φ t ∧
      Spiral.cSteadyR2deriv k A times R φ t
        = (Spiral.pot k (Spiral.steadyA A times)).R2deriv R φ t ∧
      Spiral.cSteadyphi2deriv k A times R φ t
        = (Spiral.pot k (Spiral.steadyA A times)).phi2deriv R φ t ∧
      Spiral.cSteadyRphideriv k A times R φ t
        = (Spiral.pot k (Spiral.steadyA A times)).Rphideriv R φ t) ∧
    (Spiral.cTransRforce k A t₀ σ R φ t
        = (Spiral.pot k (Spiral.transientA A t₀ σ)).Rforce R φ t ∧
      Spiral.cTransphitorque k A t₀ σ R φ t
        = (Spiral.pot k (Spiral.transientA A t₀ σ)).phitorque R φ t ∧
      Spiral.cTransR2deriv k A t₀ σ R φ t
        = (Spiral.pot k (Spiral.transientA A t₀ σ)).R2deriv R φ t ∧
      Spiral.cTransphi2deriv k A t₀ σ R φ t
        = (Spiral.pot k (Spiral.transientA A t₀ σ)).phi2deriv R φ t ∧
      Spiral.cTransRphideriv k A t₀ σ R φ t
        = (Spiral.pot k (Spiral.transientA A t₀ σ)).Rphideriv R φ t) := by
  simp only [Spiral.cSteadyRforce, Spiral.cSteadyphitorque, Spiral.cSteadyR2deriv,
    Spiral.cSteadyphi2deriv, Spiral.cSteadyRphideriv, Spiral.cTransRforce, Spiral.cTransphitorque,
    Spiral.cTransR2deriv, Spiral.cTransphi2deriv, Spiral.cTransRphideriv, Spiral.pot, PPot.scale,
    Spiral.Rforce, Spiral.phitorque, Spiral.R2deriv, Spiral.phi2deriv, Spiral.Rphideriv, Spiral.chi,
    Spiral.steadyA, Spiral.transientA]
  refine ⟨⟨?_, ?_, ?_, ?_, ?_⟩, ?_, ?_, ?_, ?_, ?_⟩ <;> ring
example : Spiral.cSteadyRforce ⟨1, -7, 2, 1, 0⟩ 1 none 1 1 0
    = (Spiral.pot ⟨1, -7, 2, 1, 0⟩ (Spiral.steadyA 1 none)).Rforce 1 1 0 :=
  (C54_LogSpiral_C ⟨1, -7, 2, 1, 0⟩ 1 0 1 none 1 1 0).1.1

/-! ### cos(m φ) disk -/

/-- `CosmphiDiskPotential` built by its constructor with `m ≠ 0`: the forces are minus the
derivatives of the value at every positive radius other than the break radius, and also there when
`r1 = 1`. -/
theorem C54_Cosmphi (amp phib p phio r1 : ℝ) (m : ℤ) (rb : Option ℝ) (cpsp : Option (ℝ × ℝ))
    (R φ t : ℝ) (hm : m ≠ 0) (hR : 0 < R) :
    ((Cosmphi.init amp phib p phio m r1 rb cpsp).rb ≠ R →
      PGradAt (Cosmphi.pot (Cosmphi.init amp phib p phio m r1 rb cpsp)) R φ t) ∧
    PGradAt (Cosmphi.pot (Cosmphi.init amp phib p phio m 1 rb cpsp)) R φ t :=
  ⟨fun h => Cosmphi.grad _ (Cosmphi.init_wf _ _ _ _ hm _ _ _) φ t hR h.symm,
    Cosmphi.grad_break _ (Cosmphi.init_wf _ _ _ _ hm _ _ _) (one_rpow p) φ t hR⟩
example : PGradAt (Cosmphi.pot (Cosmphi.init 1 0 2 1 4 1 (some 1) none)) 1 1 0 :=
  (C54_Cosmphi 1 0 2 1 1 4 (some 1) none 1 1 0 (by norm_num) one_pos).2

/-- Second derivatives of `CosmphiDiskPotential`: exact outside the break radius for every `m`, and
inside it for `m = 1`. What is missing is the inside for other `m`, where the mixed derivative is
wrong (next theorem). -/
theorem C54_Cosmphi_hess_partial (amp phib p phio r1 : ℝ) (m : ℤ) (rb : Option ℝ)
    (cpsp : Option (ℝ × ℝ)) (R φ t : ℝ) (hm : m ≠ 0) (hR : 0 < R)
    (h : (Cosmphi.init amp phib p phio m r1 rb cpsp).rb < R ∨
      R < (Cosmphi.init amp phib p phio m r1 rb cpsp).rb ∧ m = 1) :
    PHessAt (Cosmphi.pot (Cosmphi.init amp phib p phio m r1 rb cpsp)) R φ t :=
  Cosmphi.hess _ (Cosmphi.init_wf _ _ _ _ hm _ _ _) φ t hR h
example : PHessAt (Cosmphi.pot (Cosmphi.init 1 0 2 1 4 1 (some 1) none)) 2 1 0 :=
  C54_Cosmphi_hess_partial 1 0 2 1 1 4 (some 1) none 2 1 0 (by norm_num) two_pos
    (Or.inl (by simp [Cosmphi.init]))

/-- Inside the break radius: the pure second derivatives are exact for every `m`, the true mixed
derivative is `m` times what `Rphideriv` returns. -/
theorem C54_Cosmphi_inside (amp phib p phio r1 rb : ℝ) (m : ℤ) (cpsp : Option (ℝ × ℝ)) (R φ t : ℝ)
    (hm : m ≠ 0) (hR : 0 < R) (hb : R < rb) :
    let P := Cosmphi.pot (Cosmphi.init amp phib p phio m r1 (some rb) cpsp)
    HasDerivAt (fun x => deriv (fun y => P.val y φ t) x) (P.R2deriv R φ t) R ∧
    HasDerivAt (fun x => deriv (fun y => P.val R y t) x) (P.phi2deriv R φ t) φ ∧
    HasDerivAt (fun x => deriv (fun y => P.val y x t) R) (m * P.Rphideriv R φ t) φ :=
  Cosmphi.hess_inside _ (Cosmphi.init_wf _ _ _ _ hm _ _ _) φ t hR hb
example : let P := Cosmphi.pot (Cosmphi.init 1 0 2 1 4 1 (some 3) none)
    HasDerivAt (fun x => deriv (fun y => P.val y x 0) 1) ((4 : ℤ) * P.Rphideriv 1 1 0) 1 :=
  (C54_Cosmphi_inside 1 0 2 1 1 3 4 none 1 1 0 (by norm_num) one_pos (by norm_num)).2.2

/-- So `Rphideriv` is wrong inside the break radius whenever `m ≠ 1` and it is not zero; for
instance with all parameters one but `m = 2`, `rb = 2`, at `R = 1`, `φ = π/4`. -/
theorem C54_Cosmphi_Rphideriv_fails :
    (∀ (amp phib p phio r1 rb : ℝ) (m : ℤ) (cpsp : Option (ℝ × ℝ)) (R φ t : ℝ), m ≠ 0 → m ≠ 1 →
      0 < R → R < rb →
      (Cosmphi.pot (Cosmphi.init amp phib p phio m r1 (some rb) cpsp)).Rphideriv R φ t ≠ 0 →
      ¬ PHessAt (Cosmphi.pot (Cosmphi.init amp phib p phio m r1 (some rb) cpsp)) R φ t) ∧
    ¬ PHessAt (Cosmphi.pot (Cosmphi.init 1 0 1 1 2 1 (some 2) none)) 1 (π / 4) 0 := by
  have key : ∀ (amp phib p phio r1 rb : ℝ) (m : ℤ) (cpsp : Option (ℝ × ℝ)) (R φ t : ℝ), m ≠ 0 →
      m ≠ 1 → 0 < R → R < rb →
      (Cosmphi.pot (Cosmphi.init amp phib p phio m r1 (some rb) cpsp)).Rphideriv R φ t ≠ 0 →
      ¬ PHessAt (Cosmphi.pot (Cosmphi.init amp phib p phio m r1 (some rb) cpsp)) R φ t := by
    intro amp phib p phio r1 rb m cpsp R φ t hm hm1 hR hb h0 hh
    have := hh.Rp.unique (C54_Cosmphi_inside amp phib p phio r1 rb m cpsp R φ t hm hR hb).2.2
    have h1 : ((m : ℝ) - 1)
        * (Cosmphi.pot (Cosmphi.init amp phib p phio m r1 (some rb) cpsp)).Rphideriv R φ t = 0 := by
      rw [sub_mul, one_mul, ← this, sub_self]
    rcases mul_eq_zero.1 h1 with h | h
    · exact hm1 (by exact_mod_cast sub_eq_zero.1 h)
    · exact h0 h
  refine ⟨key, key _ _ _ _ _ _ _ _ _ _ _ (by norm_num) (by norm_num) one_pos (by norm_num) ?_⟩
  dsimp only [Cosmphi.pot, PPot.scale, Cosmphi.Rphideriv, Cosmphi.init]
  rw [if_pos (by norm_num : (1 : ℝ) < 2), show ((2 : ℤ) : ℝ) * (π / 4) - (2 : ℤ) * 0 = π / 2 by
    push_cast; ring, sin_pi_div_two]
  norm_num

/-- The value is the documented formula: outside the break radius for every normalisation radius
`r1`, inside it when `r1 = 1`. -/
theorem C54_Cosmphi_value (amp phib p phio r1 : ℝ) (m : ℤ) (rb : Option ℝ) (R φ t : ℝ) (hm : m ≠ 0)
    (hR : 0 < R) (h1 : 0 < r1) :
    ((∀ r, rb = some r → r ≤ R) →
      (Cosmphi.pot (Cosmphi.init amp phib p phio m r1 rb none)).val R φ t
        = amp * phio * cos (m * (φ - phib)) * (R / r1) ^ p) ∧
    (∀ r, rb = some r → R ≤ r →
      (Cosmphi.pot (Cosmphi.init amp phib p phio m 1 rb none)).val R φ t
        = amp * phio * cos (m * (φ - phib)) * ((2 - (r / R) ^ p) * (r / 1) ^ p)) := by
  have hm' : (m : ℝ) ≠ 0 := Int.cast_ne_zero.2 hm
  refine ⟨fun h => ?_, fun r h hr => ?_⟩
  · rw [div_rpow hR.le h1.le]
    have hlt : ¬ R < (Cosmphi.init amp phib p phio m r1 rb none).rb := by
      rcases rb with _ | r
      · exact hR.not_gt
      · exact (h r rfl).not_gt
    have hp := rpow_pos_of_pos h1 p
    dsimp only [Cosmphi.pot, PPot.scale, Cosmphi.evaluate]
    rw [if_neg hlt]
    dsimp only [Cosmphi.init]
    rw [← mul_sub]
    field_simp
  · subst h
    have h0 : 0 < r := hR.trans_le hr
    have hp := rpow_pos_of_pos hR p
    rw [div_rpow h0.le hR.le, div_one]
    dsimp only [Cosmphi.pot, PPot.scale, Cosmphi.evaluate, Cosmphi.init]
    rcases hr.lt_or_eq with hr | hr
    · rw [if_pos hr, ← mul_sub, one_rpow]
      field_simp
      try ring
    · subst hr
      rw [if_neg (lt_irrefl R), ← mul_sub, one_rpow]
      field_simp
      ring
example : (Cosmphi.pot (Cosmphi.init 1 0 2 1 4 1 (some 3) none)).val 1 0 0
    = 1 * 1 * cos ((4 : ℤ) * (0 - 0)) * ((2 - (3 / 1 : ℝ) ^ (2 : ℝ)) * (3 / 1 : ℝ) ^ (2 : ℝ)) :=
  (C54_Cosmphi_value 1 0 2 1 1 4 (some 3) 1 0 0 (by norm_num) one_pos one_pos).2 3 rfl (by norm_num)

/-- With a normalisation radius whose power is not one and a break radius, the potential is not
continuous at the break radius (it is documented to be), at any azimuth where it does not vanish. -/
theorem C54_Cosmphi_r1_fails (amp phib p phio r1 rb φ t : ℝ) (m : ℤ) (hm : m ≠ 0) (h1 : 0 < r1)
    (hb : 0 < rb) (hr1 : r1 ^ p ≠ 1) (ha : amp * phio * cos (m * (φ - phib)) ≠ 0) :
    ¬ ContinuousAt
      (fun R => (Cosmphi.pot (Cosmphi.init amp phib p phio m r1 (some rb) none)).val R φ t) rb := by
  intro hc
  have hm' : (m : ℝ) ≠ 0 := Int.cast_ne_zero.2 hm
  have hbp := rpow_pos_of_pos hb p
  have h1p := rpow_pos_of_pos h1 p
  have hl := hc.tendsto.mono_left (nhdsWithin_le_nhds (s := Set.Iio rb))
  have hg : ContinuousAt (fun R : ℝ => amp / r1 ^ p * (phio * m / m * cos (m * φ - m * phib) * rb ^ p
      * (2 * r1 ^ p - rb ^ p / R ^ p))) rb := by
    refine continuousAt_const.mul (continuousAt_const.mul (continuousAt_const.sub
      (continuousAt_const.div ?_ hbp.ne')))
    exact continuousAt_rpow_const _ _ (Or.inl hb.ne')
  have hg' := hg.tendsto.mono_left (nhdsWithin_le_nhds (s := Set.Iio rb))
  have he := hl.congr' (f₂ := fun R : ℝ => amp / r1 ^ p * (phio * m / m * cos (m * φ - m * phib)
      * rb ^ p * (2 * r1 ^ p - rb ^ p / R ^ p))) (by
    filter_upwards [self_mem_nhdsWithin] with R hR
    dsimp only [Cosmphi.pot, PPot.scale, Cosmphi.evaluate, Cosmphi.init]
    rw [if_pos (Set.mem_Iio.1 hR)])
  have := tendsto_nhds_unique he hg'
  dsimp only [Cosmphi.pot, PPot.scale, Cosmphi.evaluate, Cosmphi.init] at this
  rw [if_neg (lt_irrefl rb), ← mul_sub, div_self hbp.ne'] at this
  have h2 : amp * phio * cos (m * (φ - phib)) * (1 - r1 ^ p) = 0 := by
    field_simp at this
    generalize hC : amp * phio * cos (m * (φ - phib)) = C at *
    linear_combination this / 2
  rcases mul_eq_zero.1 h2 with h | h
  · exact ha h
  · exact hr1 (by linarith)
example : ¬ ContinuousAt
    (fun R => (Cosmphi.pot (Cosmphi.init 1 0 1 1 4 2 (some 1) none)).val R 0 0) 1 :=
  C54_Cosmphi_r1_fails 1 0 1 1 2 1 0 0 4 (by norm_num) two_pos one_pos (by norm_num) (by norm_num)

namespace C54aux

theorem hyp_cos_arctan {c s : ℝ} (hc : 0 < c) :
    √(c * c + s * s) * cos (arctan (s / c)) = c ∧ √(c * c + s * s) * sin (arctan (s / c)) = s := by
  have h : √(c * c + s * s) = c * √(1 + (s / c) ^ 2) := by
    rw [show c * c + s * s = c ^ 2 * (1 + (s / c) ^ 2) by field_simp, sqrt_mul (sq_nonneg c),
      sqrt_sq hc.le]
  have hp : 0 < √(1 + (s / c) ^ 2) := sqrt_pos.2 (by positivity)
  rw [h, cos_arctan, sin_arctan]
  constructor <;> field_simp

theorem hyp_neg {c s : ℝ} (hc : c < 0) :
    √(c * c + s * s) * cos (arctan (s / c)) = -c ∧
    √(c * c + s * s) * sin (arctan (s / c)) = -s := by
  have := hyp_cos_arctan (c := -c) (s := -s) (neg_pos.2 hc)
  rwa [neg_mul_neg, neg_mul_neg, neg_div_neg_eq] at this

end C54aux

/-- Strength and orientation given as `cp, sp` are the documented `m φ₀ cos(m φ_b)`,
`m φ₀ sin(m φ_b)` when `cp` is positive, and for `m = 1` also when it is negative. -/
theorem C54_Cosmphi_cpsp_partial (amp phib p phio r1 cp sp R φ t : ℝ) (m : ℤ) (hm : m ≠ 0)
    (hR : 0 < R) (h1 : 0 < r1) (h : 0 < cp ∨ m = 1 ∧ cp < 0) :
    let k := Cosmphi.init amp phib p phio m r1 none (some (cp, sp))
    k.mphio * cos (m * k.phib) = cp ∧ k.mphio * sin (m * k.phib) = sp ∧
    (Cosmphi.pot k).val R φ t = amp * (R / r1) ^ p / m * (cp * cos (m * φ) + sp * sin (m * φ)) := by
  intro k
  have hm' : (m : ℝ) ≠ 0 := Int.cast_ne_zero.2 hm
  have hcs : k.mphio * cos (m * k.phib) = cp ∧ k.mphio * sin (m * k.phib) = sp := by
    rcases h with h | ⟨rfl, h⟩
    · dsimp only [k, Cosmphi.init]
      rw [if_neg (fun hh => hh.2.not_gt h), mul_div_cancel₀ _ hm']
      exact C54aux.hyp_cos_arctan h
    · dsimp only [k, Cosmphi.init]
      rw [if_pos ⟨by norm_num, h⟩, Int.cast_one, div_one, one_mul, add_comm π, cos_add_pi,
        sin_add_pi]
      have := C54aux.hyp_neg (s := sp) h
      exact ⟨by linarith [this.1], by linarith [this.2]⟩
  refine ⟨hcs.1, hcs.2, ?_⟩
  rw [div_rpow hR.le h1.le]
  have e : (Cosmphi.pot k).val R φ t
      = amp / r1 ^ p * (k.mphio / m * R ^ p * cos (m * φ - m * k.phib)) := by
    dsimp only [Cosmphi.pot, PPot.scale, Cosmphi.evaluate]
    rw [if_neg (show ¬ R < k.rb from hR.not_gt)]
    rfl
  rw [e, cos_sub]
  linear_combination amp / r1 ^ p * R ^ p / m * (cos (m * φ) * hcs.1 + sin (m * φ) * hcs.2)
example : let k := Cosmphi.init 1 0 2 1 1 3 none (some (-1, 2))
    k.mphio * cos ((1 : ℤ) * k.phib) = -1 ∧ k.mphio * sin ((1 : ℤ) * k.phib) = 2 ∧
    (Cosmphi.pot k).val 1 0 0 = 1 * (1 / 3 : ℝ) ^ (2 : ℝ) / (1 : ℤ)
      * (-1 * cos ((1 : ℤ) * 0) + 2 * sin ((1 : ℤ) * 0)) :=
  C54_Cosmphi_cpsp_partial 1 0 2 1 3 (-1) 2 1 0 0 1 (by norm_num) one_pos (by norm_num)
    (Or.inr ⟨rfl, by norm_num⟩)

/-- For `m ≥ 2` a negative `cp` gives the potential with the opposite sign. -/
theorem C54_Cosmphi_cpsp_fails (amp phib p phio r1 cp sp : ℝ) (m : ℤ) (hm : 2 ≤ m) (hc : cp < 0) :
    let k := Cosmphi.init amp phib p phio m r1 none (some (cp, sp))
    k.mphio * cos (m * k.phib) = -cp ∧ k.mphio * sin (m * k.phib) = -sp ∧
    k.mphio * cos (m * k.phib) ≠ cp := by
  intro k
  have hm' : (m : ℝ) ≠ 0 := Int.cast_ne_zero.2 (by omega)
  have h : k.mphio * cos (m * k.phib) = -cp ∧ k.mphio * sin (m * k.phib) = -sp := by
    dsimp only [k, Cosmphi.init]
    rw [if_neg (fun hh => by omega), mul_div_cancel₀ _ hm']
    exact C54aux.hyp_neg hc
  exact ⟨h.1, h.2, by rw [h.1]; linarith⟩
example : let k := Cosmphi.init 1 0 2 1 2 3 none (some (-1, 2))
    k.mphio * cos ((2 : ℤ) * k.phib) ≠ -1 :=
  (C54_Cosmphi_cpsp_fails 1 0 2 1 3 (-1) 2 2 le_rfl (by norm_num)).2.2

/-- The C functions of `CosmphiDiskPotential` with the packed arguments are the public methods,
except at the break radius, where the two implementations use different sides. -/
theorem C54_Cosmphi_C (k : Cosmphi.Par) (R φ t : ℝ) (h : R ≠ k.rb) :
    Cosmphi.cRforce (Cosmphi.cArgs k) R φ = (Cosmphi.pot k).Rforce R φ t ∧
    Cosmphi.cphitorque (Cosmphi.cArgs k) R φ = (Cosmphi.pot k).phitorque R φ t ∧
    Cosmphi.cR2deriv (Cosmphi.cArgs k) R φ = (Cosmphi.pot k).R2deriv R φ t ∧
    Cosmphi.cphi2deriv (Cosmphi.cArgs k) R φ = (Cosmphi.pot k).phi2deriv R φ t ∧
    Cosmphi.cRphideriv (Cosmphi.cArgs k) R φ = (Cosmphi.pot k).Rphideriv R φ t := by
  have e : R ≤ k.rb ↔ R < k.rb := ⟨fun hh => lt_of_le_of_ne hh h, le_of_lt⟩
  simp only [Cosmphi.cRforce, Cosmphi.cphitorque, Cosmphi.cR2deriv, Cosmphi.cphi2deriv,
    Cosmphi.cRphideriv, Cosmphi.cArgs, Cosmphi.pot, PPot.scale, Cosmphi.Rforce, Cosmphi.phitorque,
    Cosmphi.R2deriv, Cosmphi.phi2deriv, Cosmphi.Rphideriv, e]
  refine ⟨?_, ?_, ?_, ?_, ?_⟩ <;> split_ifs <;> ring
example : Cosmphi.cRforce (Cosmphi.cArgs (Cosmphi.init 1 0 2 1 4 1 (some 3) none)) 1 0
    = (Cosmphi.pot (Cosmphi.init 1 0 2 1 4 1 (some 3) none)).Rforce 1 0 0 :=
  (C54_Cosmphi_C _ 1 0 0 (by simp [Cosmphi.init])).1

/-- `LopsidedDiskPotential` is the `m = 1` disk: value, derivatives, and its own C functions with
its own packed arguments. The value is the documented one only for `r1 = 1` (next theorem). -/
theorem C54_Lopsided (amp phib p phio r1 R φ t : ℝ) (cpsp : Option (ℝ × ℝ)) (hR : 0 < R) :
    let k := Cosmphi.initLopsided amp phib p phio r1 cpsp
    PGradAt (Cosmphi.pot k) R φ t ∧ PHessAt (Cosmphi.pot k) R φ t ∧
    (cpsp = none → (Cosmphi.pot k).val R φ t = amp * phio * R ^ p * cos (φ - phib)) ∧
    Cosmphi.lRforce (Cosmphi.cArgsLopsided k) R φ = (Cosmphi.pot k).Rforce R φ t ∧
    Cosmphi.lphitorque (Cosmphi.cArgsLopsided k) R φ = (Cosmphi.pot k).phitorque R φ t ∧
    Cosmphi.lR2deriv (Cosmphi.cArgsLopsided k) R φ = (Cosmphi.pot k).R2deriv R φ t ∧
    Cosmphi.lphi2deriv (Cosmphi.cArgsLopsided k) R φ = (Cosmphi.pot k).phi2deriv R φ t ∧
    Cosmphi.lRphideriv (Cosmphi.cArgsLopsided k) R φ = (Cosmphi.pot k).Rphideriv R φ t := by
  intro k
  have w : Cosmphi.WF k := Cosmphi.init_wf _ _ _ _ (by norm_num) _ _ _
  have hb : k.rb = 0 := rfl
  have hm : k.m = 1 := rfl
  have hmb : k.mphib = k.phib := by
    show ((1 : ℤ) : ℝ) * k.phib = k.phib
    rw [Int.cast_one, one_mul]
  have hlt : ¬ R < k.rb := by rw [hb]; exact hR.not_gt
  refine ⟨Cosmphi.grad k w φ t hR (by rw [hb]; exact hR.ne'), Cosmphi.hess k w φ t hR
    (Or.inl (by rw [hb]; exact hR)), ?_, ?_⟩
  · rintro rfl
    have ea : k.amp = amp := by
      show amp / 1 ^ p = amp
      rw [one_rpow, div_one]
    have em : k.mphio = phio := by
      show phio * ((1 : ℤ) : ℝ) = phio
      rw [Int.cast_one, mul_one]
    have ep : k.phib = phib := rfl
    have epp : k.p = p := rfl
    dsimp only [Cosmphi.pot, PPot.scale, Cosmphi.evaluate]
    rw [if_neg hlt, hm, hmb, ea, em, ep, epp, Int.cast_one, one_mul]
    ring
  · simp only [Cosmphi.lRforce, Cosmphi.lphitorque, Cosmphi.lR2deriv, Cosmphi.lphi2deriv,
      Cosmphi.lRphideriv, Cosmphi.cArgsLopsided, Cosmphi.pot, PPot.scale, Cosmphi.Rforce,
      Cosmphi.phitorque, Cosmphi.R2deriv, Cosmphi.phi2deriv, Cosmphi.Rphideriv, if_neg hlt, hm, hmb,
      Int.cast_one, one_mul, div_one]
    refine ⟨?_, ?_, ?_, ?_, ?_⟩ <;> ring
example : PGradAt (Cosmphi.pot (Cosmphi.initLopsided 1 0 2 1 1 (some (1, 2)))) 3 0 0 :=
  (C54_Lopsided 1 0 2 1 1 3 0 0 (some (1, 2)) (by norm_num)).1

/-- The normalisation radius of `LopsidedDiskPotential` is ignored: the value is not the documented
`amp φ₀ (R/R₁)^p cos(φ - φ_b)` for any `r1` with `r1^p ≠ 1`, wherever the potential is not zero. -/
theorem C54_Lopsided_r1_fails (amp phib p phio r1 R φ t : ℝ) (hR : 0 < R) (h1 : 0 < r1)
    (hr1 : r1 ^ p ≠ 1) (ha : amp * phio * cos (φ - phib) ≠ 0) :
    (Cosmphi.pot (Cosmphi.initLopsided amp phib p phio r1 none)).val R φ t
      ≠ amp * phio * (R / r1) ^ p * cos (φ - phib) := by
  rw [(C54_Lopsided amp phib p phio r1 R φ t none hR).2.2.1 rfl, div_rpow hR.le h1.le]
  intro h
  have hRp := rpow_pos_of_pos hR p
  have h1p := rpow_pos_of_pos h1 p
  have : amp * phio * cos (φ - phib) * (R ^ p * (r1 ^ p - 1)) = 0 := by
    field_simp at h
    linear_combination R ^ p * h
  rcases mul_eq_zero.1 this with h | h
  · exact ha h
  · rcases mul_eq_zero.1 h with h | h
    · exact hRp.ne' h
    · exact hr1 (by linarith)
example : (Cosmphi.pot (Cosmphi.initLopsided 1 0 1 1 2 none)).val 1 0 0
    ≠ 1 * 1 * (1 / 2 : ℝ) ^ (1 : ℝ) * cos (0 - 0) :=
  C54_Lopsided_r1_fails 1 0 1 1 2 1 0 0 one_pos two_pos (by norm_num) (by norm_num)

end Verif
