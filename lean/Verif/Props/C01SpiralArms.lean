import Verif.Lemmas.Pot.SpiralArmsC
import Verif.Lemmas.Pot.Ops

set_option autoImplicit false

/-!
# C01, C02, C03, C51 for SpiralArmsPotential

`N` arms of pitch angle `alpha`, any number of harmonics with any coefficients.  The hypothesis `0 < H N / sin alpha` is met
for trailing arms with a positive scale height; for the other sign the auxiliary functions of Cox and Gomez have zeros at
some radii.
-/

noncomputable section
namespace Verif
open Real

variable (amp N alpha r_ref phi_ref Rs H omega : ℝ) (Cs : List ℝ) (R z φ t : ℝ)

theorem C01_SpiralArms (h : 0 < H * N / sin alpha) (hRs : Rs ≠ 0) (hr : r_ref ≠ 0) (hR : 0 < R) :
    GradAt ((SpiralArms.pot (SpiralArms.init N alpha r_ref phi_ref Rs H omega Cs)).scale amp) R z φ t :=
  have k := (SpiralArms.consistent (SpiralArms.ok_init (phi_ref := phi_ref) (omega := omega) (Cs := Cs) h hRs hr)).grad R z φ t hR
  GradAt.scale amp ⟨k.dR, k.dz, k.dphi⟩
example : GradAt ((SpiralArms.pot (SpiralArms.init 2 (π / 6) 1 0 1 (1 / 4) 3 [1, 2])).scale 5) 2 1 (1 / 3) 4 :=
  C01_SpiralArms _ _ _ _ _ _ _ _ _ _ _ _ _ (by rw [sin_pi_div_six]; norm_num) (by norm_num) (by norm_num) (by norm_num)

theorem C02_SpiralArms (h : 0 < H * N / sin alpha) (hRs : Rs ≠ 0) (hr : r_ref ≠ 0) (hR : 0 < R) :
    HessAt ((SpiralArms.pot (SpiralArms.init N alpha r_ref phi_ref Rs H omega Cs)).scale amp) R z φ t :=
  have k := (SpiralArms.consistent (SpiralArms.ok_init (phi_ref := phi_ref) (omega := omega) (Cs := Cs) h hRs hr)).hess R z φ t hR
  HessAt.scale amp ⟨k.RR, k.Rz, k.Rp, k.zR, k.zz, k.zp, k.pR, k.pz, k.pp⟩
example : HessAt ((SpiralArms.pot (SpiralArms.init 2 (π / 6) 1 0 1 (1 / 4) 3 [1, 2])).scale 5) 2 1 (1 / 3) 4 :=
  C02_SpiralArms _ _ _ _ _ _ _ _ _ _ _ _ _ (by rw [sin_pi_div_six]; norm_num) (by norm_num) (by norm_num) (by norm_num)

namespace C03Spec
/-- The density missing from `dens`, per unit amplitude: the sum over the harmonics of
`C H / (4 π D R² K) exp(-(R - r_ref)/Rs) sech^B(K z / B) cos(n γ) (a - a²)` with
`a = (K H / D) (1 - 0.3 / (1 + 0.3 K H)²)`. -/
def spiralMissing (p : SpiralArms.Par) (R z φ t : ℝ) : ℝ :=
  ∑ i : Fin p.Cs.length,
    let n : ℝ := i + 1
    let K := SpiralArms.K p n R
    let B := SpiralArms.B p n R
    let D := SpiralArms.D p n R
    let a := K * p.H / D * (1 - 0.3 / (1 + 0.3 * K * p.H) ^ 2)
    p.Cs.get i / (4 * π) * (p.H / (D * R)) * exp (-(R - p.r_ref) / p.Rs) / cosh (z * K / B) ^ B
      * cos (n * SpiralArms.gamma p R (φ - p.omega * t)) * (a - a ^ 2) / (K * R)
end C03Spec

namespace C03aux
theorem spiral (h : 0 < H * N / sin alpha) (hRs : Rs ≠ 0) (hr : r_ref ≠ 0) (hR : 0 < R) :
    let p := SpiralArms.init N alpha r_ref phi_ref Rs H omega Cs
    4 * π * (amp * (SpiralArms.dens p R z φ t + SpiralArms.defect p R z φ t))
    = deriv (fun x => deriv (fun y => amp * SpiralArms.evaluate p y z φ t) x) R
      + deriv (fun x => amp * SpiralArms.evaluate p x z φ t) R / R
      + deriv (fun x => deriv (fun y => amp * SpiralArms.evaluate p R z y t) x) φ / R ^ 2
      + deriv (fun x => deriv (fun y => amp * SpiralArms.evaluate p R y φ t) x) z :=
  PoissonAt.scale amp ((SpiralArms.consistent
    (SpiralArms.ok_init (phi_ref := phi_ref) (omega := omega) (Cs := Cs) h hRs hr)).poisson R z φ t hR hR.ne')
end C03aux

/-- What is true: the density satisfies Poisson's equation once the missing term is added.  The full statement, that `dens`
itself does, is refuted by `C03_SpiralArms_fails`. -/
theorem C03_SpiralArms_partial (h : 0 < H * N / sin alpha) (hRs : Rs ≠ 0) (hr : r_ref ≠ 0) (hR : 0 < R) :
    PoissonAt { (SpiralArms.pot (SpiralArms.init N alpha r_ref phi_ref Rs H omega Cs)).scale amp with
      dens := fun R z φ t =>
        amp * (SpiralArms.dens (SpiralArms.init N alpha r_ref phi_ref Rs H omega Cs) R z φ t
          + C03Spec.spiralMissing (SpiralArms.init N alpha r_ref phi_ref Rs H omega Cs) R z φ t) } R z φ t :=
  C03aux.spiral amp N alpha r_ref phi_ref Rs H omega Cs R z φ t h hRs hr hR
example : PoissonAt { (SpiralArms.pot (SpiralArms.init 2 (π / 6) 1 0 1 (1 / 4) 3 [1, 2])).scale 5 with
      dens := fun R z φ t => 5 * (SpiralArms.dens (SpiralArms.init 2 (π / 6) 1 0 1 (1 / 4) 3 [1, 2]) R z φ t
        + C03Spec.spiralMissing (SpiralArms.init 2 (π / 6) 1 0 1 (1 / 4) 3 [1, 2]) R z φ t) } 2 1 (1 / 3) 4 :=
  C03_SpiralArms_partial _ _ _ _ _ _ _ _ _ _ _ _ _ (by rw [sin_pi_div_six]; norm_num) (by norm_num) (by norm_num)
    (by norm_num)

/-- The density of SpiralArmsPotential is not that of its potential: one factor of the formula of Cox and Gomez lacks its
square (SpiralArmsPotential.py, the second term of `rE` in `_dens`).  With one harmonic Poisson's equation fails at every
point where the value of the potential is not zero. -/
theorem C03_SpiralArms_fails (C : ℝ) (h : 0 < H * N / sin alpha) (hRs : Rs ≠ 0)
    (hr : r_ref ≠ 0) (hR : 0 < R)
    (hv : ((SpiralArms.pot (SpiralArms.init N alpha r_ref phi_ref Rs H omega [C])).scale amp).val R z φ t ≠ 0) :
    ¬ PoissonAt ((SpiralArms.pot (SpiralArms.init N alpha r_ref phi_ref Rs H omega [C])).scale amp) R z φ t := by
  intro hP
  have o := SpiralArms.ok_init (phi_ref := phi_ref) (omega := omega) (Cs := [C]) h hRs hr
  have k := C03aux.spiral amp N alpha r_ref phi_ref Rs H omega [C] R z φ t h hRs hr hR
  have e : 4 * π * (amp * SpiralArms.dens (SpiralArms.init N alpha r_ref phi_ref Rs H omega [C]) R z φ t) = _ := hP
  obtain ⟨a, a0, a1, ea⟩ := SpiralArms.defect_one o (C := C) rfl hR z φ t
  have e2 : 4 * π * (amp * SpiralArms.defect (SpiralArms.init N alpha r_ref phi_ref Rs H omega [C]) R z φ t) = 0 := by
    have := k.trans e.symm
    rw [mul_add, mul_add] at this
    linarith
  rw [ea] at e2
  have hv' : amp * SpiralArms.evaluate (SpiralArms.init N alpha r_ref phi_ref Rs H omega [C]) R z φ t ≠ 0 := hv
  have e3 : -(a - a ^ 2) / R ^ 2
      * (amp * SpiralArms.evaluate (SpiralArms.init N alpha r_ref phi_ref Rs H omega [C]) R z φ t) = 0 := by
    rw [← e2]
    have := pi_ne_zero
    field_simp
  have h4 : -(a - a ^ 2) / R ^ 2 ≠ 0 := by
    have : 0 < a - a ^ 2 := by nlinarith
    exact div_ne_zero (neg_ne_zero.2 this.ne') (by positivity)
  exact mul_ne_zero h4 hv' e3
example : ¬ PoissonAt ((SpiralArms.pot (SpiralArms.init 2 (π / 6) 1 0 1 (1 / 4) 3 [1])).scale 5) 1 0 0 0 := by
  have hs : sin (-(π / 6)) = -(1 / 2) := by rw [sin_neg, sin_pi_div_six]
  refine C03_SpiralArms_fails _ _ _ _ _ _ _ _ _ _ _ _ _ (by rw [sin_pi_div_six]; norm_num) (by norm_num) (by norm_num)
    (by norm_num) ?_
  simp [Pot.scale, SpiralArms.pot, SpiralArms.evaluate, SpiralArms.total, SpiralArms.init, SpiralArms.K, SpiralArms.D,
    SpiralArms.HNn, SpiralArms.gamma, SpiralArms.sina, hs]
  norm_num

/-- The ten C functions of the three-dimensional integrators give the Python values; there is no density in C. -/
theorem C51_SpiralArms :
    let p := SpiralArms.init N alpha r_ref phi_ref Rs H omega Cs
    SpiralArms.cEval p amp R z φ t = ((SpiralArms.pot p).scale amp).val R z φ t ∧
    SpiralArms.cRforce p amp R z φ t = ((SpiralArms.pot p).scale amp).Rforce R z φ t ∧
    SpiralArms.czforce p amp R z φ t = ((SpiralArms.pot p).scale amp).zforce R z φ t ∧
    SpiralArms.cphitorque p amp R z φ t = ((SpiralArms.pot p).scale amp).phitorque R z φ t ∧
    SpiralArms.cR2deriv p amp R z φ t = ((SpiralArms.pot p).scale amp).R2deriv R z φ t ∧
    SpiralArms.cz2deriv p amp R z φ t = ((SpiralArms.pot p).scale amp).z2deriv R z φ t ∧
    SpiralArms.cphi2deriv p amp R z φ t = ((SpiralArms.pot p).scale amp).phi2deriv R z φ t ∧
    SpiralArms.cRzderiv p amp R z φ t = ((SpiralArms.pot p).scale amp).Rzderiv R z φ t ∧
    SpiralArms.cRphideriv p amp R z φ t = ((SpiralArms.pot p).scale amp).Rphideriv R z φ t ∧
    SpiralArms.czphideriv p amp R z φ t = ((SpiralArms.pot p).scale amp).phizderiv R z φ t := by
  intro p
  exact ⟨SpiralArms.cEval_eq p amp R z φ t, SpiralArms.cRforce_eq p amp R z φ t, SpiralArms.czforce_eq p amp R z φ t,
    SpiralArms.cphitorque_eq p amp R z φ t, SpiralArms.cR2deriv_eq p amp R z φ t, SpiralArms.cz2deriv_eq p amp R z φ t,
    SpiralArms.cphi2deriv_eq p amp R z φ t, SpiralArms.cRzderiv_eq p amp R z φ t, SpiralArms.cRphideriv_eq p amp R z φ t,
    SpiralArms.czphideriv_eq p amp R z φ t⟩
example : SpiralArms.cRforce (SpiralArms.init 2 (π / 6) 1 0 1 (1 / 4) 3 [1, 2]) 5 2 1 0 3
    = ((SpiralArms.pot (SpiralArms.init 2 (π / 6) 1 0 1 (1 / 4) 3 [1, 2])).scale 5).Rforce 2 1 0 3 :=
  (C51_SpiralArms 5 2 (π / 6) 1 0 1 (1 / 4) 3 [1, 2] 2 1 0 3).2.1

/-- The five C functions of the planar integrators give the Python values in the plane. -/
theorem C51_SpiralArms_planar :
    let p := SpiralArms.init N alpha r_ref phi_ref Rs H omega Cs
    SpiralArms.cPlanarRforce p amp R φ t = ((SpiralArms.pot p).scale amp).Rforce R 0 φ t ∧
    SpiralArms.cPlanarphitorque p amp R φ t = ((SpiralArms.pot p).scale amp).phitorque R 0 φ t ∧
    SpiralArms.cPlanarR2deriv p amp R φ t = ((SpiralArms.pot p).scale amp).R2deriv R 0 φ t ∧
    SpiralArms.cPlanarphi2deriv p amp R φ t = ((SpiralArms.pot p).scale amp).phi2deriv R 0 φ t ∧
    SpiralArms.cPlanarRphideriv p amp R φ t = ((SpiralArms.pot p).scale amp).Rphideriv R 0 φ t := by
  intro p
  exact ⟨SpiralArms.cPlanarRforce_eq p amp R φ t, SpiralArms.cPlanarphitorque_eq p amp R φ t,
    SpiralArms.cPlanarR2deriv_eq p amp R φ t, SpiralArms.cPlanarphi2deriv_eq p amp R φ t,
    SpiralArms.cPlanarRphideriv_eq p amp R φ t⟩
example : SpiralArms.cPlanarR2deriv (SpiralArms.init 2 (π / 6) 1 0 1 (1 / 4) 3 [1, 2]) 5 2 1 3
    = ((SpiralArms.pot (SpiralArms.init 2 (π / 6) 1 0 1 (1 / 4) 3 [1, 2])).scale 5).R2deriv 2 0 1 3 :=
  (C51_SpiralArms_planar 5 2 (π / 6) 1 0 1 (1 / 4) 3 [1, 2] 2 1 3).2.2.1

end Verif
