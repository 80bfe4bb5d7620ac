import Verif.Lemmas.SubstWrappers
import Verif.Lemmas.Wrappers
import Verif.Lemmas.Pot.MiyamotoNagai
import Verif.Lemmas.Pot.PowerSpherical
import Verif.Lemmas.Pot.Ops
import Verif.Props.C16
import Verif.Props.C32

set_option autoImplicit false

/-!
# C70: Wrappers that substitute coordinates

`KuzminLikeWrapperPotential` and `CylindricallySeparablePotentialWrapper`: the value is the documented transformation
of the wrapped potential, forces and second derivatives are its derivatives, the density solves the Poisson equation,
and the C versions compute the same.
-/

open Filter Topology

namespace Verif

namespace C70Spec

/-- The wrapped potential is axisymmetric and its forces and second derivatives are right in the plane. -/
structure WellBehaved (P : Pot) : Prop where
  grad : ∀ x φ t, 0 < x → GradAt P x 0 φ t
  hess : ∀ x φ t, 0 < x → HessAt P x 0 φ t
  axi : ∀ x φ φ' t, 0 < x → P.val x 0 φ t = P.val x 0 φ' t

/-- The documented potential of `KuzminLikeWrapperPotential`: `Φ(ξ, 0)` with `ξ² = R² + (a + √(z² + b²))²`. -/
noncomputable def kuzminLike (Φ : ℝ → ℝ → ℝ → ℝ → ℝ) (a b R z φ t : ℝ) : ℝ :=
  Φ (Real.sqrt (R ^ 2 + (a + Real.sqrt (z ^ 2 + b ^ 2)) ^ 2)) 0 φ t

/-- The documented potential of `CylindricallySeparablePotentialWrapper`: `Φ(R, 0) + Φ(Rp, z) - Φ(Rp, 0)`. -/
def separable (Φ : ℝ → ℝ → ℝ → ℝ → ℝ) (Rp R z φ t : ℝ) : ℝ := Φ R 0 φ t + Φ Rp z φ t - Φ Rp 0 φ t

end C70Spec

namespace C70aux

theorem inPlane {P : Pot} (h : C70Spec.WellBehaved P) : KuzminLike.InPlane P where
  force x φ t hx := (h.grad x φ t hx).dR
  axi := h.axi
  d2 x φ t hx := by
    have k := (h.hess x φ t hx).RR
    have e : (fun y => P.Rforce y 0 φ t) =ᶠ[𝓝 x] fun y => -deriv (fun u => P.val u 0 φ t) y :=
      (lt_mem_nhds hx).mono fun y hy => by simp [(h.grad y φ t hy).dR.deriv]
    exact (k.fun_neg).congr_of_eventuallyEq e

end C70aux

/-- KuzminLike: value, forces, second derivatives and density, with the wrapper's amplitude. `hz` and `hu` leave out
only the points of a razor-thin disk (`b = 0`, `z = 0`) and of the centre. -/
theorem C70_KuzminLike {P : Pot} (hP : C70Spec.WellBehaved P) (amp a b R z φ t : ℝ) (hz : 0 < z ^ 2 + b ^ 2)
    (hu : 0 < R ^ 2 + (a + √(z ^ 2 + b ^ 2)) ^ 2) :
    ((KuzminLike.pot a b P).scale amp).val R z φ t = amp * C70Spec.kuzminLike P.val a b R z φ t
    ∧ GradAt ((KuzminLike.pot a b P).scale amp) R z φ t
    ∧ HessAt ((KuzminLike.pot a b P).scale amp) R z φ t
    ∧ (R ≠ 0 → PoissonAt ((KuzminLike.pot a b P).scale amp) R z φ t) := by
  have c := (KuzminLike.consistent (a := a) (b := b) (C70aux.inPlane hP)).scale amp
  exact ⟨rfl, c.grad R z φ t ⟨hz, hu⟩, c.hess R z φ t ⟨hz, hu⟩, c.poisson R z φ t ⟨hz, hu⟩⟩

theorem C70aux.kepler : C70Spec.WellBehaved (PowerSpherical.pot 3) where
  grad x φ t hx := (PowerSpherical.consistent 3).grad x 0 φ t (by positivity)
  hess x φ t hx := (PowerSpherical.consistent 3).hess x 0 φ t (by positivity)
  axi _ _ _ _ _ := rfl

example : HessAt ((KuzminLike.pot 1 2 (PowerSpherical.pot 3)).scale 3) 1 (-1) 0 0 :=
  (C70_KuzminLike C70aux.kepler 3 1 2 1 (-1) 0 0 (by norm_num) (by positivity)).2.2.1

/-- Applied to the Kepler potential the wrapper is the Miyamoto-Nagai potential: same value, forces and second
derivatives. -/
theorem C70_KuzminLike_Kepler (scalar : Bool) (amp a b R z φ t : ℝ) (hz : 0 < z ^ 2 + b ^ 2)
    (hu : 0 < R ^ 2 + (a + √(z ^ 2 + b ^ 2)) ^ 2) :
    let W := (KuzminLike.pot a b (PowerSpherical.pot 3)).scale amp
    let M := (MiyamotoNagai.pot scalar a b).scale amp
    W.val R z φ t = M.val R z φ t ∧ W.Rforce R z φ t = M.Rforce R z φ t ∧ W.zforce R z φ t = M.zforce R z φ t
      ∧ W.R2deriv R z φ t = M.R2deriv R z φ t ∧ W.z2deriv R z φ t = M.z2deriv R z φ t
      ∧ W.Rzderiv R z φ t = M.Rzderiv R z φ t ∧ (R ≠ 0 → W.dens R z φ t = M.dens R z φ t) := by
  intro W M
  have e : ∀ R z, W.val R z φ t = M.val R z φ t := by
    intro R z
    simp only [W, M, Pot.scale, KuzminLike.pot, KuzminLike.potWith, Pot.poissonDens, PowerSpherical.pot, Pot.axi,
      MiyamotoNagai.pot, PowerSpherical.evaluate, MiyamotoNagai.evaluate, KuzminLike.xi]
    rw [if_neg (by norm_num)]
    rw [Real.sq_sqrt (by positivity)]
    norm_num
    rw [Real.rpow_neg (by positivity), ← Real.sqrt_eq_rpow]
    ring
  have cW := (KuzminLike.consistent (a := a) (b := b) (C70aux.inPlane C70aux.kepler)).scale amp
  have cM := (MiyamotoNagai.consistent scalar a b).scale amp
  have gW := cW.grad R z φ t ⟨hz, hu⟩
  have gM := cM.grad R z φ t ⟨hz, hu⟩
  have hW := cW.hess R z φ t ⟨hz, hu⟩
  have hM := cM.hess R z φ t ⟨hz, hu⟩
  have e' : (fun R z => W.val R z φ t) = fun R z => M.val R z φ t := funext fun R => funext fun z => e R z
  have eR : ∀ z, (fun R => W.val R z φ t) = fun R => M.val R z φ t := fun z => funext fun R => e R z
  have ez : ∀ R, (fun z => W.val R z φ t) = fun z => M.val R z φ t := fun R => funext fun z => e R z
  have r1 : W.Rforce R z φ t = M.Rforce R z φ t := by
    have := gW.dR; rw [show (fun x => ((KuzminLike.pot a b (PowerSpherical.pot 3)).scale amp).val x z φ t) = _ from eR z] at this
    have := this.unique gM.dR; simpa using this
  have r2 : W.zforce R z φ t = M.zforce R z φ t := by
    have := gW.dz; rw [show (fun x => ((KuzminLike.pot a b (PowerSpherical.pot 3)).scale amp).val R x φ t) = _ from ez R] at this
    have := this.unique gM.dz; simpa using this
  have r3 : W.R2deriv R z φ t = M.R2deriv R z φ t := by
    have := hW.RR
    rw [show (fun x => ((KuzminLike.pot a b (PowerSpherical.pot 3)).scale amp).val x z φ t) = _ from eR z] at this
    exact this.unique hM.RR
  have r4 : W.z2deriv R z φ t = M.z2deriv R z φ t := by
    have := hW.zz
    rw [show (fun x => ((KuzminLike.pot a b (PowerSpherical.pot 3)).scale amp).val R x φ t) = _ from ez R] at this
    exact this.unique hM.zz
  have r5 : W.Rzderiv R z φ t = M.Rzderiv R z φ t := by
    have := hW.Rz
    refine this.unique (hM.Rz.congr_of_eventuallyEq (Eventually.of_forall fun y => ?_))
    exact congrArg (fun f => deriv f R) (eR y)
  refine ⟨e R z, r1, r2, r3, r4, r5, fun hR => ?_⟩
  have pW := (poissonAt_iff gW hW).1 (cW.poisson R z φ t ⟨hz, hu⟩ hR)
  have pM := (poissonAt_iff gM hM).1 (cM.poisson R z φ t ⟨hz, hu⟩ hR)
  unfold PoissonAlg at pW pM
  have p0 : W.phi2deriv R z φ t = 0 := by simp [W, Pot.scale, KuzminLike.pot, KuzminLike.potWith, Pot.poissonDens]
  have p1 : M.phi2deriv R z φ t = 0 := by simp [M, Pot.scale, MiyamotoNagai.pot, Pot.axi]
  have : 4 * Real.pi * W.dens R z φ t = 4 * Real.pi * M.dens R z φ t := by
    rw [pW, pM, show ((KuzminLike.pot a b (PowerSpherical.pot 3)).scale amp).phi2deriv R z φ t = 0 from p0,
      show ((MiyamotoNagai.pot scalar a b).scale amp).phi2deriv R z φ t = 0 from p1]
    simp only [W, M] at r1 r3 r4
    rw [r1, r3, r4]
  exact mul_left_cancel₀ (by positivity) this

example : ((KuzminLike.pot 1 1 (PowerSpherical.pot 3)).scale 2).dens 1 0 0 0
    = ((MiyamotoNagai.pot true 1 1).scale 2).dens 1 0 0 0 :=
  (C70_KuzminLike_Kepler true 2 1 1 1 0 0 0 (by norm_num) (by positivity)).2.2.2.2.2.2 (by norm_num)

/-- CylindricallySeparable: the value at time 0, and forces, second derivatives and density everywhere and at all
times. -/
theorem C70_CylSep {P : Pot} {Rp : ℝ} {DR Dz : ℝ → Prop} (oR : ∀ R, DR R → ∀ᶠ x in 𝓝 R, DR x)
    (oz : ∀ z, Dz z → ∀ᶠ x in 𝓝 z, Dz x) (hR : ∀ R, DR R → GradAt P R 0 0 0 ∧ HessAt P R 0 0 0)
    (hz : ∀ z, Dz z → GradAt P Rp z 0 0 ∧ HessAt P Rp z 0 0) (amp R z φ t : ℝ) (kR : DR R) (kz : Dz z) :
    ((CylSep.pot Rp P).scale amp).val R z 0 0 = amp * C70Spec.separable P.val Rp R z 0 0
    ∧ GradAt ((CylSep.pot Rp P).scale amp) R z φ t
    ∧ HessAt ((CylSep.pot Rp P).scale amp) R z φ t
    ∧ (R ≠ 0 → PoissonAt ((CylSep.pot Rp P).scale amp) R z φ t) := by
  have on : CylSep.OnLines P Rp DR Dz :=
    { openR := oR, openz := oz, R1 := fun R k => (hR R k).1.dR, z1 := fun z k => (hz z k).1.dz,
      R2 := fun R k => by
        have e : (fun y => P.Rforce y 0 0 0) =ᶠ[𝓝 R] fun y => -deriv (fun u => P.val u 0 0 0) y :=
          (oR R k).mono fun y hy => by simp [(hR y hy).1.dR.deriv]
        exact ((hR R k).2.RR.fun_neg).congr_of_eventuallyEq e
      z2 := fun z k => by
        have e : (fun y => P.zforce Rp y 0 0) =ᶠ[𝓝 z] fun y => -deriv (fun u => P.val Rp u 0 0) y :=
          (oz z k).mono fun y hy => by simp [(hz y hy).1.dz.deriv]
        exact ((hz z k).2.zz.fun_neg).congr_of_eventuallyEq e }
  have c := (CylSep.consistent on).scale amp
  exact ⟨rfl, c.grad R z φ t ⟨kR, kz⟩, c.hess R z φ t ⟨kR, kz⟩, c.poisson R z φ t ⟨kR, kz⟩⟩

example : PoissonAt ((CylSep.pot 1 (PowerSpherical.pot 3)).scale 3) 2 (-1) 0 5 :=
  (C70_CylSep (P := PowerSpherical.pot 3) (Rp := 1) (DR := fun R => 0 < R) (Dz := fun _ => True)
    (fun _ h => lt_mem_nhds h) (fun _ _ => Eventually.of_forall fun _ => trivial)
    (fun R h => ⟨(PowerSpherical.consistent 3).grad R 0 0 0 (by positivity),
      (PowerSpherical.consistent 3).hess R 0 0 0 (by positivity)⟩)
    (fun z _ => ⟨(PowerSpherical.consistent 3).grad 1 z 0 0 (by positivity),
      (PowerSpherical.consistent 3).hess 1 z 0 0 (by positivity)⟩) 3 2 (-1) 0 5 (by norm_num) trivial).2.2.2
    (by norm_num)

/-- For a wrapped potential that does not change in time the value is the documented one at all times. -/
theorem C70_CylSep_static_partial {P : Pot} (hst : ∀ R z φ t, P.val R z φ t = P.val R z 0 0) (amp Rp R z φ t : ℝ) :
    ((CylSep.pot Rp P).scale amp).val R z φ t = amp * C70Spec.separable P.val Rp R z φ t := by
  simp only [C70Spec.separable, hst R 0 φ t, hst Rp z φ t, hst Rp 0 φ t]
  rfl

example (R z φ t : ℝ) : ((CylSep.pot 1 (PowerSpherical.pot 3)).scale 2).val R z φ t
    = 2 * C70Spec.separable (PowerSpherical.pot 3).val 1 R z φ t :=
  C70_CylSep_static_partial (fun _ _ _ _ => rfl) 2 1 R z φ t

/-- The property fails for a wrapped potential that changes in time: the methods do not pass the time on, so the
wrapper stays what it is at time 0. Witness: a Kepler potential whose amplitude grows linearly
(`TimeDependentAmplitudeWrapperPotential` with `A(t) = 1 + t`). -/
theorem C70_CylSep_time_fails : ∃ (P : Pot) (t : ℝ), P = Wrap.modulate (fun t => 1 + t) (PowerSpherical.pot 3)
    ∧ (∀ R z φ t, 0 < R → GradAt P R z φ t)
    ∧ ((CylSep.pot 1 P).scale 1).val 2 0 0 t ≠ 1 * C70Spec.separable P.val 1 2 0 0 t := by
  refine ⟨_, 1, rfl, ?_, ?_⟩
  · intro R z φ t hR
    have g := (PowerSpherical.consistent 3).grad R z φ t (by positivity)
    exact g.modulate fun t => 1 + t
  · simp only [CylSep.pot, Pot.scale, Pot.poissonDens, C70Spec.separable, CylSep.refpot, Wrap.modulate, PowerSpherical.pot,
      Pot.axi, PowerSpherical.evaluate]
    rw [if_neg (by norm_num)]
    have : (0:ℝ) < (2 ^ 2 + 0 ^ 2) ^ (1 - 3 / 2 : ℝ) := by positivity
    norm_num at this ⊢

/-- The C functions of CylindricallySeparable agree with the Python methods, given that they do for the wrapped
potential. -/
theorem C70_CylSep_C {c : Wrap.CForces} {P : Pot} (hc : CMatches c P) (amp Rp R z φ t : ℝ) :
    let W := (CylSep.pot Rp P).scale amp
    let C := CylSep.cForces amp Rp c
    C.Rforce R z φ t = W.Rforce R z φ t ∧ C.zforce R z φ t = W.zforce R z φ t
      ∧ C.R2deriv R z φ t = W.R2deriv R z φ t ∧ C.z2deriv R z φ t = W.z2deriv R z φ t
      ∧ C.Rzderiv R z φ t = W.Rzderiv R z φ t
      ∧ (∀ V : ℝ → ℝ → ℝ, (∀ R z, V R z = P.val R z 0 0) →
          CylSep.cEval amp Rp (P.val Rp 0 0 0) V R z = W.val R z φ t)
      ∧ (∀ F : ℝ → ℝ → ℝ → ℝ, (∀ R φ t, F R φ t = P.Rforce R 0 φ t) → CylSep.cPlanarRforce amp F R = W.Rforce R 0 φ t)
      ∧ (∀ F : ℝ → ℝ → ℝ → ℝ, (∀ R φ t, F R φ t = P.R2deriv R 0 φ t) →
          CylSep.cPlanarR2deriv amp F R = W.R2deriv R 0 φ t) := by
  obtain ⟨m1, -, -, m2, -⟩ := hc R 0 0 0
  obtain ⟨-, n1, -, -, n2, -⟩ := hc Rp z 0 0
  simp only [CylSep.cForces, CylSep.pot, Pot.scale, Pot.poissonDens, m1, m2, n1, n2, mul_zero, true_and]
  refine ⟨?_, ?_, ?_⟩
  · intro V hV; simp only [CylSep.cEval, hV, CylSep.refpot]
  · intro F hF; simp only [CylSep.cPlanarRforce, hF]
  · intro F hF; simp only [CylSep.cPlanarR2deriv, hF]

/-- The C functions of KuzminLike agree with the Python methods, given that they do for the wrapped potential. -/
theorem C70_KuzminLike_C {c : Wrap.CForces} {P : Pot} (hc : CMatches c P) (hP : C70Spec.WellBehaved P)
    (amp a b R z φ t : ℝ) (hz : 0 < z ^ 2 + b ^ 2) (hu : 0 < R ^ 2 + (a + √(z ^ 2 + b ^ 2)) ^ 2) :
    let W := (KuzminLike.pot a b P).scale amp
    (KuzminLike.cForces amp a (b ^ 2) c).Rforce R z φ t = W.Rforce R z φ t
    ∧ (KuzminLike.cForces amp a (b ^ 2) c).zforce R z φ t = W.zforce R z φ t
    ∧ (KuzminLike.cForces amp a (b ^ 2) c).R2deriv R z φ t = W.R2deriv R z φ t
    ∧ (KuzminLike.cForces amp a (b ^ 2) c).z2deriv R z φ t = W.z2deriv R z φ t
    ∧ (KuzminLike.cForces amp a (b ^ 2) c).Rzderiv R z φ t = W.Rzderiv R z φ t := by
  have reg : KuzminLike.Reg a b R z := ⟨hz, hu⟩
  have pin := C70aux.inPlane hP
  have f1 : P.Rforce (KuzminLike.xi a b R z) 0 0 t = P.Rforce (KuzminLike.xi a b R z) 0 φ t :=
    pin.Rforce_axi reg.xi_pos
  have f2 : P.R2deriv (KuzminLike.xi a b R z) 0 0 t = P.R2deriv (KuzminLike.xi a b R z) 0 φ t := by
    have h1 := pin.d2 _ 0 t reg.xi_pos
    have h2 := pin.d2 _ φ t reg.xi_pos
    have e : (fun y => P.Rforce y 0 0 t) =ᶠ[𝓝 (KuzminLike.xi a b R z)] fun y => P.Rforce y 0 φ t :=
      (lt_mem_nhds reg.xi_pos).mono fun y hy => pin.Rforce_axi hy
    have := h1.unique (h2.congr_of_eventuallyEq e)
    linarith
  obtain ⟨m1, -, -, m2, -⟩ := hc (KuzminLike.xi a b R z) 0 0 t
  simp only [KuzminLike.cForces, KuzminLike.cxi_eq, KuzminLike.cdxidR_eq, KuzminLike.cdxidz_eq,
    KuzminLike.cd2xidR2_eq hu, KuzminLike.cd2xidz2_eq reg, KuzminLike.cd2xidRdz_eq reg, m1, m2, f1, f2, Pot.scale,
    KuzminLike.pot, KuzminLike.potWith, Pot.poissonDens]
  refine ⟨?_, ?_, ?_, ?_, ?_⟩ <;> (first | trivial | ring)

/-- The value in C, which has neither azimuth nor time, agrees for a static wrapped potential, and the functions of
the planar integrators agree with the Python methods at `z = 0`. -/
theorem C70_KuzminLike_C_planar {P : Pot} (hP : C70Spec.WellBehaved P) (hst : ∀ x φ t, 0 < x → P.val x 0 φ t = P.val x 0 0 0)
    {V : ℝ → ℝ → ℝ} {F F2 : ℝ → ℝ → ℝ → ℝ} (hV : ∀ x, 0 < x → V x 0 = P.val x 0 0 0)
    (hF : ∀ x φ t, 0 < x → F x φ t = P.Rforce x 0 φ t) (hF2 : ∀ x φ t, 0 < x → F2 x φ t = P.R2deriv x 0 φ t)
    (amp a b R z φ t : ℝ) (hz : 0 < z ^ 2 + b ^ 2) (hu : 0 < R ^ 2 + (a + √(z ^ 2 + b ^ 2)) ^ 2) :
    let W := (KuzminLike.pot a b P).scale amp
    KuzminLike.cEval amp a (b ^ 2) V R z = W.val R z φ t
    ∧ (z = 0 → KuzminLike.cPlanarRforce amp a (b ^ 2) F R t = W.Rforce R z φ t)
    ∧ (z = 0 → KuzminLike.cPlanarR2deriv amp a (b ^ 2) F F2 R t = W.R2deriv R z φ t) := by
  have reg : KuzminLike.Reg a b R z := ⟨hz, hu⟩
  have pin := C70aux.inPlane hP
  have f1 : P.Rforce (KuzminLike.xi a b R z) 0 0 t = P.Rforce (KuzminLike.xi a b R z) 0 φ t :=
    pin.Rforce_axi reg.xi_pos
  have f2 : P.R2deriv (KuzminLike.xi a b R z) 0 0 t = P.R2deriv (KuzminLike.xi a b R z) 0 φ t := by
    have h1 := pin.d2 _ 0 t reg.xi_pos
    have h2 := pin.d2 _ φ t reg.xi_pos
    have e : (fun y => P.Rforce y 0 0 t) =ᶠ[𝓝 (KuzminLike.xi a b R z)] fun y => P.Rforce y 0 φ t :=
      (lt_mem_nhds reg.xi_pos).mono fun y hy => pin.Rforce_axi hy
    have := h1.unique (h2.congr_of_eventuallyEq e)
    linarith
  refine ⟨?_, ?_, ?_⟩
  · simp only [KuzminLike.cEval, KuzminLike.cxi_eq, hV _ reg.xi_pos, Pot.scale, KuzminLike.pot, KuzminLike.potWith,
      Pot.poissonDens, hst _ φ t reg.xi_pos]
  · rintro rfl
    simp only [KuzminLike.cPlanarRforce, KuzminLike.cxi_eq, KuzminLike.cdxidR_eq, hF _ _ _ reg.xi_pos, f1, Pot.scale,
      KuzminLike.pot, KuzminLike.potWith, Pot.poissonDens]
    ring
  · rintro rfl
    simp only [KuzminLike.cPlanarR2deriv, KuzminLike.cxi_eq, KuzminLike.cdxidR_eq, KuzminLike.cd2xidR2_eq hu,
      hF _ _ _ reg.xi_pos, hF2 _ _ _ reg.xi_pos, f1, f2, Pot.scale, KuzminLike.pot, KuzminLike.potWith,
      Pot.poissonDens]
    ring

example : KuzminLike.cEval 2 1 (1 ^ 2) (fun R z => (PowerSpherical.pot 3).val R z 0 0) 1 1
    = ((KuzminLike.pot 1 1 (PowerSpherical.pot 3)).scale 2).val 1 1 0 0 :=
  (C70_KuzminLike_C_planar C70aux.kepler (fun _ _ _ _ => rfl) (fun _ _ => rfl)
    (F := fun x φ t => (PowerSpherical.pot 3).Rforce x 0 φ t) (fun _ _ _ _ => rfl)
    (F2 := fun x φ t => (PowerSpherical.pot 3).R2deriv x 0 φ t) (fun _ _ _ _ => rfl) 2 1 1 1 1 0 0 (by norm_num)
    (by positivity)).1

/-- The second derivative of KuzminLike as called in Python is the one of `C70_KuzminLike` when the wrapped potential
has no (complete) physical scales set. -/
theorem C70_KuzminLike_units_partial (k : Conversion.Consts) (apy : Bool) (ro vo : ℝ) (roSet voSet : Bool)
    (h : (roSet && voSet) = false) (a b : ℝ) (P : Pot) (R z φ t : ℝ) :
    KuzminLike.R2derivPy k apy (C32Spec.obj ro vo roSet voSet) a b P R z φ t
      = .ok ((KuzminLike.pot a b P).R2deriv R z φ t) := by
  cases roSet <;> cases voSet <;> simp at h <;>
  simp [KuzminLike.R2derivPy, Conversion.physical_conversion, Conversion.physical_output, C32Spec.obj,
    Conversion.Kind.always, Bind.bind, Except.bind, Conversion.Kind.roNecessary, Conversion.Kind.voNecessary,
    KuzminLike.number, KuzminLike.pot, KuzminLike.potWith, Pot.poissonDens]

/-- The property fails for a wrapped potential with physical scales: its second derivatives come back in `1/Gyr²` and
are combined with forces in internal units. With `ro = 8`, `vo = 220`, wrapping a Kepler potential, the second radial
derivative at `R = 1, z = 0` with `a = 0, b = 1` is a different number, and with astropy units as output the call raises. -/
theorem C70_KuzminLike_units_fails : ∃ (a b R z : ℝ) (x : ℝ),
    KuzminLike.R2derivPy Conversion.fallback false (C32Spec.obj 8 220 true true) a b (PowerSpherical.pot 3) R z 0 0 = .ok x
    ∧ x ≠ (KuzminLike.pot a b (PowerSpherical.pot 3)).R2deriv R z 0 0
    ∧ KuzminLike.R2derivPy Conversion.fallback true (C32Spec.obj 8 220 true true) a b (PowerSpherical.pot 3) R z 0 0
      = .error .unitConversion := by
  refine ⟨0, 1, 1, 0, (KuzminLike.potWith (fun _ _ _ _ => (PowerSpherical.pot 3).R2deriv (KuzminLike.xi 0 1 1 0) 0 0 0
    * Conversion.freq_in_Gyr Conversion.fallback 220 8 ^ 2) 0 1 (PowerSpherical.pot 3)).R2deriv 1 0 0 0, ?_, ?_, ?_⟩
  · simp [KuzminLike.R2derivPy, Conversion.physical_conversion, Conversion.physical_output, C32Spec.obj,
      Conversion.Kind.always, Bind.bind, Except.bind, Conversion.Kind.roNecessary, Conversion.Kind.voNecessary,
      KuzminLike.number, Conversion.Kind.factor]
  · have hx : KuzminLike.xi 0 1 1 0 = √2 := by norm_num [KuzminLike.xi]
    have h2 : (PowerSpherical.pot 3).R2deriv √2 0 0 0 ≠ 0 := by
      simp only [PowerSpherical.pot, Pot.axi, PowerSpherical.R2deriv]
      norm_num
      rw [show (5/2 : ℝ) = 3/2 + 1 by norm_num, Real.rpow_add (by norm_num), Real.rpow_one]
      have : (0:ℝ) < 2 ^ (3/2 : ℝ) := by positivity
      field_simp
      norm_num
    intro h
    simp only [KuzminLike.pot, KuzminLike.potWith, Pot.poissonDens, hx, KuzminLike.dxidR] at h
    have h3 : Conversion.freq_in_Gyr Conversion.fallback 220 8 ^ 2 = 1 := by
      have : ((1:ℝ) / √2) ^ 2 ≠ 0 := by positivity
      have h4 := add_right_cancel (by simpa [sub_eq_add_neg] using h :
        (PowerSpherical.pot 3).R2deriv √2 0 0 0 * Conversion.freq_in_Gyr Conversion.fallback 220 8 ^ 2 * ((1:ℝ) / √2) ^ 2
          + -((PowerSpherical.pot 3).Rforce √2 0 0 0 * KuzminLike.d2xidR2 0 1 1 0)
        = (PowerSpherical.pot 3).R2deriv √2 0 0 0 * ((1:ℝ) / √2) ^ 2
          + -((PowerSpherical.pot 3).Rforce √2 0 0 0 * KuzminLike.d2xidR2 0 1 1 0))
      have h5 := mul_right_cancel₀ this h4
      field_simp at h5
      exact h5
    norm_num [Conversion.freq_in_Gyr, Conversion.fallback] at h3
  · simp [KuzminLike.R2derivPy, Conversion.physical_conversion, Conversion.physical_output, C32Spec.obj,
      Conversion.Kind.always, Bind.bind, Except.bind, Conversion.Kind.roNecessary, Conversion.Kind.voNecessary,
      KuzminLike.number, Conversion.Kind.factor]

end Verif
