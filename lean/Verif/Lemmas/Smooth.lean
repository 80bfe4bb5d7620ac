import Verif.Spec.Dynamics
import Verif.Lemmas.Pot.Plummer
import Verif.Lemmas.Pot.Isochrone
import Verif.Lemmas.Pot.MiyamotoNagai
import Verif.Lemmas.Pot.LogarithmicHalo
import Verif.Lemmas.Pot.PowerSpherical
import Verif.Lemmas.Pot.FlattenedPower
import Verif.Lemmas.Pot.Spherical
import Verif.Lemmas.Pot.Burkert
import Verif.Lemmas.Pot.PseudoIsothermal
import Verif.Lemmas.Pot.TwoPower
import Verif.Lemmas.Pot.Shells
import Verif.Lemmas.Pot.KuzminDisk
import Mathlib.Analysis.SpecialFunctions.Sqrt
import Mathlib.Analysis.SpecialFunctions.Pow.Deriv

set_option autoImplicit false

/-!
# The modelled potentials are smooth on their regions
-/

noncomputable section
namespace Verif
open Real Filter Topology

theorem Consistent.smoothOn {P : Pot} {D : ℝ → ℝ → ℝ → Prop} (c : Consistent P D)
    (ho : IsOpen {p : ℝ × ℝ × ℝ | D p.1 p.2.1 p.2.2})
    (hd : ∀ R z φ t, D R z φ → DiffAt P R z φ t)
    (hf : ∀ R z φ t, D R z φ → ForceDiffAt P R z φ t) :
    SmoothOn P {p : ℝ × ℝ × ℝ | D p.1 p.2.1 p.2.2} :=
  ⟨ho, fun R z φ t h => c.grad R z φ t h, fun R z φ t h => c.hess R z φ t h,
    fun R z φ t h => hd R z φ t h, fun R z φ t h => hf R z φ t h⟩

/-- An axisymmetric potential built from functions of `R, z`. -/
theorem Consistent.smoothOn_axi {v Rf zf R2 z2 Rz d : ℝ → ℝ → ℝ} {D : ℝ → ℝ → ℝ → Prop}
    (c : Consistent (Pot.axi v Rf zf R2 z2 Rz d) D)
    (ho : IsOpen {p : ℝ × ℝ × ℝ | D p.1 p.2.1 p.2.2})
    (h : ∀ R z φ, D R z φ → DifferentiableAt ℝ (fun p : ℝ × ℝ × ℝ => v p.1 p.2.1) (R, z, φ) ∧
      DifferentiableAt ℝ (fun p : ℝ × ℝ × ℝ => Rf p.1 p.2.1) (R, z, φ) ∧
      DifferentiableAt ℝ (fun p : ℝ × ℝ × ℝ => zf p.1 p.2.1) (R, z, φ)) :
    SmoothOn (Pot.axi v Rf zf R2 z2 Rz d) {p : ℝ × ℝ × ℝ | D p.1 p.2.1 p.2.2} :=
  c.smoothOn ho (fun R z φ _ k => (h R z φ k).1)
    fun R z φ _ k => ⟨(h R z φ k).2.1, (h R z φ k).2.2, differentiableAt_const 0⟩

/-- Smoothness passes to a consistent potential with the same values. -/
theorem Consistent.smoothOn_congr {P Q : Pot} {D : ℝ → ℝ → ℝ → Prop} (c : Consistent P D)
    (q : SmoothOn Q {p : ℝ × ℝ × ℝ | D p.1 p.2.1 p.2.2})
    (hv : ∀ R z φ t, D R z φ → P.val R z φ t = Q.val R z φ t) :
    SmoothOn P {p : ℝ × ℝ × ℝ | D p.1 p.2.1 p.2.2} := by
  have ev : ∀ {R z φ : ℝ}, D R z φ → ∀ᶠ p : ℝ × ℝ × ℝ in 𝓝 (R, z, φ), D p.1 p.2.1 p.2.2 :=
    fun h => q.isOpen.mem_nhds h
  have hR : ∀ R z φ t, D R z φ → P.Rforce R z φ t = Q.Rforce R z φ t := by
    intro R z φ t h
    have cR : ContinuousAt (fun x : ℝ => (x, z, φ)) R := by fun_prop
    have := (q.grad R z φ t h).dR.congr_of_eventuallyEq
      ((cR.eventually (ev h)).mono fun x k => hv x z φ t k)
    exact neg_injective ((c.grad R z φ t h).dR.unique this)
  have hz : ∀ R z φ t, D R z φ → P.zforce R z φ t = Q.zforce R z φ t := by
    intro R z φ t h
    have cR : ContinuousAt (fun x : ℝ => (R, x, φ)) z := by fun_prop
    have := (q.grad R z φ t h).dz.congr_of_eventuallyEq
      ((cR.eventually (ev h)).mono fun x k => hv R x φ t k)
    exact neg_injective ((c.grad R z φ t h).dz.unique this)
  have hp : ∀ R z φ t, D R z φ → P.phitorque R z φ t = Q.phitorque R z φ t := by
    intro R z φ t h
    have cR : ContinuousAt (fun x : ℝ => (R, z, x)) φ := by fun_prop
    have := (q.grad R z φ t h).dphi.congr_of_eventuallyEq
      ((cR.eventually (ev h)).mono fun x k => hv R z x t k)
    exact neg_injective ((c.grad R z φ t h).dphi.unique this)
  refine c.smoothOn q.isOpen (fun R z φ t h => ?_) fun R z φ t h => ⟨?_, ?_, ?_⟩
  · exact (q.diff R z φ t h).congr_of_eventuallyEq ((ev h).mono fun p k => hv _ _ _ t k)
  · exact (q.fdiff R z φ t h).dR.congr_of_eventuallyEq ((ev h).mono fun p k => hR _ _ _ t k)
  · exact (q.fdiff R z φ t h).dz.congr_of_eventuallyEq ((ev h).mono fun p k => hz _ _ _ t k)
  · exact (q.fdiff R z φ t h).dphi.congr_of_eventuallyEq ((ev h).mono fun p k => hp _ _ _ t k)

theorem periodic_axi (v Rf zf R2 z2 Rz d : ℝ → ℝ → ℝ) : Periodic (Pot.axi v Rf zf R2 z2 Rz d) :=
  ⟨fun _ _ _ _ => rfl, fun _ _ _ _ => rfl, fun _ _ _ _ => rfl, fun _ _ _ _ => rfl⟩

theorem static_axi (v Rf zf R2 z2 Rz d : ℝ → ℝ → ℝ) : Static (Pot.axi v Rf zf R2 z2 Rz d) :=
  fun _ _ _ _ _ => rfl

theorem Plummer.smoothOn (b : ℝ) :
    SmoothOn (Plummer.pot b) {p : ℝ × ℝ × ℝ | 0 < p.1 ^ 2 + p.2.1 ^ 2 + b ^ 2} := by
  refine (Plummer.consistent b).smoothOn_axi (isOpen_lt (by fun_prop) (by fun_prop)) ?_
  intro R z φ h
  have h1 := h.ne'
  have h2 := (sqrt_pos.2 h).ne'
  refine ⟨?_, ?_, ?_⟩
  all_goals
    simp only [Plummer.evaluate, Plummer.Rforce, Plummer.zforce]
    fun_prop (disch := first | assumption | positivity | simp_all)

theorem Isochrone.smoothOn {b : ℝ} (hb : 0 ≤ b) :
    SmoothOn (Isochrone.pot b) {p : ℝ × ℝ × ℝ | 0 < p.1 ^ 2 + p.2.1 ^ 2 + b ^ 2} := by
  refine (Isochrone.consistent hb).smoothOn_axi (isOpen_lt (by fun_prop) (by fun_prop)) ?_
  intro R z φ h
  have h1 := h.ne'
  have h2 := (sqrt_pos.2 h)
  have h3 : b + √(R ^ 2 + z ^ 2 + b ^ 2) ≠ 0 := by positivity
  refine ⟨?_, ?_, ?_⟩
  all_goals
    simp only [Isochrone.evaluate, Isochrone.Rforce, Isochrone.zforce]
    fun_prop (disch := first | assumption | positivity | simp_all)

theorem LogarithmicHalo.smoothOn_axi {q core2 : ℝ} (hq : q ≠ 0) :
    SmoothOn (LogarithmicHalo.pot q core2 none)
      {p : ℝ × ℝ × ℝ | 0 < p.1 ^ 2 + (p.2.1 / q) ^ 2 + core2} := by
  refine (LogarithmicHalo.consistent_axi hq).smoothOn
    (isOpen_lt (by fun_prop) (by fun_prop)) ?_ ?_
  · intro R z φ t h
    have h1 := h.ne'
    simp only [DiffAt, LogarithmicHalo.pot, LogarithmicHalo.evaluate]
    fun_prop (disch := first | assumption | positivity | simp_all)
  · intro R z φ t h
    have h1 := h.ne'
    constructor
    all_goals
      simp only [LogarithmicHalo.pot, LogarithmicHalo.Rforce, LogarithmicHalo.zforce, LogarithmicHalo.phitorque]
      fun_prop (disch := first | assumption | positivity | simp_all)

theorem LogarithmicHalo.smoothOn_nonaxi {q core2 b : ℝ} (hq : q ≠ 0) :
    SmoothOn (LogarithmicHalo.pot q core2 (some b))
      {p : ℝ × ℝ × ℝ | 0 < p.1 ^ 2 * (1 - LogarithmicHalo.m1 b * sin p.2.2 ^ 2) + (p.2.1 / q) ^ 2 + core2
        ∧ p.1 ≠ 0} := by
  refine (LogarithmicHalo.consistent_nonaxi hq).smoothOn
    (IsOpen.and (isOpen_lt (by fun_prop) (by fun_prop)) (isOpen_ne_fun (by fun_prop) (by fun_prop))) ?_ ?_
  · intro R z φ t h
    have h1 := h.1.ne'
    simp only [DiffAt, LogarithmicHalo.pot, LogarithmicHalo.evaluate]
    fun_prop (disch := first | assumption | positivity | simp_all)
  · intro R z φ t h
    have h1 := h.1.ne'
    have h2 := h.2
    constructor
    all_goals
      simp only [LogarithmicHalo.pot, LogarithmicHalo.Rforce, LogarithmicHalo.zforce,
        LogarithmicHalo.phitorque, LogarithmicHalo.Rt2]
      fun_prop (disch := first | assumption | positivity | simp_all)

theorem LogarithmicHalo.periodic (q core2 : ℝ) (b : Option ℝ) : Periodic (LogarithmicHalo.pot q core2 b) := by
  have h : ∀ x, sin (2 * (x + 2 * π)) = sin (2 * x) := fun x => by
    rw [show 2 * (x + 2 * π) = 2 * x + 2 * π + 2 * π by ring, sin_add_two_pi, sin_add_two_pi]
  cases b <;>
  · constructor
    all_goals
      intro R z φ t
      simp [LogarithmicHalo.pot, LogarithmicHalo.evaluate, LogarithmicHalo.Rforce,
        LogarithmicHalo.zforce, LogarithmicHalo.phitorque, LogarithmicHalo.Rt2, h]

theorem MiyamotoNagai.smoothOn (scalar : Bool) (a b : ℝ) :
    SmoothOn (MiyamotoNagai.pot scalar a b) {p : ℝ × ℝ × ℝ | 0 < p.2.1 ^ 2 + b ^ 2 ∧
      0 < p.1 ^ 2 + (a + √(p.2.1 ^ 2 + b ^ 2)) ^ 2} := by
  refine (MiyamotoNagai.consistent scalar a b).smoothOn_axi
    (IsOpen.and (isOpen_lt (by fun_prop) (by fun_prop)) (isOpen_lt (by fun_prop) (by fun_prop))) ?_
  intro R z φ ⟨h, h'⟩
  have h1 := h.ne'
  have h2 := (sqrt_pos.2 h)
  have h3 := h'.ne'
  have h4 := (sqrt_pos.2 h')
  refine ⟨?_, ?_, ?_⟩
  · simp only [MiyamotoNagai.evaluate]
    fun_prop (disch := first | assumption | positivity | simp_all)
  · simp only [MiyamotoNagai.Rforce]
    fun_prop (disch := first | assumption | positivity | simp_all)
  · have ev : ∀ᶠ p : ℝ × ℝ × ℝ in 𝓝 (R, z, φ), 0 < p.2.1 ^ 2 + b ^ 2 :=
      (isOpen_lt (f := fun _ => 0) (by fun_prop) (by fun_prop)).mem_nhds h
    refine DifferentiableAt.congr_of_eventuallyEq ?_ (ev.mono fun p k => MiyamotoNagai.zforce_eq k)
    fun_prop (disch := first | assumption | positivity | simp_all)

theorem PowerSpherical.smoothOn (α : ℝ) :
    SmoothOn (PowerSpherical.pot α) {p : ℝ × ℝ × ℝ | 0 < p.1 ^ 2 + p.2.1 ^ 2} := by
  refine (PowerSpherical.consistent α).smoothOn_axi (isOpen_lt (by fun_prop) (by fun_prop)) ?_
  intro R z φ h
  have h1 := h.ne'
  have h2 : ∀ b : ℝ, (R ^ 2 + z ^ 2) ^ b ≠ 0 := fun b => (rpow_pos_of_pos h b).ne'
  refine ⟨?_, ?_, ?_⟩
  all_goals
    by_cases hα : α = 2
    all_goals
      simp only [PowerSpherical.evaluate, PowerSpherical.Rforce, PowerSpherical.zforce, hα, if_true,
        if_false]
      fun_prop (disch := first | assumption | positivity | simp_all)

theorem FlattenedPower.smoothOn (α c2 : ℝ) {q2 : ℝ} (hq : q2 ≠ 0) :
    SmoothOn (FlattenedPower.pot α q2 c2) {p : ℝ × ℝ × ℝ | 0 < c2 + p.1 ^ 2 + p.2.1 ^ 2 / q2} := by
  refine (FlattenedPower.consistent α c2 hq).smoothOn_axi (isOpen_lt (by fun_prop) (by fun_prop)) ?_
  intro R z φ h
  have h1 := h.ne'
  have h3 : R ^ 2 + z ^ 2 / q2 + c2 ≠ 0 := by convert h1 using 1; ring
  have h2 : ∀ b : ℝ, (c2 + R ^ 2 + z ^ 2 / q2) ^ b ≠ 0 := fun b => (rpow_pos_of_pos h b).ne'
  refine ⟨?_, ?_, ?_⟩
  all_goals
    by_cases hα : α = 0
    all_goals
      simp only [FlattenedPower.evaluate, FlattenedPower.Rforce, FlattenedPower.zforce, hα, if_true,
        if_false]
      fun_prop (disch := first | assumption | positivity | simp_all)

theorem KuzminDisk.smoothOn {a : ℝ} (ha : 0 ≤ a) :
    SmoothOn (KuzminDisk.pot a) {p : ℝ × ℝ × ℝ | p.2.1 ≠ 0} := by
  refine (KuzminDisk.consistent ha).smoothOn_axi (isOpen_ne_fun (by fun_prop) (by fun_prop)) ?_
  intro R z φ h
  have h1 := KuzminDisk.denom_pos ha h (R := R)
  have ha : DifferentiableAt ℝ (fun p : ℝ × ℝ × ℝ => |p.2.1|) (R, z, φ) :=
    DifferentiableAt.comp (g := fun x : ℝ => |x|) (R, z, φ) (KuzminDisk.hd_abs h).differentiableAt
      differentiableAt_snd.fst
  have hs : DifferentiableAt ℝ (fun p : ℝ × ℝ × ℝ => Real.sign p.2.1) (R, z, φ) :=
    DifferentiableAt.comp (g := fun x : ℝ => Real.sign x) (R, z, φ)
      (KuzminDisk.hd_sign h).differentiableAt differentiableAt_snd.fst
  have hden : ∀ b : ℝ, DifferentiableAt ℝ (fun p : ℝ × ℝ × ℝ => KuzminDisk.denom a p.1 p.2.1 ^ b) (R, z, φ) := by
    intro b
    have : DifferentiableAt ℝ (fun p : ℝ × ℝ × ℝ => KuzminDisk.denom a p.1 p.2.1) (R, z, φ) := by
      unfold KuzminDisk.denom
      exact (differentiableAt_fst.pow 2).add (((differentiableAt_const a).add ha).pow 2)
    exact this.rpow_const (Or.inl h1.ne')
  exact ⟨(hden _).neg, (hden _).neg.mul differentiableAt_fst,
    (hs.neg.mul (hden _)).mul ((differentiableAt_const a).add ha)⟩

namespace Spherical

theorem smoothOn {P : Radial} {S : Set ℝ} (ok : RadialOK P S) :
    SmoothOn (pot P) {p : ℝ × ℝ × ℝ | Dom S p.1 p.2.1 p.2.2} := by
  have hc : Continuous (fun p : ℝ × ℝ × ℝ => √(p.1 ^ 2 + p.2.1 ^ 2)) := by fun_prop
  have key : ∀ R z φ t, Dom S R z φ →
      DifferentiableAt ℝ (fun p : ℝ × ℝ × ℝ => P.val (√(p.1 ^ 2 + p.2.1 ^ 2)) t) (R, z, φ) ∧
      DifferentiableAt ℝ (fun p : ℝ × ℝ × ℝ => P.force (√(p.1 ^ 2 + p.2.1 ^ 2)) t) (R, z, φ) := by
    intro R z φ t h
    have h1 := (Dom.pos ok.pos h).ne'
    have hr : DifferentiableAt ℝ (fun p : ℝ × ℝ × ℝ => √(p.1 ^ 2 + p.2.1 ^ 2)) (R, z, φ) := by
      fun_prop (disch := simpa using h1)
    exact ⟨DifferentiableAt.comp (g := fun r => P.val r t) (R, z, φ)
        (ok.force _ h t).differentiableAt hr,
      DifferentiableAt.comp (g := fun r => P.force r t) (R, z, φ) (ok.d2 _ h t).differentiableAt hr⟩
  refine (consistent ok).smoothOn (ok.isOpen.preimage hc) (fun R z φ t h => (key R z φ t h).1)
    fun R z φ t h => ?_
  have h1 := (Dom.pos ok.pos h).ne'
  have h2 : √(R ^ 2 + z ^ 2) ≠ 0 := (ok.pos _ h).ne'
  have hr : DifferentiableAt ℝ (fun p : ℝ × ℝ × ℝ => √(p.1 ^ 2 + p.2.1 ^ 2)) (R, z, φ) := by
    fun_prop (disch := simpa using h1)
  have hi : DifferentiableAt ℝ (fun p : ℝ × ℝ × ℝ => (√(p.1 ^ 2 + p.2.1 ^ 2))⁻¹) (R, z, φ) :=
    hr.fun_inv h2
  have hk := (key R z φ t h).2
  refine ⟨?_, ?_, differentiableAt_const 0⟩
  · simp only [pot, Rforce, div_eq_mul_inv]
    exact (hk.mul differentiableAt_fst).mul hi
  · simp only [pot, zforce, div_eq_mul_inv]
    exact (hk.mul differentiableAt_snd.fst).mul hi

end Spherical

theorem Burkert.smoothOn {a : ℝ} (ha : 0 < a) :
    SmoothOn (Burkert.pot a) {p : ℝ × ℝ × ℝ | Spherical.Dom (Set.Ioi 0) p.1 p.2.1 p.2.2} :=
  Spherical.smoothOn (Burkert.radialOK ha)

theorem SphericalShell.smoothOn {a : ℝ} (ha : 0 < a) :
    SmoothOn (SphericalShell.pot a)
      {p : ℝ × ℝ × ℝ | Spherical.Dom {r | 0 < r ∧ r ≠ a} p.1 p.2.1 p.2.2} :=
  Spherical.smoothOn (SphericalShell.radialOK ha)

theorem Hernquist.smoothOn {a : ℝ} (ha : 0 < a) :
    SmoothOn (Hernquist.pot a) {p : ℝ × ℝ × ℝ | Spherical.Dom (Set.Ioi 0) p.1 p.2.1 p.2.2} := by
  refine (Hernquist.consistent ha).smoothOn_congr (Spherical.smoothOn (Hernquist.radialOK ha)) ?_
  intro R z φ t h
  have hr : 0 < √(R ^ 2 + z ^ 2) := h
  simp only [Hernquist.pot, Pot.axi, Hernquist.evaluate, Spherical.pot, Spherical.evaluate,
    Hernquist.radial, Spherical.stat]
  field_simp
  ring

theorem Jaffe.smoothOn {a : ℝ} (ha : 0 < a) :
    SmoothOn (Jaffe.pot a) {p : ℝ × ℝ × ℝ | Spherical.Dom (Set.Ioi 0) p.1 p.2.1 p.2.2} :=
  (Jaffe.consistent ha).smoothOn_congr (Spherical.smoothOn (Jaffe.radialOK ha))
    fun _ _ _ _ _ => rfl

theorem NFW.smoothOn {a : ℝ} (ha : 0 < a) :
    SmoothOn (NFW.pot a) {p : ℝ × ℝ × ℝ | Spherical.Dom (Set.Ioi 0) p.1 p.2.1 p.2.2} := by
  refine (NFW.consistent ha).smoothOn_congr (Spherical.smoothOn (NFW.radialOK ha)) ?_
  intro R z φ t h
  have hr : √(R ^ 2 + z ^ 2) ≠ 0 := (show 0 < √(R ^ 2 + z ^ 2) from h).ne'
  simp only [NFW.pot, Pot.axi, NFW.evaluate, Spherical.pot, Spherical.evaluate,
    NFW.radial, Spherical.stat, hr, if_false]

theorem DehnenCore.smoothOn {a : ℝ} (ha : 0 < a) :
    SmoothOn (DehnenCore.pot a) {p : ℝ × ℝ × ℝ | Spherical.Dom (Set.Ioi 0) p.1 p.2.1 p.2.2} := by
  refine (DehnenCore.consistent ha).smoothOn_congr (Spherical.smoothOn (DehnenCore.radialOK ha)) ?_
  intro R z φ t h
  have hr : 0 < √(R ^ 2 + z ^ 2) := h
  simp only [DehnenCore.pot, Pot.axi, DehnenCore.evaluate, Spherical.pot, Spherical.evaluate,
    DehnenCore.radial, Spherical.stat]
  field_simp

theorem PseudoIsothermal.smoothOn {a : ℝ} (ha : 0 < a) :
    SmoothOn (PseudoIsothermal.pot a) {p : ℝ × ℝ × ℝ | Spherical.Dom (Set.Ioi 0) p.1 p.2.1 p.2.2} := by
  refine (PseudoIsothermal.consistent ha).smoothOn_congr (Spherical.smoothOn (PseudoIsothermal.radialOK ha)) ?_
  intro R z φ t h
  have hr : √(R ^ 2 + z ^ 2) ≠ 0 := (show 0 < √(R ^ 2 + z ^ 2) from h).ne'
  have h2 : R ^ 2 + z ^ 2 = √(R ^ 2 + z ^ 2) ^ 2 := (sq_sqrt (Spherical.Dom.pos (fun _ k => k) h).le).symm
  simp only [PseudoIsothermal.pot, Pot.axi, PseudoIsothermal.evaluate, Spherical.pot, Spherical.evaluate,
    PseudoIsothermal.radial, Spherical.stat, hr, if_false]
  rw [← h2]

theorem Dehnen.smoothOn {a α : ℝ} (ha : 0 < a) (h2 : α ≠ 2) (h3 : α ≠ 3) :
    SmoothOn (Dehnen.pot a α) {p : ℝ × ℝ × ℝ | Spherical.Dom (Set.Ioi 0) p.1 p.2.1 p.2.2} := by
  refine (Dehnen.consistent ha h2 h3).smoothOn_congr (Spherical.smoothOn (Dehnen.radialOK ha h2 h3)) ?_
  intro R z φ t h
  have hr : 0 < √(R ^ 2 + z ^ 2) := h
  simp only [Dehnen.pot, Pot.axi, Dehnen.evaluate, Spherical.pot, Spherical.evaluate,
    Dehnen.radial, Spherical.stat]
  generalize √(R ^ 2 + z ^ 2) = r at *
  have k1 : 0 < r + a := by positivity
  have p1 := rpow_pos_of_pos hr α
  have p2 := rpow_pos_of_pos k1 α
  obtain ⟨q1, -⟩ := Dehnen.pows α ha hr
  rw [q1]
  generalize r ^ α = p at *
  generalize (r + a) ^ α = q at *
  field_simp

end Verif
