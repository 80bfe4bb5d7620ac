import Verif.Lemmas.Pot.DehnenBar
import Verif.Lemmas.Pot.Ops
import Verif.Props.C54
import Mathlib.Tactic.NormNum

set_option autoImplicit false

/-!
# C54 (and C01, C02, C03, C51) for `DehnenBarPotential`

Gradient, second derivatives and Poisson equation of the bar in three dimensions, the documented
formula, the constructor's resonance arithmetic, and the C functions.
-/

namespace Verif
open Real

/-- DehnenBar: off the axis, at every radius including the bar radius. -/
theorem C01_DehnenBar (amp : ℝ) (k : DehnenBar.Par) (R z φ t : ℝ) (hb : k.rb ≠ 0) (hR : R ≠ 0) :
    GradAt ((DehnenBar.pot k).scale amp) R z φ t := (DehnenBar.grad k hb z φ t hR).scale amp
example : GradAt ((DehnenBar.pot ⟨1, 0, 1, 1, 1, 0⟩).scale 2) 1 0 0 0 :=
  C01_DehnenBar 2 ⟨1, 0, 1, 1, 1, 0⟩ 1 0 0 0 one_ne_zero one_ne_zero

/-- DehnenBar: away from the bar radius, where the second derivatives jump. -/
theorem C02_DehnenBar (amp : ℝ) (k : DehnenBar.Par) (R z φ t : ℝ) (hb : k.rb ≠ 0) (hR : R ≠ 0)
    (hr : √(R ^ 2 + z ^ 2) ≠ k.rb) : HessAt ((DehnenBar.pot k).scale amp) R z φ t :=
  (DehnenBar.hess k hb z φ t hR hr).scale amp
example : HessAt ((DehnenBar.pot ⟨1, 0, 1, -1, 1, 0⟩).scale 2) 1 0 0 0 :=
  C02_DehnenBar 2 ⟨1, 0, 1, -1, 1, 0⟩ 1 0 0 0 (by norm_num) one_ne_zero (by norm_num)

/-- DehnenBar: the density (computed by the base class from the derivatives) satisfies the Poisson
equation. -/
theorem C03_DehnenBar (amp : ℝ) (k : DehnenBar.Par) (R z φ t : ℝ) (hb : k.rb ≠ 0) (hR : R ≠ 0)
    (hr : √(R ^ 2 + z ^ 2) ≠ k.rb) : PoissonAt ((DehnenBar.pot k).scale amp) R z φ t :=
  (DehnenBar.poisson k hb z φ t hR hr).scale amp
example : PoissonAt ((DehnenBar.pot ⟨1, 0, 1, -1, 1, 0⟩).scale 2) 1 0 0 0 :=
  C03_DehnenBar 2 ⟨1, 0, 1, -1, 1, 0⟩ 1 0 0 0 (by norm_num) one_ne_zero (by norm_num)

/-- DehnenBar: forces. -/
theorem C51_DehnenBar_force (amp : ℝ) (k : DehnenBar.Par) (R z φ t : ℝ) :
    DehnenBar.cRforce (DehnenBar.cArgs amp k) R z φ t
      = ((DehnenBar.pot k).scale amp).Rforce R z φ t ∧
    DehnenBar.czforce (DehnenBar.cArgs amp k) R z φ t
      = ((DehnenBar.pot k).scale amp).zforce R z φ t ∧
    DehnenBar.cphitorque (DehnenBar.cArgs amp k) R z φ t
      = ((DehnenBar.pot k).scale amp).phitorque R z φ t := DehnenBar.c3_eq amp k R z φ t
example : DehnenBar.cRforce (DehnenBar.cArgs 2 ⟨1, 0, 1, 1, 1, 0⟩) 1 1 0 0
    = ((DehnenBar.pot ⟨1, 0, 1, 1, 1, 0⟩).scale 2).Rforce 1 1 0 0 :=
  (C51_DehnenBar_force 2 ⟨1, 0, 1, 1, 1, 0⟩ 1 1 0 0).1

/-- DehnenBar: second derivatives. -/
theorem C51_DehnenBar_hess (amp : ℝ) (k : DehnenBar.Par) (R z φ t : ℝ) (hb : 0 < k.rb)
    (h : 0 < R ^ 2 + z ^ 2) :
    DehnenBar.cR2deriv (DehnenBar.cArgs amp k) R z φ t
      = ((DehnenBar.pot k).scale amp).R2deriv R z φ t ∧
    DehnenBar.cz2deriv (DehnenBar.cArgs amp k) R z φ t
      = ((DehnenBar.pot k).scale amp).z2deriv R z φ t ∧
    DehnenBar.cRzderiv (DehnenBar.cArgs amp k) R z φ t
      = ((DehnenBar.pot k).scale amp).Rzderiv R z φ t ∧
    DehnenBar.cphi2deriv (DehnenBar.cArgs amp k) R z φ t
      = ((DehnenBar.pot k).scale amp).phi2deriv R z φ t ∧
    DehnenBar.cRphideriv (DehnenBar.cArgs amp k) R z φ t
      = ((DehnenBar.pot k).scale amp).Rphideriv R z φ t ∧
    DehnenBar.czphideriv (DehnenBar.cArgs amp k) R z φ t
      = ((DehnenBar.pot k).scale amp).phizderiv R z φ t := DehnenBar.cHess_eq amp k hb φ t h
example : DehnenBar.cR2deriv (DehnenBar.cArgs 2 ⟨1, 0, 1, 1, 1, 0⟩) 1 1 0 0
    = ((DehnenBar.pot ⟨1, 0, 1, 1, 1, 0⟩).scale 2).R2deriv 1 1 0 0 :=
  (C51_DehnenBar_hess 2 ⟨1, 0, 1, 1, 1, 0⟩ 1 1 0 0 one_pos (by norm_num)).1

/-- DehnenBar: the planar functions. -/
theorem C51_DehnenBar_planar (amp : ℝ) (k : DehnenBar.Par) (R φ t : ℝ) (hb : k.rb ≠ 0)
    (hR : 0 < R) :
    DehnenBar.cPlanarRforce (DehnenBar.cArgs amp k) R φ t
      = ((DehnenBar.pot k).scale amp).Rforce R 0 φ t ∧
    DehnenBar.cPlanarphitorque (DehnenBar.cArgs amp k) R φ t
      = ((DehnenBar.pot k).scale amp).phitorque R 0 φ t ∧
    DehnenBar.cPlanarR2deriv (DehnenBar.cArgs amp k) R φ t
      = ((DehnenBar.pot k).scale amp).R2deriv R 0 φ t ∧
    DehnenBar.cPlanarphi2deriv (DehnenBar.cArgs amp k) R φ t
      = ((DehnenBar.pot k).scale amp).phi2deriv R 0 φ t ∧
    DehnenBar.cPlanarRphideriv (DehnenBar.cArgs amp k) R φ t
      = ((DehnenBar.pot k).scale amp).Rphideriv R 0 φ t := DehnenBar.cPlanar_eq amp k hb φ t hR
example : DehnenBar.cPlanarRforce (DehnenBar.cArgs 2 ⟨1, 0, 1, 1, 1, 0⟩) 1 0 0
    = ((DehnenBar.pot ⟨1, 0, 1, 1, 1, 0⟩).scale 2).Rforce 1 0 0 0 :=
  (C51_DehnenBar_planar 2 ⟨1, 0, 1, 1, 1, 0⟩ 1 0 0 one_ne_zero one_pos).1

/-! ### The documented formula -/

/-- The value is the documented formula (with the angle measured from the bar's angle `barphi`),
off the axis; the growth factor is the documented one when the pattern speed is positive, times
being in units of the bar period, or zero, times being plain. -/
theorem C54_DehnenBar_value (amp chi rolr barphi f s beta alpha Ω rb af R z φ t : ℝ) (hR : R ≠ 0)
    (hs : 0 < s) (hΩ : 0 ≤ Ω) :
    let k := DehnenBar.init (some (Ω, rb, af)) chi rolr barphi f (some s) beta alpha
    let r := √(R ^ 2 + z ^ 2)
    ∃ g, C54Spec.Grown f s (t / (if Ω = 0 then 1 else 2 * π / Ω)) g ∧
      (rb ≤ r → ((DehnenBar.pot k).scale amp).val R z φ t
        = amp * (af * g) * cos (2 * (φ - barphi - Ω * t)) * (R / r) ^ 2 * -(rb / r) ^ 3) ∧
      (rb ≠ 0 → r ≤ rb → ((DehnenBar.pot k).scale amp).val R z φ t
        = amp * (af * g) * cos (2 * (φ - barphi - Ω * t)) * (R / r) ^ 2 * ((r / rb) ^ 3 - 2)) := by
  intro k r
  have h : 0 < R ^ 2 + z ^ 2 := by positivity
  have hs0 : 0 < r := sqrt_pos.2 h
  have hq : r ^ 2 = R ^ 2 + z ^ 2 := sq_sqrt h.le
  have hang : DehnenBar.ang k φ t = 2 * (φ - barphi - Ω * t) := by
    show 2 * (φ - Ω * t - barphi) = _
    ring
  have hrb : k.rb = rb := rfl
  have haf : k.af = af := rfl
  have hout : (1 + z ^ 2 / R ^ 2) = r ^ 2 / R ^ 2 := by rw [hq]; field_simp
  have e : ∀ x, r ≤ rb ∧ x = af * DehnenBar.smooth k t * cos (2 * (φ - barphi - Ω * t))
        * ((r / rb) ^ 3 - 2) * R ^ 2 / r ^ 2 ∨ ¬ r ≤ rb ∧ x = -af * DehnenBar.smooth k t
        * cos (2 * (φ - barphi - Ω * t)) * (rb / r) ^ 3 * 1 / (r ^ 2 / R ^ 2) →
      (DehnenBar.pot k).val R z φ t = x := by
    intro x hx
    dsimp only [DehnenBar.pot, DehnenBar.evaluate]
    rw [hang, hrb, haf, hout, ← hq, sqrt_sq hs0.le, if_neg hs0.ne']
    rcases hx with ⟨h1, rfl⟩ | ⟨h1, rfl⟩
    · rw [if_pos h1]
    · rw [if_neg h1]
  refine ⟨DehnenBar.smooth k t, ?_, fun h1 => ?_, fun h0 h1 => ?_⟩
  · have hT : 0 < (if Ω = 0 then 1 else 2 * π / Ω) := by
      rcases hΩ.eq_or_lt with h | h
      · rw [if_pos h.symm]; exact one_pos
      · rw [if_neg h.ne']; positivity
    have : DehnenBar.smooth k t = Wrap.dehnenSmooth (f * (if Ω = 0 then 1 else 2 * π / Ω))
        (f * (if Ω = 0 then 1 else 2 * π / Ω) + s * (if Ω = 0 then 1 else 2 * π / Ω)) true t := by
      dsimp only [DehnenBar.smooth, k, DehnenBar.init]
      rw [ite_not]
    rw [this]
    exact C54aux.grown hs hT t
  · show amp * (DehnenBar.pot k).val R z φ t = _
    rcases h1.lt_or_eq with h2 | h2
    · rw [e _ (Or.inr ⟨not_le.2 h2, rfl⟩)]
      field_simp
    · rw [e _ (Or.inl ⟨h2.ge, rfl⟩), h2, div_self hs0.ne']
      field_simp
      ring
  · show amp * (DehnenBar.pot k).val R z φ t = _
    rw [e _ (Or.inl ⟨h1, rfl⟩)]
    field_simp
example : let k := DehnenBar.init (some (1, 2, 3)) 0 0 0 (-4) (some 2) 0 0
    let r := √((1 : ℝ) ^ 2 + 1 ^ 2)
    ∃ g, C54Spec.Grown (-4) 2 (0 / (if (1 : ℝ) = 0 then 1 else 2 * π / 1)) g ∧
      (2 ≤ r → ((DehnenBar.pot k).scale 5).val 1 1 0 0
        = 5 * (3 * g) * cos (2 * (0 - 0 - 1 * 0)) * (1 / r) ^ 2 * -(2 / r) ^ 3) ∧
      ((2 : ℝ) ≠ 0 → r ≤ 2 → ((DehnenBar.pot k).scale 5).val 1 1 0 0
        = 5 * (3 * g) * cos (2 * (0 - 0 - 1 * 0)) * (1 / r) ^ 2 * ((r / 2) ^ 3 - 2)) :=
  C54_DehnenBar_value 5 0 0 0 (-4) 2 0 0 1 2 3 1 1 0 0 one_ne_zero two_pos zero_le_one

/-- The default growth interval: not given, `tsteady` is `-tform/2` (in bar periods). -/
theorem C54_DehnenBar_default_growth (free : Option (ℝ × ℝ × ℝ))
    (chi rolr barphi f beta alpha : ℝ) :
    DehnenBar.init free chi rolr barphi f none beta alpha
      = DehnenBar.init free chi rolr barphi f (some (-f / 2)) beta alpha := by
  rcases free with _ | ⟨a, b, c⟩ <;> dsimp only [DehnenBar.init] <;> congr 1 <;> ring
example : DehnenBar.init (some (1, 2, 3)) 0 0 0 (-4) none 0 0
    = DehnenBar.init (some (1, 2, 3)) 0 0 0 (-4) (some (- -4 / 2)) 0 0 :=
  C54_DehnenBar_default_growth _ _ _ _ _ _ _

/-- For a retrograde bar (negative pattern speed) the period `2 π/Ω_b` is negative and with the
default `tform = -4` the bar is switched off at `t = 0`, although the documented amplitude there is
the full one. -/
theorem C54_DehnenBar_retrograde_fails (chi rolr barphi beta alpha Ω rb af : ℝ) (hΩ : Ω < 0) :
    DehnenBar.smooth (DehnenBar.init (some (Ω, rb, af)) chi rolr barphi (-4) none beta alpha) 0 = 0 ∧
    ∀ g, C54Spec.Grown (-4) 2 (0 / (2 * π / Ω)) g → g = 1 := by
  have hT : 2 * π / Ω < 0 := div_neg_of_pos_of_neg (by positivity) hΩ
  refine ⟨?_, fun g hg => hg.2.2 (by norm_num)⟩
  have : 0 < -4 * (2 * π / Ω) := by linarith
  dsimp only [DehnenBar.smooth, DehnenBar.init]
  rw [if_pos hΩ.ne]
  simp only [Wrap.dehnenSmooth, if_pos this, if_true]
example : DehnenBar.smooth (DehnenBar.init (some (-1, 1, 1)) 1 1 0 (-4) none 0 1) 0 = 0 :=
  (C54_DehnenBar_retrograde_fails 1 1 0 0 1 (-1) 1 1 (by norm_num)).1

namespace C54Spec

/-- Circular frequency of the rotation curve `v_c = R^β`. -/
noncomputable def Ω (β R : ℝ) : ℝ := R ^ β / R
/-- Squared epicycle frequency of that rotation curve, `κ² = R dΩ²/dR + 4 Ω²`. -/
noncomputable def κ2 (β R : ℝ) : ℝ := R * deriv (fun x => Ω β x ^ 2) R + 4 * Ω β R ^ 2

end C54Spec

/-- The constructor's alternative parametrisation: with `chi, rolr, alpha, beta` the pattern speed
is such that the outer Lindblad resonance `Ω + κ/2 = Ω_b` of the rotation curve `R^β` lies at
`rolr`, the bar radius is `chi` times the corotation radius, and the bar strength is the documented
`α = 3 A_f R_b³`. -/
theorem C54_DehnenBar_resonances (chi rolr barphi f beta alpha : ℝ) (s : Option ℝ) (hr : 0 < rolr)
    (hβ : -1 ≤ beta) (hβ1 : beta ≠ 1) (hc : 0 < chi) :
    let k := DehnenBar.init none chi rolr barphi f s beta alpha
    k.omegab = C54Spec.Ω beta rolr + √(C54Spec.κ2 beta rolr) / 2 ∧
    0 < k.rb ∧ C54Spec.Ω beta (k.rb / chi) = k.omegab ∧
    alpha = 3 * k.af * k.rb ^ 3 := by
  intro k
  set w := 1 + √((1 + beta) / 2) with hw
  have hw0 : 0 < w := by positivity
  have h1 : k.omegab = rolr ^ (beta - 1) * w := by
    show 1 / (rolr ^ (1 - beta) / w) = _
    rw [show beta - 1 = -(1 - beta) by ring, rpow_neg hr.le]
    have := rpow_pos_of_pos hr (1 - beta)
    field_simp
  have hp0 : 0 < k.omegab := by rw [h1]; have := rpow_pos_of_pos hr (beta - 1); positivity
  have hΩ : ∀ x : ℝ, 0 < x → C54Spec.Ω beta x = x ^ (beta - 1) := fun x hx =>
    (rpow_sub_one hx.ne' beta).symm
  have hcr : 0 < k.omegab ^ (1 / (beta - 1)) := rpow_pos_of_pos hp0 _
  have hrb : k.rb = chi * k.omegab ^ (1 / (beta - 1)) := rfl
  have hrb0 : 0 < k.rb := by rw [hrb]; positivity
  refine ⟨?_, hrb0, ?_, ?_⟩
  · have hκ : C54Spec.κ2 beta rolr = (rolr ^ (beta - 1)) ^ 2 * (2 * (1 + beta)) := by
      have hd : HasDerivAt (fun x => C54Spec.Ω beta x ^ 2)
          (2 * rolr ^ (beta - 1) * ((beta - 1) * rolr ^ (beta - 1 - 1))) rolr := by
        refine HasDerivAt.congr_of_eventuallyEq (f := fun x => (x ^ (beta - 1)) ^ 2) ?_
          ((lt_mem_nhds hr).mono fun x hx => by beta_reduce; rw [hΩ x hx])
        have := (hasDerivAt_rpow_const (p := beta - 1) (Or.inl hr.ne')).fun_pow 2
        exact this.congr_deriv (by simp)
      unfold C54Spec.κ2
      rw [hd.deriv, hΩ _ hr, rpow_sub_one hr.ne' (beta - 1)]
      field_simp
      ring
    have e4 : 2 * (1 + beta) = 2 ^ 2 * ((1 + beta) / 2) := by ring
    rw [hκ, sqrt_mul (sq_nonneg _), sqrt_sq (rpow_pos_of_pos hr _).le, hΩ _ hr, e4,
      sqrt_mul (by norm_num), sqrt_sq (by norm_num), h1, hw]
    ring
  · rw [hrb, mul_div_cancel_left₀ _ hc.ne', hΩ _ hcr, ← rpow_mul hp0.le,
      one_div_mul_cancel (sub_ne_zero.2 hβ1), rpow_one]
  · show alpha = 3 * (alpha / 3 / k.rb ^ 3) * k.rb ^ 3
    field_simp
example : let k := DehnenBar.init none 0.8 0.9 0 (-4) none 0 0.01
    k.omegab = C54Spec.Ω 0 0.9 + √(C54Spec.κ2 0 0.9) / 2 :=
  (C54_DehnenBar_resonances 0.8 0.9 0 (-4) 0 0.01 none (by norm_num) (by norm_num) (by norm_num)
    (by norm_num)).1

/-- The array code path of the value agrees with the scalar one off the axis; -/
theorem C54_DehnenBar_array (k : DehnenBar.Par) (R z φ t : ℝ) (hR : R ≠ 0) :
    DehnenBar.evaluateArr k R z φ t = (DehnenBar.pot k).val R z φ t :=
  DehnenBar.evaluateArr_eq k z φ t hR
example : DehnenBar.evaluateArr ⟨1, 0, 1, 1, 1, 0⟩ 1 0 0 0
    = (DehnenBar.pot ⟨1, 0, 1, 1, 1, 0⟩).val 1 0 0 0 := C54_DehnenBar_array _ 1 0 0 0 one_ne_zero

/-- but on the axis inside the bar radius the array path returns a non-zero value where the scalar
path returns zero (and every limit towards the axis at that height is zero), for every bar that is
switched on. -/
theorem C54_DehnenBar_array_axis_fails (k : DehnenBar.Par) (z φ t : ℝ) (hz : z ≠ 0)
    (hb : |z| < k.rb) (hk : k.af * DehnenBar.smooth k t * cos (DehnenBar.ang k φ t) ≠ 0) :
    (DehnenBar.pot k).val 0 z φ t = 0 ∧ DehnenBar.evaluateArr k 0 z φ t ≠ 0 := by
  have e : √((0 : ℝ) ^ 2 + z ^ 2) = |z| := by
    rw [zero_pow two_ne_zero, zero_add, sqrt_sq_eq_abs]
  have hz0 : 0 < |z| := abs_pos.2 hz
  constructor
  · dsimp only [DehnenBar.pot, DehnenBar.evaluate]
    rw [e, if_neg hz0.ne', if_pos hb.le]
    simp
  · dsimp only [DehnenBar.evaluateArr]
    rw [e, if_pos hb.le, if_neg (by simp)]
    refine mul_ne_zero ?_ hk
    have h1 : |z| / k.rb < 1 := (div_lt_one (hz0.trans hb)).2 hb
    have h0 : 0 ≤ |z| / k.rb := (div_pos hz0 (hz0.trans hb)).le
    have : (|z| / k.rb) ^ 3 ≤ 1 := pow_le_one₀ h0 h1.le
    rw [mul_one]
    intro h
    linarith
example : (DehnenBar.pot ⟨1, -1, -1, 3, 0, 0⟩).val 0 1 0 0 = 0 ∧
    DehnenBar.evaluateArr ⟨1, -1, -1, 3, 0, 0⟩ 0 1 0 0 ≠ 0 :=
  C54_DehnenBar_array_axis_fails ⟨1, -1, -1, 3, 0, 0⟩ 1 0 0 one_ne_zero (by norm_num)
    (by norm_num [DehnenBar.smooth, Wrap.dehnenSmooth, DehnenBar.ang])

end Verif
