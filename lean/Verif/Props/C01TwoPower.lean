import Verif.Lemmas.Pot.TwoPowerGeneric
import Verif.Lemmas.Pot.Sum
import Verif.Props.C04

set_option autoImplicit false

/-!
# C01, C02, C03, C04, C51 for TwoPowerSphericalPotential with arbitrary exponents

Inner slopes `α < 3` (finite mass within every radius).  Forces, second derivatives, density and mass are covered for every
outer slope `β`; the value for `β ≥ 3`.
-/

noncomputable section
namespace Verif
open Real Filter Topology Set

namespace C01aux
namespace TP
open TwoPower
/-- A point of the domain. -/
theorem dom {R z : ℝ} (φ : ℝ) (h : 0 < R ^ 2 + z ^ 2) : Spherical.Dom (Ioi 0) R z φ := sqrt_pos.2 h

/-- Case distinction over `_specialSelf`. -/
theorem special_elim {α β : ℝ} {core hern jaf nfw other : ℝ → ℝ → ℝ} {p : ℝ → ℝ → (ℝ → ℝ → ℝ) → Prop}
    (h0 : p 0 4 core) (h1 : p 1 4 hern) (h2 : p 2 4 jaf) (h3 : p 1 3 nfw) (h4 : p α β other) :
    p α β (special α β core hern jaf nfw other) := by
  unfold special
  split_ifs with c0 c1 c2 c3
  · rw [c0.1, c0.2]; exact h0
  · rw [c1.1, c1.2]; exact h1
  · rw [c2.1, c2.2]; exact h2
  · rw [c3.1, c3.2]; exact h3
  · exact h4

theorem Rf {a α β : ℝ} (ha : 0 < a) (h : α < 3) (R z r : ℝ) (hr : 0 < r) (e : √(R ^ 2 + z ^ 2) = r) :
    special α β (DehnenCore.Rforce a) (Hernquist.Rforce a) (Jaffe.Rforce a) (NFW.Rforce a) (Rforce a α β) R z
      = -R * (mG a α β r / r ^ 3) :=
  special_elim (p := fun α β f => f R z = -R * (mG a α β r / r ^ 3)) ((closed_core ha).eR R z r hr e)
    ((closed_hern ha).eR R z r hr e) ((closed_jaffe ha).eR R z r hr e) ((closed_nfw ha).eR R z r hr e)
    (Rforce_eq β ha h hr e)
theorem zf {a α β : ℝ} (ha : 0 < a) (h : α < 3) (R z r : ℝ) (hr : 0 < r) (e : √(R ^ 2 + z ^ 2) = r) :
    special α β (DehnenCore.zforce a) (Hernquist.zforce a) (Jaffe.zforce a) (NFW.zforce a) (zforce a α β) R z
      = -z * (mG a α β r / r ^ 3) :=
  special_elim (p := fun α β f => f R z = -z * (mG a α β r / r ^ 3)) ((closed_core ha).ez R z r hr e)
    ((closed_hern ha).ez R z r hr e) ((closed_jaffe ha).ez R z r hr e) ((closed_nfw ha).ez R z r hr e)
    (zforce_eq β ha h hr e)

/-- The record with another value. -/
theorem withVal {a α β : ℝ} (ha : 0 < a) (h : α < 3) {v : ℝ → ℝ}
    (hv : ∀ r, 0 < r → HasDerivAt v (mG a α β r / r ^ 2) r) :
    Consistent { pot a α β with val := fun R z _ _ => v √(R ^ 2 + z ^ 2) } (Spherical.Dom (Ioi 0)) :=
  consistent_of β ha h hv (ev := fun R z => v √(R ^ 2 + z ^ 2)) (fun R z r _ e => by rw [e]) (Rf ha h) (zf ha h)

/-- A value that exists for all exponents. -/
def valS (a α β r : ℝ) : ℝ := ∫ x in (1:ℝ)..r, mG a α β x / x ^ 2
theorem valS_deriv {a α : ℝ} (β : ℝ) (ha : 0 < a) (h : α < 3) (r : ℝ) (hr : 0 < r) :
    HasDerivAt (valS a α β) (mG a α β r / r ^ 2) r := by
  have hcont : ∀ x ∈ Ioi (0:ℝ), ContinuousAt (fun x => mG a α β x / x ^ 2) x := fun x hx =>
    (mG_deriv β ha hx h).continuousAt.div (by fun_prop) (pow_ne_zero 2 (ne_of_gt hx))
  refine intervalIntegral.integral_hasDerivAt_right ?_ ?_ (hcont r hr)
  · refine ContinuousOn.intervalIntegrable fun x hx => (hcont x ?_).continuousWithinAt
    exact lt_of_lt_of_le (lt_min one_pos hr) hx.1
  · exact ContinuousOn.stronglyMeasurableAtFilter isOpen_Ioi (s := Ioi 0)
      (fun x hx => (hcont x hx).continuousWithinAt) r hr

/-- The exponents whose value is not evaluated at a shifted radius. -/
def Exact (α β : ℝ) : Prop := (β = 4 ∧ (α = 0 ∨ α = 1 ∨ α = 2)) ∨ (β = 3 ∧ α ≠ 2)

theorem consistent {a α β : ℝ} (ha : 0 < a) (h : α < 3) (ex : Exact α β) :
    Consistent (pot a α β) (Spherical.Dom (Ioi 0)) := by
  have go : ∀ {ev Rf' zf' : ℝ → ℝ → ℝ}, Closed a α β ev Rf' zf' →
      special α β (DehnenCore.evaluate a) (Hernquist.evaluate a) (Jaffe.evaluate a) (NFW.evaluate a) (evaluate a α β) = ev →
      Consistent (pot a α β) (Spherical.Dom (Ioi 0)) := by
    intro ev _ _ c e
    exact consistent_of β ha h c.hv (fun R z r hr k => by rw [e]; exact c.e0 R z r hr k) (Rf ha h) (zf ha h)
  rcases ex with ⟨rfl, rfl | rfl | rfl⟩ | ⟨rfl, h2⟩
  · exact go (closed_core ha) (by norm_num [special])
  · exact go (closed_hern ha) (by norm_num [special])
  · exact go (closed_jaffe ha) (by norm_num [special])
  · by_cases h1 : α = 1
    · subst h1
      exact go (closed_nfw ha) (by norm_num [special])
    · refine go (ev := evaluate a α 3) (Rf' := Rforce a α 3) (zf' := zforce a α 3) ⟨?_, ?_, ?_, ?_⟩
        (by norm_num [special, h1])
      · intro r hr
        simpa only [evaluate, if_true] using eval3_deriv ha h h2 hr
      · intro R z r hr e
        simp only [evaluate, if_true, evaluate3, e, zero_pow two_ne_zero, add_zero, sqrt_sq hr.le]
      · intro R z r hr e; exact Rforce_eq 3 ha h hr e
      · intro R z r hr e; exact zforce_eq 3 ha h hr e

/-- No `_specialSelf`. -/
def Generic (α β : ℝ) : Prop := ¬(β = 4 ∧ (α = 0 ∨ α = 1 ∨ α = 2)) ∧ ¬(β = 3 ∧ α = 1)
theorem special_generic {α β : ℝ} (g : Generic α β) (core hern jaf nfw other : ℝ → ℝ → ℝ) :
    special α β core hern jaf nfw other = other := by
  obtain ⟨g1, g2⟩ := g
  unfold special
  rw [if_neg (fun c => g1 ⟨c.2, Or.inl c.1⟩), if_neg (fun c => g1 ⟨c.2, Or.inr (Or.inl c.1)⟩),
    if_neg (fun c => g1 ⟨c.2, Or.inr (Or.inr c.1)⟩), if_neg (fun c => g2 ⟨c.2, c.1⟩)]

theorem mass_eq {a α : ℝ} (β : ℝ) (ha : 0 < a) (h : α < 3) {r : ℝ} (hr : 0 < r) : mass a α β r = mG a α β r := by
  have h3 : 3 - α ≠ 0 := by linarith
  have k : (r / a) ^ (3 - α) * (r ^ (α - 3) * a ^ (3 - α)) = 1 := by
    rw [← neg_sub 3 α, ← scale_pow ha hr, ← rpow_add (div_pos hr ha)]; simp
  rw [mass, show -α + β = β - α by ring, hyper_eq β ha hr h]
  field_simp
  linear_combination mG a α β r * k

theorem M_zero {p : ℝ} (q : ℝ) (hp : -1 < p) : Tendsto (M p q) (𝓝[>] 0) (𝓝 0) := by
  have hI := (intervalIntegrable_iff_integrableOn_Icc_of_le zero_le_one).1 (M_int q hp zero_le_one)
  have c := intervalIntegral.continuousOn_primitive_interval (μ := MeasureTheory.volume) (a := 0) (b := 1)
    (f := fun x : ℝ => x ^ p * (1 + x) ^ q) (by rw [uIcc_of_le zero_le_one]; exact hI)
  have c0 := (c 0 (by simp)).tendsto
  rw [intervalIntegral.integral_same, uIcc_of_le zero_le_one] at c0
  refine c0.mono_left ?_
  rw [nhdsWithin_Icc_eq_nhdsGE one_pos]
  exact nhdsWithin_mono _ Ioi_subset_Ici_self
end TP
end C01aux
open C01aux

/-- Forces: for the closed forms and for outer slope 3 the forces are minus the gradient of the value. -/
theorem C01_TwoPower {a α β : ℝ} (ha : 0 < a) (h : α < 3)
    (ex : (β = 4 ∧ (α = 0 ∨ α = 1 ∨ α = 2)) ∨ (β = 3 ∧ α ≠ 2)) (amp R z φ t : ℝ) (h0 : 0 < R ^ 2 + z ^ 2) :
    GradAt ((TwoPower.pot a α β).scale amp) R z φ t :=
  ((TP.consistent ha h ex).scale amp).grad R z φ t (TP.dom φ h0)
example : GradAt ((TwoPower.pot 5 1.5 3).scale 3) 1 2 0 0 :=
  C01_TwoPower (by norm_num) (by norm_num) (Or.inr ⟨rfl, by norm_num⟩) _ _ _ _ _ (by norm_num)

/-- For every other outer slope above 3 there is a potential that vanishes at infinity, lies above that of a point of the same
mass, has the forces of the class as minus its gradient, and differs from the returned value by at most
`1e-11 · |amp| · Γ(3-α)Γ(β-3)/Γ(β-α) / r²`.  The returned value is the potential at a radius larger by `1e-11`: see
`C01_TwoPower_shift_fails` for why the gradient of the returned value itself is not the force. -/
theorem C01_TwoPower_shift_partial {a α β : ℝ} (ha : 0 < a) (h : α < 3) (hβ : 3 < β)
    (ng : ¬(β = 4 ∧ (α = 0 ∨ α = 1 ∨ α = 2))) (amp : ℝ) : ∃ Ψ : ℝ → ℝ,
    (∀ r, 0 < r → -(Gamma (3 - α) * Gamma (β - 3) / Gamma (β - α) / r) ≤ Ψ r ∧ Ψ r ≤ 0) ∧
    ∀ R z φ t, 0 < R ^ 2 + z ^ 2 →
      GradAt { (TwoPower.pot a α β).scale amp with val := fun R z _ _ => amp * Ψ √(R ^ 2 + z ^ 2) } R z φ t ∧
      ((TwoPower.pot a α β).scale amp).val R z φ t = amp * Ψ (√(R ^ 2 + z ^ 2) + 1e-11) ∧
      |((TwoPower.pot a α β).scale amp).val R z φ t - amp * Ψ √(R ^ 2 + z ^ 2)|
        ≤ 1e-11 * |amp| * (Gamma (3 - α) * Gamma (β - 3) / Gamma (β - α)) / (R ^ 2 + z ^ 2) := by
  have eB : Gamma (3 - α) * Gamma (β - 3) / Gamma (β - α) = B (3 - α) (β - 3) := by
    rw [B, show 3 - α + (β - 3) = β - α by ring]
  have g : TP.Generic α β := ⟨ng, fun c => by linarith [c.1]⟩
  rw [eB]
  refine ⟨TwoPower.evaluateAt a α β, fun r hr => TwoPower.evalAt_bounds ha h hβ hr, fun R z φ t h0 => ?_⟩
  have hv : ((TwoPower.pot a α β).scale amp).val R z φ t = amp * TwoPower.evaluateAt a α β (√(R ^ 2 + z ^ 2) + 1e-11) := by
    simp only [Pot.scale, TwoPower.pot, Pot.axi, TP.special_generic g, TwoPower.evaluate]
    rw [if_neg (by linarith)]
  refine ⟨((TP.withVal ha h fun r hr => TwoPower.evalAt_deriv ha h hβ hr).scale amp).grad R z φ t (TP.dom φ h0), hv, ?_⟩
  rw [hv, ← mul_sub, abs_mul]
  set r := √(R ^ 2 + z ^ 2) with er
  have hr : 0 < r := sqrt_pos.2 h0
  have er2 : R ^ 2 + z ^ 2 = r ^ 2 := (sq_sqrt h0.le).symm
  have hlt : r < r + 1e-11 := by norm_num
  obtain ⟨c, hc, e⟩ := exists_hasDerivAt_eq_slope (TwoPower.evaluateAt a α β)
    (fun r => TwoPower.mG a α β r / r ^ 2) hlt
    (fun x hx => (TwoPower.evalAt_deriv ha h hβ (hr.trans_le hx.1)).continuousAt.continuousWithinAt)
    (fun x hx => TwoPower.evalAt_deriv ha h hβ (hr.trans hx.1))
  have hc0 : 0 < c := hr.trans hc.1
  have hm := TwoPower.mG_pos β ha hc0 h
  have hmB : TwoPower.mG a α β c ≤ B (3 - α) (β - 3) := by
    have k := TwoPower.M_compl (p := 3 - α) (q := β - 3) (by linarith) (by linarith) (div_pos hc0 ha)
    rw [show 3 - α - 1 = 2 - α by ring, show -(3 - α) - (β - 3) = α - β by ring] at k
    have := TwoPower.M_pos (p := β - 3 - 1) (α - β) (by linarith) (by positivity : 0 < 1 / (c / a))
    rw [TwoPower.mG]; linarith
  rw [eq_div_iff (by linarith), add_sub_cancel_left] at e
  rw [← e, er2, abs_of_pos (a := TwoPower.mG a α β c / c ^ 2 * 1e-11) (by positivity)]
  have hB : 0 ≤ B (3 - α) (β - 3) := hm.le.trans hmB
  calc |amp| * (TwoPower.mG a α β c / c ^ 2 * 1e-11)
      ≤ |amp| * (B (3 - α) (β - 3) / r ^ 2 * 1e-11) := by
        have := hc.1.le
        gcongr
    _ = _ := by ring
example : ∃ Ψ : ℝ → ℝ,
    GradAt { (TwoPower.pot 5 1.5 3.5).scale 2 with val := fun R z _ _ => 2 * Ψ √(R ^ 2 + z ^ 2) } 1 2 0 0 := by
  obtain ⟨Ψ, _, k⟩ := C01_TwoPower_shift_partial (a := 5) (α := 1.5) (β := 3.5) (by norm_num) (by norm_num) (by norm_num)
    (by norm_num) 2
  exact ⟨Ψ, (k 1 2 0 0 (by norm_num)).1⟩

/-- Outside the closed forms the returned value is not a potential for the returned forces: `α = 2`, `β = 5`, `a = 1`, any
point in the plane.  The value is taken at `r + 1e-11`, the force at `r`. -/
theorem C01_TwoPower_shift_fails (R φ t : ℝ) (hR : 0 < R) : ¬GradAt (TwoPower.pot 1 2 5) R 0 φ t := by
  intro gr
  have g : TP.Generic 2 5 := ⟨by norm_num, by norm_num⟩
  have mg : ∀ r : ℝ, 0 < r → TwoPower.mG 1 2 5 r = (1 - 1 / (1 + r) ^ 2) / 2 := by
    intro r hr
    have hI : TwoPower.M 0 (-3) r = (1 - 1 / (1 + r) ^ 2) / 2 := by
      have hd : ∀ x ∈ uIcc 0 r, HasDerivAt (fun x : ℝ => -(1 / (1 + x) ^ 2) / 2) (x ^ (0:ℝ) * (1 + x) ^ (-3:ℝ)) x := by
        intro x hx
        rw [uIcc_of_le hr.le] at hx
        have h1 : 0 < 1 + x := by have := hx.1; positivity
        have d := (((((hasDerivAt_id x).const_add 1).pow 2).inv (pow_ne_zero 2 h1.ne')).neg).div_const 2
        refine (d.congr_of_eventuallyEq (Eventually.of_forall fun y => ?_)).congr_deriv ?_
        · simp
        · rw [rpow_zero, show (-3:ℝ) = -(3:ℕ) by norm_num, rpow_neg h1.le, rpow_natCast]
          simp only [id, Pi.pow_apply]
          field_simp
          norm_num
          ring
      rw [TwoPower.M, intervalIntegral.integral_eq_sub_of_hasDerivAt hd (TwoPower.M_int _ (by norm_num) hr.le)]
      norm_num
      ring
    rw [TwoPower.mG, div_one, show (2:ℝ) - 2 = 0 by norm_num, show (2:ℝ) - 5 = -3 by norm_num, hI]
  have eD : (fun x => (TwoPower.pot 1 2 5).val x 0 φ t) =ᶠ[𝓝 R] fun x => TwoPower.evaluateAt 1 2 5 (x + 1e-11) := by
    filter_upwards [lt_mem_nhds hR] with x hx
    simp only [TwoPower.pot, Pot.axi, TP.special_generic g, TwoPower.evaluate, zero_pow two_ne_zero, add_zero, sqrt_sq hx.le]
    rw [if_neg (by norm_num)]
  have hR' : (0:ℝ) < R + 1e-11 := by positivity
  have d := ((TwoPower.evalAt_deriv (a := 1) (α := 2) (β := 5) one_pos (by norm_num) (by norm_num) hR').comp R
    ((hasDerivAt_id R).add_const 1e-11)).congr_of_eventuallyEq eD
  have u := d.unique gr.dR
  have f : (TwoPower.pot 1 2 5).Rforce R 0 φ t = -R * (TwoPower.mG 1 2 5 R / R ^ 3) :=
    TP.Rf one_pos (by norm_num) R 0 R hR (by rw [zero_pow two_ne_zero, add_zero, sqrt_sq hR.le])
  rw [f, mg _ hR, mg _ hR'] at u
  have key : ∀ x : ℝ, 0 < x → (1 - 1 / (1 + x) ^ 2) / 2 / x ^ 2 = (2 + x) / (2 * x * (1 + x) ^ 2) := by
    intro x hx; field_simp; ring
  rw [key _ hR', mul_one, show -(-R * ((1 - 1 / (1 + R) ^ 2) / 2 / R ^ 3)) = (1 - 1 / (1 + R) ^ 2) / 2 / R ^ 2 by
    field_simp, key _ hR] at u
  have hε : (0:ℝ) < 1e-11 := by norm_num
  generalize (1e-11 : ℝ) = ε at *
  rw [div_eq_div_iff (by positivity) (by positivity)] at u
  have : 0 < (2 + R) * (2 * (R + ε) * (1 + (R + ε)) ^ 2) - (2 + (R + ε)) * (2 * R * (1 + R) ^ 2) := by
    have : (2 + R) * (2 * (R + ε) * (1 + (R + ε)) ^ 2) - (2 + (R + ε)) * (2 * R * (1 + R) ^ 2)
        = ε * (4 * (1 + R + ε) ^ 2 + 2 * R * ((2 + R) * (2 * (1 + R) + ε) + (1 + R + ε) ^ 2 - (1 + R) ^ 2)) := by ring
    rw [this]
    have : (1 + R + ε) ^ 2 - (1 + R) ^ 2 = ε * (2 * (1 + R) + ε) := by ring
    rw [add_sub_assoc, this]
    positivity
  linarith

/-- Inner slope 2 with outer slope 3: the value is `0/0` at every point, although a potential with exactly the returned forces
exists. -/
theorem C01_TwoPower_two_three_fails {a : ℝ} (ha : 0 < a) (R z : ℝ) (h0 : 0 < R ^ 2 + z ^ 2) :
    TwoPower.evaluate3Finite a 2 R z = none ∧
    1 - (√(R ^ 2 + z ^ 2) / a) ^ ((2:ℝ) - 2) / (3 - 2) * hyp2f1 (3 - 2) (2 - 2) (4 - 2) (-√(R ^ 2 + z ^ 2) / a) = 0 ∧
    ∃ Ψ : ℝ → ℝ, ∀ φ t, GradAt { TwoPower.pot a 2 3 with val := fun R z _ _ => Ψ √(R ^ 2 + z ^ 2) } R z φ t := by
  refine ⟨by simp [TwoPower.evaluate3Finite], ?_, TP.valS a 2 3, fun φ t =>
    (TP.withVal ha (by norm_num) (TP.valS_deriv 3 ha (by norm_num))).grad R z φ t (TP.dom φ h0)⟩
  have hr : 0 < √(R ^ 2 + z ^ 2) := sqrt_pos.2 h0
  generalize √(R ^ 2 + z ^ 2) = r at *
  have hs := div_pos hr ha
  have e := TwoPower.hyp_one (p := 1) 0 one_pos hs
  have hM : TwoPower.M 0 0 (r / a) = r / a := by simp [TwoPower.M]
  norm_num at e ⊢
  rw [neg_div, e, hM, rpow_neg_one]
  field_simp
  norm_num

/-- Second derivatives of the value. -/
theorem C02_TwoPower {a α β : ℝ} (ha : 0 < a) (h : α < 3)
    (ex : (β = 4 ∧ (α = 0 ∨ α = 1 ∨ α = 2)) ∨ (β = 3 ∧ α ≠ 2)) (amp R z φ t : ℝ) (h0 : 0 < R ^ 2 + z ^ 2) :
    HessAt ((TwoPower.pot a α β).scale amp) R z φ t :=
  ((TP.consistent ha h ex).scale amp).hess R z φ t (TP.dom φ h0)
/-- The second derivatives are minus the derivatives of the forces, for every outer slope. -/
theorem C02_TwoPower_forces {a α β : ℝ} (ha : 0 < a) (h : α < 3) (amp R z φ t : ℝ) (h0 : 0 < R ^ 2 + z ^ 2) :
    ForceHess ((TwoPower.pot a α β).scale amp) R z φ t := by
  have c := (TP.withVal ha h (TP.valS_deriv β ha h)).scale amp
  have f := ForceHess.of_hess (c.near (Spherical.Dom.axisOpen isOpen_Ioi) t (TP.dom φ h0)) (c.hess R z φ t (TP.dom φ h0))
  exact ⟨f.RR, f.Rz, f.Rp, f.zR, f.zz, f.zp, f.pR, f.pz, f.pp⟩
example : ForceHess ((TwoPower.pot 5 1.5 2.5).scale 3) 1 2 0 0 :=
  C02_TwoPower_forces (by norm_num) (by norm_num) _ _ _ _ _ (by norm_num)
example : HessAt ((TwoPower.pot 5 2 4).scale 3) 1 2 0 0 :=
  C02_TwoPower (by norm_num) (by norm_num) (Or.inl ⟨rfl, by norm_num⟩) _ _ _ _ _ (by norm_num)

/-- Poisson's equation for the value. -/
theorem C03_TwoPower {a α β : ℝ} (ha : 0 < a) (h : α < 3)
    (ex : (β = 4 ∧ (α = 0 ∨ α = 1 ∨ α = 2)) ∨ (β = 3 ∧ α ≠ 2)) (amp R z φ t : ℝ) (h0 : 0 < R ^ 2 + z ^ 2) (hR : R ≠ 0) :
    PoissonAt ((TwoPower.pot a α β).scale amp) R z φ t :=
  ((TP.consistent ha h ex).scale amp).poisson R z φ t (TP.dom φ h0) hR
/-- Poisson's equation between the second derivatives, the force and the density, for every outer slope. -/
theorem C03_TwoPower_forces {a α β : ℝ} (ha : 0 < a) (h : α < 3) (amp R z φ t : ℝ) (h0 : 0 < R ^ 2 + z ^ 2) (hR : R ≠ 0) :
    PoissonAlg ((TwoPower.pot a α β).scale amp) R z φ t := by
  have c := (TP.withVal ha h (TP.valS_deriv β ha h)).scale amp
  exact (poissonAt_iff (c.grad R z φ t (TP.dom φ h0)) (c.hess R z φ t (TP.dom φ h0))).1
    (c.poisson R z φ t (TP.dom φ h0) hR)
example : PoissonAlg ((TwoPower.pot 5 1.5 2.5).scale 3) 1 2 0 0 :=
  C03_TwoPower_forces (by norm_num) (by norm_num) _ _ _ _ _ (by norm_num) (by norm_num)
example : PoissonAt ((TwoPower.pot 5 1 3).scale 3) 1 2 0 0 :=
  C03_TwoPower (by norm_num) (by norm_num) (Or.inr ⟨rfl, by norm_num⟩) _ _ _ _ _ (by norm_num) (by norm_num)

/-- Enclosed mass for every outer slope; above 3 the total is `amp Γ(3-α) Γ(β-3) / Γ(β-α)`. -/
theorem C04_TwoPower {a α β : ℝ} (ha : 0 < a) (h : α < 3) (amp : ℝ) :
    MassOf ((TwoPower.pot a α β).scale amp) (fun r => amp * TwoPower.mass a α β r) ∧
      (3 < β → Tendsto (fun r => amp * TwoPower.mass a α β r) atTop
        (𝓝 (amp * (Gamma (3 - α) * Gamma (β - 3) / Gamma (β - α))))) := by
  have ed : ∀ r, 0 < r → (TwoPower.pot a α β).dens r 0 0 0 = TwoPower.rdens a α β r := fun r hr => by
    simp only [TwoPower.pot, Pot.axi, TwoPower.dens, zero_pow two_ne_zero, add_zero, sqrt_sq hr.le]
  have dm : ∀ r, 0 < r → HasDerivAt (TwoPower.mass a α β) (4 * π * r ^ 2 * (TwoPower.pot a α β).dens r 0 0 0) r := by
    intro r hr
    refine ((TwoPower.mG_deriv β ha hr h).congr_of_eventuallyEq ?_).congr_deriv ?_
    · filter_upwards [lt_mem_nhds hr] with x hx using TP.mass_eq β ha h hx
    · rw [ed r hr, mul_right_comm, TwoPower.dens_eG β ha hr]; field_simp
  refine ⟨.scale amp ⟨.of_deriv ?_ dm ?_, dm, ?_⟩, fun hβ => Tendsto.const_mul amp ?_⟩
  · intro r hr
    rw [ed r hr, TwoPower.rdens]
    have := hr
    positivity
  · have k : Tendsto (fun r : ℝ => r / a) (𝓝[>] 0) (𝓝[>] 0) := by
      refine tendsto_nhdsWithin_iff.2 ⟨?_, ?_⟩
      · have : Tendsto (fun r : ℝ => r / a) (𝓝 0) (𝓝 (0 / a)) := tendsto_id.div_const a
        rw [zero_div] at this
        exact this.mono_left nhdsWithin_le_nhds
      · filter_upwards [self_mem_nhdsWithin] with r hr using div_pos hr ha
    refine ((TP.M_zero (p := 2 - α) (α - β) (by linarith)).comp k).congr' ?_
    filter_upwards [self_mem_nhdsWithin] with r hr using (TP.mass_eq β ha h hr).symm
  · have e' : ∀ {R z : ℝ}, 0 < R ^ 2 + z ^ 2 → 0 < √(R ^ 2 + z ^ 2) := fun k => sqrt_pos.2 k
    refine gauss_of_central (g := fun r => -(TwoPower.mG a α β r / r ^ 3)) ?_ ?_ ?_
    · intro R z φ t k
      refine (TP.Rf ha h R z _ (e' k) rfl).trans (by ring)
    · intro R z φ t k
      refine (TP.zf ha h R z _ (e' k) rfl).trans (by ring)
    · intro r hr
      have k : (TwoPower.pot a α β).Rforce r 0 0 0 = -r * (TwoPower.mG a α β r / r ^ 3) :=
        TP.Rf ha h r 0 r hr (by rw [zero_pow two_ne_zero, add_zero, sqrt_sq hr.le])
      rw [TP.mass_eq β ha h hr, k]
      field_simp
  · have k : Tendsto (fun r : ℝ => 1 / (r / a)) atTop (𝓝[>] 0) := by
      have := tendsto_inv_atTop_nhdsGT_zero.comp (tendsto_id.atTop_div_const ha)
      refine this.congr fun r => ?_
      simp
    have l := ((TP.M_zero (p := β - 3 - 1) (α - β) (by linarith)).comp k).const_sub (B (3 - α) (β - 3))
    rw [sub_zero, B, show 3 - α + (β - 3) = β - α by ring] at l
    refine l.congr' ?_
    filter_upwards [eventually_gt_atTop 0] with r hr
    have q := TwoPower.M_compl (p := 3 - α) (q := β - 3) (by linarith) (by linarith) (div_pos hr ha)
    rw [show 3 - α - 1 = 2 - α by ring, show -(3 - α) - (β - 3) = α - β by ring, B,
      show 3 - α + (β - 3) = β - α by ring] at q
    rw [TP.mass_eq β ha h hr, TwoPower.mG, Function.comp]
    linarith
example : MassOf ((TwoPower.pot 5 1.5 3.5).scale 2) (fun r => 2 * TwoPower.mass 5 1.5 3.5 r) :=
  (C04_TwoPower (by norm_num) (by norm_num) 2).1

/-- The C functions, for exponents without a closed form: all of them. -/
theorem C51_TwoPower {a α β : ℝ} (ha : 0 < a) (h : α < 3) (amp R z φ t : ℝ) (h0 : 0 < R ^ 2 + z ^ 2) :
    (¬(β = 4 ∧ (α = 0 ∨ α = 1 ∨ α = 2)) ∧ ¬(β = 3 ∧ α = 1) →
      TwoPower.cEval amp a α β R z = ((TwoPower.pot a α β).scale amp).val R z φ t) ∧
    TwoPower.cRforce amp a α β R z = ((TwoPower.pot a α β).scale amp).Rforce R z φ t ∧
    TwoPower.czforce amp a α β R z = ((TwoPower.pot a α β).scale amp).zforce R z φ t ∧
    TwoPower.cR2deriv amp a α β R z = ((TwoPower.pot a α β).scale amp).R2deriv R z φ t ∧
    TwoPower.cz2deriv amp a α β R z = ((TwoPower.pot a α β).scale amp).z2deriv R z φ t ∧
    TwoPower.cRzderiv amp a α β R z = ((TwoPower.pot a α β).scale amp).Rzderiv R z φ t ∧
    TwoPower.cDens amp a α β R z = ((TwoPower.pot a α β).scale amp).dens R z φ t := by
  have hr : 0 < √(R ^ 2 + z ^ 2) := sqrt_pos.2 h0
  have er2 : R ^ 2 + z ^ 2 = √(R ^ 2 + z ^ 2) ^ 2 := (sq_sqrt h0.le).symm
  have pR : ∀ r, 0 < r → TwoPower.cPlanarRforce amp a α β r = -amp * (TwoPower.mG a α β r / r ^ 2) := by
    intro r hr
    have k := TwoPower.hA β ha hr h
    have e1 : r ^ (1 - α) = r * r ^ (-α) := by rw [mul_comm, ← rpow_add_one hr.ne']; congr 1; ring
    rw [TwoPower.cPlanarRforce, e1]
    rw [show TwoPower.mG a α β r / r ^ 2 = r * (TwoPower.mG a α β r / r ^ 3) by field_simp, ← k]
    ring
  have p2 : ∀ r, 0 < r → TwoPower.cPlanarR2deriv amp a α β r
      = amp * ((TwoPower.eG a α β r - 2 * TwoPower.mG a α β r) / r ^ 3) := by
    intro r hr
    have k := TwoPower.hA β ha hr h
    have k2 := TwoPower.hD β ha hr h
    have e1 : r ^ (1 - α) = r ^ 2 * r ^ (-α - 1) := by
      rw [← rpow_natCast r 2, ← rpow_add hr]; congr 1; push_cast; ring
    have k3 : (TwoPower.eG a α β r - 2 * TwoPower.mG a α β r) / r ^ 3
        = (1 - α) * (TwoPower.mG a α β r / r ^ 3)
          - r ^ 2 * (((3 - α) * TwoPower.mG a α β r - TwoPower.eG a α β r) / r ^ 5) := by
      field_simp; ring
    simp only [TwoPower.cPlanarR2deriv]
    rw [e1, rpow_neg_one, k3, ← k, ← k2]
    ring
  have hz : √(|z| ^ 2 + R ^ 2) = √(R ^ 2 + z ^ 2) := by rw [sq_abs, add_comm]
  refine ⟨?_, ?_, ?_, ?_, ?_, ?_, ?_⟩
  · intro g
    simp only [Pot.scale, TwoPower.pot, Pot.axi, TP.special_generic g, TwoPower.evaluate, TwoPower.cEval, TwoPower.evaluate3,
      TwoPower.evaluateAt, ← sq]
    split_ifs <;> ring
  · refine Eq.trans ?_ (congrArg (amp * ·) (TP.Rf ha h R z _ hr rfl).symm)
    simp only [TwoPower.cRforce, ← sq]
    rw [← TwoPower.hA β ha hr h]; ring
  · refine Eq.trans ?_ (congrArg (amp * ·) (TP.zf ha h R z _ hr rfl).symm)
    simp only [TwoPower.czforce, ← sq]
    rw [← TwoPower.hA β ha hr h]; ring
  · show _ = amp * TwoPower.R2deriv a α β R z
    rw [TwoPower.R2deriv_eq β ha h hr rfl]
    simp only [TwoPower.cR2deriv, Spherical.cR2, ← sq, pR _ hr, p2 _ hr]
    generalize √(R ^ 2 + z ^ 2) = r at *
    have hz2 : z ^ 2 = r ^ 2 - R ^ 2 := by linarith
    rw [er2, mul_assoc _ R R, ← sq R, mul_assoc _ z z, ← sq z, hz2]
    field_simp; ring
  · show _ = amp * TwoPower.R2deriv a α β |z| R
    rw [TwoPower.R2deriv_eq β ha h hr hz, sq_abs]
    simp only [TwoPower.cz2deriv, Spherical.cz2, ← sq, pR _ hr, p2 _ hr]
    generalize √(R ^ 2 + z ^ 2) = r at *
    have hz2 : R ^ 2 = r ^ 2 - z ^ 2 := by linarith
    rw [er2, mul_assoc _ R R, ← sq R, mul_assoc _ z z, ← sq z, hz2]
    field_simp; ring
  · show _ = amp * TwoPower.Rzderiv a α β R z
    rw [TwoPower.Rzderiv_eq β ha h hr rfl]
    simp only [TwoPower.cRzderiv, Spherical.cRz, ← sq, pR _ hr, p2 _ hr]
    generalize √(R ^ 2 + z ^ 2) = r at *
    rw [er2]
    field_simp; ring
  · simp only [Pot.scale, TwoPower.pot, Pot.axi, TwoPower.dens, TwoPower.rdens, TwoPower.cDens, ← sq]
    generalize √(R ^ 2 + z ^ 2) = r at *
    have h1 : 0 < 1 + r / a := by positivity
    rw [show α - β = -(β - α) by ring, rpow_neg h1.le, show (-3:ℝ) = -(3:ℕ) by norm_num, rpow_neg ha.le, rpow_natCast]
    have := pi_ne_zero
    generalize (1 + r / a) ^ (β - α) = X at *
    ring

/-- The planar C functions. -/
theorem C51_TwoPower_planar {a α β : ℝ} (ha : 0 < a) (h : α < 3) (amp R φ t : ℝ) (hR : 0 < R) :
    TwoPower.cPlanarRforce amp a α β R = ((TwoPower.pot a α β).scale amp).Rforce R 0 φ t ∧
    TwoPower.cPlanarR2deriv amp a α β R = ((TwoPower.pot a α β).scale amp).R2deriv R 0 φ t := by
  have e : √(R ^ 2 + 0 ^ 2) = R := by rw [zero_pow two_ne_zero, add_zero, sqrt_sq hR.le]
  have k := C51_TwoPower (β := β) ha h amp R 0 φ t (by positivity)
  rw [← k.2.1, ← k.2.2.2.1]
  constructor
  · simp only [TwoPower.cRforce, TwoPower.cPlanarRforce, ← sq, e]
    rw [show R ^ (1 - α) = R * R ^ (-α) by rw [mul_comm, ← rpow_add_one hR.ne']; congr 1; ring]
    ring
  · simp only [TwoPower.cR2deriv, Spherical.cR2, ← sq, e]
    have e2 : R ^ 2 + 0 ^ 2 = R ^ 2 := by ring
    rw [e2]
    field_simp
    ring
example : TwoPower.cRforce 3 5 1.5 3.5 1 2 = ((TwoPower.pot 5 1.5 3.5).scale 3).Rforce 1 2 0 0 :=
  (C51_TwoPower (by norm_num) (by norm_num) 3 1 2 0 0 (by norm_num)).2.1

end Verif
