import Verif.Props.C01Ellipsoidal
import Verif.Props.C01TwoPower

set_option autoImplicit false

/-!
# C64: the zero point of the two-power and ellipsoidal potentials

`EllipsoidalPotential` documents `ψ(m) = -∫_{m²}^∞ ρ dm²`, so that the potential vanishes at infinity.
-/

noncomputable section
namespace Verif
open Ellipsoidal Set Filter Topology MeasureTheory

/-- `ψ(m) = -∫_{m²}^∞ ρ(m'²) dm'²`, with `dm'² = 2 m' dm'`. -/
def C64Spec.IsPsi (ρ ψ : ℝ → ℝ) : Prop :=
  ∀ m, 0 < m → IntegrableOn (fun x => 2 * x * ρ x) (Ioi m) ∧ ψ m = -∫ x in Ioi m, 2 * x * ρ x
/-- The value tends to `L` far from the centre, in all directions alike. -/
def C64Spec.AtInfinity (Φ : Pot) (L : ℝ) : Prop :=
  ∀ ε, 0 < ε → ∃ D : ℝ, ∀ R z φ t, D ≤ √(R ^ 2 + z ^ 2) → |Φ.val R z φ t - L| < ε
open C64Spec C01aux

namespace C64aux

/-- The classes whose `_psi` is meant to vanish far out, with a density that falls fast enough. -/
inductive Zero : Profile → Prop
  | perfect {a : ℝ} (ha : a ≠ 0) : Zero (perfect a)
  | hernquist {a : ℝ} (ha : 0 < a) : Zero (hernquist a)
  | jaffe {a : ℝ} (ha : 0 < a) : Zero (jaffe a)
  | nfw {a : ℝ} (ha : 0 < a) : Zero (nfw a)
  | power {α : ℝ} (h2 : 2 < α) (h3 : α < 3) : Zero (power α)
  | gaussian {σ : ℝ} (h : σ ≠ 0) : Zero (gaussian σ)
  | twoPower {a α β : ℝ} (ha : 0 < a) (h : α = 1 ∨ α = 2) (hβ : 2 < β) : Zero (twoPower a α β)

/-- The limit of `_psi` of TwoPowerTriaxialPotential. -/
def psiLim (a α β : ℝ) : ℝ := -2 * a ^ 2 * (1 - α) * B (2 - α) (β - 2)

theorem psi_lim {a α β : ℝ} (ha : 0 < a) (h : α < 2) (hβ : 2 < β) :
    Tendsto (twoPower a α β).psi atTop (𝓝 (psiLim a α β)) := by
  have hs : Tendsto (fun m : ℝ => 1 / (m / a)) atTop (𝓝[>] 0) := by
    refine tendsto_nhdsWithin_iff.2 ⟨?_, ?_⟩
    · simp only [one_div_div]
      exact tendsto_const_nhds.div_atTop tendsto_id
    · filter_upwards [eventually_gt_atTop 0] with m hm
      show 0 < 1 / (m / a)
      positivity
  have t := (M_lim0 (p := β - 2 - 1) (-(2 - α) - (β - 2)) (by linarith)).comp hs
  have t2 := ((t.const_sub (B (2 - α) (β - 2))).const_sub (psiInf α β)).const_mul (-2 * a ^ 2)
  have e : -2 * a ^ 2 * (psiInf α β - (B (2 - α) (β - 2) - 0)) = psiLim a α β := by
    have g : Real.Gamma (3 - α) = (2 - α) * Real.Gamma (2 - α) := by
      rw [← Real.Gamma_add_one (by linarith)]; congr 1; ring
    rw [psiLim, psiInf, B, g, show 2 - α + (β - 2) = β - α by ring]
    ring
  rw [e] at t2
  refine t2.congr' ?_
  filter_upwards [eventually_gt_atTop 0] with m hm
  have k := TwoPower.M_compl (p := 2 - α) (q := β - 2) (by linarith) (by linarith) (div_pos hm ha)
  rw [psi_eq ha h hm, ← k, show 2 - α - 1 = 1 - α by ring, show -(2 - α) - (β - 2) = α - β by ring]
  simp only [Function.comp_apply]
  ring
theorem psi_lim_two {a β : ℝ} (ha : 0 < a) (hβ : 2 < β) : Tendsto (twoPower a 2 β).psi atTop (𝓝 0) := by
  have hs : Tendsto (fun m : ℝ => a / m) atTop (𝓝[>] 0) := by
    refine tendsto_nhdsWithin_iff.2 ⟨tendsto_const_nhds.div_atTop tendsto_id, ?_⟩
    filter_upwards [eventually_gt_atTop 0] with m hm
    exact div_pos ha hm
  have t := ((M_lim0 (p := β - 3) (2 - β) (by linarith)).comp hs).const_mul (-2 * a ^ 2)
  rw [mul_zero] at t
  refine t.congr' ?_
  filter_upwards [eventually_gt_atTop 0] with m hm
  rw [psi_two ha hβ hm]; rfl

theorem Zero.ok {P : Profile} (h : Zero P) : P.OK := by
  cases h with
  | perfect h => exact perfect_ok h
  | hernquist h => exact hernquist_ok h
  | jaffe h => exact jaffe_ok h
  | nfw h => exact nfw_ok h
  | power h _ => exact power_ok h.ne'
  | gaussian h => exact gaussian_ok h
  | twoPower ha h hβ => exact twoPower_ok ha (by rcases h with rfl | rfl <;> norm_num) hβ
theorem Zero.mild {P : Profile} (h : Zero P) : P.Mild := by
  cases h with
  | perfect h => exact perfect_mild h
  | hernquist h => exact hernquist_mild h
  | jaffe h => exact jaffe_mild h
  | nfw h => exact nfw_mild h
  | power _ h => exact power_mild h
  | gaussian => exact gaussian_mild _
  | twoPower ha h hβ => exact twoPower_mild ha (by rcases h with rfl | rfl <;> norm_num) hβ
theorem Zero.nonneg {P : Profile} (h : Zero P) : ∀ m, 0 < m → 0 ≤ P.mdens m := by
  intro m hm
  cases h with
  | perfect h => simp only [Ellipsoidal.perfect]; positivity
  | hernquist h => simp only [Ellipsoidal.hernquist]; positivity
  | jaffe h => simp only [Ellipsoidal.jaffe]; positivity
  | nfw h => simp only [Ellipsoidal.nfw]; positivity
  | power _ h => simp only [Ellipsoidal.power]; positivity
  | gaussian => simp only [Ellipsoidal.gaussian]; positivity
  | twoPower ha h hβ => simp only [Ellipsoidal.twoPower]; positivity
theorem Zero.lim {P : Profile} (h : Zero P) : Tendsto P.psi atTop (𝓝 0) := by
  cases h with
  | @perfect a h =>
    exact tendsto_const_nhds.div_atTop (tendsto_atTop_add_const_left _ _ (tendsto_pow_atTop two_ne_zero))
  | @hernquist a h =>
    exact tendsto_const_nhds.div_atTop ((tendsto_pow_atTop two_ne_zero).comp (tendsto_atTop_add_const_right _ _ tendsto_id))
  | @jaffe a h =>
    have t1 : Tendsto (fun m : ℝ => 1 / (1 + m / a)) atTop (𝓝 0) :=
      tendsto_const_nhds.div_atTop (tendsto_atTop_add_const_left _ _ (tendsto_id.atTop_div_const h))
    have t2 : Tendsto (fun m : ℝ => Real.log (1 / (1 + a / m))) atTop (𝓝 0) := by
      have : Tendsto (fun m : ℝ => 1 / (1 + a / m)) atTop (𝓝 1) := by
        have h0 : Tendsto (fun m : ℝ => a / m) atTop (𝓝 0) := tendsto_const_nhds.div_atTop tendsto_id
        have := h0.const_add 1
        have := this.inv₀ (by norm_num)
        simpa using this
      have := this.log one_ne_zero
      rwa [Real.log_one] at this
    have := (t1.add t2).const_mul (2 * a ^ 2)
    rwa [add_zero, mul_zero] at this
  | @nfw a h => exact tendsto_const_nhds.div_atTop (tendsto_atTop_add_const_left _ _ tendsto_id)
  | @power α h2 _ =>
    have := (tendsto_rpow_neg_atTop (y := α - 2) (by linarith)).const_mul (2 / (2 - α))
    rw [mul_zero] at this
    simpa [Ellipsoidal.power] using this
  | @gaussian σ h =>
    have hp : 0 < 2 * σ ^ 2 := by positivity
    have t : Tendsto (fun m : ℝ => Real.exp (-m ^ 2 / (2 * σ ^ 2))) atTop (𝓝 0) := by
      refine Real.tendsto_exp_atBot.comp ?_
      simp only [neg_div]
      exact tendsto_neg_atTop_atBot.comp ((tendsto_pow_atTop two_ne_zero).atTop_div_const hp)
    have := t.const_mul (-(2 * σ ^ 2))
    rwa [mul_zero] at this
  | @twoPower a α β ha h hβ =>
    rcases h with rfl | rfl
    · have := psi_lim (α := 1) ha (by norm_num) hβ
      simpa [C64aux.psiLim] using this
    · exact psi_lim_two ha hβ

/-- `ψ` from its derivative and its limit. -/
theorem isPsi {P : Profile} (ok : P.OK) (hn : ∀ m, 0 < m → 0 ≤ P.mdens m) {L : ℝ} (hl : Tendsto P.psi atTop (𝓝 L)) {m : ℝ}
    (hm : 0 < m) : IntegrableOn (fun x => 2 * x * P.mdens x) (Ioi m) ∧ P.psi m = L - ∫ x in Ioi m, 2 * x * P.mdens x := by
  have d : ∀ x ∈ Ici m, HasDerivAt P.psi (2 * x * P.mdens x) x := fun x hx => ok.dpsi x (lt_of_lt_of_le hm hx)
  have n : ∀ x ∈ Ioi m, 0 ≤ 2 * x * P.mdens x := fun x hx => by
    have h0 : 0 < x := hm.trans hx
    have := hn x h0
    positivity
  have I := integrableOn_Ioi_deriv_of_nonneg' d n hl
  refine ⟨I, ?_⟩
  rw [integral_Ioi_of_hasDerivAt_of_tendsto' d I hl]
  ring

theorem om_int {b2 c2 : ℝ} (hb : 0 < b2) (hc : 0 < c2) : IntervalIntegrable (om b2 c2) volume 0 1 := by
  have wt := wt_om hb hc
  obtain ⟨W, _, hW⟩ := wt.bound
  have hi : IntervalIntegrable (fun _ : ℝ => W) volume 0 1 := intervalIntegrable_const
  rw [intervalIntegrable_iff_integrableOn_Ioc_of_le zero_le_one] at hi ⊢
  refine Integrable.mono' hi (wt.cont.aestronglyMeasurable measurableSet_Ioc) ?_
  rw [ae_restrict_iff' measurableSet_Ioc]
  exact ae_of_all _ fun s hs => by simpa using hW s hs

/-- Far points. -/
def far : Filter (ℝ × ℝ × ℝ) := comap EllInt.N atTop

theorem quad_lim {p : Par} (hg : p.Good) (hn : ∀ m, 0 < m → 0 ≤ p.prof.mdens m) {L : ℝ}
    (hl : Tendsto p.prof.psi atTop (𝓝 L)) :
    Tendsto (fun q => K p (h0 p) (om p.b2 p.c2) q) far (𝓝 (L * quad p.gl (om p.b2 p.c2))) := by
  obtain ⟨l, _, hl0, _, hb⟩ := EllInt.u_bounds (sq_co one_pos) (sq_co hg.b2) (sq_co hg.c2)
  have hN : Tendsto EllInt.N far atTop := tendsto_comap
  have point : ∀ s ∈ Ioc (0:ℝ) 1, Tendsto (fun q => h0 p (U p q s)) far (𝓝 L) := by
    intro s hs
    have h2 : 0 < l * s ^ 2 := by have := hs.1; positivity
    have t : Tendsto (fun q => U p q s) far atTop :=
      tendsto_atTop_mono (fun q => by have := (hb q s hs).1; linarith [mul_right_comm l (EllInt.N q) (s ^ 2)])
        (hN.const_mul_atTop h2)
    exact hl.comp (Real.tendsto_sqrt_atTop.comp t)
  rw [← quad_mul]
  unfold K
  rcases hgl : p.gl with _ | ls
  · simp only [quad]
    obtain ⟨κ, k0, k1, hB, _⟩ := hg.mild hgl
    have e1 : ∀ s ∈ Ioc (0:ℝ) 1, U p (1, 0, 0) s = s ^ 2 := fun s hs => by
      simp only [U, EllInt.u, co_eq hs]; norm_num
    have wt := wt_om hg.b2 hg.c2
    have I1 : ∀ q, 0 < EllInt.N q → IntervalIntegrable (fun s => h0 p (U p q s) * om p.b2 p.c2 s) volume 0 1 := fun q hq =>
      EllInt.integrable (sq_co one_pos) (sq_co hg.b2) (sq_co hg.c2) k0 hB wt (by linarith) hq
    have I2 : IntervalIntegrable (om p.b2 p.c2) volume 0 1 := om_int hg.b2 hg.c2
    have mono : ∀ x y : ℝ, 0 < x → x ≤ y → p.prof.psi x ≤ p.prof.psi y := by
      intro x y hx hxy
      refine (monotoneOn_of_deriv_nonneg (convex_Ioi 0) (fun z hz => (hg.ok.dpsi z hz).continuousAt.continuousWithinAt)
        (fun z hz => ?_) fun z hz => ?_) hx (hx.trans_le hxy) hxy
      all_goals rw [interior_Ioi] at hz
      · exact (hg.ok.dpsi z hz).differentiableAt.differentiableWithinAt
      · rw [(hg.ok.dpsi z hz).deriv]
        have := hn z hz
        have h0 : 0 < z := hz
        positivity
    have leL : ∀ x : ℝ, 0 < x → p.prof.psi x ≤ L := fun x hx =>
      ge_of_tendsto hl ((eventually_ge_atTop x).mono fun y hy => mono x y hx hy)
    have I3 := (I2.const_mul L).sub (I1 (1, 0, 0) (by norm_num [EllInt.N]))
    have : IsCountablyGenerated far := comap.isCountablyGenerated _ _
    have ev1 : ∀ᶠ q in far, 1 / l ≤ EllInt.N q := hN.eventually (eventually_ge_atTop _)
    have hfin : Tendsto (fun q => ∫ s in (0:ℝ)..1, (h0 p (U p q s) * om p.b2 p.c2 s - L * om p.b2 p.c2 s)) far
        (𝓝 (∫ s in (0:ℝ)..1, (0:ℝ))) := by
      refine intervalIntegral.tendsto_integral_filter_of_dominated_convergence
        (fun s => L * om p.b2 p.c2 s - h0 p (U p (1, 0, 0) s) * om p.b2 p.c2 s) ?_ ?_ I3 ?_
      · filter_upwards [ev1] with q hq
        exact (intervalIntegrable_iff.1 ((I1 q (lt_of_lt_of_le (by positivity) hq)).sub (I2.const_mul L))).aestronglyMeasurable
      · filter_upwards [ev1] with q hq
        refine ae_of_all _ fun s hs => ?_
        rw [uIoc_of_le zero_le_one] at hs
        have s0 := hs.1
        have hom : 0 ≤ om p.b2 p.c2 s := by unfold om; positivity
        have hu : s ^ 2 ≤ U p q s := by
          refine le_trans ?_ (hb q s hs).1
          rw [div_le_iff₀ hl0] at hq
          nlinarith [sq_nonneg s]
        have m1 : h0 p (s ^ 2) ≤ h0 p (U p q s) := mono _ _ (by positivity) (Real.sqrt_le_sqrt hu)
        have m2 : h0 p (U p q s) ≤ L := leL _ (Real.sqrt_pos.2 (lt_of_lt_of_le (by positivity) hu))
        rw [e1 s hs, ← sub_mul, ← sub_mul, Real.norm_eq_abs, abs_mul, abs_of_nonneg hom, abs_of_nonpos (by linarith)]
        gcongr
        linarith
      · refine ae_of_all _ fun s hs => ?_
        rw [uIoc_of_le zero_le_one] at hs
        have := ((point s hs).sub_const L).mul_const (om p.b2 p.c2 s)
        rw [sub_self, zero_mul] at this
        simpa only [sub_mul] using this
    rw [intervalIntegral.integral_zero] at hfin
    have h5 := hfin.add_const (∫ s in (0:ℝ)..1, L * om p.b2 p.c2 s)
    rw [zero_add] at h5
    refine h5.congr' ?_
    filter_upwards [ev1] with q hq
    rw [intervalIntegral.integral_sub (I1 q (lt_of_lt_of_le (by positivity) hq)) (I2.const_mul L)]
    ring
  · simp only [quad]
    refine tendsto_list_sum ls fun n hn' => ?_
    exact ((point _ (hg.nodes ls hgl n hn')).mul_const _).const_mul _

theorem frame_norm {p : Par} (hr : ∀ M, p.rot = some M → M * M.transpose = 1) (q : ℝ × ℝ × ℝ) :
    EllInt.N (toFrame p q) = EllInt.N q := by
  obtain ⟨x, y, z⟩ := q
  unfold toFrame
  rcases h : p.rot with _ | M
  · rfl
  have h' : M.transpose * M = 1 := mul_eq_one_comm.1 (hr M h)
  have e : ∀ i j, ∑ k, M k i * M k j = if i = j then 1 else 0 := by
    intro i j
    have := congrFun (congrFun h' i) j
    simpa [Matrix.mul_apply, Matrix.one_apply] using this
  have e00 := e 0 0
  have e11 := e 1 1
  have e22 := e 2 2
  have e01 := e 0 1
  have e02 := e 0 2
  have e12 := e 1 2
  simp [Fin.sum_univ_three] at e00 e11 e22 e01 e02 e12
  simp only [EllInt.N, Matrix.mulVec, dotProduct, Fin.sum_univ_three, Matrix.cons_val_zero, Matrix.cons_val_one,
    Matrix.cons_val]
  linear_combination x ^ 2 * e00 + y ^ 2 * e11 + z ^ 2 * e22 + 2 * x * y * e01 + 2 * x * z * e02 + 2 * y * z * e12

theorem at_infinity {p : Par} (hg : p.Good) (hr : ∀ M, p.rot = some M → M * M.transpose = 1)
    (hn : ∀ m, 0 < m → 0 ≤ p.prof.mdens m) {L : ℝ} (hl : Tendsto p.prof.psi atTop (𝓝 L)) (amp : ℝ) :
    AtInfinity ((Ellipsoidal.pot p).scale amp)
      (amp * (2 * Real.pi * p.b * p.c * (L * quad p.gl (om p.b2 p.c2)))) := by
  intro ε hε
  have t := ((quad_lim hg hn hl).const_mul (2 * Real.pi * p.b * p.c)).const_mul amp
  have ev := (Metric.tendsto_nhds.1 t) ε hε
  rw [far, eventually_comap, eventually_atTop] at ev
  obtain ⟨D, hD⟩ := ev
  refine ⟨√(max D 0), fun R z φ t hR => ?_⟩
  have h2 : D ≤ R ^ 2 + z ^ 2 := (le_max_left _ _).trans ((Real.sqrt_le_sqrt_iff (by positivity)).1 hR)
  have hq : EllInt.N (toFrame p (Coords.cyl_to_rect R (p.phi φ) z)) = R ^ 2 + z ^ 2 := by
    rw [frame_norm hr]
    simp only [EllInt.N, Coords.cyl_to_rect]
    linear_combination R ^ 2 * Real.sin_sq_add_cos_sq (p.phi φ)
  have := hD _ h2 _ hq
  rw [Real.dist_eq] at this
  simpa only [Pot.scale, Ellipsoidal.pot, Ellipsoidal.evaluate, evaluateXyz_eq] using this

theorem orth {zvec : Option Tilt.ZVec} (hz : AxisOK zvec) {pa : Option ℝ} {rot : Option Tilt.Mat}
    (hr : setupRot zvec pa = .ok rot) : ∀ M, rot = some M → M * M.transpose = 1 := by
  rintro M rfl
  exact setup_orth hz hr

theorem radial {Φ : Pot} {f : ℝ → ℝ} (hf : Tendsto f atTop (𝓝 0)) (e : ∀ R z φ t, Φ.val R z φ t = f (√(R ^ 2 + z ^ 2))) :
    AtInfinity Φ 0 := by
  intro ε hε
  obtain ⟨D, hD⟩ := eventually_atTop.1 (Metric.tendsto_nhds.1 hf ε hε)
  refine ⟨D, fun R z φ t h => ?_⟩
  have := hD _ h
  rwa [Real.dist_eq, ← e R z φ t] at this

/-- The value of the two-power sphere as a function of the radius. -/
theorem sphere {a α β : ℝ} (ha : 0 < a) (h : α < 3) (hβ : 3 < β ∨ α = 1 ∧ β = 3) : ∃ f : ℝ → ℝ, Tendsto f atTop (𝓝 0) ∧
    ∀ R z φ t, (TwoPower.pot a α β).val R z φ t = f (√(R ^ 2 + z ^ 2)) := by
  have ar : Tendsto (fun r : ℝ => a / r) atTop (𝓝 0) := tendsto_const_nhds.div_atTop tendsto_id
  have a1 := ar.const_add 1
  rw [add_zero] at a1
  have key : ∀ f : ℝ → ℝ, Tendsto f atTop (𝓝 0) → ∀ g : ℝ → ℝ → ℝ, (∀ R z, g R z = f (√(R ^ 2 + z ^ 2))) →
      ∃ f : ℝ → ℝ, Tendsto f atTop (𝓝 0) ∧ ∀ R z, g R z = f (√(R ^ 2 + z ^ 2)) := fun f hf g hg => ⟨f, hf, hg⟩
  suffices h : ∃ f : ℝ → ℝ, Tendsto f atTop (𝓝 0) ∧ ∀ R z, (TwoPower.special α β (DehnenCore.evaluate a)
      (Hernquist.evaluate a) (Jaffe.evaluate a) (NFW.evaluate a) (TwoPower.evaluate a α β)) R z = f (√(R ^ 2 + z ^ 2)) by
    obtain ⟨f, hf, e⟩ := h
    exact ⟨f, hf, fun R z _ _ => e R z⟩
  unfold TwoPower.special
  split_ifs with c1 c2 c3 c4
  · refine key (fun r => -(1 - 1 / (1 + a / r) ^ 2) / (6 * a)) ?_ _ fun R z => rfl
    have := (((tendsto_const_nhds (x := (1:ℝ))).div (a1.pow 2) (by norm_num)).const_sub 1).neg.div_const (6 * a)
    simpa using this
  · refine key (fun r => -1 / (1 + r / a) / 2 / a) ?_ _ fun R z => rfl
    have t : Tendsto (fun r : ℝ => -1 / (1 + r / a)) atTop (𝓝 0) :=
      tendsto_const_nhds.div_atTop (tendsto_atTop_add_const_left _ _ (tendsto_id.atTop_div_const ha))
    simpa using (t.div_const 2).div_const a
  · refine key (fun r => -Real.log (1 + a / r) / a) ?_ _ fun R z => rfl
    simpa using (a1.log one_ne_zero).neg.div_const a
  · refine key (fun r => if r = 0 then -1 / a else -(1 / r * Real.log (1 + r / a))) ?_ _ fun R z => rfl
    have l1 : Tendsto (fun r : ℝ => Real.log (1 + r / a) / (1 + r / a)) atTop (𝓝 0) := by
      have := Real.tendsto_pow_log_div_mul_add_atTop 1 0 1 one_ne_zero
      have := this.comp (tendsto_atTop_add_const_left _ (1:ℝ) (tendsto_id.atTop_div_const ha))
      refine this.congr fun r => ?_
      simp
    have l2 : Tendsto (fun r : ℝ => 1 / r + 1 / a) atTop (𝓝 (0 + 1 / a)) :=
      (tendsto_const_nhds.div_atTop tendsto_id).add_const _
    have := (l1.mul l2).neg
    rw [zero_mul, neg_zero] at this
    refine this.congr' ?_
    filter_upwards [eventually_gt_atTop 0] with r hr
    have : 0 < a + r := by positivity
    rw [if_neg hr.ne']
    field_simp
  · have hβ' : 3 < β := hβ.resolve_right c4
    refine key (fun r => TwoPower.evaluateAt a α β (r + 1e-11)) ?_ _ fun R z => by
      rw [TwoPower.evaluate, if_neg hβ'.ne']
    have t1 : Tendsto (fun r : ℝ => r + 1e-11) atTop atTop := tendsto_atTop_add_const_right _ _ tendsto_id
    have t2 : Tendsto (fun r : ℝ => -(B (3 - α) (β - 3) / r)) atTop (𝓝 0) := by
      have : Tendsto (fun r : ℝ => B (3 - α) (β - 3) / r) atTop (𝓝 0) := tendsto_const_nhds.div_atTop tendsto_id
      simpa using this.neg
    have t3 : Tendsto (TwoPower.evaluateAt a α β) atTop (𝓝 0) := by
      refine tendsto_of_tendsto_of_tendsto_of_le_of_le' t2 tendsto_const_nhds ?_ ?_
      · filter_upwards [eventually_gt_atTop 0] with r hr using (TwoPower.evalAt_bounds ha h hβ' hr).1
      · filter_upwards [eventually_gt_atTop 0] with r hr using (TwoPower.evalAt_bounds ha h hβ' hr).2
    exact t3.comp t1

end C64aux
open C64aux

/-- `_psi` is the documented integral of the density. -/
theorem C64_psi {P : Profile} (h : Zero P) : IsPsi P.mdens P.psi := by
  intro m hm
  obtain ⟨h1, h2⟩ := isPsi h.ok h.nonneg h.lim hm
  exact ⟨h1, by rw [h2]; ring⟩
example : IsPsi (nfw 2).mdens (nfw 2).psi := C64_psi (.nfw two_pos)
example : IsPsi (twoPower 2 1 (7/2)).mdens (twoPower 2 1 (7/2)).psi :=
  C64_psi (.twoPower two_pos (Or.inl rfl) (by norm_num))

/-- The value tends to zero far from the centre, in all directions, for every quadrature and orientation. -/
theorem C64_Ellipsoidal {P : Profile} (h : Zero P) {b c : ℝ} (hb : 0 < b) (hc : 0 < c) {leg : Option (List (ℝ × ℝ))}
    (hl : Legendre leg) {zvec : Option Tilt.ZVec} (hz : AxisOK zvec) {pa : Option ℝ} {rot : Option Tilt.Mat}
    (hr : setupRot zvec pa = .ok rot) (amp : ℝ) :
    AtInfinity ((Ellipsoidal.pot ⟨b, c, P, rot, leg.map setupGl⟩).scale amp) 0 := by
  have hg : Par.Good ⟨b, c, P, rot, leg.map setupGl⟩ := by
    refine ⟨hb, hc, ?_, h.ok, fun _ => h.mild⟩
    exact (good (.hernquist one_pos) hb hc hl rot).nodes
  have := at_infinity hg (orth hz hr) h.nonneg h.lim amp
  simpa using this
example : AtInfinity ((Ellipsoidal.pot ⟨4/5, 1/2, jaffe 2, none, none⟩).scale 3) 0 :=
  C64_Ellipsoidal (leg := none) (zvec := none) (pa := none) (.jaffe two_pos) (by norm_num) (by norm_num) leg_none
    (fun _ _ h => by cases h) (by simp [setupRot]) 3

/-- TwoPowerSphericalPotential of finite mass, and with the slopes of the NFW profile. -/
theorem C64_TwoPower {a α β : ℝ} (ha : 0 < a) (h : α < 3) (hβ : 3 < β ∨ α = 1 ∧ β = 3) (amp : ℝ) :
    AtInfinity ((TwoPower.pot a α β).scale amp) 0 := by
  obtain ⟨f, hf, e⟩ := sphere ha h hβ
  refine radial (f := fun r => amp * f r) (by simpa using hf.const_mul amp) fun R z φ t => ?_
  simp only [Pot.scale, e]
example : AtInfinity ((TwoPower.pot 2 (1/2) (7/2)).scale 3) 0 :=
  C64_TwoPower two_pos (by norm_num) (Or.inl (by norm_num)) 3

/-- TwoPowerTriaxialPotential with an inner slope below 2 other than 1: `_psi` is not the documented integral but differs
from it by `2 a² (α - 1) Γ(2-α) Γ(β-2) / Γ(β-α)`, because the constant `psi_inf` has `Γ(3-α)` for `Γ(2-α)`. The value far
from the centre tends to a constant other than zero. -/
theorem C64_TwoPowerTriaxial_fails {a α β : ℝ} (ha : 0 < a) (h : α < 2) (h1 : α ≠ 1) (hβ : 2 < β) :
    (∀ m, 0 < m → (twoPower a α β).psi m
      = 2 * a ^ 2 * (α - 1) * (Real.Gamma (2 - α) * Real.Gamma (β - 2) / Real.Gamma (β - α))
        - ∫ x in Ioi m, 2 * x * (twoPower a α β).mdens x)
    ∧ ¬ IsPsi (twoPower a α β).mdens (twoPower a α β).psi
    ∧ ∀ b c : ℝ, 0 < b → 0 < c → ∀ (leg : Option (List (ℝ × ℝ))), Legendre leg → (∀ l ∈ leg, l ≠ [] ∧ ∀ n ∈ l, 0 < n.2) →
      ∀ (zvec : Option Tilt.ZVec) (pa : Option ℝ) (rot : Option Tilt.Mat), AxisOK zvec → setupRot zvec pa = .ok rot →
      ∀ amp, amp ≠ 0 → ∃ C, C ≠ 0 ∧ AtInfinity ((Ellipsoidal.pot ⟨b, c, twoPower a α β, rot, leg.map setupGl⟩).scale amp) C := by
  have hn : ∀ m, 0 < m → 0 ≤ (twoPower a α β).mdens m := fun m hm => by simp only [Ellipsoidal.twoPower]; positivity
  have ok := twoPower_ok ha (Or.inr h) hβ
  have hL := psi_lim ha h hβ
  have key := fun m hm => (isPsi ok hn hL (m := m) hm).2
  have L0 : psiLim a α β ≠ 0 := by
    have := B_pos (p := 2 - α) (q := β - 2) (by linarith) (by linarith)
    have h1' : 1 - α ≠ 0 := fun e => h1 (by linarith)
    unfold psiLim
    exact mul_ne_zero (mul_ne_zero (mul_ne_zero (by norm_num) (by positivity)) h1') this.ne'
  refine ⟨fun m hm => ?_, fun hp => ?_, ?_⟩
  · rw [key m hm, psiLim, B, show 2 - α + (β - 2) = β - α by ring]
    ring
  · have := (hp 1 one_pos).2
    rw [key 1 one_pos] at this
    exact L0 (by linarith)
  · intro b c hb hc leg hleg hw zvec pa rot hz hr amp hamp
    have hg : Par.Good ⟨b, c, twoPower a α β, rot, leg.map setupGl⟩ :=
      ⟨hb, hc, (good (.hernquist one_pos) hb hc hleg rot).nodes, ok, fun _ => twoPower_mild ha (Or.inr h) hβ⟩
    refine ⟨_, ?_, at_infinity hg (orth hz hr) hn hL amp⟩
    have hom : ∀ s ∈ Ioc (0:ℝ) 1, 0 < om (b ^ 2) (c ^ 2) s := fun s hs => by
      have := lin_pos (pow_pos hb 2) hs
      have := lin_pos (pow_pos hc 2) hs
      unfold om
      positivity
    have hq : quad (leg.map setupGl) (om (b ^ 2) (c ^ 2)) ≠ 0 := by
      refine ne_of_gt ?_
      cases leg with
      | none =>
        exact intervalIntegral.intervalIntegral_pos_of_pos_on (om_int (pow_pos hb 2) (pow_pos hc 2)) (fun s hs => hom s ⟨hs.1, hs.2.le⟩) one_pos
      | some l =>
        obtain ⟨hne, hpos⟩ := hw l rfl
        simp only [quad, Option.map_some]
        refine List.sum_pos _ (fun x hx => ?_) (by simp [setupGl, hne])
        simp only [setupGl, List.map_map, List.mem_map, Function.comp_apply] at hx
        obtain ⟨n, hn', rfl⟩ := hx
        have hb1 := hleg l rfl n hn'
        have := hpos n hn'
        have := hom (0.5 * n.1 + 0.5) ⟨by norm_num; linarith [hb1.1], by norm_num; linarith [hb1.2]⟩
        positivity
    have := Real.pi_ne_zero
    exact mul_ne_zero hamp (mul_ne_zero (by positivity) (mul_ne_zero L0 hq))
/-- With inner slope zero, `_psi` of a model of unit scale and outer slope 4 is negative by `2 Γ(2) Γ(2) / Γ(4) = 1/3` too much. -/
example : ¬ IsPsi (twoPower 1 0 4).mdens (twoPower 1 0 4).psi :=
  (C64_TwoPowerTriaxial_fails one_pos (by norm_num) (by norm_num) (by norm_num)).2.1

end Verif
