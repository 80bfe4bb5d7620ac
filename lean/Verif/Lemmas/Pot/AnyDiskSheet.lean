import Verif.Lemmas.Pot.AnyDiskQuad
import Mathlib.Analysis.SpecialFunctions.Trigonometric.ArctanDeriv

set_option autoImplicit false

/-! # The vertical force just above a razor-thin disk, and the potential at its centre -/

noncomputable section
namespace Verif.AnyDisk
open Real MeasureTheory Set Filter Topology Ring

/-- The Cauchy kernel. -/
def ck (R z a : ℝ) : ℝ := z / ((a - R) ^ 2 + z ^ 2)

theorem ck_cont (R : ℝ) {z : ℝ} (hz : 0 < z) : Continuous (ck R z) := by
  unfold ck
  exact continuous_const.div (by fun_prop) fun a => by positivity

theorem ck_int (R : ℝ) {z c : ℝ} (hz : 0 < z) : ∫ a in (R - c)..(R + c), ck R z a = 2 * arctan (c / z) := by
  have hd : ∀ a ∈ uIcc (R - c) (R + c), HasDerivAt (fun a => arctan ((a - R) / z)) (ck R z a) a := by
    intro a _
    refine (((hasDerivAt_id a).sub_const R).div_const z).arctan.congr_deriv ?_
    unfold ck; simp only [id]
    field_simp
    ring
  rw [intervalIntegral.integral_eq_sub_of_hasDerivAt hd ((ck_cont R hz).intervalIntegrable _ _)]
  rw [show R + c - R = c by ring, show R - c - R = -c by ring, neg_div, arctan_neg]; ring

/-- Approximate identity. -/
theorem approx_id {F : ℝ → ℝ → ℝ} {G : ℝ → ℝ} {L R : ℝ} (hR : 0 < R)
    (hm : ∀ z, 0 < z → AEStronglyMeasurable (F z) (volume.restrict (Ioi 0))) (hG : IntegrableOn G (Ioi 0))
    (hb : ∀ z a, 0 < z → 0 < a → |F z a| ≤ G a)
    (hL : ∀ η, 0 < η → ∃ δ, 0 < δ ∧ ∀ z a, 0 < z → z < δ → |a - R| < δ → |F z a - L| ≤ η) :
    Tendsto (fun z => ∫ a in Ioi (0 : ℝ), F z a * ck R z a) (𝓝[>] 0) (𝓝 (π * L)) := by
  set D : Set ℝ := Ioc (R - R / 2) (R + R / 2) with hD
  have hDm : MeasurableSet D := measurableSet_Ioc
  have hDs : D ⊆ Ioi 0 := fun x hx => by have := hx.1; simp only [mem_Ioi]; linarith
  let J : ℝ → ℝ := D.indicator fun _ => (1 : ℝ)
  have hJ01 : ∀ a, J a = 0 ∨ J a = 1 := fun a => by
    by_cases h : a ∈ D
    · right; exact indicator_of_mem h _
    · left; exact indicator_of_notMem h _
  have hkpos : ∀ z a, 0 < z → 0 ≤ ck R z a := fun z a hz => by unfold ck; positivity
  have hkb : ∀ z a, 0 < z → ck R z a ≤ 1 / z := fun z a hz => by
    unfold ck
    rw [div_le_div_iff₀ (by positivity) hz]
    nlinarith [sq_nonneg (a - R)]
  have hJk : ∀ z, 0 < z → IntegrableOn (fun a => J a * ck R z a) (Ioi 0) ∧
      ∫ a in Ioi (0 : ℝ), J a * ck R z a = 2 * arctan (R / 2 / z) := by
    intro z hz
    have e : (fun a => J a * ck R z a) = D.indicator (ck R z) := by
      funext a; by_cases h : a ∈ D <;> simp [J, h]
    rw [e]
    refine ⟨?_, ?_⟩
    · refine IntegrableOn.integrable_indicator ?_ hDm |>.integrableOn
      exact ((ck_cont R hz).integrableOn_Icc).mono_set Ioc_subset_Icc_self
    · rw [setIntegral_indicator hDm, inter_eq_self_of_subset_right hDs, hD,
        ← intervalIntegral.integral_of_le (by linarith), ck_int R hz]
  have hJi : IntegrableOn J (Ioi 0) := by
    refine (IntegrableOn.integrable_indicator ?_ hDm).integrableOn
    exact integrableOn_const (by simp [hD])
  have hFk : ∀ z, 0 < z → IntegrableOn (fun a => F z a * ck R z a) (Ioi 0) := by
    intro z hz
    refine Integrable.mono' (g := fun a => (1 / z) * G a) (hG.const_mul _)
      ((hm z hz).mul (ck_cont R hz).aestronglyMeasurable) ?_
    filter_upwards [ae_restrict_mem measurableSet_Ioi] with a ha
    rw [norm_mul, Real.norm_eq_abs, Real.norm_eq_abs, abs_of_nonneg (hkpos z a hz), mul_comm]
    exact mul_le_mul (hkb z a hz) (hb z a hz ha) (abs_nonneg _) (by positivity)
  have hsplit : ∀ z, 0 < z → ∫ a in Ioi (0 : ℝ), F z a * ck R z a
      = (∫ a in Ioi (0 : ℝ), (F z a - L * J a) * ck R z a) + L * (2 * arctan (R / 2 / z)) := by
    intro z hz
    rw [← (hJk z hz).2, ← integral_const_mul, ← integral_add]
    · refine setIntegral_congr_fun measurableSet_Ioi fun a _ => ?_
      ring
    · have := (hFk z hz).sub ((hJk z hz).1.const_mul L)
      refine this.congr (Eventually.of_forall fun a => ?_)
      simp only [Pi.sub_apply]; ring
    · exact (hJk z hz).1.const_mul L
  have h2 : Tendsto (fun z : ℝ => L * (2 * arctan (R / 2 / z))) (𝓝[>] 0) (𝓝 (π * L)) := by
    have t1 : Tendsto (fun z : ℝ => R / 2 / z) (𝓝[>] 0) atTop := by
      simp_rw [div_eq_mul_inv (R / 2)]
      exact tendsto_inv_nhdsGT_zero.const_mul_atTop (by positivity)
    have t2 := (tendsto_arctan_atTop.mono_right nhdsWithin_le_nhds).comp t1
    have := (t2.const_mul 2).const_mul L
    rw [show π * L = L * (2 * (π / 2)) by ring]
    exact this
  have h1 : Tendsto (fun z => ∫ a in Ioi (0 : ℝ), (F z a - L * J a) * ck R z a) (𝓝[>] 0) (𝓝 0) := by
    rw [Metric.tendsto_nhds]
    intro e he
    obtain ⟨δ0, hδ0, hδ⟩ := hL (e / (2 * π)) (by positivity)
    set δ := min δ0 (R / 2) with hdd
    have hδp : 0 < δ := lt_min hδ0 (by positivity)
    set C := (∫ a in Ioi (0 : ℝ), G a + |L| * J a) with hC
    have hC0 : 0 ≤ C := by
      refine setIntegral_nonneg measurableSet_Ioi fun a ha => ?_
      have := (abs_nonneg _).trans (hb 1 a one_pos ha)
      rcases hJ01 a with h | h <;> rw [h] <;> simp <;> positivity
    have hz1 : ∀ᶠ z : ℝ in 𝓝[>] 0, z < δ := nhdsWithin_le_nhds (gt_mem_nhds hδp)
    have hz2 : ∀ᶠ z : ℝ in 𝓝[>] 0, z < e / 2 / (C + 1) * δ ^ 2 := nhdsWithin_le_nhds (gt_mem_nhds (by positivity))
    filter_upwards [hz1, hz2, self_mem_nhdsWithin] with z hzδ hzC hz
    have hz : 0 < z := hz
    rw [dist_zero_right]
    have hbound : ∀ a ∈ Ioi (0 : ℝ), ‖(F z a - L * J a) * ck R z a‖ ≤
        e / (2 * π) * (J a * ck R z a) + (G a + |L| * J a) * (z / δ ^ 2) := by
      intro a ha
      have hk0 := hkpos z a hz
      have hG0 : 0 ≤ G a := (abs_nonneg _).trans (hb z a hz ha)
      rw [norm_mul, Real.norm_eq_abs, Real.norm_eq_abs, abs_of_nonneg hk0]
      rcases lt_or_ge |a - R| δ with hlt | hge
      · have hJ1 : J a = 1 := by
          refine indicator_of_mem ?_ _
          have h3 := hlt.trans_le (min_le_right δ0 (R / 2))
          rw [abs_lt] at h3
          exact ⟨by linarith [h3.1], by linarith [h3.2]⟩
        rw [hJ1, one_mul, mul_one, mul_one]
        have h4 := hδ z a hz (hzδ.trans_le (min_le_left _ _)) (hlt.trans_le (min_le_left _ _))
        have h5 := mul_le_mul_of_nonneg_right h4 hk0
        have h6 : 0 ≤ (G a + |L|) * (z / δ ^ 2) := by positivity
        linarith
      · have h7 : ck R z a ≤ z / δ ^ 2 := by
          unfold ck
          refine div_le_div_of_nonneg_left hz.le (by positivity) ?_
          have : δ ^ 2 ≤ (a - R) ^ 2 := by
            rw [← sq_abs (a - R)]; exact pow_le_pow_left₀ hδp.le hge 2
          nlinarith [sq_nonneg z]
        have h8 : |F z a - L * J a| ≤ G a + |L| * J a := by
          refine (abs_sub _ _).trans (add_le_add (hb z a hz ha) ?_)
          rw [abs_mul]
          rcases hJ01 a with h | h <;> rw [h] <;> simp
        have hJ0 : 0 ≤ J a := by rcases hJ01 a with h | h <;> rw [h]; norm_num
        have h9 := mul_le_mul h8 h7 hk0 ((abs_nonneg _).trans h8)
        have h10 : 0 ≤ e / (2 * π) * (J a * ck R z a) := by positivity
        linarith
    have hi2 : IntegrableOn (fun a => (G a + |L| * J a) * (z / δ ^ 2)) (Ioi 0) := (hG.add (hJi.const_mul _)).mul_const _
    have hi : IntegrableOn (fun a => e / (2 * π) * (J a * ck R z a) + (G a + |L| * J a) * (z / δ ^ 2)) (Ioi 0) :=
      ((hJk z hz).1.const_mul _).add ((hG.add (hJi.const_mul _)).mul_const _)
    have hle : ‖∫ a in Ioi (0 : ℝ), (F z a - L * J a) * ck R z a‖ ≤
        ∫ a in Ioi (0 : ℝ), (e / (2 * π) * (J a * ck R z a) + (G a + |L| * J a) * (z / δ ^ 2)) := by
      refine norm_integral_le_of_norm_le hi ?_
      filter_upwards [ae_restrict_mem measurableSet_Ioi] with a ha using hbound a ha
    have hval : ∫ a in Ioi (0 : ℝ), (e / (2 * π) * (J a * ck R z a) + (G a + |L| * J a) * (z / δ ^ 2))
        = e / (2 * π) * (2 * arctan (R / 2 / z)) + C * (z / δ ^ 2) := by
      rw [integral_add ((hJk z hz).1.const_mul _) hi2, integral_const_mul, (hJk z hz).2,
        integral_mul_const]
    rw [hval] at hle
    have hat := arctan_lt_pi_div_two (R / 2 / z)
    have hp := pi_pos
    have e1 : e / (2 * π) * (2 * arctan (R / 2 / z)) < e / 2 := by
      calc e / (2 * π) * (2 * arctan (R / 2 / z)) < e / (2 * π) * (2 * (π / 2)) := by gcongr
        _ = e / 2 := by field_simp
    have e2 : C * (z / δ ^ 2) ≤ e / 2 := by
      rw [← mul_div_assoc, div_le_iff₀ (by positivity)]
      have : (C + 1) * z < e / 2 * δ ^ 2 := by
        have := mul_lt_mul_of_pos_left hzC (show 0 < C + 1 by linarith)
        calc _ < _ := this
          _ = _ := by field_simp
      nlinarith
    linarith
  have := h1.add h2
  rw [zero_add] at this
  refine this.congr' ?_
  filter_upwards [self_mem_nhdsWithin] with z hz using (hsplit z hz).symm

theorem ellipe_cont : Continuous ellipe := by
  unfold ellipe
  exact intervalIntegral.continuous_parametric_intervalIntegral_of_continuous'
    (f := fun m θ => √(1 - m * sin θ ^ 2)) (by fun_prop) _ _

theorem ellipe_one : ellipe 1 = 1 := by
  unfold ellipe
  have : ∀ θ ∈ uIcc (0 : ℝ) (π / 2), √(1 - 1 * sin θ ^ 2) = cos θ := by
    intro θ hθ
    rw [uIcc_of_le (by positivity)] at hθ
    rw [one_mul, ← cos_sq', sqrt_sq (cos_nonneg_of_neg_pi_div_two_le_of_le (by linarith [hθ.1, pi_pos]) hθ.2)]
  rw [intervalIntegral.integral_congr this]
  simp

theorem zforce_neg (S : ℝ → ℝ) (R z : ℝ) : sup S Ring.zforce R (-z) = -sup S Ring.zforce R z := by
  rw [← sup_neg]
  unfold sup
  refine integral_congr_ae (Eventually.of_forall fun a => ?_)
  simp only [Ring.zforce, neg_sq]; ring

/-- Just above the disk the vertical force is `-2 π Σ`. -/
theorem sheet {S : ℝ → ℝ} (h : Fin S) {R : ℝ} (hR : 0 < R) (hS : ContinuousAt S R) :
    Tendsto (fun z => zforce S R z) (𝓝[>] 0) (𝓝 (-(2 * π * S R))) := by
  let F : ℝ → ℝ → ℝ := fun z a => S a * (4 * a * iw a R z * ε a R z)
  have key : Tendsto (fun z => ∫ a in Ioi (0 : ℝ), F z a * ck R z a) (𝓝[>] 0) (𝓝 (π * (2 * S R))) := by
    refine approx_id (G := fun a => 4 * (1 / R) * (π / 2) * ‖a * S a‖) hR ?_ (h.norm.const_mul _) ?_ ?_
    · intro z hz
      have := cont_iw hR hz.ne'; have := cont_ε hR hz.ne'
      exact h.meas.mul (ContinuousOn.aestronglyMeasurable (by fun_prop) measurableSet_Ioi)
    · intro z a hz ha
      have hk := ring_ok (a := a) hR hz.ne'
      have h1 : iw a R z ≤ 1 / R := by
        unfold iw
        refine one_div_le_one_div_of_le hR (le_sqrt_of_sq_le ?_)
        unfold P; nlinarith [sq_nonneg z, mul_pos hR ha, sq_nonneg a]
      have h0 := (iw_pos ha hR hz.ne').le
      have he0 := (ε_pos ha hk).le
      have he : ε a R z ≤ π / 2 := ellipe_le (m_pos ha hk).le
      simp only [F]
      rw [abs_mul, abs_of_nonneg (by positivity : 0 ≤ 4 * a * iw a R z * ε a R z), norm_mul, Real.norm_eq_abs,
        Real.norm_eq_abs, abs_of_pos ha]
      calc |S a| * (4 * a * iw a R z * ε a R z) ≤ |S a| * (4 * a * (1 / R) * (π / 2)) := by gcongr
        _ = _ := by ring
    · intro η hη
      have hc : ContinuousAt (fun p : ℝ × ℝ => S p.2 * (4 * p.2 * iw p.2 R p.1 * ε p.2 R p.1)) (0, R) := by
        have c1 : ContinuousAt (fun p : ℝ × ℝ => S p.2) (0, R) := ContinuousAt.comp (f := Prod.snd) (g := S) hS continuousAt_snd
        have hp : P R R 0 ≠ 0 := by unfold P; positivity
        have cP : ContinuousAt (fun p : ℝ × ℝ => P p.2 R p.1) (0, R) := by unfold P; fun_prop
        have c2 : ContinuousAt (fun p : ℝ × ℝ => iw p.2 R p.1) (0, R) := by
          unfold iw
          refine continuousAt_const.div cP.sqrt ?_
          exact (sqrt_pos.2 (by unfold P; positivity)).ne'
        have c3 : ContinuousAt (fun p : ℝ × ℝ => ε p.2 R p.1) (0, R) := by
          unfold ε
          have : ContinuousAt (fun p : ℝ × ℝ => mm p.2 R p.1) (0, R) := by
            unfold mm
            exact ContinuousAt.div (by fun_prop) cP hp
          exact ellipe_cont.continuousAt.comp this
        fun_prop
      have hv : S R * (4 * R * iw R R 0 * ε R R 0) = 2 * S R := by
        have h1 : iw R R 0 = 1 / (2 * R) := by
          unfold iw P
          rw [show (R + R) ^ 2 + 0 ^ 2 = (2 * R) ^ 2 by ring, sqrt_sq (by positivity)]
        have h2 : ε R R 0 = 1 := by
          unfold ε mm P
          rw [show 4 * R * R / ((R + R) ^ 2 + 0 ^ 2) = 1 by field_simp; ring, ellipe_one]
        rw [h1, h2]; field_simp; ring
      rw [Metric.continuousAt_iff] at hc
      obtain ⟨δ, hδ, hd⟩ := hc η hη
      refine ⟨δ, hδ, fun z a hz hzδ haδ => ?_⟩
      have := hd (x := (z, a)) (by
        rw [Prod.dist_eq, max_lt_iff]
        constructor
        · rw [dist_zero_right, Real.norm_eq_abs, abs_of_pos hz]; exact hzδ
        · rw [Real.dist_eq]; exact haδ)
      simp only at this
      rw [hv, Real.dist_eq] at this
      exact this.le
  have := key.neg
  rw [show -(π * (2 * S R)) = -(2 * π * S R) by ring] at this
  refine this.congr' ?_
  filter_upwards [self_mem_nhdsWithin] with z hz
  have hz : 0 < z := hz
  rw [zf_sup h hR hz.ne']
  unfold sup
  rw [← integral_neg]
  refine setIntegral_congr_fun measurableSet_Ioi fun a ha => ?_
  simp only [F, ck]
  rw [zforce_eq ha (ring_ok hR hz.ne'), show (a - R) ^ 2 + z ^ 2 = Q a R z by unfold Q; ring]
  ring

theorem sheet_below {S : ℝ → ℝ} (h : Fin S) {R : ℝ} (hR : 0 < R) (hS : ContinuousAt S R) :
    Tendsto (fun z => zforce S R z) (𝓝[<] 0) (𝓝 (2 * π * S R)) := by
  have h1 : Tendsto (fun z : ℝ => -z) (𝓝[<] 0) (𝓝[>] 0) := by
    refine tendsto_nhdsWithin_iff.2 ⟨?_, ?_⟩
    · have : Tendsto (fun z : ℝ => -z) (𝓝 0) (𝓝 (-0)) := tendsto_id.neg
      rw [neg_zero] at this
      exact this.mono_left nhdsWithin_le_nhds
    · filter_upwards [self_mem_nhdsWithin] with z hz
      have : z < 0 := hz
      exact neg_pos.2 this
  have := ((sheet h hR hS).comp h1).neg
  rw [neg_neg] at this
  refine this.congr' ?_
  filter_upwards [self_mem_nhdsWithin] with z hz
  have hz : z < 0 := hz
  simp only [Function.comp]
  rw [zf_sup h hR (neg_ne_zero.2 hz.ne), zf_sup h hR hz.ne, zforce_neg, neg_neg]

theorem ellipk_zero : ellipk 0 = π / 2 := by unfold ellipk; simp

theorem axis {S : ℝ → ℝ} {z : ℝ} (hz : z ≠ 0) :
    evaluate S 0 z = -2 * π * ∫ a in Ioi (0 : ℝ), S a * (a / √(a ^ 2 + z ^ 2)) := by
  unfold evaluate quadApeak
  rw [if_neg (fun k => hz k.2)]
  simp only [mul_zero, ge_iff_le, abs_nonneg, or_true, if_true, intervalIntegral.integral_same, zero_add, sub_zero]
  rw [← integral_const_mul, ← integral_const_mul]
  refine setIntegral_congr_fun measurableSet_Ioi fun a _ => ?_
  have : a ^ 2 + z ^ 2 ≠ 0 := by positivity
  simp only [div_self this, ellipkm1, sub_self, ellipk_zero]
  ring

theorem centre {S : ℝ → ℝ} (h : IntegrableOn S (Ioi 0)) : ContinuousAt (fun z => evaluate S 0 z) 0 := by
  have e0 : evaluate S 0 0 = -2 * π * ∫ a in Ioi (0 : ℝ), S a * (a / √(a ^ 2 + 0 ^ 2)) := by
    unfold evaluate
    rw [if_pos ⟨rfl, rfl⟩]
    congr 1
    refine setIntegral_congr_fun measurableSet_Ioi fun a ha => ?_
    have ha : 0 < a := ha
    rw [show a ^ 2 + 0 ^ 2 = a ^ 2 by ring, sqrt_sq ha.le, div_self ha.ne', mul_one]
  have e : (fun z => evaluate S 0 z) = fun z => -2 * π * ∫ a in Ioi (0 : ℝ), S a * (a / √(a ^ 2 + z ^ 2)) := by
    funext z
    by_cases hz : z = 0
    · rw [hz, e0]
    · exact axis hz
  rw [e]
  refine ContinuousAt.mul continuousAt_const ?_
  refine continuousAt_of_dominated (bound := fun a => ‖S a‖) ?_ ?_ h.norm ?_
  · refine Eventually.of_forall fun z => h.aestronglyMeasurable.mul ?_
    exact Measurable.aestronglyMeasurable (by fun_prop)
  · refine Eventually.of_forall fun z => ?_
    filter_upwards [ae_restrict_mem measurableSet_Ioi] with a ha
    have ha : 0 < a := ha
    rw [norm_mul]
    refine mul_le_of_le_one_right (norm_nonneg _) ?_
    rw [Real.norm_eq_abs, abs_of_nonneg (by positivity), div_le_one (sqrt_pos.2 (by positivity))]
    exact le_sqrt_of_sq_le (by nlinarith [sq_nonneg z])
  · filter_upwards [ae_restrict_mem measurableSet_Ioi] with a ha
    have ha : 0 < a := ha
    refine continuousAt_const.mul (continuousAt_const.div (by fun_prop) ?_)
    exact (sqrt_pos.2 (by positivity)).ne'

end Verif.AnyDisk
