import Verif.Model.Pot.TwoPowerTriaxial
import Verif.Lemmas.Pot.TwoPowerGeneric
import Verif.Lemmas.Pot.EllipsoidalProfiles
import Verif.Lemmas.Pot.EllipsoidalMass

set_option autoImplicit false

/-! The profile of TwoPowerTriaxialPotential. -/

noncomputable section
namespace Verif.Ellipsoidal
open Real Set Filter Topology TwoPower

section
variable {a α β : ℝ}

theorem M_lim0 {p : ℝ} (q : ℝ) (hp : -1 < p) : Tendsto (M p q) (𝓝[>] 0) (𝓝 0) := by
  have hI := (intervalIntegrable_iff_integrableOn_Icc_of_le zero_le_one).1 (M_int q hp zero_le_one)
  have c := intervalIntegral.continuousOn_primitive_interval (μ := MeasureTheory.volume) (a := 0) (b := 1)
    (f := fun x : ℝ => x ^ p * (1 + x) ^ q) (by rw [uIcc_of_le zero_le_one]; exact hI)
  have c0 := (c 0 (by simp)).tendsto
  rw [intervalIntegral.integral_same, uIcc_of_le zero_le_one] at c0
  refine c0.mono_left ?_
  rw [nhdsWithin_Icc_eq_nhdsGE one_pos]
  exact nhdsWithin_mono _ Ioi_subset_Ici_self

theorem M_cont {p : ℝ} (q : ℝ) (hp : -1 < p) : ContinuousOn (M p q) (Ici 0) := by
  intro s hs
  rcases eq_or_lt_of_le (show (0:ℝ) ≤ s from hs) with h | h
  · subst h
    refine continuousWithinAt_Ioi_iff_Ici.1 ?_
    rw [ContinuousWithinAt, show M p q 0 = 0 from intervalIntegral.integral_same]
    exact M_lim0 q hp
  · exact (M_deriv q hp h).continuousAt.continuousWithinAt

/-- `psi` in terms of the incomplete integral. -/
theorem psi_eq (ha : 0 < a) (h : α < 2) {m : ℝ} (hm : 0 < m) :
    (twoPower a α β).psi m = -2 * a ^ 2 * (psiInf α β - M (1 - α) (α - β) (m / a)) := by
  have hs := div_pos hm ha
  have h2 : 2 - α ≠ 0 := by linarith
  have e := hyp_one (p := 2 - α) (β - α) (by linarith) hs
  rw [show 2 - α + 1 = 3 - α by ring, ← neg_div, show 2 - α - 1 = 1 - α by ring, neg_sub β α] at e
  have k : (m / a) ^ (2 - α) * (m / a) ^ (-(2 - α)) = 1 := by rw [← rpow_add hs]; simp
  simp only [twoPower, if_neg h2]
  rw [e]
  congr 2
  field_simp
  linear_combination M (1 - α) (α - β) (m / a) * k
theorem psi_two (ha : 0 < a) (hβ : 2 < β) {m : ℝ} (hm : 0 < m) :
    (twoPower a 2 β).psi m = -2 * a ^ 2 * M (β - 3) (2 - β) (a / m) := by
  have hs := div_pos ha hm
  have h2 : β - 2 ≠ 0 := by linarith
  have e := hyp_one (p := β - 2) (β - 2) (by linarith) hs
  rw [← neg_div, show β - 2 - 1 = β - 3 by ring, neg_sub β 2] at e
  have k : (a / m) ^ (β - 2) * (a / m) ^ (2 - β) = 1 := by rw [← rpow_add hs]; simp
  simp only [twoPower, sub_self, if_true]
  rw [e]
  field_simp
  linear_combination (-M (β - 3) (2 - β) (a / m)) * k

theorem mdens_eq (ha : 0 < a) {m : ℝ} (hm : 0 < m) :
    (twoPower a α β).mdens m = a ^ α * (m ^ (-α) * (1 + m / a) ^ (α - β)) := by
  have h1 : 0 < 1 + m / a := by positivity
  simp only [twoPower]
  rw [div_rpow ha.le hm.le, rpow_neg hm.le, show α - β = -(β - α) by ring, rpow_neg h1.le]
  field_simp

theorem twoPower_ok (ha : 0 < a) (h : α = 2 ∨ α < 2) (hβ : 2 < β) : (twoPower a α β).OK := by
  constructor
  · intro m hm
    have hs := div_pos hm ha
    have h1 : 0 < 1 + m / a := by positivity
    rcases h with rfl | h
    · have hy := div_pos ha hm
      have dy : HasDerivAt (fun r => a / r) (-a / m ^ 2) m := by
        refine ((hasDerivAt_const m a).div (hasDerivAt_id m) hm.ne').congr_deriv ?_
        simp
      have d := ((M_deriv (p := β - 3) (2 - β) (by linarith) hy).comp m dy).const_mul (-2 * a ^ 2)
      refine (d.congr_of_eventuallyEq ((lt_mem_nhds hm).mono fun x hx => psi_two ha hβ hx)).congr_deriv ?_
      rw [mdens_eq ha hm, show 1 + m / a = (1 + a / m) * (m / a) by field_simp; ring,
        mul_rpow (by positivity) hs.le, show m / a = (a / m)⁻¹ by rw [inv_div], inv_rpow hy.le, ← rpow_neg hy.le, neg_sub,
        show β - 3 = β - 2 - 1 by ring, rpow_sub_one hy.ne', rpow_neg hm.le, rpow_two, rpow_two]
      field_simp
    · have d := (((M_deriv (p := 1 - α) (α - β) (by linarith) hs).comp m ((hasDerivAt_id m).div_const a)).const_sub
        (psiInf α β)).const_mul (-2 * a ^ 2)
      refine (d.congr_of_eventuallyEq ((lt_mem_nhds hm).mono fun x hx => psi_eq ha h hx)).congr_deriv ?_
      rw [mdens_eq ha hm, show (m / a) ^ (1 - α) = m / a * (m ^ (-α) * a ^ α) by
        rw [← scale_pow ha hm, mul_comm, ← rpow_add_one hs.ne']; congr 1; ring]
      field_simp
  · intro m hm
    have h1 : 0 < 1 + m / a := by positivity
    have d1 : HasDerivAt (fun m : ℝ => m ^ (-α)) (-α * m ^ (-α - 1)) m := hasDerivAt_rpow_const (Or.inl hm.ne')
    have d2 : HasDerivAt (fun m : ℝ => (1 + m / a) ^ (α - β)) (1 / a * (α - β) * (1 + m / a) ^ (α - β - 1)) m :=
      (((hasDerivAt_id m).div_const a).const_add 1).rpow_const (Or.inl (by simp only [id]; exact h1.ne'))
    have d := (d1.mul d2).const_mul (a ^ α)
    refine (d.congr_of_eventuallyEq ((lt_mem_nhds hm).mono fun x hx => mdens_eq ha hx)).congr_deriv ?_
    have e : (twoPower a α β).mdensDeriv m = -((twoPower a α β).mdens m) * (a * α + β * m) / m / (a + m) := rfl
    rw [e, mdens_eq ha hm, rpow_sub_one hm.ne', rpow_sub_one h1.ne']
    field_simp
    ring

theorem M_pow_le {p y : ℝ} (hp : 0 < p) (hy : 0 ≤ y) : ∃ δ, 0 < δ ∧ δ ≤ 1 / 4 ∧
    ∀ y, 0 < y → M (p - 1) (-p) y ≤ y ^ δ / δ := by
  refine ⟨min p (1 / 4), lt_min hp (by norm_num), min_le_right _ _, fun y hy => ?_⟩
  set δ := min p (1 / 4)
  have hδ : 0 < δ := lt_min hp (by norm_num)
  have hδp : δ ≤ p := min_le_left _ _
  have e : ∫ x in (0:ℝ)..y, x ^ (δ - 1) = y ^ δ / δ := by
    rw [integral_rpow (Or.inl (by linarith)), sub_add_cancel, zero_rpow hδ.ne', sub_zero]
  rw [← e, M]
  refine intervalIntegral.integral_mono_on_of_le_Ioo hy.le (M_int _ (by linarith) hy.le)
    (intervalIntegral.intervalIntegrable_rpow' (by linarith)) fun x hx => ?_
  have hx0 : 0 < x := hx.1
  have h1 : 0 < 1 + x := by positivity
  have k : x ^ (p - 1) * (1 + x) ^ (-p) = (x / (1 + x)) ^ p / x := by
    rw [div_rpow hx0.le h1.le, rpow_sub_one hx0.ne', rpow_neg h1.le]; field_simp
  rw [k, rpow_sub_one hx0.ne']
  gcongr
  calc (x / (1 + x)) ^ p ≤ (x / (1 + x)) ^ δ :=
        rpow_le_rpow_of_exponent_ge (by positivity) (by rw [div_le_one h1]; linarith) hδp
    _ ≤ x ^ δ := by
        refine rpow_le_rpow (by positivity) ?_ hδ.le
        exact div_le_self hx0.le (by linarith)

theorem twoPower_mild (ha : 0 < a) (h : α = 2 ∨ α < 2) (hβ : 2 < β) : (twoPower a α β).Mild := by
  have c2 : ContinuousOn (fun m : ℝ => (1 + m / a) ^ (α - β)) (Ici 0) :=
    ContinuousOn.rpow_const (by fun_prop) fun m hm => Or.inl (by have : 0 ≤ m := hm; positivity)
  have c3 : ContinuousOn (fun m : ℝ => (a * α + β * m) / (a + m)) (Ici 0) :=
    ContinuousOn.div (by fun_prop) (by fun_prop) fun m hm => by have : 0 ≤ m := hm; positivity
  have key : ∀ κ : ℝ, 0 ≤ κ → κ < 1 / 2 → 0 ≤ 2 * κ + 2 - α → (∃ G₀ : ℝ → ℝ, ContinuousOn G₀ (Ici 0) ∧
      ∀ m : ℝ, 0 < m → (twoPower a α β).psi m = m ^ (-(2 * κ)) * G₀ m) → (twoPower a α β).Mild := by
    rintro κ h0 h1 h2 ⟨G₀, c₀, e₀⟩
    have c1 : ContinuousOn (fun m : ℝ => m ^ (2 * κ + 2 - α)) (Ici 0) :=
      continuousOn_id.rpow_const fun m _ => Or.inr h2
    have kk : ∀ m : ℝ, 0 < m → m ^ (-α) = m ^ (-(2 * κ)) / m ^ 2 * m ^ (2 * κ + 2 - α) := by
      intro m hm
      rw [← rpow_natCast m 2, ← rpow_sub hm, ← rpow_add hm]
      congr 1; push_cast; ring
    refine mild_of h0 h1 (G₁ := fun m => a ^ α * (m ^ (2 * κ + 2 - α) * (1 + m / a) ^ (α - β)))
      (G₂ := fun m => -(a ^ α * (m ^ (2 * κ + 2 - α) * (1 + m / a) ^ (α - β))) * ((a * α + β * m) / (a + m))) c₀
      (continuousOn_const.mul (c1.mul c2)) ((continuousOn_const.mul (c1.mul c2)).neg.mul c3) e₀ ?_ ?_
    · intro m hm
      rw [mdens_eq ha hm, kk m hm]; ring
    · intro m hm
      have e : (twoPower a α β).mdensDeriv m = -((twoPower a α β).mdens m) * (a * α + β * m) / m / (a + m) := rfl
      rw [e, mdens_eq ha hm, kk m hm]
      field_simp
  rcases h with rfl | h
  · obtain ⟨δ, hδ, hδ4, hle⟩ := M_pow_le (p := β - 2) (by linarith) zero_le_one
    rw [show β - 2 - 1 = β - 3 by ring, neg_sub] at hle
    refine key (1 / 4) (by norm_num) (by norm_num) (by norm_num)
      ⟨fun m => if m = 0 then 0 else m ^ (1 / 2 : ℝ) * (twoPower a 2 β).psi m, ?_, ?_⟩
    · intro m hm
      rcases eq_or_lt_of_le (show (0:ℝ) ≤ m from hm) with h | h
      · subst h
        refine continuousWithinAt_Ioi_iff_Ici.1 ?_
        rw [ContinuousWithinAt, if_pos rfl]
        have t : Tendsto (fun m : ℝ => 2 * a ^ 2 * (a ^ δ / δ) * m ^ (1 / 2 - δ)) (𝓝[>] 0) (𝓝 0) := by
          have c : ContinuousAt (fun m : ℝ => m ^ (1 / 2 - δ)) 0 := continuousAt_id.rpow_const (Or.inr (by linarith))
          have := (c.tendsto.const_mul (2 * a ^ 2 * (a ^ δ / δ))).mono_left (nhdsWithin_le_nhds (s := Ioi 0))
          rwa [zero_rpow (by linarith), mul_zero] at this
        refine squeeze_zero_norm' ?_ t
        filter_upwards [self_mem_nhdsWithin] with m (hm : 0 < m)
        have hy := div_pos ha hm
        have l := hle _ hy
        have p0 := M_pos (p := β - 3) (2 - β) (by linarith) hy
        rw [if_neg hm.ne', psi_two ha hβ hm, norm_eq_abs, abs_mul, abs_of_pos (a := m ^ (1 / 2 : ℝ)) (by positivity),
          show -2 * a ^ 2 * M (β - 3) (2 - β) (a / m) = -(2 * a ^ 2 * M (β - 3) (2 - β) (a / m)) by ring, abs_neg,
          abs_of_pos (by positivity)]
        calc m ^ (1 / 2 : ℝ) * (2 * a ^ 2 * M (β - 3) (2 - β) (a / m))
            ≤ m ^ (1 / 2 : ℝ) * (2 * a ^ 2 * ((a / m) ^ δ / δ)) := by gcongr
          _ = _ := by rw [div_rpow ha.le hm.le, rpow_sub hm]; field_simp
      · have d := (twoPower_ok ha (Or.inl rfl) hβ).dpsi m h
        have c : ContinuousAt (fun m => m ^ (1 / 2 : ℝ) * (twoPower a 2 β).psi m) m :=
          (continuousAt_id.rpow_const (Or.inl h.ne')).mul d.continuousAt
        refine (c.congr ?_).continuousWithinAt
        filter_upwards [lt_mem_nhds h] with x hx
        rw [if_neg (ne_of_gt hx)]
    · intro m hm
      simp only
      rw [if_neg hm.ne', ← mul_assoc, ← rpow_add hm]
      norm_num
  · refine key 0 le_rfl (by norm_num) (by linarith)
      ⟨fun m => -2 * a ^ 2 * (psiInf α β - M (1 - α) (α - β) (m / a)), ?_, fun m hm => ?_⟩
    · refine continuousOn_const.mul (continuousOn_const.sub ?_)
      exact (M_cont (p := 1 - α) (α - β) (by linarith)).comp (by fun_prop) fun m hm => by
        have : 0 ≤ m := hm
        show 0 ≤ m / a
        positivity
    · rw [psi_eq ha h hm]; norm_num

theorem twoPower_same (ha : 0 < a) (h : α = 2 ∨ 1e-10 ≤ |2 - α|) : (cTwoPower a α β).Same (twoPower a α β) := by
  intro m _
  have e1 : m / a + 1 = 1 + m / a := add_comm _ _
  have e2 : (a + m) / a = 1 + m / a := by field_simp
  simp only [cTwoPower, twoPower, e1, add_comm m a, e2, neg_div, ← sq]
  refine ⟨?_, trivial, trivial⟩
  rcases h with rfl | h
  · norm_num
  · have h2 : 2 - α ≠ 0 := fun e => by rw [e, abs_zero] at h; norm_num at h
    rw [if_neg (not_lt.2 h), if_neg h2, if_pos h2]

theorem shell_twoPower (ha : 0 < a) (h : α < 3) :
    EnclosedMass (twoPower a α β).mdens fun R => 4 * π * a ^ 3 * mG a α β R := by
  have ed : ∀ r, 0 < r → a ^ 3 * eG a α β r = r ^ 3 * (twoPower a α β).mdens r := fun r hr => by
    have k := dens_eG (α := α) β ha hr
    have k2 : (twoPower a α β).mdens r = 4 * π * a ^ 3 * rdens a α β r := by
      have := pi_ne_zero
      simp only [twoPower, rdens]; field_simp
    rw [k2, eq_div_iff (by positivity)] at *
    linear_combination (-a ^ 3) * k
  refine EnclosedMass.of_deriv (fun r hr => by simp only [twoPower]; positivity) (fun r hr => ?_) ?_
  · refine ((mG_deriv β ha hr h).const_mul (4 * π * a ^ 3)).congr_deriv ?_
    have := ed r hr
    field_simp
    linear_combination this
  · have k : Tendsto (fun r : ℝ => r / a) (𝓝[>] 0) (𝓝[>] 0) := by
      refine tendsto_nhdsWithin_iff.2 ⟨?_, ?_⟩
      · have : Tendsto (fun r : ℝ => r / a) (𝓝 0) (𝓝 (0 / a)) := tendsto_id.div_const a
        rw [zero_div] at this
        exact this.mono_left nhdsWithin_le_nhds
      · filter_upwards [self_mem_nhdsWithin] with r hr using div_pos hr ha
    have := ((M_lim0 (p := 2 - α) (α - β) (by linarith)).comp k).const_mul (4 * π * a ^ 3)
    rwa [mul_zero] at this
end
end Verif.Ellipsoidal
