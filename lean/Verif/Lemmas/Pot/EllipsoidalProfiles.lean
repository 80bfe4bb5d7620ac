import Verif.Lemmas.Pot.EllipsoidalC
import Mathlib.Analysis.SpecialFunctions.Log.NegMulLog

set_option autoImplicit false

/-! # The profiles of the ellipsoidal potentials -/

open Set MeasureTheory Filter Topology

namespace Verif.Ellipsoidal
open Real hiding pi
open EllInt

theorem bdd_of {κ : ℝ} {h g : ℝ → ℝ} (hg : ContinuousOn g (Ici 0)) (he : ∀ u : ℝ, 0 < u → h u = u ^ (-κ) * g √u) :
    Bdd κ h := by
  have hc : ContinuousOn (fun u => g √u) (Ici 0) :=
    hg.comp (by fun_prop) fun u _ => sqrt_nonneg u
  constructor
  · refine ContinuousOn.congr (f := fun u => u ^ (-κ) * g √u) ?_ he
    exact (continuousOn_id.rpow_const fun u hu => Or.inl hu.ne').mul (hc.mono Ioi_subset_Ici_self)
  · intro U _
    obtain ⟨C, hC⟩ := isCompact_Icc.exists_bound_of_continuousOn (hc.mono (fun x (hx : x ∈ Icc 0 U) => hx.1))
    refine ⟨C, fun u hu => ?_⟩
    rw [he u hu.1, abs_mul, abs_of_pos (rpow_pos_of_pos hu.1 _), mul_comm]
    have := hC u ⟨hu.1.le, hu.2⟩
    have h0 : 0 < u ^ (-κ) := rpow_pos_of_pos hu.1 _
    gcongr
    simpa using this

theorem mild_of {P : Profile} {κ : ℝ} (h0 : 0 ≤ κ) (h1 : κ < 1 / 2) {G₀ G₁ G₂ : ℝ → ℝ} (c₀ : ContinuousOn G₀ (Ici 0))
    (c₁ : ContinuousOn G₁ (Ici 0)) (c₂ : ContinuousOn G₂ (Ici 0))
    (e₀ : ∀ m : ℝ, 0 < m → P.psi m = m ^ (-(2 * κ)) * G₀ m)
    (e₁ : ∀ m : ℝ, 0 < m → P.mdens m = m ^ (-(2 * κ)) / m ^ 2 * G₁ m)
    (e₂ : ∀ m : ℝ, 0 < m → P.mdensDeriv m = m ^ (-(2 * κ)) / m ^ 3 * G₂ m) : P.Mild := by
  have key : ∀ v : ℝ, 0 < v → √v ^ (-(2 * κ)) = v ^ (-κ) := by
    intro v hv
    rw [sqrt_eq_rpow, ← rpow_mul hv.le]
    ring_nf
  refine ⟨κ, h0, h1, bdd_of c₀ fun v hv => ?_, bdd_of c₁ fun v hv => ?_, bdd_of c₂ fun v hv => ?_⟩
  · rw [e₀ _ (sqrt_pos.2 hv), key v hv]
  · rw [e₁ _ (sqrt_pos.2 hv), key v hv, sq_sqrt hv.le, neg_add, rpow_add hv, rpow_neg_one]
    ring
  · rw [e₂ _ (sqrt_pos.2 hv), key v hv, show (-(κ + 2)) = -κ - 2 by ring, rpow_sub hv, rpow_two]
    have h := sq_sqrt hv.le
    have hs := sqrt_pos.2 hv
    have h3 : √v ^ 3 * √v = v ^ 2 := by rw [← h]; ring_nf; rw [h]
    rw [show v ^ (-κ) / √v ^ 3 * G₂ √v / √v = v ^ (-κ) / (√v ^ 3 * √v) * G₂ √v by field_simp, h3]

theorem mild_of_zero {P : Profile} {G₀ G₁ G₂ : ℝ → ℝ} (c₀ : ContinuousOn G₀ (Ici 0))
    (c₁ : ContinuousOn G₁ (Ici 0)) (c₂ : ContinuousOn G₂ (Ici 0)) (e₀ : ∀ m : ℝ, 0 < m → P.psi m = G₀ m)
    (e₁ : ∀ m : ℝ, 0 < m → P.mdens m = G₁ m / m ^ 2)
    (e₂ : ∀ m : ℝ, 0 < m → P.mdensDeriv m = G₂ m / m ^ 3) : P.Mild := by
  refine mild_of le_rfl (by norm_num) c₀ c₁ c₂ (fun m hm => ?_) (fun m hm => ?_) fun m hm => ?_
  · simp [e₀ m hm]
  · simp [e₁ m hm]; ring
  · simp [e₂ m hm]; ring

/-! ### Perfect ellipsoid -/

theorem perfect_ok {a : ℝ} (ha : a ≠ 0) : (perfect a).OK := by
  have h : ∀ m : ℝ, a ^ 2 + m ^ 2 ≠ 0 := fun m => by positivity
  have hd : ∀ m : ℝ, HasDerivAt (fun m : ℝ => a ^ 2 + m ^ 2) (2 * m) m := fun m => by
    simpa using (hasDerivAt_pow 2 m).const_add (a ^ 2)
  constructor
  · intro m _
    refine ((hasDerivAt_const m (-1 : ℝ)).fun_div (hd m) (h m)).congr_deriv ?_
    have := h m
    simp only [perfect, zpow_neg]
    field_simp
    norm_num
  · intro m _
    have := ((hasDerivAt_zpow (-2) (a ^ 2 + m ^ 2) (Or.inl (h m))).comp m (hd m))
    refine this.congr_deriv ?_
    simp only [perfect]
    norm_num
    ring

theorem perfect_mild {a : ℝ} (ha : a ≠ 0) : (perfect a).Mild := by
  have h : ∀ m : ℝ, a ^ 2 + m ^ 2 ≠ 0 := fun m => by positivity
  refine mild_of_zero (G₀ := (perfect a).psi) (G₁ := fun m => (perfect a).mdens m * m ^ 2)
    (G₂ := fun m => (perfect a).mdensDeriv m * m ^ 3) ?_ ?_ ?_ (fun _ _ => rfl) (fun m hm => ?_) fun m hm => ?_
  · exact ContinuousOn.div (by fun_prop) (by fun_prop) fun m _ => h m
  · exact ContinuousOn.mul (ContinuousOn.zpow₀ (by fun_prop) _ fun m _ => Or.inl (h m)) (by fun_prop)
  · exact ContinuousOn.mul (ContinuousOn.mul (by fun_prop)
      (ContinuousOn.zpow₀ (by fun_prop) _ fun m _ => Or.inl (h m))) (by fun_prop)
  · field_simp
  · field_simp

theorem perfect_same (a : ℝ) : (cPerfect a).Same (perfect a) := by
  intro m _
  simp only [cPerfect, perfect, zpow_neg, ← sq]
  refine ⟨trivial, ?_, trivial⟩
  rw [div_div, one_div, ← sq]
  norm_cast

/-! ### Hernquist -/

section
variable {a : ℝ} (ha : 0 < a)
include ha

theorem d_add (m : ℝ) : HasDerivAt (fun m : ℝ => m + a) 1 m := (hasDerivAt_id m).add_const a

theorem hernquist_ok : (hernquist a).OK := by
  have h : ∀ m : ℝ, 0 < m → m + a ≠ 0 := fun m hm => by positivity
  constructor
  · intro m hm
    refine ((hasDerivAt_const m (-a ^ 4)).fun_div ((d_add ha m).fun_pow 2) (pow_ne_zero 2 (h m hm))).congr_deriv ?_
    have := h m hm
    simp only [hernquist]
    field_simp
    norm_num
    ring
  · intro m hm
    have := h m hm
    refine (((hasDerivAt_const m (a ^ 4)).fun_div (hasDerivAt_id m) hm.ne').fun_div ((d_add ha m).fun_pow 3)
      (pow_ne_zero 3 this)).congr_deriv ?_
    simp only [hernquist, id]
    rw [add_comm a m]
    field_simp
    norm_num
    ring

theorem hernquist_mild : (hernquist a).Mild := by
  have h : ∀ m ∈ Ici (0:ℝ), m + a ≠ 0 := fun m hm => by have : 0 ≤ m := hm; positivity
  refine mild_of_zero (G₀ := fun m => -a ^ 4 / (m + a) ^ 2) (G₁ := fun m => a ^ 4 * m / (m + a) ^ 3)
    (G₂ := fun m => -a ^ 4 * (a + 4 * m) * m / (a + m) ^ 4) ?_ ?_ ?_ (fun _ _ => rfl) (fun m hm => ?_) fun m hm => ?_
  · exact ContinuousOn.div (by fun_prop) (by fun_prop) fun m hm => pow_ne_zero _ (h m hm)
  · exact ContinuousOn.div (by fun_prop) (by fun_prop) fun m hm => pow_ne_zero _ (h m hm)
  · exact ContinuousOn.div (by fun_prop) (by fun_prop) fun m hm => pow_ne_zero _ (by rw [add_comm]; exact h m hm)
  · simp only [hernquist]; field_simp
  · simp only [hernquist]; field_simp

omit ha in
theorem hernquist_same (a : ℝ) : (cHernquist a).Same (hernquist a) := by
  intro m _
  simp only [cHernquist, hernquist, zpow_neg]
  refine ⟨by rw [div_div, ← sq], ?_, ?_⟩
  · norm_cast
    simp only [div_eq_mul_inv]; ring
  · norm_cast
    rw [add_comm m a]
    simp only [div_eq_mul_inv, mul_inv, ← inv_pow]; ring

/-! ### Jaffe -/

theorem jaffe_ok : (jaffe a).OK := by
  constructor
  · intro m hm
    have e : (jaffe a).psi =ᶠ[𝓝 m] fun m => 2 * a ^ 2 * (a / (m + a) + (log m - log (m + a))) := by
      filter_upwards [lt_mem_nhds hm] with x hx
      simp only [jaffe]
      rw [show 1 / (1 + x / a) = a / (x + a) by field_simp; ring,
        show 1 / (1 + a / x) = x / (x + a) by field_simp, log_div hx.ne' (by positivity)]
    refine HasDerivAt.congr_of_eventuallyEq ?_ e
    have h : m + a ≠ 0 := by positivity
    refine ((((hasDerivAt_const m a).fun_div (d_add ha m) h).fun_add
      ((hasDerivAt_log hm.ne').fun_sub ((d_add ha m).log h))).const_mul (2 * a ^ 2)).congr_deriv ?_
    simp only [jaffe]
    field_simp
    ring
  · intro m hm
    have h : m + a ≠ 0 := by positivity
    have h' : 1 + m / a ≠ 0 := by positivity
    refine (((hasDerivAt_const m (a ^ 2)).fun_div ((hasDerivAt_id m).fun_pow 2) (pow_ne_zero 2 hm.ne')).fun_div
      ((((hasDerivAt_id m).div_const a).const_add 1).fun_pow 2) (pow_ne_zero 2 h')).congr_deriv ?_
    simp only [jaffe, id]
    field_simp
    norm_num
    field_simp
    ring

theorem jaffe_mild : (jaffe a).Mild := by
  have h : ∀ m ∈ Ici (0:ℝ), m + a ≠ 0 := fun m hm => by have : 0 ≤ m := hm; positivity
  have hh : ∀ m : ℝ, 0 < m → m ^ (-(2 * (1 / 4 : ℝ))) = (√m)⁻¹ := fun m hm => by
    rw [rpow_neg hm.le, sqrt_eq_rpow]; norm_num
  refine mild_of (κ := 1 / 4) (by norm_num) (by norm_num)
    (G₀ := fun m => 2 * a ^ 2 * (√m * (a / (m + a)) + (2 * (√m * log √m) - √m * log (m + a))))
    (G₁ := fun m => √m * (a ^ 4 / (m + a) ^ 2))
    (G₂ := fun m => √m * (-2 * (a ^ 2) ^ 2 * (a + 2 * m) / (a + m) ^ 3)) ?_ ?_ ?_
    (fun m hm => ?_) (fun m hm => ?_) fun m hm => ?_
  · have c1 : ContinuousOn (fun m : ℝ => √m * log √m) (Ici 0) :=
      (continuous_mul_log.comp continuous_sqrt).continuousOn
    have c2 : ContinuousOn (fun m : ℝ => log (m + a)) (Ici 0) := ContinuousOn.log (by fun_prop) h
    have c3 : ContinuousOn (fun m : ℝ => a / (m + a)) (Ici 0) := ContinuousOn.div (by fun_prop) (by fun_prop) h
    fun_prop
  · exact ContinuousOn.mul (by fun_prop) (ContinuousOn.div (by fun_prop) (by fun_prop) fun m hm => pow_ne_zero _ (h m hm))
  · exact ContinuousOn.mul (by fun_prop) (ContinuousOn.div (by fun_prop) (by fun_prop)
      fun m hm => pow_ne_zero _ (by rw [add_comm]; exact h m hm))
  · have hs := sqrt_pos.2 hm
    simp only [jaffe]
    rw [hh m hm, show 1 / (1 + m / a) = a / (m + a) by field_simp; ring,
      show 1 / (1 + a / m) = m / (m + a) by field_simp, log_div hm.ne' (by positivity), log_sqrt hm.le]
    field_simp
  · have hs := sqrt_pos.2 hm
    simp only [jaffe]
    rw [hh m hm]
    field_simp
    ring
  · have hs := sqrt_pos.2 hm
    simp only [jaffe]
    rw [hh m hm]
    field_simp

theorem jaffe_same : (cJaffe a).Same (jaffe a) := by
  intro m hm
  simp only [cJaffe, jaffe, zpow_neg]
  have h : m + a ≠ 0 := by positivity
  rcases hm.eq_or_lt with rfl | hm
  · have := ha.ne'
    norm_num
    rw [div_self this, mul_one]
  · refine ⟨?_, ?_, ?_⟩
    · rw [show 1 / (1 + m / a) = a / (m + a) by field_simp; ring, show 1 / (1 + a / m) = m / (m + a) by field_simp]
    · norm_cast
      field_simp
      ring
    · norm_cast
      rw [add_comm m a]
      field_simp

/-! ### NFW -/

theorem nfw_ok : (nfw a).OK := by
  constructor
  · intro m hm
    have h : a + m ≠ 0 := by positivity
    refine ((hasDerivAt_const m (-2 * a ^ 3)).fun_div ((hasDerivAt_id m).const_add a) h).congr_deriv ?_
    simp only [nfw, id]
    field_simp
    norm_num
    try ring
  · intro m hm
    have h' : 1 + m / a ≠ 0 := by positivity
    refine (((hasDerivAt_const m a).fun_div (hasDerivAt_id m) hm.ne').fun_div
      ((((hasDerivAt_id m).div_const a).const_add 1).fun_pow 2) (pow_ne_zero 2 h')).congr_deriv ?_
    simp only [nfw, id]
    field_simp
    norm_num
    field_simp
    ring

theorem nfw_mild : (nfw a).Mild := by
  have h : ∀ m ∈ Ici (0:ℝ), a + m ≠ 0 := fun m hm => by have : 0 ≤ m := hm; positivity
  refine mild_of_zero (G₀ := fun m => -2 * a ^ 3 / (a + m)) (G₁ := fun m => a ^ 3 * m / (a + m) ^ 2)
    (G₂ := fun m => -a ^ 3 * (a + 3 * m) * m / (a + m) ^ 3) ?_ ?_ ?_ (fun _ _ => rfl) (fun m hm => ?_) fun m hm => ?_
  · exact ContinuousOn.div (by fun_prop) (by fun_prop) h
  · exact ContinuousOn.div (by fun_prop) (by fun_prop) fun m hm => pow_ne_zero _ (h m hm)
  · exact ContinuousOn.div (by fun_prop) (by fun_prop) fun m hm => pow_ne_zero _ (h m hm)
  · simp only [nfw]; field_simp
  · simp only [nfw]; field_simp

theorem nfw_same : (cNfw a).Same (nfw a) := by
  intro m hm
  simp only [cNfw, nfw, zpow_neg]
  rw [add_comm m a]
  have h : a + m ≠ 0 := by positivity
  refine ⟨rfl, ?_, ?_⟩
  · rw [show 1 + m / a = (a + m) / a by field_simp]
    have := ha.ne'
    rcases hm.eq_or_lt with rfl | hm
    · simp
    · field_simp
  · norm_cast
    simp only [div_eq_mul_inv, mul_inv, ← inv_pow]; ring

end

/-! ### Power law -/

theorem power_ok {α : ℝ} (h2 : α ≠ 2) : (power α).OK := by
  have h : 2 - α ≠ 0 := sub_ne_zero.2 h2.symm
  constructor
  · intro m hm
    refine ((hasDerivAt_rpow_const (Or.inl hm.ne')).const_mul (2 / (2 - α))).congr_deriv ?_
    simp only [power]
    rw [show 2 - α - 1 = 1 + -α by ring, rpow_add hm, rpow_one]
    field_simp
  · intro m hm
    refine (hasDerivAt_rpow_const (Or.inl hm.ne')).congr_deriv ?_
    simp only [power]
    rw [show -α - 1 = -(1 + α) by ring]

theorem power_mild {α : ℝ} (h3 : α < 3) : (power α).Mild := by
  rcases le_or_gt α 2 with h | h
  · have c : ContinuousOn (fun m : ℝ => m ^ (2 - α)) (Ici 0) :=
      continuousOn_id.rpow_const fun m _ => Or.inr (by linarith)
    refine mild_of_zero (G₀ := fun m => 2 / (2 - α) * m ^ (2 - α)) (G₁ := fun m => m ^ (2 - α))
      (G₂ := fun m => -α * m ^ (2 - α)) (by fun_prop) c (by fun_prop) (fun _ _ => rfl) (fun m hm => ?_) fun m hm => ?_
    · simp only [power]
      rw [rpow_sub hm, rpow_neg hm.le, rpow_two]
      field_simp
    · simp only [power]
      rw [rpow_sub hm, rpow_neg hm.le, rpow_add hm, rpow_two, rpow_one]
      field_simp
  · refine mild_of (κ := (α - 2) / 2) (by linarith) (by linarith) (G₀ := fun _ => 2 / (2 - α)) (G₁ := fun _ => 1)
      (G₂ := fun _ => -α) (by fun_prop) (by fun_prop) (by fun_prop) (fun m hm => ?_) (fun m hm => ?_) fun m hm => ?_
    · simp only [power]
      rw [show -(2 * ((α - 2) / 2)) = 2 - α by ring]
      ring
    · simp only [power]
      rw [show -(2 * ((α - 2) / 2)) = -α + 2 by ring, rpow_add hm, rpow_two]
      field_simp
    · simp only [power]
      rw [show -(2 * ((α - 2) / 2)) = -(1 + α) + (3 : ℕ) by push_cast; ring, rpow_add_natCast hm.ne']
      field_simp

theorem power_same (α : ℝ) : (cPower α).Same (power α) := by
  intro m hm
  have k : ∀ y : ℝ, (m * m) ^ y = m ^ (2 * y) := fun y => by rw [rpow_mul hm, rpow_two, sq]
  simp only [cPower, power, k]
  refine ⟨by ring_nf, by ring_nf, by ring_nf⟩

/-! ### Gaussian -/

theorem gaussian_ok {σ : ℝ} (h : σ ≠ 0) : (gaussian σ).OK := by
  have e : ∀ m : ℝ, HasDerivAt (fun m : ℝ => exp (-m ^ 2 / (2 * σ ^ 2))) (exp (-m ^ 2 / (2 * σ ^ 2)) * (-(2 * m) / (2 * σ ^ 2))) m := by
    intro m
    have : HasDerivAt (fun m : ℝ => -m ^ 2 / (2 * σ ^ 2)) (-(2 * m) / (2 * σ ^ 2)) m := by
      simpa using (((hasDerivAt_pow 2 m).neg).div_const (2 * σ ^ 2))
    exact this.exp
  constructor
  · intro m _
    refine ((e m).const_mul (-(2 * σ ^ 2))).congr_deriv ?_
    simp only [gaussian]
    field_simp
  · intro m _
    refine (e m).congr_deriv ?_
    simp only [gaussian]
    ring

theorem gaussian_mild (σ : ℝ) : (gaussian σ).Mild := by
  refine mild_of_zero (G₀ := (gaussian σ).psi) (G₁ := fun m => (gaussian σ).mdens m * m ^ 2)
    (G₂ := fun m => (gaussian σ).mdensDeriv m * m ^ 3) ?_ ?_ ?_ (fun _ _ => rfl) (fun m hm => ?_) fun m hm => ?_
  · unfold gaussian; fun_prop
  · unfold gaussian; fun_prop
  · unfold gaussian; fun_prop
  · field_simp
  · field_simp

theorem gaussian_same (σ : ℝ) : (cGaussian σ).Same (gaussian σ) := by
  intro m _
  have e : m * m / -(2 * σ ^ 2) = -m ^ 2 / (2 * σ ^ 2) := by rw [div_neg, neg_div, sq m]
  simp only [cGaussian, gaussian, e]
  refine ⟨trivial, trivial, ?_⟩
  rw [div_neg]; ring

end Verif.Ellipsoidal
