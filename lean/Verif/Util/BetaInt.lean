import Mathlib.Analysis.SpecialFunctions.Gamma.Beta
import Mathlib.MeasureTheory.Function.JacobianOneDim

set_option autoImplicit false

/-! Real Beta integrals, and the changes of variable they need. -/

noncomputable section
namespace Verif
open MeasureTheory Set Filter Topology Real intervalIntegral

/-- `B(p,q) = Γ(p)Γ(q)/Γ(p+q)`. -/
def B (p q : ℝ) : ℝ := Gamma p * Gamma q / Gamma (p + q)

theorem B_pos {p q : ℝ} (hp : 0 < p) (hq : 0 < q) : 0 < B p q :=
  div_pos (mul_pos (Gamma_pos_of_pos hp) (Gamma_pos_of_pos hq)) (Gamma_pos_of_pos (by linarith))

theorem beta_integrable {p q c : ℝ} (hp : 0 < p) (hq : 0 < q) (hc : 0 < c) :
    IntervalIntegrable (fun x : ℝ => x ^ (p - 1) * (c - x) ^ (q - 1)) volume 0 c := by
  have left : ∀ {p q : ℝ}, 0 < p → IntervalIntegrable (fun x : ℝ => x ^ (p - 1) * (c - x) ^ (q - 1)) volume 0 (c / 2) := by
    intro p q hp
    refine IntervalIntegrable.mul_continuousOn (intervalIntegrable_rpow' (by linarith)) ?_
    refine ContinuousOn.rpow_const (by fun_prop) fun x hx => Or.inl ?_
    rw [uIcc_of_le (by linarith)] at hx
    have := hx.2
    linarith
  refine (left hp).trans ?_
  have h := (IntervalIntegrable.comp_sub_left (f := fun x : ℝ => x ^ (q - 1) * (c - x) ^ (p - 1)) (left hq) c).symm
  simp only [sub_zero, sub_sub_cancel] at h
  rw [show c - c / 2 = c / 2 by ring] at h
  exact h.congr (fun x _ => mul_comm _ _)

/-- The Beta integral. -/
theorem beta_integral {p q c : ℝ} (hp : 0 < p) (hq : 0 < q) (hc : 0 < c) :
    ∫ x in (0 : ℝ)..c, x ^ (p - 1) * (c - x) ^ (q - 1) = c ^ (p + q - 1) * B p q := by
  have h := Complex.betaIntegral_scaled (p : ℂ) (q : ℂ) hc
  rw [Complex.betaIntegral_eq_Gamma_mul_div _ _ (by simpa) (by simpa)] at h
  have e : ∫ x in (0 : ℝ)..c, (x : ℂ) ^ ((p : ℂ) - 1) * ((c : ℂ) - x) ^ ((q : ℂ) - 1)
      = ∫ x in (0 : ℝ)..c, ((x ^ (p - 1) * (c - x) ^ (q - 1) : ℝ) : ℂ) := by
    refine integral_congr fun x hx => ?_
    rw [uIcc_of_le hc.le] at hx
    rw [Complex.ofReal_mul, Complex.ofReal_cpow hx.1, Complex.ofReal_cpow (by linarith [hx.2])]
    push_cast; ring
  rw [e, intervalIntegral.integral_ofReal, ← Complex.ofReal_add, Complex.Gamma_ofReal, Complex.Gamma_ofReal,
    Complex.Gamma_ofReal] at h
  have h2 : ((c : ℂ) ^ ((p + q : ℝ) - 1 : ℂ)) = ((c ^ (p + q - 1) : ℝ) : ℂ) := by
    rw [Complex.ofReal_cpow hc.le]; push_cast; ring
  rw [h2] at h
  rw [B]
  exact_mod_cast h

/-- Change of variable on an open interval without any assumption on the integrand. -/
theorem integral_subst_mono {f f' : ℝ → ℝ} {a b c d : ℝ} (hab : a ≤ b) (hcd : c ≤ d)
    (hf : ∀ x ∈ Ioo a b, HasDerivAt f (f' x) x) (hpos : ∀ x ∈ Ioo a b, 0 < f' x)
    (himg : f '' Ioo a b = Ioo c d) (g : ℝ → ℝ) :
    ∫ y in c..d, g y = ∫ x in a..b, f' x * g (f x) := by
  have hm : StrictMonoOn f (Ioo a b) := by
    refine strictMonoOn_of_deriv_pos (convex_Ioo a b) (fun x hx => (hf x hx).continuousAt.continuousWithinAt) ?_
    intro x hx
    rw [interior_Ioo] at hx
    rw [(hf x hx).deriv]; exact hpos x hx
  rw [integral_of_le hab, integral_of_le hcd, integral_Ioc_eq_integral_Ioo, integral_Ioc_eq_integral_Ioo,
    ← himg, integral_image_eq_integral_abs_deriv_smul measurableSet_Ioo
      (fun x hx => (hf x hx).hasDerivWithinAt) hm.injOn g]
  refine setIntegral_congr_fun measurableSet_Ioo fun x hx => ?_
  simp only [smul_eq_mul, abs_of_pos (hpos x hx)]

/-- From the speed to the kinetic energy. -/
theorem speed_subst {ψ : ℝ} (hψ : 0 ≤ ψ) (g : ℝ → ℝ) :
    ∫ v in (0 : ℝ)..√(2 * ψ), v * g (v ^ 2 / 2) = ∫ x in (0 : ℝ)..ψ, g x := by
  refine (integral_subst_mono (f := fun v => v ^ 2 / 2) (f' := fun v => v) (sqrt_nonneg _) hψ ?_
    (fun x hx => hx.1) ?_ g).symm
  · intro x _
    have := ((hasDerivAt_id x).pow 2).div_const 2
    simpa using this
  · ext y
    constructor
    · rintro ⟨x, ⟨h0, h1⟩, rfl⟩
      refine ⟨by positivity, ?_⟩
      have := (lt_sqrt h0.le).1 h1
      simp only; linarith
    · rintro ⟨h0, h1⟩
      refine ⟨√(2 * y), ⟨sqrt_pos.2 (by linarith), sqrt_lt_sqrt (by linarith) (by linarith)⟩, ?_⟩
      simp only
      rw [sq_sqrt (by linarith)]; ring

/-- Velocity moment of a power of the relative energy. -/
theorem speed_beta {q n ψ : ℝ} (hq : -1 < q) (hn : -1 < n) (hψ : 0 < ψ) :
    ∫ v in (0 : ℝ)..√(2 * ψ), v ^ q * (ψ - v ^ 2 / 2) ^ n
      = 2 ^ ((q - 1) / 2) * (ψ ^ ((q + 1) / 2 + n) * B ((q + 1) / 2) (n + 1)) := by
  have h := speed_subst hψ.le (fun x => 2 ^ ((q - 1) / 2) * (x ^ ((q + 1) / 2 - 1) * (ψ - x) ^ (n + 1 - 1)))
  rw [intervalIntegral.integral_const_mul, beta_integral (by linarith) (by linarith) hψ] at h
  rw [show (q + 1) / 2 + (n + 1) - 1 = (q + 1) / 2 + n by ring] at h
  rw [← h]
  refine integral_congr_ae (Eventually.of_forall fun v hv => ?_)
  rw [uIoc_of_le (sqrt_nonneg _)] at hv
  have h0 : 0 < v := hv.1
  rw [show (q + 1) / 2 - 1 = (q - 1) / 2 by ring, show n + 1 - 1 = n by ring, ← mul_assoc (2 ^ _ : ℝ),
    ← mul_rpow (by norm_num) (by positivity), show 2 * (v ^ 2 / 2) = v ^ (2 : ℝ) by
      rw [rpow_two]; ring, ← rpow_mul h0.le, show 2 * ((q - 1) / 2) = q - 1 by ring, ← mul_assoc,
    rpow_sub_one h0.ne']
  field_simp

/-- Angular integral over a quarter turn. -/
theorem quarter_beta {p q : ℝ} (hp : -1 < p) (hq : -1 < q) :
    ∫ η in (0 : ℝ)..(π / 2), sin η ^ p * cos η ^ q = B ((p + 1) / 2) ((q + 1) / 2) / 2 := by
  have h := integral_subst_mono (f := fun η => sin η ^ 2) (f' := fun η => 2 * sin η * cos η) (a := 0)
    (b := π / 2) (c := 0) (d := 1) (by positivity) zero_le_one ?_ ?_ ?_
    (fun x => x ^ ((p + 1) / 2 - 1) * (1 - x) ^ ((q + 1) / 2 - 1))
  · rw [beta_integral (by linarith) (by linarith) one_pos, one_rpow, one_mul] at h
    rw [h, ← intervalIntegral.integral_div]
    refine integral_congr_ae ?_
    have hne : ∀ᵐ η : ℝ, η ≠ π / 2 := by simp [ae_iff]
    filter_upwards [hne] with η hη hv
    rw [uIoc_of_le (by positivity)] at hv
    have hl : η < π / 2 := lt_of_le_of_ne hv.2 hη
    have hs : 0 < sin η := sin_pos_of_pos_of_lt_pi hv.1 (by linarith [pi_pos])
    have hc : 0 < cos η := cos_pos_of_mem_Ioo ⟨by linarith [hv.1], hl⟩
    rw [← cos_sq', ← rpow_natCast, ← rpow_natCast, ← rpow_mul hs.le, ← rpow_mul hc.le,
      show ((2 : ℕ) : ℝ) * ((p + 1) / 2 - 1) = p - 1 by push_cast; ring,
      show ((2 : ℕ) : ℝ) * ((q + 1) / 2 - 1) = q - 1 by push_cast; ring, rpow_sub_one hs.ne',
      rpow_sub_one hc.ne']
    field_simp
  · intro x _
    have := (hasDerivAt_sin x).pow 2
    refine this.congr_deriv (by push_cast; ring)
  · intro x hx
    have hs : 0 < sin x := sin_pos_of_pos_of_lt_pi hx.1 (by linarith [pi_pos, hx.2])
    have hc : 0 < cos x := cos_pos_of_mem_Ioo ⟨by linarith [hx.1, pi_pos], hx.2⟩
    positivity
  · ext y
    constructor
    · rintro ⟨x, hx, rfl⟩
      have hs : 0 < sin x := sin_pos_of_pos_of_lt_pi hx.1 (by linarith [pi_pos, hx.2])
      have hc : 0 < cos x := cos_pos_of_mem_Ioo ⟨by linarith [hx.1, pi_pos], hx.2⟩
      have := sin_sq_add_cos_sq x
      exact ⟨by positivity, by simp only; nlinarith⟩
    · rintro ⟨h0, h1⟩
      have hs0 : 0 < √y := sqrt_pos.2 h0
      have hs1 : √y < 1 := by rw [sqrt_lt' one_pos]; simpa using h1
      refine ⟨arcsin √y, ⟨arcsin_pos.2 hs0, ?_⟩, ?_⟩
      · exact arcsin_lt_pi_div_two.2 hs1
      · simp only
        rw [sin_arcsin (by linarith) hs1.le, sq_sqrt h0.le]

theorem quarter_integrable {p q : ℝ} (hp : -1 < p) (hq : -1 < q) :
    IntervalIntegrable (fun η => sin η ^ p * cos η ^ q) volume 0 (π / 2) := by
  by_contra h
  have := quarter_beta hp hq
  rw [integral_undef h] at this
  have := B_pos (p := (p + 1) / 2) (q := (q + 1) / 2) (by linarith) (by linarith)
  linarith

/-- Angular integral over half a turn, with an even power of the cosine. -/
theorem half_beta {p : ℝ} (hp : -1 < p) (n : ℕ) :
    ∫ η in (0 : ℝ)..π, sin η ^ p * cos η ^ (2 * n) = B ((p + 1) / 2) (n + 1 / 2) := by
  have hn : (-1 : ℝ) < ((2 * n : ℕ) : ℝ) := by have : (0 : ℝ) ≤ ((2 * n : ℕ) : ℝ) := by positivity
                                               linarith
  have h1 := quarter_beta hp hn
  have i1 := quarter_integrable hp hn
  simp only [rpow_natCast] at h1 i1
  have i2 := (IntervalIntegrable.comp_sub_left i1 π).symm
  simp only [sin_pi_sub, cos_pi_sub, sub_zero, (even_two_mul n).neg_pow] at i2
  rw [show π - π / 2 = π / 2 by ring] at i2
  have h2 : ∫ η in (π / 2)..π, sin η ^ p * cos η ^ (2 * n) = ∫ η in (0 : ℝ)..(π / 2), sin η ^ p * cos η ^ (2 * n) := by
    have := intervalIntegral.integral_comp_sub_left (fun η => sin η ^ p * cos η ^ (2 * n)) π (a := 0) (b := π / 2)
    simp only [sin_pi_sub, cos_pi_sub, sub_zero, (even_two_mul n).neg_pow] at this
    rw [this]; congr 1; ring
  rw [← integral_add_adjacent_intervals i1 i2, h2, h1]
  rw [show (((2 * n : ℕ) : ℝ) + 1) / 2 = n + 1 / 2 by push_cast; ring]
  ring

/-- An odd power of the cosine integrates to zero over half a turn. -/
theorem half_odd {p : ℝ} (n : ℕ) :
    ∫ η in (0 : ℝ)..π, sin η ^ p * cos η ^ (2 * n + 1) = 0 := by
  have h := intervalIntegral.integral_comp_sub_left (fun η => sin η ^ p * cos η ^ (2 * n + 1)) π (a := 0) (b := π)
  have ho : Odd (2 * n + 1) := ⟨n, rfl⟩
  simp only [sin_pi_sub, cos_pi_sub, sub_zero, ho.neg_pow, sub_self, mul_neg, intervalIntegral.integral_neg] at h
  linarith

end Verif
