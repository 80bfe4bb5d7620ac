import Verif.Lemmas.Pot.SCF
import Mathlib.MeasureTheory.Integral.IntervalIntegral.FundThmCalculus
import Mathlib.Analysis.SpecialFunctions.Integrals.Basic

set_option autoImplicit false

/-! # Mass of SCFPotential inside a sphere -/

noncomputable section
open Real Finset Filter Topology MeasureTheory intervalIntegral

namespace Verif.SCF

theorem int_cosm {m : ℕ} (c s : ℝ) (hm : m ≠ 0) : ∫ φ in (0 : ℝ)..(2 * π), c * cos (m * φ) + s * sin (m * φ) = 0 := by
  have hm' : (m : ℝ) ≠ 0 := by exact_mod_cast hm
  have hd : ∀ φ ∈ Set.uIcc (0 : ℝ) (2 * π),
      HasDerivAt (fun u : ℝ => c / m * sin (m * u) - s / m * cos (m * u)) (c * cos (m * φ) + s * sin (m * φ)) φ := fun φ _ => by
    refine (hd_sub (hd_const_mul _ (dsinm _ φ)) (hd_const_mul _ (dcosm _ φ))).congr_deriv ?_
    field_simp
    ring
  rw [integral_eq_sub_of_hasDerivAt hd (Continuous.intervalIntegrable (by fun_prop) _ _)]
  have e1 : sin ((m : ℝ) * (2 * π)) = 0 := by
    have := sin_nat_mul_pi (m * 2)
    push_cast at this
    rw [← this]
    ring_nf
  have e2 : cos ((m : ℝ) * (2 * π)) = 1 := cos_nat_mul_two_pi m
  simp [e1, e2]

theorem int_phi (m : ℕ) (c s : ℝ) :
    ∫ φ in (0 : ℝ)..(2 * π), c * cos (m * φ) + s * sin (m * φ) = if m = 0 then 2 * π * c else 0 := by
  split_ifs with h
  · subst h
    simp
  · exact int_cosm c s h

theorem int_leg {l : ℕ} (hl : l ≠ 0) : ∫ θ in (0 : ℝ)..π, alp l 0 (cos θ) * sin θ = 0 := by
  have hl' : (l : ℝ) ≠ 0 := by exact_mod_cast hl
  have hl1 : (l : ℝ) + 1 ≠ 0 := by positivity
  have hd : ∀ θ ∈ Set.uIcc (0 : ℝ) π,
      HasDerivAt (fun u : ℝ => sin u ^ 2 * Leg.q l 1 (cos u) / ((l : ℝ) * (l + 1))) (alp l 0 (cos θ) * sin θ) θ := fun θ _ => by
    have hq := HasDerivAt.comp (h₂ := Leg.q l 1) θ (Leg.q_deriv l 1 (cos θ)) (hasDerivAt_cos θ)
    refine ((hd_mul (hd_pow 2 (hasDerivAt_sin θ)) hq).div_const _).congr_deriv ?_
    have o := Leg.q_ode l 0 (cos θ)
    have e : alp l 0 (cos θ) = Leg.q l 0 (cos θ) := by simp [alp, Leg.q]
    have es : sin θ ^ 2 = 1 - cos θ ^ 2 := by rw [sin_sq]
    rw [e]
    norm_num at o ⊢
    generalize Leg.q l 0 (cos θ) = q0 at *
    generalize Leg.q l 1 (cos θ) = q1 at *
    generalize Leg.q l 2 (cos θ) = q2 at *
    field_simp
    linear_combination (-sin θ * q2) * es - sin θ * o
  have hc : Continuous fun θ : ℝ => alp l 0 (cos θ) * sin θ := by
    have : Continuous (Leg.q l 0) := continuous_iff_continuousAt.2 fun x => (Leg.q_deriv l 0 x).continuousAt
    have e : ∀ x, alp l 0 x = Leg.q l 0 x := fun x => by simp [alp, Leg.q]
    simp only [e]
    fun_prop
  rw [integral_eq_sub_of_hasDerivAt hd (hc.intervalIntegrable _ _)]
  simp

theorem alp_cont (l m : ℕ) : Continuous (alp l m) := by
  have : Continuous (Leg.q l m) := continuous_iff_continuousAt.2 fun x => (Leg.q_deriv l m x).continuousAt
  unfold alp
  change Continuous fun x => (-1) ^ m * √(1 - x ^ 2) ^ m * Leg.q l m x
  fun_prop

theorem geg_cont (α : ℝ) (k : ℕ) : Continuous fun x : ℝ => geg α x k := by
  induction k using Nat.strong_induction_on with
  | _ k ih =>
    match k with
    | 0 => simpa [geg] using continuous_const
    | 1 => simp only [geg]; fun_prop
    | k + 2 =>
      have h1 := ih (k + 1) (by omega)
      have h0 := ih k (by omega)
      simp only [geg]
      fun_prop

theorem gegS_cont (α : ℝ) (k : ℕ) : Continuous fun x : ℝ => gegS α x k := by
  match k with
  | 0 => simpa [gegS] using continuous_const
  | 1 => simpa [gegS] using continuous_const
  | 2 => simpa [gegS] using continuous_const
  | k + 3 => exact geg_cont α k

theorem xi_cont {a : ℝ} (ha : 0 < a) : ContinuousOn (fun u : ℝ => (u - a) / (u + a)) (Set.Ici 0) := by
  refine ContinuousOn.div (by fun_prop) (by fun_prop) fun x hx => ?_
  have : (0 : ℝ) ≤ x := hx
  positivity

theorem g0_cont {a : ℝ} (n l : ℕ) (ha : 0 < a) : ContinuousOn (g0 a n l) (Set.Ici 0) :=
  (gegS_cont (al l) (n + 3)).comp_continuousOn (xi_cont ha)

theorem g1_cont {a : ℝ} (n l : ℕ) (ha : 0 < a) : ContinuousOn (g1 a n l) (Set.Ici 0) :=
  continuousOn_const.mul ((gegS_cont (al l + 1) (n + 2)).comp_continuousOn (xi_cont ha))

/-- The mass of one radial function. -/
theorem int_rho {a R : ℝ} (n : ℕ) (ha : 0 < a) (hR : 0 < R) :
    IntervalIntegrable (fun r => 4 * π * (fRho a n 0 r * r ^ 2)) volume 0 R
    ∧ ∫ r in (0 : ℝ)..R, 4 * π * (fRho a n 0 r * r ^ 2) = R ^ 2 * fF1 a n 0 R := by
  have hp : ∀ x ∈ Set.Ici (0 : ℝ), a + x ≠ 0 := fun x hx => by
    have : (0 : ℝ) ≤ x := hx
    positivity
  have c1 : ContinuousOn (fun r => r ^ 2 * fF1 a n 0 r) (Set.Ici 0) := by
    have e : ∀ r, r ^ 2 * fF1 a n 0 r
        = r ^ 2 * (-√(4 * π) * (-1 / (a + r) ^ 2 * g0 a n 0 r + 2 * a / (a + r) ^ 3 * g1 a n 0 r)) := fun r => by
      simp [fF1, W]
    simp only [e]
    have h0 := g0_cont n 0 ha
    have h1 := g1_cont n 0 ha
    refine ContinuousOn.mul (by fun_prop) (continuousOn_const.mul ((ContinuousOn.mul ?_ h0).add (ContinuousOn.mul ?_ h1)))
    · exact ContinuousOn.div (by fun_prop) (by fun_prop) fun x hx => pow_ne_zero _ (hp x hx)
    · exact ContinuousOn.div (by fun_prop) (by fun_prop) fun x hx => pow_ne_zero _ (hp x hx)
  have c2 : ContinuousOn (fun r => 4 * π * (fRho a n 0 r * r ^ 2)) (Set.Ici 0) := by
    have e : ∀ r, 4 * π * (fRho a n 0 r * r ^ 2)
        = 4 * π * (((n * (n + 3) / 2 + 1) * (a * r / (a + r) ^ 3)) * g0 a n 0 r / √π) := fun r => by
      by_cases hr : r = 0
      · simp [hr]
      · simp only [fRho, W]
        have : r ^ 2 = r * r := by ring
        rw [this]
        field_simp
        norm_num
        ring
    simp only [e]
    have h0 := g0_cont n 0 ha
    refine continuousOn_const.mul (ContinuousOn.div_const (ContinuousOn.mul (continuousOn_const.mul ?_) h0) _)
    exact ContinuousOn.div (by fun_prop) (by fun_prop) fun x hx => pow_ne_zero _ (hp x hx)
  have sub : Set.uIcc 0 R ⊆ Set.Ici (0 : ℝ) := by
    rw [Set.uIcc_of_le hR.le]
    exact fun x hx => hx.1
  have ii : IntervalIntegrable (fun r => 4 * π * (fRho a n 0 r * r ^ 2)) volume 0 R := (c2.mono sub).intervalIntegrable
  refine ⟨ii, ?_⟩
  rw [integral_eq_sub_of_hasDerivAt_of_le hR.le (c1.mono fun x hx => hx.1) (fun r hr => ?_) ii]
  · simp
  · refine (hd_mul (hd_pow 2 (hd_id r)) (dF1 (n := n) (l := 0) ha hr.1)).congr_deriv ?_
    have q := radial_poisson (n := n) (l := 0) ha hr.1
    have hr' := hr.1.ne'
    have e : 4 * π * (fRho a n 0 r * r ^ 2) = (4 * π * fRho a n 0 r) * r ^ 2 := by ring
    rw [e, q]
    push_cast
    field_simp
    ring

/-- The density in spherical coordinates. -/
theorem dens_spher {p : Par} (ha : 0 < p.a) {r θ : ℝ} (hr : 0 < r) (hθ : 0 < sin θ) (φ t : ℝ) :
    (raw p).dens (r * sin θ) (r * cos θ) φ t = p.sum fun n l m => fRho p.a n l r * alp l m (cos θ)
      * ((p.coef t).c n l m * cos (m * φ) + (p.coef t).s n l m * sin (m * φ)) := by
  have hR : 0 < r * sin θ := by positivity
  have e : √((r * sin θ) ^ 2 + (r * cos θ) ^ 2) = r := by
    rw [show (r * sin θ) ^ 2 + (r * cos θ) ^ 2 = r ^ 2 * (sin θ ^ 2 + cos θ ^ 2) by ring, sin_sq_add_cos_sq, mul_one, sqrt_sq hr.le]
  have e2 : r * cos θ / r = cos θ := by field_simp
  rw [dens_eq ha hR, Par.sum_eq]
  simp only [Q, Pot.fsum, SHTerm.pot, e, e2, term]

theorem shell {p : Par} (ha : 0 < p.a) (hL : 0 < p.L) (hM : 0 < p.M) {r : ℝ} (hr : 0 ≤ r) (t : ℝ) :
    (∫ θ in (0 : ℝ)..π, ∫ φ in (0 : ℝ)..(2 * π), (raw p).dens (r * sin θ) (r * cos θ) φ t * (r ^ 2 * sin θ))
      = ∑ n ∈ range p.N, (p.coef t).c n 0 0 * (4 * π * (fRho p.a n 0 r * r ^ 2)) := by
  rcases hr.eq_or_lt with h0 | hr
  · simp [← h0]
  have e1 : ∀ θ ∈ Set.uIcc (0 : ℝ) π,
      (∫ φ in (0 : ℝ)..(2 * π), (raw p).dens (r * sin θ) (r * cos θ) φ t * (r ^ 2 * sin θ))
        = ∑ i ∈ p.idx, (fRho p.a i.1 i.2.1 r * r ^ 2 * (if i.2.2 = 0 then 2 * π * (p.coef t).c i.1 i.2.1 i.2.2 else 0))
          * (alp i.2.1 i.2.2 (cos θ) * sin θ) := by
    intro θ hθ
    rw [Set.uIcc_of_le pi_pos.le] at hθ
    rcases (sin_nonneg_of_mem_Icc hθ).eq_or_lt with h0 | hs
    · simp [← h0]
    simp only [dens_spher ha hr hs, Par.sum_eq, Finset.sum_mul]
    rw [integral_finset_sum fun i _ => Continuous.intervalIntegrable (by fun_prop) _ _]
    refine Finset.sum_congr rfl fun i _ => ?_
    rw [← int_phi _ _ ((p.coef t).s i.1 i.2.1 i.2.2), ← intervalIntegral.integral_const_mul, ← intervalIntegral.integral_mul_const]
    refine integral_congr fun φ _ => ?_
    ring
  rw [integral_congr e1, integral_finset_sum fun i _ => (continuous_const.mul
    (((alp_cont i.2.1 i.2.2).comp continuous_cos).mul continuous_sin)).intervalIntegrable _ _]
  simp only [intervalIntegral.integral_const_mul]
  rw [← Par.sum_eq p fun n l m => (fRho p.a n l r * r ^ 2 * (if m = 0 then 2 * π * (p.coef t).c n l m else 0))
    * ∫ θ in (0 : ℝ)..π, alp l m (cos θ) * sin θ]
  refine Finset.sum_congr rfl fun n _ => ?_
  rw [Finset.sum_eq_single 0, Finset.sum_eq_single 0]
  · have e : ∫ θ in (0 : ℝ)..π, alp 0 0 (cos θ) * sin θ = 2 := by
      have : ∀ x, alp 0 0 x = 1 := fun x => by simp [alp, legP]
      simp only [this, one_mul, integral_sin]
      norm_num
    simp only []
    rw [e, if_pos trivial]
    ring
  · intro m _ hm
    simp [hm]
  · intro h
    exact absurd (Finset.mem_range.2 hM) h
  · intro l _ hl
    refine Finset.sum_eq_zero fun m _ => ?_
    by_cases hm : m = 0
    · simp only []
      rw [hm, int_leg hl, mul_zero]
    · simp [hm]
  · intro h
    exact absurd (Finset.mem_range.2 hL) h

theorem mass_eq {p : Par} (ha : 0 < p.a) (hL : 0 < p.L) (hM : 0 < p.M) {R : ℝ} (hR : 0 < R) (t : ℝ) :
    (∫ r in (0 : ℝ)..R, ∫ θ in (0 : ℝ)..π, ∫ φ in (0 : ℝ)..(2 * π),
      (raw p).dens (r * sin θ) (r * cos θ) φ t * (r ^ 2 * sin θ)) = mass p (p.coef t) R := by
  have e : ∀ r ∈ Set.uIcc (0 : ℝ) R,
      (∫ θ in (0 : ℝ)..π, ∫ φ in (0 : ℝ)..(2 * π), (raw p).dens (r * sin θ) (r * cos θ) φ t * (r ^ 2 * sin θ))
        = ∑ n ∈ range p.N, (p.coef t).c n 0 0 * (4 * π * (fRho p.a n 0 r * r ^ 2)) := fun r hr => by
    rw [Set.uIcc_of_le hR.le] at hr
    exact shell ha hL hM hr.1 t
  rw [integral_congr e, integral_finset_sum fun n _ => (int_rho n ha hR).1.const_mul _, mass, Finset.mul_sum]
  refine Finset.sum_congr rfl fun n hn => ?_
  rw [intervalIntegral.integral_const_mul, (int_rho n ha hR).2, dphiTilde_eq ha hR 0 (Finset.mem_range.1 hn)]
  ring

end Verif.SCF
