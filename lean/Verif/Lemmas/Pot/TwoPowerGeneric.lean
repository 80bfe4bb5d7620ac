import Verif.Model.Pot.TwoPowerGeneric
import Verif.Lemmas.Pot.TwoPower
import Verif.Util.BetaInt
import Mathlib.MeasureTheory.Integral.IntervalIntegral.FundThmCalculus
import Mathlib.Analysis.SpecialFunctions.Integrals.Basic

set_option autoImplicit false

/-! Radial profile of the two-power family in terms of one incomplete integral. -/

noncomputable section
namespace Verif
namespace TwoPower
open Real Set Filter Topology MeasureTheory intervalIntegral

/-- `∫_0^s x^p (1+x)^q dx`. -/
def M (p q s : ℝ) : ℝ := ∫ x in (0:ℝ)..s, x ^ p * (1 + x) ^ q

theorem M_int {p : ℝ} (q : ℝ) {s : ℝ} (hp : -1 < p) (hs : 0 ≤ s) :
    IntervalIntegrable (fun x : ℝ => x ^ p * (1 + x) ^ q) volume 0 s := by
  refine IntervalIntegrable.mul_continuousOn (intervalIntegrable_rpow' hp) ?_
  refine ContinuousOn.rpow_const (by fun_prop) fun x hx => Or.inl ?_
  rw [uIcc_of_le hs] at hx
  have := hx.1
  positivity

theorem M_deriv {p : ℝ} (q : ℝ) {s : ℝ} (hp : -1 < p) (hs : 0 < s) : HasDerivAt (M p q) (s ^ p * (1 + s) ^ q) s := by
  have hc : ∀ x ∈ Ioi (0:ℝ), ContinuousAt (fun x : ℝ => x ^ p * (1 + x) ^ q) x := fun x hx => by
    have hx : 0 < x := hx
    exact (continuousAt_id.rpow_const (Or.inl hx.ne')).mul
      (ContinuousAt.rpow_const (by fun_prop) (Or.inl (by positivity)))
  exact integral_hasDerivAt_right (M_int q hp hs.le)
    (ContinuousOn.stronglyMeasurableAtFilter isOpen_Ioi (s := Ioi 0) (fun x hx => (hc x hx).continuousWithinAt) s hs)
    (hc s hs)

theorem M_pos {p : ℝ} (q : ℝ) {s : ℝ} (hp : -1 < p) (hs : 0 < s) : 0 < M p q s :=
  intervalIntegral_pos_of_pos_on (M_int q hp hs.le) (fun x hx => by have := hx.1; positivity) hs

/-- The hypergeometric function with third parameter one above the first. -/
theorem hyp_one {p s : ℝ} (b : ℝ) (hp : 0 < p) (hs : 0 < s) :
    hyp2f1 p b (p + 1) (-s) = p * (s ^ (-p) * M (p - 1) (-b) s) := by
  have e : ∫ t in (0:ℝ)..1, t ^ (p - 1) * (1 - t) ^ (p + 1 - p - 1) * (1 - -s * t) ^ (-b)
      = s ^ (1 - p) * ∫ t in (0:ℝ)..1, (s * t) ^ (p - 1) * (1 + s * t) ^ (-b) := by
    rw [← intervalIntegral.integral_const_mul]
    refine integral_congr fun t ht => ?_
    rw [uIcc_of_le zero_le_one] at ht
    have hq : s ^ (1 - p) * s ^ (p - 1) = 1 := by rw [← rpow_add hs]; simp
    rw [show p + 1 - p - 1 = (0:ℝ) by ring, rpow_zero, mul_rpow hs.le ht.1, show 1 - -s * t = 1 + s * t by ring]
    linear_combination (-(t ^ (p - 1) * (1 + s * t) ^ (-b))) * hq
  have e2 := intervalIntegral.integral_comp_mul_left (fun x : ℝ => x ^ (p - 1) * (1 + x) ^ (-b)) hs.ne' (a := 0) (b := 1)
  rw [hyp2f1, e, e2, show p + 1 - p = (1:ℝ) by ring, Gamma_one, Gamma_add_one hp.ne', mul_zero, mul_one, smul_eq_mul, M,
    show s ^ (-p) = s ^ (1 - p) * s⁻¹ by
      rw [← rpow_neg_one s, ← rpow_add hs]; congr 1; ring]
  have := (Gamma_pos_of_pos hp).ne'
  field_simp

/-- The hypergeometric function with third parameter two above the first. -/
theorem hyp_two {p y : ℝ} (b : ℝ) (hp : 0 < p) (hy : 0 < y) :
    hyp2f1 p b (p + 2) (-y) = Gamma (p + 2) / Gamma p * (y ^ (-p) * (M (p - 1) (-b) y - M p (-b) y / y)) := by
  have e : ∫ t in (0:ℝ)..1, t ^ (p - 1) * (1 - t) ^ (p + 2 - p - 1) * (1 - -y * t) ^ (-b)
      = y ^ (1 - p) * ∫ t in (0:ℝ)..1,
        ((y * t) ^ (p - 1) * (1 + y * t) ^ (-b) - y⁻¹ * ((y * t) ^ p * (1 + y * t) ^ (-b))) := by
    rw [← intervalIntegral.integral_const_mul]
    refine integral_congr_ae (Eventually.of_forall fun t ht => ?_)
    rw [uIoc_of_le zero_le_one] at ht
    have ht0 : 0 < t := ht.1
    have hq : y ^ (1 - p) * y ^ (p - 1) = 1 := by rw [← rpow_add hy]; simp
    have hp1 : (y * t) ^ p = (y * t) ^ (p - 1) * (y * t) := by
      rw [← rpow_add_one (by positivity)]; congr 1; ring
    rw [hp1, show p + 2 - p - 1 = (1:ℝ) by ring, rpow_one, mul_rpow hy.le ht0.le, show 1 - -y * t = 1 + y * t by ring]
    field_simp
    linear_combination (-(1 - t)) * hq
  have e2 := intervalIntegral.integral_comp_mul_left
    (fun x : ℝ => x ^ (p - 1) * (1 + x) ^ (-b) - y⁻¹ * (x ^ p * (1 + x) ^ (-b))) hy.ne' (a := 0) (b := 1)
  rw [mul_zero, mul_one, smul_eq_mul, intervalIntegral.integral_sub (M_int _ (by linarith) hy.le)
    ((M_int _ (by linarith) hy.le).const_mul _), intervalIntegral.integral_const_mul] at e2
  rw [hyp2f1, e, e2, show p + 2 - p = (2:ℝ) by ring, Gamma_two, M, M,
    show y ^ (-p) = y ^ (1 - p) * y⁻¹ by
      rw [← rpow_neg_one y, ← rpow_add hy]; congr 1; ring]
  field_simp

/-- Integration by parts. -/
theorem parts {p s : ℝ} (q : ℝ) (hp : 0 < p) (hs : 0 < s) :
    s ^ p * (1 + s) ^ q = p * M (p - 1) q s + q * M p (q - 1) s := by
  have hcont : ContinuousOn (fun x : ℝ => x ^ p * (1 + x) ^ q) (Icc 0 s) := by
    refine ContinuousOn.mul (fun x _ => (continuousAt_id.rpow_const (Or.inr hp.le)).continuousWithinAt) ?_
    refine ContinuousOn.rpow_const (by fun_prop) fun x hx => Or.inl ?_
    have := hx.1
    positivity
  have hd : ∀ x ∈ Ioo 0 s, HasDerivAt (fun x : ℝ => x ^ p * (1 + x) ^ q)
      (p * (x ^ (p - 1) * (1 + x) ^ q) + q * (x ^ p * (1 + x) ^ (q - 1))) x := by
    intro x hx
    have hx0 : 0 < x := hx.1
    have h1 : HasDerivAt (fun x : ℝ => x ^ p) (p * x ^ (p - 1)) x := hasDerivAt_rpow_const (Or.inl hx0.ne')
    have h2 : HasDerivAt (fun x : ℝ => (1 + x) ^ q) (1 * q * (1 + x) ^ (q - 1)) x :=
      ((hasDerivAt_id x).const_add 1).rpow_const (Or.inl (by simp only [id]; positivity))
    exact (h1.mul h2).congr_deriv (by ring)
  have h := integral_eq_sub_of_hasDerivAt_of_le hs.le hcont hd
    (((M_int q (by linarith) hs.le).const_mul _).add ((M_int (q - 1) (by linarith) hs.le).const_mul _))
  rw [intervalIntegral.integral_add ((M_int q (by linarith) hs.le).const_mul _)
    ((M_int (q - 1) (by linarith) hs.le).const_mul _), intervalIntegral.integral_const_mul,
    intervalIntegral.integral_const_mul] at h
  simp only [zero_rpow hp.ne', zero_mul, sub_zero] at h
  exact h.symm

/-- As an incomplete Beta integral. -/
theorem M_beta {p q s : ℝ} (hs : 0 < s) :
    M (p - 1) (-p - q) s = ∫ u in (0:ℝ)..(s / (1 + s)), u ^ (p - 1) * (1 - u) ^ (q - 1) := by
  have h := integral_subst_mono (f := fun x : ℝ => x / (1 + x)) (f' := fun x => 1 / (1 + x) ^ 2) (a := 0) (b := s)
    (c := 0) (d := s / (1 + s)) hs.le (by positivity) ?_ ?_ ?_ (fun u => u ^ (p - 1) * (1 - u) ^ (q - 1))
  · rw [h, M]
    refine integral_congr_ae (Eventually.of_forall fun x hx => ?_)
    rw [uIoc_of_le hs.le] at hx
    have hx0 : 0 < x := hx.1
    have h1 : 0 < 1 + x := by positivity
    rw [show 1 - x / (1 + x) = (1 + x)⁻¹ by field_simp; ring, div_rpow hx0.le h1.le, inv_rpow h1.le,
      show -p - q = -(p - 1) + (-(q - 1) + -(2:ℕ)) by push_cast; ring, rpow_add h1, rpow_add h1, rpow_neg h1.le,
      rpow_neg h1.le, rpow_neg h1.le, rpow_natCast]
    field_simp
  · intro x hx
    have h1 : 1 + x ≠ 0 := by have := hx.1; positivity
    have := (hasDerivAt_id x).div ((hasDerivAt_id x).const_add 1) h1
    refine this.congr_deriv ?_
    simp only [id]
    field_simp; ring
  · intro x hx
    have := hx.1
    positivity
  · ext y
    constructor
    · rintro ⟨x, ⟨h0, h1⟩, rfl⟩
      refine ⟨by positivity, ?_⟩
      simp only
      rw [div_lt_div_iff₀ (by positivity) (by positivity)]
      nlinarith
    · rintro ⟨h0, h1⟩
      have h2 : y < 1 := h1.trans (by rw [div_lt_one (by positivity)]; linarith)
      have h3 : 0 < 1 - y := by linarith
      refine ⟨y / (1 - y), ⟨by positivity, ?_⟩, ?_⟩
      · rw [div_lt_iff₀ h3]
        rw [lt_div_iff₀ (by positivity)] at h1
        nlinarith
      · simp only
        field_simp
        ring

/-- The two incomplete integrals add up to the complete one. -/
theorem M_compl {p q s : ℝ} (hp : 0 < p) (hq : 0 < q) (hs : 0 < s) :
    M (p - 1) (-p - q) s + M (q - 1) (-p - q) (1 / s) = B p q := by
  have hy : 0 < 1 / s := by positivity
  rw [M_beta hs, show -p - q = -q - p by ring, M_beta hy]
  have hI := beta_integrable hp hq one_pos
  have u0 : 0 < s / (1 + s) := by positivity
  have u1 : s / (1 + s) < 1 := by rw [div_lt_one (by positivity)]; linarith
  have hb := beta_integral hp hq one_pos
  rw [one_rpow, one_mul] at hb
  have hr : ∫ u in (0:ℝ)..(1 / s / (1 + 1 / s)), u ^ (q - 1) * (1 - u) ^ (p - 1)
      = ∫ u in (s / (1 + s))..1, u ^ (p - 1) * (1 - u) ^ (q - 1) := by
    have h := intervalIntegral.integral_comp_sub_left (fun u : ℝ => u ^ (p - 1) * (1 - u) ^ (q - 1)) (1:ℝ)
      (a := 0) (b := 1 - s / (1 + s))
    rw [sub_sub_cancel, sub_zero] at h
    rw [← h, show 1 / s / (1 + 1 / s) = 1 - s / (1 + s) by field_simp; ring]
    refine integral_congr fun u _ => ?_
    rw [sub_sub_cancel, mul_comm]
  rw [hr, ← hb]
  exact integral_add_adjacent_intervals
    (hI.mono_set (by rw [uIcc_of_le u0.le, uIcc_of_le zero_le_one]; exact Icc_subset_Icc_right u1.le))
    (hI.mono_set (by rw [uIcc_of_le u1.le, uIcc_of_le zero_le_one]; exact Icc_subset_Icc_left u0.le))

/-- The mass within `r`, in units of the amplitude. -/
def mG (a α β r : ℝ) : ℝ := M (2 - α) (α - β) (r / a)
/-- `4π r³` times the density. -/
def eG (a α β r : ℝ) : ℝ := (r / a) ^ (3 - α) * (1 + r / a) ^ (α - β)

section
variable {a α : ℝ} (β : ℝ) {r : ℝ}

theorem scale_pow (ha : 0 < a) (hr : 0 < r) (c : ℝ) : (r / a) ^ (-c) = r ^ (-c) * a ^ c := by
  rw [div_rpow hr.le ha.le, rpow_neg ha.le, div_inv_eq_mul]

theorem hyper_eq (ha : 0 < a) (hr : 0 < r) (h : α < 3) :
    hyp2f1 (3 - α) (β - α) (4 - α) (-r / a) = (3 - α) * (r ^ (α - 3) * a ^ (3 - α) * mG a α β r) := by
  have e := hyp_one (p := 3 - α) (β - α) (by linarith) (div_pos hr ha)
  rw [show 3 - α + 1 = 4 - α by ring, ← neg_div, scale_pow ha hr] at e
  rw [e, mG, show 3 - α - 1 = 2 - α by ring, neg_sub, neg_sub]

theorem hyperD_eq (ha : 0 < a) (hr : 0 < r) (h : α < 3) :
    (3 - α) * (β - α) / (4 - α) * hyp2f1 (4 - α) (1 + β - α) (5 - α) (-r / a)
      = (3 - α) * (r ^ (α - 4) * a ^ (4 - α) * ((3 - α) * mG a α β r - eG a α β r)) := by
  have hs := div_pos hr ha
  have e := hyp_one (p := 4 - α) (1 + β - α) (by linarith) hs
  rw [show 4 - α + 1 = 5 - α by ring, ← neg_div, scale_pow ha hr] at e
  have k := parts (p := 3 - α) (α - β) (by linarith) hs
  rw [show 3 - α - 1 = 2 - α by ring] at k
  have h4 : 4 - α ≠ 0 := by linarith
  rw [e, mG, eG, show 4 - α - 1 = 3 - α by ring, neg_sub, k, show -(1 + β - α) = α - β - 1 by ring]
  field_simp
  ring

theorem hA (ha : 0 < a) (hr : 0 < r) (h : α < 3) :
    a ^ (α - 3) / (3 - α) * r ^ (-α) * hyp2f1 (3 - α) (β - α) (4 - α) (-r / a) = mG a α β r / r ^ 3 := by
  have h3 : 3 - α ≠ 0 := by linarith
  have k1 : a ^ (α - 3) * a ^ (3 - α) = 1 := by rw [← rpow_add ha]; simp
  have k2 : r ^ (-α) * r ^ (α - 3) * r ^ 3 = 1 := by
    rw [← rpow_natCast r 3, ← rpow_add hr, ← rpow_add hr]; push_cast; ring_nf; simp
  rw [hyper_eq β ha hr h, eq_div_iff (by positivity)]
  field_simp
  linear_combination (mG a α β r * (r ^ (-α) * r ^ (α - 3) * r ^ 3)) * k1 + mG a α β r * k2

theorem hD (ha : 0 < a) (hr : 0 < r) (h : α < 3) :
    a ^ (α - 3) / (3 - α) * r ^ (-α - 1) / a
        * ((3 - α) * (β - α) / (4 - α) * hyp2f1 (4 - α) (1 + β - α) (5 - α) (-r / a))
      = ((3 - α) * mG a α β r - eG a α β r) / r ^ 5 := by
  have h3 : 3 - α ≠ 0 := by linarith
  have k1 : a ^ (α - 3) * a ^ (4 - α) = a := by rw [← rpow_add ha]; ring_nf; simp
  have k2 : r ^ (-α - 1) * r ^ (α - 4) * r ^ 5 = 1 := by
    rw [← rpow_natCast r 5, ← rpow_add hr, ← rpow_add hr]; push_cast; ring_nf; simp
  rw [hyperD_eq β ha hr h, eq_div_iff (by positivity)]
  generalize (3 - α) * mG a α β r - eG a α β r = X
  field_simp
  linear_combination (X * (r ^ (-α - 1) * r ^ (α - 4) * r ^ 5)) * k1 + (X * a) * k2

theorem mG_deriv (ha : 0 < a) (hr : 0 < r) (h : α < 3) : HasDerivAt (mG a α β) (eG a α β r / r) r := by
  have hs := div_pos hr ha
  have d := (M_deriv (p := 2 - α) (α - β) (by linarith) hs).comp r ((hasDerivAt_id r).div_const a)
  refine d.congr_deriv ?_
  rw [eG, show 3 - α = 2 - α + 1 by ring, rpow_add_one hs.ne']
  field_simp

theorem mG_pos (ha : 0 < a) (hr : 0 < r) (h : α < 3) : 0 < mG a α β r := M_pos _ (by linarith) (div_pos hr ha)
theorem eG_pos (ha : 0 < a) (hr : 0 < r) : 0 < eG a α β r := by unfold eG; positivity

theorem dens_eG (ha : 0 < a) (hr : 0 < r) : 4 * π * rdens a α β r = eG a α β r / r ^ 3 := by
  have hs := div_pos hr ha
  have h1 : 0 < 1 + r / a := by positivity
  have hpi := pi_ne_zero
  have hq := rpow_pos_of_pos h1 (β - α)
  have hp := rpow_pos_of_pos hs α
  have e : (3:ℝ) - α = (3:ℕ) - α := by norm_num
  rw [rdens, eG, show a / r = (r / a)⁻¹ by field_simp, inv_rpow hs.le, e, rpow_sub hs, rpow_natCast,
    show α - β = -(β - α) by ring, rpow_neg h1.le]
  generalize (r / a) ^ α = X at *
  generalize (1 + r / a) ^ (β - α) = Y at *
  field_simp

/-- Any radial function with the right derivative completes the profile. -/
theorem radialOK (ha : 0 < a) (h : α < 3) {v : ℝ → ℝ} (hv : ∀ r, 0 < r → HasDerivAt v (mG a α β r / r ^ 2) r) :
    Spherical.RadialOK (Spherical.stat v (fun r => -(mG a α β r / r ^ 2))
      (fun r => (eG a α β r - 2 * mG a α β r) / r ^ 3) (rdens a α β)) (Ioi 0) := by
  refine Spherical.RadialOK.stat isOpen_Ioi (fun _ h => h) (fun r hr => by simpa using hv r hr) ?_ ?_
  · intro r hr
    have hr : 0 < r := hr
    have d := ((mG_deriv β ha hr h).div (hasDerivAt_pow 2 r) (pow_ne_zero 2 hr.ne')).neg
    refine d.congr_deriv ?_
    field_simp
    push_cast
    ring
  · intro r hr
    have hr : 0 < r := hr
    rw [dens_eG β ha hr]
    field_simp
    ring

theorem Rforce_eq (ha : 0 < a) (h : α < 3) {R z : ℝ} (hr : 0 < r) (e : √(R ^ 2 + z ^ 2) = r) :
    Rforce a α β R z = -R * (mG a α β r / r ^ 3) := by
  rw [← hA β ha hr h, Rforce, rpow_neg hr.le]; simp only [e]; ring
theorem zforce_eq (ha : 0 < a) (h : α < 3) {R z : ℝ} (hr : 0 < r) (e : √(R ^ 2 + z ^ 2) = r) :
    zforce a α β R z = -z * (mG a α β r / r ^ 3) := by
  rw [← hA β ha hr h, zforce, rpow_neg hr.le]; simp only [e]; ring
theorem npow2 (hr : 0 < r) : r ^ (-α - 2) = r ^ (-α) / r ^ 2 := by
  rw [rpow_sub hr, rpow_two]
theorem R2deriv_eq (ha : 0 < a) (h : α < 3) {R z : ℝ} (hr : 0 < r) (e : √(R ^ 2 + z ^ 2) = r) :
    R2deriv a α β R z = mG a α β r / r ^ 3 + R ^ 2 * (eG a α β r - 3 * mG a α β r) / r ^ 5 := by
  have k1 := hA β ha hr h
  have k2 := hD β ha hr h
  simp only [R2deriv, e, npow2 hr]
  linear_combination (1 - α * R ^ 2 / r ^ 2) * k1 - R ^ 2 * k2
theorem Rzderiv_eq (ha : 0 < a) (h : α < 3) {R z : ℝ} (hr : 0 < r) (e : √(R ^ 2 + z ^ 2) = r) :
    Rzderiv a α β R z = R * z * (eG a α β r - 3 * mG a α β r) / r ^ 5 := by
  have k1 := hA β ha hr h
  have k2 := hD β ha hr h
  simp only [Rzderiv, e, npow2 hr]
  linear_combination (-α * R * z / r ^ 2) * k1 - R * z * k2

/-- Any record with the right value and forces is consistent with the second derivatives and the density of the class. -/
theorem consistent_of (ha : 0 < a) (h : α < 3) {v : ℝ → ℝ} (hv : ∀ r, 0 < r → HasDerivAt v (mG a α β r / r ^ 2) r)
    {ev Rf zf : ℝ → ℝ → ℝ} (e0 : ∀ R z r, 0 < r → √(R ^ 2 + z ^ 2) = r → ev R z = v r)
    (eR : ∀ R z r, 0 < r → √(R ^ 2 + z ^ 2) = r → Rf R z = -R * (mG a α β r / r ^ 3))
    (ez : ∀ R z r, 0 < r → √(R ^ 2 + z ^ 2) = r → zf R z = -z * (mG a α β r / r ^ 3)) :
    Consistent (Pot.axi ev Rf zf (R2deriv a α β) (z2deriv a α β) (Rzderiv a α β) (dens a α β))
      (Spherical.Dom (Ioi 0)) := by
  refine Spherical.consistent_axi (radialOK β ha h hv) (fun _ _ => ⟨rfl, rfl, rfl, rfl⟩) ?_ ?_ ?_ ?_ ?_ ?_ ?_
  · intro R z r _ hr e _; exact e0 R z r hr e
  · intro R z r _ hr e _; rw [eR R z r hr e]; simp only [Spherical.stat]; field_simp
  · intro R z r _ hr e _; rw [ez R z r hr e]; simp only [Spherical.stat]; field_simp
  · intro R z r _ hr e hz
    rw [R2deriv_eq β ha h hr e]; simp only [Spherical.stat, hz]; field_simp; ring
  · intro R z r _ hr e hz
    have e' : √(|z| ^ 2 + R ^ 2) = r := by rw [sq_abs, add_comm]; exact e
    have hR : R ^ 2 = r ^ 2 - z ^ 2 := by linarith
    rw [z2deriv, R2deriv_eq β ha h hr e', sq_abs]; simp only [Spherical.stat, hR]; field_simp; ring
  · intro R z r _ hr e _
    rw [Rzderiv_eq β ha h hr e]; simp only [Spherical.stat]; field_simp; ring
  · intro R z r _ hr e _; simp only [dens, e]; rfl
end

/-! ### Exponents with closed forms -/
section
variable {a r : ℝ}

theorem mG_four {α : ℝ} (ha : 0 < a) (hr : 0 < r) (h : α < 3) : mG a α 4 r = (r / (a + r)) ^ (3 - α) / (3 - α) := by
  have k := M_beta (p := 3 - α) (q := 1) (div_pos hr ha)
  rw [show 3 - α - 1 = 2 - α by ring, show -(3 - α) - 1 = α - 4 by ring] at k
  rw [mG, k]
  simp only [sub_self, rpow_zero, mul_one]
  rw [integral_rpow (Or.inl (by linarith)), show 2 - α + 1 = 3 - α by ring, zero_rpow (by linarith), sub_zero,
    show r / a / (1 + r / a) = r / (a + r) by field_simp]

theorem mG_nfw (ha : 0 < a) (hr : 0 < r) : mG a 1 3 r = log (1 + r / a) - r / (a + r) := by
  have hs := div_pos hr ha
  have hcont : ContinuousOn (fun x : ℝ => log (1 + x) - x / (1 + x)) (Icc 0 (r / a)) := by
    have h0 : ∀ x ∈ Icc 0 (r / a), 1 + x ≠ 0 := fun x hx => by have := hx.1; positivity
    exact ContinuousOn.sub (ContinuousOn.log (by fun_prop) h0) (ContinuousOn.div (by fun_prop) (by fun_prop) h0)
  have hd : ∀ x ∈ Ioo 0 (r / a), HasDerivAt (fun x : ℝ => log (1 + x) - x / (1 + x))
      (x ^ ((2:ℝ) - 1) * (1 + x) ^ ((1:ℝ) - 3)) x := by
    intro x hx
    have h1 : 0 < 1 + x := by have := hx.1; positivity
    have d1 := (hasDerivAt_id x).const_add 1
    refine ((d1.log h1.ne').sub ((hasDerivAt_id x).div d1 h1.ne')).congr_deriv ?_
    rw [show (2:ℝ) - 1 = 1 by norm_num, show (1:ℝ) - 3 = -(2:ℕ) by norm_num, rpow_one, rpow_neg h1.le, rpow_natCast]
    simp only [id]
    field_simp
    ring
  have k := integral_eq_sub_of_hasDerivAt_of_le hs.le hcont hd (M_int _ (by norm_num) hs.le)
  rw [mG, M, k]
  simp only [add_zero, log_one, zero_div, sub_zero]
  rw [show r / a / (1 + r / a) = r / (a + r) by field_simp]

/-- Value and forces of one of the closed-form classes agree with the two-power profile. -/
structure Closed (a α β : ℝ) (ev Rf zf : ℝ → ℝ → ℝ) : Prop where
  hv : ∀ r, 0 < r → HasDerivAt (fun r => ev r 0) (mG a α β r / r ^ 2) r
  e0 : ∀ R z r, 0 < r → √(R ^ 2 + z ^ 2) = r → ev R z = ev r 0
  eR : ∀ R z r, 0 < r → √(R ^ 2 + z ^ 2) = r → Rf R z = -R * (mG a α β r / r ^ 3)
  ez : ∀ R z r, 0 < r → √(R ^ 2 + z ^ 2) = r → zf R z = -z * (mG a α β r / r ^ 3)

theorem Closed.of {α β : ℝ} {P : Pot} {ev Rf zf : ℝ → ℝ → ℝ} (c : Consistent P (Spherical.Dom (Ioi 0)))
    (hv : ∀ R z, P.val R z 0 0 = ev R z) (hf : ∀ R z, P.Rforce R z 0 0 = Rf R z)
    (e0 : ∀ R z r, 0 < r → √(R ^ 2 + z ^ 2) = r → ev R z = ev r 0)
    (eR : ∀ R z r, 0 < r → √(R ^ 2 + z ^ 2) = r → Rf R z = -R * (mG a α β r / r ^ 3))
    (ez : ∀ R z r, 0 < r → √(R ^ 2 + z ^ 2) = r → zf R z = -z * (mG a α β r / r ^ 3)) : Closed a α β ev Rf zf := by
  refine ⟨fun r hr => ?_, e0, eR, ez⟩
  have hr2 : √(r ^ 2 + 0 ^ 2) = r := by rw [zero_pow two_ne_zero, add_zero, sqrt_sq hr.le]
  have d := (c.grad r 0 0 0 (by rw [Spherical.Dom, hr2]; exact hr)).dR
  simp only [hv] at d
  rw [hf, eR r 0 r hr hr2] at d
  exact d.congr_deriv (by field_simp)

theorem closed_core (ha : 0 < a) : Closed a 0 4 (DehnenCore.evaluate a) (DehnenCore.Rforce a) (DehnenCore.zforce a) := by
  have k : ∀ r, 0 < r → mG a 0 4 r = r ^ 3 / (a + r) ^ 3 / 3 := fun r hr => by
    rw [mG_four ha hr (by norm_num), sub_zero, show (3:ℝ) = (3:ℕ) by norm_num, rpow_natCast, div_pow]
  refine .of (DehnenCore.consistent ha) (fun _ _ => rfl) (fun _ _ => rfl) ?_ ?_ ?_
  · intro R z r hr e; simp only [DehnenCore.evaluate, e, zero_pow two_ne_zero, add_zero, sqrt_sq hr.le]
  · intro R z r hr e; simp only [DehnenCore.Rforce, e, k r hr]; rw [add_comm r a]; field_simp
  · intro R z r hr e; simp only [DehnenCore.zforce, e, k r hr]; field_simp
theorem closed_hern (ha : 0 < a) : Closed a 1 4 (Hernquist.evaluate a) (Hernquist.Rforce a) (Hernquist.zforce a) := by
  have k : ∀ r, 0 < r → mG a 1 4 r = r ^ 2 / (a + r) ^ 2 / 2 := fun r hr => by
    rw [mG_four ha hr (by norm_num), show (3:ℝ) - 1 = (2:ℕ) by norm_num, rpow_natCast, div_pow]; norm_num
  have q : ∀ r, 1 + r / a = (a + r) / a := fun r => by field_simp
  refine .of (Hernquist.consistent ha) (fun _ _ => rfl) (fun _ _ => rfl) ?_ ?_ ?_
  · intro R z r hr e; simp only [Hernquist.evaluate, e, zero_pow two_ne_zero, add_zero, sqrt_sq hr.le]
  · intro R z r hr e; simp only [Hernquist.Rforce, e, k r hr, q]; field_simp
  · intro R z r hr e; simp only [Hernquist.zforce, e, k r hr, q]; field_simp
theorem closed_jaffe (ha : 0 < a) : Closed a 2 4 (Jaffe.evaluate a) (Jaffe.Rforce a) (Jaffe.zforce a) := by
  have k : ∀ r, 0 < r → mG a 2 4 r = r / (a + r) := fun r hr => by
    rw [mG_four ha hr (by norm_num), show (3:ℝ) - 2 = 1 by norm_num, rpow_one, div_one]
  refine .of (Jaffe.consistent ha) (fun _ _ => rfl) (fun _ _ => rfl) ?_ ?_ ?_
  · intro R z r hr e; simp only [Jaffe.evaluate, e, zero_pow two_ne_zero, add_zero, sqrt_sq hr.le]
  · intro R z r hr e; simp only [Jaffe.Rforce, e, k r hr, show 1 + a / r = (a + r) / r by field_simp; ring]; field_simp
  · intro R z r hr e; simp only [Jaffe.zforce, e, k r hr, show 1 + a / r = (a + r) / r by field_simp; ring]; field_simp
theorem closed_nfw (ha : 0 < a) : Closed a 1 3 (NFW.evaluate a) (NFW.Rforce a) (NFW.zforce a) := by
  have sq' : ∀ {R z r : ℝ}, √(R ^ 2 + z ^ 2) = r → R ^ 2 + z ^ 2 = r ^ 2 := fun e => by
    rw [← e, sq_sqrt (by positivity)]
  refine .of (NFW.consistent ha) (fun _ _ => rfl) (fun _ _ => rfl) ?_ ?_ ?_
  · intro R z r hr e; simp only [NFW.evaluate, e, zero_pow two_ne_zero, add_zero, sqrt_sq hr.le]
  · intro R z r hr e; simp only [NFW.Rforce, e, mG_nfw ha hr]; rw [sq' e]; field_simp; ring
  · intro R z r hr e; simp only [NFW.zforce, e, mG_nfw ha hr]; rw [sq' e]; field_simp; ring
end

/-! ### The values -/
section
variable {a α : ℝ}

/-- Slope 3 outside. -/
theorem eval3_deriv (ha : 0 < a) (h : α < 3) (h2 : α ≠ 2) {r : ℝ} (hr : 0 < r) :
    HasDerivAt (fun r => evaluate3 a α r 0) (mG a α 3 r / r ^ 2) r := by
  have hα : α - 2 ≠ 0 := sub_ne_zero.2 h2
  have form : ∀ x, 0 < x → evaluate3 a α x 0 = 1 / a * (1 - a * M (2 - α) (α - 2) (x / a) / x) / (α - 2) := by
    intro x hx
    have hs := div_pos hx ha
    have e := hyp_one (p := 3 - α) (2 - α) (by linarith) hs
    rw [show 3 - α + 1 = 4 - α by ring, ← neg_div, show 3 - α - 1 = 2 - α by ring, neg_sub 2 α] at e
    have h3 : 3 - α ≠ 0 := by linarith
    have k : (x / a) ^ (2 - α) * (x / a) ^ (-(3 - α)) = a / x := by
      rw [← rpow_add hs, show 2 - α + -(3 - α) = -1 by ring, rpow_neg_one, inv_div]
    simp only [evaluate3, zero_pow two_ne_zero, add_zero, sqrt_sq hx.le]
    rw [e]
    congr 3
    rw [mul_div_right_comm, ← k]
    field_simp
  have ev : (fun r => evaluate3 a α r 0) =ᶠ[𝓝 r] fun x => 1 / a * (1 - a * M (2 - α) (α - 2) (x / a) / x) / (α - 2) :=
    (lt_mem_nhds hr).mono fun x hx => form x hx
  have hs := div_pos hr ha
  have dM := (M_deriv (p := 2 - α) (α - 2) (by linarith) hs).comp r ((hasDerivAt_id r).div_const a)
  have d := (((((dM.const_mul a).div (hasDerivAt_id r) hr.ne').const_sub 1).const_mul (1 / a)).div_const (α - 2))
  refine (d.congr_of_eventuallyEq ?_).congr_deriv ?_
  · exact ev
  · have k := parts (p := 3 - α) (α - 2) (by linarith) hs
    have hH : M (3 - α) (α - 2 - 1) (r / a) = M (2 - α) (α - 2) (r / a) - mG a α 3 r := by
      rw [mG, M, M, M, ← intervalIntegral.integral_sub (M_int _ (by linarith) hs.le) (M_int _ (by linarith) hs.le)]
      refine integral_congr_ae (Eventually.of_forall fun x hx => ?_)
      rw [uIoc_of_le hs.le] at hx
      have hx0 : 0 < x := hx.1
      rw [show 3 - α = 2 - α + 1 by ring, rpow_add_one hx0.ne', show α - 2 = α - 3 + 1 by ring,
        rpow_add_one (by positivity), show α - 3 + 1 - 1 = α - 3 by ring]
      ring
    rw [hH, show 3 - α - 1 = 2 - α by ring] at k
    have k2 : (r / a) ^ (3 - α) = (r / a) ^ (2 - α) * (r / a) := by
      rw [← rpow_add_one hs.ne']; congr 1; ring
    rw [k2] at k
    simp only [Function.comp, id]
    generalize M (2 - α) (α - 2) (r / a) = X at *
    generalize mG a α 3 r = Y at *
    have k3 : (r / a) ^ (2 - α) * (1 + r / a) ^ (α - 2) = ((3 - α) * X + (α - 2) * (X - Y)) * (a / r) := by
      rw [← k]; field_simp
    rw [k3]
    field_simp
    ring

/-- The value for outer slopes above 3 in terms of the incomplete integrals. -/
theorem evalAt_eq {β : ℝ} (ha : 0 < a) (hβ : 3 < β) {r : ℝ} (hr : 0 < r) :
    evaluateAt a α β r = (M (β - 4) (α - β) (a / r) - r / a * M (β - 3) (α - β) (a / r) - B (3 - α) (β - 3)) / r := by
  have hy := div_pos ha hr
  have e := hyp_two (p := β - 3) (β - α) (by linarith) hy
  rw [show β - 3 + 2 = β - 1 by ring, ← neg_div, show β - 3 - 1 = β - 4 by ring, neg_sub β α] at e
  have g1 := (Gamma_pos_of_pos (by linarith : 0 < β - 1)).ne'
  have g2 := (Gamma_pos_of_pos (by linarith : 0 < β - 3)).ne'
  have k : (r / a) ^ (3 - β) * (a / r) ^ (-(β - 3)) = 1 := by
    rw [show a / r = (r / a)⁻¹ by rw [inv_div], inv_rpow (div_pos hr ha).le, show 3 - β = -(β - 3) by ring]
    exact mul_inv_cancel₀ (rpow_pos_of_pos (div_pos hr ha) _).ne'
  rw [evaluateAt, e, B, show 3 - α + (β - 3) = β - α by ring]
  congr 1
  have k' : (r / a) ^ (3 - β) / Gamma (β - 1) * (Gamma (β - 1) / Gamma (β - 3) *
      ((a / r) ^ (-(β - 3)) * (M (β - 4) (α - β) (a / r) - M (β - 3) (α - β) (a / r) / (a / r))))
      = ((r / a) ^ (3 - β) * (a / r) ^ (-(β - 3))) * (M (β - 4) (α - β) (a / r) - r / a * M (β - 3) (α - β) (a / r))
        / Gamma (β - 3) := by
    rw [div_div_eq_mul_div (M (β - 3) (α - β) (a / r))]
    generalize (r / a) ^ (3 - β) = X
    generalize (a / r) ^ (-(β - 3)) = Y
    generalize M (β - 4) (α - β) (a / r) = Z
    generalize M (β - 3) (α - β) (a / r) = W
    field_simp
  rw [k', k]
  generalize Gamma (β - 3) = X at *
  field_simp

theorem evalAt_deriv {β : ℝ} (ha : 0 < a) (h : α < 3) (hβ : 3 < β) {r : ℝ} (hr : 0 < r) :
    HasDerivAt (evaluateAt a α β) (mG a α β r / r ^ 2) r := by
  have ev : evaluateAt a α β =ᶠ[𝓝 r] fun r =>
      (M (β - 4) (α - β) (a / r) - r / a * M (β - 3) (α - β) (a / r) - B (3 - α) (β - 3)) / r :=
    (lt_mem_nhds hr).mono fun x hx => evalAt_eq ha hβ hx
  have hy := div_pos ha hr
  have dy : HasDerivAt (fun r => a / r) (-a / r ^ 2) r := by
    refine ((hasDerivAt_const r a).div (hasDerivAt_id r) hr.ne').congr_deriv ?_
    simp
  have d1 := (M_deriv (p := β - 4) (α - β) (by linarith) hy).comp r dy
  have d2 := (M_deriv (p := β - 3) (α - β) (by linarith) hy).comp r dy
  have d := ((d1.sub (((hasDerivAt_id r).div_const a).mul d2)).sub_const (B (3 - α) (β - 3))).div (hasDerivAt_id r) hr.ne'
  refine (d.congr_of_eventuallyEq ev).congr_deriv ?_
  have k := M_compl (p := 3 - α) (q := β - 3) (by linarith) (by linarith) (div_pos hr ha)
  rw [show 3 - α - 1 = 2 - α by ring, show -(3 - α) - (β - 3) = α - β by ring, show β - 3 - 1 = β - 4 by ring,
    one_div_div] at k
  rw [← k, show β - 3 = β - 4 + 1 by ring, rpow_add_one hy.ne']
  simp only [Function.comp, id, Pi.sub_apply, Pi.mul_apply, mG]
  generalize M (2 - α) (α - β) (r / a) = X
  generalize M (β - 4) (α - β) (a / r) = Z
  generalize M (β - 4 + 1) (α - β) (a / r) = W
  generalize (a / r) ^ (β - 4) = Y
  field_simp
  ring

/-- The value lies between that of a point mass with the total mass and zero. -/
theorem evalAt_bounds {β : ℝ} (ha : 0 < a) (h : α < 3) (hβ : 3 < β) {r : ℝ} (hr : 0 < r) :
    -(B (3 - α) (β - 3) / r) ≤ evaluateAt a α β r ∧ evaluateAt a α β r ≤ 0 := by
  have hy := div_pos ha hr
  have k := M_compl (p := 3 - α) (q := β - 3) (by linarith) (by linarith) (div_pos hr ha)
  rw [show 3 - α - 1 = 2 - α by ring, show -(3 - α) - (β - 3) = α - β by ring, show β - 3 - 1 = β - 4 by ring,
    one_div_div] at k
  have p1 := M_pos (p := 2 - α) (α - β) (by linarith) (div_pos hr ha)
  have p2 := M_pos (p := β - 3) (α - β) (by linarith) hy
  have le : r / a * M (β - 3) (α - β) (a / r) ≤ M (β - 4) (α - β) (a / r) := by
    rw [M, M, ← intervalIntegral.integral_const_mul]
    refine intervalIntegral.integral_mono_on_of_le_Ioo hy.le ((M_int _ (by linarith) hy.le).const_mul _)
      (M_int _ (by linarith) hy.le) fun x hx => ?_
    have hx0 : 0 < x := hx.1
    rw [show β - 3 = β - 4 + 1 by ring, rpow_add_one hx0.ne']
    have : r / a * x ≤ 1 := by
      have := hx.2.le
      rw [le_div_iff₀ hr] at this
      rw [div_mul_eq_mul_div, div_le_one ha]; linarith
    have q : 0 ≤ x ^ (β - 4) * (1 + x) ^ (α - β) := by positivity
    nlinarith
  rw [evalAt_eq ha hβ hr, ← neg_div]
  constructor
  · gcongr
    linarith
  · refine div_nonpos_of_nonpos_of_nonneg ?_ hr.le
    have := mul_pos (div_pos hr ha) p2
    linarith
end

end TwoPower
end Verif
