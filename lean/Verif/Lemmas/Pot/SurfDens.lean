import Verif.Model.Pot.SurfDens
import Verif.Util.Deriv
import Verif.Lemmas.Pot.TwoPower
import Mathlib.MeasureTheory.Integral.IntervalIntegral.FundThmCalculus
import Mathlib.MeasureTheory.Integral.IntervalIntegral.DerivIntegrable

set_option autoImplicit false

/-! # The closed-form surface densities as real smooth functions of the height -/

noncomputable section
namespace Verif.Surf
open Real

variable {a R z : ℝ}

/-- Real version of `Rma^-3 (arctan(a z/r/Rma) - arctan(z/Rma))`. -/
def J (a R z : ℝ) : ℝ :=
  if a < R then
    (arctan (a * z / √(R ^ 2 + z ^ 2) / √(R ^ 2 - a ^ 2)) - arctan (z / √(R ^ 2 - a ^ 2))) / √(R ^ 2 - a ^ 2) ^ 3
  else
    (log (√(R ^ 2 + z ^ 2) * √(a ^ 2 - R ^ 2) + a * z) - log (R * (√(a ^ 2 - R ^ 2) + z))) / √(a ^ 2 - R ^ 2) ^ 3

theorem Rma_eq_zero (ha : 0 < a) (hR : 0 < R) : Rma a R = 0 ↔ R = a := by
  unfold Rma
  rw [Complex.cpow_eq_zero_iff]
  simp only [Complex.ofReal_eq_zero]
  constructor
  · intro ⟨h, _⟩
    exact (sq_eq_sq₀ hR.le ha.le).1 (by linarith)
  · rintro rfl
    simp

theorem Rma_of_lt (h : a ^ 2 < R ^ 2) : Rma a R = ((√(R ^ 2 - a ^ 2) : ℝ) : ℂ) := by
  rw [Rma, sqrt_eq_rpow, Complex.ofReal_cpow (by linarith)]
  norm_num

theorem Rma_of_gt (h : R ^ 2 < a ^ 2) : Rma a R = Complex.I * ((√(a ^ 2 - R ^ 2) : ℝ) : ℂ) := by
  have hp : (0 : ℝ) < a ^ 2 - R ^ 2 := by linarith
  rw [Rma, Complex.ofReal_cpow_of_nonpos (by linarith), sqrt_eq_rpow, Complex.ofReal_cpow hp.le,
    show (π : ℂ) * Complex.I * (1 / 2) = (π / 2) * Complex.I by ring, Complex.exp_pi_div_two_mul_I]
  push_cast
  rw [neg_sub, mul_comm]

/-- `arctan` of a purely imaginary number, in the form `arctan (y / i)`. -/
theorem arctan_imag (y : ℝ) : Complex.arctan (y / Complex.I) = -Complex.I / 2 * Complex.log (((1 + y) / (1 - y) : ℝ)) := by
  rw [Complex.arctan]
  congr 2
  push_cast
  rw [Complex.div_I]
  congr 1
  · linear_combination (-(y : ℂ)) * Complex.I_sq
  · linear_combination ((y : ℂ)) * Complex.I_sq

theorem J_zero (hR : 0 < R) (h : R ≠ a) (ha : 0 < a) : J a R 0 = 0 := by
  unfold J
  split_ifs with h1
  · simp
  · have : R < a := lt_of_le_of_ne (not_lt.1 h1) h
    have hw : 0 < √(a ^ 2 - R ^ 2) := sqrt_pos.2 (by nlinarith)
    simp [sqrt_sq hR.le]

theorem J_deriv (ha : 0 < a) (hR : 0 < R) (h : R ≠ a) (hz : 0 ≤ z) :
    HasDerivAt (J a R) (1 / ((a ^ 2 - R ^ 2) * √(R ^ 2 + z ^ 2) * (√(R ^ 2 + z ^ 2) + a))) z := by
  have h1 : 0 < R ^ 2 + z ^ 2 := by positivity
  obtain ⟨r, hr, er⟩ : ∃ r, 0 < r ∧ √(R ^ 2 + z ^ 2) = r := ⟨_, sqrt_pos.2 h1, rfl⟩
  have err : r ^ 2 = R ^ 2 + z ^ 2 := by rw [← er, sq_sqrt h1.le]
  have hsq : HasDerivAt (fun z : ℝ => √(R ^ 2 + z ^ 2)) (z / r) z := by
    have := ((hasDerivAt_pow 2 z).const_add (R ^ 2)).sqrt h1.ne'
    refine this.congr_deriv ?_
    rw [er]; field_simp; norm_num
  rcases lt_or_gt_of_ne h with hl | hl
  · have hw2 : 0 < a ^ 2 - R ^ 2 := by nlinarith
    obtain ⟨w, hw, ew⟩ : ∃ w, 0 < w ∧ √(a ^ 2 - R ^ 2) = w := ⟨_, sqrt_pos.2 hw2, rfl⟩
    have eww : w ^ 2 = a ^ 2 - R ^ 2 := by rw [← ew, sq_sqrt hw2.le]
    have hf : J a R = fun z => (log (√(R ^ 2 + z ^ 2) * w + a * z) - log (R * (w + z))) / w ^ 3 := by
      funext z; simp [J, not_lt.2 hl.le, ew]
    rw [hf, er]
    have p1 : r * w + a * z ≠ 0 := by positivity
    have p2 : R * (w + z) ≠ 0 := by positivity
    have d1 := ((hsq.mul_const w).fun_add ((hasDerivAt_id z).const_mul a)).log (by simpa [er] using p1)
    have d2 := (((hasDerivAt_id z).const_add w).const_mul R).log (by simpa using p2)
    refine ((d1.fun_sub d2).div_const (w ^ 3)).congr_deriv ?_
    simp only [id, er]
    rw [← eww]
    have : r + a ≠ 0 := by positivity
    have hwz : w + z ≠ 0 := by positivity
    have k : (z / r * w + a * 1) / (r * w + a * z) - R * 1 / (R * (w + z)) = w / (r * (r + a)) := by
      field_simp
      linear_combination (-r * w) * err - r * w * eww
    rw [k]
    field_simp
  · have hw2 : 0 < R ^ 2 - a ^ 2 := by nlinarith
    obtain ⟨w, hw, ew⟩ : ∃ w, 0 < w ∧ √(R ^ 2 - a ^ 2) = w := ⟨_, sqrt_pos.2 hw2, rfl⟩
    have eww : w ^ 2 = R ^ 2 - a ^ 2 := by rw [← ew, sq_sqrt hw2.le]
    have hf : J a R = fun z => (arctan (a * z / √(R ^ 2 + z ^ 2) / w) - arctan (z / w)) / w ^ 3 := by
      funext z; simp [J, hl, ew]
    rw [hf, er]
    have d1 := ((((hasDerivAt_id z).const_mul a).fun_div hsq (by rw [er]; exact hr.ne')).div_const w).arctan
    have d2 := ((hasDerivAt_id z).div_const w).arctan
    refine ((d1.fun_sub d2).div_const (w ^ 3)).congr_deriv ?_
    simp only [id, er]
    have hra : r + a ≠ 0 := by positivity
    have hrma : r - a ≠ 0 := by
      have : a ^ 2 < r ^ 2 := by rw [err]; nlinarith [sq_nonneg z]
      have := lt_of_pow_lt_pow_left₀ 2 hr.le this
      linarith
    have e1 : 1 + (a * z / r / w) ^ 2 = R ^ 2 * (r + a) * (r - a) / (r ^ 2 * w ^ 2) := by
      field_simp
      linear_combination (r ^ 2) * eww + (R ^ 2 - a ^ 2 - w ^ 2 + w ^ 2) * err - R ^ 2 * err
    have e2 : 1 + (z / w) ^ 2 = (r + a) * (r - a) / w ^ 2 := by
      field_simp
      linear_combination eww - err
    rw [e1, e2, show a ^ 2 - R ^ 2 = -w ^ 2 by linarith]
    field_simp
    linear_combination a * err

theorem Rma_sq (a R : ℝ) : Rma a R ^ 2 = ((R ^ 2 - a ^ 2 : ℝ) : ℂ) := by
  rw [Rma, ← Complex.cpow_nat_mul]
  norm_num

/-- The complex expression the code evaluates has real part `J`. -/
theorem J_code (ha : 0 < a) (hR : 0 < R) (hz : 0 ≤ z) (h : R ≠ a) (hr : R ^ 2 + z ^ 2 ≠ a ^ 2) :
    ((Rma a R ^ 3)⁻¹ * (Complex.arctan (a * z / (√(R ^ 2 + z ^ 2) : ℝ) / Rma a R)
      - Complex.arctan (z / Rma a R))).re = J a R z := by
  have h1 : 0 < R ^ 2 + z ^ 2 := by positivity
  obtain ⟨r, hr0, er⟩ : ∃ r, 0 < r ∧ √(R ^ 2 + z ^ 2) = r := ⟨_, sqrt_pos.2 h1, rfl⟩
  have err : r ^ 2 = R ^ 2 + z ^ 2 := by rw [← er, sq_sqrt h1.le]
  rcases lt_or_gt_of_ne h with hl | hl
  · have hw2 : 0 < a ^ 2 - R ^ 2 := by nlinarith
    obtain ⟨w, hw, ew⟩ : ∃ w, 0 < w ∧ √(a ^ 2 - R ^ 2) = w := ⟨_, sqrt_pos.2 hw2, rfl⟩
    have eww : w ^ 2 = a ^ 2 - R ^ 2 := by rw [← ew, sq_sqrt hw2.le]
    rw [Rma_of_gt (by linarith), er, ew]
    have hzw : z ^ 2 ≠ w ^ 2 := fun e => hr (by linarith)
    have n1 : w - z ≠ 0 := fun e => hzw (by rw [show z = w by linarith])
    have n2 : r * w - a * z ≠ 0 := by
      intro e
      have : (r * w) ^ 2 = (a * z) ^ 2 := by rw [show r * w = a * z by linarith]
      have : R ^ 2 * (w ^ 2 - z ^ 2) = 0 := by
        linear_combination this - w ^ 2 * err - z ^ 2 * eww
      rcases mul_eq_zero.1 this with h0 | h0
      · exact hR.ne' (by simpa using h0)
      · exact hzw (by linarith)
    have e1 : ((a : ℂ) * z / (r : ℝ) / (Complex.I * (w : ℝ))) = ((a * z / r / w : ℝ) : ℂ) / Complex.I := by
      push_cast; rw [div_div, div_div, div_div, mul_comm Complex.I, ← mul_assoc]
    have e2 : ((z : ℂ) / (Complex.I * (w : ℝ))) = ((z / w : ℝ) : ℂ) / Complex.I := by
      push_cast; rw [div_div, mul_comm Complex.I]
    have e3 : ((Complex.I * (w : ℂ)) ^ 3)⁻¹ = Complex.I * ((1 / w ^ 3 : ℝ) : ℂ) := by
      have : (w : ℂ) ≠ 0 := by exact_mod_cast hw.ne'
      rw [mul_pow, Complex.I_pow_three]
      push_cast
      rw [neg_mul, inv_neg, mul_inv, Complex.inv_I]
      simp
    rw [e1, e2, arctan_imag, arctan_imag, e3,
      show ∀ x y : ℂ, Complex.I * ((1 / w ^ 3 : ℝ) : ℂ) * (-Complex.I / 2 * x - -Complex.I / 2 * y) =
        ((1 / w ^ 3 / 2 : ℝ) : ℂ) * (x - y) from fun x y => by
          push_cast; linear_combination (-(1 / (w : ℂ) ^ 3 / 2 * (x - y))) * Complex.I_sq]
    rw [Complex.re_ofReal_mul, Complex.sub_re, Complex.log_ofReal_re, Complex.log_ofReal_re]
    have j : J a R z = (log (r * w + a * z) - log (R * (w + z))) / w ^ 3 := by
      simp [J, not_lt.2 hl.le, ew, er]
    have p1 : r * w + a * z ≠ 0 := by positivity
    have p2 : R * (w + z) ≠ 0 := by positivity
    have p3 : w + z ≠ 0 := by positivity
    have q1 : (1 + a * z / r / w) / (1 - a * z / r / w) = (r * w + a * z) / (r * w - a * z) := by
      have : 1 - a * z / r / w ≠ 0 := by
        intro e; apply n2; field_simp at e; linarith
      field_simp
    have q2 : (1 + z / w) / (1 - z / w) = (w + z) / (w - z) := by
      have : 1 - z / w ≠ 0 := by
        intro e; apply n1; field_simp at e; linarith
      field_simp
    have q3 : log (r * w - a * z) = 2 * log R + log (w + z) + log (w - z) - log (r * w + a * z) := by
      have : (r * w + a * z) * (r * w - a * z) = R ^ 2 * ((w + z) * (w - z)) := by
        linear_combination w ^ 2 * err + z ^ 2 * eww
      have := congrArg log this
      rw [log_mul p1 n2, log_mul (by positivity) (mul_ne_zero p3 n1), log_mul p3 n1, log_pow] at this
      push_cast at this
      linarith
    rw [j, q1, q2, log_div p1 n2, log_div p3 n1, q3, log_mul hR.ne' p3]
    ring
  · have hw2 : 0 < R ^ 2 - a ^ 2 := by nlinarith
    obtain ⟨w, hw, ew⟩ : ∃ w, 0 < w ∧ √(R ^ 2 - a ^ 2) = w := ⟨_, sqrt_pos.2 hw2, rfl⟩
    rw [Rma_of_lt (by linarith), er, ew]
    have j : J a R z = (arctan (a * z / r / w) - arctan (z / w)) / w ^ 3 := by
      simp [J, hl, ew, er]
    rw [j, ← Complex.ofReal_re ((arctan (a * z / r / w) - arctan (z / w)) / w ^ 3)]
    congr 1
    push_cast
    exact (div_eq_inv_mul _ _).symm

/-- An antiderivative of twice a nonnegative even density that vanishes in the plane is the column
between `-z` and `z`. -/
theorem column {S ρ : ℝ → ℝ} (hz : 0 ≤ z) (h0 : S 0 = 0) (even : ∀ x, ρ (-x) = ρ x)
    (hp : ∀ x, 0 ≤ x → 0 ≤ ρ x) (h : ∀ x, 0 ≤ x → HasDerivAt S (2 * ρ x) x) :
    ∫ x in (-z)..z, ρ x = S z := by
  have hi : IntervalIntegrable (fun x => 2 * ρ x) MeasureTheory.volume 0 z := by
    refine (intervalIntegrable_iff_integrableOn_Ioc_of_le hz).2 ?_
    refine intervalIntegral.integrableOn_deriv_of_nonneg (g := S) ?_ (fun x hx => h x hx.1.le) fun x hx => ?_
    · exact fun x hx => (h x hx.1).continuousAt.continuousWithinAt
    · have := hp x hx.1.le
      positivity
  have hi' : IntervalIntegrable ρ MeasureTheory.volume 0 z := by
    have := hi.const_mul (1 / 2)
    refine this.congr ?_
    intro x _
    simp
  have k := intervalIntegral.integral_eq_sub_of_hasDerivAt (f := S) (a := 0) (b := z)
    (fun x hx => h x (by rw [Set.uIcc_of_le hz] at hx; exact hx.1)) hi
  rw [intervalIntegral.integral_const_mul, h0, sub_zero] at k
  have hneg : IntervalIntegrable ρ MeasureTheory.volume (-z) 0 := by
    have := (IntervalIntegrable.iff_comp_neg (f := ρ) (a := 0) (b := z)).1 hi'
    have := this.symm
    simpa only [even, neg_zero] using this
  have e : ∫ x in (-z)..0, ρ x = ∫ x in (0 : ℝ)..z, ρ x := by
    have := intervalIntegral.integral_comp_neg (a := 0) (b := z) ρ
    simp only [even, neg_zero] at this
    exact this.symm
  rw [← intervalIntegral.integral_add_adjacent_intervals hneg hi', e]
  linarith

theorem root (hR : 0 < R) (z : ℝ) : ∃ r, 0 < r ∧ √(R ^ 2 + z ^ 2) = r ∧ r ^ 2 = R ^ 2 + z ^ 2 ∧
    HasDerivAt (fun z : ℝ => √(R ^ 2 + z ^ 2)) (z / r) z := by
  have h1 : 0 < R ^ 2 + z ^ 2 := by positivity
  refine ⟨_, sqrt_pos.2 h1, rfl, sq_sqrt h1.le, ?_⟩
  have := ((hasDerivAt_pow 2 z).const_add (R ^ 2)).sqrt h1.ne'
  refine this.congr_deriv ?_
  have := (sqrt_pos.2 h1).ne'
  field_simp; norm_num

theorem nfw_dens (ha : 0 < a) {r : ℝ} (hr : 0 < r) (e : √(R ^ 2 + z ^ 2) = r) :
    NFW.dens a R z = 1 / (4 * π * r * (r + a) ^ 2) := by
  simp only [NFW.dens, e, show (3 - 1 : ℝ) = 2 by norm_num, rpow_one, rpow_two]
  field_simp
  ring

theorem hernquist_dens (ha : 0 < a) {r : ℝ} (hr : 0 < r) (e : √(R ^ 2 + z ^ 2) = r) :
    Hernquist.dens a R z = a / (4 * π * r * (r + a) ^ 3) := by
  rw [Hernquist.dens, Dehnen.dens_radial 1 ha hr e, rpow_one, rpow_one]
  have : r + a ≠ 0 := by positivity
  field_simp

theorem jaffe_dens (ha : 0 < a) {r : ℝ} (hr : 0 < r) (e : √(R ^ 2 + z ^ 2) = r) :
    Jaffe.dens a R z = a / (4 * π * r ^ 2 * (r + a) ^ 2) := by
  rw [Jaffe.dens, Dehnen.dens_radial 2 ha hr e, rpow_two, rpow_two]
  have : r + a ≠ 0 := by positivity
  field_simp

/-! ### NFW -/

def nfwS (a R z : ℝ) : ℝ :=
  if R = a then z * (√(R ^ 2 + z ^ 2) + 2 * a) / (6 * π * a ^ 2 * (√(R ^ 2 + z ^ 2) + a) ^ 2)
  else (a * J a R z + z / (√(R ^ 2 + z ^ 2) + a) / (R ^ 2 - a ^ 2)) / 2 / π

theorem sq_ne (ha : 0 < a) (hR : 0 < R) (h : R ≠ a) : R ^ 2 - a ^ 2 ≠ 0 := by
  intro e
  exact h ((sq_eq_sq₀ hR.le ha.le).1 (by linarith))

theorem nfw_eq (ha : 0 < a) (hR : 0 < R) (hz : 0 ≤ z) (h : R = a ∧ 0 < z ∨ R ≠ a ∧ R ^ 2 + z ^ 2 ≠ a ^ 2) :
    NFW.surfdens a R z = nfwS a R z := by
  obtain ⟨r, hr, e, er, _⟩ := root hR z
  have hra : r + a ≠ 0 := by positivity
  rcases h with ⟨rfl, hz⟩ | ⟨h, hr'⟩
  · simp only [NFW.surfdens, nfwS, (Rma_eq_zero ha hR).2 rfl, if_true, e]
    have : √((z / R) ^ 2 + 1) = r / R := by
      rw [← e, show (z / R) ^ 2 + 1 = (R ^ 2 + z ^ 2) / R ^ 2 by field_simp; ring,
        sqrt_div (by positivity), sqrt_sq hR.le]
    rw [this]
    have hz2 : z ^ 2 = r ^ 2 - R ^ 2 := by linarith
    have hz4 : z ^ 4 = (r ^ 2 - R ^ 2) ^ 2 := by rw [← hz2]; ring
    field_simp
    rw [hz4, hz2]
    ring
  · simp only [NFW.surfdens, nfwS, if_neg h, if_neg (fun k => h ((Rma_eq_zero ha hR).1 k))]
    congr 2
    rw [Complex.add_re, mul_assoc, Complex.re_ofReal_mul, J_code ha hR hz h hr']
    congr 1
    rw [← Complex.ofReal_re (z / (√(R ^ 2 + z ^ 2) + a) / (R ^ 2 - a ^ 2))]
    push_cast
    rfl

theorem nfw_deriv (ha : 0 < a) (hR : 0 < R) (hz : 0 ≤ z) : HasDerivAt (nfwS a R) (2 * NFW.dens a R z) z := by
  obtain ⟨r, hr, e, er, d⟩ := root hR z
  have hra : r + a ≠ 0 := by positivity
  rw [nfw_dens ha hr e]
  by_cases h : R = a
  · subst h
    have hf : nfwS R R = fun z => z * (√(R ^ 2 + z ^ 2) + 2 * R) / (6 * π * R ^ 2 * (√(R ^ 2 + z ^ 2) + R) ^ 2) := by
      funext z; simp [nfwS]
    rw [hf]
    refine HasDerivAt.congr_deriv (by hasderiv; rw [e]; positivity) ?_
    simp only [e, Nat.cast_ofNat, Nat.add_one_sub_one, pow_one]
    field_simp
    have hz2 : z ^ 2 = r ^ 2 - R ^ 2 := by linarith
    linear_combination (4 * (r + R) - 8 * (r + 2 * R)) * hz2
  · have hd := sq_ne ha hR h
    have hf : nfwS a R = fun z => (a * J a R z + z / (√(R ^ 2 + z ^ 2) + a) / (R ^ 2 - a ^ 2)) / 2 / π := by
      funext z; simp [nfwS, h]
    have hJ := J_deriv ha hR h hz
    rw [hf]
    refine HasDerivAt.congr_deriv (by hasderiv; rw [e]; positivity) ?_
    simp only [e]
    have hd' : a ^ 2 - R ^ 2 ≠ 0 := fun k => hd (by linarith)
    rw [show R ^ 2 - a ^ 2 = -(a ^ 2 - R ^ 2) by ring]
    field_simp
    have hz2 : z ^ 2 = r ^ 2 - R ^ 2 := by linarith
    linear_combination 4 * hz2

/-! ### Hernquist -/

def hernquistS (a R z : ℝ) : ℝ :=
  if R = a then z * (2 * √(R ^ 2 + z ^ 2) ^ 2 + 6 * a * √(R ^ 2 + z ^ 2) + 7 * a ^ 2)
    / (30 * π * a ^ 2 * (√(R ^ 2 + z ^ 2) + a) ^ 3)
  else a * (-(2 * a ^ 2 + R ^ 2) / (R ^ 2 - a ^ 2) * J a R z + z * (R ^ 2 - 4 * a ^ 2 - 3 * a * √(R ^ 2 + z ^ 2))
    / ((R ^ 2 - a ^ 2) ^ 2 * (√(R ^ 2 + z ^ 2) + a) ^ 2)) / 4 / π

theorem hernquist_eq (ha : 0 < a) (hR : 0 < R) (hz : 0 ≤ z) (h : R = a ∧ 0 < z ∨ R ≠ a ∧ R ^ 2 + z ^ 2 ≠ a ^ 2) :
    Hernquist.surfdens a R z = hernquistS a R z := by
  obtain ⟨r, hr, e, er, _⟩ := root hR z
  have hra : r + a ≠ 0 := by positivity
  rcases h with ⟨rfl, hz⟩ | ⟨h, hr'⟩
  · simp only [Hernquist.surfdens, hernquistS, (Rma_eq_zero ha hR).2 rfl, if_true, e]
    have : √(1 + z ^ 2 / R ^ 2) = r / R := by
      rw [← e, show 1 + z ^ 2 / R ^ 2 = (R ^ 2 + z ^ 2) / R ^ 2 by field_simp,
        sqrt_div (by positivity), sqrt_sq hR.le]
    rw [this]
    have hz2 : z ^ 2 = r ^ 2 - R ^ 2 := by linarith
    have hz4 : z ^ 4 = (r ^ 2 - R ^ 2) ^ 2 := by rw [← hz2]; ring
    have hz6 : z ^ 6 = (r ^ 2 - R ^ 2) ^ 3 := by rw [← hz2]; ring
    field_simp
    rw [hz6, hz4, hz2]
    ring
  · have hd := sq_ne ha hR h
    have hrm : r - a ≠ 0 := by
      intro k
      apply hr'
      rw [← er, show r = a by linarith]
    simp only [Hernquist.surfdens, hernquistS, if_neg h, if_neg (fun k => h ((Rma_eq_zero ha hR).1 k))]
    congr 3
    rw [← J_code ha hR hz h hr', ← Complex.re_ofReal_mul, Complex.add_re]
    congr 1
    · congr 1
      have : (Rma a R ^ 5)⁻¹ = (((R ^ 2 - a ^ 2 : ℝ) : ℂ))⁻¹ * (Rma a R ^ 3)⁻¹ := by
        rw [← Rma_sq, ← mul_inv, ← pow_add]
      rw [this]
      push_cast
      ring
    · rw [← Complex.ofReal_re (z * (R ^ 2 - 4 * a ^ 2 - 3 * a * √(R ^ 2 + z ^ 2))
        / ((R ^ 2 - a ^ 2) ^ 2 * (√(R ^ 2 + z ^ 2) + a) ^ 2))]
      congr 1
      simp only [e]
      norm_cast
      rw [show a ^ 2 - R ^ 2 = -(R ^ 2 - a ^ 2) by ring, neg_sq,
        show r ^ 2 - a ^ 2 = (r - a) * (r + a) by ring]
      have hz2 : z ^ 2 = r ^ 2 - R ^ 2 := by linarith
      rw [hz2]
      field_simp
      ring_nf

theorem hernquist_deriv (ha : 0 < a) (hR : 0 < R) (hz : 0 ≤ z) :
    HasDerivAt (hernquistS a R) (2 * Hernquist.dens a R z) z := by
  obtain ⟨r, hr, e, er, d⟩ := root hR z
  have hra : r + a ≠ 0 := by positivity
  have hz2 : z ^ 2 = r ^ 2 - R ^ 2 := by linarith
  rw [hernquist_dens ha hr e]
  by_cases h : R = a
  · subst h
    have hf : hernquistS R R = fun z => z * (2 * √(R ^ 2 + z ^ 2) ^ 2 + 6 * R * √(R ^ 2 + z ^ 2) + 7 * R ^ 2)
        / (30 * π * R ^ 2 * (√(R ^ 2 + z ^ 2) + R) ^ 3) := by
      funext z; simp [hernquistS]
    rw [hf]
    refine HasDerivAt.congr_deriv (by hasderiv; rw [e]; positivity) ?_
    simp only [e, Nat.cast_ofNat, Nat.add_one_sub_one, pow_one]
    field_simp
    ring_nf
    simp only [hz2]
    ring
  · have hd := sq_ne ha hR h
    have hf : hernquistS a R = fun z => a * (-(2 * a ^ 2 + R ^ 2) / (R ^ 2 - a ^ 2) * J a R z
        + z * (R ^ 2 - 4 * a ^ 2 - 3 * a * √(R ^ 2 + z ^ 2))
          / ((R ^ 2 - a ^ 2) ^ 2 * (√(R ^ 2 + z ^ 2) + a) ^ 2)) / 4 / π := by
      funext z; simp [hernquistS, h]
    have hJ := J_deriv ha hR h hz
    rw [hf]
    refine HasDerivAt.congr_deriv (by hasderiv; rw [e]; positivity) ?_
    simp only [e, Nat.cast_ofNat, Nat.add_one_sub_one, pow_one]
    rw [show a ^ 2 - R ^ 2 = -(R ^ 2 - a ^ 2) by ring]
    field_simp
    ring_nf
    simp only [hz2]
    ring

/-! ### Jaffe -/

def jaffeS (a R z : ℝ) : ℝ :=
  if R = a then (3 / a * arctan (z / R) - z * (4 * √(R ^ 2 + z ^ 2) + 5 * a) / (a * (√(R ^ 2 + z ^ 2) + a) ^ 2))
    / (6 * π * a)
  else (-(2 * a ^ 2 - R ^ 2) * J a R z + (arctan (z / R) / R - a * z / ((R ^ 2 - a ^ 2) * (√(R ^ 2 + z ^ 2) + a))))
    / a / 2 / π

theorem jaffe_eq (ha : 0 < a) (hR : 0 < R) (hz : 0 ≤ z) (h : R = a ∧ 0 < z ∨ R ≠ a ∧ R ^ 2 + z ^ 2 ≠ a ^ 2) :
    Jaffe.surfdens a R z = jaffeS a R z := by
  obtain ⟨r, hr, e, er, _⟩ := root hR z
  have hra : r + a ≠ 0 := by positivity
  rcases h with ⟨rfl, hz⟩ | ⟨h, hr'⟩
  · simp only [Jaffe.surfdens, jaffeS, (Rma_eq_zero ha hR).2 rfl, if_true, e]
    have : √(1 + (z / R) ^ 2) = r / R := by
      rw [← e, show 1 + (z / R) ^ 2 = (R ^ 2 + z ^ 2) / R ^ 2 by field_simp,
        sqrt_div (by positivity), sqrt_sq hR.le]
    rw [this]
    have hz2 : z ^ 2 = r ^ 2 - R ^ 2 := by linarith
    have hz4 : z ^ 4 = (r ^ 2 - R ^ 2) ^ 2 := by rw [← hz2]; ring
    have k : (3 * z ^ 2 - 2 * R ^ 2 + 2 * (r / R) * (R ^ 2 - 2 * z ^ 2)) / z ^ 3 = -(z * (4 * r + 5 * R) / (R * (r + R) ^ 2)) := by
      field_simp
      rw [hz4, hz2]
      ring
    have : (3 * z ^ 2 - 2 * R ^ 2 + 2 * (r / R) * (R ^ 2 - 2 * z ^ 2) + 3 * z ^ 3 / R * arctan (z / R)) / R / z ^ 3 / 6 / π =
        ((3 * z ^ 2 - 2 * R ^ 2 + 2 * (r / R) * (R ^ 2 - 2 * z ^ 2)) / z ^ 3 + 3 / R * arctan (z / R)) / (6 * π * R) := by
      field_simp
    rw [this, k]
    ring
  · have hd := sq_ne ha hR h
    simp only [Jaffe.surfdens, jaffeS, if_neg h, if_neg (fun k => h ((Rma_eq_zero ha hR).1 k))]
    congr 3
    rw [← J_code ha hR hz h hr', ← Complex.re_ofReal_mul, add_sub_assoc, Complex.add_re]
    congr 1
    · congr 1
      push_cast
      ring
    · rw [← Complex.ofReal_re (arctan (z / R) / R - a * z / ((R ^ 2 - a ^ 2) * (√(R ^ 2 + z ^ 2) + a)))]
      congr 1
      simp only [e]
      norm_cast
      rw [div_div (a * z)]

theorem at_deriv {p : ℝ} (hp : 0 < p) (z : ℝ) : HasDerivAt (fun z => arctan (z / p) / p) (1 / (p ^ 2 + z ^ 2)) z := by
  refine HasDerivAt.congr_deriv (by hasderiv) ?_
  have : 0 < p ^ 2 + z ^ 2 := by positivity
  rw [show 1 + (z / p) ^ 2 = (p ^ 2 + z ^ 2) / p ^ 2 by field_simp]
  field_simp

theorem jaffe_deriv (ha : 0 < a) (hR : 0 < R) (hz : 0 ≤ z) :
    HasDerivAt (jaffeS a R) (2 * Jaffe.dens a R z) z := by
  obtain ⟨r, hr, e, er, d⟩ := root hR z
  have hra : r + a ≠ 0 := by positivity
  have hz2 : z ^ 2 = r ^ 2 - R ^ 2 := by linarith
  have dt := at_deriv hR z
  rw [← er] at dt
  rw [jaffe_dens ha hr e]
  by_cases h : R = a
  · subst h
    have hf : jaffeS R R = fun z => (3 * (arctan (z / R) / R)
        - z * (4 * √(R ^ 2 + z ^ 2) + 5 * R) / (R * (√(R ^ 2 + z ^ 2) + R) ^ 2)) / (6 * π * R) := by
      funext z; simp [jaffeS]; ring
    rw [hf]
    refine HasDerivAt.congr_deriv (by hasderiv; rw [e]; positivity) ?_
    simp only [e, Nat.cast_ofNat, Nat.add_one_sub_one, pow_one]
    field_simp
    ring_nf
    simp only [hz2]
    ring
  · have hd := sq_ne ha hR h
    have hf : jaffeS a R = fun z => (-(2 * a ^ 2 - R ^ 2) * J a R z + (arctan (z / R) / R
        - a * z / ((R ^ 2 - a ^ 2) * (√(R ^ 2 + z ^ 2) + a)))) / a / 2 / π := by
      funext z; simp [jaffeS, h]
    have hJ := J_deriv ha hR h hz
    rw [hf]
    refine HasDerivAt.congr_deriv (by hasderiv; rw [e]; positivity) ?_
    simp only [e, Nat.cast_ofNat, Nat.add_one_sub_one, pow_one]
    rw [show a ^ 2 - R ^ 2 = -(R ^ 2 - a ^ 2) by ring]
    field_simp
    ring_nf
    simp only [hz2]
    ring

/-! ### Burkert -/

def burkertS (a R z : ℝ) : ℝ :=
  a ^ 2 * ((if R = a then -z / (a * (√(R ^ 2 + z ^ 2) + a)) else (R ^ 2 - a ^ 2) * J a R z)
    + (log (√(R ^ 2 + z ^ 2) * √(R ^ 2 + a ^ 2) + a * z) - log (√(R ^ 2 + z ^ 2) * √(R ^ 2 + a ^ 2) - a * z))
      / (2 * √(R ^ 2 + a ^ 2)) + arctan (z / √(R ^ 2 + a ^ 2)) / √(R ^ 2 + a ^ 2))

theorem gap {r p : ℝ} (ha : 0 < a) (hR : 0 < R) (hr : 0 < r) (hp : 0 < p) (er : r ^ 2 = R ^ 2 + z ^ 2)
    (ep : p ^ 2 = R ^ 2 + a ^ 2) : 0 < r * p + a * z ∧ 0 < r * p - a * z := by
  have : (a * z) ^ 2 < (r * p) ^ 2 := by
    rw [mul_pow r, er, ep]
    have : 0 < R ^ 2 * (R ^ 2 + a ^ 2 + z ^ 2) := by positivity
    nlinarith
  have := abs_lt_of_sq_lt_sq this (by positivity)
  rw [abs_lt] at this
  constructor <;> linarith

theorem artanh_eq {r p : ℝ} (ha : 0 < a) (hR : 0 < R) (hr : 0 < r) (hp : 0 < p) (er : r ^ 2 = R ^ 2 + z ^ 2)
    (ep : p ^ 2 = R ^ 2 + a ^ 2) :
    artanh (a * z / (r * p)) = (log (r * p + a * z) - log (r * p - a * z)) / 2 := by
  obtain ⟨h1, h2⟩ := gap ha hR hr hp er ep
  have hrp : 0 < r * p := by positivity
  rw [artanh_eq_half_log, ← log_div h1.ne' h2.ne']
  · have : 1 - a * z / (r * p) = (r * p - a * z) / (r * p) := by field_simp
    have h3 : 1 + a * z / (r * p) = (r * p + a * z) / (r * p) := by field_simp
    rw [this, h3, div_div_div_cancel_right₀ hrp.ne']
    ring
  · constructor
    · rw [le_div_iff₀ hrp]; linarith
    · rw [div_le_iff₀ hrp]; linarith

theorem burkert_eq (ha : 0 < a) (hR : 0 < R) (hz : 0 ≤ z) (h : R = a ∧ 0 < z ∨ R ≠ a ∧ R ^ 2 + z ^ 2 ≠ a ^ 2) :
    Burkert.surfdens a R z = burkertS a R z := by
  obtain ⟨r, hr, e, er, _⟩ := root hR z
  have hra : r + a ≠ 0 := by positivity
  rcases h with ⟨rfl, hz⟩ | ⟨h, hr'⟩
  · obtain ⟨s, hs, es, ess⟩ : ∃ s, 0 < s ∧ √(2 : ℝ) = s ∧ s ^ 2 = 2 := ⟨_, by positivity, rfl, by norm_num⟩
    have hp : √(R ^ 2 + R ^ 2) = s * R := by
      rw [← two_mul, sqrt_mul (by norm_num), sqrt_sq hR.le, es]
    simp only [Burkert.surfdens, burkertS, (Rma_eq_zero ha hR).2 rfl, if_true, e, hp]
    have k1 : √((z / R) ^ 2 + 1) = r / R := by
      rw [← e, show (z / R) ^ 2 + 1 = (R ^ 2 + z ^ 2) / R ^ 2 by field_simp; ring,
        sqrt_div (by positivity), sqrt_sq hR.le]
    have k2 : √(2 * ((z / R) ^ 2 + 1)) = s * r / R := by
      rw [sqrt_mul (by norm_num), k1, es, mul_div_assoc]
    have k3 : √(2 * (z / R) ^ 2 + 2) = s * r / R := by rw [← k2]; congr 1; ring
    have k4 := artanh_eq (z := z) ha hR hr (by positivity : 0 < s * R) er (by rw [mul_pow, ess]; ring)
    have k5 : z / R / (s * r / R) = R * z / (r * (s * R)) := by field_simp
    have k6 : z / R / s = z / (s * R) := by field_simp
    rw [k1, k2, k3, es, k5, k4, k6]
    have k7 : (2 - 2 * (r / R)) / z = -(2 * z) / (R * (r + R)) := by
      field_simp
      linear_combination -er
    rw [add_div, k7]
    field_simp
    linear_combination (2 * (r + R) * arctan (z / (R * s))
      + (r + R) * (log (R * (r * s + z)) - log (R * (r * s - z)))) * ess
  · have hd := sq_ne ha hR h
    have hpp : 0 < R ^ 2 + a ^ 2 := by positivity
    obtain ⟨p, hp, ep, epp⟩ : ∃ p, 0 < p ∧ √(R ^ 2 + a ^ 2) = p ∧ p ^ 2 = R ^ 2 + a ^ 2 :=
      ⟨_, sqrt_pos.2 hpp, rfl, sq_sqrt hpp.le⟩
    simp only [Burkert.surfdens, burkertS, if_neg h, if_neg (fun k => h ((Rma_eq_zero ha hR).1 k)), ep]
    have hM : Rma a R ≠ 0 := fun k => h ((Rma_eq_zero ha hR).1 k)
    have key := J_code ha hR hz h hr'
    have : (Complex.arctan (z / ((√(R ^ 2 + z ^ 2) / a : ℝ) : ℂ) / Rma a R) / Rma a R
        - Complex.arctan (z / Rma a R) / Rma a R).re = (R ^ 2 - a ^ 2) * J a R z := by
      rw [← key, ← Complex.re_ofReal_mul, ← Rma_sq]
      congr 1
      have : (z : ℂ) / ((√(R ^ 2 + z ^ 2) / a : ℝ) : ℂ) = a * z / (√(R ^ 2 + z ^ 2) : ℝ) := by
        push_cast; rw [div_div_eq_mul_div, mul_comm]
      rw [this]
      field_simp
    rw [← this, add_sub_right_comm, Complex.add_re, Complex.add_re, Complex.ofReal_re, Complex.ofReal_re]
    have k5 : z / (√(R ^ 2 + z ^ 2) / a) / p = a * z / (r * p) := by rw [e]; field_simp
    rw [k5, artanh_eq ha hR hr hp er epp, e]
    congr 3
    field_simp

theorem burkert_deriv (ha : 0 < a) (hR : 0 < R) (hz : 0 ≤ z) :
    HasDerivAt (burkertS a R) (2 * (Burkert.pot a).dens R z 0 0) z := by
  obtain ⟨r, hr, e, er, d⟩ := root hR z
  have hra : r + a ≠ 0 := by positivity
  have hz2 : z ^ 2 = r ^ 2 - R ^ 2 := by linarith
  have hpp : 0 < R ^ 2 + a ^ 2 := by positivity
  obtain ⟨p, hp, ep, epp⟩ : ∃ p, 0 < p ∧ √(R ^ 2 + a ^ 2) = p ∧ p ^ 2 = R ^ 2 + a ^ 2 :=
    ⟨_, sqrt_pos.2 hpp, rfl, sq_sqrt hpp.le⟩
  obtain ⟨g1, g2⟩ := gap ha hR hr hp er epp
  have hρ : (Burkert.pot a).dens R z 0 0 = a ^ 3 / ((r + a) * (r ^ 2 + a ^ 2)) := by
    simp only [Burkert.pot, Spherical.pot, Spherical.dens, Burkert.radial, Burkert.rdens, e]
    field_simp
    ring
  have d1 : HasDerivAt (fun z => if R = a then -z / (a * (√(R ^ 2 + z ^ 2) + a)) else (R ^ 2 - a ^ 2) * J a R z)
      (-1 / (r * (r + a))) z := by
    by_cases h : R = a
    · subst h
      simp only [if_true]
      refine HasDerivAt.congr_deriv (by hasderiv; rw [e]; positivity) ?_
      simp only [e]
      field_simp
      linear_combination hz2
    · have hd := sq_ne ha hR h
      have hJ := J_deriv ha hR h hz
      simp only [if_neg h]
      refine (hJ.const_mul _).congr_deriv ?_
      rw [e, show a ^ 2 - R ^ 2 = -(R ^ 2 - a ^ 2) by ring]
      field_simp
  have d2 : HasDerivAt (fun z => (log (√(R ^ 2 + z ^ 2) * p + a * z) - log (√(R ^ 2 + z ^ 2) * p - a * z)) / (2 * p))
      (a / (r * (r ^ 2 + a ^ 2))) z := by
    refine HasDerivAt.congr_deriv (by hasderiv <;> (rw [e]; positivity)) ?_
    simp only [e]
    have hq : (r * p + a * z) * (r * p - a * z) = R ^ 2 * (r ^ 2 + a ^ 2) := by
      linear_combination r ^ 2 * epp + a ^ 2 * er
    rw [div_sub_div _ _ g1.ne' g2.ne', hq]
    field_simp
    linear_combination 2 * p * a * er
  have d3 := at_deriv hp z
  have hf : burkertS a R = fun z => a ^ 2 * ((if R = a then -z / (a * (√(R ^ 2 + z ^ 2) + a)) else (R ^ 2 - a ^ 2) * J a R z)
      + (log (√(R ^ 2 + z ^ 2) * p + a * z) - log (√(R ^ 2 + z ^ 2) * p - a * z)) / (2 * p)
      + arctan (z / p) / p) := by
    funext z; simp only [burkertS, ep]
  rw [hf, hρ]
  refine (((d1.fun_add d2).fun_add d3).const_mul (a ^ 2)).congr_deriv ?_
  rw [show p ^ 2 + z ^ 2 = r ^ 2 + a ^ 2 by linarith]
  field_simp
  ring

end Verif.Surf
