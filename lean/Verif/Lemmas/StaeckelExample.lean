import Verif.Lemmas.StaeckelAngles
import Verif.Util.Deriv
import Mathlib.Analysis.SpecialFunctions.Arsinh
import Mathlib.Analysis.Complex.ExponentialBounds

set_option autoImplicit false

/-!
# A bound orbit in a Staeckel potential

The harmonic potential is a Staeckel potential for every focal distance; this is the ellipse through `(1/2, 0)` and `(0, 2)` in the
projection on the plane.
-/

noncomputable section
namespace Verif
open Real Set
open IsochroneAA (Point)
open C78Spec (SR SZ uOf vOf pu pv en third)

namespace C78aux.Ex

def pot (R z : ℝ) : ℝ := (R ^ 2 + z ^ 2) / 2
def FR (R _z : ℝ) : ℝ := -R
def FZ (_R z : ℝ) : ℝ := -z
def U (u : ℝ) : ℝ := (sinh u ^ 4 + sinh u ^ 2) / 2
def V (v : ℝ) : ℝ := -(sin v ^ 2 - sin v ^ 4) / 2
def Q (t : ℝ) : ℝ := (cos t / 2) ^ 2 + (2 * sin t) ^ 2
def p (t : ℝ) : Point where
  R := √(Q t)
  vR := 15 / 4 * sin t * cos t / √(Q t)
  vT := 1 / √(Q t)
  z := √(3 / 2) * cos t
  vz := -(√(3 / 2) * sin t)
  phi := ∫ s in (0 : ℝ)..t, 1 / Q s

theorem Q_pos (t : ℝ) : 0 < Q t := by
  have h := sin_sq_add_cos_sq t
  unfold Q
  nlinarith [sq_nonneg (sin t), sq_nonneg (cos t)]

theorem staeckel : C78Spec.Staeckel pot FR FZ 1 U V := by
  refine ⟨⟨fun R z _ => ?_, ?_, ?_⟩, one_pos, fun R z => ?_, fun u v _ _ _ => ?_⟩
  · have e1 : HasFDerivAt (fun q : ℝ × ℝ => q.1) (ContinuousLinearMap.fst ℝ ℝ ℝ) (R, z) := hasFDerivAt_fst
    have e2 : HasFDerivAt (fun q : ℝ × ℝ => q.2) (ContinuousLinearMap.snd ℝ ℝ ℝ) (R, z) := hasFDerivAt_snd
    have h := ((e1.pow 2).add (e2.pow 2)).mul_const (1 / 2)
    have h' : HasFDerivAt (fun q : ℝ × ℝ => pot q.1 q.2) _ (R, z) :=
      h.congr_of_eventuallyEq (Filter.Eventually.of_forall fun q => by simp [pot]; ring)
    refine h'.congr_fderiv ?_
    ext <;> simp [FR, FZ]
  · unfold FR; fun_prop
  · unfold FZ; fun_prop
  · unfold pot; ring
  · have hA := cosh_sq u
    have hs : cos v ^ 2 = 1 - sin v ^ 2 := by linarith [sin_sq_add_cos_sq v]
    unfold pot U V
    rw [mul_pow, mul_pow, mul_pow, mul_pow, hA, hs]
    ring

theorem hasQ (t : ℝ) : HasDerivAt Q (2 * (15 / 4 * sin t * cos t)) t := by
  have h : HasDerivAt Q _ t := (((hasDerivAt_cos t).div_const 2).pow 2).add (((hasDerivAt_sin t).const_mul 2).pow 2)
  refine h.congr_deriv ?_
  norm_num
  ring

theorem hasR (t : ℝ) : HasDerivAt (fun s => √(Q s)) (15 / 4 * sin t * cos t / √(Q t)) t := by
  refine ((hasQ t).sqrt (Q_pos t).ne').congr_deriv ?_
  have := (sqrt_pos.2 (Q_pos t)).ne'
  field_simp

theorem motion : C78Spec.Motion FR FZ p := by
  have hp : ∀ t, 0 < √(Q t) := fun t => sqrt_pos.2 (Q_pos t)
  have he : ∀ t, √(Q t) ^ 2 = Q t := fun t => sq_sqrt (Q_pos t).le
  refine ⟨hp, hasR, fun t => ?_, fun t => ?_, fun t => ?_, fun t => ?_, fun t => ?_⟩
  · refine ((hasDerivAt_cos t).const_mul √(3 / 2)).congr_deriv ?_
    simp [p]
  · have hc : Continuous fun s => 1 / Q s := by
      refine Continuous.div continuous_const ?_ fun s => (Q_pos s).ne'
      exact continuous_iff_continuousAt.2 fun s => (hasQ s).continuousAt
    refine (hc.integral_hasStrictDerivAt 0 t).hasDerivAt.congr_deriv ?_
    show 1 / Q t = 1 / √(Q t) / √(Q t)
    rw [div_div, ← pow_two, he]
  · have hn : HasDerivAt (fun s => 15 / 4 * sin s * cos s) (15 / 4 * (cos t ^ 2 - sin t ^ 2)) t := by
      refine (((hasDerivAt_sin t).const_mul (15 / 4)).mul (hasDerivAt_cos t)).congr_deriv ?_
      ring
    refine (hn.div (hasR t) (hp t).ne').congr_deriv ?_
    show _ = (1 / √(Q t)) ^ 2 / √(Q t) + -√(Q t)
    have h1 := he t
    have h2 := (hp t).ne'
    have h3 := sin_sq_add_cos_sq t
    have h4 : Q t = cos t ^ 2 / 4 + 4 * sin t ^ 2 := by unfold Q; ring
    rw [h4] at h1 h2 ⊢
    generalize √(cos t ^ 2 / 4 + 4 * sin t ^ 2) = r at *
    generalize cos t = C at *
    generalize sin t = S at *
    field_simp
    have h5 : r ^ 4 = (C ^ 2 / 4 + 4 * S ^ 2) ^ 2 := by rw [← h1]; ring
    have h6 : (1 : ℝ) = (S ^ 2 + C ^ 2) ^ 2 := by rw [h3]; norm_num
    rw [h1]
    first
      | linear_combination (-16) * h5 - 16 * h6
      | linear_combination (16) * h5 - 16 * h6
      | grind
  · refine ((hasDerivAt_const t (1 : ℝ)).div (hasR t) (hp t).ne').congr_deriv ?_
    show _ = -(15 / 4 * sin t * cos t / √(Q t) * (1 / √(Q t)) / √(Q t))
    have h2 := (hp t).ne'
    field_simp
    ring
  · refine ((hasDerivAt_sin t).const_mul √(3 / 2)).neg.congr_deriv ?_
    simp [p, FZ]

/-! ### The turning points -/

def a : ℝ := arsinh 1
def b : ℝ := arsinh 2
def c : ℝ := π / 6

theorem a_ge : 1 / 2 ≤ a := by
  have h : log 2 ≤ arsinh 1 := by
    unfold arsinh
    apply log_le_log two_pos
    have : (1 : ℝ) ≤ √(1 + 1 ^ 2) := one_le_sqrt.2 (by norm_num)
    linarith
  have := log_two_gt_d9
  unfold a
  linarith

theorem ba_ge : 2 / 5 ≤ b - a := by
  have s2 : √(1 + (1 : ℝ) ^ 2) ≤ 1.42 := sqrt_le_iff.2 ⟨by norm_num, by norm_num⟩
  have s5 : 2.2 ≤ √(1 + (2 : ℝ) ^ 2) := le_sqrt_of_sq_le (by norm_num)
  have s0 := sqrt_nonneg (1 + (1 : ℝ) ^ 2)
  have h1 : log 4.2 ≤ b := log_le_log (by norm_num) (by linarith)
  have h2 : a ≤ log 2.42 := log_le_log (by linarith) (by linarith)
  have h3 : log 4.2 - log 2.42 = log (4.2 / 2.42) := (log_div (by norm_num) (by norm_num)).symm
  have h4 := one_sub_inv_le_log_of_pos (show (0 : ℝ) < 4.2 / 2.42 by norm_num)
  have h5 : (2 : ℝ) / 5 ≤ 1 - (4.2 / 2.42)⁻¹ := by norm_num
  linarith

theorem sinh_a : sinh a = 1 := sinh_arsinh 1
theorem sinh_b : sinh b = 2 := sinh_arsinh 2
theorem sin_c : sin c = 1 / 2 := sin_pi_div_six

theorem b_le : b ≤ 2 := by
  have h : b ≤ sinh b := self_le_sinh_iff.2 (by linarith [a_ge, ba_ge])
  rwa [sinh_b] at h

theorem at0 : uOf 1 (p 0) = a ∧ vOf 1 (p 0) = c := by
  have hR : (p 0).R = 1 / 2 := by
    show √(Q 0) = 1 / 2
    rw [show Q 0 = (1 / 2) ^ 2 by simp [Q]]
    exact sqrt_sq (by norm_num)
  have hz : (p 0).z = √(3 / 2) := by simp [p]
  have hA : cosh a = √2 := by
    rw [eq_comm, sqrt_eq_iff_mul_self_eq_of_pos (cosh_pos a), ← pow_two, cosh_sq, sinh_a]
    norm_num
  have hcos : cos c = √3 / 2 := cos_pi_div_six
  have h := C30_prolate_round_trip_uv a c 1 one_pos (by linarith [a_ge]) (by unfold c; positivity) (by unfold c; linarith [pi_pos])
  have e : √2 * (√3 / 2) = √(3 / 2) := by
    rw [eq_comm, sqrt_eq_iff_mul_self_eq_of_pos (by positivity)]
    have h2 := sq_sqrt (show (0 : ℝ) ≤ 2 by norm_num)
    have h3 := sq_sqrt (show (0 : ℝ) ≤ 3 by norm_num)
    rw [← pow_two, mul_pow, div_pow, h2, h3]
    norm_num
  simp only [Coords.uv_to_Rz, Bool.false_eq_true, if_false, sinh_a, sin_c, hA, hcos, one_mul, e] at h
  rw [← uOf_eq, ← vOf_eq, hR, hz, h.1]
  exact ⟨rfl, rfl⟩

theorem lz0 : (p 0).R * (p 0).vT = 1 := by
  show √(Q 0) * (1 / √(Q 0)) = 1
  have := (sqrt_pos.2 (Q_pos 0)).ne'
  field_simp

theorem en0 : en pot (p 0) = 23 / 8 := by
  have hQ : Q 0 = (1 / 2) ^ 2 := by simp [Q]
  have hs : √((1 / 2 : ℝ) ^ 2) = 1 / 2 := sqrt_sq (by norm_num)
  have h3 := sq_sqrt (show (0 : ℝ) ≤ 3 / 2 by norm_num)
  unfold en pot p
  simp only [hQ, hs, sin_zero, cos_zero, mul_one, mul_zero, h3]
  norm_num

theorem pu0 : pu 1 (p 0) = 0 := by simp [pu, p]
theorem pv0 : pv 1 (p 0) = 0 := by simp [pv, p]
theorem pupi : pu 1 (p π) = 0 := by simp [pu, p]
theorem pvpi : pv 1 (p π) = 0 := by simp [pv, p]
theorem z0 : 0 < (p 0).z := by simp [p]
theorem zpi : (p π).z < 0 := by simp [p]

theorem third0 : third pot U 1 (p 0) = 11 / 8 := by
  unfold third
  rw [lz0, en0, pu0, at0.1]
  unfold U
  rw [sinh_a]
  norm_num

theorem SR_form {u : ℝ} (hu : 0 < u) : SR U 1 (23 / 8) 1 (11 / 8) u =
    -(sinh u ^ 2 - 1) * (sinh u ^ 2 - 4) * (sinh u ^ 2 + 1 / 4) / (2 * sinh u ^ 2) := by
  have := (sinh_pos_iff.2 hu).ne'
  unfold SR U
  field_simp
  ring

theorem SZ_form {v : ℝ} (hv : 0 < v) (hv' : v < π) : SZ V 1 (23 / 8) 1 (11 / 8) v =
    (sin v ^ 2 + 1) * (sin v ^ 2 + 4) * (sin v ^ 2 - 1 / 4) / (2 * sin v ^ 2) := by
  have := (sin_pos_of_pos_of_lt_pi hv hv').ne'
  unfold SZ V
  field_simp
  ring

theorem SR_deriv {u : ℝ} (hu : 0 < u) : HasDerivAt (SR U 1 (23 / 8) 1 (11 / 8))
    (2 * sinh u * cosh u * (23 / 8 - sinh u ^ 2 - 1 / 2 + 1 / (2 * sinh u ^ 4))) u := by
  have h0 := (sinh_pos_iff.2 hu).ne'
  have hs := hasDerivAt_sinh u
  have h : HasDerivAt (fun u => 23 / 8 * sinh u ^ 2 - 11 / 8 - (sinh u ^ 4 + sinh u ^ 2) / 2 - 1 ^ 2 / (2 * 1 ^ 2 * sinh u ^ 2)) _ u :=
    ((((hs.pow 2).const_mul (23 / 8)).sub_const (11 / 8)).sub (((hs.pow 4).add (hs.pow 2)).div_const 2)).sub
    ((hasDerivAt_const u ((1 : ℝ) ^ 2)).div ((hs.pow 2).const_mul (2 * 1 ^ 2)) (by simpa using h0))
  refine h.congr_deriv ?_
  norm_num
  field_simp
  ring

theorem SZ_deriv {v : ℝ} (hv : 0 < v) (hv' : v < π) : HasDerivAt (SZ V 1 (23 / 8) 1 (11 / 8))
    (2 * sin v * cos v * (23 / 8 + sin v ^ 2 - 1 / 2 + 1 / (2 * sin v ^ 4))) v := by
  have h0 := (sin_pos_of_pos_of_lt_pi hv hv').ne'
  have hs := hasDerivAt_sin v
  have h : HasDerivAt (fun v => 23 / 8 * sin v ^ 2 + 11 / 8 + -(sin v ^ 2 - sin v ^ 4) / 2 - 1 ^ 2 / (2 * 1 ^ 2 * sin v ^ 2)) _ v :=
    ((((hs.pow 2).const_mul (23 / 8)).add_const (11 / 8)).add (((hs.pow 2).sub (hs.pow 4)).neg.div_const 2)).sub
    ((hasDerivAt_const v ((1 : ℝ) ^ 2)).div ((hs.pow 2).const_mul (2 * 1 ^ 2)) (by simpa using h0))
  refine h.congr_deriv ?_
  norm_num
  field_simp
  ring

theorem bound : C78Spec.Bound U V 1 (23 / 8) 1 (11 / 8) a b c := by
  have ha := a_ge
  have hba := ba_ge
  have hb := b_le
  have hpi := pi_gt_three
  have hc : 0 < c := by unfold c; positivity
  have hc' : c < π / 2 := by unfold c; linarith
  constructor
  · linarith [show (2 : ℝ) / 10 ^ 8 < 1 / 2 by norm_num]
  · linarith [show (1 : ℝ) / 10 ^ 8 < 2 / 5 by norm_num]
  · rw [le_div_iff₀ (by linarith)]
    linarith [show (1 : ℝ) / 10 ^ 6 * 2 < 2 / 5 by norm_num, mul_le_mul_of_nonneg_left hb (show (0 : ℝ) ≤ 1 / 10 ^ 6 by norm_num)]
  · linarith
  · rw [SR_form (by linarith), sinh_a]
    norm_num
  · rw [SR_form (by linarith), sinh_b]
    norm_num
  · intro u h1 h2
    have hu : 0 < u := by linarith
    have s1 : 1 < sinh u := sinh_a ▸ sinh_lt_sinh.2 h1
    have s2 : sinh u < 2 := sinh_b ▸ sinh_lt_sinh.2 h2
    rw [SR_form hu]
    have e1 : 0 < sinh u ^ 2 - 1 := by nlinarith
    have e2 : 0 < 4 - sinh u ^ 2 := by nlinarith
    have : -(sinh u ^ 2 - 1) * (sinh u ^ 2 - 4) = (sinh u ^ 2 - 1) * (4 - sinh u ^ 2) := by ring
    rw [this]
    positivity
  · intro u hu h
    have s0 := sinh_pos_iff.2 hu
    rw [SR_form hu]
    refine div_neg_of_neg_of_pos ?_ (by positivity)
    refine mul_neg_of_neg_of_pos ?_ (by positivity)
    rcases h with h | h
    · have s1 : sinh u < 1 := sinh_a ▸ sinh_lt_sinh.2 h
      have e1 : 0 < 1 - sinh u ^ 2 := by nlinarith
      have e2 : sinh u ^ 2 - 4 < 0 := by nlinarith
      have : -(sinh u ^ 2 - 1) = 1 - sinh u ^ 2 := by ring
      rw [this]
      exact mul_neg_of_pos_of_neg e1 e2
    · have s1 : 2 < sinh u := sinh_b ▸ sinh_lt_sinh.2 h
      have e1 : 0 < sinh u ^ 2 - 1 := by nlinarith
      have e2 : 0 < sinh u ^ 2 - 4 := by nlinarith
      nlinarith [mul_pos e1 e2]
  · rw [(SR_deriv (by linarith)).deriv, sinh_a]
    have := cosh_pos a
    norm_num
    exact this
  · rw [(SR_deriv (by linarith)).deriv, sinh_b]
    have := cosh_pos b
    norm_num
    nlinarith
  · unfold c; linarith [show (2 : ℝ) / 10 ^ 8 < 1 / 2 by norm_num]
  · have : (π / 2 - c) / π * 2 = 2 / 3 := by
      unfold c
      field_simp
      norm_num
    rw [this]
    norm_num
  · rw [SZ_form hc (by linarith), sin_c]
    norm_num
  · intro v h1 h2
    have s1 : 1 / 2 < sin v := by
      rw [← sin_c]
      rcases le_or_gt v (π / 2) with h | h
      · exact sin_lt_sin_of_lt_of_le_pi_div_two (by linarith) h h1
      · rw [← sin_pi_sub v]
        exact sin_lt_sin_of_lt_of_le_pi_div_two (by linarith) (by linarith) (by linarith)
    rw [SZ_form (by linarith) (by linarith)]
    have e1 : 0 < sin v ^ 2 - 1 / 4 := by nlinarith
    positivity
  · intro v h1 h2
    have s0 := sin_pos_of_pos_of_lt_pi h1 (by linarith)
    have s1 : sin v < 1 / 2 := sin_c ▸ sin_lt_sin_of_lt_of_le_pi_div_two (by linarith) (by linarith) h2
    rw [SZ_form h1 (by linarith)]
    refine div_neg_of_neg_of_pos (mul_neg_of_pos_of_neg (by positivity) ?_) (by positivity)
    nlinarith
  · rw [(SZ_deriv hc (by linarith)).deriv, sin_c]
    have := cos_pos_of_mem_Ioo ⟨by linarith, hc'⟩
    norm_num
    exact this

theorem orbit : C78Spec.Orbit pot FR FZ 1 U V a b c p := by
  refine ⟨staeckel, motion, ?_⟩
  rw [lz0, en0, third0]
  exact bound

end C78aux.Ex
end Verif
