import Verif.Model.Impulse
import Verif.Lemmas.Impulse
import Verif.Props.C46
import Mathlib.LinearAlgebra.Matrix.NonsingularInverse
import Verif.Model.Pot.Plummer

set_option autoImplicit false

/-!
# C81: velocity kicks in the impulse approximation
-/

noncomputable section
namespace Verif
open Real MeasureTheory Impulse Util
open Coords (mulVec3)

/-! ### Specification -/

namespace C81Spec
/-- Length of a vector. -/
def len (u : Fin 3 → ℝ) : ℝ := √(u 0 ^ 2 + u 1 ^ 2 + u 2 ^ 2)
/-- Vector product. -/
def crs (a b : Fin 3 → ℝ) : Fin 3 → ℝ := ![a 1 * b 2 - a 2 * b 1, a 2 * b 0 - a 0 * b 2, a 0 * b 1 - a 1 * b 0]
/-- The velocity gained by a star that feels a radial force `F r` from a body, `X t` being the position of the star relative to the
body: the integral of the acceleration over all times. -/
def kick (F : ℝ → ℝ) (X : ℝ → Fin 3 → ℝ) (i : Fin 3) : ℝ := ∫ t, F (len (X t)) * X t i / len (X t)
/-- The star starts at `x` with velocity `v`, the body at the impact parameter `b` from `x0`, in the direction perpendicular to
its velocity `w` and the stream's velocity `v0`; both move along straight lines. -/
def sep (v x : Fin 3 → ℝ) (b : ℝ) (w x0 v0 : Fin 3 → ℝ) (t : ℝ) (i : Fin 3) : ℝ :=
  (x i + v i * t) - (x0 i + b * (crs v0 w i / len (crs v0 w)) + w i * t)
/-- The star is the distance `y` along a straight stream. -/
def along (v : Fin 3 → ℝ) (y : ℝ) : Fin 3 → ℝ := fun i => y * (v i / len v)
/-- Force of a Plummer sphere. -/
def plummerF (GM rs r : ℝ) : ℝ := -GM * r / (r ^ 2 + rs ^ 2) ^ (3 / 2 : ℝ)
/-- Force of a Hernquist sphere. -/
def hernquistF (GM rs r : ℝ) : ℝ := -GM / (r + rs) ^ 2
/-- Distance of closest approach. -/
def closest (v x : Fin 3 → ℝ) (b : ℝ) (w x0 v0 : Fin 3 → ℝ) : ℝ := ⨅ t, len (sep v x b w x0 v0 t)
end C81Spec
open C81Spec

namespace C81aux

theorem len_sq (u : Fin 3 → ℝ) : len u ^ 2 = u 0 ^ 2 + u 1 ^ 2 + u 2 ^ 2 := sq_sqrt (by positivity)
theorem dot_self (u : Fin 3 → ℝ) : dot u u = len u ^ 2 := by rw [len_sq]; unfold dot; ring
theorem dot_pos {u : Fin 3 → ℝ} (h : u ≠ 0) : 0 < dot u u := by
  have := (C46aux.unit h).2
  unfold dot; nlinarith
theorem len_pos {u : Fin 3 → ℝ} (h : u ≠ 0) : 0 < len u := sqrt_pos.2 (C46aux.unit h).2
theorem mag_len (u : Fin 3 → ℝ) : mag u = len u := rfl
theorem cauchy (B W : Fin 3 → ℝ) : dot B W ^ 2 ≤ dot B B * dot W W := by
  unfold dot
  nlinarith [sq_nonneg (B 0 * W 1 - B 1 * W 0), sq_nonneg (B 0 * W 2 - B 2 * W 0), sq_nonneg (B 1 * W 2 - B 2 * W 1)]

/-- Squared distance of closest approach. -/
def d2 (B W : Fin 3 → ℝ) : ℝ := dot B B - dot B W ^ 2 / dot W W
theorem d2_nonneg {B W : Fin 3 → ℝ} (hW : W ≠ 0) : 0 ≤ d2 B W := by
  have := dot_pos hW
  unfold d2
  rw [sub_nonneg, div_le_iff₀ this]
  exact cauchy B W

/-- The kick along a straight line. -/
theorem kick_line {F g : ℝ → ℝ} {B W : Fin 3 → ℝ} (hW : W ≠ 0) (hg : ∀ r, 0 < r → F r / r = g (r ^ 2))
    (hi : Integrable fun u => g (u ^ 2 + d2 B W)) (hi' : Integrable fun u => g (u ^ 2 + d2 B W) * u) (i : Fin 3) :
    kick F (fun t i => B i - W i * t) i
      = (B i - dot B W * W i / dot W W) / √(dot W W) * ∫ u, g (u ^ 2 + d2 B W) := by
  have e : ∀ t, F (len fun i => B i - W i * t) * (B i - W i * t) / (len fun i => B i - W i * t)
      = g (dot W W * t ^ 2 + 2 * (-dot B W) * t + dot B B) * (B i + (-W i) * t) := by
    intro t
    have e1 : dot W W * t ^ 2 + 2 * (-dot B W) * t + dot B B = (len fun i => B i - W i * t) ^ 2 := by
      rw [len_sq]; unfold dot; ring
    rw [e1]
    have hl : 0 ≤ len fun i => B i - W i * t := sqrt_nonneg _
    rcases hl.eq_or_lt with h | h
    · have h2 : (len fun i => B i - W i * t) ^ 2 = 0 := by rw [← h]; simp
      rw [len_sq] at h2
      have h3 : B i - W i * t = 0 := by
        have a0 := sq_nonneg (B 0 - W 0 * t)
        have a1 := sq_nonneg (B 1 - W 1 * t)
        have a2 := sq_nonneg (B 2 - W 2 * t)
        have : (B i - W i * t) ^ 2 = 0 := by
          fin_cases i <;> simp only [Fin.zero_eta, Fin.mk_one, Fin.reduceFinMk] <;> linarith
        exact pow_eq_zero_iff (two_ne_zero) |>.1 this
      rw [h3, show B i + -W i * t = 0 by linarith]; simp
    · rw [← hg _ h]
      generalize len (fun i => B i - W i * t) = l at *
      field_simp
      ring
  unfold kick
  simp_rw [e]
  rw [line (h := g) (d2 := d2 B W) (dot_pos hW) (by unfold d2; ring) hi hi']
  ring

theorem plummer_integrable {B W : Fin 3 → ℝ} (hW : W ≠ 0) (GM : ℝ) {rs : ℝ} (hrs : rs ≠ 0) (i : Fin 3) :
    Integrable fun t => plummerF GM rs (len fun i => B i - W i * t) * (B i - W i * t) / (len fun i => B i - W i * t) := by
  have hn := d2_nonneg (B := B) hW
  have hD : 0 < d2 B W + rs ^ 2 := by positivity
  have e : ∀ t, plummerF GM rs (len fun i => B i - W i * t) * (B i - W i * t) / (len fun i => B i - W i * t)
      = (fun q => -GM * (q + rs ^ 2) ^ (-(3 / 2) : ℝ)) (dot W W * t ^ 2 + 2 * (-dot B W) * t + dot B B) * (B i + (-W i) * t) := by
    intro t
    have e1 : dot W W * t ^ 2 + 2 * (-dot B W) * t + dot B B = (len fun i => B i - W i * t) ^ 2 := by
      rw [len_sq]; unfold dot; ring
    simp only [e1, plummerF]
    have hl : 0 ≤ len fun i => B i - W i * t := sqrt_nonneg _
    have hz : (len fun i => B i - W i * t) = 0 → B i - W i * t = 0 := by
      intro h
      have h2 : (len fun i => B i - W i * t) ^ 2 = 0 := by rw [h]; simp
      rw [len_sq] at h2
      have a0 := sq_nonneg (B 0 - W 0 * t)
      have a1 := sq_nonneg (B 1 - W 1 * t)
      have a2 := sq_nonneg (B 2 - W 2 * t)
      have : (B i - W i * t) ^ 2 = 0 := by
        fin_cases i <;> simp only [Fin.zero_eta, Fin.mk_one, Fin.reduceFinMk] <;> linarith
      exact pow_eq_zero_iff (two_ne_zero) |>.1 this
    generalize (len fun i => B i - W i * t) = l at *
    have hp : 0 < l ^ 2 + rs ^ 2 := by positivity
    rw [rpow_neg hp.le]
    have := rpow_pos_of_pos hp (3 / 2)
    rcases hl.eq_or_lt with h | h
    · rw [hz h.symm, show B i + -W i * t = 0 by linarith [hz h.symm]]; simp
    · field_simp
      ring
  have ea : ∀ u : ℝ, u ^ 2 + d2 B W + rs ^ 2 = u ^ 2 + (d2 B W + rs ^ 2) := fun u => by ring
  simp_rw [e]
  refine line_integrable (h := fun q => -GM * (q + rs ^ 2) ^ (-(3 / 2) : ℝ)) (d2 := d2 B W) (dot_pos hW) (by unfold d2; ring) ?_ ?_ _ _
  · simp only [ea]
    exact (plummer_int hD).const_mul _
  · simp only [ea, mul_assoc]
    exact (plummer_int' hD).const_mul _

theorem plummer_line {B W : Fin 3 → ℝ} (hW : W ≠ 0) (GM : ℝ) {rs : ℝ} (hD : 0 < d2 B W + rs ^ 2) (i : Fin 3) :
    kick (plummerF GM rs) (fun t i => B i - W i * t) i
      = -2 * GM * (B i - dot B W * W i / dot W W) / (√(dot W W) * (d2 B W + rs ^ 2)) := by
  have hn := d2_nonneg (B := B) hW
  have hg : ∀ r, 0 < r → plummerF GM rs r / r = (fun q => -GM * (q + rs ^ 2) ^ (-(3 / 2) : ℝ)) (r ^ 2) := by
    intro r hr
    have : 0 < r ^ 2 + rs ^ 2 := by positivity
    simp only [plummerF]
    rw [rpow_neg this.le]
    have := rpow_pos_of_pos this (3 / 2)
    field_simp
  have ea : ∀ u : ℝ, u ^ 2 + d2 B W + rs ^ 2 = u ^ 2 + (d2 B W + rs ^ 2) := fun u => by ring
  rw [kick_line (g := fun q => -GM * (q + rs ^ 2) ^ (-(3 / 2) : ℝ)) hW hg]
  · simp only [ea]
    rw [integral_const_mul, plummer_integral hD]
    have := (sqrt_pos.2 (dot_pos hW)).ne'
    have := (dot_pos hW).ne'
    field_simp
  · simp only [ea]
    exact (plummer_int hD).const_mul _
  · simp only [ea, mul_assoc]
    exact (plummer_int' hD).const_mul _

/-- `HernquistX` in terms of an antiderivative. -/
theorem hernquistX_eq {B a : ℝ} (hB : 0 < B) (ha : 0 < a) (hab : B ≠ a) : ∃ A : ℝ → ℝ,
    (∀ T : ℝ, T ^ 2 < 1 → HasDerivAt A (1 / (1 - (a - B) / (a + B) * T ^ 2)) T) ∧ ContinuousAt A 1 ∧ (∀ T, A (-T) = -A T) ∧
      hernquistX (√(2 * B / (a + B))) = some (A 1) := by
  have hp : 0 < 2 * B / (a + B) := by positivity
  have hs := sqrt_pos.2 hp
  have e : √(2 * B / (a + B)) * √(2 * B / (a + B)) = 2 * B / (a + B) := mul_self_sqrt hp.le
  rcases lt_or_gt_of_ne hab with h | h
  · have hk : 0 < (a - B) / (a + B) := div_pos (by linarith) (by positivity)
    have hk1 : (a - B) / (a + B) < 1 := by rw [div_lt_one (by positivity)]; linarith
    obtain ⟨κ, hκ, hκ2⟩ : ∃ κ : ℝ, 0 < κ ∧ κ ^ 2 = (a - B) / (a + B) := ⟨_, sqrt_pos.2 hk, sq_sqrt hk.le⟩
    have hκ1 : κ < 1 := by nlinarith
    have hb : ∀ T : ℝ, T ^ 2 ≤ 1 → 0 < 1 + κ * T ∧ 0 < 1 - κ * T := by
      intro T hT
      have h1 : |T| ≤ 1 := abs_le_one_iff_mul_self_le_one.2 (by nlinarith)
      obtain ⟨h2, h3⟩ := abs_le.1 h1
      constructor <;> nlinarith
    have hd : ∀ T : ℝ, T ^ 2 ≤ 1 → HasDerivAt (fun T => (log (1 + κ * T) - log (1 - κ * T)) / (2 * κ))
        (1 / (1 - (a - B) / (a + B) * T ^ 2)) T := by
      intro T hT
      obtain ⟨h1, h2⟩ := hb T hT
      have d1 : HasDerivAt (fun T => 1 + κ * T) κ T := by simpa using ((hasDerivAt_id T).const_mul κ).const_add 1
      have d2 : HasDerivAt (fun T => 1 - κ * T) (-κ) T := by simpa using ((hasDerivAt_id T).const_mul κ).const_sub 1
      refine (((d1.log h1.ne').sub (d2.log h2.ne')).div_const (2 * κ)).congr_deriv ?_
      rw [← hκ2, show 1 - κ ^ 2 * T ^ 2 = (1 + κ * T) * (1 - κ * T) by ring]
      field_simp
      ring
    refine ⟨fun T => (log (1 + κ * T) - log (1 - κ * T)) / (2 * κ), fun T hT => hd T hT.le, (hd 1 (by norm_num)).continuousAt, ?_, ?_⟩
    · intro T
      simp only [mul_neg, sub_neg_eq_add, ← sub_eq_add_neg]
      ring
    · have hs1 : √(2 * B / (a + B)) < 1 := by
        rw [sqrt_lt' one_pos, div_lt_iff₀ (by positivity)]; linarith
      have e2 : 1 - √(2 * B / (a + B)) * √(2 * B / (a + B)) = κ ^ 2 := by
        rw [e, hκ2]; field_simp; ring
      unfold hernquistX
      rw [if_neg (not_lt.2 hs.le), if_neg hs.ne', if_pos hs1, e2, sqrt_sq hκ.le]
      congr 1
      simp only [mul_one]
      generalize √(2 * B / (a + B)) = s at *
      have e3 : (1 - κ) * (1 + κ) = s ^ 2 := by linear_combination e2
      have h3 : log (1 - κ) + log (1 + κ) = 2 * log s := by
        rw [← log_mul (by linarith) (by linarith), e3, log_pow]; norm_num
      rw [log_div (by linarith) hs.ne']
      rw [div_eq_div_iff hκ.ne' (by positivity)]
      linear_combination κ * h3
  · have hk : 0 < (B - a) / (a + B) := div_pos (by linarith) (by positivity)
    obtain ⟨κ, hκ, hκ2⟩ : ∃ κ : ℝ, 0 < κ ∧ κ ^ 2 = (B - a) / (a + B) := ⟨_, sqrt_pos.2 hk, sq_sqrt hk.le⟩
    have hd : ∀ T : ℝ, HasDerivAt (fun T => arctan (κ * T) / κ) (1 / (1 - (a - B) / (a + B) * T ^ 2)) T := by
      intro T
      have d1 : HasDerivAt (fun T => κ * T) κ T := by simpa using (hasDerivAt_id T).const_mul κ
      refine (d1.arctan.div_const κ).congr_deriv ?_
      rw [show (a - B) / (a + B) = -κ ^ 2 by rw [hκ2]; ring, show 1 - -κ ^ 2 * T ^ 2 = 1 + (κ * T) ^ 2 by ring]
      have : 0 < 1 + (κ * T) ^ 2 := by positivity
      field_simp
    refine ⟨fun T => arctan (κ * T) / κ, fun T _ => hd T, (hd 1).continuousAt, ?_, ?_⟩
    · intro T
      simp only [mul_neg, arctan_neg, neg_div]
    · have hs1 : 1 < √(2 * B / (a + B)) := by
        rw [lt_sqrt one_pos.le, lt_div_iff₀ (by positivity)]; linarith
      have e2 : √(2 * B / (a + B)) * √(2 * B / (a + B)) - 1 = κ ^ 2 := by
        rw [e, hκ2]; field_simp; ring
      unfold hernquistX
      rw [if_neg (not_lt.2 hs.le), if_neg hs.ne', if_neg (not_lt.2 hs1.le), if_neg hs1.ne', e2, sqrt_sq hκ.le]
      congr 1
      simp only [mul_one]
      rw [arctan_eq_arccos hκ.le, show 1 + κ ^ 2 = √(2 * B / (a + B)) * √(2 * B / (a + B)) by linarith,
        sqrt_mul_self hs.le, one_div]

theorem hernquist_line {B W : Fin 3 → ℝ} (hW : W ≠ 0) (GM : ℝ) {rs : ℝ} (hrs : 0 < rs) (hD : 0 < d2 B W) (hne : √(d2 B W) ≠ rs) :
    ∃ X, xfac (√(d2 B W)) rs = some X ∧ ∀ i, kick (hernquistF GM rs) (fun t i => B i - W i * t) i
      = -2 * GM * (B i - dot B W * W i / dot W W) * X / (√(dot W W) * (d2 B W - rs ^ 2)) := by
  have hb := sqrt_pos.2 hD
  have e := sq_sqrt hD.le
  obtain ⟨A, h1, h2, h3, h4⟩ := hernquistX_eq hb hrs hne
  refine ⟨1 - 2 * rs / (rs + √(d2 B W)) * A 1, by unfold xfac; rw [h4]; rfl, fun i => ?_⟩
  have hg : ∀ r, 0 < r → hernquistF GM rs r / r = (fun q => -GM * (1 / (√q * (√q + rs) ^ 2))) (r ^ 2) := by
    intro r hr
    simp only [hernquistF, sqrt_sq hr.le]
    field_simp
  rw [kick_line (g := fun q => -GM * (1 / (√q * (√q + rs) ^ 2))) hW hg]
  · rw [integral_const_mul]
    have hi := hern_integral hb hrs hne h1 h2 h3
    rw [e] at hi
    rw [hi]
    have := (sqrt_pos.2 (dot_pos hW)).ne'
    have hne : d2 B W - rs ^ 2 ≠ 0 := by
      rw [← e, show √(d2 B W) ^ 2 - rs ^ 2 = (√(d2 B W) - rs) * (√(d2 B W) + rs) by ring]
      exact mul_ne_zero (sub_ne_zero.2 hne) (by positivity)
    generalize 1 - 2 * rs / (rs + √(d2 B W)) * A 1 = X
    generalize B i - dot B W * W i / dot W W = k
    field_simp
  · have := hern_int hb hrs
    rw [e] at this
    exact this.const_mul _
  · have := hern_int' hb hrs
    rw [e] at this
    simp only [mul_assoc]
    exact this.const_mul _

/-- Linear separation of the specification. -/
theorem crs_swap (a b : Fin 3 → ℝ) (i : Fin 3) : crs a b i = -cross b a i := by
  fin_cases i <;> simp [crs, cross] <;> ring
theorem len_swap (a b : Fin 3 → ℝ) : len (crs a b) = mag (cross b a) := by
  unfold len mag
  simp only [crs_swap a b, neg_sq]
theorem sep_eq (v x : Fin 3 → ℝ) (b : ℝ) (w x0 v0 : Fin 3 → ℝ) :
    sep v x b w x0 v0 = fun t i => bvec x b w x0 v0 i - (w i - v i) * t := by
  funext t i
  unfold sep bvec b0
  rw [len_swap, crs_swap]
  ring

theorem closest_eq {v w : Fin 3 → ℝ} {x : Fin 3 → ℝ} {b : ℝ} {x0 v0 : Fin 3 → ℝ} (hvw : w ≠ v) :
    closest v x b w x0 v0 = √(d2 (bvec x b w x0 v0) (fun i => w i - v i)) := by
  have hW : (fun i => w i - v i) ≠ 0 := fun h => hvw (funext fun i => sub_eq_zero.1 (congrFun h i))
  have hp := dot_pos hW
  unfold closest
  rw [sep_eq]
  have e : ∀ t, len (fun i => bvec x b w x0 v0 i - (w i - v i) * t) = √(dot (fun i => w i - v i) (fun i => w i - v i) *
      (t - dot (bvec x b w x0 v0) (fun i => w i - v i) / dot (fun i => w i - v i) (fun i => w i - v i)) ^ 2
      + d2 (bvec x b w x0 v0) (fun i => w i - v i)) := by
    intro t
    unfold len d2
    congr 1
    have hp' := hp.ne'
    have : ∀ p k q : ℝ, p ≠ 0 → p * (t - k / p) ^ 2 + (q - k ^ 2 / p) = p * t ^ 2 - 2 * k * t + q := by
      intro p k q h; field_simp; ring
    rw [this _ _ _ hp']
    unfold dot
    ring
  simp_rw [e]
  refine le_antisymm ?_ (le_ciInf fun t => sqrt_le_sqrt (by nlinarith [mul_nonneg hp.le (sq_nonneg (t - dot (bvec x b w x0 v0) (fun i => w i - v i) / dot (fun i => w i - v i) (fun i => w i - v i)))]))
  refine (ciInf_le ⟨0, ?_⟩ (dot (bvec x b w x0 v0) (fun i => w i - v i) / dot (fun i => w i - v i) (fun i => w i - v i))).trans ?_
  · rintro _ ⟨t, rfl⟩
    exact sqrt_nonneg _
  · simp
end C81aux
open C81aux

/-! ### Curved streams -/

/-- Plummer sphere: the formula is the integral of the acceleration, for all velocities, positions and impact parameters.
The direction of the impact parameter is defined if the velocities of the stream and the body are not parallel (the code divides by
zero otherwise). -/
theorem C81_plummer_curvedstream {v w : Fin 3 → ℝ} (x : Fin 3 → ℝ) (b : ℝ) (x0 v0 : Fin 3 → ℝ) (GM : ℝ) {rs : ℝ} (hvw : w ≠ v)
    (_hc : crs v0 w ≠ 0) (hrs : rs ≠ 0) (i : Fin 3) :
    plummerCurved v x b w x0 v0 GM rs i = kick (plummerF GM rs) (sep v x b w x0 v0) i := by
  have hW : (fun i => w i - v i) ≠ 0 := fun h => hvw (funext fun i => sub_eq_zero.1 (congrFun h i))
  have hD : 0 < d2 (bvec x b w x0 v0) (fun i => w i - v i) + rs ^ 2 := by
    have := d2_nonneg (B := bvec x b w x0 v0) hW
    positivity
  rw [sep_eq, plummer_line hW GM hD]
  have hm := len_pos hW
  simp only [plummerCurved, mag_len, dot_self (fun i => w i - v i), sqrt_sq hm.le]
  have e : d2 (bvec x b w x0 v0) (fun i => w i - v i) = dot (bvec x b w x0 v0) (bvec x b w x0 v0)
      - (dot (bvec x b w x0 v0) (fun i => w i - v i) / len (fun i => w i - v i)) ^ 2 := by
    unfold d2; rw [dot_self (fun i => w i - v i), div_pow]
  rw [e] at hD ⊢
  rw [show dot (bvec x b w x0 v0) (bvec x b w x0 v0) + rs ^ 2
      - (dot (bvec x b w x0 v0) (fun i => w i - v i) / len (fun i => w i - v i)) ^ 2
    = dot (bvec x b w x0 v0) (bvec x b w x0 v0)
      - (dot (bvec x b w x0 v0) (fun i => w i - v i) / len (fun i => w i - v i)) ^ 2 + rs ^ 2 by ring]
  have := hD.ne'
  generalize dot (bvec x b w x0 v0) (bvec x b w x0 v0)
      - (dot (bvec x b w x0 v0) (fun i => w i - v i) / len (fun i => w i - v i)) ^ 2 + rs ^ 2 = D at *
  generalize dot (bvec x b w x0 v0) (fun i => w i - v i) = k at *
  generalize len (fun i => w i - v i) = m at *
  field_simp

/-- The kick is perpendicular to the relative velocity: to first order the encounter changes the kinetic energy in the frame of the
body by nothing. -/
theorem C81_plummer_perpendicular {v w : Fin 3 → ℝ} (x : Fin 3 → ℝ) (b : ℝ) (x0 v0 : Fin 3 → ℝ) (GM rs : ℝ) (hvw : w ≠ v) :
    ∑ i, plummerCurved v x b w x0 v0 GM rs i * (w i - v i) = 0 := by
  have hW : (fun i => w i - v i) ≠ 0 := fun h => hvw (funext fun i => sub_eq_zero.1 (congrFun h i))
  have hm := len_pos hW
  have e := len_sq (fun i => w i - v i)
  rw [Fin.sum_univ_three]
  simp only [plummerCurved, mag_len]
  generalize 1 / (len (fun i => w i - v i) * (dot (bvec x b w x0 v0) (bvec x b w x0 v0) + rs ^ 2
    - (dot (bvec x b w x0 v0) (fun i => w i - v i) / len fun i => w i - v i) ^ 2)) = D
  have hk : dot (bvec x b w x0 v0) (fun i => w i - v i) = bvec x b w x0 v0 0 * (w 0 - v 0) + bvec x b w x0 v0 1 * (w 1 - v 1)
    + bvec x b w x0 v0 2 * (w 2 - v 2) := rfl
  generalize dot (bvec x b w x0 v0) (fun i => w i - v i) = k at *
  generalize len (fun i => w i - v i) = m at *
  field_simp
  linear_combination (-2 * GM * D) * (m ^ 2 * (-hk) + k * e)

/-- Hernquist sphere: the formula is the integral of the acceleration, unless the distance of closest approach is zero or the scale
radius. -/
theorem C81_hernquist_curvedstream_partial {v w : Fin 3 → ℝ} (x : Fin 3 → ℝ) (b : ℝ) (x0 v0 : Fin 3 → ℝ) (GM : ℝ) {rs : ℝ} (hvw : w ≠ v)
    (_hc : crs v0 w ≠ 0) (hrs : 0 < rs) (h0 : closest v x b w x0 v0 ≠ 0) (h1 : closest v x b w x0 v0 ≠ rs) :
    ∃ k, hernquistCurved v x b w x0 v0 GM rs = some k ∧ ∀ i, k i = kick (hernquistF GM rs) (sep v x b w x0 v0) i := by
  have hW : (fun i => w i - v i) ≠ 0 := fun h => hvw (funext fun i => sub_eq_zero.1 (congrFun h i))
  have hn := d2_nonneg (B := bvec x b w x0 v0) hW
  rw [closest_eq hvw] at h0 h1
  have hm := len_pos hW
  have hD : 0 < d2 (bvec x b w x0 v0) (fun i => w i - v i) := lt_of_le_of_ne hn fun h => h0 (by rw [← h, sqrt_zero])
  obtain ⟨X, hX, hk⟩ := hernquist_line hW GM hrs hD h1
  have e : d2 (bvec x b w x0 v0) (fun i => w i - v i) = dot (bvec x b w x0 v0) (bvec x b w x0 v0)
      - (dot (bvec x b w x0 v0) (fun i => w i - v i) / len (fun i => w i - v i)) ^ 2 := by
    unfold d2; rw [dot_self (fun i => w i - v i), div_pow]
  have hne : d2 (bvec x b w x0 v0) (fun i => w i - v i) - rs ^ 2 ≠ 0 := by
    intro h
    apply h1
    rw [sub_eq_zero.1 h, sqrt_sq hrs.le]
  refine ⟨fun i => -2 * GM * ((bvec x b w x0 v0 i - dot (bvec x b w x0 v0) (fun i => w i - v i) / len (fun i => w i - v i)
    * (w i - v i) / len (fun i => w i - v i)) * X * (1 / (len (fun i => w i - v i)
      * (d2 (bvec x b w x0 v0) (fun i => w i - v i) - rs ^ 2)))), ?_, fun i => ?_⟩
  · simp only [hernquistCurved, mag_len, ← e, sq_sqrt hD.le]
    rw [if_neg (mul_ne_zero hm.ne' hne), hX]
    rfl
  · rw [sep_eq, hk, dot_self (fun i => w i - v i), sqrt_sq hm.le]
    generalize d2 (bvec x b w x0 v0) (fun i => w i - v i) - rs ^ 2 = D at *
    generalize dot (bvec x b w x0 v0) (fun i => w i - v i) = k at *
    generalize len (fun i => w i - v i) = m at *
    field_simp

/-! ### Straight streams -/

namespace C81aux
/-- The directions of the stream for which the code builds a rotation: not within `1e-10` of the axis, or along it. -/
def Regular (v : Fin 3 → ℝ) : Prop :=
  (10 ^ (-10 : ℤ) ≤ 1 - v 1 / len v ∧ 10 ^ (-10 : ℤ) ≤ 1 + v 1 / len v) ∨ (v 0 = 0 ∧ v 2 = 0 ∧ 0 < v 1)

theorem cosine_eq (v : Fin 3 → ℝ) : C46aux.cosine v ![0, 1, 0] = v 1 / len v := by
  simp [C46aux.cosine, Spec.sq, len]

theorem rot_facts {v : Fin 3 → ℝ} (hv : v ≠ 0) (hr : Regular v) :
    rotationVy v false * (rotationVy v false).transpose = 1 ∧ (rotationVy v false).det = 1 ∧
      (∀ i, (rotationVy v false).mulVec v i = len v * ![0, 1, 0] i) ∧ rotationVy v false * rotationVy v true = 1 := by
  rcases hr with ⟨h1, h2⟩ | ⟨h0, h2, h1⟩
  · have := C46_rotation v ![0, 1, 0] hv (by simp [Spec.sq]) (by rw [cosine_eq]; exact h1) (by rw [cosine_eq]; exact h2)
    exact ⟨this.1, this.2.1, this.2.2.1, this.2.2.2.2⟩
  · have hl : len v = v 1 := by
      unfold len; rw [h0, h2]; simp only [ne_eq, OfNat.ofNat_ne_zero, not_false_eq_true, zero_pow, zero_add, add_zero, sqrt_sq h1.le]
    have hp : ∀ inv, rotationVy v inv = 1 := fun inv =>
      (C46_parallel v ![0, 1, 0] inv hv (by simp [Spec.sq]) (by rw [cosine_eq, hl, div_self h1.ne']; norm_num)).1
    rw [hp, hp, hl]
    refine ⟨by simp, by simp, fun i => ?_, by simp⟩
    rw [Matrix.one_mulVec]
    fin_cases i <;> simp [h0, h2]

theorem rot_dot {T : Matrix (Fin 3) (Fin 3) ℝ} (h : T * T.transpose = 1) (u w : Fin 3 → ℝ) :
    dot (T.mulVec u) (T.mulVec w) = dot u w := by
  have h' : T.transpose * T = 1 := mul_eq_one_comm.1 h
  have c : ∀ i j, T 0 i * T 0 j + T 1 i * T 1 j + T 2 i * T 2 j = if i = j then 1 else 0 := fun i j => by
    have := congrFun (congrFun h' i) j
    simpa [Matrix.mul_apply, Fin.sum_univ_three, Matrix.one_apply] using this
  have c00 := c 0 0; have c01 := c 0 1; have c02 := c 0 2
  have c11 := c 1 1; have c12 := c 1 2; have c22 := c 2 2
  simp at c00 c01 c02 c11 c12 c22
  simp only [dot, mulVec3]
  linear_combination u 0 * w 0 * c00 + u 1 * w 1 * c11 + u 2 * w 2 * c22 + (u 0 * w 1 + u 1 * w 0) * c01
    + (u 0 * w 2 + u 2 * w 0) * c02 + (u 1 * w 2 + u 2 * w 1) * c12

theorem rot_cross {T : Matrix (Fin 3) (Fin 3) ℝ} (h : T * T.transpose = 1) (hd : T.det = 1) (u w : Fin 3 → ℝ) (i : Fin 3) :
    T.mulVec (cross u w) i = cross (T.mulVec u) (T.mulVec w) i := by
  have ha : T.adjugate = T.transpose := by
    have h1 := Matrix.mul_adjugate T
    rw [hd, one_smul] at h1
    have h2 : T.transpose * T = 1 := mul_eq_one_comm.1 h
    calc T.adjugate = (T.transpose * T) * T.adjugate := by rw [h2, one_mul]
      _ = T.transpose := by rw [mul_assoc, h1, mul_one]
  rw [Matrix.adjugate_fin_three] at ha
  have c : ∀ i j, _ := fun i j => congrFun (congrFun ha i) j
  have c00 := c 0 0; have c01 := c 0 1; have c02 := c 0 2
  have c10 := c 1 0; have c11 := c 1 1; have c12 := c 1 2
  have c20 := c 2 0; have c21 := c 2 1; have c22 := c 2 2
  simp only [Matrix.of_apply, Matrix.transpose_apply, Matrix.cons_val_zero, Matrix.cons_val_one, Matrix.cons_val] at c00 c01 c02 c10 c11 c12 c20 c21 c22
  rw [mulVec3]
  fin_cases i <;> simp only [cross, mulVec3, Fin.zero_eta, Fin.mk_one, Fin.reduceFinMk, Matrix.cons_val_zero, Matrix.cons_val_one,
    Matrix.cons_val]
  · rw [← c00, ← c10, ← c20]; ring
  · rw [← c01, ← c11, ← c21]; ring
  · rw [← c02, ← c12, ← c22]; ring

/-- Back to the original frame. -/
theorem rot_back {T Ti : Matrix (Fin 3) (Fin 3) ℝ} (h : T * Ti = 1) (c k : ℝ) (B W : Fin 3 → ℝ) (i : Fin 3) :
    Ti.mulVec (fun j => c * (T.mulVec B j - k * T.mulVec W j)) i = c * (B i - k * W i) := by
  have h' : Ti * T = 1 := mul_eq_one_comm.1 h
  have e : (fun j => c * (T.mulVec B j - k * T.mulVec W j)) = T.mulVec (c • (B - k • W)) := by
    rw [Matrix.mulVec_smul, Matrix.mulVec_sub, Matrix.mulVec_smul]
    ext j; simp
  rw [e, Matrix.mulVec_mulVec, h', Matrix.one_mulVec]
  simp

section frame
variable {v : Fin 3 → ℝ} (hv : v ≠ 0) (hr : Regular v) (y b : ℝ) (w : Fin 3 → ℝ)
include hv hr

/-- Position of the star relative to the body at time zero. -/
abbrev BB (v : Fin 3 → ℝ) (y b : ℝ) (w : Fin 3 → ℝ) : Fin 3 → ℝ := bvec (along v y) b w 0 v
abbrev WW (v w : Fin 3 → ℝ) : Fin 3 → ℝ := fun i => w i - v i

theorem TW (i : Fin 3) : (rotationVy v false).mulVec (WW v w) i = tilew v w i - len v * ![0, 1, 0] i := by
  have : WW v w = w - v := rfl
  rw [this, Matrix.mulVec_sub, Pi.sub_apply, (rot_facts hv hr).2.2.1]
  rfl
theorem cross_len : mag (cross w v) = len v * wperp v w := by
  obtain ⟨h1, h2, h3, _⟩ := rot_facts hv hr
  have e : dot (cross w v) (cross w v) = (len v * wperp v w) ^ 2 := by
    rw [← rot_dot h1]
    simp only [dot, rot_cross h1 h2]
    simp only [cross, h3, Matrix.cons_val_zero, Matrix.cons_val_one, Matrix.cons_val]
    rw [mul_pow, wperp, sq_sqrt (by positivity)]
    simp only [tilew]
    ring
  have e2 : mag (cross w v) ^ 2 = (len v * wperp v w) ^ 2 := by rw [← e, dot_self]; rfl
  exact (sq_eq_sq₀ (sqrt_nonneg _) (mul_nonneg (sqrt_nonneg _) (sqrt_nonneg _))).1 e2

theorem TB (hw : 0 < wperp v w) : (rotationVy v false).mulVec (BB v y b w) =
    ![-(b * tilew v w 2 / wperp v w), y, b * tilew v w 0 / wperp v w] := by
  obtain ⟨h1, h2, h3, _⟩ := rot_facts hv hr
  have hl := len_pos hv
  have : BB v y b w = (b / mag (cross w v)) • cross w v + (y / len v) • v := by
    ext i
    simp only [bvec, b0, along, Pi.add_apply, Pi.smul_apply, smul_eq_mul, Pi.zero_apply]
    ring
  rw [this, Matrix.mulVec_add, Matrix.mulVec_smul, Matrix.mulVec_smul, cross_len hv hr]
  ext i
  simp only [Pi.add_apply, Pi.smul_apply, smul_eq_mul, h3, rot_cross h1 h2]
  fin_cases i <;> simp [cross, h3, tilew] <;> field_simp

theorem WW_sq : dot (WW v w) (WW v w) = wmag2 v w := by
  obtain ⟨h1, h2, h3, _⟩ := rot_facts hv hr
  rw [← rot_dot h1]
  simp only [dot, TW hv hr]
  unfold wmag2 wpar wperp
  rw [sq_sqrt (by positivity)]
  simp [mag_len]
  ring
theorem BW (hw : 0 < wperp v w) : dot (BB v y b w) (WW v w) = -y * wpar v w := by
  obtain ⟨h1, h2, h3, _⟩ := rot_facts hv hr
  rw [← rot_dot h1, TB hv hr y b w hw]
  simp only [dot, TW hv hr]
  unfold wpar
  simp [mag_len]
  field_simp
  ring
theorem BB_sq (hw : 0 < wperp v w) : dot (BB v y b w) (BB v y b w) = b ^ 2 + y ^ 2 := by
  obtain ⟨h1, h2, h3, _⟩ := rot_facts hv hr
  have e : wperp v w ^ 2 = tilew v w 0 ^ 2 + tilew v w 2 ^ 2 := sq_sqrt (by positivity)
  rw [← rot_dot h1, TB hv hr y b w hw]
  simp only [dot, Matrix.cons_val_zero, Matrix.cons_val_one, Matrix.cons_val]
  have : -(b * tilew v w 2 / wperp v w) * -(b * tilew v w 2 / wperp v w) + y * y
    + b * tilew v w 0 / wperp v w * (b * tilew v w 0 / wperp v w)
    = b ^ 2 * (tilew v w 0 ^ 2 + tilew v w 2 ^ 2) / wperp v w ^ 2 + y ^ 2 := by
      field_simp; ring
  rw [this, ← e]
  field_simp
theorem d2_eq (hw : 0 < wperp v w) : d2 (BB v y b w) (WW v w) = b ^ 2 + wperp v w ^ 2 * y ^ 2 / wmag2 v w := by
  have : 0 < wmag2 v w := by unfold wmag2; positivity
  unfold d2
  rw [BB_sq hv hr y b w hw, BW hv hr y b w hw, WW_sq hv hr w]
  have e : wmag2 v w = wpar v w ^ 2 + wperp v w ^ 2 := rfl
  rw [add_sub_assoc]
  congr 1
  rw [eq_div_iff this.ne', sub_mul, div_mul_cancel₀ _ this.ne', e]
  ring
theorem WW_ne (hw : 0 < wperp v w) : WW v w ≠ 0 := by
  intro h
  have := WW_sq hv hr w
  rw [h] at this
  have h2 : 0 < wmag2 v w := by unfold wmag2; positivity
  simp [dot] at this
  linarith
theorem wperp_eq : wperp v w = len (crs v w) / len v := by
  have hl := len_pos hv
  rw [len_swap, cross_len hv hr]
  field_simp
end frame
end C81aux

namespace C81aux
/-- The array `out` of the code, in general. -/
def outG (v : Fin 3 → ℝ) (y b : ℝ) (w : Fin 3 → ℝ) (rs : ℝ) : Fin 3 → ℝ :=
  let denom := wmag v w * ((b ^ 2 + rs ^ 2) * wmag2 v w + wperp v w ^ 2 * y ^ 2);
  ![(b * wmag2 v w * tilew v w 2 / wperp v w - y * wpar v w * tilew v w 0) / denom, -(wperp v w ^ 2) * y / denom,
    -(b * wmag2 v w * tilew v w 0 / wperp v w + y * wpar v w * tilew v w 2) / denom]

theorem straight {v w : Fin 3 → ℝ} (y b GM : ℝ) {rs : ℝ} (hv : v ≠ 0) (hr : Regular v) (hw0 : 0 < wperp v w) (hrs : rs ≠ 0)
    (i : Fin 3) : 2 * GM * (rotationVy v true).mulVec (outG v y b w rs) i = kick (plummerF GM rs) (sep v (along v y) b w 0 v) i := by
  have hm : 0 < wmag2 v w := by unfold wmag2; positivity
  have hs := sqrt_pos.2 hm
  have hW := WW_ne hv hr w hw0
  have hd := d2_eq hv hr y b w hw0
  have hD : 0 < d2 (BB v y b w) (WW v w) + rs ^ 2 := by rw [hd]; positivity
  rw [sep_eq, plummer_line hW GM hD, WW_sq hv hr, hd, BW hv hr y b w hw0]
  have hout : outG v y b w rs = fun j => (-1 / (√(wmag2 v w) * (b ^ 2 + wperp v w ^ 2 * y ^ 2 / wmag2 v w + rs ^ 2)))
      * ((rotationVy v false).mulVec (BB v y b w) j - (-y * wpar v w / wmag2 v w) * (rotationVy v false).mulVec (WW v w) j) := by
    have hq : wmag v w * ((b ^ 2 + rs ^ 2) * wmag2 v w + wperp v w ^ 2 * y ^ 2)
        = √(wmag2 v w) * wmag2 v w * (b ^ 2 + wperp v w ^ 2 * y ^ 2 / wmag2 v w + rs ^ 2) := by
      unfold wmag; field_simp; ring
    have hE : 0 < b ^ 2 + wperp v w ^ 2 * y ^ 2 / wmag2 v w + rs ^ 2 := by positivity
    unfold outG
    simp only [hq]
    ext j
    rw [TB hv hr y b w hw0]
    simp only [TW hv hr w]
    have e : wmag2 v w = wpar v w ^ 2 + wperp v w ^ 2 := rfl
    have ep : wpar v w = len v - tilew v w 1 := rfl
    generalize b ^ 2 + wperp v w ^ 2 * y ^ 2 / wmag2 v w + rs ^ 2 = E at *
    generalize √(wmag2 v w) = s at *
    fin_cases j
    · simp
      field_simp
      ring
    · simp
      rw [show tilew v w 1 - len v = -wpar v w by rw [ep]; ring]
      field_simp
      rw [e]; ring
    · simp
      field_simp
      ring
  rw [hout, rot_back (rot_facts hv hr).2.2.2]
  ring
end C81aux

/-- Plummer sphere, a straight stream: the formula is the integral of the acceleration, for all velocities of the body that are not
parallel to the stream (by more than the tolerance of the code) and all stream directions for which the rotation is one. -/
theorem C81_plummer_partial {v w : Fin 3 → ℝ} (y b GM : ℝ) {rs : ℝ} (hv : v ≠ 0) (hr : Regular v)
    (hw : 10 ^ (-10 : ℤ) ≤ len (crs v w) / len v) (hrs : rs ≠ 0) (i : Fin 3) :
    plummer false v y b w GM rs i = kick (plummerF GM rs) (sep v (along v y) b w 0 v) i := by
  rw [← wperp_eq hv hr w] at hw
  have hw0 : 0 < wperp v w := lt_of_lt_of_le (by positivity) hw
  rw [← straight y b GM hv hr hw0 hrs]
  unfold plummer plummerOut
  simp only
  rw [if_neg (by rw [abs_of_pos hw0]; exact not_lt.2 hw)]
  rfl

/-- Hernquist sphere, a straight stream. -/
theorem C81_hernquist_partial {v w : Fin 3 → ℝ} (y b GM : ℝ) {rs : ℝ} (hv : v ≠ 0) (hr : Regular v)
    (hw : 10 ^ (-10 : ℤ) ≤ len (crs v w) / len v) (hrs : 0 < rs) (h0 : closest v (along v y) b w 0 v ≠ 0)
    (h1 : closest v (along v y) b w 0 v ≠ rs) :
    ∃ k, hernquist false v y b w GM rs = some k ∧ ∀ i, k i = kick (hernquistF GM rs) (sep v (along v y) b w 0 v) i := by
  rw [← wperp_eq hv hr w] at hw
  have hw0 : 0 < wperp v w := lt_of_lt_of_le (by positivity) hw
  have hm : 0 < wmag2 v w := by unfold wmag2; positivity
  have hs := sqrt_pos.2 hm
  have hW := WW_ne hv hr w hw0
  have hvw : w ≠ v := fun h => hW (by funext i; simp [WW, h])
  have hd := d2_eq hv hr y b w hw0
  rw [closest_eq hvw] at h0 h1
  have hn := d2_nonneg (B := BB v y b w) hW
  have hD : 0 < d2 (BB v y b w) (WW v w) := lt_of_le_of_ne hn fun h => h0 (by rw [← h, sqrt_zero])
  obtain ⟨X, hX, hk⟩ := hernquist_line hW GM hrs hD h1
  have hB : √(d2 (BB v y b w) (WW v w)) = hernquistB v y b w := by rw [hd]; rfl
  have hB2 : hernquistB v y b w ^ 2 = d2 (BB v y b w) (WW v w) := by rw [← hB, sq_sqrt hn]
  have hne : d2 (BB v y b w) (WW v w) - rs ^ 2 ≠ 0 := by
    intro h
    apply h1
    rw [sub_eq_zero.1 h, sqrt_sq hrs.le]
  have hden : wmag v w * (hernquistB v y b w ^ 2 - rs ^ 2) ≠ 0 := by
    rw [hB2]; exact mul_ne_zero hs.ne' hne
  have hout : hernquistOut false v y b w rs = some fun j => (-X / (√(wmag2 v w) * (d2 (BB v y b w) (WW v w) - rs ^ 2)))
      * ((rotationVy v false).mulVec (BB v y b w) j - (-y * wpar v w / wmag2 v w) * (rotationVy v false).mulVec (WW v w) j) := by
    unfold hernquistOut
    simp only
    rw [if_neg hden, ← hB, hX, sq_sqrt hn]
    simp only [Option.map_some]
    rw [if_neg (by rw [abs_of_pos hw0]; exact not_lt.2 hw)]
    congr 1
    ext j
    rw [TB hv hr y b w hw0]
    simp only [TW hv hr w, wmag]
    have e : wmag2 v w = wpar v w ^ 2 + wperp v w ^ 2 := rfl
    have ep : wpar v w = len v - tilew v w 1 := rfl
    generalize d2 (BB v y b w) (WW v w) - rs ^ 2 = E at *
    generalize √(wmag2 v w) = s at *
    fin_cases j
    · simp [store]
      field_simp
      ring
    · simp [store]
      rw [show tilew v w 1 - len v = -wpar v w by rw [ep]; ring]
      field_simp
      rw [e]; ring
    · simp [store]
      field_simp
      ring
  refine ⟨_, by unfold hernquist; rw [hout]; rfl, fun i => ?_⟩
  simp only
  rw [rot_back (rot_facts hv hr).2.2.2, sep_eq, hk, WW_sq hv hr, BW hv hr y b w hw0]
  ring

/-! ### General perturbers -/

namespace C81aux
theorem int3 {f0 f1 f2 : ℝ → ℝ} (h0 : Integrable f0) (h1 : Integrable f1) (h2 : Integrable f2) {c0 c1 c2 : ℝ} :
    ∫ t, (c0 * f0 t + c1 * f1 t + c2 * f2 t) = c0 * (∫ t, f0 t) + c1 * (∫ t, f1 t) + c2 * ∫ t, f2 t := by
  have a := integral_add ((h0.const_mul c0).add (h1.const_mul c1)) (h2.const_mul c2)
  have b := integral_add (h0.const_mul c0) (h1.const_mul c1)
  simp only [Pi.add_apply] at a
  rw [a, b, integral_const_mul, integral_const_mul, integral_const_mul]
theorem ii3 {f0 f1 f2 : ℝ → ℝ} (h0 : Continuous f0) (h1 : Continuous f1) (h2 : Continuous f2) {c0 c1 c2 p q : ℝ} :
    ∫ t in p..q, (c0 * f0 t + c1 * f1 t + c2 * f2 t)
      = c0 * (∫ t in p..q, f0 t) + c1 * (∫ t in p..q, f1 t) + c2 * ∫ t in p..q, f2 t := by
  rw [intervalIntegral.integral_add (Continuous.intervalIntegrable (by fun_prop) _ _) (Continuous.intervalIntegrable (by fun_prop) _ _),
    intervalIntegral.integral_add (Continuous.intervalIntegrable (by fun_prop) _ _) (Continuous.intervalIntegrable (by fun_prop) _ _),
    intervalIntegral.integral_const_mul, intervalIntegral.integral_const_mul, intervalIntegral.integral_const_mul]
end C81aux

/-- Any radial force, curved stream: the integral over `(-1, 1)` is the integral of the acceleration over all times. -/
theorem C81_general_curvedstream (v x : Fin 3 → ℝ) (b : ℝ) (w x0 v0 : Fin 3 → ℝ) (F : ℝ → ℝ) (i : Fin 3) :
    generalCurved v x b w x0 v0 F i = kick F (sep v x b w x0 v0) i := by
  let f : ℝ → ℝ := fun t => F (len fun i => bvec x b w x0 v0 i + (w i - v i) * t) * (bvec x b w x0 v0 i + (w i - v i) * t)
        / (len fun i => bvec x b w x0 v0 i + (w i - v i) * t)
  have e : ∀ T, aIntegrand T 0 (bvec x b w x0 v0) (fun i => w i - v i) F i = (1 + T * T) / (1 - T * T) ^ 2
      * f (T / (1 - T * T)) := by
    intro T
    simp only [f, aIntegrand, zero_mul, add_zero, mag_len]
    ring
  unfold generalCurved deltavIntegrate
  refine (intervalIntegral.integral_congr fun T _ => e T).trans ((substitution f).trans ?_)
  rw [← integral_neg_eq_self, sep_eq]
  unfold kick
  simp only [f, mul_neg, ← sub_eq_add_neg]

/-- Any radial force, straight stream, with an acceleration that has an integral. -/
theorem C81_general_partial {v w : Fin 3 → ℝ} (y b : ℝ) {F : ℝ → ℝ} (hv : v ≠ 0) (hr : Regular v) (hw : crs v w ≠ 0)
    (hi : ∀ i, Integrable fun t => F (len (sep v (along v y) b w 0 v t)) * sep v (along v y) b w 0 v t i
      / len (sep v (along v y) b w 0 v t)) (i : Fin 3) :
    general v y b w F i = kick F (sep v (along v y) b w 0 v) i := by
  obtain ⟨h1, h2, h3, h4⟩ := rot_facts hv hr
  have hw0 : 0 < wperp v w := by
    rw [wperp_eq hv hr w]; exact div_pos (len_pos hw) (len_pos hv)
  have hd : ∀ j, deltavIntegrate y ![b * (-tilew v w 2 / wperp v w), b * 0, b * (tilew v w 0 / wperp v w)]
      ![tilew v w 0, tilew v w 1 - len v, tilew v w 2] F j
      = (rotationVy v false).mulVec (kick F (sep v (along v y) b w 0 v)) j := by
    intro j
    have hX : ∀ t : ℝ, (fun i : Fin 3 => ![b * (-tilew v w 2 / wperp v w), b * 0, b * (tilew v w 0 / wperp v w)] i
        + ![tilew v w 0, tilew v w 1 - len v, tilew v w 2] i * t + y * ![0, 1, 0] i)
        = (rotationVy v false).mulVec (sep v (along v y) b w 0 v (-t)) := by
      intro t
      have e1 : sep v (along v y) b w 0 v (-t) = BB v y b w + t • WW v w := by
        rw [sep_eq]; ext i; simp [WW]; ring
      rw [e1, Matrix.mulVec_add, Matrix.mulVec_smul, TB hv hr y b w hw0]
      ext i
      simp only [Pi.add_apply, Pi.smul_apply, smul_eq_mul, TW hv hr]
      fin_cases i <;> simp <;> ring
    have hl : ∀ u, len ((rotationVy v false).mulVec u) = len u := fun u => by
      have := rot_dot h1 u u
      rw [dot_self, dot_self] at this
      exact (sq_eq_sq₀ (sqrt_nonneg _) (sqrt_nonneg _)).1 this
    let f : ℝ → ℝ := fun t => F (len (sep v (along v y) b w 0 v (-t))) * (rotationVy v false).mulVec (sep v (along v y) b w 0 v (-t)) j
          / len (sep v (along v y) b w 0 v (-t))
    have e : ∀ T, aIntegrand T y ![b * (-tilew v w 2 / wperp v w), b * 0, b * (tilew v w 0 / wperp v w)]
        ![tilew v w 0, tilew v w 1 - len v, tilew v w 2] F j = (1 + T * T) / (1 - T * T) ^ 2
        * f (T / (1 - T * T)) := by
      intro T
      have hj := congrFun (hX (T / (1 - T * T))) j
      simp only [f, aIntegrand, mag_len, hX, hl]
      rw [hj]
      ring
    unfold deltavIntegrate
    refine (intervalIntegral.integral_congr fun T _ => e T).trans ((substitution f).trans ?_)
    rw [← integral_neg_eq_self]
    simp only [f, neg_neg]
    have e2 : ∀ t, F (len (sep v (along v y) b w 0 v t)) * (rotationVy v false).mulVec (sep v (along v y) b w 0 v t) j
        / len (sep v (along v y) b w 0 v t)
        = rotationVy v false j 0 * (F (len (sep v (along v y) b w 0 v t)) * sep v (along v y) b w 0 v t 0 / len (sep v (along v y) b w 0 v t))
        + rotationVy v false j 1 * (F (len (sep v (along v y) b w 0 v t)) * sep v (along v y) b w 0 v t 1 / len (sep v (along v y) b w 0 v t))
        + rotationVy v false j 2 * (F (len (sep v (along v y) b w 0 v t)) * sep v (along v y) b w 0 v t 2 / len (sep v (along v y) b w 0 v t)) := by
      intro t
      rw [mulVec3]
      ring
    simp_rw [e2]
    rw [int3 (hi 0) (hi 1) (hi 2), mulVec3]
    rfl
  have hg : general v y b w F i = (rotationVy v true).mulVec (deltavIntegrate y
      ![b * (-tilew v w 2 / wperp v w), b * 0, b * (tilew v w 0 / wperp v w)]
      ![tilew v w 0, tilew v w 1 - len v, tilew v w 2] F) i := rfl
  rw [hg, funext hd, Matrix.mulVec_mulVec, mul_eq_one_comm.1 h4, Matrix.one_mulVec]

/-- The general function with the force of `PlummerPotential(amp=GM, b=rs)` agrees with the closed form. -/
theorem C81_general_is_plummer {v w : Fin 3 → ℝ} (x : Fin 3 → ℝ) (b : ℝ) (x0 v0 : Fin 3 → ℝ) (GM : ℝ) {rs : ℝ} (hvw : w ≠ v)
    (hc : crs v0 w ≠ 0) (hrs : rs ≠ 0) (i : Fin 3) :
    generalCurved v x b w x0 v0 (fun r => GM * Plummer.Rforce rs r 0) i = plummerCurved v x b w x0 v0 GM rs i := by
  rw [C81_general_curvedstream, C81_plummer_curvedstream x b x0 v0 GM hvw hc hrs]
  congr 1
  funext r
  have h : 0 < r ^ 2 + rs ^ 2 := by positivity
  have e : r ^ 2 + 0 ^ 2 + rs ^ 2 = r ^ 2 + rs ^ 2 := by ring
  simp only [Plummer.Rforce, plummerF]
  rw [e, rpow_neg h.le]
  have := rpow_pos_of_pos h (3 / 2)
  field_simp

/-- A stream of Plummer spheres: the kick is the sum of the kicks of its elements, the element that arrives at the time `t` meeting
the star at `y - |v| t`. -/
theorem C81_plummerstream_partial {v w : Fin 3 → ℝ} (y b : ℝ) {GSigma : ℝ → ℝ} {rs : ℝ} (tmin tmax : ℝ) (hv : v ≠ 0) (hr : Regular v)
    (hw : crs v w ≠ 0) (hrs : rs ≠ 0) (hG : Continuous GSigma) (i : Fin 3) :
    plummerStream false v y b w GSigma rs tmin tmax i
      = ∫ t in tmin..tmax, GSigma t * kick (plummerF 1 rs) (sep v (along v (y - len v * t)) b w 0 v) i := by
  have hw0 : 0 < wperp v w := by
    rw [wperp_eq hv hr w]; exact div_pos (len_pos hw) (len_pos hv)
  have hm : 0 < wmag2 v w := by unfold wmag2; positivity
  have hs : 0 < wmag v w := sqrt_pos.2 hm
  have hq : ∀ t, 0 < (b ^ 2 + rs ^ 2) * wmag2 v w + wperp v w ^ 2 * (y - len v * t) ^ 2 := fun t => by positivity
  have hc : ∀ j, Continuous fun t => GSigma t * outG v (y - len v * t) b w rs j := by
    intro j
    refine hG.mul ?_
    have hq' : ∀ t, wmag v w * ((b ^ 2 + rs ^ 2) * wmag2 v w + wperp v w ^ 2 * (y - len v * t) ^ 2) ≠ 0 :=
      fun t => (mul_pos hs (hq t)).ne'
    fin_cases j <;> simp only [outG, Fin.zero_eta, Fin.mk_one, Fin.reduceFinMk, Matrix.cons_val_zero, Matrix.cons_val_one,
      Matrix.cons_val] <;> exact Continuous.div (by fun_prop) (by fun_prop) hq'
  have es : ∀ t, kick (plummerF 1 rs) (sep v (along v (y - len v * t)) b w 0 v) i = 2 * 1 * (rotationVy v true i 0
      * outG v (y - len v * t) b w rs 0 + rotationVy v true i 1 * outG v (y - len v * t) b w rs 1
      + rotationVy v true i 2 * outG v (y - len v * t) b w rs 2) := fun t => by
    rw [← straight _ b 1 hv hr hw0 hrs, mulVec3]
  have e : ∀ t, GSigma t * kick (plummerF 1 rs) (sep v (along v (y - len v * t)) b w 0 v) i
      = 2 * (rotationVy v true i 0 * (GSigma t * outG v (y - len v * t) b w rs 0)
      + rotationVy v true i 1 * (GSigma t * outG v (y - len v * t) b w rs 1)
      + rotationVy v true i 2 * (GSigma t * outG v (y - len v * t) b w rs 2)) := fun t => by rw [es]; ring
  rw [intervalIntegral.integral_congr fun t _ => e t]
  rw [intervalIntegral.integral_const_mul, ii3 (hc 0) (hc 1) (hc 2)]
  unfold plummerStream
  rw [mulVec3]
  simp only [store, Bool.false_eq_true, if_false, mag_len, Matrix.cons_val_zero, Matrix.cons_val_one, Matrix.cons_val]
  have a0 : ∀ t, 1 / wmag v w * (GSigma t * (b * wmag2 v w * tilew v w 2 / wperp v w - (y - len v * t) * wpar v w * tilew v w 0)
      / ((b ^ 2 + rs ^ 2) * wmag2 v w + wperp v w ^ 2 * (y - len v * t) ^ 2)) = GSigma t * outG v (y - len v * t) b w rs 0 := by
    intro t
    simp only [outG, Matrix.cons_val_zero]
    have := (hq t).ne'
    field_simp
  have a1 : ∀ t, -(wperp v w ^ 2) / wmag v w * (GSigma t * (y - len v * t)
      / ((b ^ 2 + rs ^ 2) * wmag2 v w + wperp v w ^ 2 * (y - len v * t) ^ 2)) = GSigma t * outG v (y - len v * t) b w rs 1 := by
    intro t
    simp only [outG, Matrix.cons_val_one]
    have := (hq t).ne'
    simp only [Matrix.cons_val_zero]
    field_simp
  have a2 : ∀ t, 1 / wmag v w * (-GSigma t * (b * wmag2 v w * tilew v w 0 / wperp v w + (y - len v * t) * wpar v w * tilew v w 2)
      / ((b ^ 2 + rs ^ 2) * wmag2 v w + wperp v w ^ 2 * (y - len v * t) ^ 2)) = GSigma t * outG v (y - len v * t) b w rs 2 := by
    intro t
    simp only [outG, Matrix.cons_val]
    have := (hq t).ne'
    field_simp
  rw [← intervalIntegral.integral_congr (fun t _ => a0 t), ← intervalIntegral.integral_congr (fun t _ => a1 t),
    ← intervalIntegral.integral_congr (fun t _ => a2 t), intervalIntegral.integral_const_mul, intervalIntegral.integral_const_mul,
    intervalIntegral.integral_const_mul]

/-! ### Counterexamples -/

/-- A body at rest, so that its velocity is parallel to the stream: the direction of the impact parameter is arbitrary, but whatever
it is the kick returned is the square root of two times too large. -/
theorem C81_plummer_parallel_fails {b GM rs : ℝ} (hb : 0 < b) (hGM : 0 < GM) (hrs : rs ≠ 0) {n : Fin 3 → ℝ} (hn : len n = 1) (hn1 : n 1 = 0) :
    let k : Fin 3 → ℝ := kick (plummerF GM rs) (fun t i => -(b * n i) - (0 - (![0, 1, 0] : Fin 3 → ℝ) i) * t);
    len (plummer false ![0, 1, 0] 0 b 0 GM rs) ^ 2 = 2 * len k ^ 2 ∧ 0 < len k ^ 2 := by
  intro k
  have hv : (![0, 1, 0] : Fin 3 → ℝ) ≠ 0 := fun h => by simpa using congrFun h 1
  have hr : Regular ![0, 1, 0] := Or.inr ⟨rfl, rfl, one_pos⟩
  have hl : len ![0, 1, 0] = 1 := by simp [len]
  have hp : ∀ inv, rotationVy ![0, 1, 0] inv = 1 := fun inv =>
    (C46_parallel _ ![0, 1, 0] inv hv (by simp [Spec.sq]) (by rw [cosine_eq, hl]; norm_num)).1
  have hn2 : n 0 ^ 2 + n 2 ^ 2 = 1 := by
    have := len_sq n
    rw [hn, hn1] at this
    linarith
  have hW : (fun i => 0 - (![0, 1, 0] : Fin 3 → ℝ) i) ≠ 0 := fun h => by simpa using congrFun h 1
  have hWW : dot (fun i => 0 - (![0, 1, 0] : Fin 3 → ℝ) i) (fun i => 0 - (![0, 1, 0] : Fin 3 → ℝ) i) = 1 := by simp [dot]
  have hBW : dot (fun i => -(b * n i)) (fun i => 0 - (![0, 1, 0] : Fin 3 → ℝ) i) = 0 := by simp [dot, hn1]
  have hd : d2 (fun i => -(b * n i)) (fun i => 0 - (![0, 1, 0] : Fin 3 → ℝ) i) = b ^ 2 := by
    unfold d2
    rw [hWW, hBW]
    simp only [dot, hn1]
    linear_combination b ^ 2 * hn2
  have hk : ∀ i, k i = 2 * GM * b * n i / (b ^ 2 + rs ^ 2) := by
    intro i
    have hD : 0 < b ^ 2 + rs ^ 2 := by positivity
    have := plummer_line (B := fun i => -(b * n i)) hW GM (rs := rs) (by rw [hd]; positivity) i
    rw [hd, hWW, hBW] at this
    simp only [k]
    rw [this]
    simp
    ring
  have hD : 0 < b ^ 2 + rs ^ 2 := by positivity
  have hkl : len k ^ 2 = (2 * GM * b / (b ^ 2 + rs ^ 2)) ^ 2 := by
    rw [len_sq, hk, hk, hk, hn1]
    linear_combination (2 * GM * b / (b ^ 2 + rs ^ 2)) ^ 2 * hn2
  refine ⟨?_, by rw [hkl]; positivity⟩
  have ht : tilew ![0, 1, 0] 0 = 0 := by unfold tilew; simp
  have hwp : wperp ![0, 1, 0] 0 = 0 := by unfold wperp; simp [ht]
  have hpar : wpar ![0, 1, 0] 0 = 1 := by unfold wpar; rw [mag_len, hl, ht]; simp
  have hm2 : wmag2 ![0, 1, 0] 0 = 1 := by unfold wmag2; rw [hwp, hpar]; norm_num
  have hm : wmag ![0, 1, 0] 0 = 1 := by unfold wmag; rw [hm2, sqrt_one]
  have hout : plummerOut false ![0, 1, 0] 0 b 0 rs = ![b / (b ^ 2 + rs ^ 2), 0, -b / (b ^ 2 + rs ^ 2)] := by
    unfold plummerOut
    simp only [hwp, hm2, hm, ht]
    rw [if_pos (by simp)]
    simp [store]
  rw [hkl, len_sq]
  unfold plummer
  rw [hp, Matrix.one_mulVec, hout]
  simp
  ring

/-- A stream that moves along the negative `y` axis: the reflection used for the rotation puts the body on the other side, and the
kick has the opposite sign. -/
theorem C81_plummer_antiparallel_fails {b GM rs : ℝ} (hb : 0 < b) (hGM : 0 < GM) (hrs : rs ≠ 0) :
    plummer false ![0, -1, 0] 0 b ![1, 0, 0] GM rs 2 = -kick (plummerF GM rs) (sep ![0, -1, 0] (along ![0, -1, 0] 0) b ![1, 0, 0] 0 ![0, -1, 0]) 2 ∧
      plummer false ![0, -1, 0] 0 b ![1, 0, 0] GM rs 2 ≠ 0 := by
  have hl : len ![0, -1, 0] = 1 := by simp [len]
  have hp : ∀ inv, rotationVy ![0, -1, 0] inv = -1 := fun inv =>
    (C46_antiparallel_fails _ ![0, 1, 0] inv (by rw [cosine_eq, hl]; norm_num)).1
  have ht : tilew ![0, -1, 0] ![1, 0, 0] = ![-1, 0, 0] := by
    unfold tilew; rw [hp, Matrix.neg_mulVec, Matrix.one_mulVec]; ext i; fin_cases i <;> simp
  have hwp : wperp ![0, -1, 0] ![1, 0, 0] = 1 := by unfold wperp; simp [ht]
  have hpar : wpar ![0, -1, 0] ![1, 0, 0] = 1 := by unfold wpar; rw [mag_len, hl, ht]; simp
  have hm2 : wmag2 ![0, -1, 0] ![1, 0, 0] = 2 := by unfold wmag2; rw [hwp, hpar]; norm_num
  have hm : wmag ![0, -1, 0] ![1, 0, 0] = √2 := by unfold wmag; rw [hm2]
  have h2 : 0 < √2 := sqrt_pos.2 two_pos
  have hD : 0 < b ^ 2 + rs ^ 2 := by positivity
  have hpl : plummer false ![0, -1, 0] 0 b ![1, 0, 0] GM rs 2 = -(2 * GM * b) / (√2 * (b ^ 2 + rs ^ 2)) := by
    unfold plummer
    rw [hp, Matrix.neg_mulVec, Matrix.one_mulVec]
    unfold plummerOut
    simp only [hwp, hm2, hm, ht]
    rw [if_neg (by norm_num)]
    simp [store]
    field_simp
  have hne : (![1, 0, 0] : Fin 3 → ℝ) ≠ ![0, -1, 0] := fun h => by simpa using congrFun h 0
  have hc : crs ![0, -1, 0] ![1, 0, 0] ≠ 0 := fun h => by simpa [crs] using congrFun h 2
  refine ⟨?_, by rw [hpl]; exact div_ne_zero (by simpa using ⟨hGM.ne', hb.ne'⟩) (by positivity)⟩
  rw [hpl, ← C81_plummer_curvedstream _ b _ _ GM hne hc hrs]
  have hcr : cross ![1, 0, 0] ![0, -1, 0] = ![0, 0, -1] := by ext i; fin_cases i <;> simp [cross]
  have hmc : mag ![0, 0, -1] = 1 := by simp [mag]
  have hbv : bvec (along ![0, -1, 0] 0) b ![1, 0, 0] 0 ![0, -1, 0] = ![0, 0, -b] := by
    ext i
    simp only [bvec, b0, along, hcr, hmc]
    fin_cases i <;> simp
  have hw : (fun i => (![1, 0, 0] : Fin 3 → ℝ) i - (![0, -1, 0] : Fin 3 → ℝ) i) = ![1, 1, 0] := by
    ext i; fin_cases i <;> simp
  have hmw : mag ![1, 1, 0] = √2 := by simp [mag]; norm_num
  simp only [plummerCurved, hbv, hw, hmw]
  simp [dot]
  rw [show b * b = b ^ 2 by ring]
  field_simp

/-- Velocities of the stream given as integers: the kick is rounded to zero before it is scaled with the mass. -/
theorem C81_integer_velocity_fails (GM : ℝ) (hGM : 0 < GM) :
    plummer true ![0, 1, 0] 0 1 ![1, 0, 0] GM 1 2 = 0 ∧ plummer false ![0, 1, 0] 0 1 ![1, 0, 0] GM 1 2 < 0 := by
  have hv : (![0, 1, 0] : Fin 3 → ℝ) ≠ 0 := fun h => by simpa using congrFun h 1
  have hl : len ![0, 1, 0] = 1 := by simp [len]
  have hp : ∀ inv, rotationVy ![0, 1, 0] inv = 1 := fun inv =>
    (C46_parallel _ ![0, 1, 0] inv hv (by simp [Spec.sq]) (by rw [cosine_eq, hl]; norm_num)).1
  have ht : tilew ![0, 1, 0] ![1, 0, 0] = ![1, 0, 0] := by unfold tilew; rw [hp, Matrix.one_mulVec]
  have hwp : wperp ![0, 1, 0] ![1, 0, 0] = 1 := by unfold wperp; simp [ht]
  have hpar : wpar ![0, 1, 0] ![1, 0, 0] = 1 := by unfold wpar; rw [mag_len, hl, ht]; simp
  have hm2 : wmag2 ![0, 1, 0] ![1, 0, 0] = 2 := by unfold wmag2; rw [hwp, hpar]; norm_num
  have hm : wmag ![0, 1, 0] ![1, 0, 0] = √2 := by unfold wmag; rw [hm2]
  have h2 : 1 ≤ √2 := by rw [one_le_sqrt]; norm_num
  have hpl : ∀ int, plummer int ![0, 1, 0] 0 1 ![1, 0, 0] GM 1 2 = 2 * GM * store int (-2 / (√2 * 4)) := by
    intro int
    unfold plummer
    rw [hp, Matrix.one_mulVec]
    unfold plummerOut
    simp only [hwp, hm2, hm, ht]
    rw [if_neg (by norm_num)]
    simp
    norm_num
  have hneg : -2 / (√2 * 4) < 0 := div_neg_of_neg_of_pos (by norm_num) (by positivity)
  have hce : ⌈-2 / (√2 * 4)⌉ = 0 := by
    rw [Int.ceil_eq_zero_iff]
    refine ⟨?_, hneg.le⟩
    rw [lt_div_iff₀ (by positivity)]
    linarith
  rw [hpl, hpl]
  refine ⟨?_, ?_⟩
  · simp only [store, if_true, if_neg (not_le.2 hneg), hce]
    simp
  · simp only [store, Bool.false_eq_true, if_false]
    exact mul_neg_of_pos_of_neg (by positivity) hneg

/-- A Hernquist sphere at a closest distance equal to its scale radius: the code divides zero by zero, while the kick is a number. -/
theorem C81_hernquist_scale_fails {rs : ℝ} (hrs : 0 < rs) (GM : ℝ) (hGM : 0 < GM) :
    hernquistCurved ![0, 1, 0] 0 rs ![1, 0, 0] 0 ![0, 1, 0] GM rs = none ∧
      kick (hernquistF GM rs) (sep ![0, 1, 0] 0 rs ![1, 0, 0] 0 ![0, 1, 0]) 2 < 0 := by
  have hcr : cross ![1, 0, 0] ![0, 1, 0] = ![0, 0, 1] := by ext i; fin_cases i <;> simp [cross]
  have hmc : mag ![0, 0, 1] = 1 := by simp [mag]
  have hbv : bvec 0 rs ![1, 0, 0] 0 ![0, 1, 0] = ![0, 0, rs] := by
    ext i
    simp only [bvec, b0, hcr, hmc]
    fin_cases i <;> simp
  have hw : (fun i => (![1, 0, 0] : Fin 3 → ℝ) i - (![0, 1, 0] : Fin 3 → ℝ) i) = ![1, -1, 0] := by
    ext i; fin_cases i <;> simp
  have hWW : dot ![1, -1, 0] ![1, -1, 0] = 2 := by simp [dot]; norm_num
  have hBW : dot ![0, 0, rs] ![1, -1, 0] = 0 := by simp [dot]
  have hBB : dot ![0, 0, rs] ![0, 0, rs] = rs ^ 2 := by simp [dot]; ring
  have hd : d2 ![0, 0, rs] ![1, -1, 0] = rs ^ 2 := by unfold d2; rw [hWW, hBW, hBB]; simp
  constructor
  · simp only [hernquistCurved, hbv, hw, hBW, hBB]
    rw [if_pos]
    simp [sqrt_sq hrs.le]
  · have hW : (![1, -1, 0] : Fin 3 → ℝ) ≠ 0 := fun h => by simpa using congrFun h 0
    have hg : ∀ r, 0 < r → hernquistF GM rs r / r = (fun q => -GM * (1 / (√q * (√q + rs) ^ 2))) (r ^ 2) := by
      intro r hr
      simp only [hernquistF, sqrt_sq hr.le]
      field_simp
    have h1 := hern_int hrs hrs
    have h2 := hern_int' hrs hrs
    rw [sep_eq, hbv]
    have hw' : ∀ i, (![1, 0, 0] : Fin 3 → ℝ) i - (![0, 1, 0] : Fin 3 → ℝ) i = (![1, -1, 0] : Fin 3 → ℝ) i := fun i => congrFun hw i
    simp only [hw']
    rw [kick_line (g := fun q => -GM * (1 / (√q * (√q + rs) ^ 2))) hW hg (by rw [hd]; exact h1.const_mul _)
      (by rw [hd]; simp only [mul_assoc]; exact h2.const_mul _), hd, hBW, hWW, integral_const_mul]
    have hpos : 0 < ∫ u : ℝ, 1 / (√(u ^ 2 + rs ^ 2) * (√(u ^ 2 + rs ^ 2) + rs) ^ 2) := by
      have hp : ∀ u : ℝ, 0 < 1 / (√(u ^ 2 + rs ^ 2) * (√(u ^ 2 + rs ^ 2) + rs) ^ 2) := fun u => by
        have : 0 < √(u ^ 2 + rs ^ 2) := sqrt_pos.2 (by positivity)
        positivity
      rw [integral_pos_iff_support_of_nonneg (fun u => (hp u).le) h1]
      have : Function.support (fun u : ℝ => 1 / (√(u ^ 2 + rs ^ 2) * (√(u ^ 2 + rs ^ 2) + rs) ^ 2)) = Set.univ :=
        Set.eq_univ_of_forall fun u => (hp u).ne'
      rw [this]
      simp
    have h2 : 0 < √2 := sqrt_pos.2 two_pos
    have h3 := mul_pos (div_pos hrs h2) (mul_pos hGM hpos)
    generalize (∫ u : ℝ, 1 / (√(u ^ 2 + rs ^ 2) * (√(u ^ 2 + rs ^ 2) + rs) ^ 2)) = I at *
    simp only [Matrix.cons_val, mul_zero, zero_div, sub_zero]
    linarith

/-! ### Instances -/

example (i : Fin 3) : plummerCurved ![0, 1, 0] ![0, 3, 1] 2 ![1, 0, 0] 0 ![0, 1, 0] 1 1 i =
    kick (plummerF 1 1) (sep ![0, 1, 0] ![0, 3, 1] 2 ![1, 0, 0] 0 ![0, 1, 0]) i :=
  C81_plummer_curvedstream _ _ _ _ _ (fun h => by simpa using congrFun h 0) (fun h => by simpa [crs] using congrFun h 2) one_ne_zero i

example (i : Fin 3) : plummer false ![0, 1, 0] 3 2 ![1, 0, 0] 1 1 i =
    kick (plummerF 1 1) (sep ![0, 1, 0] (along ![0, 1, 0] 3) 2 ![1, 0, 0] 0 ![0, 1, 0]) i :=
  C81_plummer_partial 3 2 1 (fun h => by simpa using congrFun h 1) (Or.inr ⟨rfl, rfl, one_pos⟩)
    (by simp [crs, len]; norm_num) one_ne_zero i

example (i : Fin 3) : plummerStream false ![0, 1, 0] 3 2 ![1, 0, 0] (fun _ => 1) 1 (-1) 1 i = ∫ t in (-1 : ℝ)..1, (1 : ℝ) *
    kick (plummerF 1 1) (sep ![0, 1, 0] (along ![0, 1, 0] (3 - len ![0, 1, 0] * t)) 2 ![1, 0, 0] 0 ![0, 1, 0]) i :=
  C81_plummerstream_partial 3 2 (-1) 1 (fun h => by simpa using congrFun h 1) (Or.inr ⟨rfl, rfl, one_pos⟩)
    (fun h => by simpa [crs] using congrFun h 2) one_ne_zero continuous_const i

example : ∃ k, hernquistCurved ![0, 1, 0] 0 2 ![1, 0, 0] 0 ![0, 1, 0] 1 1 = some k ∧
    ∀ i, k i = kick (hernquistF 1 1) (sep ![0, 1, 0] 0 2 ![1, 0, 0] 0 ![0, 1, 0]) i := by
  have hne : (![1, 0, 0] : Fin 3 → ℝ) ≠ ![0, 1, 0] := fun h => by simpa using congrFun h 0
  have hcl : closest ![0, 1, 0] 0 2 ![1, 0, 0] 0 ![0, 1, 0] = 2 := by
    have hcr : cross ![1, 0, 0] ![0, 1, 0] = ![0, 0, 1] := by ext i; fin_cases i <;> simp [cross]
    have hmc : mag ![0, 0, 1] = 1 := by simp [mag]
    have hbv : bvec 0 2 ![1, 0, 0] 0 ![0, 1, 0] = ![0, 0, 2] := by
      ext i
      simp only [bvec, b0, hcr, hmc]
      fin_cases i <;> simp
    rw [closest_eq hne, hbv]
    have : d2 ![0, 0, 2] (fun i => (![1, 0, 0] : Fin 3 → ℝ) i - (![0, 1, 0] : Fin 3 → ℝ) i) = 2 ^ 2 := by
      simp [d2, dot]; norm_num
    rw [this]; exact sqrt_sq two_pos.le
  exact C81_hernquist_curvedstream_partial _ _ _ _ _ hne (fun h => by simpa [crs] using congrFun h 2) one_pos (by rw [hcl]; norm_num)
    (by rw [hcl]; norm_num)

example (i : Fin 3) : general ![0, 1, 0] 3 2 ![1, 0, 0] (plummerF 1 1) i =
    kick (plummerF 1 1) (sep ![0, 1, 0] (along ![0, 1, 0] 3) 2 ![1, 0, 0] 0 ![0, 1, 0]) i :=
  C81_general_partial 3 2 (fun h => by simpa using congrFun h 1) (Or.inr ⟨rfl, rfl, one_pos⟩)
    (fun h => by simpa [crs] using congrFun h 2)
    (fun i => by rw [sep_eq]; exact plummer_integrable (fun h => by simpa using congrFun h 0) 1 one_ne_zero i) i

end Verif
