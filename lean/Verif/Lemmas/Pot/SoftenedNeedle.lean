import Verif.Model.Pot.SoftenedNeedle
import Verif.Util.Cart
import Mathlib.Analysis.SpecialFunctions.Sqrt
import Mathlib.Analysis.SpecialFunctions.Log.Deriv

set_option autoImplicit false

noncomputable section
namespace Verif.SoftenedNeedle
open Real Filter Topology

variable (p : Par)

/-! ### The potential in the frame of the bar -/

def zc (z : ℝ) : ℝ := √(z ^ 2 + p.c2)
def s2 (y z : ℝ) : ℝ := y ^ 2 + (p.b + zc p z) ^ 2
def Tp (x y z : ℝ) : ℝ := √((p.a + x) ^ 2 + s2 p y z)
def Tm (x y z : ℝ) : ℝ := √((p.a - x) ^ 2 + s2 p y z)
def G (x y z : ℝ) : ℝ := (p.a - x) / Tm p x y z + (p.a + x) / Tp p x y z
def H (x y z : ℝ) : ℝ := (p.a - x) / Tm p x y z ^ 3 + (p.a + x) / Tp p x y z ^ 3
def K (x y z : ℝ) : ℝ := 1 / Tm p x y z ^ 3 - 1 / Tp p x y z ^ 3
def w (z : ℝ) : ℝ := z * (p.b + zc p z) / zc p z

def Φ (x y z : ℝ) : ℝ := log ((x - p.a + Tm p x y z) / (x + p.a + Tp p x y z)) / 2 / p.a
def px (x y z : ℝ) : ℝ := (1 / Tm p x y z - 1 / Tp p x y z) / 2 / p.a
def py (x y z : ℝ) : ℝ := y * G p x y z / 2 / p.a / s2 p y z
def pz (x y z : ℝ) : ℝ := w p z * G p x y z / 2 / p.a / s2 p y z
def pxx (x y z : ℝ) : ℝ := H p x y z / 2 / p.a
def pxy (x y z : ℝ) : ℝ := -y * K p x y z / 2 / p.a
def pxz (x y z : ℝ) : ℝ := -w p z * K p x y z / 2 / p.a
def pyy (x y z : ℝ) : ℝ :=
  (G p x y z * (s2 p y z - 2 * y ^ 2) / s2 p y z ^ 2 - y ^ 2 * H p x y z / s2 p y z) / 2 / p.a
def pyz (x y z : ℝ) : ℝ := -y * w p z * (2 * G p x y z / s2 p y z ^ 2 + H p x y z / s2 p y z) / 2 / p.a
def pzz (x y z : ℝ) : ℝ :=
  ((1 + p.b * p.c2 / zc p z ^ 3) * G p x y z / s2 p y z
    - w p z ^ 2 * (H p x y z / s2 p y z + 2 * G p x y z / s2 p y z ^ 2)) / 2 / p.a

/-- Where the potential is smooth. -/
def Dom (_x y z : ℝ) : Prop := 0 < z ^ 2 + p.c2 ∧ 0 < s2 p y z

variable {p}

section point
variable {x y z : ℝ} (hD : Dom p x y z)
include hD
theorem zc_pos : 0 < zc p z := sqrt_pos.2 hD.1
theorem zc_sq : zc p z ^ 2 = z ^ 2 + p.c2 := sq_sqrt hD.1.le
theorem Tm_arg : 0 < (p.a - x) ^ 2 + s2 p y z := add_pos_of_nonneg_of_pos (sq_nonneg _) hD.2
theorem Tp_arg : 0 < (p.a + x) ^ 2 + s2 p y z := add_pos_of_nonneg_of_pos (sq_nonneg _) hD.2
theorem Tm_pos : 0 < Tm p x y z := sqrt_pos.2 (Tm_arg hD)
theorem Tp_pos : 0 < Tp p x y z := sqrt_pos.2 (Tp_arg hD)
theorem Tm_sq : Tm p x y z ^ 2 = (p.a - x) ^ 2 + s2 p y z := sq_sqrt (Tm_arg hD).le
theorem Tp_sq : Tp p x y z ^ 2 = (p.a + x) ^ 2 + s2 p y z := sq_sqrt (Tp_arg hD).le
end point

section curve
variable {x y z : ℝ → ℝ} {x' y' z' s : ℝ} (hx : HasDerivAt x x' s) (hy : HasDerivAt y y' s) (hz : HasDerivAt z z' s)
  (hD : Dom p (x s) (y s) (z s))
include hx hy hz hD

theorem hd_zc : HasDerivAt (fun s => zc p (z s)) (z s * z' / zc p (z s)) s := by
  have h := ((hz.fun_pow 2).add_const p.c2).sqrt hD.1.ne'
  refine h.congr_deriv ?_
  have h0 := zc_pos hD
  change _ / (2 * zc p (z s)) = _
  field_simp
  norm_num
  ring

theorem hd_s2 : HasDerivAt (fun s => s2 p (y s) (z s)) (2 * (y s * y' + w p (z s) * z')) s := by
  have h := (hy.fun_pow 2).fun_add (((hd_zc hx hy hz hD).const_add p.b).fun_pow 2)
  refine h.congr_deriv ?_
  have h0 := zc_pos hD
  simp only [w]
  field_simp
  norm_num
  ring

theorem hd_Tm : HasDerivAt (fun s => Tm p (x s) (y s) (z s))
    ((-(p.a - x s) * x' + y s * y' + w p (z s) * z') / Tm p (x s) (y s) (z s)) s := by
  have h := (((hx.const_sub p.a).fun_pow 2).fun_add (hd_s2 hx hy hz hD)).sqrt (Tm_arg hD).ne'
  refine h.congr_deriv ?_
  change _ / (2 * Tm p (x s) (y s) (z s)) = _
  have h0 := Tm_pos hD
  field_simp
  norm_num
  ring

theorem hd_Tp : HasDerivAt (fun s => Tp p (x s) (y s) (z s))
    (((p.a + x s) * x' + y s * y' + w p (z s) * z') / Tp p (x s) (y s) (z s)) s := by
  have h := (((hx.const_add p.a).fun_pow 2).fun_add (hd_s2 hx hy hz hD)).sqrt (Tp_arg hD).ne'
  refine h.congr_deriv ?_
  change _ / (2 * Tp p (x s) (y s) (z s)) = _
  have h0 := Tp_pos hD
  field_simp
  norm_num
  ring

theorem hd_G : HasDerivAt (fun s => G p (x s) (y s) (z s))
    (-(s2 p (y s) (z s) * K p (x s) (y s) (z s) * x')
      - H p (x s) (y s) (z s) * (y s * y' + w p (z s) * z')) s := by
  have hm := Tm_pos hD
  have hp := Tp_pos hD
  have h := ((hx.const_sub p.a).fun_div (hd_Tm hx hy hz hD) hm.ne').fun_add
    ((hx.const_add p.a).fun_div (hd_Tp hx hy hz hD) hp.ne')
  refine h.congr_deriv ?_
  have em := Tm_sq hD
  have ep := Tp_sq hD
  simp only [K, H]
  generalize Tm p (x s) (y s) (z s) = tm at *
  generalize Tp p (x s) (y s) (z s) = tp at *
  generalize s2 p (y s) (z s) = S at *
  generalize w p (z s) = W
  field_simp
  linear_combination (-(x' * tp ^ 3)) * em + (x' * tm ^ 3) * ep

theorem hd_w : HasDerivAt (fun s => w p (z s)) ((1 + p.b * p.c2 / zc p (z s) ^ 3) * z') s := by
  have h0 := zc_pos hD
  have h := (hz.fun_mul ((hd_zc hx hy hz hD).const_add p.b)).fun_div (hd_zc hx hy hz hD) h0.ne'
  refine h.congr_deriv ?_
  have e := zc_sq hD
  generalize zc p (z s) = Z at *
  field_simp
  linear_combination (z' * p.b) * e

theorem hd_Φ (ha : p.a ≠ 0) : HasDerivAt (fun s => Φ p (x s) (y s) (z s))
    (px p (x s) (y s) (z s) * x' + py p (x s) (y s) (z s) * y' + pz p (x s) (y s) (z s) * z') s := by
  have hm := Tm_pos hD
  have hp := Tp_pos hD
  have em := Tm_sq hD
  have ep := Tp_sq hD
  have hS := hD.2
  have pm : 0 < x s - p.a + Tm p (x s) (y s) (z s) := by
    have := abs_lt_of_sq_lt_sq (show (p.a - x s) ^ 2 < Tm p (x s) (y s) (z s) ^ 2 by linarith) hm.le
    linarith [(abs_lt.1 this).2]
  have pp : 0 < x s + p.a + Tp p (x s) (y s) (z s) := by
    have := abs_lt_of_sq_lt_sq (show (p.a + x s) ^ 2 < Tp p (x s) (y s) (z s) ^ 2 by linarith) hp.le
    linarith [(abs_lt.1 this).1]
  have h := ((((hx.sub_const p.a).fun_add (hd_Tm hx hy hz hD)).fun_div
    ((hx.add_const p.a).fun_add (hd_Tp hx hy hz hD)) pp.ne').log (div_pos pm pp).ne').div_const 2 |>.div_const p.a
  refine h.congr_deriv ?_
  simp only [px, py, pz, G]
  generalize Tm p (x s) (y s) (z s) = tm at *
  generalize Tp p (x s) (y s) (z s) = tp at *
  generalize s2 p (y s) (z s) = S at *
  generalize w p (z s) = W
  have hS' : S = tm ^ 2 - (p.a - x s) ^ 2 := by linarith
  have e1 : (x' + (-(p.a - x s) * x' + y s * y' + W * z') / tm) / (x s - p.a + tm)
      = x' / tm + (y s * y' + W * z') * ((tm + p.a - x s) / (tm * S)) := by
    have : S = (tm - (p.a - x s)) * (tm + (p.a - x s)) := by rw [hS']; ring
    have h1 : tm - (p.a - x s) ≠ 0 := by intro h; apply pm.ne'; linarith
    have h2 : tm + (p.a - x s) ≠ 0 := by intro h; rw [this, h, mul_zero] at hS; exact lt_irrefl _ hS
    rw [this, show x s - p.a + tm = tm - (p.a - x s) by ring, show tm + p.a - x s = tm + (p.a - x s) by ring]
    field_simp
    ring
  have e2 : (x' + ((p.a + x s) * x' + y s * y' + W * z') / tp) / (x s + p.a + tp)
      = x' / tp + (y s * y' + W * z') * ((tp - p.a - x s) / (tp * S)) := by
    have : S = (tp - (p.a + x s)) * (tp + (p.a + x s)) := by linarith
    have h1 : tp + (p.a + x s) ≠ 0 := by intro h; apply pp.ne'; linarith
    have h2 : tp - (p.a + x s) ≠ 0 := by intro h; rw [this, h, zero_mul] at hS; exact lt_irrefl _ hS
    rw [this, show x s + p.a + tp = tp + (p.a + x s) by ring, show tp - p.a - x s = tp - (p.a + x s) by ring]
    field_simp
    ring
  have e3 : ∀ A B A' B' : ℝ, A ≠ 0 → B ≠ 0 → (A' * B - A * B') / B ^ 2 / (A / B) = A' / A - B' / B := by
    intro A B A' B' hA hB; field_simp
  rw [e3 _ _ _ _ pm.ne' pp.ne', e1, e2]
  field_simp
  ring

theorem hd_px (ha : p.a ≠ 0) : HasDerivAt (fun s => px p (x s) (y s) (z s))
    (pxx p (x s) (y s) (z s) * x' + pxy p (x s) (y s) (z s) * y' + pxz p (x s) (y s) (z s) * z') s := by
  have hm := Tm_pos hD
  have hp := Tp_pos hD
  have h := (((hasDerivAt_const s (1:ℝ)).fun_div (hd_Tm hx hy hz hD) hm.ne').fun_sub
    ((hasDerivAt_const s (1:ℝ)).fun_div (hd_Tp hx hy hz hD) hp.ne')).div_const 2 |>.div_const p.a
  refine h.congr_deriv ?_
  simp only [pxx, pxy, pxz, H, K]
  field_simp
  ring

theorem hd_py (ha : p.a ≠ 0) : HasDerivAt (fun s => py p (x s) (y s) (z s))
    (pxy p (x s) (y s) (z s) * x' + pyy p (x s) (y s) (z s) * y' + pyz p (x s) (y s) (z s) * z') s := by
  have hS := hD.2
  have h := (((hy.fun_mul (hd_G hx hy hz hD)).div_const 2).div_const p.a).fun_div (hd_s2 hx hy hz hD) hS.ne'
  refine h.congr_deriv ?_
  simp only [pxy, pyy, pyz]
  generalize s2 p (y s) (z s) = S at *
  field_simp
  ring

theorem hd_pz (ha : p.a ≠ 0) : HasDerivAt (fun s => pz p (x s) (y s) (z s))
    (pxz p (x s) (y s) (z s) * x' + pyz p (x s) (y s) (z s) * y' + pzz p (x s) (y s) (z s) * z') s := by
  have hS := hD.2
  have h0 := zc_pos hD
  have h := ((((hd_w hx hy hz hD).fun_mul (hd_G hx hy hz hD)).div_const 2).div_const p.a).fun_div
    (hd_s2 hx hy hz hD) hS.ne'
  refine h.congr_deriv ?_
  simp only [pxz, pzz, pyz]
  generalize s2 p (y s) (z s) = S at *
  generalize zc p (z s) = Z at *
  field_simp
  ring

end curve

theorem cart (ha : p.a ≠ 0) :
    CartC2 (Φ p) (px p) (py p) (pz p) (pxx p) (pxy p) (pxz p) (pyy p) (pyz p) (pzz p) (Dom p) where
  opn := by
    have c1 : Continuous fun q : ℝ × ℝ × ℝ => q.2.2 ^ 2 + p.c2 := by fun_prop
    have c2 : Continuous fun q : ℝ × ℝ × ℝ => s2 p q.2.1 q.2.2 := by unfold s2 zc; fun_prop
    exact (isOpen_lt continuous_const c1).inter (isOpen_lt continuous_const c2)
  d0 hx hy hz hD := hd_Φ hx hy hz hD ha
  dx hx hy hz hD := hd_px hx hy hz hD ha
  dy hx hy hz hD := hd_py hx hy hz hD ha
  dz hx hy hz hD := hd_pz hx hy hz hD ha

theorem TpTm_eq (x y z : ℝ) : TpTm p x y z = (Tp p x y z, Tm p x y z) := by
  simp only [TpTm, Tp, Tm, s2, zc, add_comm p.c2]

/-! ### The methods are the polar transformation -/

theorem forces_eq (ha : p.a ≠ 0) {x y z : ℝ} (hD : Dom p x y z) :
    xforce x (Tp p x y z) (Tm p x y z) = -px p x y z
    ∧ yforce p x y z (Tp p x y z) (Tm p x y z) = -py p x y z
    ∧ zforceXyz p x y z (Tp p x y z) (Tm p x y z) = -pz p x y z := by
  have hm : 0 < Tm p x y z := Tm_pos hD
  have hp : 0 < Tp p x y z := Tp_pos hD
  have em : Tm p x y z ^ 2 = (p.a - x) ^ 2 + s2 p y z := Tm_sq hD
  have ep : Tp p x y z ^ 2 = (p.a + x) ^ 2 + s2 p y z := Tp_sq hD
  have hc : 0 < zc p z := zc_pos hD
  have hS := hD.2
  have hG : p.a * (Tp p x y z + Tm p x y z - 4 * x ^ 2 / (Tp p x y z + Tm p x y z)) / (Tp p x y z * Tm p x y z)
      = G p x y z := by
    unfold G
    generalize Tm p x y z = tm at *
    generalize Tp p x y z = tp at *
    have : tp + tm ≠ 0 := by positivity
    field_simp
    linear_combination x * ep - x * em
  refine ⟨?_, ?_, ?_⟩
  · simp only [xforce, px]
    generalize Tm p x y z = tm at *
    generalize Tp p x y z = tp at *
    have : tp + tm ≠ 0 := by positivity
    field_simp
    linear_combination (-1:ℝ) * (em - ep)
  · simp only [yforce, py, ← hG]
    change _ / (y ^ 2 + (p.b + zc p z) ^ 2) = _
    rw [show y ^ 2 + (p.b + zc p z) ^ 2 = s2 p y z from rfl]
    generalize Tm p x y z = tm at *
    generalize Tp p x y z = tp at *
    generalize s2 p y z = S at *
    have : tp + tm ≠ 0 := by positivity
    field_simp
  · simp only [zforceXyz, pz, ← hG, w]
    rw [show √(z ^ 2 + p.c2) = zc p z from rfl, show y ^ 2 + (p.b + zc p z) ^ 2 = s2 p y z from rfl]
    generalize Tm p x y z = tm at *
    generalize Tp p x y z = tp at *
    generalize s2 p y z = S at *
    generalize zc p z = Z at *
    have : tp + tm ≠ 0 := by positivity
    field_simp

theorem polar (ha : p.a ≠ 0) (t : ℝ) :
    Polar (pot p) t (p.pa + p.omegab * t) (Φ p) (px p) (py p) (pz p) (pxx p) (pxy p) (pxz p) (pyy p) (pyz p) (pzz p)
      (Dom p) := by
  have e : ∀ φ : ℝ, φ - p.pa - p.omegab * t = φ - (p.pa + p.omegab * t) := fun φ => by ring
  have rot : ∀ R z φ, Dom p (R * cos (φ - (p.pa + p.omegab * t))) (R * sin (φ - (p.pa + p.omegab * t))) z →
      ofForces R φ (xyzforces p R φ z t) =
      (-(cos (φ - (p.pa + p.omegab * t)) * px p (R * cos (φ - (p.pa + p.omegab * t))) (R * sin (φ - (p.pa + p.omegab * t))) z
        + sin (φ - (p.pa + p.omegab * t)) * py p (R * cos (φ - (p.pa + p.omegab * t))) (R * sin (φ - (p.pa + p.omegab * t))) z),
      -(R * (-sin (φ - (p.pa + p.omegab * t)) * px p (R * cos (φ - (p.pa + p.omegab * t))) (R * sin (φ - (p.pa + p.omegab * t))) z
        + cos (φ - (p.pa + p.omegab * t)) * py p (R * cos (φ - (p.pa + p.omegab * t))) (R * sin (φ - (p.pa + p.omegab * t))) z)),
      -pz p (R * cos (φ - (p.pa + p.omegab * t))) (R * sin (φ - (p.pa + p.omegab * t))) z) := by
    intro R z φ hD
    obtain ⟨f1, f2, f3⟩ := forces_eq ha hD
    simp only [xyzforces, ofForces, xyz, TpTm_eq, e, f1, f2, f3]
    simp only [Prod.mk.injEq, and_true]
    rw [cos_sub φ, sin_sub φ]
    constructor <;> ring
  refine ⟨?_, fun R z φ h => ?_, fun R z φ h => ?_, fun R z φ h => ?_, fun R z φ _ => ?_, fun R z φ _ => ?_,
    fun R z φ _ => ?_, fun R z φ _ => ?_, fun R z φ _ => ?_, fun R z φ _ => ?_⟩
  · intro R z φ; simp only [pot, evaluate, xyz, TpTm_eq, Φ, e]
  · simp only [pot, rot R z φ h]
  · simp only [pot, rot R z φ h]
  · simp only [pot, rot R z φ h]
  all_goals simp only [pot, cylhess, TpTm_eq, e, px, py, pxx, pxy, pxz, pyy, pyz, pzz, G, H, K, w, s2, zc]

theorem dens_eq (ha : p.a ≠ 0) (R z φ t : ℝ)
    (hD : Dom p (R * cos (φ - (p.pa + p.omegab * t))) (R * sin (φ - (p.pa + p.omegab * t))) z) :
    4 * π * (pot p).dens R z φ t
      = pxx p (R * cos (φ - (p.pa + p.omegab * t))) (R * sin (φ - (p.pa + p.omegab * t))) z
      + pyy p (R * cos (φ - (p.pa + p.omegab * t))) (R * sin (φ - (p.pa + p.omegab * t))) z
      + pzz p (R * cos (φ - (p.pa + p.omegab * t))) (R * sin (φ - (p.pa + p.omegab * t))) z := by
  have e : φ - p.pa - p.omegab * t = φ - (p.pa + p.omegab * t) := by ring
  simp only [pot, dens, xyz, e]
  generalize R * cos (φ - (p.pa + p.omegab * t)) = x at *
  generalize R * sin (φ - (p.pa + p.omegab * t)) = y at *
  have hm : 0 < Tm p x y z := Tm_pos hD
  have hp : 0 < Tp p x y z := Tp_pos hD
  have em : Tm p x y z ^ 2 = (p.a - x) ^ 2 + s2 p y z := Tm_sq hD
  have ep : Tp p x y z ^ 2 = (p.a + x) ^ 2 + s2 p y z := Tp_sq hD
  have hc : 0 < zc p z := zc_pos hD
  have hS := hD.2
  have h15 : (1.5 : ℝ) = 3 / 2 := by norm_num
  have cm : (s2 p y z + (x - p.a) ^ 2) ^ (3/2 : ℝ) = Tm p x y z ^ 3 := by
    rw [show s2 p y z + (x - p.a) ^ 2 = Tm p x y z ^ 2 by rw [em]; ring, rpow_three_half (by positivity), sqrt_sq hm.le]
    ring
  have cp : (s2 p y z + (x + p.a) ^ 2) ^ (3/2 : ℝ) = Tp p x y z ^ 3 := by
    rw [show s2 p y z + (x + p.a) ^ 2 = Tp p x y z ^ 2 by rw [ep]; ring, rpow_three_half (by positivity), sqrt_sq hp.le]
    ring
  have ec : zc p z ^ 2 = z ^ 2 + p.c2 := zc_sq hD
  rw [h15, show √(z ^ 2 + p.c2) = zc p z from rfl, show y ^ 2 + (p.b + zc p z) ^ 2 = s2 p y z from rfl, cm, cp]
  simp only [pxx, pyy, pzz, G, H, w]
  have eS : s2 p y z = y ^ 2 + (p.b + zc p z) ^ 2 := rfl
  generalize zc p z = Z at *
  generalize s2 p y z = S at *
  generalize Tm p x y z = tm at *
  generalize Tp p x y z = tp at *
  -- one end of the bar
  have key : ∀ d T : ℝ, 0 < T → T ^ 2 = d ^ 2 + S →
      d / T ^ 3 * (1 - y ^ 2 / S - (z * (p.b + Z) / Z) ^ 2 / S)
        + d / T * ((S - 2 * y ^ 2) / S ^ 2 + (1 + p.b * p.c2 / Z ^ 3) / S - 2 * (z * (p.b + Z) / Z) ^ 2 / S ^ 2)
      = p.c2 / (3 * S ^ 2 * Z ^ 3) * (d * (3 * (p.b * y ^ 2 + (p.b + 3 * Z) * (p.b + Z) ^ 2) * S
        + (2 * (p.b * y ^ 2 + (p.b + 3 * Z) * (p.b + Z) ^ 2) + p.b * S) * d ^ 2) / T ^ 3) := by
    intro d T hT eT
    have hw : (z * (p.b + Z) / Z) ^ 2 = (S - y ^ 2) - p.c2 * (p.b + Z) ^ 2 / Z ^ 2 := by
      have : z ^ 2 = Z ^ 2 - p.c2 := by linarith
      rw [div_pow, mul_pow, this, eS]; field_simp; ring
    have hy2 : y ^ 2 = S - (p.b + Z) ^ 2 := by linarith
    rw [hw, hy2]
    have h1 : d / T = d * (d ^ 2 + S) / T ^ 3 := by rw [← eT]; field_simp
    rw [h1]
    field_simp
    ring
  have k1 := key (p.a - x) tm hm (by rw [em])
  have k2 := key (p.a + x) tp hp (by rw [ep])
  have l1 : ∀ A B : ℝ, 4 * π * (p.c2 / 24 / π / p.a / S ^ 2 / Z ^ 3 * (A - B))
      = (p.c2 / (3 * S ^ 2 * Z ^ 3) * A - p.c2 / (3 * S ^ 2 * Z ^ 3) * B) / 2 / p.a := by
    intro A B
    have := Real.pi_pos
    field_simp
    norm_num
    ring
  rw [l1]
  rw [show x + p.a = p.a + x by ring, ← k2]
  rw [show (x - p.a) * (3 * (p.b * y ^ 2 + (p.b + 3 * Z) * (p.b + Z) ^ 2) * S
    + (2 * (p.b * y ^ 2 + (p.b + 3 * Z) * (p.b + Z) ^ 2) + p.b * S) * (x - p.a) ^ 2) / tm ^ 3
    = -((p.a - x) * (3 * (p.b * y ^ 2 + (p.b + 3 * Z) * (p.b + Z) ^ 2) * S
    + (2 * (p.b * y ^ 2 + (p.b + 3 * Z) * (p.b + Z) ^ 2) + p.b * S) * (p.a - x) ^ 2) / tm ^ 3) by ring, mul_neg, ← k1]
  generalize (p.a - x) / tm ^ 3 = m3
  generalize (p.a - x) / tm = m1
  generalize (p.a + x) / tp ^ 3 = q3
  generalize (p.a + x) / tp = q1
  field_simp
  ring

/-! ### The memory -/

/-- Python: what is remembered is right. -/
def PyCache.Valid (s : PyCache) : Prop :=
  (∀ R φ z t F, s.force = some ((R, φ, z, t), F) → F = xyzforces p R φ z t)
  ∧ ∀ R φ z t F, s.hess = some ((R, φ, z, t), F) → F = cylhess p R φ z t

theorem computeForces_valid {s : PyCache} (h : s.Valid (p := p)) (R φ z t : ℝ) :
    (computeForces p s R φ z t).Valid (p := p)
    ∧ (computeForces p s R φ z t).force = some ((R, φ, z, t), xyzforces p R φ z t) := by
  unfold computeForces
  split_ifs with hk
  · refine ⟨⟨?_, h.2⟩, rfl⟩
    rintro R' φ' z' t' F e
    simp only [Option.some.injEq, Prod.mk.injEq] at e
    obtain ⟨⟨rfl, rfl, rfl, rfl⟩, rfl⟩ := e
    rfl
  · rw [not_not] at hk
    cases hs : s.force with
    | none => simp [hs] at hk
    | some c =>
      obtain ⟨k, F⟩ := c
      simp only [hs, Option.map_some, Option.some.injEq] at hk
      subst hk
      exact ⟨h, by rw [h.1 R φ z t F hs]⟩

theorem computeHess_valid {s : PyCache} (h : s.Valid (p := p)) (R φ z t : ℝ) :
    (computeHess p s R φ z t).Valid (p := p)
    ∧ (computeHess p s R φ z t).hess = some ((R, φ, z, t), cylhess p R φ z t) := by
  unfold computeHess
  split_ifs with hk
  · cases hs : s.hess with
    | none => simp [hs] at hk
    | some c =>
      obtain ⟨k, F⟩ := c
      simp only [hs, Option.map_some, Option.some.injEq] at hk
      subst hk
      exact ⟨h, by rw [h.2 R φ z t F hs]⟩
  · refine ⟨⟨h.1, ?_⟩, rfl⟩
    rintro R' φ' z' t' F e
    simp only [Option.some.injEq, Prod.mk.injEq] at e
    obtain ⟨⟨rfl, rfl, rfl, rfl⟩, rfl⟩ := e
    rfl

/-- The value of a method computed afresh. -/
def Method.get (P : Pot) : Method → ℝ → ℝ → ℝ → ℝ → ℝ
  | .Rforce => P.Rforce
  | .zforce => P.zforce
  | .phitorque => P.phitorque
  | .R2deriv => P.R2deriv
  | .z2deriv => P.z2deriv
  | .Rzderiv => P.Rzderiv
  | .phi2deriv => P.phi2deriv
  | .Rphideriv => P.Rphideriv
  | .phizderiv => P.phizderiv

theorem call_eq {s : PyCache} (h : s.Valid (p := p)) (m : Method) (R z φ t : ℝ) :
    (call p s m R z φ t).1.Valid (p := p) ∧ (call p s m R z φ t).2 = some (m.get (pot p) R z φ t) := by
  have f := computeForces_valid h R φ z t
  have g := computeHess_valid h R φ z t
  cases m <;> simp only [call, Method.get, pot] <;>
    first
      | exact ⟨f.1, by rw [f.2]; rfl⟩
      | exact ⟨g.1, by rw [g.2]; rfl⟩

theorem calls_eq (l : List (Method × ℝ × ℝ × ℝ × ℝ)) : ∀ {s : PyCache}, s.Valid (p := p) →
    calls p s l = l.map fun c => some (c.1.get (pot p) c.2.1 c.2.2.1 c.2.2.2.1 c.2.2.2.2) := by
  induction l with
  | nil => intros; rfl
  | cons c l ih =>
    intro s h
    obtain ⟨m, R, z, φ, t⟩ := c
    have := call_eq h m R z φ t
    simp only [calls, List.map_cons, this.2, ih this.1]

/-! ### C -/

theorem cTpTm_eq (x y z : ℝ) : cTpTm p x y z = (Tp p x y z, Tm p x y z) := by
  simp only [cTpTm, Tp, Tm, s2, zc, ← sq]

theorem cEval_eq (amp R z φ t : ℝ) : cEval p amp R z φ t = amp * evaluate p R z φ t := by
  simp only [cEval, evaluate, xyz, cTpTm_eq, TpTm_eq]
  ring

/-- C: what is remembered is right. -/
def CCache.Valid (s : CCache) : Prop := (s.Fx, s.Fy, s.Fz) = xyzforces p s.R s.φ s.z s.t

theorem initial_valid : CCache.Valid (p := p) {} := by
  simp [CCache.Valid, xyzforces, xyz, xforce, yforce, zforceXyz]

theorem cxyzforces_valid {s : CCache} (h : s.Valid (p := p)) (R z φ t : ℝ) :
    (cxyzforces p s R z φ t).Valid (p := p) ∧
    ((cxyzforces p s R z φ t).Fx, (cxyzforces p s R z φ t).Fy, (cxyzforces p s R z φ t).Fz) = xyzforces p R φ z t := by
  unfold cxyzforces
  split_ifs with hk
  · have : ∀ x T : ℝ, 4 * x * x / T = 4 * x ^ 2 / T := fun x T => by ring
    constructor
    · simp only [CCache.Valid, xyzforces, xyz, xforce, yforce, zforceXyz, cTpTm_eq, TpTm_eq, this, ← sq]
    · simp only [xyzforces, xyz, xforce, yforce, zforceXyz, cTpTm_eq, TpTm_eq, this, ← sq]
  · push_neg at hk
    obtain ⟨rfl, rfl, rfl, rfl⟩ := hk
    exact ⟨h, h⟩

theorem cCylHess_eq (R z φ t : ℝ) : cCylHess p R z φ t = cylhess p R φ z t := by
  simp only [cCylHess, cylhess, cTpTm_eq, TpTm_eq, Hess.mk.injEq, ← sq]
  have c3 : ∀ T : ℝ, T ^ 2 * T = T ^ 3 := fun T => by ring
  have e1 : ∀ A y S : ℝ, 2 * y * y = 2 * y ^ 2 := fun A y S => by ring
  have e2 : ∀ A S : ℝ, A / S / S = A / S ^ 2 := fun A S => by rw [div_div, sq]
  have e3 : ∀ A S : ℝ, A / S ^ 2 / S = A / S ^ 3 := fun A S => by rw [div_div]; ring_nf
  simp only [c3, e2, e3, mul_assoc, ← sq]
  refine ⟨?_, ?_, ?_, ?_, ?_, ?_⟩ <;> (first | trivial | ring)

theorem cCall_eq {s : CCache} (h : s.Valid (p := p)) (amp : ℝ) (m : Method) (R z φ t : ℝ) :
    (cCall p amp s m R z φ t).1.Valid (p := p) ∧ (cCall p amp s m R z φ t).2 = amp * m.get (pot p) R z φ t := by
  have f := cxyzforces_valid h R z φ t
  have f1 := congrArg Prod.fst f.2
  have f2 := congrArg (fun q => q.2.1) f.2
  have f3 := congrArg (fun q => q.2.2) f.2
  simp only at f1 f2 f3
  cases m <;> simp only [cCall, cForce, Method.get, pot, cCylHess_eq, ofForces, f1, f2, f3] <;>
    first
      | exact ⟨h, trivial⟩
      | exact ⟨f.1, trivial⟩
      | exact ⟨f.1, by ring⟩

theorem cCalls_eq (amp : ℝ) (l : List (Method × ℝ × ℝ × ℝ × ℝ)) : ∀ {s : CCache}, s.Valid (p := p) →
    cCalls p amp s l = l.map fun c => amp * c.1.get (pot p) c.2.1 c.2.2.1 c.2.2.2.1 c.2.2.2.2 := by
  induction l with
  | nil => intros; rfl
  | cons c l ih =>
    intro s h
    obtain ⟨m, R, z, φ, t⟩ := c
    have := cCall_eq h amp m R z φ t
    simp only [cCalls, List.map_cons, this.2, ih this.1]

end Verif.SoftenedNeedle
