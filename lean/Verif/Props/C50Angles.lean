import Verif.Props.C50
import Mathlib.Analysis.SpecialFunctions.Trigonometric.Inverse
import Mathlib.Analysis.SpecialFunctions.Trigonometric.Arctan
import Mathlib.MeasureTheory.Integral.IntervalIntegral.FundThmCalculus

set_option autoImplicit false

/-!
# C50: the angles of the isochrone advance linearly

Along every orbit the angles returned by `actionsFreqsAngles` advance at the returned frequencies.
-/

noncomputable section
namespace Verif

open Real IsochroneAA

/-- Equal modulo `2 pi`. -/
def C50Spec.Same (x y : ℝ) : Prop := ∃ n : ℤ, x = y + 2 * π * n

/-- A motion in the isochrone potential, in cylindrical coordinates, away from the axis. -/
structure C50Spec.Motion (amp b : ℝ) (p : ℝ → Point) : Prop where
  pos : ∀ t, 0 < (p t).R
  R : ∀ t, HasDerivAt (fun s => (p s).R) (p t).vR t
  z : ∀ t, HasDerivAt (fun s => (p s).z) (p t).vz t
  phi : ∀ t, HasDerivAt (fun s => (p s).phi) ((p t).vT / (p t).R) t
  vR : ∀ t, HasDerivAt (fun s => (p s).vR) ((p t).vT ^ 2 / (p t).R - amp * (p t).R
    / (√(b ^ 2 + ((p t).R ^ 2 + (p t).z ^ 2)) * (b + √(b ^ 2 + ((p t).R ^ 2 + (p t).z ^ 2))) ^ 2)) t
  vT : ∀ t, HasDerivAt (fun s => (p s).vT) (-((p t).vR * (p t).vT / (p t).R)) t
  vz : ∀ t, HasDerivAt (fun s => (p s).vz) (-(amp * (p t).z
    / (√(b ^ 2 + ((p t).R ^ 2 + (p t).z ^ 2)) * (b + √(b ^ 2 + ((p t).R ^ 2 + (p t).z ^ 2))) ^ 2))) t

/-! ### Angles modulo `2 pi` -/

theorem C50aux.same_refl (x : ℝ) : C50Spec.Same x x := ⟨0, by simp⟩

theorem C50aux.same_symm {x y : ℝ} (h : C50Spec.Same x y) : C50Spec.Same y x := by
  obtain ⟨n, rfl⟩ := h
  exact ⟨-n, by push_cast; ring⟩

theorem C50aux.same_trans {x y z : ℝ} (h : C50Spec.Same x y) (h' : C50Spec.Same y z) : C50Spec.Same x z := by
  obtain ⟨n, rfl⟩ := h
  obtain ⟨m, rfl⟩ := h'
  exact ⟨m + n, by push_cast; ring⟩

theorem C50aux.same_add {x y x' y' : ℝ} (h : C50Spec.Same x y) (h' : C50Spec.Same x' y') :
    C50Spec.Same (x + x') (y + y') := by
  obtain ⟨n, rfl⟩ := h
  obtain ⟨m, rfl⟩ := h'
  exact ⟨m + n, by push_cast; ring⟩

theorem C50aux.same_neg {x y : ℝ} (h : C50Spec.Same x y) : C50Spec.Same (-x) (-y) := by
  obtain ⟨n, rfl⟩ := h
  exact ⟨-n, by push_cast; ring⟩

theorem C50aux.same_mod (x : ℝ) : C50Spec.Same (mod2pi x) x := by
  refine ⟨-⌊x / (2 * π)⌋, ?_⟩
  unfold mod2pi
  push_cast
  ring

theorem C50aux.same_of_cos_sin {x y : ℝ} (hc : cos x = cos y) (hs : sin x = sin y) : C50Spec.Same x y := by
  have h : cos (x - y) = 1 := by
    rw [cos_sub, hc, hs]
    nlinarith [sin_sq_add_cos_sq y]
  obtain ⟨n, hn⟩ := (cos_eq_one_iff _).1 h
  exact ⟨n, by linarith⟩

/-- Two functions that satisfy `X' = -w Y`, `Y' = w X` are cosine and sine of an antiderivative of `w`. -/
theorem C50aux.lift (X Y ω W : ℝ → ℝ) (hX : ∀ t, HasDerivAt X (-(ω t * Y t)) t)
    (hY : ∀ t, HasDerivAt Y (ω t * X t) t) (hW : ∀ t, HasDerivAt W (ω t) t) (hc : cos (W 0) = X 0)
    (hs : sin (W 0) = Y 0) (t : ℝ) : cos (W t) = X t ∧ sin (W t) = Y t := by
  have h1 : ∀ t, HasDerivAt (fun t => X t * cos (W t) + Y t * sin (W t)) 0 t := by
    intro t
    refine (hd_add (hd_mul (hX t) (hd_cos (hW t))) (hd_mul (hY t) (hd_sin (hW t)))).congr_deriv ?_
    ring
  have h2 : ∀ t, HasDerivAt (fun t => Y t * cos (W t) - X t * sin (W t)) 0 t := by
    intro t
    refine (hd_sub (hd_mul (hY t) (hd_cos (hW t))) (hd_mul (hX t) (hd_sin (hW t)))).congr_deriv ?_
    ring
  have c1 := is_const_of_deriv_eq_zero (fun u => (h1 u).differentiableAt) (fun u => (h1 u).deriv) t 0
  have c2 := is_const_of_deriv_eq_zero (fun u => (h2 u).differentiableAt) (fun u => (h2 u).deriv) t 0
  simp only [← hc, ← hs] at c1 c2
  have e0 := sin_sq_add_cos_sq (W 0)
  have e := sin_sq_add_cos_sq (W t)
  have c1' : X t * cos (W t) + Y t * sin (W t) = 1 := by linarith
  have c2' : Y t * cos (W t) - X t * sin (W t) = 0 := by linarith
  constructor
  · linear_combination (-(cos (W t))) * c1' + sin (W t) * c2' + X t * e
  · linear_combination (-(sin (W t))) * c1' - cos (W t) * c2' + Y t * e

/-- A continuous rate has an antiderivative with a given initial value. -/
theorem C50aux.antideriv (ω : ℝ → ℝ) (h : Continuous ω) (a : ℝ) : ∃ W : ℝ → ℝ, W 0 = a ∧ ∀ t, HasDerivAt W (ω t) t := by
  refine ⟨fun t => a + ∫ s in (0 : ℝ)..t, ω s, by simp, fun t => ?_⟩
  exact (h.integral_hasStrictDerivAt 0 t).hasDerivAt.const_add a

/-- A function with constant derivative. -/
theorem C50aux.linear (f : ℝ → ℝ) (v : ℝ) (h : ∀ t, HasDerivAt f v t) (t : ℝ) : f t = f 0 + v * t := by
  have h1 : ∀ t, HasDerivAt (fun t => f t - v * t) 0 t := fun t =>
    ((h t).sub ((hasDerivAt_id t).const_mul v)).congr_deriv (by ring)
  have := is_const_of_deriv_eq_zero (fun u => (h1 u).differentiableAt) (fun u => (h1 u).deriv) t 0
  simp only [mul_zero, sub_zero] at this
  linarith

/-! ### The branch of the arctangent -/

/-- The arctangent with its branch, as a smooth function of the cosine and sine of the double angle. -/
def C50aux.corr (k X Y : ℝ) : ℝ := arctan ((k - 1) * Y / ((1 + X) + k * (1 - X)))

theorem C50aux.branch (k η : ℝ) (hk : 0 < k) (h0 : 0 ≤ η) (h1 : η < 2 * π) :
    (let t := atanTan k (1 / 2 * η); if t < 0 then t + π else t) = η / 2 + C50aux.corr k (cos η) (sin η) := by
  have hs : sin η = 2 * sin (1 / 2 * η) * cos (1 / 2 * η) := by
    rw [← sin_two_mul]
    congr 1
    ring
  have hc : cos η = 2 * cos (1 / 2 * η) ^ 2 - 1 := by
    rw [← cos_two_mul]
    congr 1
    ring
  have hx : η / 2 = 1 / 2 * η := by ring
  have hx0 : 0 ≤ 1 / 2 * η := by linarith
  have hx1 : 1 / 2 * η < π := by linarith
  rw [hs, hc, hx]
  generalize 1 / 2 * η = x at *
  have hsc := sin_sq_add_cos_sq x
  have hpi := pi_pos
  have hden : 1 + (2 * cos x ^ 2 - 1) + k * (1 - (2 * cos x ^ 2 - 1)) = 2 * (cos x ^ 2 + k * sin x ^ 2) := by
    have : sin x ^ 2 = 1 - cos x ^ 2 := by linarith
    rw [this]
    ring
  unfold C50aux.corr
  rw [hden]
  by_cases hcx : cos x = 0
  · have hxe : x = π / 2 := by
      rcases lt_trichotomy x (π / 2) with h | h | h
      · have := cos_pos_of_mem_Ioo ⟨by linarith, h⟩
        linarith
      · exact h
      · have := cos_neg_of_pi_div_two_lt_of_lt h (by linarith)
        linarith
    simp only [atanTan, hcx, ↓reduceIte]
    rw [if_neg (by linarith), hxe]
    simp
  · have e : (k - 1) * (2 * sin x * cos x) / (2 * (cos x ^ 2 + k * sin x ^ 2))
        = (k * tan x - tan x) / (1 + k * tan x * tan x) := by
      have hd : cos x ^ 2 + k * sin x ^ 2 ≠ 0 := by positivity
      have hd' : 1 + k * tan x * tan x ≠ 0 := by
        have : 0 ≤ k * tan x * tan x := by
          rw [mul_assoc]
          exact mul_nonneg hk.le (mul_self_nonneg _)
        linarith
      rw [div_eq_div_iff (by positivity) hd', tan_eq_sin_div_cos]
      field_simp
    have hneg : -1 < k * tan x * tan x := by
      have : 0 ≤ k * tan x * tan x := by
        rw [mul_assoc]
        exact mul_nonneg hk.le (mul_self_nonneg _)
      linarith
    have hsub : arctan ((k * tan x - tan x) / (1 + k * tan x * tan x)) = arctan (k * tan x) - arctan (tan x) := by
      have := arctan_add (x := k * tan x) (y := -tan x) (by
        have : k * tan x * -tan x = -(k * tan x * tan x) := by ring
        linarith)
      rw [arctan_neg] at this
      rw [sub_eq_add_neg, sub_eq_add_neg, this]
      congr 1
      ring
    rw [e, hsub]
    simp only [atanTan, if_neg hcx]
    rcases lt_or_gt_of_ne (show x ≠ π / 2 by rintro rfl; simp at hcx) with h | h
    · have ht : 0 ≤ tan x := tan_nonneg_of_nonneg_of_le_pi_div_two hx0 h.le
      rw [if_neg (not_lt.2 (arctan_nonneg.2 (by positivity))), arctan_tan (by linarith) h]
      ring
    · have ht : tan x < 0 := by
        rw [← tan_sub_pi]
        exact tan_neg_of_neg_of_pi_div_two_lt (by linarith) (by linarith)
      rw [if_pos (arctan_lt_zero.2 (mul_neg_of_pos_of_neg hk ht))]
      have : arctan (tan x) = x - π := by
        rw [← tan_sub_pi]
        exact arctan_tan (by linarith) (by linarith)
      rw [this]
      ring

/-- Derivative of the correction along a rotation. -/
theorem C50aux.corr_deriv (k : ℝ) (hk : 0 < k) (X Y : ℝ → ℝ) (ω t : ℝ) (hX : HasDerivAt X (-(ω * Y t)) t)
    (hY : HasDerivAt Y (ω * X t) t) (h1 : X t ^ 2 + Y t ^ 2 = 1) :
    HasDerivAt (fun s => C50aux.corr k (X s) (Y s)) (ω * (k / ((1 + k ^ 2) + (1 - k ^ 2) * X t)) - ω / 2) t := by
  have hXle : X t ≤ 1 := by nlinarith [sq_nonneg (Y t)]
  have hXge : -1 ≤ X t := by nlinarith [sq_nonneg (Y t)]
  have hden : 0 < (1 + X t) + k * (1 - X t) := by
    rcases hXle.eq_or_lt with h | h
    · rw [h]
      norm_num
    · have : 0 < k * (1 - X t) := mul_pos hk (by linarith)
      linarith
  have hden2 : 0 < (1 + k ^ 2) + (1 - k ^ 2) * X t := by
    have : (1 + k ^ 2) + (1 - k ^ 2) * X t = (1 + X t) + k ^ 2 * (1 - X t) := by ring
    rw [this]
    rcases hXle.eq_or_lt with h | h
    · rw [h]
      norm_num
    · have : 0 < k ^ 2 * (1 - X t) := mul_pos (by positivity) (by linarith)
      linarith
  have hN := hd_const_mul (k - 1) hY
  have hD := (hX.const_add 1).add ((hX.const_sub 1).const_mul k)
  have h := hd_arctan (hd_div hN hD hden.ne')
  refine h.congr_deriv ?_
  simp only [Pi.add_apply]
  have hsq : (1 + X t + k * (1 - X t)) ^ 2 + ((k - 1) * Y t) ^ 2 = 2 * ((1 + k ^ 2) + (1 - k ^ 2) * X t) := by
    linear_combination (k - 1) ^ 2 * h1
  have e1 : 1 + ((k - 1) * Y t / (1 + X t + k * (1 - X t))) ^ 2
      = 2 * ((1 + k ^ 2) + (1 - k ^ 2) * X t) / (1 + X t + k * (1 - X t)) ^ 2 := by
    rw [← hsq]
    field_simp
  rw [e1]
  generalize hDn : 1 + X t + k * (1 - X t) = Dn at *
  generalize hM : (1 + k ^ 2) + (1 - k ^ 2) * X t = M at *
  field_simp
  rw [← hDn, ← hM]
  linear_combination (-(ω * (k - 1) ^ 2)) * h1

/-! ### Orbital elements of a point -/

/-- What the orbital elements satisfy for a bound, non-circular orbit that is not polar. -/
structure C50aux.Elements (amp b : ℝ) (p : Point) : Prop where
  amp0 : 0 < amp
  b0 : 0 ≤ b
  R0 : 0 < p.R
  L0 : 0 < L2 p
  c0 : 0 < c amp b p
  hE : -2 * E amp b p * (c amp b p + b) = amp
  e0 : 0 < e amp b p
  e1 : e amp b p < 1
  he : amp * c amp b p ^ 2 * (1 - e amp b p ^ 2) = L2 p * (c amp b p + b)

theorem C50aux.elements (amp b : ℝ) (ha : 0 < amp) (hb : 0 ≤ b) (p : Point) (hR : 0 < p.R)
    (hE : C50Spec.energy amp b p < 0) (hJr : 0 < (actions amp b p).1) (hT : p.vT ≠ 0) : C50aux.Elements amp b p := by
  have hl : L p ^ 2 = L2 p := sq_sqrt (C50aux.L2_nonneg p)
  have hL2 : 0 < L2 p := by
    rw [C50aux.L2_eq]
    unfold C50Spec.angmom2
    positivity
  have hL0 : 0 < L p := sqrt_pos.2 hL2
  have hr : 0 < -2 * E amp b p := by
    rw [C50aux.E_eq]
    linarith
  have hE0 : E amp b p ≠ 0 := by
    rintro h
    simp [h] at hr
  have hcb : -2 * E amp b p * (c amp b p + b) = amp := by
    unfold c
    field_simp
    ring
  have hcb0 : 0 < c amp b p + b := by
    by_contra h
    have := mul_nonpos_of_nonneg_of_nonpos hr.le (not_lt.1 h)
    linarith
  have hp : 0 < √(-2 * E amp b p) := sqrt_pos.2 hr
  have hs : √(-2 * E amp b p) ^ 2 = -2 * E amp b p := sq_sqrt hr.le
  have hab : 0 ≤ L2 p + 4 * amp * b := by positivity
  have hJ : 0 < amp / √(-2 * E amp b p) - (1 / 2) * (L p + √(L2 p + 4 * amp * b)) := hJr
  have hq := sq_sqrt hab
  have hq0 : L p ≤ √(L2 p + 4 * amp * b) := by
    apply le_sqrt_of_sq_le
    rw [hl]
    have : 0 ≤ amp * b := by positivity
    nlinarith
  generalize √(L2 p + 4 * amp * b) = q at hJ hq hq0
  have hk : (amp / √(-2 * E amp b p)) ^ 2 = amp * (c amp b p + b) := by
    rw [div_pow, hs, div_eq_iff hr.ne']
    nlinarith
  have hk0 : 0 < amp / √(-2 * E amp b p) := by positivity
  generalize amp / √(-2 * E amp b p) = k at hJ hk hk0
  have key : k * L p < amp * c amp b p := by
    have h1 : 0 < (2 * k - L p) - q := by linarith
    have h2 : 0 < (2 * k - L p) + q := by linarith
    have h3 := mul_pos h1 h2
    have : ((2 * k - L p) - q) * ((2 * k - L p) + q) = 4 * (amp * c amp b p - k * L p) := by
      linear_combination 4 * hk - hq + hl
    linarith
  have hc0 : 0 < c amp b p := by
    have : 0 < amp * c amp b p := lt_trans (by positivity) key
    exact pos_of_mul_pos_right this ha.le
  have key2 : L2 p * (c amp b p + b) < amp * c amp b p ^ 2 := by
    have h1 : (k * L p) ^ 2 < (amp * c amp b p) ^ 2 := by
      have : 0 < k * L p := by positivity
      nlinarith
    rw [mul_pow, hk, hl] at h1
    have h2 : amp * (L2 p * (c amp b p + b)) < amp * (amp * c amp b p ^ 2) := by nlinarith
    exact lt_of_mul_lt_mul_left h2 ha.le
  have he2 : 1 - L2 p / amp / c amp b p * (1 + b / c amp b p) = 1 - L2 p * (c amp b p + b) / (amp * c amp b p ^ 2) := by
    field_simp
  have hpos : 0 < 1 - L2 p * (c amp b p + b) / (amp * c amp b p ^ 2) := by
    rw [sub_pos, div_lt_one (by positivity)]
    exact key2
  have hee : e amp b p ^ 2 = 1 - L2 p * (c amp b p + b) / (amp * c amp b p ^ 2) := by
    unfold e
    rw [he2, sq_sqrt hpos.le]
  have he0 : 0 < e amp b p := by
    unfold e
    rw [he2]
    exact sqrt_pos.2 hpos
  refine ⟨ha, hb, hR, hL2, hc0, hcb, he0, ?_, ?_⟩
  · have : 0 < L2 p * (c amp b p + b) / (amp * c amp b p ^ 2) := by positivity
    nlinarith
  · rw [hee]
    field_simp
    ring

/-- `sqrt(b^2 + r^2)`. -/
def C50aux.w (b : ℝ) (p : Point) : ℝ := √(b ^ 2 + (p.R ^ 2 + p.z ^ 2))
/-- The speed unit `sqrt(amp / (c + b))`. -/
def C50aux.k0 (amp b : ℝ) (p : Point) : ℝ := √(amp / (c amp b p + b))
/-- The sine of the eccentric anomaly. -/
def C50aux.Y (amp b : ℝ) (p : Point) : ℝ :=
  (p.R * p.vR + p.z * p.vz) / (C50aux.k0 amp b p * c amp b p * e amp b p)

theorem C50aux.w_sq (b : ℝ) (p : Point) : C50aux.w b p ^ 2 = b ^ 2 + (p.R ^ 2 + p.z ^ 2) := sq_sqrt (by positivity)

theorem C50aux.w_gt (b : ℝ) (p : Point) (hR : 0 < p.R) : b < C50aux.w b p :=
  lt_sqrt_of_sq_lt (by
    have : 0 < p.R ^ 2 + p.z ^ 2 := by positivity
    linarith)

theorem C50aux.coseta_eq (amp b : ℝ) (hb : 0 ≤ b) (p : Point) :
    coseta amp b p = (1 - (C50aux.w b p - b) / c amp b p) / e amp b p := by
  unfold coseta C50aux.w
  split_ifs with h
  · subst h
    rw [show (0 : ℝ) ^ 2 + (p.R ^ 2 + p.z ^ 2) = p.R ^ 2 + p.z ^ 2 by ring, sub_zero]
    ring
  · have hb' : 0 < b := lt_of_le_of_ne hb (Ne.symm h)
    have : b * √(1 + (p.R ^ 2 + p.z ^ 2) / b ^ 2) = √(b ^ 2 + (p.R ^ 2 + p.z ^ 2)) := by
      rw [← sqrt_sq hb'.le, ← sqrt_mul (sq_nonneg b), sqrt_sq hb'.le]
      congr 1
      field_simp
    dsimp only
    rw [← this]
    ring

theorem C50aux.k0_sq (amp b : ℝ) (p : Point) (h : C50aux.Elements amp b p) :
    C50aux.k0 amp b p ^ 2 * (c amp b p + b) = amp := by
  have h1 := h.c0
  have h2 := h.b0
  have h3 := h.amp0
  unfold C50aux.k0
  rw [sq_sqrt (by positivity)]
  field_simp

theorem C50aux.k0_pos (amp b : ℝ) (p : Point) (h : C50aux.Elements amp b p) : 0 < C50aux.k0 amp b p := by
  have h1 := h.c0
  have h2 := h.b0
  have h3 := h.amp0
  exact sqrt_pos.2 (by positivity)

theorem C50aux.E_k0 (amp b : ℝ) (p : Point) (h : C50aux.Elements amp b p) : -2 * E amp b p = C50aux.k0 amp b p ^ 2 := by
  have h1 := h.c0
  have h2 := h.b0
  have h3 := C50aux.k0_sq amp b p h
  have h4 := h.hE
  have : c amp b p + b ≠ 0 := by positivity
  exact mul_right_cancel₀ this (h4.trans h3.symm)

theorem C50aux.circle (amp b : ℝ) (p : Point) (h : C50aux.Elements amp b p) :
    coseta amp b p ^ 2 + C50aux.Y amp b p ^ 2 = 1 := by
  have hb := h.b0
  have hc := h.c0
  have he := h.e0
  have hk := C50aux.k0_pos amp b p h
  have hk2 := C50aux.k0_sq amp b p h
  have hE := C50aux.E_k0 amp b p h
  have hw := C50aux.w_sq b p
  have hbw := C50aux.w_gt b p h.R0
  have hl := h.he
  have hrad := C50aux.radial p
  rw [C50aux.coseta_eq amp b hb]
  unfold C50aux.Y
  -- the energy
  have hE2 : C50aux.k0 amp b p ^ 2 * (p.R ^ 2 + p.z ^ 2)
      = 2 * amp * (C50aux.w b p - b) - (p.R * p.vR + p.z * p.vz) ^ 2 - L2 p := by
    have h2 : amp / (b + C50aux.w b p) * (p.R ^ 2 + p.z ^ 2) = amp * (C50aux.w b p - b) := by
      rw [div_mul_eq_mul_div, div_eq_iff (by linarith)]
      linear_combination (-amp) * hw
    rw [← hE, C50aux.E_eq]
    unfold C50Spec.energy
    rw [show √(b ^ 2 + (p.R ^ 2 + p.z ^ 2)) = C50aux.w b p from rfl]
    linear_combination 2 * h2 + hrad
  generalize C50aux.k0 amp b p = k at *
  generalize c amp b p = cc at *
  generalize e amp b p = ee at *
  generalize C50aux.w b p = w at *
  generalize L2 p = l2 at *
  generalize p.R * p.vR + p.z * p.vz = A at *
  have hA : A ^ 2 = 2 * amp * (w - b) - l2 - k ^ 2 * (w ^ 2 - b ^ 2) := by
    rw [show w ^ 2 - b ^ 2 = p.R ^ 2 + p.z ^ 2 by linarith]
    linarith
  have hl2 : l2 = k ^ 2 * cc ^ 2 * (1 - ee ^ 2) := by
    have h0 : cc + b ≠ 0 := by positivity
    apply mul_right_cancel₀ h0
    rw [← hl, ← hk2]
    ring
  have hne : cc * ee ≠ 0 := by positivity
  rw [div_pow, div_pow, hA, hl2, ← hk2]
  field_simp
  ring

theorem C50aux.clip_id {x : ℝ} (h1 : -1 ≤ x) (h2 : x ≤ 1) : clip x = x := by
  unfold clip
  rw [if_neg (not_lt.2 h2), if_neg (not_lt.2 h1)]

theorem C50aux.eta_spec (amp b : ℝ) (p : Point) (h : C50aux.Elements amp b p) :
    cos (eta amp b p) = coseta amp b p ∧ sin (eta amp b p) = C50aux.Y amp b p ∧ 0 ≤ eta amp b p ∧ eta amp b p < 2 * π := by
  have hcirc := C50aux.circle amp b p h
  have hX1 : coseta amp b p ≤ 1 := by nlinarith [sq_nonneg (C50aux.Y amp b p)]
  have hX0 : -1 ≤ coseta amp b p := by nlinarith [sq_nonneg (C50aux.Y amp b p)]
  have hden : 0 < C50aux.k0 amp b p * c amp b p * e amp b p := by
    have := C50aux.k0_pos amp b p h
    have := h.c0
    have := h.e0
    positivity
  have hr : 0 < √(p.R ^ 2 + p.z ^ 2) := sqrt_pos.2 (by have := h.R0; positivity)
  have hsg : p.vR * sintheta p + p.vz * costheta p
      = C50aux.Y amp b p * (C50aux.k0 amp b p * c amp b p * e amp b p) / √(p.R ^ 2 + p.z ^ 2) := by
    unfold sintheta costheta C50aux.Y
    rw [div_mul_cancel₀ _ hden.ne']
    ring
  have hpi := pi_pos
  have ha0 := arccos_nonneg (coseta amp b p)
  have ha1 := arccos_le_pi (coseta amp b p)
  unfold eta
  dsimp only
  rw [C50aux.clip_id hX0 hX1]
  split_ifs with hneg
  · have hY : C50aux.Y amp b p < 0 := by
      rw [hsg] at hneg
      by_contra hn
      have : 0 ≤ C50aux.Y amp b p * (C50aux.k0 amp b p * c amp b p * e amp b p) / √(p.R ^ 2 + p.z ^ 2) :=
        div_nonneg (mul_nonneg (not_lt.1 hn) hden.le) hr.le
      linarith
    refine ⟨?_, ?_, by linarith, ?_⟩
    · rw [cos_two_pi_sub, cos_arccos hX0 hX1]
    · rw [sin_two_pi_sub, sin_arccos, show 1 - coseta amp b p ^ 2 = (-C50aux.Y amp b p) ^ 2 by linarith,
        sqrt_sq (by linarith)]
      ring
    · have : 0 < arccos (coseta amp b p) := by
        rw [arccos_pos]
        nlinarith
      linarith
  · have hY : 0 ≤ C50aux.Y amp b p := by
      rw [hsg] at hneg
      by_contra hn
      apply hneg
      exact div_neg_of_neg_of_pos (mul_neg_of_neg_of_pos (not_le.1 hn) hden) hr
    refine ⟨cos_arccos hX0 hX1, ?_, ha0, by linarith⟩
    rw [sin_arccos, show 1 - coseta amp b p ^ 2 = C50aux.Y amp b p ^ 2 by linarith, sqrt_sq hY]

/-- The two ratios under the arctangents. -/
def C50aux.k1 (amp b : ℝ) (p : Point) : ℝ := √((1 + e amp b p) / (1 - e amp b p))
def C50aux.k2 (amp b : ℝ) (p : Point) : ℝ :=
  √((1 + e amp b p + 2 * b / c amp b p) / (1 - e amp b p + 2 * b / c amp b p))

theorem C50aux.k1_pos (amp b : ℝ) (p : Point) (h : C50aux.Elements amp b p) : 0 < C50aux.k1 amp b p := by
  have h1 := h.e0
  have h2 : 0 < 1 - e amp b p := by linarith [h.e1]
  exact sqrt_pos.2 (by positivity)

theorem C50aux.k2_pos (amp b : ℝ) (p : Point) (h : C50aux.Elements amp b p) : 0 < C50aux.k2 amp b p := by
  have h1 := h.e0
  have h2 : 0 < 1 - e amp b p := by linarith [h.e1]
  have h3 := h.c0
  have h4 := h.b0
  exact sqrt_pos.2 (by positivity)

theorem C50aux.tan11_eq (amp b : ℝ) (p : Point) (h : C50aux.Elements amp b p) :
    tan11 amp b p = eta amp b p / 2 + C50aux.corr (C50aux.k1 amp b p) (coseta amp b p) (C50aux.Y amp b p) := by
  obtain ⟨h1, h2, h3, h4⟩ := C50aux.eta_spec amp b p h
  have := C50aux.branch (C50aux.k1 amp b p) (eta amp b p) (C50aux.k1_pos amp b p h) h3 h4
  rw [h1, h2] at this
  exact this

theorem C50aux.tan12_eq (amp b : ℝ) (p : Point) (h : C50aux.Elements amp b p) :
    tan12 amp b p = eta amp b p / 2 + C50aux.corr (C50aux.k2 amp b p) (coseta amp b p) (C50aux.Y amp b p) := by
  obtain ⟨h1, h2, h3, h4⟩ := C50aux.eta_spec amp b p h
  have := C50aux.branch (C50aux.k2 amp b p) (eta amp b p) (C50aux.k2_pos amp b p h) h3 h4
  rw [h1, h2] at this
  exact this

/-- The ratio of the frequencies. -/
theorem C50aux.lambda (amp b : ℝ) (p : Point) (h : C50aux.Elements amp b p) :
    1 / √(1 + 4 * amp * b / L2 p) = L p / √(L2 p + 4 * amp * b) := by
  have hL := h.L0
  have ha := h.amp0
  have hb := h.b0
  have e1 : 1 + 4 * amp * b / L2 p = (L2 p + 4 * amp * b) / L2 p := by
    field_simp
  rw [e1, sqrt_div (by positivity)]
  unfold L
  rw [one_div_div]

theorem C50aux.Omegar_eq (amp b : ℝ) (p : Point) (h : C50aux.Elements amp b p) :
    Omegar amp b p = C50aux.k0 amp b p / (c amp b p + b) := by
  unfold Omegar
  have hk := C50aux.k0_pos amp b p h
  have hk2 := C50aux.k0_sq amp b p h
  have h1 := h.c0
  have h2 := h.b0
  have h3 := h.amp0
  rw [C50aux.E_k0 amp b p h, C50aux.rpow32 _ hk.le, div_eq_div_iff h3.ne' (by positivity)]
  linear_combination C50aux.k0 amp b p * hk2

theorem C50aux.ratio (amp b : ℝ) (p : Point) (h : C50aux.Elements amp b p) :
    Omegaz amp b p / Omegar amp b p = (1 + L p / √(L2 p + 4 * amp * b)) / 2 := by
  have hk := C50aux.k0_pos amp b p h
  have h1 := h.c0
  have h2 := h.b0
  have : Omegar amp b p ≠ 0 := by
    rw [C50aux.Omegar_eq amp b p h]
    positivity
  unfold Omegaz
  field_simp

/-- The vertical angle, with the branches removed. -/
theorem C50aux.anglez_eq (amp b : ℝ) (p : Point) (h : C50aux.Elements amp b p) :
    anglez amp b p = mod2pi (psi p) - (1 + L p / √(L2 p + 4 * amp * b)) / 2
        * (e amp b p * c amp b p / (c amp b p + b) * C50aux.Y amp b p)
      - C50aux.corr (C50aux.k1 amp b p) (coseta amp b p) (C50aux.Y amp b p)
      - L p / √(L2 p + 4 * amp * b) * C50aux.corr (C50aux.k2 amp b p) (coseta amp b p) (C50aux.Y amp b p) := by
  unfold anglez angler
  rw [C50aux.tan11_eq amp b p h, C50aux.tan12_eq amp b p h, C50aux.lambda amp b p h, C50aux.ratio amp b p h,
    (C50aux.eta_spec amp b p h).2.1]
  ring

/-- The derivatives of the two arctangents along the orbit add up to the angular velocity in the plane of the orbit. -/
theorem C50aux.rates (amp b : ℝ) (p : Point) (h : C50aux.Elements amp b p) :
    C50aux.k0 amp b p / C50aux.w b p * (C50aux.k1 amp b p / ((1 + C50aux.k1 amp b p ^ 2)
        + (1 - C50aux.k1 amp b p ^ 2) * coseta amp b p))
      + L p / √(L2 p + 4 * amp * b) * (C50aux.k0 amp b p / C50aux.w b p * (C50aux.k2 amp b p
        / ((1 + C50aux.k2 amp b p ^ 2) + (1 - C50aux.k2 amp b p ^ 2) * coseta amp b p)))
      = L p / (p.R ^ 2 + p.z ^ 2) := by
  have hb := h.b0
  have hc := h.c0
  have ha := h.amp0
  have he := h.e0
  have he1 : 0 < 1 - e amp b p := by linarith [h.e1]
  have hk := C50aux.k0_pos amp b p h
  have hk2 := C50aux.k0_sq amp b p h
  have hw := C50aux.w_sq b p
  have hbw := C50aux.w_gt b p h.R0
  have hw0 : 0 < C50aux.w b p := by linarith
  have hX := C50aux.coseta_eq amp b hb p
  have hl : L p ^ 2 = L2 p := sq_sqrt (C50aux.L2_nonneg p)
  have hL0 : 0 < L p := sqrt_pos.2 h.L0
  have hL2 := h.L0
  have hq0 : 0 < √(L2 p + 4 * amp * b) := sqrt_pos.2 (by positivity)
  have hq : √(L2 p + 4 * amp * b) ^ 2 = L2 p + 4 * amp * b := sq_sqrt (by positivity)
  have hle := h.he
  have hl2 : L2 p = C50aux.k0 amp b p ^ 2 * c amp b p ^ 2 * (1 - e amp b p ^ 2) := by
    have h0 : c amp b p + b ≠ 0 := by positivity
    apply mul_right_cancel₀ h0
    linear_combination (-1) * hle - c amp b p ^ 2 * (1 - e amp b p ^ 2) * hk2
  -- first arctangent
  have hd1 : 0 < C50aux.w b p - b := by linarith
  have heX : e amp b p * coseta amp b p = 1 - (C50aux.w b p - b) / c amp b p := by
    rw [hX]
    field_simp
  have t1 : C50aux.k1 amp b p / ((1 + C50aux.k1 amp b p ^ 2) + (1 - C50aux.k1 amp b p ^ 2) * coseta amp b p)
      = L p / (2 * C50aux.k0 amp b p * (C50aux.w b p - b)) := by
    have hs : C50aux.k1 amp b p ^ 2 = (1 + e amp b p) / (1 - e amp b p) := sq_sqrt (by positivity)
    have e1 : (1 + C50aux.k1 amp b p ^ 2) + (1 - C50aux.k1 amp b p ^ 2) * coseta amp b p
        = 2 * ((C50aux.w b p - b) / c amp b p) / (1 - e amp b p) := by
      rw [hs]
      have : (C50aux.w b p - b) / c amp b p = 1 - e amp b p * coseta amp b p := by linarith
      rw [this]
      field_simp
      ring
    have e2 : C50aux.k1 amp b p * (1 - e amp b p) * (C50aux.k0 amp b p * c amp b p) = L p := by
      have hpos : 0 ≤ C50aux.k1 amp b p * (1 - e amp b p) * (C50aux.k0 amp b p * c amp b p) := by
        have := C50aux.k1_pos amp b p h
        positivity
      rw [← sqrt_sq hpos]
      unfold L
      congr 1
      rw [mul_pow, mul_pow, hs, hl2]
      field_simp
      ring
    rw [e1, ← e2]
    field_simp
  have t2 : C50aux.k2 amp b p / ((1 + C50aux.k2 amp b p ^ 2) + (1 - C50aux.k2 amp b p ^ 2) * coseta amp b p)
      = √(L2 p + 4 * amp * b) / (2 * C50aux.k0 amp b p * (C50aux.w b p + b)) := by
    have hm0 : 0 < 1 - e amp b p + 2 * b / c amp b p := by positivity
    have hs : C50aux.k2 amp b p ^ 2 = (1 + e amp b p + 2 * b / c amp b p) / (1 - e amp b p + 2 * b / c amp b p) :=
      sq_sqrt (by positivity)
    have e1 : (1 + C50aux.k2 amp b p ^ 2) + (1 - C50aux.k2 amp b p ^ 2) * coseta amp b p
        = 2 * ((C50aux.w b p + b) / c amp b p) / (1 - e amp b p + 2 * b / c amp b p) := by
      rw [hs]
      have : (C50aux.w b p + b) / c amp b p = 1 + 2 * b / c amp b p - e amp b p * coseta amp b p := by
        rw [heX]
        field_simp
        ring
      rw [this]
      generalize 2 * b / c amp b p = m at *
      field_simp
      ring
    have e2 : C50aux.k2 amp b p * (1 - e amp b p + 2 * b / c amp b p) * (C50aux.k0 amp b p * c amp b p)
        = √(L2 p + 4 * amp * b) := by
      have hpos : 0 ≤ C50aux.k2 amp b p * (1 - e amp b p + 2 * b / c amp b p) * (C50aux.k0 amp b p * c amp b p) := by
        have := C50aux.k2_pos amp b p h
        positivity
      rw [← sqrt_sq hpos]
      congr 1
      rw [mul_pow, mul_pow, hs, hl2]
      have : (1 + e amp b p + 2 * b / c amp b p) / (1 - e amp b p + 2 * b / c amp b p)
          * (1 - e amp b p + 2 * b / c amp b p) ^ 2
          = (1 + e amp b p + 2 * b / c amp b p) * (1 - e amp b p + 2 * b / c amp b p) := by
        field_simp
      rw [this]
      field_simp
      linear_combination 4 * b * hk2
    rw [e1, ← e2]
    field_simp
  rw [t1, t2]
  have hsum : p.R ^ 2 + p.z ^ 2 = (C50aux.w b p - b) * (C50aux.w b p + b) := by linarith
  rw [hsum]
  have hd2 : 0 < C50aux.w b p + b := by linarith
  field_simp
  ring

end Verif
