import Verif.Lemmas.Coords
import Mathlib.Analysis.Real.Pi.Bounds

set_option autoImplicit false

/-!
# C68: distance and longitude against Galactocentric radius and azimuth in the plane

The observer is at azimuth `phio` and radius `ro`; `l = 0` is the direction of the centre.
-/

noncomputable section
namespace Verif
open Real Coords

/-- The third side of a triangle with its angle: `s` is the far side and `psi` the angle at the centre of a
triangle with sides `r` and `x` enclosing the angle `t`. -/
theorem C68aux.triangle (r x t : ℝ) (hr : 0 < r) (hx : 0 ≤ x)
    (hs : sqrt (r ^ 2 + x ^ 2 - 2 * x * r * cos t) ≠ 0) :
    let s := sqrt (r ^ 2 + x ^ 2 - 2 * x * r * cos t);
    let psi := if r / cos t < x ∧ 0 < cos t then π - arcsin (x / s * sin t) else arcsin (x / s * sin t);
    s * cos psi = r - x * cos t ∧ s * sin psi = x * sin t ∧ -(π / 2) ≤ psi ∧ psi < 3 * π / 2 := by
  intro s psi
  have hp : 0 < s := lt_of_le_of_ne (Real.sqrt_nonneg _) (Ne.symm hs)
  have hq : s ^ 2 = r ^ 2 + x ^ 2 - 2 * x * r * cos t := Real.sq_sqrt (Real.sqrt_pos.1 hp).le
  have ht := Real.sin_sq_add_cos_sq t
  have hq' : s ^ 2 = (r - x * cos t) ^ 2 + (x * sin t) ^ 2 := by rw [hq]; linear_combination -x ^ 2 * ht
  have hb : (x / s * sin t) ^ 2 ≤ 1 := by
    rw [show x / s * sin t = x * sin t / s by ring, div_pow, div_le_one (by positivity)]
    nlinarith [sq_nonneg (r - x * cos t)]
  have hb1 : -1 ≤ x / s * sin t := by nlinarith
  have hb2 : x / s * sin t ≤ 1 := by nlinarith
  have hc : sqrt (1 - (x / s * sin t) ^ 2) = |r - x * cos t| / s := by
    rw [show 1 - (x / s * sin t) ^ 2 = ((r - x * cos t) / s) ^ 2 by field_simp; linarith, Real.sqrt_sq_eq_abs,
      abs_div, abs_of_pos hp]
  have hpi := Real.pi_pos
  have l1 := Real.neg_pi_div_two_le_arcsin (x / s * sin t)
  have l2 := Real.arcsin_le_pi_div_two (x / s * sin t)
  by_cases h : r / cos t < x ∧ 0 < cos t
  · have hneg : r - x * cos t < 0 := by
      have := (div_lt_iff₀ h.2).1 h.1
      linarith
    have l3 : -(π / 2) < arcsin (x / s * sin t) := by
      rcases lt_or_eq_of_le l1 with l | l
      · exact l
      · exfalso
        have e := congrArg Real.sin l
        rw [Real.sin_neg, Real.sin_pi_div_two, Real.sin_arcsin hb1 hb2] at e
        rw [← e] at hc
        rw [show (1 : ℝ) - (-1) ^ 2 = 0 by norm_num, Real.sqrt_zero] at hc
        have : 0 < |r - x * cos t| / s := div_pos (abs_pos.2 hneg.ne) hp
        linarith
    simp only [psi, if_pos h]
    refine ⟨?_, ?_, by linarith, by linarith⟩
    · rw [Real.cos_pi_sub, Real.cos_arcsin, hc, abs_of_neg hneg]; field_simp
    · rw [Real.sin_pi_sub, Real.sin_arcsin hb1 hb2]; field_simp
  · have hnn : 0 ≤ r - x * cos t := by
      by_cases h0 : 0 < cos t
      · have : ¬ r / cos t < x := fun h1 => h ⟨h1, h0⟩
        rw [div_lt_iff₀ h0] at this
        linarith
      · have : x * cos t ≤ 0 := mul_nonpos_of_nonneg_of_nonpos hx (not_lt.1 h0)
        linarith
    simp only [psi, if_neg h]
    refine ⟨?_, ?_, l1, by linarith⟩
    · rw [Real.cos_arcsin, hc, abs_of_nonneg hnn]; field_simp
    · rw [Real.sin_arcsin hb1 hb2]; field_simp

/-- The law of cosines. -/
theorem C68aux.arg_nonneg (r x t : ℝ) : 0 ≤ r ^ 2 + x ^ 2 - 2 * x * r * cos t := by
  nlinarith [Real.sin_sq_add_cos_sq t, sq_nonneg (r - x * cos t), sq_nonneg (x * sin t)]

/-- An angle in the range of the functions is fixed by its cosine and sine. -/
theorem C68aux.unique {a b s : ℝ} (hs : s ≠ 0) (hc : s * cos a = s * cos b) (hn : s * sin a = s * sin b)
    (ha : -(π / 2) ≤ a) (ha' : a < 3 * π / 2) (hb : -(π / 2) ≤ b) (hb' : b < 3 * π / 2) : a = b := by
  have hc := mul_left_cancel₀ hs hc
  have hn := mul_left_cancel₀ hs hn
  have h : cos (a - b) = 1 := by
    rw [Real.cos_sub, hc, hn]; nlinarith [Real.sin_sq_add_cos_sq b]
  have := (Real.cos_eq_one_iff_of_lt_of_lt (by linarith) (by linarith)).1 h
  linarith

/-- The result is the point of the plane at distance `d` in direction `l` from the observer: in the frame in
which the observer is on the first axis, the point is `(ro - d cos l, d sin l)`. -/
theorem C68_dl_to_rphi (ro phio d l : ℝ) (hro : 0 < ro) (hd : 0 ≤ d) (h : (dl_to_rphi_2d ro phio d l).1 ≠ 0) :
    let q := dl_to_rphi_2d ro phio d l;
    0 < q.1 ∧ q.1 * cos (q.2 - phio) = ro - d * cos l ∧ q.1 * sin (q.2 - phio) = d * sin l := by
  have hp := lt_of_le_of_ne (Real.sqrt_nonneg _) (Ne.symm h)
  obtain ⟨h1, h2, -⟩ := C68aux.triangle ro d l hro hd h
  simp only [dl_to_rphi_2d, add_sub_cancel_right]
  exact ⟨hp, h1, h2⟩

/-- The other direction. -/
theorem C68_rphi_to_dl (ro phio R phi : ℝ) (hro : 0 < ro) (hR : 0 ≤ R) (h : (rphi_to_dl_2d ro phio R phi).1 ≠ 0) :
    let q := rphi_to_dl_2d ro phio R phi;
    0 < q.1 ∧ q.1 * cos q.2 = ro - R * cos (phi - phio) ∧ q.1 * sin q.2 = R * sin (phi - phio) ∧
      -(π / 2) ≤ q.2 ∧ q.2 < 3 * π / 2 := by
  have e : R ^ 2 + ro ^ 2 = ro ^ 2 + R ^ 2 := add_comm _ _
  simp only [rphi_to_dl_2d, e] at h ⊢
  obtain ⟨h1, h2, h3, h4⟩ := C68aux.triangle ro R (phi - phio) hro hR h
  exact ⟨lt_of_le_of_ne (Real.sqrt_nonneg _) (Ne.symm h), h1, h2, h3, h4⟩

/-- Round trip from distance and longitude: the distance comes back for every longitude, the longitude when it
is given in `[-pi/2, 3 pi/2)`. The point must not be the centre, nor the observer. -/
theorem C68_round_trip (ro phio d l : ℝ) (hro : 0 < ro) (hd : 0 < d) (h : (dl_to_rphi_2d ro phio d l).1 ≠ 0) :
    let q := dl_to_rphi_2d ro phio d l;
    let w := rphi_to_dl_2d ro phio q.1 q.2;
    w.1 = d ∧ (-(π / 2) ≤ l → l < 3 * π / 2 → w.2 = l) := by
  obtain ⟨a1, a2, a3⟩ := C68_dl_to_rphi ro phio d l hro hd.le h
  intro q w
  have hw : w.1 = d := by
    simp only [w, rphi_to_dl_2d]
    have hq : q.1 ^ 2 = (ro - d * cos l) ^ 2 + (d * sin l) ^ 2 := by
      rw [← a2, ← a3]
      linear_combination -q.1 ^ 2 * Real.sin_sq_add_cos_sq (q.2 - phio)
    rw [show q.1 ^ 2 + ro ^ 2 - 2 * q.1 * ro * cos (q.2 - phio) = d ^ 2 by
      linear_combination hq - 2 * ro * a2 + d ^ 2 * Real.sin_sq_add_cos_sq l]
    exact Real.sqrt_sq hd.le
  refine ⟨hw, fun hl hl' => ?_⟩
  obtain ⟨b1, b2, b3, b4, b5⟩ := C68_rphi_to_dl ro phio q.1 q.2 hro a1.le (by rw [show (rphi_to_dl_2d ro phio q.1 q.2).1 = d from hw]; exact hd.ne')
  refine C68aux.unique (s := d) hd.ne' ?_ ?_ b4 b5 hl hl'
  · rw [← hw]; show w.1 * _ = w.1 * _
    rw [b2, a2, hw]; ring
  · rw [← hw]; show w.1 * _ = w.1 * _
    rw [b3, a3, hw]

/-- Round trip from radius and azimuth, when the azimuth is given in `[phio - pi/2, phio + 3 pi/2)`. -/
theorem C68_round_trip_inverse (ro phio R phi : ℝ) (hro : 0 < ro) (hR : 0 < R)
    (h : (rphi_to_dl_2d ro phio R phi).1 ≠ 0) :
    let q := rphi_to_dl_2d ro phio R phi;
    let w := dl_to_rphi_2d ro phio q.1 q.2;
    w.1 = R ∧ (-(π / 2) ≤ phi - phio → phi - phio < 3 * π / 2 → w.2 = phi) := by
  obtain ⟨a1, a2, a3, -, -⟩ := C68_rphi_to_dl ro phio R phi hro hR.le h
  intro q w
  have hw : w.1 = R := by
    simp only [w, dl_to_rphi_2d]
    have hq : q.1 ^ 2 = (ro - R * cos (phi - phio)) ^ 2 + (R * sin (phi - phio)) ^ 2 := by
      rw [← a2, ← a3]
      linear_combination -q.1 ^ 2 * Real.sin_sq_add_cos_sq q.2
    rw [show ro ^ 2 + q.1 ^ 2 - 2 * q.1 * ro * cos q.2 = R ^ 2 by
      linear_combination hq - 2 * ro * a2 + R ^ 2 * Real.sin_sq_add_cos_sq (phi - phio)]
    exact Real.sqrt_sq hR.le
  refine ⟨hw, fun hl hl' => ?_⟩
  have hne : (dl_to_rphi_2d ro phio q.1 q.2).1 ≠ 0 := by
    rw [show (dl_to_rphi_2d ro phio q.1 q.2).1 = R from hw]; exact hR.ne'
  obtain ⟨b1, b2, b3⟩ := C68_dl_to_rphi ro phio q.1 q.2 hro a1.le hne
  obtain ⟨-, -, b4, b5⟩ := C68aux.triangle ro q.1 q.2 hro a1.le hne
  have key : w.2 - phio = phi - phio := by
    refine C68aux.unique (s := R) hR.ne' ?_ ?_ (by simpa only [w, dl_to_rphi_2d, add_sub_cancel_right] using b4)
      (by simpa only [w, dl_to_rphi_2d, add_sub_cancel_right] using b5) hl hl'
    · rw [← hw]; show w.1 * _ = w.1 * _
      rw [b2, a2, hw]; ring
    · rw [← hw]; show w.1 * _ = w.1 * _
      rw [b3, a3, hw]
  linarith

/-! ### Instances -/

/-- Beyond the centre, on the far side. -/
theorem C68aux.far : (dl_to_rphi_2d 1 3 2 (π / 3)).1 ≠ 0 := by
  simp only [dl_to_rphi_2d, Real.cos_pi_div_three]
  rw [Real.sqrt_ne_zero'] ; norm_num

example : (rphi_to_dl_2d 1 3 (dl_to_rphi_2d 1 3 2 (π / 3)).1 (dl_to_rphi_2d 1 3 2 (π / 3)).2).2 = π / 3 :=
  (C68_round_trip 1 3 2 (π / 3) one_pos two_pos C68aux.far).2 (by linarith [Real.pi_pos]) (by linarith [Real.pi_pos])

theorem C68aux.near : (rphi_to_dl_2d 1 (-2) 2 (π / 3 - 2)).1 ≠ 0 := by
  simp only [rphi_to_dl_2d, sub_neg_eq_add, sub_add_cancel, Real.cos_pi_div_three]
  rw [Real.sqrt_ne_zero'] ; norm_num

example : (dl_to_rphi_2d 1 (-2) (rphi_to_dl_2d 1 (-2) 2 (π / 3 - 2)).1 (rphi_to_dl_2d 1 (-2) 2 (π / 3 - 2)).2).2 =
    π / 3 - 2 :=
  (C68_round_trip_inverse 1 (-2) 2 (π / 3 - 2) one_pos two_pos C68aux.near).2 (by linarith [Real.pi_pos])
    (by linarith [Real.pi_pos])

end Verif
