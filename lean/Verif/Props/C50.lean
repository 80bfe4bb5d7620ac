import Verif.Model.IsochroneAA
import Verif.Lemmas.Coords
import Verif.Util.Deriv
import Mathlib.Analysis.Calculus.Deriv.Abs

set_option autoImplicit false

/-!
# C50: isochrone actions, frequencies and angles

Specification: motion in the potential `-amp / (b + sqrt(b^2 + r^2))`.
-/

noncomputable section
namespace Verif

open Real IsochroneAA

/-- The Hamiltonian of the isochrone in the actions (Binney & Tremaine eq. 3.226): `-(amp)^2 / (2 S^2)` with
`S = Jr + (L + sqrt(L^2 + 4 amp b)) / 2`, `L = Jz + |Jphi|`. -/
def C50Spec.H (amp b jr jphi jz : ℝ) : ℝ :=
  -(amp ^ 2) / (2 * (jr + 1 / 2 * (jz + |jphi| + √((jz + |jphi|) ^ 2 + 4 * amp * b))) ^ 2)

/-- The energy of a point. -/
def C50Spec.energy (amp b : ℝ) (p : Point) : ℝ :=
  (p.vR ^ 2 + p.vT ^ 2 + p.vz ^ 2) / 2 - amp / (b + √(b ^ 2 + (p.R ^ 2 + p.z ^ 2)))

/-- The square of the angular momentum `x × v`, in the frame with the point at azimuth zero. -/
def C50Spec.angmom2 (p : Point) : ℝ := (p.z * p.vT) ^ 2 + (p.z * p.vR - p.R * p.vz) ^ 2 + (p.R * p.vT) ^ 2

theorem C50aux.E_eq (amp b : ℝ) (p : Point) : E amp b p = C50Spec.energy amp b p := by
  unfold E C50Spec.energy Isochrone.evaluate
  dsimp only
  rw [show p.R ^ 2 + p.z ^ 2 + b ^ 2 = b ^ 2 + (p.R ^ 2 + p.z ^ 2) by ring]
  ring

theorem C50aux.L2_eq (p : Point) : L2 p = C50Spec.angmom2 p := by
  unfold L2 C50Spec.angmom2 Lz
  ring

theorem C50aux.L2_nonneg (p : Point) : 0 ≤ L2 p := by
  rw [C50aux.L2_eq]
  unfold C50Spec.angmom2
  positivity

theorem C50aux.Lz_le (p : Point) : |Lz p| ≤ L p := by
  refine abs_le_sqrt ?_
  rw [C50aux.L2_eq]
  unfold C50Spec.angmom2 Lz
  nlinarith [sq_nonneg (p.z * p.vT), sq_nonneg (p.z * p.vR - p.R * p.vz)]

/-- `(r vr)^2 = r^2 v^2 - L^2`. -/
theorem C50aux.radial (p : Point) :
    (p.R * p.vR + p.z * p.vz) ^ 2 + L2 p = (p.R ^ 2 + p.z ^ 2) * (p.vR ^ 2 + p.vT ^ 2 + p.vz ^ 2) := by
  rw [C50aux.L2_eq]
  unfold C50Spec.angmom2
  ring

/-- **C50 (Hamiltonian).** The energy of a bound orbit is the Hamiltonian at its actions, and the third action is the
angular momentum about the axis. -/
theorem C50_hamiltonian (amp b : ℝ) (ha : 0 < amp) (p : Point) (hE : C50Spec.energy amp b p < 0) :
    C50Spec.H amp b (actions amp b p).1 (actions amp b p).2.1 (actions amp b p).2.2 = C50Spec.energy amp b p
      ∧ (actions amp b p).2.1 = p.R * p.vT
      ∧ ((actions amp b p).2.2 + |(actions amp b p).2.1|) ^ 2 = C50Spec.angmom2 p := by
  have hl : L p ^ 2 = L2 p := sq_sqrt (C50aux.L2_nonneg p)
  have hr : 0 < -2 * C50Spec.energy amp b p := by linarith
  have hs : √(-2 * C50Spec.energy amp b p) ^ 2 = -2 * C50Spec.energy amp b p := sq_sqrt hr.le
  have hp : 0 < √(-2 * C50Spec.energy amp b p) := sqrt_pos.2 hr
  refine ⟨?_, rfl, ?_⟩
  · simp only [C50Spec.H, actions, Jr, Jz, C50aux.E_eq, sub_add_cancel, hl]
    field_simp
    rw [neg_mul] at hs
    linarith
  · simp only [actions, Jz, sub_add_cancel, hl, C50aux.L2_eq]

/-- **C50 (actions are nonnegative).** Every bound orbit has nonnegative radial and vertical action. -/
theorem C50_nonneg (amp b : ℝ) (ha : 0 < amp) (hb : 0 ≤ b) (p : Point) (hR : 0 < p.R)
    (hE : C50Spec.energy amp b p < 0) : 0 ≤ (actions amp b p).1 ∧ 0 ≤ (actions amp b p).2.2 := by
  refine ⟨?_, sub_nonneg.2 (C50aux.Lz_le p)⟩
  have hl : L p ^ 2 = L2 p := sq_sqrt (C50aux.L2_nonneg p)
  have hL0 : 0 ≤ L p := sqrt_nonneg _
  have hr : 0 < -2 * C50Spec.energy amp b p := by linarith
  have hp : 0 < √(-2 * C50Spec.energy amp b p) := sqrt_pos.2 hr
  have hab : 0 ≤ L2 p + 4 * amp * b := by
    have := C50aux.L2_nonneg p
    positivity
  set m := 1 / 2 * (L p + √(L2 p + 4 * amp * b)) with hm
  have hm0 : 0 ≤ m := by positivity
  have hm2 : m ^ 2 = m * L p + amp * b := by
    have := sq_sqrt hab
    rw [hm]
    nlinarith
  -- the radius
  set r2 := p.R ^ 2 + p.z ^ 2 with hr2
  have hr2p : 0 < r2 := by positivity
  set w := √(b ^ 2 + r2) with hw
  have hw2 : w ^ 2 = b ^ 2 + r2 := sq_sqrt (by positivity)
  have hbw : b < w := by
    rw [hw]
    exact lt_sqrt_of_sq_lt (by linarith)
  have hE2 : -2 * C50Spec.energy amp b p * r2 = 2 * amp * (w - b) - (p.R * p.vR + p.z * p.vz) ^ 2 - L2 p := by
    have h1 := C50aux.radial p
    rw [← hr2] at h1
    have h2 : amp / (b + w) * r2 = amp * (w - b) := by
      rw [div_mul_eq_mul_div, div_eq_iff (by linarith)]
      linear_combination (-amp) * hw2
    unfold C50Spec.energy
    rw [← hr2, ← hw]
    linear_combination 2 * h2 + h1
  have hkey : m ^ 2 * (-2 * C50Spec.energy amp b p) ≤ amp ^ 2 := by
    have h1 : m ^ 2 * (2 * amp * (w - b) - L2 p) ≤ amp ^ 2 * r2 := by
      have e : amp ^ 2 * r2 - m ^ 2 * (2 * amp * (w - b) - L2 p) = (amp * w - m ^ 2) ^ 2 := by
        have e1 : m ^ 2 * L2 p = (m ^ 2 - amp * b) ^ 2 := by
          rw [← hl, ← mul_pow]
          congr 1
          linarith
        linear_combination e1 + (-(amp ^ 2)) * hw2
      nlinarith [sq_nonneg (amp * w - m ^ 2)]
    have h2 : m ^ 2 * (-2 * C50Spec.energy amp b p) * r2 ≤ amp ^ 2 * r2 := by
      rw [mul_assoc, hE2]
      nlinarith [mul_nonneg (sq_nonneg m) (sq_nonneg (p.R * p.vR + p.z * p.vz))]
    exact le_of_mul_le_mul_right h2 hr2p
  have hle : m ≤ amp / √(-2 * C50Spec.energy amp b p) := by
    rw [le_div_iff₀ hp]
    refine abs_le_of_sq_le_sq' ?_ ha.le |>.2
    rw [mul_pow, sq_sqrt hr.le]
    exact hkey
  simp only [actions, Jr, C50aux.E_eq]
  linarith

theorem C50aux.rpow32 (x : ℝ) (hx : 0 ≤ x) : (x ^ 2) ^ (3 / 2 : ℝ) = x ^ 3 := by
  rw [← rpow_natCast x 2, ← rpow_mul hx, ← rpow_natCast x 3]
  congr 1
  norm_num

/-- The sum of actions `S` in `H = -amp^2 / (2 S^2)`. -/
def C50aux.S (amp b jr jphi jz : ℝ) : ℝ := jr + 1 / 2 * (jz + |jphi| + √((jz + |jphi|) ^ 2 + 4 * amp * b))

theorem C50aux.omegar (amp b jr jphi jz : ℝ) (ha : 0 < amp) (hS : 0 < C50aux.S amp b jr jphi jz) :
    invOmegar amp b jr jphi jz = amp ^ 2 / C50aux.S amp b jr jphi jz ^ 3 := by
  have e : -2 * invH amp b jr jphi jz = (amp / C50aux.S amp b jr jphi jz) ^ 2 := by
    have h2 : 2 * jr + invL jphi jz + invRoot amp b jphi jz = 2 * C50aux.S amp b jr jphi jz := by
      simp only [C50aux.S, invL, invRoot]
      rw [show (jz + |jphi|) ^ 2 + 4 * b * amp = (jz + |jphi|) ^ 2 + 4 * amp * b by ring]
      ring
    unfold invH
    rw [h2]
    field_simp
  unfold invOmegar
  rw [e, C50aux.rpow32 _ (by positivity)]
  field_simp

theorem C50aux.dS (amp b jr jphi jz l' x : ℝ) (f : ℝ → ℝ) (ha : 0 < amp) (hS : 0 < C50aux.S amp b jr jphi jz)
    (hroot : 0 < (jz + |jphi|) ^ 2 + 4 * amp * b) (hf : HasDerivAt f l' x) (hfx : f x = jz + |jphi|) :
    HasDerivAt (fun y => -(amp ^ 2) / (2 * (jr + 1 / 2 * (f y + √(f y ^ 2 + 4 * amp * b))) ^ 2))
      (l' * invOmegaz amp b jr jphi jz) x := by
  have hr := sqrt_pos.2 hroot
  have h1 : HasDerivAt (fun y => √(f y ^ 2 + 4 * amp * b))
      (2 * (jz + |jphi|) * l' / (2 * √((jz + |jphi|) ^ 2 + 4 * amp * b))) x := by
    have := (hd_sqrt ((hd_pow 2 hf).add_const (4 * amp * b)) (by rw [hfx]; exact hroot.ne'))
    refine this.congr_deriv ?_
    rw [hfx]
    norm_num
  have h2 := ((hd_pow 2 (((hf.add h1).const_mul (1 / 2)).const_add jr)).const_mul 2)
  have h3 := hd_div (hasDerivAt_const x (-(amp ^ 2))) h2 (by
    have := hS.ne'
    unfold C50aux.S at this
    simp only [Pi.add_apply, hfx]
    positivity)
  refine h3.congr_deriv ?_
  unfold invOmegaz
  rw [C50aux.omegar amp b jr jphi jz ha hS]
  have e : invRoot amp b jphi jz = √((jz + |jphi|) ^ 2 + 4 * amp * b) := by
    unfold invRoot invL
    congr 1
    ring
  rw [e]
  unfold invL C50aux.S
  simp only [Pi.add_apply, hfx]
  unfold C50aux.S at hS
  have hS' := hS.ne'
  have hr' := hr.ne'
  clear h1 h2 h3 e
  generalize √((jz + |jphi|) ^ 2 + 4 * amp * b) = q at *
  generalize jr + 1 / 2 * (jz + |jphi| + q) = T at *
  norm_num
  field_simp

/-- **C50 (frequencies).** The frequencies, from the actions or from the point, are the derivatives of the Hamiltonian with
respect to the actions, the one for the azimuth away from polar orbits, where `|Jphi|` is not differentiable. -/
theorem C50_frequencies (amp b jr jphi jz : ℝ) (ha : 0 < amp) (hb : 0 ≤ b) (hr : 0 ≤ jr) (hz : 0 ≤ jz)
    (hL : 0 < jz + |jphi|) :
    HasDerivAt (fun j => C50Spec.H amp b j jphi jz) (invFreqs amp b jr jphi jz).1 jr
      ∧ (jphi ≠ 0 → HasDerivAt (fun j => C50Spec.H amp b jr j jz) (invFreqs amp b jr jphi jz).2.1 jphi)
      ∧ HasDerivAt (fun j => C50Spec.H amp b jr jphi j) (invFreqs amp b jr jphi jz).2.2 jz := by
  have hroot : 0 < (jz + |jphi|) ^ 2 + 4 * amp * b := by positivity
  have hS : 0 < C50aux.S amp b jr jphi jz := by
    unfold C50aux.S
    have := sqrt_pos.2 hroot
    positivity
  refine ⟨?_, fun h => ?_, ?_⟩
  · have h1 : HasDerivAt (fun j => C50aux.S amp b j jphi jz) 1 jr := (hasDerivAt_id jr).add_const _
    have h2 := hd_div (hasDerivAt_const jr (-(amp ^ 2))) ((hd_pow 2 h1).const_mul 2) (by positivity)
    refine h2.congr_deriv ?_
    simp only [invFreqs, C50aux.omegar amp b jr jphi jz ha hS]
    field_simp
    norm_num
    ring
  · have hf : HasDerivAt (fun j => jz + |j|) (SignType.sign jphi : ℝ) jphi := (hasDerivAt_abs h).const_add jz
    exact C50aux.dS amp b jr jphi jz _ jphi (fun j => jz + |j|) ha hS hroot hf rfl
  · have hf : HasDerivAt (fun j => j + |jphi|) 1 jz := (hasDerivAt_id jz).add_const _
    refine (C50aux.dS amp b jr jphi jz _ jz (fun j => j + |jphi|) ha hS hroot hf rfl).congr_deriv ?_
    simp [invFreqs]

/-- **C50 (frequencies of a point).** The frequencies of a bound, non-polar orbit are those of its actions. -/
theorem C50_point_frequencies (amp b : ℝ) (ha : 0 < amp) (p : Point) (hE : C50Spec.energy amp b p < 0)
    (hL : p.R * p.vT ≠ 0) :
    freqs amp b p = invFreqs amp b (actions amp b p).1 (actions amp b p).2.1 (actions amp b p).2.2 := by
  have hl : L p ^ 2 = L2 p := sq_sqrt (C50aux.L2_nonneg p)
  have hr : 0 < -2 * C50Spec.energy amp b p := by linarith
  have hs : √(-2 * C50Spec.energy amp b p) ^ 2 = -2 * C50Spec.energy amp b p := sq_sqrt hr.le
  have hp : 0 < √(-2 * C50Spec.energy amp b p) := sqrt_pos.2 hr
  have eL : invL (Lz p) (Jz p) = L p := by
    unfold invL Jz
    ring
  have eroot : invRoot amp b (Lz p) (Jz p) = √(L2 p + 4 * amp * b) := by
    unfold invRoot
    rw [eL, hl]
    congr 1
    ring
  have eH : invH amp b (Jr amp b p) (Lz p) (Jz p) = E amp b p := by
    unfold invH
    rw [eL, eroot]
    have : 2 * Jr amp b p + L p + √(L2 p + 4 * amp * b) = 2 * (amp / √(-2 * E amp b p)) := by
      unfold Jr
      ring
    rw [this, C50aux.E_eq]
    field_simp
    rw [neg_mul] at hs
    linarith
  have er : invOmegar amp b (Jr amp b p) (Lz p) (Jz p) = Omegar amp b p := by
    unfold invOmegar Omegar
    rw [eH]
  have ez : invOmegaz amp b (Jr amp b p) (Lz p) (Jz p) = Omegaz amp b p := by
    unfold invOmegaz Omegaz
    rw [er, eL, eroot]
    ring
  simp only [freqs, invFreqs, actions, er, ez, Omegaphi]
  have hLz : Lz p ≠ 0 := hL
  rcases lt_or_gt_of_ne hLz with h | h
  · simp [h, sign_neg h]
  · simp [not_lt.2 h.le, sign_pos h]

/-- **C50 (polar orbits).** For polar orbits the two classes disagree about the frequency of the azimuth: from the point it is
the vertical frequency, from the actions zero. -/
theorem C50_polar_fails (amp b : ℝ) (ha : 0 < amp) (p : Point) (hE : C50Spec.energy amp b p < 0)
    (hT : p.vT = 0) : (freqs amp b p).2.1 = (freqs amp b p).2.2 ∧ 0 < (freqs amp b p).2.1
      ∧ (invFreqs amp b (actions amp b p).1 (actions amp b p).2.1 (actions amp b p).2.2).2.1 = 0 := by
  have h0 : Lz p = 0 := by simp [Lz, hT]
  have hr : 0 < -2 * C50Spec.energy amp b p := by linarith
  have hor : 0 < Omegar amp b p := by
    unfold Omegar
    rw [C50aux.E_eq]
    exact div_pos (rpow_pos_of_pos hr _) ha
  have hoz : 0 < Omegaz amp b p := by
    unfold Omegaz
    have : 0 ≤ L p / √(L2 p + 4 * amp * b) := div_nonneg (sqrt_nonneg _) (sqrt_nonneg _)
    positivity
  refine ⟨?_, ?_, ?_⟩
  · simp [freqs, Omegaphi, h0]
  · simpa [freqs, Omegaphi, h0] using hoz
  · simp [invFreqs, actions, h0]

/-- A bound orbit with all actions positive. -/
example : C50Spec.energy 4 0 ⟨1, 1, 1, 0, 1, 0⟩ < 0 ∧ 0 < (actions 4 0 ⟨1, 1, 1, 0, 1, 0⟩).2.2 := by
  constructor
  · norm_num [C50Spec.energy]
  · have e : L2 ⟨1, 1, 1, 0, 1, 0⟩ = 2 := by norm_num [L2, Lz]
    have h : (1 : ℝ) < √2 := by
      rw [lt_sqrt] <;> norm_num
    simp only [actions, Jz, L, e, Lz]
    norm_num
    exact h

end Verif
