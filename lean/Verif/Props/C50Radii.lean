import Verif.Props.C50

set_option autoImplicit false

/-!
# C50: pericentre, apocentre and maximum height of orbits in the isochrone potential
-/

noncomputable section
namespace Verif

open Real IsochroneAA

/-- The radius `r` is allowed: the radial kinetic energy there is not negative. -/
def C50Spec.Allowed (amp b : ℝ) (p : Point) (r : ℝ) : Prop :=
  C50Spec.angmom2 p / (2 * r ^ 2) - amp / (b + √(b ^ 2 + r ^ 2)) ≤ C50Spec.energy amp b p

/-- Allowed radii in terms of `q = sqrt(b^2 + r^2) - b`. -/
theorem C50aux.allowed_iff (amp b : ℝ) (hb : 0 ≤ b) (p : Point) (r : ℝ) (hr : 0 < r) :
    C50Spec.Allowed amp b p r ↔ 0 ≤ 2 * C50Spec.energy amp b p * r ^ 2 + 2 * amp * (√(b ^ 2 + r ^ 2) - b)
      - C50Spec.angmom2 p := by
  set w := √(b ^ 2 + r ^ 2) with hw
  have hw2 : w ^ 2 = b ^ 2 + r ^ 2 := sq_sqrt (by positivity)
  have hbw : b < w := by
    rw [hw]
    exact lt_sqrt_of_sq_lt (by nlinarith)
  unfold C50Spec.Allowed
  rw [← hw]
  have e : amp / (b + w) = amp * (w - b) / r ^ 2 := by
    rw [div_eq_div_iff (by linarith) (by positivity)]
    linear_combination (-amp) * hw2
  rw [e]
  have e2 : C50Spec.angmom2 p / (2 * r ^ 2) - amp * (w - b) / r ^ 2
      = (C50Spec.angmom2 p - 2 * amp * (w - b)) / (2 * r ^ 2) := by
    field_simp
  rw [e2, div_le_iff₀ (by positivity)]
  constructor <;> intro h <;> linarith

theorem C50aux.point_allowed (amp b : ℝ) (hb : 0 ≤ b) (p : Point) (hR : 0 < p.R) :
    C50Spec.Allowed amp b p √(p.R ^ 2 + p.z ^ 2) := by
  have h2 : √(p.R ^ 2 + p.z ^ 2) ^ 2 = p.R ^ 2 + p.z ^ 2 := sq_sqrt (by positivity)
  have h0 : 0 < √(p.R ^ 2 + p.z ^ 2) := sqrt_pos.2 (by positivity)
  unfold C50Spec.Allowed C50Spec.energy
  rw [h2]
  have := C50aux.radial p
  rw [C50aux.L2_eq] at this
  have h : C50Spec.angmom2 p / (2 * (p.R ^ 2 + p.z ^ 2)) ≤ (p.vR ^ 2 + p.vT ^ 2 + p.vz ^ 2) / 2 := by
    rw [div_le_iff₀ (by positivity)]
    nlinarith [sq_nonneg (p.R * p.vR + p.z * p.vz)]
  linarith

/-- `s sqrt(1 - 2/s) b` is `b sqrt(s^2 - 2 s)`. -/
theorem C50aux.root (b s : ℝ) (hs : 2 ≤ s) : s * √(1 - 2 / s) * b = √(s ^ 2 - 2 * s) * b := by
  congr 1
  rw [← sqrt_sq (show 0 ≤ s by linarith), ← sqrt_mul (by positivity), sqrt_sq (by linarith)]
  congr 1
  field_simp

theorem C50aux.root_le (b s s' : ℝ) (hb : 0 < b) (hs : 2 ≤ s) (hs' : 2 ≤ s') :
    √(s ^ 2 - 2 * s) * b ≤ √(s' ^ 2 - 2 * s') * b ↔ s ≤ s' := by
  rw [mul_le_mul_iff_left₀ hb, sqrt_le_sqrt_iff (by nlinarith)]
  constructor
  · intro h
    by_contra hc
    push Not at hc
    nlinarith
  · intro h
    nlinarith

/-- **C50 (pericentre and apocentre).** The radii between the returned pericentre and apocentre are exactly those that an orbit with
this energy and angular momentum can reach. -/
theorem C50_peri_apo (amp b : ℝ) (ha : 0 < amp) (hb : 0 ≤ b) (p : Point) (hR : 0 < p.R)
    (hE : C50Spec.energy amp b p < 0) (r : ℝ) (hr : 0 < r) :
    (rperi amp b p ≤ r ∧ r ≤ rap amp b p) ↔ C50Spec.Allowed amp b p r := by
  have hp := C50aux.point_allowed amp b hb p hR
  have hr0 : 0 < √(p.R ^ 2 + p.z ^ 2) := sqrt_pos.2 (by positivity)
  rw [C50aux.allowed_iff amp b hb p _ hr0] at hp
  rw [C50aux.allowed_iff amp b hb p r hr]
  have hL2 : 0 ≤ C50Spec.angmom2 p := by
    rw [← C50aux.L2_eq]
    exact C50aux.L2_nonneg p
  have hEmin : 0 ≤ 2 * C50Spec.energy amp b p * b + amp := by
    rcases hb.eq_or_lt with rfl | hb0
    · simp [ha.le]
    have hw : b ≤ √(b ^ 2 + (p.R ^ 2 + p.z ^ 2)) := le_sqrt_of_sq_le (by nlinarith [sq_nonneg p.R, sq_nonneg p.z])
    have h1 : -(amp / (b + √(b ^ 2 + (p.R ^ 2 + p.z ^ 2)))) ≤ C50Spec.energy amp b p := by
      unfold C50Spec.energy
      nlinarith [sq_nonneg p.vR, sq_nonneg p.vT, sq_nonneg p.vz]
    have h2 : amp / (b + √(b ^ 2 + (p.R ^ 2 + p.z ^ 2))) ≤ amp / (2 * b) :=
      div_le_div_of_nonneg_left ha.le (by linarith) (by linarith)
    have h3 : -(amp / (2 * b)) ≤ C50Spec.energy amp b p := by linarith
    have h4 : amp / (2 * b) * (2 * b) = amp := by field_simp
    nlinarith
  unfold rperi rap
  rcases eq_or_ne b 0 with rfl | hb0
  · -- point mass
    simp only [↓reduceIte, C50aux.E_eq, C50aux.L2_eq]
    generalize √(p.R ^ 2 + p.z ^ 2) = r0 at *
    generalize C50Spec.energy amp 0 p = En at *
    have hE0 := hE.ne
    generalize C50Spec.angmom2 p = A at *
    set a := -amp / 2 / En with haa
    have ha2 : -2 * En * a = amp := by
      rw [haa]
      field_simp
    have ha0 : 0 < a := by
      rw [haa]
      exact div_pos_of_neg_of_neg (by linarith) hE
    have key : ∀ x, 0 < x → (0 ≤ 2 * En * x ^ 2 + 2 * amp * (√(0 ^ 2 + x ^ 2) - 0) - A
        ↔ (x - a) ^ 2 ≤ a ^ 2 * (1 - A / amp / a)) := by
      intro x hx
      have e1 : √(0 ^ 2 + x ^ 2) - 0 = x := by
        rw [zero_pow (by norm_num), zero_add, sqrt_sq hx.le, sub_zero]
      have e2 : a ^ 2 * (1 - A / amp / a) = a ^ 2 - a * A / amp := by
        field_simp
      have e3 : a / amp = 1 / (-2 * En) := by
        rw [div_eq_div_iff ha.ne' (by linarith)]
        linarith
      have e4 : a * A / amp = A / (-2 * En) := by
        rw [mul_div_right_comm, e3]
        ring
      have e5 : A / (-2 * En) * (-2 * En) = A := by
        have : -2 * En ≠ 0 := by linarith
        field_simp
      have hpos : 0 < -2 * En := by linarith
      rw [e1, e2, e4]
      have e6 : 2 * En * x ^ 2 + 2 * amp * x - A = (-2 * En) * (a ^ 2 - A / (-2 * En) - (x - a) ^ 2) := by
        rw [mul_sub, mul_sub, mul_comm (-2 * En) (A / (-2 * En)), e5, ← ha2]
        ring
      rw [e6, mul_nonneg_iff_of_pos_left hpos, sub_nonneg]
    have hD : 0 ≤ a ^ 2 * (1 - A / amp / a) := le_trans (sq_nonneg _) ((key r0 hr0).1 hp)
    have hd : 0 ≤ 1 - A / amp / a := by
      by_contra hc
      push Not at hc
      have : a ^ 2 * (1 - A / amp / a) < 0 := mul_neg_of_pos_of_neg (by positivity) hc
      linarith
    rw [key r hr]
    have e : a ^ 2 * (1 - A / amp / a) = (a * √(1 - A / amp / a)) ^ 2 := by
      rw [mul_pow, sq_sqrt hd]
    rw [e, sq_le_sq, abs_of_nonneg (show 0 ≤ a * √(1 - A / amp / a) by positivity), abs_le]
    constructor
    · rintro ⟨h1, h2⟩
      constructor <;> linarith
    · rintro ⟨h1, h2⟩
      constructor <;> linarith
  · have hbp : 0 < b := lt_of_le_of_ne hb hb0.symm
    rw [if_neg hb0, if_neg hb0]
    unfold smax smin
    simp only [C50aux.E_eq, C50aux.L2_eq]
    generalize √(p.R ^ 2 + p.z ^ 2) = r0 at *
    generalize C50Spec.energy amp b p = En at *
    have hE0 := hE.ne
    generalize C50Spec.angmom2 p = A at *
    set B := 2 * En - amp / b with hB
    set D := B ^ 2 + 2 * En * (4 * amp / b + A / b ^ 2) with hDdef
    have key : ∀ x, 0 < x → (0 ≤ 2 * En * x ^ 2 + 2 * amp * (√(b ^ 2 + x ^ 2) - b) - A
        ↔ (2 * En * (1 + √(1 + x ^ 2 / b ^ 2)) - B) ^ 2 ≤ D) := by
      intro x hx
      have e1 : √(b ^ 2 + x ^ 2) = b * √(1 + x ^ 2 / b ^ 2) := by
        rw [show b ^ 2 + x ^ 2 = b ^ 2 * (1 + x ^ 2 / b ^ 2) by field_simp, sqrt_mul (by positivity), sqrt_sq hb]
      have e2 : √(1 + x ^ 2 / b ^ 2) ^ 2 = 1 + x ^ 2 / b ^ 2 := sq_sqrt (by positivity)
      have e3 : x ^ 2 = b ^ 2 * (√(1 + x ^ 2 / b ^ 2) ^ 2 - 1) := by
        rw [e2]
        field_simp
        ring
      rw [e1]
      generalize √(1 + x ^ 2 / b ^ 2) = q at *
      rw [e3]
      have e4 : D - (2 * En * (1 + q) - B) ^ 2
          = -2 * En / b ^ 2 * (2 * En * (b ^ 2 * (q ^ 2 - 1)) + 2 * amp * (b * q - b) - A) := by
        rw [hDdef, hB]
        field_simp
        ring
      rw [← sub_nonneg (b := (2 * En * (1 + q) - B) ^ 2), e4, mul_nonneg_iff_of_pos_left]
      exact div_pos (by linarith) (by positivity)
    have hD : 0 ≤ D := le_trans (sq_nonneg _) ((key r0 hr0).1 hp)
    have hD2 : √D ≤ 2 * En + amp / b := by
      have h1 : 0 ≤ 2 * En + amp / b := by
        have : 2 * En + amp / b = (2 * En * b + amp) / b := by field_simp
        rw [this]
        positivity
      refine sqrt_le_iff.2 ⟨h1, ?_⟩
      have e : D = (2 * En + amp / b) ^ 2 + 2 * En * (A / b ^ 2) := by
        rw [hDdef, hB]
        field_simp
        ring
      have : 0 ≤ A / b ^ 2 := by positivity
      rw [e]
      nlinarith
    have hs0 := sqrt_nonneg D
    have e1 : 1 / 2 * (B + √D) / En = (B + √D) / (2 * En) := by
      field_simp
    have e2 : 2 - amp / En / b - (B + √D) / (2 * En) = (B - √D) / (2 * En) := by
      rw [hB]
      field_simp
      ring
    rw [e1, e2]
    have h2E : 2 * En < 0 := by linarith
    have hmin : 2 ≤ (B + √D) / (2 * En) := by
      rw [le_div_iff_of_neg h2E]
      linarith
    have hmax : 2 ≤ (B - √D) / (2 * En) := by
      refine le_trans hmin ?_
      exact div_le_div_of_nonpos_of_le h2E.le (by linarith)
    set s := 1 + √(1 + r ^ 2 / b ^ 2) with hs
    have hs2 : 2 ≤ s := by
      have : 1 ≤ √(1 + r ^ 2 / b ^ 2) := one_le_sqrt.2 (by
        have : 0 ≤ r ^ 2 / b ^ 2 := by positivity
        linarith)
      linarith
    have er : √(s ^ 2 - 2 * s) * b = r := by
      have h1 : √(1 + r ^ 2 / b ^ 2) ^ 2 = 1 + r ^ 2 / b ^ 2 := sq_sqrt (by positivity)
      have : s ^ 2 - 2 * s = (r / b) ^ 2 := by
        rw [hs, div_pow]
        linear_combination h1
      rw [this, sqrt_sq (by positivity)]
      field_simp
    rw [C50aux.root b _ hmin, C50aux.root b _ hmax, ← er, C50aux.root_le b _ _ hbp hmin hs2,
      C50aux.root_le b _ _ hbp hs2 hmax, er, key r hr, ← hs, ← sq_sqrt hD, sq_le_sq, abs_of_nonneg hs0, abs_le,
      div_le_iff_of_neg h2E, le_div_iff_of_neg h2E, sq_sqrt hD]
    constructor
    · rintro ⟨h1, h2⟩
      constructor <;> linarith
    · rintro ⟨h1, h2⟩
      constructor <;> linarith

/-- **C50 (along the orbit).** The current radius lies between pericentre and apocentre, and the current height does not exceed the
maximum height. -/
theorem C50_bounds (amp b : ℝ) (ha : 0 < amp) (hb : 0 ≤ b) (p : Point) (hR : 0 < p.R)
    (hE : C50Spec.energy amp b p < 0) (hL : 0 < C50Spec.angmom2 p) :
    (eccZmaxRperiRap amp b p).2.2.1 ≤ √(p.R ^ 2 + p.z ^ 2) ∧ √(p.R ^ 2 + p.z ^ 2) ≤ (eccZmaxRperiRap amp b p).2.2.2
      ∧ |p.z| ≤ (eccZmaxRperiRap amp b p).2.1 := by
  have hr0 : 0 < √(p.R ^ 2 + p.z ^ 2) := sqrt_pos.2 (by positivity)
  obtain ⟨h1, h2⟩ := (C50_peri_apo amp b ha hb p hR hE _ hr0).2 (C50aux.point_allowed amp b hb p hR)
  refine ⟨h1, h2, ?_⟩
  have h3 : |p.z| ≤ √(p.R ^ 2 + p.z ^ 2) * √(1 - Lz p ^ 2 / L2 p) := by
    rw [← sqrt_mul (by positivity)]
    refine abs_le_sqrt ?_
    rw [C50aux.L2_eq]
    have e : (p.R ^ 2 + p.z ^ 2) * (1 - Lz p ^ 2 / C50Spec.angmom2 p) - p.z ^ 2
        = (p.R * (p.z * p.vR - p.R * p.vz)) ^ 2 / C50Spec.angmom2 p := by
      field_simp
      unfold C50Spec.angmom2 Lz
      ring
    have : 0 ≤ (p.R * (p.z * p.vR - p.R * p.vz)) ^ 2 / C50Spec.angmom2 p := by positivity
    linarith
  exact h3.trans (mul_le_mul_of_nonneg_right h2 (sqrt_nonneg _))

/-- For the circular orbit of the point mass both radii are the radius of the orbit. -/
example : rperi 1 0 ⟨1, 0, 1, 0, 0, 0⟩ = 1 ∧ rap 1 0 ⟨1, 0, 1, 0, 0, 0⟩ = 1 := by
  have e : E 1 0 ⟨1, 0, 1, 0, 0, 0⟩ = -1 / 2 := by norm_num [E, Isochrone.evaluate]
  have e2 : L2 ⟨1, 0, 1, 0, 0, 0⟩ = 1 := by norm_num [L2, Lz]
  constructor <;> norm_num [rperi, rap, e, e2]

end Verif
