import Verif.Lemmas.Pot.Sum

set_option autoImplicit false

/-!
# Products of a radial, a polar and an azimuthal function

`F(r) A(cos θ) G(φ)` in cylindrical coordinates, and finite sums of them: gradient, second derivatives, Poisson's equation.
-/

noncomputable section
open Real Filter Topology

namespace Verif

/-- A product term with the derivatives of its factors and a radial density. -/
structure SHTerm where
  F : ℝ → ℝ
  F1 : ℝ → ℝ
  F2 : ℝ → ℝ
  A : ℝ → ℝ
  A1 : ℝ → ℝ
  A2 : ℝ → ℝ
  G : ℝ → ℝ
  G1 : ℝ → ℝ
  G2 : ℝ → ℝ
  rho : ℝ → ℝ

namespace SHTerm

/-- The named derivatives are derivatives and Poisson's equation holds in spherical coordinates. -/
structure Ok (T : SHTerm) : Prop where
  dF : ∀ r, 0 < r → HasDerivAt T.F (T.F1 r) r
  dF1 : ∀ r, 0 < r → HasDerivAt T.F1 (T.F2 r) r
  dA : ∀ x, x ^ 2 < 1 → HasDerivAt T.A (T.A1 x) x
  dA1 : ∀ x, x ^ 2 < 1 → HasDerivAt T.A1 (T.A2 x) x
  dG : ∀ φ, HasDerivAt T.G (T.G1 φ) φ
  dG1 : ∀ φ, HasDerivAt T.G1 (T.G2 φ) φ
  poisson : ∀ r x φ, 0 < r → x ^ 2 < 1 → 4 * π * (T.rho r * T.A x * T.G φ)
    = T.F2 r * T.A x * T.G φ + 2 / r * T.F1 r * T.A x * T.G φ
      + T.F r / r ^ 2 * ((1 - x ^ 2) * T.A2 x - 2 * x * T.A1 x) * T.G φ
      + T.F r * T.A x * T.G2 φ / (r ^ 2 * (1 - x ^ 2))

/-- The cylindrical methods of a term, by the chain rule from spherical coordinates. -/
def pot (T : ℝ → SHTerm) : Pot where
  val := fun R z φ t => (T t).F (√(R ^ 2 + z ^ 2)) * (T t).A (z / √(R ^ 2 + z ^ 2)) * (T t).G φ
  Rforce := fun R z φ t =>
    let w := √(R ^ 2 + z ^ 2);
    -((T t).F1 w * (T t).A (z / w) * (T t).G φ) * (R / w)
      + (T t).F w * (T t).A1 (z / w) * (T t).G φ * (R / w) * (z / w ^ 2)
  zforce := fun R z φ t =>
    let w := √(R ^ 2 + z ^ 2);
    -((T t).F1 w * (T t).A (z / w) * (T t).G φ) * (z / w)
      - (T t).F w * (T t).A1 (z / w) * (T t).G φ * (R / w) * (R / w ^ 2)
  phitorque := fun R z φ t => -((T t).F (√(R ^ 2 + z ^ 2)) * (T t).A (z / √(R ^ 2 + z ^ 2)) * (T t).G1 φ)
  R2deriv := fun R z φ t =>
    let w := √(R ^ 2 + z ^ 2);
    (T t).F2 w * (T t).A (z / w) * (T t).G φ * R * R / w ^ 2
      + (T t).F1 w * (T t).A (z / w) * (T t).G φ * z * z / w ^ 3
      - 2 * ((T t).F1 w * (T t).A1 (z / w) * (R / w) * (T t).G φ) * R * z / w ^ 3
      + (T t).F w * ((T t).A2 (z / w) * (R / w) ^ 2 - (T t).A1 (z / w) * (z / w)) * (T t).G φ * z * z / w ^ 4
      + (T t).F w * (T t).A1 (z / w) * (R / w) * (T t).G φ * (2 * R * z) / w ^ 4
  z2deriv := fun R z φ t =>
    let w := √(R ^ 2 + z ^ 2);
    (T t).F2 w * (T t).A (z / w) * (T t).G φ * z * z / w ^ 2
      + (T t).F1 w * (T t).A (z / w) * (T t).G φ * R * R / w ^ 3
      + 2 * ((T t).F1 w * (T t).A1 (z / w) * (R / w) * (T t).G φ) * z * R / w ^ 3
      + (T t).F w * ((T t).A2 (z / w) * (R / w) ^ 2 - (T t).A1 (z / w) * (z / w)) * (T t).G φ * R * R / w ^ 4
      - (T t).F w * (T t).A1 (z / w) * (R / w) * (T t).G φ * 2 * R * z / w ^ 4
  Rzderiv := fun R z φ t =>
    let w := √(R ^ 2 + z ^ 2);
    (T t).F2 w * (T t).A (z / w) * (T t).G φ * R * z / w ^ 2
      + (T t).F1 w * (T t).A (z / w) * (T t).G φ * (-R * z) / w ^ 3
      - (T t).F1 w * (T t).A1 (z / w) * (R / w) * (T t).G φ * (z * z - R * R) / w ^ 3
      + (T t).F w * ((T t).A2 (z / w) * (R / w) ^ 2 - (T t).A1 (z / w) * (z / w)) * (T t).G φ * (-z * R) / w ^ 4
      - (T t).F w * (T t).A1 (z / w) * (R / w) * (T t).G φ * (R * R - z * z) / w ^ 4
  phi2deriv := fun R z φ t => (T t).F (√(R ^ 2 + z ^ 2)) * (T t).A (z / √(R ^ 2 + z ^ 2)) * (T t).G2 φ
  Rphideriv := fun R z φ t =>
    let w := √(R ^ 2 + z ^ 2);
    (T t).F1 w * (T t).A (z / w) * (T t).G1 φ * R / w - (T t).F w * (T t).A1 (z / w) * (R / w) * (T t).G1 φ * z / w ^ 2
  phizderiv := fun R z φ t =>
    let w := √(R ^ 2 + z ^ 2);
    (T t).F1 w * (T t).A (z / w) * (T t).G1 φ * z / w - (T t).F w * (T t).A1 (z / w) * (R / w) * (T t).G1 φ * (-R) / w ^ 2
  dens := fun R z φ t => (T t).rho (√(R ^ 2 + z ^ 2)) * (T t).A (z / √(R ^ 2 + z ^ 2)) * (T t).G φ

section chain
variable {R z : ℝ}

theorem u_pos (hR : 0 < R) : 0 < R ^ 2 + z ^ 2 := by positivity

theorem w_pos (hR : 0 < R) : 0 < √(R ^ 2 + z ^ 2) := sqrt_pos.2 (u_pos hR)

theorem w_sq (hR : 0 < R) : √(R ^ 2 + z ^ 2) ^ 2 = R ^ 2 + z ^ 2 := sq_sqrt (u_pos hR).le

theorem x_lt (hR : 0 < R) : (z / √(R ^ 2 + z ^ 2)) ^ 2 < 1 := by
  rw [div_pow, w_sq hR, div_lt_one (u_pos hR)]
  have : 0 < R ^ 2 := by positivity
  linarith

theorem dwR (hR : 0 < R) : HasDerivAt (fun x : ℝ => √(x ^ 2 + z ^ 2)) (R / √(R ^ 2 + z ^ 2)) R := by
  have h : HasDerivAt (fun x : ℝ => x ^ 2 + z ^ 2) (2 * R) R := by
    simpa using (hd_pow 2 (hd_id R)).add_const (z ^ 2)
  refine (hd_sqrt h (u_pos hR).ne').congr_deriv ?_
  have := (w_pos (z := z) hR).ne'
  field_simp

theorem dwz (hR : 0 < R) : HasDerivAt (fun x : ℝ => √(R ^ 2 + x ^ 2)) (z / √(R ^ 2 + z ^ 2)) z := by
  have h : HasDerivAt (fun x : ℝ => R ^ 2 + x ^ 2) (2 * z) z := by
    simpa using (hd_pow 2 (hd_id z)).const_add (R ^ 2)
  refine (hd_sqrt h (u_pos hR).ne').congr_deriv ?_
  have := (w_pos (z := z) hR).ne'
  field_simp

theorem dxR (hR : 0 < R) :
    HasDerivAt (fun x : ℝ => z / √(x ^ 2 + z ^ 2)) (-(R * z) / √(R ^ 2 + z ^ 2) ^ 3) R := by
  have := (w_pos (z := z) hR).ne'
  refine (hd_div (hd_const z R) (dwR (z := z) hR) this).congr_deriv ?_
  field_simp
  ring

theorem dxz (hR : 0 < R) :
    HasDerivAt (fun x : ℝ => x / √(R ^ 2 + x ^ 2)) (R ^ 2 / √(R ^ 2 + z ^ 2) ^ 3) z := by
  have := (w_pos (z := z) hR).ne'
  refine (hd_div (hd_id z) (dwz (z := z) hR) this).congr_deriv ?_
  have e := w_sq (z := z) hR
  field_simp
  linear_combination e

theorem compR {f f1 : ℝ → ℝ} (hR : 0 < R) (h : ∀ r, 0 < r → HasDerivAt f (f1 r) r) :
    HasDerivAt (fun x : ℝ => f (√(x ^ 2 + z ^ 2))) (f1 (√(R ^ 2 + z ^ 2)) * (R / √(R ^ 2 + z ^ 2))) R :=
  HasDerivAt.comp (h₂ := f) R (h _ (w_pos hR)) (dwR hR)

theorem compz {f f1 : ℝ → ℝ} (hR : 0 < R) (h : ∀ r, 0 < r → HasDerivAt f (f1 r) r) :
    HasDerivAt (fun x : ℝ => f (√(R ^ 2 + x ^ 2))) (f1 (√(R ^ 2 + z ^ 2)) * (z / √(R ^ 2 + z ^ 2))) z :=
  HasDerivAt.comp (h₂ := f) z (h _ (w_pos hR)) (dwz hR)

theorem acompR {f f1 : ℝ → ℝ} (hR : 0 < R) (h : ∀ x, x ^ 2 < 1 → HasDerivAt f (f1 x) x) :
    HasDerivAt (fun x : ℝ => f (z / √(x ^ 2 + z ^ 2)))
      (f1 (z / √(R ^ 2 + z ^ 2)) * (-(R * z) / √(R ^ 2 + z ^ 2) ^ 3)) R :=
  HasDerivAt.comp (h₂ := f) R (h _ (x_lt hR)) (dxR hR)

theorem acompz {f f1 : ℝ → ℝ} (hR : 0 < R) (h : ∀ x, x ^ 2 < 1 → HasDerivAt f (f1 x) x) :
    HasDerivAt (fun x : ℝ => f (x / √(R ^ 2 + x ^ 2)))
      (f1 (z / √(R ^ 2 + z ^ 2)) * (R ^ 2 / √(R ^ 2 + z ^ 2) ^ 3)) z :=
  HasDerivAt.comp (h₂ := f) z (h _ (x_lt hR)) (dxz hR)

end chain

/-- The half space the statements are about. -/
def D (R _z _φ : ℝ) : Prop := 0 < R

theorem D_open : AxisOpen D :=
  ⟨fun _ _ _ h => lt_mem_nhds h, fun _ _ _ h => Eventually.of_forall fun _ => h,
    fun _ _ _ h => Eventually.of_forall fun _ => h⟩

theorem grad {T : ℝ → SHTerm} (h : ∀ t, (T t).Ok) {R : ℝ} (z φ t : ℝ) (hR : 0 < R) : GradAt (pot T) R z φ t := by
  have hw := (w_pos (z := z) hR).ne'
  have e := w_sq (z := z) hR
  constructor
  · refine (hd_mul_const _ (hd_mul (compR hR (h t).dF) (acompR hR (h t).dA))).congr_deriv ?_
    simp only [pot]
    generalize √(R ^ 2 + z ^ 2) = w at *
    field_simp
    ring
  · refine (hd_mul_const _ (hd_mul (compz hR (h t).dF) (acompz hR (h t).dA))).congr_deriv ?_
    simp only [pot]
    generalize √(R ^ 2 + z ^ 2) = w at *
    field_simp
    ring
  · refine (hd_const_mul _ ((h t).dG φ)).congr_deriv ?_
    simp only [pot]
    ring

theorem forceHess {T : ℝ → SHTerm} (h : ∀ t, (T t).Ok) {R : ℝ} (z φ t : ℝ) (hR : 0 < R) :
    ForceHess (pot T) R z φ t := by
  have hw := (w_pos (z := z) hR).ne'
  have e := w_sq (z := z) hR
  have FR := compR (z := z) hR (h t).dF
  have F1R := compR (z := z) hR (h t).dF1
  have AR := acompR (z := z) hR (h t).dA
  have A1R := acompR (z := z) hR (h t).dA1
  have Fz := compz (z := z) hR (h t).dF
  have F1z := compz (z := z) hR (h t).dF1
  have Az := acompz (z := z) hR (h t).dA
  have A1z := acompz (z := z) hR (h t).dA1
  have wR := dwR (z := z) hR
  have wz := dwz (z := z) hR
  have G0 := (h t).dG φ
  have G1 := (h t).dG1 φ
  constructor
  · refine (hd_add (hd_mul (hd_neg (hd_mul_const _ (hd_mul F1R AR))) (hd_div (hd_id R) wR hw))
      (hd_mul (hd_mul (hd_mul_const _ (hd_mul FR A1R)) (hd_div (hd_id R) wR hw))
        (hd_div (hd_const z R) (hd_pow 2 wR) (pow_ne_zero 2 hw)))).congr_deriv ?_
    simp only [pot]
    clear FR F1R AR A1R Fz F1z Az A1z wR wz G0 G1
    generalize √(R ^ 2 + z ^ 2) = w at *
    generalize (T t).F w = f0
    generalize (T t).F1 w = f1
    try generalize (T t).F2 w = f2
    generalize (T t).A (z / w) = a0
    generalize (T t).A1 (z / w) = a1
    try generalize (T t).A2 (z / w) = a2
    try generalize (T t).G φ = g0
    try generalize (T t).G1 φ = g1
    try generalize (T t).G2 φ = g2
    field_simp
    norm_num
    linear_combination -(g0 * w ^ 3 * a0 * f1 - g0 * w * a1 * z * f0) * e
  · refine (hd_add (hd_mul (hd_neg (hd_mul_const _ (hd_mul F1z Az))) (hd_div (hd_const R z) wz hw))
      (hd_mul (hd_mul (hd_mul_const _ (hd_mul Fz A1z)) (hd_div (hd_const R z) wz hw))
        (hd_div (hd_id z) (hd_pow 2 wz) (pow_ne_zero 2 hw)))).congr_deriv ?_
    simp only [pot]
    clear FR F1R AR A1R Fz F1z Az A1z wR wz G0 G1
    generalize √(R ^ 2 + z ^ 2) = w at *
    generalize (T t).F w = f0
    generalize (T t).F1 w = f1
    try generalize (T t).F2 w = f2
    generalize (T t).A (z / w) = a0
    generalize (T t).A1 (z / w) = a1
    try generalize (T t).A2 (z / w) = a2
    try generalize (T t).G φ = g0
    try generalize (T t).G1 φ = g1
    try generalize (T t).G2 φ = g2
    field_simp
    norm_num
    linear_combination (g0 * w * R * a1 * f0) * e
  · refine (hd_add (hd_mul_const _ (hd_neg (hd_const_mul _ G0))) (hd_mul_const _ (hd_mul_const _ (hd_const_mul _ G0)))).congr_deriv ?_
    simp only [pot]
    clear FR F1R AR A1R Fz F1z Az A1z wR wz G0 G1
    generalize √(R ^ 2 + z ^ 2) = w at *
    generalize (T t).F w = f0
    generalize (T t).F1 w = f1
    try generalize (T t).F2 w = f2
    generalize (T t).A (z / w) = a0
    generalize (T t).A1 (z / w) = a1
    try generalize (T t).A2 (z / w) = a2
    try generalize (T t).G φ = g0
    try generalize (T t).G1 φ = g1
    try generalize (T t).G2 φ = g2
    field_simp
    ring
  · refine (hd_sub (hd_mul (hd_neg (hd_mul_const _ (hd_mul F1R AR))) (hd_div (hd_const z R) wR hw))
      (hd_mul (hd_mul (hd_mul_const _ (hd_mul FR A1R)) (hd_div (hd_id R) wR hw))
        (hd_div (hd_id R) (hd_pow 2 wR) (pow_ne_zero 2 hw)))).congr_deriv ?_
    simp only [pot]
    clear FR F1R AR A1R Fz F1z Az A1z wR wz G0 G1
    generalize √(R ^ 2 + z ^ 2) = w at *
    generalize (T t).F w = f0
    generalize (T t).F1 w = f1
    try generalize (T t).F2 w = f2
    generalize (T t).A (z / w) = a0
    generalize (T t).A1 (z / w) = a1
    try generalize (T t).A2 (z / w) = a2
    try generalize (T t).G φ = g0
    try generalize (T t).G1 φ = g1
    try generalize (T t).G2 φ = g2
    field_simp
    norm_num
    linear_combination -(2 * g0 * w * R * a1 * f0) * e
  · refine (hd_sub (hd_mul (hd_neg (hd_mul_const _ (hd_mul F1z Az))) (hd_div (hd_id z) wz hw))
      (hd_mul (hd_mul (hd_mul_const _ (hd_mul Fz A1z)) (hd_div (hd_const R z) wz hw))
        (hd_div (hd_const R z) (hd_pow 2 wz) (pow_ne_zero 2 hw)))).congr_deriv ?_
    simp only [pot]
    clear FR F1R AR A1R Fz F1z Az A1z wR wz G0 G1
    generalize √(R ^ 2 + z ^ 2) = w at *
    generalize (T t).F w = f0
    generalize (T t).F1 w = f1
    try generalize (T t).F2 w = f2
    generalize (T t).A (z / w) = a0
    generalize (T t).A1 (z / w) = a1
    try generalize (T t).A2 (z / w) = a2
    try generalize (T t).G φ = g0
    try generalize (T t).G1 φ = g1
    try generalize (T t).G2 φ = g2
    field_simp
    norm_num
    linear_combination -(g0 * w ^ 3 * a0 * f1) * e
  · refine (hd_sub (hd_mul_const _ (hd_neg (hd_const_mul _ G0))) (hd_mul_const _ (hd_mul_const _ (hd_const_mul _ G0)))).congr_deriv ?_
    simp only [pot]
    clear FR F1R AR A1R Fz F1z Az A1z wR wz G0 G1
    generalize √(R ^ 2 + z ^ 2) = w at *
    generalize (T t).F w = f0
    generalize (T t).F1 w = f1
    try generalize (T t).F2 w = f2
    generalize (T t).A (z / w) = a0
    generalize (T t).A1 (z / w) = a1
    try generalize (T t).A2 (z / w) = a2
    try generalize (T t).G φ = g0
    try generalize (T t).G1 φ = g1
    try generalize (T t).G2 φ = g2
    field_simp
    ring
  · refine (hd_neg (hd_mul_const _ (hd_mul FR AR))).congr_deriv ?_
    simp only [pot]
    clear FR F1R AR A1R Fz F1z Az A1z wR wz G0 G1
    generalize √(R ^ 2 + z ^ 2) = w at *
    generalize (T t).F w = f0
    generalize (T t).F1 w = f1
    try generalize (T t).F2 w = f2
    generalize (T t).A (z / w) = a0
    generalize (T t).A1 (z / w) = a1
    try generalize (T t).A2 (z / w) = a2
    try generalize (T t).G φ = g0
    try generalize (T t).G1 φ = g1
    try generalize (T t).G2 φ = g2
    field_simp
    ring
  · refine (hd_neg (hd_mul_const _ (hd_mul Fz Az))).congr_deriv ?_
    simp only [pot]
    clear FR F1R AR A1R Fz F1z Az A1z wR wz G0 G1
    generalize √(R ^ 2 + z ^ 2) = w at *
    generalize (T t).F w = f0
    generalize (T t).F1 w = f1
    try generalize (T t).F2 w = f2
    generalize (T t).A (z / w) = a0
    generalize (T t).A1 (z / w) = a1
    try generalize (T t).A2 (z / w) = a2
    try generalize (T t).G φ = g0
    try generalize (T t).G1 φ = g1
    try generalize (T t).G2 φ = g2
    field_simp
    ring
  · refine (hd_neg (hd_const_mul _ G1)).congr_deriv ?_
    simp only [pot]

theorem poissonAlg {T : ℝ → SHTerm} (h : ∀ t, (T t).Ok) {R : ℝ} (z φ t : ℝ) (hR : 0 < R) :
    PoissonAlg (pot T) R z φ t := by
  have hw := (w_pos (z := z) hR).ne'
  have e := w_sq (z := z) hR
  have p := (h t).poisson _ _ φ (w_pos (z := z) hR) (x_lt (z := z) hR)
  have hx : 1 - (z / √(R ^ 2 + z ^ 2)) ^ 2 = R ^ 2 / √(R ^ 2 + z ^ 2) ^ 2 := by
    field_simp
    linear_combination e
  rw [hx] at p
  simp only [PoissonAlg, pot]
  rw [p]
  generalize √(R ^ 2 + z ^ 2) = w at *
  generalize (T t).F w = f0
  generalize (T t).F1 w = f1
  generalize (T t).F2 w = f2
  generalize (T t).A (z / w) = a0
  generalize (T t).A1 (z / w) = a1
  generalize (T t).A2 (z / w) = a2
  generalize (T t).G φ = g0
  generalize (T t).G2 φ = g2
  clear p
  have hR' := hR.ne'
  field_simp
  linear_combination (-(w * g0 * R ^ 2 * f0 * z * a1) + g0 * R ^ 4 * f0 * a2 + w ^ 3 * g0 * R ^ 2 * a0 * f1
    + w ^ 4 * g0 * R ^ 2 * a0 * f2) * e

theorem consistent {T : ℝ → SHTerm} (h : ∀ t, (T t).Ok) : Consistent (pot T) D :=
  .of_force D_open (fun _ z φ t hR => grad h z φ t hR) (fun _ z φ t hR => forceHess h z φ t hR)
    (fun _ z φ t hR _ => poissonAlg h z φ t hR)

end SHTerm
end Verif
