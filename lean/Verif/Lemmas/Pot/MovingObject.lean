import Verif.Lemmas.Pot.Sum
import Verif.Model.Pot.MovingObject
import Mathlib.Analysis.SpecialFunctions.Sqrt

set_option autoImplicit false

/-! # Derivatives of the potential of a moving object -/

noncomputable section
namespace Verif.MovingObject
open Real Filter Topology

/-- Component of the vector to the object along the radial direction at the field point. -/
def A (Ro φo R φ : ℝ) : ℝ := Ro * cos (φ - φo) - R
/-- Component of the vector to the object along the azimuthal direction at the field point. -/
def B (Ro φo φ : ℝ) : ℝ := -(Ro * sin (φ - φo))

theorem sqA (Ro φo R φ : ℝ) :
    R ^ 2 + Ro ^ 2 - 2 * R * Ro * cos (φ - φo) = A Ro φo R φ ^ 2 + B Ro φo φ ^ 2 := by
  have h := sin_sq_add_cos_sq (φ - φo)
  unfold A B
  linear_combination (-Ro ^ 2) * h

theorem sqXY (Ro φo R φ : ℝ) :
    R ^ 2 + Ro ^ 2 - 2 * R * Ro * cos (φ - φo) = dx Ro φo R φ ^ 2 + dy Ro φo R φ ^ 2 := by
  have h1 := sin_sq_add_cos_sq φ
  have h2 := sin_sq_add_cos_sq φo
  rw [cos_sub]
  unfold dx dy
  linear_combination (-R ^ 2) * h1 + (-Ro ^ 2) * h2

theorem sq_nonneg' (Ro φo R φ : ℝ) : 0 ≤ R ^ 2 + Ro ^ 2 - 2 * R * Ro * cos (φ - φo) := by
  rw [sqXY]; positivity

theorem cylR_sq (Ro φo R φ : ℝ) : cylR R φ Ro φo ^ 2 = A Ro φo R φ ^ 2 + B Ro φo φ ^ 2 := by
  unfold cylR
  rw [Real.sq_sqrt (sq_nonneg' ..), sqA]

theorem A_eq (Ro φo R φ : ℝ) : cos φ * dx Ro φo R φ + sin φ * dy Ro φo R φ = A Ro φo R φ := by
  have h1 := sin_sq_add_cos_sq φ
  unfold A dx dy
  rw [cos_sub]
  linear_combination (-R) * h1

theorem B_eq (Ro φo R φ : ℝ) : cos φ * dy Ro φo R φ - sin φ * dx Ro φo R φ = B Ro φo φ := by
  unfold B dx dy
  rw [sin_sub]
  ring

theorem hA_R (Ro φo R φ : ℝ) : HasDerivAt (fun x => A Ro φo x φ) (-1) R := by
  unfold A
  simpa using (hasDerivAt_id R).const_sub (Ro * cos (φ - φo))
theorem hA_p (Ro φo R φ : ℝ) : HasDerivAt (fun x => A Ro φo R x) (B Ro φo φ) φ := by
  unfold A B
  have := ((((hasDerivAt_id φ).sub_const φo).cos).const_mul Ro).sub_const R
  refine this.congr_deriv ?_
  simp
theorem hB_p (Ro φo R φ : ℝ) : HasDerivAt (fun x => B Ro φo x) (-(A Ro φo R φ + R)) φ := by
  unfold A B
  have := ((((hasDerivAt_id φ).sub_const φo).sin).const_mul Ro).neg
  refine this.congr_deriv ?_
  simp

theorem hr_R {Ro φo R φ : ℝ} (h : cylR R φ Ro φo ≠ 0) :
    HasDerivAt (fun x => cylR x φ Ro φo) (-(A Ro φo R φ) / cylR R φ Ro φo) R := by
  have e : R ^ 2 + Ro ^ 2 - 2 * R * Ro * cos (φ - φo) ≠ 0 := by
    intro e; apply h; unfold cylR; rw [e, Real.sqrt_zero]
  have hq : HasDerivAt (fun x => x ^ 2 + Ro ^ 2 - 2 * x * Ro * cos (φ - φo)) (-2 * A Ro φo R φ) R := by
    have := ((hasDerivAt_pow 2 R).add_const (Ro ^ 2)).sub ((((hasDerivAt_id R).const_mul 2).mul_const Ro).mul_const
      (cos (φ - φo)))
    refine this.congr_deriv ?_
    unfold A; simp; ring
  refine (hq.sqrt e).congr_deriv ?_
  unfold cylR at *
  field_simp

theorem hr_p {Ro φo R φ : ℝ} (h : cylR R φ Ro φo ≠ 0) :
    HasDerivAt (fun x => cylR R x Ro φo) (-(R * B Ro φo φ) / cylR R φ Ro φo) φ := by
  have e : R ^ 2 + Ro ^ 2 - 2 * R * Ro * cos (φ - φo) ≠ 0 := by
    intro e; apply h; unfold cylR; rw [e, Real.sqrt_zero]
  have hq : HasDerivAt (fun x => R ^ 2 + Ro ^ 2 - 2 * R * Ro * cos (x - φo)) (-2 * (R * B Ro φo φ)) φ := by
    have := ((((hasDerivAt_id φ).sub_const φo).cos).const_mul (2 * R * Ro)).const_sub (R ^ 2 + Ro ^ 2)
    refine this.congr_deriv ?_
    unfold B; simp; ring
  refine (hq.sqrt e).congr_deriv ?_
  unfold cylR at *
  field_simp

theorem cmp {F g : ℝ → ℝ} {d e a : ℝ} (hg : HasDerivAt g e a) (h : HasDerivAt F d (g a)) :
    HasDerivAt (fun x => F (g x)) (d * e) a := HasDerivAt.comp a h hg

theorem hz' (c z : ℝ) : HasDerivAt (fun x => c - x) (-1) z := by
  simpa using (hasDerivAt_id z).const_sub c

section
variable (K : Pot) (o : Orb) (R z φ t : ℝ)

theorem Rforce_eq : Rforce K o R z φ t
    = -(K.Rforce (cylR R φ (o.R t) (o.phi t)) (o.z t - z) 0 t) * A (o.R t) (o.phi t) R φ / cylR R φ (o.R t) (o.phi t) := by
  unfold Rforce; simp only [A_eq]
theorem phitorque_eq : phitorque K o R z φ t
    = -(K.Rforce (cylR R φ (o.R t) (o.phi t)) (o.z t - z) 0 t) * R * B (o.R t) (o.phi t) φ
      / cylR R φ (o.R t) (o.phi t) := by
  unfold phitorque; simp only [B_eq]

theorem R2deriv_eq : R2deriv K o R z φ t
    = K.R2deriv (cylR R φ (o.R t) (o.phi t)) (o.z t - z) 0 t * A (o.R t) (o.phi t) R φ ^ 2 / cylR R φ (o.R t) (o.phi t) ^ 2
      - K.Rforce (cylR R φ (o.R t) (o.phi t)) (o.z t - z) 0 t * B (o.R t) (o.phi t) φ ^ 2
        / cylR R φ (o.R t) (o.phi t) ^ 3 := by
  rw [← A_eq, ← B_eq _ _ R]
  unfold R2deriv Hess.R2 xyzHess
  simp only
  ring
theorem phi2deriv_eq : phi2deriv K o R z φ t
    = R ^ 2 * (K.R2deriv (cylR R φ (o.R t) (o.phi t)) (o.z t - z) 0 t * B (o.R t) (o.phi t) φ ^ 2
        / cylR R φ (o.R t) (o.phi t) ^ 2
      - K.Rforce (cylR R φ (o.R t) (o.phi t)) (o.z t - z) 0 t * A (o.R t) (o.phi t) R φ ^ 2
        / cylR R φ (o.R t) (o.phi t) ^ 3)
      - R * (K.Rforce (cylR R φ (o.R t) (o.phi t)) (o.z t - z) 0 t * A (o.R t) (o.phi t) R φ
        / cylR R φ (o.R t) (o.phi t)) := by
  rw [← A_eq, ← B_eq _ _ R]
  unfold phi2deriv Hess.p2 xyzHess
  simp only
  ring
theorem Rphideriv_eq : Rphideriv K o R z φ t
    = R * ((K.R2deriv (cylR R φ (o.R t) (o.phi t)) (o.z t - z) 0 t
        + K.Rforce (cylR R φ (o.R t) (o.phi t)) (o.z t - z) 0 t / cylR R φ (o.R t) (o.phi t))
        * A (o.R t) (o.phi t) R φ * B (o.R t) (o.phi t) φ / cylR R φ (o.R t) (o.phi t) ^ 2)
      + K.Rforce (cylR R φ (o.R t) (o.phi t)) (o.z t - z) 0 t * B (o.R t) (o.phi t) φ
        / cylR R φ (o.R t) (o.phi t) := by
  rw [← A_eq, ← B_eq _ _ R]
  unfold Rphideriv Hess.Rp xyzHess
  simp only
  ring
theorem Rzderiv_eq : Rzderiv K o R z φ t
    = K.Rzderiv (cylR R φ (o.R t) (o.phi t)) (o.z t - z) 0 t * A (o.R t) (o.phi t) R φ / cylR R φ (o.R t) (o.phi t) := by
  rw [← A_eq]
  unfold Rzderiv Hess.Rz xyzHess
  simp only
  ring
theorem phizderiv_eq : phizderiv K o R z φ t
    = R * (K.Rzderiv (cylR R φ (o.R t) (o.phi t)) (o.z t - z) 0 t * B (o.R t) (o.phi t) φ
      / cylR R φ (o.R t) (o.phi t)) := by
  rw [← B_eq _ _ R]
  unfold phizderiv Hess.pz xyzHess
  simp only
  ring
end

section
variable {K : Pot} {o : Orb} {R z φ t : ℝ}

theorem grad (hr : cylR R φ (o.R t) (o.phi t) ≠ 0)
    (g : GradAt K (cylR R φ (o.R t) (o.phi t)) (o.z t - z) 0 t) : GradAt (pot K o) R z φ t where
  dR := by
    refine (HasDerivAt.comp R g.dR (hr_R hr)).congr_deriv ?_
    change _ = -Rforce K o R z φ t
    rw [Rforce_eq]; ring
  dz := by
    refine (HasDerivAt.comp z g.dz (hz' _ z)).congr_deriv ?_
    change _ = -zforce K o R z φ t
    unfold zforce; ring
  dphi := by
    refine (HasDerivAt.comp φ g.dR (hr_p hr)).congr_deriv ?_
    change _ = -phitorque K o R z φ t
    rw [phitorque_eq]; ring

theorem force (hr : cylR R φ (o.R t) (o.phi t) ≠ 0)
    (f : ForceHess K (cylR R φ (o.R t) (o.phi t)) (o.z t - z) 0 t) : ForceHess (pot K o) R z φ t := by
  have hAB := cylR_sq (o.R t) (o.phi t) R φ
  have kR := cmp (hr_R hr) f.RR
  have kp := cmp (hr_p hr) f.RR
  have kz := cmp (hz' _ z) f.Rz
  have qR := cmp (hr_R hr) f.zR
  have qp := cmp (hr_p hr) f.zR
  have qz := cmp (hz' _ z) f.zz
  have eR : (pot K o).Rforce = fun R z φ t => -(K.Rforce (cylR R φ (o.R t) (o.phi t)) (o.z t - z) 0 t)
      * A (o.R t) (o.phi t) R φ / cylR R φ (o.R t) (o.phi t) := by
    funext R z φ t; exact Rforce_eq ..
  have ep : (pot K o).phitorque = fun R z φ t => -(K.Rforce (cylR R φ (o.R t) (o.phi t)) (o.z t - z) 0 t)
      * R * B (o.R t) (o.phi t) φ / cylR R φ (o.R t) (o.phi t) := by
    funext R z φ t; exact phitorque_eq ..
  refine ⟨?_, ?_, ?_, ?_, ?_, ?_, ?_, ?_, ?_⟩
  · rw [eR]
    refine ((kR.neg.mul (hA_R _ _ R φ)).div (hr_R hr) hr).congr_deriv ?_
    change _ = -R2deriv K o R z φ t
    rw [R2deriv_eq]
    simp only [Pi.neg_apply, Pi.mul_apply]
    generalize A (o.R t) (o.phi t) R φ = a at *
    generalize B (o.R t) (o.phi t) φ = b at *
    generalize cylR R φ (o.R t) (o.phi t) = r at *
    field_simp
    linear_combination (K.Rforce r (o.z t - z) 0 t) * hAB
  · rw [eR]
    refine ((kz.neg.mul_const _).div_const _).congr_deriv ?_
    change _ = -Rzderiv K o R z φ t
    rw [Rzderiv_eq]
    simp; ring
  · rw [eR]
    refine ((kp.neg.mul (hA_p _ _ R φ)).div (hr_p hr) hr).congr_deriv ?_
    change _ = -Rphideriv K o R z φ t
    rw [Rphideriv_eq]
    simp only [Pi.neg_apply, Pi.mul_apply]
    generalize A (o.R t) (o.phi t) R φ = a at *
    generalize B (o.R t) (o.phi t) φ = b at *
    generalize cylR R φ (o.R t) (o.phi t) = r at *
    field_simp
    ring
  · refine qR.neg.congr_deriv ?_
    change _ = -Rzderiv K o R z φ t
    rw [Rzderiv_eq]; ring
  · refine qz.neg.congr_deriv ?_
    change _ = -z2deriv K o R z φ t
    unfold z2deriv xyzHess; ring
  · refine qp.neg.congr_deriv ?_
    change _ = -phizderiv K o R z φ t
    rw [phizderiv_eq]; ring
  · rw [ep]
    refine (((kR.neg.mul (hasDerivAt_id R)).mul_const _).div (hr_R hr) hr).congr_deriv ?_
    change _ = -Rphideriv K o R z φ t
    rw [Rphideriv_eq]
    simp only [Pi.neg_apply, Pi.mul_apply, id]
    generalize A (o.R t) (o.phi t) R φ = a at *
    generalize B (o.R t) (o.phi t) φ = b at *
    generalize cylR R φ (o.R t) (o.phi t) = r at *
    field_simp
    ring
  · rw [ep]
    refine (((kz.neg.mul_const _).mul_const _).div_const _).congr_deriv ?_
    change _ = -phizderiv K o R z φ t
    rw [phizderiv_eq]
    simp; ring
  · rw [ep]
    refine (((kp.neg.mul_const R).mul (hB_p _ _ R φ)).div (hr_p hr) hr).congr_deriv ?_
    change _ = -phi2deriv K o R z φ t
    rw [phi2deriv_eq]
    simp only [Pi.neg_apply, Pi.mul_apply]
    generalize A (o.R t) (o.phi t) R φ = a at *
    generalize B (o.R t) (o.phi t) φ = b at *
    generalize cylR R φ (o.R t) (o.phi t) = r at *
    field_simp
    linear_combination (R ^ 2 * K.Rforce r (o.z t - z) 0 t) * hAB

/-- The kernel has no second derivative in azimuth. -/
theorem kernel_pp {r ζ : ℝ} (hax : ∀ R z φ t, K.val R z φ t = K.val R z 0 t) (h : HessAt K r ζ 0 t) :
    K.phi2deriv r ζ 0 t = 0 := by
  have e : (fun x => deriv (fun y => K.val r ζ y t) x) = fun _ => (0 : ℝ) := by
    funext x
    have : (fun y => K.val r ζ y t) = fun _ => K.val r ζ 0 t := by funext y; exact hax ..
    rw [this]; simp
  have := h.pp
  rw [e] at this
  exact this.unique (hasDerivAt_const _ _)

theorem poisson (hR : R ≠ 0) (hr : cylR R φ (o.R t) (o.phi t) ≠ 0)
    (h0 : K.phi2deriv (cylR R φ (o.R t) (o.phi t)) (o.z t - z) 0 t = 0)
    (p : PoissonAlg K (cylR R φ (o.R t) (o.phi t)) (o.z t - z) 0 t) : PoissonAlg (pot K o) R z φ t := by
  have hAB := cylR_sq (o.R t) (o.phi t) R φ
  unfold PoissonAlg at *
  change 4 * π * dens K o R z φ t = R2deriv K o R z φ t - Rforce K o R z φ t / R + phi2deriv K o R z φ t / R ^ 2
    + z2deriv K o R z φ t
  rw [Rforce_eq, R2deriv_eq, phi2deriv_eq]
  unfold dens z2deriv xyzHess
  simp only
  rw [p, h0]
  generalize A (o.R t) (o.phi t) R φ = a at *
  generalize B (o.R t) (o.phi t) φ = b at *
  generalize cylR R φ (o.R t) (o.phi t) = r at *
  generalize K.Rforce r (o.z t - z) 0 t = F
  generalize K.R2deriv r (o.z t - z) 0 t = G
  field_simp
  linear_combination (R * (G * r - F)) * hAB

theorem ev_R {D : ℝ → ℝ → ℝ → Prop} (op : AxisOpen D) (hr : cylR R φ (o.R t) (o.phi t) ≠ 0)
    (h : D (cylR R φ (o.R t) (o.phi t)) (o.z t - z) 0) :
    ∀ᶠ x in 𝓝 R, cylR x φ (o.R t) (o.phi t) ≠ 0 ∧ D (cylR x φ (o.R t) (o.phi t)) (o.z t - z) 0 := by
  have c := (hr_R hr).continuousAt
  exact (c.eventually_ne hr).and (c.eventually (op.oR _ _ _ h))
theorem ev_p {D : ℝ → ℝ → ℝ → Prop} (op : AxisOpen D) (hr : cylR R φ (o.R t) (o.phi t) ≠ 0)
    (h : D (cylR R φ (o.R t) (o.phi t)) (o.z t - z) 0) :
    ∀ᶠ x in 𝓝 φ, cylR R x (o.R t) (o.phi t) ≠ 0 ∧ D (cylR R x (o.R t) (o.phi t)) (o.z t - z) 0 := by
  have c := (hr_p hr).continuousAt
  exact (c.eventually_ne hr).and (c.eventually (op.oR _ _ _ h))
theorem ev_z {D : ℝ → ℝ → ℝ → Prop} (op : AxisOpen D)
    (h : D (cylR R φ (o.R t) (o.phi t)) (o.z t - z) 0) :
    ∀ᶠ x in 𝓝 z, D (cylR R φ (o.R t) (o.phi t)) (o.z t - x) 0 :=
  (hz' (o.z t) z).continuousAt.eventually (op.oz _ _ _ h)

theorem gradNear {D : ℝ → ℝ → ℝ → Prop} (op : AxisOpen D) (c : Consistent K D) (hr : cylR R φ (o.R t) (o.phi t) ≠ 0)
    (h : D (cylR R φ (o.R t) (o.phi t)) (o.z t - z) 0) : GradNear (pot K o) R z φ t :=
  ⟨(ev_R op hr h).mono fun _ k => grad k.1 (c.grad _ _ _ _ k.2), (ev_z op h).mono fun _ k => grad hr (c.grad _ _ _ _ k),
    (ev_p op hr h).mono fun _ k => grad k.1 (c.grad _ _ _ _ k.2)⟩

theorem hess {D : ℝ → ℝ → ℝ → Prop} (op : AxisOpen D) (c : Consistent K D) (hr : cylR R φ (o.R t) (o.phi t) ≠ 0)
    (h : D (cylR R φ (o.R t) (o.phi t)) (o.z t - z) 0) : HessAt (pot K o) R z φ t :=
  HessAt.of_force (gradNear op c hr h) (force hr (ForceHess.of_hess (c.near op t h) (c.hess _ _ _ _ h)))
end

theorem cylR_ne {Ro φo R φ : ℝ} (h : ¬(R * cos φ = Ro * cos φo ∧ R * sin φ = Ro * sin φo)) : cylR R φ Ro φo ≠ 0 := by
  intro e
  have h2 : cylR R φ Ro φo ^ 2 = dx Ro φo R φ ^ 2 + dy Ro φo R φ ^ 2 := by
    unfold cylR; rw [Real.sq_sqrt (sq_nonneg' ..), sqXY]
  rw [e] at h2
  have hx : dx Ro φo R φ = 0 := by nlinarith [sq_nonneg (dx Ro φo R φ), sq_nonneg (dy Ro φo R φ)]
  have hy : dy Ro φo R φ = 0 := by nlinarith [sq_nonneg (dx Ro φo R φ), sq_nonneg (dy Ro φo R φ)]
  unfold dx at hx
  unfold dy at hy
  exact h ⟨by linarith, by linarith⟩

theorem cylR_dist (Ro φo R φ : ℝ) :
    cylR R φ Ro φo = √((R * cos φ - Ro * cos φo) ^ 2 + (R * sin φ - Ro * sin φo) ^ 2) := by
  unfold cylR; rw [sqXY]; unfold dx dy; congr 1; ring

end Verif.MovingObject
