import Verif.Lemmas.Axisym
import Verif.Lemmas.Smooth
import Mathlib.MeasureTheory.Integral.IntervalIntegral.FundThmCalculus
import Verif.Lemmas.Pot.KuzminDisk

set_option autoImplicit false

/-!
# C62: mass and surface density are the integrals of the density

`mass(R)`, `mass(R, z)` and `surfdens(R, z)` by Gauss' theorem and the Poisson equation, for every
potential whose methods are derivatives of its value.
-/

noncomputable section
namespace Verif
open Real MeasureTheory Set MassQuant Filter Topology

/-! Specification: integrals over regions of space in rectangular coordinates `((x, y), z)`. -/

/-- Density at a point of space. -/
def C62Spec.density (P : Pot) (t : ℝ) (p : (ℝ × ℝ) × ℝ) : ℝ := P.dens (√(p.1.1 ^ 2 + p.1.2 ^ 2)) p.2 0 t

/-- Mass between the spheres of radius `R₁` and `R₂`. -/
def C62Spec.shell (P : Pot) (R₁ R₂ t : ℝ) : ℝ :=
  ∫ p in {p : (ℝ × ℝ) × ℝ | R₁ ^ 2 ≤ p.1.1 ^ 2 + p.1.2 ^ 2 + p.2 ^ 2 ∧ p.1.1 ^ 2 + p.1.2 ^ 2 + p.2 ^ 2 ≤ R₂ ^ 2},
    C62Spec.density P t p

/-- Mass in the sphere of radius `R`. -/
def C62Spec.ball (P : Pot) (R t : ℝ) : ℝ :=
  ∫ p in {p : (ℝ × ℝ) × ℝ | p.1.1 ^ 2 + p.1.2 ^ 2 + p.2 ^ 2 ≤ R ^ 2}, C62Spec.density P t p

/-- Mass in the cylinder of radius `R` between `-z` and `z`. -/
def C62Spec.cylinder (P : Pot) (R z t : ℝ) : ℝ :=
  ∫ p in {p : (ℝ × ℝ) × ℝ | p.1.1 ^ 2 + p.1.2 ^ 2 ≤ R ^ 2 ∧ |p.2| ≤ z}, C62Spec.density P t p

/-- An axisymmetric potential with smooth value, whose methods are its derivatives on the region
`K` of the meridional plane, with continuous density there. -/
structure C62Spec.Good (P : Pot) (K : Set (ℝ × ℝ)) (t : ℝ) : Prop where
  smooth : ∃ D, SmoothOn P D ∧ ∀ p ∈ K, (p.1, p.2, (0 : ℝ)) ∈ D
  axi : ∀ R z φ, P.val R z φ t = P.val R z 0 t
  poisson : ∀ p ∈ K, 0 < p.1 → PoissonAt P p.1 p.2 0 t
  dens : ContinuousOn (fun p : ℝ × ℝ => P.dens p.1 p.2 0 t) K

namespace C62aux

variable {P : Pot} {K : Set (ℝ × ℝ)} {t : ℝ}

theorem diffR (h : C62Spec.Good P K t) {p : ℝ × ℝ} (hp : p ∈ K) :
    DifferentiableAt ℝ (fun q : ℝ × ℝ => P.Rforce q.1 q.2 0 t) p := by
  obtain ⟨D, hD, hK⟩ := h.smooth
  have hf : DifferentiableAt ℝ (fun q : ℝ × ℝ => (q.1, q.2, (0 : ℝ))) p := by fun_prop
  exact (hD.fdiff _ _ _ t (hK p hp)).dR.comp p hf

theorem diffz (h : C62Spec.Good P K t) {p : ℝ × ℝ} (hp : p ∈ K) :
    DifferentiableAt ℝ (fun q : ℝ × ℝ => P.zforce q.1 q.2 0 t) p := by
  obtain ⟨D, hD, hK⟩ := h.smooth
  have hf : DifferentiableAt ℝ (fun q : ℝ × ℝ => (q.1, q.2, (0 : ℝ))) p := by fun_prop
  exact (hD.fdiff _ _ _ t (hK p hp)).dz.comp p hf

theorem phi2 (h : C62Spec.Good P K t) {p : ℝ × ℝ} (hp : p ∈ K) : P.phi2deriv p.1 p.2 0 t = 0 := by
  obtain ⟨D, hD, hK⟩ := h.smooth
  have a := (hD.hess _ _ _ t (hK p hp)).pp
  have e : (fun x => deriv (fun y => P.val p.1 p.2 y t) x) = fun _ => 0 := by
    funext x
    rw [show (fun y => P.val p.1 p.2 y t) = fun _ => P.val p.1 p.2 0 t from funext fun y => h.axi _ _ y]
    simp
  rw [e] at a
  exact a.unique (hasDerivAt_const _ _)

theorem divergence (h : C62Spec.Good P K t) {p : ℝ × ℝ} (hp : p ∈ K) (h0 : 0 < p.1) :
    fderiv ℝ (fun q : ℝ × ℝ => P.Rforce q.1 q.2 0 t) p (1, 0) + P.Rforce p.1 p.2 0 t / p.1
      + fderiv ℝ (fun q : ℝ × ℝ => P.zforce q.1 q.2 0 t) p (0, 1) = -(4 * π * P.dens p.1 p.2 0 t) := by
  obtain ⟨D, hD, hK⟩ := h.smooth
  have fh := hD.forceHess (t := t) (hK p hp)
  have hl : HasDerivAt (fun x : ℝ => (x, p.2)) (1, 0) p.1 := (hasDerivAt_id _).prodMk (hasDerivAt_const _ _)
  have hl' : HasDerivAt (fun x : ℝ => (p.1, x)) (0, 1) p.2 := (hasDerivAt_const _ _).prodMk (hasDerivAt_id _)
  have a := (diffR h hp).hasFDerivAt.comp_hasDerivAt p.1 hl
  have b := (diffz h hp).hasFDerivAt.comp_hasDerivAt p.2 hl'
  have ea := a.unique fh.RR
  have eb := b.unique fh.zz
  have hpo := (poissonAt_iff (hD.grad _ _ _ t (hK p hp)) (hD.hess _ _ _ t (hK p hp))).1 (h.poisson p hp h0)
  unfold PoissonAlg at hpo
  rw [phi2 h hp] at hpo
  rw [ea, eb, hpo]
  ring

theorem solid_shell (R₁ R₂ : ℝ) : Gauss.solid (Gauss.shellSet R₁ R₂) =
    {p : (ℝ × ℝ) × ℝ | R₁ ^ 2 ≤ p.1.1 ^ 2 + p.1.2 ^ 2 + p.2 ^ 2 ∧ p.1.1 ^ 2 + p.1.2 ^ 2 + p.2 ^ 2 ≤ R₂ ^ 2} := by
  ext p
  simp only [Gauss.solid, Gauss.shellSet, Gauss.cylR, mem_setOf_eq, sqrt_nonneg, true_and,
    sq_sqrt (add_nonneg (sq_nonneg p.1.1) (sq_nonneg p.1.2))]

theorem solid_ball {R : ℝ} : Gauss.solid (Gauss.shellSet 0 R) =
    {p : (ℝ × ℝ) × ℝ | p.1.1 ^ 2 + p.1.2 ^ 2 + p.2 ^ 2 ≤ R ^ 2} := by
  rw [solid_shell]
  ext p
  simp only [mem_setOf_eq]
  exact ⟨fun h => h.2, fun h => ⟨by rw [zero_pow two_ne_zero]; positivity, h⟩⟩

theorem solid_cylinder {R z : ℝ} (hR : 0 ≤ R) : Gauss.solid (Icc 0 R ×ˢ Icc (-z) z) =
    {p : (ℝ × ℝ) × ℝ | p.1.1 ^ 2 + p.1.2 ^ 2 ≤ R ^ 2 ∧ |p.2| ≤ z} := by
  ext p
  simp only [Gauss.solid, Gauss.cylR, mem_setOf_eq, mem_prod, mem_Icc, sqrt_nonneg, true_and, abs_le]
  rw [Real.sqrt_le_left hR]

/-- The sphere integral in terms of the radial force. -/
theorem gaussSphere_eq (P : Pot) {R : ℝ} (hR : 0 ≤ R) (t : ℝ) : gaussSphere P R t =
    -(1 / 2) * ∫ θ in (0 : ℝ)..π, R ^ 2 * sin θ * (P.Rforce (R * sin θ) (R * cos θ) 0 t * sin θ
      + P.zforce (R * sin θ) (R * cos θ) 0 t * cos θ) := by
  rcases hR.eq_or_lt with rfl | h
  · simp [gaussSphere]
  rw [gaussSphere, neg_mul, neg_div, neg_mul, mul_comm (R ^ 2), mul_comm (1 / 2 : ℝ), mul_one_div,
    ← intervalIntegral.integral_mul_const]
  congr 2
  refine intervalIntegral.integral_congr fun θ _ => ?_
  have e : √((R * sin θ) ^ 2 + (R * cos θ) ^ 2) = R := by
    rw [show (R * sin θ) ^ 2 + (R * cos θ) ^ 2 = R ^ 2 by linear_combination R ^ 2 * sin_sq_add_cos_sq θ,
      sqrt_sq h.le]
  simp only [PotQuant.rforce, e]
  field_simp

end C62aux

/-- Gauss' theorem for a shell: the difference of `mass(R, forceint=True)` between two radii is the
mass between the spheres, for every axisymmetric potential (singular inside the shell or not). -/
theorem C62_shell {P : Pot} {R₁ R₂ t : ℝ} (h1 : 0 ≤ R₁) (h2 : R₁ ≤ R₂)
    (h : C62Spec.Good P (Gauss.shellSet R₁ R₂) t) :
    gaussSphere P R₂ t - gaussSphere P R₁ t = C62Spec.shell P R₁ R₂ t := by
  have g := Gauss.shell (F := fun q => P.Rforce q.1 q.2 0 t) (G := fun q => P.zforce q.1 q.2 0 t)
    (ρ := fun q => P.dens q.1 q.2 0 t) h1 h2 (fun p hp => C62aux.diffR h hp) (fun p hp => C62aux.diffz h hp)
    h.dens (fun p hp h0 => C62aux.divergence h hp h0)
  have v := Gauss.integral_shell h1 h2 h.dens
  rw [C62aux.solid_shell] at v
  rw [C62aux.gaussSphere_eq P (h1.trans h2), C62aux.gaussSphere_eq P h1, C62Spec.shell, ← mul_sub, g]
  refine Eq.trans ?_ v.symm
  rw [← intervalIntegral.integral_const_mul, ← intervalIntegral.integral_const_mul]
  refine intervalIntegral.integral_congr fun r _ => ?_
  beta_reduce
  rw [← intervalIntegral.integral_const_mul, ← intervalIntegral.integral_const_mul]
  refine intervalIntegral.integral_congr fun θ _ => ?_
  simp only
  ring

/-- `mass(R)` by Gauss' theorem is the mass within the sphere: for every object that is axisymmetric
and regular in the ball, with the integral forced or because there is no closed form. -/
theorem C62_ball {o : Obj} {R t : ℝ} (hR : 0 ≤ R) (ha : o.isNonAxi = false) (fi : Bool)
    (hfi : fi = true ∨ o.mass = none) (h : C62Spec.Good o.pot (Gauss.shellSet 0 R) t) :
    massOf o R none t fi = .ok (C62Spec.ball o.pot R t) ∧ massFn o R none t fi = .ok (C62Spec.ball o.pot R t) := by
  have s := C62_shell le_rfl hR h
  have e0 : gaussSphere o.pot 0 t = 0 := by simp [gaussSphere]
  have eb : C62Spec.shell o.pot 0 R t = C62Spec.ball o.pot R t := by
    rw [C62Spec.shell, C62Spec.ball, ← C62aux.solid_shell, C62aux.solid_ball]
  rw [e0, sub_zero, eb] at s
  have b : massBody o R none t fi = C62Spec.ball o.pot R t := by
    rcases hfi with rfl | hm
    · simpa [massBody] using s
    · simpa [massBody, hm] using s
  simp [massOf, massFn, ha, b]

/-- `mass(R, z)` by Gauss' theorem is the mass in the cylinder, for either sign of `z`, for every
axisymmetric potential symmetric about the plane. -/
theorem C62_cylinder {o : Obj} {R z t : ℝ} (hR : 0 ≤ R) (ha : o.isNonAxi = false) (fi : Bool)
    (hfi : fi = true ∨ o.mass = none ∨ ∃ m, o.mass = some m ∧ m R (some |z|) t = none)
    (h : C62Spec.Good o.pot (Icc 0 R ×ˢ Icc (-|z|) |z|) t)
    (hs : ∀ R z φ, o.pot.val R (-z) φ t = o.pot.val R z φ t) :
    massOf o R (some z) t fi = .ok (C62Spec.cylinder o.pot R |z| t) ∧
      massFn o R (some z) t fi = .ok (C62Spec.cylinder o.pot R |z| t) := by
  have hz := abs_nonneg z
  have g := Gauss.cylinder (F := fun q => o.pot.Rforce q.1 q.2 0 t) (G := fun q => o.pot.zforce q.1 q.2 0 t)
    (ρ := fun q => o.pot.dens q.1 q.2 0 t) hR hz (fun p hp => C62aux.diffR h hp) (fun p hp => C62aux.diffz h hp)
    h.dens (fun p hp h0 => C62aux.divergence h hp h0)
  have v := Gauss.integral_cylinder hR hz h.dens
  rw [C62aux.solid_cylinder hR] at v
  have odd : ∀ x ∈ Icc 0 R, o.pot.zforce x (-|z|) 0 t = -o.pot.zforce x |z| 0 t := by
    intro x hx
    obtain ⟨D, hD, hK⟩ := h.smooth
    have a := (hD.grad x |z| 0 t (hK (x, |z|) ⟨hx, by simp, le_rfl⟩)).dz
    have b := (hD.grad x (-|z|) 0 t (hK (x, -|z|) ⟨hx, le_rfl, by simp⟩)).dz
    have c := b.scomp |z| (hasDerivAt_neg |z|)
    have e : ((fun x_1 => o.pot.val x x_1 0 t) ∘ Neg.neg) = fun y => o.pot.val x y 0 t := by
      funext y; exact hs x y 0
    rw [e] at c
    have := a.unique c
    simp only [neg_smul, one_smul, neg_neg] at this
    linarith
  have e2 : (∫ x in (0 : ℝ)..R, x * o.pot.zforce x (-|z|) 0 t) = -∫ x in (0 : ℝ)..R, x * o.pot.zforce x |z| 0 t := by
    rw [← intervalIntegral.integral_neg]
    refine intervalIntegral.integral_congr fun x hx => ?_
    rw [uIcc_of_le hR] at hx
    simp only [odd x hx]
    ring
  have b' : gaussCylinder o.pot R |z| t = C62Spec.cylinder o.pot R |z| t := by
    rw [C62Spec.cylinder]
    refine Eq.trans ?_ v.symm
    simp only [e2, sub_neg_eq_add] at g
    have g2 : (2 * π * ∫ x in (0 : ℝ)..R, ∫ y in (-|z|)..|z|, x * o.pot.dens x y 0 t) =
        -(1 / 2) * ∫ x in (0 : ℝ)..R, ∫ y in (-|z|)..|z|, -(4 * π * x * o.pot.dens x y 0 t) := by
      rw [← intervalIntegral.integral_const_mul, ← intervalIntegral.integral_const_mul]
      refine intervalIntegral.integral_congr fun r _ => ?_
      beta_reduce
      rw [← intervalIntegral.integral_const_mul, ← intervalIntegral.integral_const_mul]
      refine intervalIntegral.integral_congr fun θ _ => ?_
      beta_reduce
      ring
    rw [g2, ← g, gaussCylinder]
    ring
  have b : massBody o R (some z) t fi = C62Spec.cylinder o.pot R |z| t := by
    rcases hfi with rfl | hm | ⟨m, hm, hn⟩
    · simpa [massBody] using b'
    · simpa [massBody, hm] using b'
    · cases fi <;> simpa [massBody, hm, hn] using b'
  simp [massOf, massFn, ha, b]

/-- `surfdens(R, z, forcepoisson=True)` is the integral of the density from `-|z|` to `|z|`, for
every potential (axisymmetric or not) that is regular along the line. -/
theorem C62_surfdens {P : Pot} {D : Set (ℝ × ℝ × ℝ)} (hP : SmoothOn P D) {R z φ t : ℝ} (hR : R ≠ 0)
    (hD : ∀ x ∈ Icc (-|z|) |z|, (R, x, φ) ∈ D) (hp : ∀ x ∈ Icc (-|z|) |z|, PoissonAt P R x φ t)
    (hc : ContinuousOn (fun x => P.dens R x φ t) (Icc (-|z|) |z|))
    (hz : ContinuousOn (fun x => P.z2deriv R x φ t) (Icc (-|z|) |z|)) (o : Obj) (ho : o.pot = P) :
    surfdensOf o R z φ t true = ∫ x in (-|z|)..|z|, P.dens R x φ t := by
  have hle : -|z| ≤ |z| := by linarith [abs_nonneg z]
  have e : surfdensOf o R z φ t true = poissonSurfdens P R z φ t := by simp [surfdensOf, ho]
  have ftc : ∫ x in (-|z|)..|z|, -P.z2deriv R x φ t = P.zforce R |z| φ t - P.zforce R (-|z|) φ t := by
    refine intervalIntegral.integral_eq_sub_of_hasDerivAt (f := fun x => P.zforce R x φ t) (fun x hx => ?_) ?_
    · rw [uIcc_of_le hle] at hx
      exact (hP.forceHess (hD x hx)).zz
    · refine ContinuousOn.intervalIntegrable ?_
      rw [uIcc_of_le hle]; exact hz.neg
  have i1 : IntervalIntegrable (fun x => 4 * π * P.dens R x φ t) volume (-|z|) |z| := by
    refine ContinuousOn.intervalIntegrable ?_
    rw [uIcc_of_le hle]; exact continuousOn_const.mul hc
  have i2 : IntervalIntegrable (fun x => -P.z2deriv R x φ t) volume (-|z|) |z| := by
    refine ContinuousOn.intervalIntegrable ?_
    rw [uIcc_of_le hle]; exact hz.neg
  have k : ∫ x in (-|z|)..|z|, (-P.Rforce R x φ t / R + P.R2deriv R x φ t + P.phi2deriv R x φ t / R ^ 2) =
      (∫ x in (-|z|)..|z|, 4 * π * P.dens R x φ t) + ∫ x in (-|z|)..|z|, -P.z2deriv R x φ t := by
    rw [← intervalIntegral.integral_add i1 i2]
    refine intervalIntegral.integral_congr fun x hx => ?_
    rw [uIcc_of_le hle] at hx
    have hpo := (poissonAt_iff (hP.grad _ _ _ t (hD x hx)) (hP.hess _ _ _ t (hD x hx))).1 (hp x hx)
    unfold PoissonAlg at hpo
    simp only [hpo]
    ring
  rw [e, poissonSurfdens, k, ftc, intervalIntegral.integral_const_mul]
  field_simp
  ring

/-- With a `_dens` that satisfies Poisson's equation the direct integral and the Poisson route agree. -/
theorem C62_surfdens_routes {o : Obj} {d : ℝ → ℝ → ℝ → ℝ → ℝ} (hd : o.dens = some d) (hs : o.surfdens = none)
    (hod : ∀ R z φ t, o.pot.dens R z φ t = o.amp * d R z φ t)
    {D : Set (ℝ × ℝ × ℝ)} (hP : SmoothOn o.pot D) {R z φ t : ℝ} (hR : R ≠ 0)
    (hD : ∀ x ∈ Icc (-|z|) |z|, (R, x, φ) ∈ D) (hp : ∀ x ∈ Icc (-|z|) |z|, PoissonAt o.pot R x φ t)
    (hc : ContinuousOn (fun x => o.pot.dens R x φ t) (Icc (-|z|) |z|))
    (hz : ContinuousOn (fun x => o.pot.z2deriv R x φ t) (Icc (-|z|) |z|)) :
    surfdensOf o R z φ t false = surfdensOf o R z φ t true := by
  rw [C62_surfdens hP hR hD hp hc hz o rfl]
  simp only [surfdensOf, hd, hs, hod, intervalIntegral.integral_const_mul]

/-- A combination's mass is the sum of the members' masses, whatever method each member uses. -/
theorem C62_composite_mass {l : List Obj} (h : ∀ o ∈ l, o.isNonAxi = false) {R t : ℝ} {z : Option ℝ} {ms : List ℝ}
    (hm : l.map (fun o => massOf o R (z.map (|·|)) t false) = ms.map .ok) :
    massFn (composite l) R z t false = .ok ms.sum := by
  have hn : (composite l).isNonAxi = false := by simpa [composite] using h
  have e : compositeMass l R (z.map (|·|)) t = ms.sum := by
    unfold compositeMass
    congr 1
    have : ∀ o ∈ l, massOf o R (z.map (|·|)) t false = .ok (massBody o R (z.map (|·|)) t false) := by
      intro o ho
      simp [massOf, h o ho]
    rw [List.map_congr_left this] at hm
    have hinj : Function.Injective (Except.ok : ℝ → Except Err ℝ) := fun a b hab => by simpa using hab
    exact hinj.list_map (by simpa [List.map_map, Function.comp_def] using hm)
  simp [massFn, massOf, hn]
  simp [massBody, composite, e]

/-- Non-axisymmetric potentials are refused: by the function always, by the method unless it is an
ellipsoidal potential asked for the mass in a sphere-like shell. -/
theorem C62_nonaxi {o : Obj} (h : o.isNonAxi = true) (R t : ℝ) (z : Option ℝ) (fi : Bool) :
    massFn o R z t fi = .error .notImplemented ∧
      ((∃ m, massOf o R z t fi = .ok m) ↔ o.isEllipsoidal = true ∧ z = none) := by
  constructor
  · simp [massFn, h]
  · cases he : o.isEllipsoidal <;> cases z <;> simp [massOf, h, he]

end Verif
