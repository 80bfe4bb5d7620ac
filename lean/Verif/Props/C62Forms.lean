import Verif.Props.C62
import Verif.Lemmas.Pot.Plummer
import Verif.Lemmas.Pot.Isochrone
import Verif.Lemmas.Pot.Ops
import Verif.Lemmas.Mass
import Verif.Model.Wrappers
import Verif.Lemmas.Pot.SurfDens
import Verif.Props.C04
import Verif.Lemmas.SmoothOps

set_option autoImplicit false

/-!
# C62: the individual classes

Closed-form surface densities, the classes as instances, and what goes wrong.
-/

noncomputable section
namespace Verif
open Real MeasureTheory Set MassQuant

namespace C62aux

/-- An odd antiderivative of twice the density is its integral over `[-z, z]`. -/
theorem surf {S ρ : ℝ → ℝ} {z : ℝ} (hz : 0 ≤ z) (odd : S (-z) = -S z)
    (h : ∀ x ∈ Icc (-z) z, HasDerivAt S (2 * ρ x) x) (hc : ContinuousOn ρ (Icc (-z) z)) :
    ∫ x in (-z)..z, ρ x = S z := by
  have hle : -z ≤ z := by linarith
  have := intervalIntegral.integral_eq_sub_of_hasDerivAt (a := -z) (b := z) (f := S) (f' := fun x => 2 * ρ x)
    (fun x hx => h x (by rwa [uIcc_of_le hle] at hx))
    (ContinuousOn.intervalIntegrable (by rw [uIcc_of_le hle]; exact continuousOn_const.mul hc))
  rw [intervalIntegral.integral_const_mul, odd] at this
  linarith

theorem Plummer_odd (b R z : ℝ) : Plummer.surfdens b R (-z) = -Plummer.surfdens b R z := by
  simp only [Plummer.surfdens, neg_sq]; ring

theorem Plummer_deriv {b R : ℝ} (h : 0 < R ^ 2 + b ^ 2) (z : ℝ) :
    HasDerivAt (Plummer.surfdens b R) (2 * Plummer.dens b R z) z := by
  have h1 : 0 < R ^ 2 + b ^ 2 + z ^ 2 := by positivity
  have hp : HasDerivAt (fun z : ℝ => (R ^ 2 + b ^ 2 + z ^ 2) ^ (-(3/2) : ℝ))
      (2 * z * (-(3/2)) * (R ^ 2 + b ^ 2 + z ^ 2) ^ (-(3/2) - 1 : ℝ)) z := by
    have := ((hasDerivAt_pow 2 z).const_add (R ^ 2 + b ^ 2)).rpow_const (p := (-(3/2) : ℝ)) (Or.inl h1.ne')
    simpa using this
  have e : (R ^ 2 + b ^ 2 + z ^ 2) ^ (-(3/2) : ℝ) =
      (R ^ 2 + b ^ 2 + z ^ 2) ^ (-(5/2) : ℝ) * (R ^ 2 + b ^ 2 + z ^ 2) := by
    rw [← rpow_add_one h1.ne']; norm_num
  have e' : (R ^ 2 + b ^ 2 + z ^ 2) ^ (-(3/2) - 1 : ℝ) = (R ^ 2 + b ^ 2 + z ^ 2) ^ (-(5/2) : ℝ) := by norm_num
  have hq : HasDerivAt (fun z : ℝ => b ^ 2 * z * (3 * (R ^ 2 + b ^ 2) + 2 * z ^ 2) / (R ^ 2 + b ^ 2) ^ 2)
      ((b ^ 2 * (3 * (R ^ 2 + b ^ 2) + 6 * z ^ 2)) / (R ^ 2 + b ^ 2) ^ 2) z := by
    have := (((hasDerivAt_id z).const_mul (b ^ 2)).mul
      (((hasDerivAt_pow 2 z).const_mul 2).const_add (3 * (R ^ 2 + b ^ 2)))).div_const ((R ^ 2 + b ^ 2) ^ 2)
    refine this.congr_deriv ?_
    simp
    ring
  refine (((hq.mul hp).div_const 2).div_const π).congr_deriv ?_
  rw [e, e', Plummer.dens, show R ^ 2 + z ^ 2 + b ^ 2 = R ^ 2 + b ^ 2 + z ^ 2 by ring]
  have := h.ne'
  field_simp
  ring

theorem Isochrone_odd (b R z : ℝ) : Isochrone.surfdens b R (-z) = -Isochrone.surfdens b R z := by
  simp only [Isochrone.surfdens, neg_sq]
  rw [show -z / R = -(z / R) by ring, show b * -z / R / √(R ^ 2 + z ^ 2 + b ^ 2) =
    -(b * z / R / √(R ^ 2 + z ^ 2 + b ^ 2)) by ring, arctan_neg, arctan_neg]
  ring

theorem Isochrone_deriv {b R : ℝ} (hR : 0 < R) (hb : 0 ≤ b) (z : ℝ) :
    HasDerivAt (Isochrone.surfdens b R) (2 * Isochrone.dens b R z) z := by
  have h1 : 0 < R ^ 2 + z ^ 2 + b ^ 2 := by positivity
  have h2 : 0 < R ^ 2 + z ^ 2 := by positivity
  obtain ⟨s, hs, es⟩ : ∃ s, 0 < s ∧ √(R ^ 2 + z ^ 2 + b ^ 2) = s := ⟨_, sqrt_pos.2 h1, rfl⟩
  have ess : s ^ 2 = R ^ 2 + z ^ 2 + b ^ 2 := by rw [← es, sq_sqrt h1.le]
  have hr2 : HasDerivAt (fun z : ℝ => R ^ 2 + z ^ 2) (2 * z) z := by
    simpa using (hasDerivAt_pow 2 z).const_add (R ^ 2)
  have hrb : HasDerivAt (fun z : ℝ => √(R ^ 2 + z ^ 2 + b ^ 2)) (z / s) z := by
    have := (hr2.add_const (b ^ 2)).sqrt h1.ne'
    refine this.congr_deriv ?_
    rw [es]; field_simp
  have a1 : HasDerivAt (fun z : ℝ => R * z / (R ^ 2 + z ^ 2)) ((R * (R ^ 2 + z ^ 2) - R * z * (2 * z)) / (R ^ 2 + z ^ 2) ^ 2) z := by
    refine (((hasDerivAt_id z).const_mul R).fun_div hr2 h2.ne').congr_deriv ?_
    simp
  have hden : (b ^ 2 + R ^ 2) * (R ^ 2 + z ^ 2) * √(R ^ 2 + z ^ 2 + b ^ 2) ≠ 0 := by
    rw [es]; positivity
  have a2 := ((hasDerivAt_id z).const_mul (b * R)).mul ((hasDerivAt_pow 2 z).const_add (b ^ 2 + 2 * R ^ 2))
  have a3 := a2.div ((hr2.const_mul (b ^ 2 + R ^ 2)).mul hrb) hden
  have a4 := ((hasDerivAt_id z).div_const R).arctan
  have hs0 : √(R ^ 2 + z ^ 2 + b ^ 2) ≠ 0 := by rw [es]; positivity
  have a5 := ((((hasDerivAt_id z).const_mul b).div_const R).div hrb hs0).arctan
  have key := ((((((a1.sub a3).add a4).sub a5).const_mul b).div_const (R ^ 3)).div_const 2).div_const π
  refine key.congr_deriv ?_
  simp only [Pi.mul_apply, Pi.div_apply, id, es, Nat.cast_ofNat, Isochrone.dens, Nat.add_one_sub_one, pow_one]
  have hR0 := hR.ne'
  have hs0' := hs.ne'
  have hbs : b + s ≠ 0 := by positivity
  have hRb : b ^ 2 + R ^ 2 ≠ 0 := by positivity
  have e1 : 1 + (z / R) ^ 2 = (R ^ 2 + z ^ 2) / R ^ 2 := by field_simp
  have e2 : 1 + (b * z / R / s) ^ 2 = (R ^ 2 + z ^ 2) * (b ^ 2 + R ^ 2) / (R ^ 2 * s ^ 2) := by
    field_simp
    rw [ess]; ring
  rw [e1, e2]
  have h2' := h2.ne'
  have hz2 : z ^ 2 = s ^ 2 - R ^ 2 - b ^ 2 := by rw [ess]; ring
  have hsb : s ^ 2 - b ^ 2 ≠ 0 := by rw [ess]; ring_nf; positivity
  have hz2' : R ^ 2 + z ^ 2 = (s - b) * (s + b) := by rw [hz2]; ring
  have hsmb : s - b ≠ 0 := fun h => hsb (by linear_combination (s + b) * h)
  have hspb : s + b ≠ 0 := by positivity
  rw [show b + s = s + b by ring]
  rw [hz2']
  field_simp
  rw [hz2]
  ring

theorem even_of_dens {f : ℝ → ℝ → ℝ} (h : ∀ R z, f R z = f R |z|) (R x : ℝ) : f R (-x) = f R x := by
  rw [h R (-x), abs_neg, ← h]

end C62aux

/-! ### Closed-form surface densities -/

/-- PlummerPotential: the closed form is the column between `-z` and `z`. -/
theorem C62_Plummer_surfdens {b R z : ℝ} (h : 0 < R ^ 2 + b ^ 2) (hz : 0 ≤ z) :
    Plummer.surfdens b R z = ∫ x in (-z)..z, Plummer.dens b R x := by
  refine (C62aux.surf hz (C62aux.Plummer_odd b R z) (fun x _ => C62aux.Plummer_deriv h x) ?_).symm
  intro x _
  have : R ^ 2 + x ^ 2 + b ^ 2 ≠ 0 := by nlinarith [sq_nonneg x]
  unfold Plummer.dens
  fun_prop (disch := simp_all)

/-- IsochronePotential. -/
theorem C62_Isochrone_surfdens {b R z : ℝ} (hR : 0 < R) (hb : 0 ≤ b) (hz : 0 ≤ z) :
    Isochrone.surfdens b R z = ∫ x in (-z)..z, Isochrone.dens b R x := by
  refine (C62aux.surf hz (C62aux.Isochrone_odd b R z) (fun x _ => C62aux.Isochrone_deriv hR hb x) ?_).symm
  intro x _
  have h1 : 0 < R ^ 2 + x ^ 2 + b ^ 2 := by positivity
  have h2 := (sqrt_pos.2 h1).ne'
  have h3 : b + √(R ^ 2 + x ^ 2 + b ^ 2) ≠ 0 := by positivity
  unfold Isochrone.dens
  fun_prop (disch := first | assumption | positivity | simp_all)

/-- NFWPotential: inside, outside and on the cylinder of the scale radius; inside it the sphere of
the scale radius has to be avoided (there the code divides by zero and returns NaN). -/
theorem C62_NFW_surfdens {a R z : ℝ} (ha : 0 < a) (hR : 0 < R) (hz : 0 ≤ z)
    (h : R = a ∧ 0 < z ∨ R ≠ a ∧ R ^ 2 + z ^ 2 ≠ a ^ 2) :
    NFW.surfdens a R z = ∫ x in (-z)..z, NFW.dens a R x := by
  rw [Surf.nfw_eq ha hR hz h]
  refine (Surf.column (S := Surf.nfwS a R) hz ?_ ?_ ?_ fun x hx => Surf.nfw_deriv ha hR hx).symm
  · unfold Surf.nfwS; split_ifs with k
    · simp
    · simp [Surf.J_zero hR k ha]
  · intro x; simp [NFW.dens]
  · intro x _
    obtain ⟨r, hr, e, _⟩ := Surf.root hR x
    rw [Surf.nfw_dens ha hr e]; positivity

/-- HernquistPotential. -/
theorem C62_Hernquist_surfdens {a R z : ℝ} (ha : 0 < a) (hR : 0 < R) (hz : 0 ≤ z)
    (h : R = a ∧ 0 < z ∨ R ≠ a ∧ R ^ 2 + z ^ 2 ≠ a ^ 2) :
    Hernquist.surfdens a R z = ∫ x in (-z)..z, Hernquist.dens a R x := by
  rw [Surf.hernquist_eq ha hR hz h]
  refine (Surf.column (S := Surf.hernquistS a R) hz ?_ ?_ ?_ fun x hx => Surf.hernquist_deriv ha hR hx).symm
  · unfold Surf.hernquistS; split_ifs with k
    · simp
    · simp [Surf.J_zero hR k ha]
  · intro x; simp [Hernquist.dens, Dehnen.dens]
  · intro x _
    obtain ⟨r, hr, e, _⟩ := Surf.root hR x
    rw [Surf.hernquist_dens ha hr e]; positivity

/-- JaffePotential. -/
theorem C62_Jaffe_surfdens {a R z : ℝ} (ha : 0 < a) (hR : 0 < R) (hz : 0 ≤ z)
    (h : R = a ∧ 0 < z ∨ R ≠ a ∧ R ^ 2 + z ^ 2 ≠ a ^ 2) :
    Jaffe.surfdens a R z = ∫ x in (-z)..z, Jaffe.dens a R x := by
  rw [Surf.jaffe_eq ha hR hz h]
  refine (Surf.column (S := Surf.jaffeS a R) hz ?_ ?_ ?_ fun x hx => Surf.jaffe_deriv ha hR hx).symm
  · unfold Surf.jaffeS; split_ifs with k
    · simp
    · simp [Surf.J_zero hR k ha]
  · intro x; simp [Jaffe.dens, Dehnen.dens]
  · intro x _
    obtain ⟨r, hr, e, _⟩ := Surf.root hR x
    rw [Surf.jaffe_dens ha hr e]; positivity

/-- BurkertPotential. -/
theorem C62_Burkert_surfdens {a R z : ℝ} (ha : 0 < a) (hR : 0 < R) (hz : 0 ≤ z)
    (h : R = a ∧ 0 < z ∨ R ≠ a ∧ R ^ 2 + z ^ 2 ≠ a ^ 2) :
    Burkert.surfdens a R z = ∫ x in (-z)..z, (Burkert.pot a).dens R x 0 0 := by
  rw [Surf.burkert_eq ha hR hz h]
  refine (Surf.column (S := Surf.burkertS a R) hz ?_ ?_ ?_ fun x hx => Surf.burkert_deriv ha hR hx).symm
  · unfold Surf.burkertS; split_ifs with k
    · simp
    · simp [Surf.J_zero hR k ha]
  · intro x; simp [Burkert.pot, Spherical.pot, Spherical.dens]
  · intro x _
    obtain ⟨r, hr, e, _⟩ := Surf.root hR x
    simp only [Burkert.pot, Spherical.pot, Spherical.dens, Burkert.radial, Burkert.rdens, e]
    positivity

/-- Every class with a closed form, through the public method: for `z ≥ 0` it returns the amplitude
times the column, the same as the default integral over the density would. -/
theorem C62_closed_forms {o : Obj} {s d : ℝ → ℝ → ℝ} (hs : o.surfdens = some fun R z _ _ => s R z)
    {R z : ℝ} (h : s R z = ∫ x in (-z)..z, d R x) (hz : 0 ≤ z) (φ t : ℝ) :
    surfdensOf o R z φ t false = surfdensOf { o with surfdens := none, dens := some fun R z _ _ => d R z } R z φ t false := by
  simp [surfdensOf, hs, h, abs_of_nonneg hz]

/-! ### Spherical potentials: the integral route gives the closed form -/

theorem C62_spherical {P : Pot} {M : ℝ → ℝ} (h : MassOf P M) {R : ℝ} (hR : 0 < R) (t : ℝ) :
    gaussSphere P R t = M R := by
  have e : ∀ θ : ℝ, √((R * sin θ) ^ 2 + (R * cos θ) ^ 2) = R := fun θ => by
    rw [show (R * sin θ) ^ 2 + (R * cos θ) ^ 2 = R ^ 2 by linear_combination R ^ 2 * sin_sq_add_cos_sq θ,
      sqrt_sq hR.le]
  have k : ∀ θ : ℝ, PotQuant.rforce P (R * sin θ) (R * cos θ) 0 t = -M R / R ^ 2 := by
    intro θ
    have g := h.gauss (R * sin θ) (R * cos θ) 0 t (by
      rw [show (R * sin θ) ^ 2 + (R * cos θ) ^ 2 = R ^ 2 by linear_combination R ^ 2 * sin_sq_add_cos_sq θ]
      positivity)
    rw [e θ, gaussMass, e θ] at g
    rw [g, PotQuant.rforce, e θ]
    field_simp
  simp only [gaussSphere, k]
  rw [intervalIntegral.integral_const_mul, integral_sin, cos_pi, cos_zero]
  field_simp
  ring

/-! ### Amplitudes, sums and instances -/

namespace C62aux

variable {P Q : Pot} {K : Set (ℝ × ℝ)} {t : ℝ}

theorem Good.scale (amp : ℝ) (h : C62Spec.Good P K t) : C62Spec.Good (P.scale amp) K t where
  smooth := let ⟨D, hD, hK⟩ := h.smooth; ⟨D, hD.scale amp, hK⟩
  axi R z φ := by simp only [Pot.scale, h.axi R z φ]
  poisson p hp h0 := (h.poisson p hp h0).scale amp
  dens := continuousOn_const.mul h.dens

theorem Good.add (h : C62Spec.Good P K t) (k : C62Spec.Good Q K t) : C62Spec.Good (P.add Q) K t := by
  obtain ⟨D, hD, hK⟩ := h.smooth
  obtain ⟨E, hE, kK⟩ := k.smooth
  have o := hD.isOpen.inter hE.isOpen
  have hD' := hD.mono o inter_subset_left
  have hE' := hE.mono o inter_subset_right
  exact ⟨⟨D ∩ E, hD'.add hE', fun p hp => ⟨hK p hp, kK p hp⟩⟩,
    fun R z φ => by simp only [Pot.add, h.axi R z φ, k.axi R z φ],
    fun p hp h0 => PoissonAt.add hD' hE' ⟨hK p hp, kK p hp⟩ (h.poisson p hp h0) (k.poisson p hp h0),
    h.dens.add k.dens⟩

theorem Good.zero : C62Spec.Good Pot.zero K t where
  smooth := ⟨univ, .zero isOpen_univ, fun _ _ => trivial⟩
  axi _ _ _ := rfl
  poisson p _ _ := by simp [PoissonAt, Pot.zero]
  dens := continuousOn_const

theorem sumPot_eq (l : List Obj) : sumPot l = Pot.sum (l.map (·.pot)) := by
  induction l with
  | nil => rfl
  | cons o l ih =>
    rw [List.map_cons, Pot.sum, List.foldr_cons, ← Pot.sum, ← ih]
    simp [sumPot, Pot.add]

theorem Good.sumPot {l : List Obj} (h : ∀ o ∈ l, C62Spec.Good o.pot K t) : C62Spec.Good (MassQuant.sumPot l) K t := by
  rw [sumPot_eq]
  induction l with
  | nil => exact Good.zero
  | cons o l ih => exact Good.add (h o (by simp)) (ih fun p hp => h p (by simp [hp]))

end C62aux

/-- The mass of any combination of regular axisymmetric potentials, by the integral, is the mass in
the ball under the summed density. -/
theorem C62_composite_ball {l : List Obj} {R t : ℝ} (hR : 0 ≤ R) (ha : ∀ o ∈ l, o.isNonAxi = false)
    (h : ∀ o ∈ l, C62Spec.Good o.pot (Gauss.shellSet 0 R) t) :
    massFn (composite l) R none t true = .ok (C62Spec.ball (sumPot l) R t) :=
  (C62_ball (o := composite l) hR (by simpa [composite] using ha) true (.inl rfl) (C62aux.Good.sumPot h)).2

theorem C62aux.MiyamotoNagai_good {a b : ℝ} (ha : 0 ≤ a) (hb : b ≠ 0) (amp : ℝ) (scalar : Bool) (K : Set (ℝ × ℝ)) (t : ℝ) :
    C62Spec.Good ((MiyamotoNagai.pot scalar a b).scale amp) K t := by
  have hp : ∀ x y : ℝ, 0 < y ^ 2 + b ^ 2 ∧ 0 < x ^ 2 + (a + √(y ^ 2 + b ^ 2)) ^ 2 := fun x y => by
    have : 0 < y ^ 2 + b ^ 2 := by positivity
    have := sqrt_pos.2 this
    constructor <;> positivity
  refine C62aux.Good.scale amp ⟨⟨_, MiyamotoNagai.smoothOn scalar a b, fun p _ => hp p.1 p.2⟩, fun _ _ _ => rfl,
    fun p _ h0 => (MiyamotoNagai.consistent scalar a b).poisson _ _ _ _ (hp p.1 p.2) h0.ne', ?_⟩
  refine Continuous.continuousOn (continuous_iff_continuousAt.2 fun p => ?_)
  have h1 : b ^ 2 + p.2 ^ 2 ≠ 0 := by positivity
  have h2 : 0 < √(b ^ 2 + p.2 ^ 2) := by positivity
  have h2' := h2.ne'
  have h3 : 0 < p.1 ^ 2 + (a + √(b ^ 2 + p.2 ^ 2)) ^ 2 := by positivity
  have h3'' := h3.ne'
  have h3' := (rpow_pos_of_pos h3 (5 / 2)).ne'
  have h4 : 0 < p.1 ^ 2 + √(b ^ 2 + p.2 ^ 2) ^ 2 := by positivity
  have h4'' := h4.ne'
  have h4' := (rpow_pos_of_pos h4 (5 / 2)).ne'
  simp only [MiyamotoNagai.pot, Pot.axi, MiyamotoNagai.dens]
  by_cases hs : scalar = true ∧ a = 0
  · obtain ⟨rfl, rfl⟩ := hs
    simp only [zero_add, and_self, if_true]
    fun_prop (disch := first | assumption | positivity | simp_all)
  · have : ∀ y : ℝ, ¬(scalar = true ∧ √(b ^ 2 + y ^ 2) = a + √(b ^ 2 + y ^ 2)) := fun y k =>
      hs ⟨k.1, by linarith [k.2]⟩
    simp only [this, if_false]
    fun_prop (disch := first | assumption | positivity | simp_all)

/-- MiyamotoNagaiPotential has no closed-form mass: its masses in spheres and cylinders are the
integrals of its density. -/
theorem C62_MiyamotoNagai {a b : ℝ} (ha : 0 ≤ a) (hb : b ≠ 0) (amp : ℝ) (scalar : Bool) {o : Obj}
    (ho : o.pot = (MiyamotoNagai.pot scalar a b).scale amp) (hn : o.isNonAxi = false) (hm : o.mass = none)
    {R : ℝ} (hR : 0 ≤ R) (z t : ℝ) :
    massOf o R none t false = .ok (C62Spec.ball o.pot R t) ∧
      massOf o R (some z) t false = .ok (C62Spec.cylinder o.pot R |z| t) := by
  have g : ∀ K, C62Spec.Good o.pot K t := fun K => ho ▸ C62aux.MiyamotoNagai_good ha hb amp scalar K t
  exact ⟨(C62_ball hR hn false (.inr hm) (g _)).1, (C62_cylinder hR hn false (.inr (.inl hm)) (g _) fun x y φ => by
    rw [ho]; simp [Pot.scale, MiyamotoNagai.pot, Pot.axi, MiyamotoNagai.evaluate]).1⟩

/-! ### What goes wrong -/

/-- The Plummer object as galpy builds it. -/
def C62aux.plummer (amp b : ℝ) : Obj where
  pot := (Plummer.pot b).scale amp
  isNonAxi := false
  isEllipsoidal := false
  amp := amp
  dens := some fun R z _ _ => Plummer.dens b R z
  surfdens := some fun R z _ _ => Plummer.surfdens b R z
  mass := some fun R z _ => match z with | none => some (Plummer.mass b R) | some _ => none

/-- Below the plane the closed forms return minus the column although the documented value, and both
other routes, are the column between `-|z|` and `|z|`. -/
theorem C62_negative_z_fails : surfdensOf (C62aux.plummer 1 1) 1 (-1) 0 0 false < 0 ∧
    0 < surfdensOf (C62aux.plummer 1 1) 1 (-1) 0 0 true := by
  have pos : 0 < Plummer.surfdens 1 1 1 := by unfold Plummer.surfdens; positivity
  constructor
  · simp only [surfdensOf, C62aux.plummer, one_mul]
    rw [C62aux.Plummer_odd]
    linarith
  · have hp : ∀ x : ℝ, ((1 : ℝ), x, (0 : ℝ)) ∈ {p : ℝ × ℝ × ℝ | 0 < p.1 ^ 2 + p.2.1 ^ 2 + (1 : ℝ) ^ 2} := fun x => by
      simp only [mem_setOf_eq]; positivity
    rw [C62_surfdens (P := (C62aux.plummer 1 1).pot) ((Plummer.smoothOn 1).scale 1) one_ne_zero
      (fun x _ => hp x) (fun x _ => ((Plummer.consistent 1).poisson _ _ _ _ (hp x) one_ne_zero).scale 1) ?_ ?_ _ rfl]
    · rw [C62_Plummer_surfdens (by norm_num) zero_le_one] at pos
      simpa [C62aux.plummer, Pot.scale, Plummer.pot, Pot.axi] using pos
    all_goals
      refine Continuous.continuousOn (continuous_iff_continuousAt.2 fun x => ?_)
      have : 1 + x ^ 2 + 1 ≠ 0 := by positivity
      simp only [C62aux.plummer, Pot.scale, Plummer.pot, Pot.axi, Plummer.dens, Plummer.z2deriv, one_pow, one_mul]
      fun_prop (disch := simp_all)

/-- The razor-thin Kuzmin disk as galpy builds it: no `_dens`, own `_surfdens` and `_mass`. -/
def C62aux.kuzmin (a : ℝ) : Obj where
  pot := KuzminDisk.pot a
  isNonAxi := false
  isEllipsoidal := false
  amp := 1
  dens := none
  surfdens := some fun R _ _ _ => KuzminDisk.surfdens a R
  mass := some fun R _ _ => some (KuzminDisk.mass a R)

/-- A combination containing a razor-thin disk misses the disk: its default surface density
integrates the volume density, which is zero off the plane, although the disk alone and the Poisson
route both report the disk's surface density. -/
theorem C62_kuzmin_composite_fails {a R z : ℝ} (ha : 0 < a) (hR : 0 < R) (hz : 0 < z) :
    surfdensOf (C62aux.kuzmin a) R z 0 0 false = a * (R ^ 2 + a ^ 2) ^ (-(3 / 2) : ℝ) / 2 / π ∧
      surfdensOf (composite [C62aux.kuzmin a]) R z 0 0 true = a * (R ^ 2 + a ^ 2) ^ (-(3 / 2) : ℝ) / 2 / π ∧
      surfdensOf (composite [C62aux.kuzmin a]) R z 0 0 false = 0 := by
  refine ⟨by simp [surfdensOf, C62aux.kuzmin, KuzminDisk.surfdens], ?_, ?_⟩
  · have hpos : ∀ x : ℝ, 0 < R ^ 2 + (a + x) ^ 2 := fun x => by positivity
    have hd : ∀ x : ℝ, HasDerivAt (fun x : ℝ => (R ^ 2 + (a + x) ^ 2) ^ (-(3 / 2) : ℝ) * (a + x))
        ((R ^ 2 + (a + x) ^ 2) ^ (-(3 / 2) : ℝ) - 3 * (a + x) ^ 2 * (R ^ 2 + (a + x) ^ 2) ^ (-(5 / 2) : ℝ)) x := by
      intro x
      have d0 : HasDerivAt (fun x : ℝ => a + x) 1 x := (hasDerivAt_id x).const_add a
      have d1 : HasDerivAt (fun x : ℝ => R ^ 2 + (a + x) ^ 2) (2 * (a + x)) x := by
        simpa using (d0.fun_pow 2).const_add (R ^ 2)
      have d2 := (d1.rpow_const (p := (-(3 / 2) : ℝ)) (Or.inl (hpos x).ne')).fun_mul d0
      refine d2.congr_deriv ?_
      rw [show (-(3 / 2) - 1 : ℝ) = -(5 / 2) by norm_num]
      ring
    have alg : ∀ x : ℝ, 0 ≤ x → -KuzminDisk.Rforce a R x / R + KuzminDisk.R2deriv a R x =
        -((R ^ 2 + (a + x) ^ 2) ^ (-(3 / 2) : ℝ) - 3 * (a + x) ^ 2 * (R ^ 2 + (a + x) ^ 2) ^ (-(5 / 2) : ℝ)) := by
      intro x hx
      have e : (R ^ 2 + (a + x) ^ 2) ^ (-(3 / 2) : ℝ) =
          (R ^ 2 + (a + x) ^ 2) ^ (-(5 / 2) : ℝ) * (R ^ 2 + (a + x) ^ 2) := by
        rw [← rpow_add_one (hpos x).ne']; norm_num
      simp only [KuzminDisk.Rforce, KuzminDisk.R2deriv, KuzminDisk.denom, abs_of_nonneg hx]
      rw [e]
      field_simp
      ring
    have even : ∀ x : ℝ, -KuzminDisk.Rforce a R (-x) / R + KuzminDisk.R2deriv a R (-x) =
        -KuzminDisk.Rforce a R x / R + KuzminDisk.R2deriv a R x := by
      intro x; simp [KuzminDisk.Rforce, KuzminDisk.R2deriv, KuzminDisk.denom]
    have hcont : Continuous fun x => -KuzminDisk.Rforce a R x / R + KuzminDisk.R2deriv a R x := by
      refine continuous_iff_continuousAt.2 fun x => ?_
      have : R ^ 2 + (a + |x|) ^ 2 ≠ 0 := (hpos |x|).ne'
      simp only [KuzminDisk.Rforce, KuzminDisk.R2deriv, KuzminDisk.denom]
      fun_prop (disch := simp_all)
    have half : ∫ x in (0 : ℝ)..z, (-KuzminDisk.Rforce a R x / R + KuzminDisk.R2deriv a R x) =
        -((R ^ 2 + (a + z) ^ 2) ^ (-(3 / 2) : ℝ) * (a + z)) + (R ^ 2 + a ^ 2) ^ (-(3 / 2) : ℝ) * a := by
      rw [intervalIntegral.integral_eq_sub_of_hasDerivAt
        (f := fun x => -((R ^ 2 + (a + x) ^ 2) ^ (-(3 / 2) : ℝ) * (a + x))) (fun x hx => ?_)
        (hcont.intervalIntegrable _ _)]
      · simp
      · rw [uIcc_of_le hz.le] at hx
        rw [alg x hx.1]
        exact (hd x).neg
    have full : ∫ x in (-z)..z, (-KuzminDisk.Rforce a R x / R + KuzminDisk.R2deriv a R x) =
        2 * ∫ x in (0 : ℝ)..z, (-KuzminDisk.Rforce a R x / R + KuzminDisk.R2deriv a R x) := by
      rw [← intervalIntegral.integral_add_adjacent_intervals (hcont.intervalIntegrable (-z) 0)
        (hcont.intervalIntegrable 0 z)]
      have := intervalIntegral.integral_comp_neg (a := 0) (b := z)
        fun x => -KuzminDisk.Rforce a R x / R + KuzminDisk.R2deriv a R x
      simp only [even, neg_zero] at this
      rw [← this]
      ring
    have e : surfdensOf (composite [C62aux.kuzmin a]) R z 0 0 true =
        (-KuzminDisk.zforce a R z + KuzminDisk.zforce a R (-z)
          + ∫ x in (-z)..z, (-KuzminDisk.Rforce a R x / R + KuzminDisk.R2deriv a R x)) / 4 / π := by
      simp [surfdensOf, composite, poissonSurfdens, sumPot, C62aux.kuzmin, KuzminDisk.pot, Pot.axi, abs_of_pos hz]
    rw [e, full, half]
    simp only [KuzminDisk.zforce, KuzminDisk.denom, abs_neg, abs_of_pos hz, Real.sign_of_pos hz,
      Real.sign_of_neg (neg_lt_zero.2 hz)]
    field_simp
    ring
  · have e : surfdensOf (composite [C62aux.kuzmin a]) R z 0 0 false = ∫ x in (-z)..z, KuzminDisk.dens a R x := by
      simp [surfdensOf, composite, densOf, poissonDens, C62aux.kuzmin, KuzminDisk.pot, Pot.axi, abs_of_pos hz,
        KuzminDisk.dens]
    rw [e]
    refine intervalIntegral.integral_zero_ae ?_
    have : ∀ᵐ x : ℝ, x ≠ 0 := by simp [ae_iff, measure_singleton]
    filter_upwards [this] with x hx _
    exact KuzminDisk.dens_eq_zero ha.le hx hR.ne'

/-- A potential without symmetry about the plane, `Φ = z³`. -/
def C62aux.cubic : Pot where
  val _ z _ _ := z ^ 3
  Rforce _ _ _ _ := 0
  zforce _ z _ _ := -3 * z ^ 2
  phitorque _ _ _ _ := 0
  R2deriv _ _ _ _ := 0
  z2deriv _ z _ _ := 6 * z
  Rzderiv _ _ _ _ := 0
  phi2deriv _ _ _ _ := 0
  Rphideriv _ _ _ _ := 0
  phizderiv _ _ _ _ := 0
  dens _ z _ _ := 6 * z / (4 * π)

/-- `mass(R, z)` counts the flux through the top twice instead of through top and bottom, so without
symmetry about the plane it is not the mass in the cylinder. -/
theorem C62_asymmetric_fails :
    (∀ R z φ t, GradAt C62aux.cubic R z φ t ∧ HessAt C62aux.cubic R z φ t ∧ PoissonAt C62aux.cubic R z φ t) ∧
      gaussCylinder C62aux.cubic 1 1 0 = 3 / 2 ∧ C62Spec.cylinder C62aux.cubic 1 1 0 = 0 := by
  have g : ∀ R z φ t, GradAt C62aux.cubic R z φ t := fun R z φ t =>
    ⟨by simpa [C62aux.cubic] using hasDerivAt_const _ _, by
      simpa [C62aux.cubic] using hasDerivAt_pow 3 z, by simpa [C62aux.cubic] using hasDerivAt_const _ _⟩
  have h : ∀ R z φ t, HessAt C62aux.cubic R z φ t := fun R z φ t => by
    refine HessAt.of_force ⟨.of_forall fun _ => g _ _ _ _, .of_forall fun _ => g _ _ _ _, .of_forall fun _ => g _ _ _ _⟩ ?_
    constructor
    case zz =>
      have := (hasDerivAt_pow 2 z).const_mul (-3)
      refine this.congr_deriv ?_
      simp [C62aux.cubic]; ring
    all_goals simpa [C62aux.cubic] using hasDerivAt_const _ _
  refine ⟨fun R z φ t => ⟨g _ _ _ _, h _ _ _ _, (poissonAt_iff (g _ _ _ _) (h _ _ _ _)).2 ?_⟩, ?_, ?_⟩
  · simp only [PoissonAlg, C62aux.cubic]
    field_simp
    ring
  · have : ∫ x in (0 : ℝ)..1, x * (-3 : ℝ) = -(3 / 2) := by
      rw [intervalIntegral.integral_mul_const, integral_id]; norm_num
    simp [gaussCylinder, C62aux.cubic] at this ⊢
    linarith
  · rw [C62Spec.cylinder, ← C62aux.solid_cylinder zero_le_one]
    have v := Gauss.integral_cylinder (R := 1) (z := 1) (ρ := fun q => C62aux.cubic.dens q.1 q.2 0 0) zero_le_one zero_le_one (by
      refine Continuous.continuousOn ?_
      simp only [C62aux.cubic]
      fun_prop)
    refine Eq.trans v ?_
    have k : ∀ x : ℝ, ∫ y in (-1 : ℝ)..1, x * (6 * y / (4 * π)) = 0 := by
      intro x
      have : ∀ y : ℝ, x * (6 * y / (4 * π)) = x * 6 / (4 * π) * y := fun y => by ring
      simp only [this]
      rw [intervalIntegral.integral_const_mul, integral_id]
      norm_num
    simp only [C62aux.cubic, k]
    simp

/-! ### Concrete cases -/

/-- A combination holding a Miyamoto–Nagai disk, inside radius 3. -/
example : ∃ M, massFn (composite [⟨(MiyamotoNagai.pot false 1 (1/2)).scale 2, false, false, 2, none, none, none⟩]) 3 none 0 true
    = .ok M := by
  refine ⟨_, C62_composite_ball (by norm_num) (by simp) fun o ho => ?_⟩
  simp only [List.mem_singleton] at ho
  subst ho
  exact C62aux.MiyamotoNagai_good (by norm_num) (by norm_num) 2 false _ 0

example : Plummer.surfdens 1 0 2 = ∫ x in (-2 : ℝ)..2, Plummer.dens 1 0 x :=
  C62_Plummer_surfdens (by norm_num) (by norm_num)
example : Isochrone.surfdens 1 2 3 = ∫ x in (-3 : ℝ)..3, Isochrone.dens 1 2 x :=
  C62_Isochrone_surfdens (by norm_num) (by norm_num) (by norm_num)
/-- inside, on and outside the cylinder of the scale radius -/
example : NFW.surfdens 2 1 3 = ∫ x in (-3 : ℝ)..3, NFW.dens 2 1 x :=
  C62_NFW_surfdens (by norm_num) (by norm_num) (by norm_num) (.inr (by norm_num))
example : Hernquist.surfdens 1 1 3 = ∫ x in (-3 : ℝ)..3, Hernquist.dens 1 1 x :=
  C62_Hernquist_surfdens (by norm_num) (by norm_num) (by norm_num) (.inl (by norm_num))
example : Jaffe.surfdens 1 2 3 = ∫ x in (-3 : ℝ)..3, Jaffe.dens 1 2 x :=
  C62_Jaffe_surfdens (by norm_num) (by norm_num) (by norm_num) (.inr (by norm_num))
example : Burkert.surfdens 2 1 3 = ∫ x in (-3 : ℝ)..3, (Burkert.pot 2).dens 1 x 0 0 :=
  C62_Burkert_surfdens (by norm_num) (by norm_num) (by norm_num) (.inr (by norm_num))
/-- an NFW halo with amplitude 3 -/
example : gaussSphere ((NFW.pot 1).scale 3) 2 0 = 3 * NFW.mass 1 2 :=
  C62_spherical (M := fun r => 3 * NFW.mass 1 r) (C04_NFW 3 1 one_pos).1 (R := 2) (by norm_num) 0
/-- a Plummer sphere between two radii -/
example : gaussSphere (Plummer.pot 1) 2 0 - gaussSphere (Plummer.pot 1) 1 0 = C62Spec.shell (Plummer.pot 1) 1 2 0 := by
  have hp : ∀ R z : ℝ, 0 < R ^ 2 + z ^ 2 + (1 : ℝ) ^ 2 := fun R z => by positivity
  refine C62_shell (by norm_num) (by norm_num) ⟨⟨_, Plummer.smoothOn 1, fun p _ => hp p.1 p.2⟩, fun _ _ _ => rfl,
    fun p _ h0 => (Plummer.consistent 1).poisson _ _ _ _ (hp p.1 p.2) h0.ne', ?_⟩
  refine Continuous.continuousOn (continuous_iff_continuousAt.2 fun p => ?_)
  have := (hp p.1 p.2).ne'
  simp only [Plummer.pot, Pot.axi, Plummer.dens]
  fun_prop (disch := simp_all)

end Verif
