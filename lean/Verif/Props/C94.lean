import Verif.Model.AdiabaticAA
import Verif.Props.C77
import Verif.Props.C77Vertical

set_option autoImplicit false

/-!
# C94: the adiabatic approximation

With `gamma = 0` the coordinates of `actionAngleAdiabatic` are exact in every potential that is the sum of a function of `R` and a
function of `z`.  With any other `gamma` the radial action is that of the motion in the plane with the angular momentum enlarged
by `gamma` times the vertical action, except at points without radial velocity.
-/

noncomputable section
namespace Verif
open Real Set MeasureTheory
open IsochroneAA (Point Lz L2 L mod2pi)
open SphericalAA (Radial rad)
open AdiabaticAA (Pot3 flat Turning effE effL startsign)
open RootSearch (rapRperiEq rapRperiStep Ends)

/-- The potential is the sum of a function of `R` and the symmetric function `g` of `z`. -/
structure C94Spec.Separable (P : Pot3) (g g' : ℝ → ℝ) : Prop where
  sum : ∀ R z, 0 < R → P.phi R z = P.phi R 0 + g z
  force : ∀ R z, 0 < R → P.rforce R z = P.rforce R 0
  sym : C77Spec.Symmetric g g'

/-- A motion in the forces `FR`, `Fz`. -/
structure C94Spec.Motion (FR Fz : ℝ → ℝ → ℝ) (p : ℝ → Point) : Prop where
  pos : ∀ t, 0 < (p t).R
  R : ∀ t, HasDerivAt (fun s => (p s).R) (p t).vR t
  z : ∀ t, HasDerivAt (fun s => (p s).z) (p t).vz t
  phi : ∀ t, HasDerivAt (fun s => (p s).phi) ((p t).vT / (p t).R) t
  vR : ∀ t, HasDerivAt (fun s => (p s).vR) ((p t).vT ^ 2 / (p t).R + FR (p t).R (p t).z) t
  vT : ∀ t, HasDerivAt (fun s => (p s).vT) (-((p t).vR * (p t).vT / (p t).R)) t
  vz : ∀ t, HasDerivAt (fun s => (p s).vz) (Fz (p t).R (p t).z) t

/-- An orbit between the radii `a` and `b` that reaches the height `h`. -/
structure C94Spec.Orbit (P : Pot3) (g g' : ℝ → ℝ) (a b h : ℝ) (p : ℝ → Point) : Prop where
  sep : C94Spec.Separable P g g'
  motion : C94Spec.Motion P.rforce (fun _ z => -g' z) p
  bound : C77Spec.Bound P.planar (((p 0).vR ^ 2 + (p 0).vT ^ 2) / 2 + P.phi (p 0).R 0) |(p 0).R * (p 0).vT| a b
  height : (p 0).vz ^ 2 / 2 + g (p 0).z = g h
  h_pos : 0 < h
  h_le : h ≤ 50

namespace C94aux
variable {P : Pot3} {g g' : ℝ → ℝ} {a b h : ℝ} {p : ℝ → Point}

theorem rad_flat (q : Point) (hR : 0 < q.R) : rad (flat q) = q.R := by
  unfold rad flat
  simp only
  rw [show q.R ^ 2 + 0 ^ 2 = q.R ^ 2 by ring, sqrt_sq hR.le]

theorem L_flat (q : Point) : L (flat q) = |q.R * q.vT| := by
  unfold L L2 flat Lz
  simp only
  rw [show -0 * q.vT * (-0 * q.vT) + (0 * q.vR - q.R * 0) * (0 * q.vR - q.R * 0) + q.R * q.vT * (q.R * q.vT) = (q.R * q.vT) ^ 2 by ring,
    sqrt_sq_eq_abs]

theorem flat_orbit (o : C94Spec.Orbit P g g' a b h p) : C77Spec.Orbit P.planar a b fun t => flat (p t) := by
  have m := o.motion
  refine ⟨⟨m.pos, m.R, fun t => hasDerivAt_const t 0, m.phi, fun t => (m.vR t).congr_deriv ?_, m.vT, fun t => ?_⟩, ?_⟩
  · have hR := m.pos t
    simp only [flat]
    rw [show (p t).R ^ 2 + 0 ^ 2 = (p t).R ^ 2 by ring, sqrt_sq hR.le, div_self hR.ne', mul_one, o.sep.force _ _ hR]
    rfl
  · simpa [flat] using hasDerivAt_const t (0 : ℝ)
  · have hR := m.pos 0
    have h1 : C77Spec.energy P.planar (flat (p 0)) = ((p 0).vR ^ 2 + (p 0).vT ^ 2) / 2 + P.phi (p 0).R 0 := by
      unfold C77Spec.energy flat Pot3.planar
      simp only
      rw [show (p 0).R ^ 2 + 0 ^ 2 = (p 0).R ^ 2 by ring, sqrt_sq hR.le]
      ring
    have h2 : √(C50Spec.angmom2 (flat (p 0))) = |(p 0).R * (p 0).vT| := by
      rw [← C50aux.L2_eq]
      exact L_flat (p 0)
    rw [h1, h2]
    exact o.bound

theorem oscillation (o : C94Spec.Orbit P g g' a b h p) : C77Spec.Oscillation g g' h (fun t => (p t).z) fun t => (p t).vz :=
  ⟨o.motion.z, o.motion.vz, o.h_pos, o.height⟩

theorem vertical_eq (o : C94Spec.Orbit P g g' a b h p) (t : ℝ) : P.vertical (p t).R = g := by
  funext z
  unfold Pot3.vertical
  rw [o.sep.sum _ z (o.motion.pos t)]
  ring

/-- The body is never at rest in the plane. -/
theorem not_rest (o : C94Spec.Orbit P g g' a b h p) (t : ℝ) : ¬ ((p t).z = 0 ∧ (p t).vz = 0) := fun hc => by
  have := C77aux.venergy o.sep.sym (oscillation o) t
  simp only [hc.1, hc.2] at this
  have hm := C77aux.phi_mono o.sep.sym (mem_Ici.2 le_rfl) (mem_Ici.2 o.h_pos.le) o.h_pos
  norm_num at this
  linarith

theorem turning_zero (Q : Radial) (jz : ℝ) (q : Point) (rr : Option (ℝ × ℝ)) :
    Turning 0 Q jz q rr ↔ SphericalAA.RperiRap Q (rad q) (SphericalAA.vr q) (SphericalAA.vt q) (SphericalAA.E Q q) (L q) rr := by
  unfold Turning AdiabaticAA.RperiRap SphericalAA.RperiRap effE effL startsign
  simp only [ne_eq, not_true_eq_false, if_false]
  exact Iff.rfl

theorem turning_eq (o : C94Spec.Orbit P g g' a b h p) (jz t : ℝ) (rr : Option (ℝ × ℝ)) :
    Turning 0 P.planar jz (flat (p t)) rr ↔ rr = some (a, b) := by
  rw [turning_zero]
  exact C77aux.outcome (flat_orbit o) t rr

theorem radial_zero (Q : Radial) (jz : ℝ) (q : Point) (rr : ℝ × ℝ) :
    AdiabaticAA.radial 0 Q jz q rr
      = ((SphericalAA.compute Q q rr).jr, (SphericalAA.compute Q q rr).jphi, (SphericalAA.compute Q q rr).Or,
        (SphericalAA.compute Q q rr).Op, (SphericalAA.compute Q q rr).ar, (SphericalAA.compute Q q rr).ap) := by
  unfold AdiabaticAA.radial effE effL
  simp only [ne_eq, not_true_eq_false, if_false]
  rfl

end C94aux

/-- **C94 (separable potentials).** With `gamma = 0`, in every potential that is the sum of a function of `R` and a symmetric function of
`z`, along every orbit whose turning points the searches find, `actionsFreqsAngles` has exactly one result at every time.  The
actions are the same at all times and those of the call without frequencies; the vertical angle advances linearly at the vertical
frequency, and so do, if the radial action is at least `10^-9`, the radial angle and, if there is angular momentum, the azimuthal
angle.  `2 pi` times the radial and vertical actions are the integrals of the squares of the velocities over one period.

Missing for the full statement: radial actions below `10^-9`, orbits in the plane, turning points within `10^-15` of the circular velocity
or outside the limits of the searches. -/
theorem C94_separable_partial {P : Pot3} {g g' : ℝ → ℝ} {a b h : ℝ} {p : ℝ → Point} (o : C94Spec.Orbit P g g' a b h p) :
    ∃ u : ℝ → AdiabaticAA.Out, (∀ t out, AdiabaticAA.Angles 0 P (p t) out ↔ out = some (u t))
      ∧ (∀ t out, AdiabaticAA.Actions 0 P (p t) out ↔ out = some ((u t).jr, (u t).jphi, (u t).jz))
      ∧ 0 < (u 0).jz ∧ 2 * π * (u 0).jz = ∫ t in (0 : ℝ)..2 * π / (u 0).Oz, (p t).vz ^ 2
      ∧ (∀ t, (u t).jr = (u 0).jr ∧ (u t).jphi = (u 0).jphi ∧ (u t).jz = (u 0).jz ∧ (u t).Oz = (u 0).Oz
        ∧ C50Spec.Same (u t).az ((u 0).az + (u 0).Oz * t))
      ∧ (1 / 10 ^ 9 ≤ (u 0).jr → 2 * π * (u 0).jr = (∫ t in (0 : ℝ)..2 * π / (u 0).Or, (p t).vR ^ 2)
        ∧ ∀ t, (u t).Or = (u 0).Or ∧ (u t).Op = (u 0).Op ∧ C50Spec.Same (u t).ar ((u 0).ar + (u 0).Or * t)
          ∧ ((u 0).jphi ≠ 0 → C50Spec.Same (u t).ap ((u 0).ap + (u 0).Op * t))) := by
  obtain ⟨J, O, angle, hJ, -, hA, hAc, hang, -, hint⟩ := C77_vertical o.sep.sym (C94aux.oscillation o) o.h_le
  have fo := C94aux.flat_orbit o
  refine ⟨fun t => ⟨(SphericalAA.compute P.planar (flat (p t)) (a, b)).jr, (SphericalAA.compute P.planar (flat (p t)) (a, b)).jphi, J,
    (SphericalAA.compute P.planar (flat (p t)) (a, b)).Or, (SphericalAA.compute P.planar (flat (p t)) (a, b)).Op, O,
    (SphericalAA.compute P.planar (flat (p t)) (a, b)).ar, (SphericalAA.compute P.planar (flat (p t)) (a, b)).ap, angle t⟩,
    fun t out => ?_, fun t out => ?_, hJ, hint, fun t => ?_, fun hj => ⟨?_, fun t => ?_⟩⟩
  · unfold AdiabaticAA.Angles
    simp only [if_neg (C94aux.not_rest o t), C94aux.vertical_eq o t]
    constructor
    · rintro ⟨oz, hz, hm⟩
      rw [hA t] at hz
      subst hz
      obtain ⟨rr, hr, rfl⟩ := hm
      rw [C94aux.turning_eq o] at hr
      subst hr
      simp only [Option.map_some, C94aux.radial_zero]
    · rintro rfl
      refine ⟨_, (hA t _).2 rfl, some (a, b), (C94aux.turning_eq o _ t _).2 rfl, ?_⟩
      simp only [Option.map_some, C94aux.radial_zero]
  · unfold AdiabaticAA.Actions
    simp only [C94aux.vertical_eq o t]
    have key : (SphericalAA.calcJr P.planar a b (effE 0 P.planar J (flat (p t))) (effL 0 J (flat (p t))), Lz (flat (p t)), J)
        = ((SphericalAA.compute P.planar (flat (p t)) (a, b)).jr, (SphericalAA.compute P.planar (flat (p t)) (a, b)).jphi, J) := by
      unfold effE effL
      simp only [ne_eq, not_true_eq_false, if_false]
      rfl
    constructor
    · rintro ⟨oz, hz, hm⟩
      rw [hAc t] at hz
      subst hz
      obtain ⟨rr, hr, rfl⟩ := hm
      rw [C94aux.turning_eq o] at hr
      subst hr
      rw [Option.map_some, key]
    · rintro rfl
      refine ⟨_, (hAc t _).2 rfl, some (a, b), (C94aux.turning_eq o _ t _).2 rfl, ?_⟩
      rw [Option.map_some, key]
  · obtain ⟨u, v, hu, hv, h1, h2, -, -⟩ := C77_angles_partial fo t
    have eu : SphericalAA.compute P.planar (flat (p 0)) (a, b) = u := by
      have := (hu (some (SphericalAA.compute P.planar (flat (p 0)) (a, b)))).1 ⟨_, (C77aux.outcome fo 0 _).2 rfl, rfl⟩
      simpa using this
    have ev : SphericalAA.compute P.planar (flat (p t)) (a, b) = v := by
      have := (hv (some (SphericalAA.compute P.planar (flat (p t)) (a, b)))).1 ⟨_, (C77aux.outcome fo t _).2 rfl, rfl⟩
      simpa using this
    simp only [eu, ev]
    exact ⟨h1, h2, trivial, trivial, (hang t).2.2⟩
  · have := C77_jr fo (SphericalAA.compute P.planar (flat (p 0)) (a, b)) ⟨_, (C77aux.outcome fo 0 _).2 rfl, rfl⟩ hj
    rw [this]
    refine intervalIntegral.integral_congr fun t _ => ?_
    have hR := o.motion.pos t
    simp only [flat]
    rw [show (p t).R ^ 2 + 0 ^ 2 = (p t).R ^ 2 by ring, sqrt_sq hR.le, show (p t).R * (p t).vR + 0 * 0 = (p t).R * (p t).vR by ring,
      mul_div_cancel_left₀ _ hR.ne']
  · obtain ⟨u, v, hu, hv, -, -, -, h3⟩ := C77_angles_partial fo t
    have eu : SphericalAA.compute P.planar (flat (p 0)) (a, b) = u := by
      have := (hu (some (SphericalAA.compute P.planar (flat (p 0)) (a, b)))).1 ⟨_, (C77aux.outcome fo 0 _).2 rfl, rfl⟩
      simpa using this
    have ev : SphericalAA.compute P.planar (flat (p t)) (a, b) = v := by
      have := (hv (some (SphericalAA.compute P.planar (flat (p t)) (a, b)))).1 ⟨_, (C77aux.outcome fo t _).2 rfl, rfl⟩
      simpa using this
    simp only [eu, ev] at hj ⊢
    obtain ⟨e1, e2, -, e4, e5⟩ := h3 hj
    exact ⟨e1, e2, e4, fun hp => (e5 hp).1⟩

/-- **C94 (pericentre, apocentre, height).** In a separable potential with `gamma = 0`, `EccZmaxRperiRap` has exactly one result, the same at
all times: the largest height and the least cylindrical radius, which are reached, and a distance never exceeded. -/
theorem C94_ecc {P : Pot3} {g g' : ℝ → ℝ} {a b h : ℝ} {p : ℝ → Point} (o : C94Spec.Orbit P g g' a b h p) :
    ∃ e zmax rperi rap : ℝ, (∀ t out, AdiabaticAA.Ecc 0 P (p t) out ↔ out = some (e, zmax, rperi, rap))
      ∧ (∀ t, |(p t).z| ≤ zmax ∧ rperi ≤ (p t).R ∧ (p t).R ^ 2 + (p t).z ^ 2 ≤ rap ^ 2)
      ∧ (∃ t, (p t).R = rperi) ∧ (∃ t, (p t).R ^ 2 + zmax ^ 2 = rap ^ 2) ∧ e * (rap + rperi) = rap - rperi := by
  obtain ⟨e0, z0, rperi, rap, hE, hb, h1, h2, -⟩ := C77_ecc (C94aux.flat_orbit o)
  have hab : (rperi, rap) = (a, b) := by
    have := (hE 0 _).1 ⟨_, (C77aux.outcome (C94aux.flat_orbit o) 0 _).2 rfl, rfl⟩
    simp only [Option.map_some, Option.some.injEq, Prod.mk.injEq] at this
    exact Prod.ext this.2.2.1.symm this.2.2.2.symm
  obtain ⟨rfl, rfl⟩ := Prod.mk.inj hab
  have hr : ∀ t, √((flat (p t)).R ^ 2 + (flat (p t)).z ^ 2) = (p t).R := fun t => C94aux.rad_flat (p t) (o.motion.pos t)
  have hz : ∀ t, |(p t).z| ≤ h := fun t => by
    have := C77aux.venergy o.sep.sym (C94aux.oscillation o) t
    refine (C77aux.phi_le o.sep.sym o.h_pos.le).1 ?_
    nlinarith [sq_nonneg (p t).vz]
  have ha : 0 < rperi := C77aux.a0 o.bound
  have hs : 0 < √(rap ^ 2 + h ^ 2) := sqrt_pos.2 (by have := o.h_pos; positivity)
  refine ⟨(√(rap ^ 2 + h ^ 2) - rperi) / (√(rap ^ 2 + h ^ 2) + rperi), h, rperi, √(rap ^ 2 + h ^ 2), fun t out => ?_, fun t => ?_, ?_, ?_, ?_⟩
  · have hx := C77aux.xmax o.sep.sym o.h_pos o.h_le (C77aux.venergy o.sep.sym (C94aux.oscillation o) t)
    unfold AdiabaticAA.Ecc
    simp only [ne_eq, not_true_eq_false, if_false, C94aux.vertical_eq o t]
    constructor
    · rintro ⟨ox, oz, h3, rfl, h4⟩
      rw [hx] at h3
      subst h3
      obtain ⟨rr, h5, rfl⟩ := h4
      rw [C94aux.turning_eq o] at h5
      subst h5
      rfl
    · rintro rfl
      exact ⟨_, _, (hx _).2 rfl, rfl, some (rperi, rap), (C94aux.turning_eq o _ t _).2 rfl, rfl⟩
  · have h3 := hb t
    rw [hr t] at h3
    refine ⟨hz t, h3.1, ?_⟩
    rw [sq_sqrt (by positivity)]
    have h4 := sq_le_sq' (by linarith [o.motion.pos t]) h3.2.1
    have h5 := sq_le_sq' (by linarith [neg_abs_le (p t).z, hz t]) (le_trans (le_abs_self _) (hz t))
    linarith
  · obtain ⟨t, ht⟩ := h1
    exact ⟨t, (hr t).symm.trans ht⟩
  · obtain ⟨t, ht⟩ := h2
    refine ⟨t, ?_⟩
    rw [sq_sqrt (by positivity), ← ht, hr t]
  · rw [div_mul_cancel₀]
    positivity

/-! ### An orbit in a homogeneous sphere -/

/-- The potential `(R^2 + z^2) / 2`. -/
def C94Spec.sphere : Pot3 := ⟨fun R z => R ^ 2 / 2 + z ^ 2 / 2, fun R _ => -R, fun _ _ => 1, fun _ _ => 1⟩

/-- The orbit with `x = cos t`, `y = 2 sin t`, `z = sin t / 2`. -/
def C94Spec.ellipse (t : ℝ) : Point :=
  ⟨√(1 + 3 * sin t ^ 2), 3 * sin t * cos t / √(1 + 3 * sin t ^ 2), 2 / √(1 + 3 * sin t ^ 2), sin t / 2, cos t / 2,
    ∫ x in (0 : ℝ)..t, 2 / (1 + 3 * sin x ^ 2)⟩

namespace C94aux

theorem ellipse_R (t : ℝ) : HasDerivAt (fun x => √(1 + 3 * sin x ^ 2)) (3 * sin t * cos t / √(1 + 3 * sin t ^ 2)) t := by
  have h0 : 1 + 3 * sin t ^ 2 ≠ 0 := by positivity
  have h1 : HasDerivAt (fun x => 1 + 3 * sin x ^ 2) (6 * sin t * cos t) t :=
    ((((hasDerivAt_sin t).pow 2).const_mul 3).const_add 1).congr_deriv (by push_cast; ring)
  exact (h1.sqrt h0).congr_deriv (by ring)

theorem ellipse_orbit : C94Spec.Orbit C94Spec.sphere (C77Spec.harm 1) (fun y => 1 ^ 2 * y) 1 2 (1 / 2) C94Spec.ellipse := by
  have hN : ∀ t, 0 < 1 + 3 * sin t ^ 2 := fun t => by positivity
  have hq : ∀ t, 0 < √(1 + 3 * sin t ^ 2) := fun t => sqrt_pos.2 (hN t)
  have hs : ∀ t, √(1 + 3 * sin t ^ 2) ^ 2 = 1 + 3 * sin t ^ 2 := fun t => sq_sqrt (hN t).le
  refine ⟨⟨fun R z _ => ?_, fun R z _ => rfl, C77aux.harm_sym one_pos⟩, ⟨hq, ellipse_R, fun t => ?_, fun t => ?_, fun t => ?_, fun t => ?_,
    fun t => ?_⟩, ?_, ?_, by norm_num, by norm_num⟩
  · simp only [C94Spec.sphere, C77Spec.harm]
    ring
  · exact (hasDerivAt_sin t).div_const 2
  · have hc : Continuous fun x => 2 / (1 + 3 * sin x ^ 2) := by
      exact continuous_const.div (by fun_prop) fun x => (hN x).ne'
    refine (intervalIntegral.integral_hasDerivAt_right (hc.intervalIntegrable _ _)
      (hc.stronglyMeasurableAtFilter _ _) hc.continuousAt).congr_deriv ?_
    simp only [C94Spec.ellipse]
    rw [div_div, ← sq, hs]
  · have h1 : HasDerivAt (fun x => 3 * sin x * cos x) (3 * (cos t ^ 2 - sin t ^ 2)) t :=
      (((hasDerivAt_sin t).const_mul 3).mul (hasDerivAt_cos t)).congr_deriv (by ring)
    refine (hd_div h1 (ellipse_R t) (hq t).ne').congr_deriv ?_
    have h2 := hs t
    have h3 := hq t
    simp only [C94Spec.ellipse, C94Spec.sphere]
    rw [show cos t ^ 2 - sin t ^ 2 = 1 - 2 * sin t ^ 2 by linarith [sin_sq_add_cos_sq t]]
    have h4 : (sin t * cos t) ^ 2 = sin t ^ 2 * (1 - sin t ^ 2) := by rw [mul_pow, cos_sq']
    generalize √(1 + 3 * sin t ^ 2) = q at h2 h3 ⊢
    generalize cos t = c at h4 ⊢
    generalize sin t = y at h2 h4 ⊢
    field_simp
    linear_combination (3 * (1 - 2 * y ^ 2) + q ^ 2 + (1 + 3 * y ^ 2)) * h2 - 9 * h4
  · refine (hd_div (hasDerivAt_const t 2) (ellipse_R t) (hq t).ne').congr_deriv ?_
    have h3 := hq t
    simp only [C94Spec.ellipse]
    field_simp
    ring
  · exact ((hasDerivAt_cos t).div_const 2).congr_deriv (by simp only [C94Spec.ellipse]; ring)
  · have e1 : ((C94Spec.ellipse 0).vR ^ 2 + (C94Spec.ellipse 0).vT ^ 2) / 2 + C94Spec.sphere.phi (C94Spec.ellipse 0).R 0 = 5 / 2 := by
      simp [C94Spec.ellipse, C94Spec.sphere]; norm_num
    have e2 : |(C94Spec.ellipse 0).R * (C94Spec.ellipse 0).vT| = 2 := by simp [C94Spec.ellipse]
    rw [e1, e2]
    have hf : ∀ r : ℝ, 0 < r → 5 / 2 - (r ^ 2 / 2 + 0 ^ 2 / 2) - 2 ^ 2 / (2 * r ^ 2) = (r - 1) * (2 - r) * ((r + 1) * (r + 2) / (2 * r ^ 2)) := by
      intro r hr
      field_simp
      ring
    refine ⟨by norm_num, by norm_num, by norm_num, fun r _ => ?_, by simp only [Pot3.planar, C94Spec.sphere]; fun_prop, ?_, ?_, ?_, fun r h1 h2 => ?_,
      fun r h0 h => ?_, ?_, ?_⟩ <;> simp only [Pot3.planar, C94Spec.sphere]
    · exact ((((hasDerivAt_pow 2 r).div_const 2).add_const _)).congr_deriv (by push_cast; ring)
    · norm_num
    · norm_num
    · norm_num
    · rw [hf r (by linarith)]
      exact mul_pos (mul_pos (by linarith) (by linarith)) (by have : 0 < r := by linarith
                                                              positivity)
    · rw [hf r h0]
      refine mul_neg_of_neg_of_pos ?_ (by positivity)
      rcases h with h | h
      · exact mul_neg_of_neg_of_pos (by linarith) (by linarith)
      · exact mul_neg_of_pos_of_neg (by linarith) (by linarith)
    · rw [show (1 : ℝ) * - -1 = 1 by norm_num, sqrt_one]; norm_num
    · rw [show (2 : ℝ) * - -2 = 2 ^ 2 by norm_num, sqrt_sq (by norm_num)]; norm_num
  · simp [C94Spec.ellipse, C77Spec.harm]

end C94aux

/-- An orbit to which `C94_separable_partial` and `C94_ecc` apply. -/
example : C94Spec.Orbit C94Spec.sphere (C77Spec.harm 1) (fun y => 1 ^ 2 * y) 1 2 (1 / 2) C94Spec.ellipse := C94aux.ellipse_orbit

/-! ### Other values of `gamma` -/

/-- The point of the plane with the same radius and radial velocity and the angular momentum `|R vT| + gamma jz`. -/
def C94Spec.lifted (gamma jz : ℝ) (p : Point) : Point := ⟨p.R, p.vR, (|p.R * p.vT| + gamma * jz) / p.R, 0, 0, p.phi⟩

namespace C94aux

theorem lifted_eq {gamma jz : ℝ} {p : Point} (hR : 0 < p.R) (hl : 0 ≤ |p.R * p.vT| + gamma * jz) (Q : Radial) :
    rad (C94Spec.lifted gamma jz p) = p.R ∧ SphericalAA.vr (C94Spec.lifted gamma jz p) = p.vR
      ∧ SphericalAA.vr (flat p) = p.vR ∧ L (C94Spec.lifted gamma jz p) = effL gamma jz (flat p)
      ∧ SphericalAA.E Q (C94Spec.lifted gamma jz p) = effE gamma Q jz (flat p)
      ∧ effL gamma jz (flat p) = |p.R * p.vT| + gamma * jz
      ∧ effE gamma Q jz (flat p) = Q.phi p.R + p.vR ^ 2 / 2 + (|p.R * p.vT| + gamma * jz) ^ 2 / 2 / p.R ^ 2 := by
  have h1 : rad (C94Spec.lifted gamma jz p) = p.R := by
    unfold rad C94Spec.lifted
    simp only
    rw [show p.R ^ 2 + 0 ^ 2 = p.R ^ 2 by ring, sqrt_sq hR.le]
  have h2 := rad_flat p hR
  have h3 : L (C94Spec.lifted gamma jz p) = |p.R * p.vT| + gamma * jz := by
    have : C94Spec.lifted gamma jz p = flat ⟨p.R, p.vR, (|p.R * p.vT| + gamma * jz) / p.R, 0, 0, p.phi⟩ := rfl
    rw [this, L_flat]
    simp only
    rw [mul_div_cancel₀ _ hR.ne', abs_of_nonneg hl]
  have h4 : effL gamma jz (flat p) = |p.R * p.vT| + gamma * jz := by
    unfold effL
    rw [L_flat]
    split_ifs with hg
    · rfl
    · rw [not_not.1 hg, zero_mul, add_zero]
  have h5 : effE gamma Q jz (flat p) = Q.phi p.R + p.vR ^ 2 / 2 + (|p.R * p.vT| + gamma * jz) ^ 2 / 2 / p.R ^ 2 := by
    unfold effE SphericalAA.E SphericalAA.vt
    rw [h2, h4, L_flat]
    simp only [flat]
    split_ifs with hg
    · rw [div_pow, sq_abs]
      field_simp
      ring
    · rw [not_not.1 hg, zero_mul, add_zero, sq_abs]
      field_simp
      ring
  have h6 : SphericalAA.E Q (C94Spec.lifted gamma jz p)
      = Q.phi p.R + p.vR ^ 2 / 2 + (|p.R * p.vT| + gamma * jz) ^ 2 / 2 / p.R ^ 2 := by
    unfold SphericalAA.E
    rw [h1]
    simp only [C94Spec.lifted]
    field_simp
    ring
  refine ⟨h1, ?_, ?_, h3.trans h4.symm, h6.trans h5.symm, h4, h5⟩
  · unfold SphericalAA.vr
    rw [h1]
    simp only [C94Spec.lifted]
    rw [show p.R * p.vR + 0 * 0 = p.R * p.vR by ring, mul_div_cancel_left₀ _ hR.ne']
  · unfold SphericalAA.vr
    rw [h2]
    simp only [flat]
    rw [show p.R * p.vR + 0 * 0 = p.R * p.vR by ring, mul_div_cancel_left₀ _ hR.ne']

theorem eff_eq {gamma jz : ℝ} {p : Point} (hR : 0 < p.R) (hl : 0 ≤ |p.R * p.vT| + gamma * jz) (Q : Radial) :
    rapRperiEq Q.phi (effE gamma Q jz (flat p)) (effL gamma jz (flat p)) p.R = p.vR ^ 2 / 2 := by
  obtain ⟨-, -, -, -, -, h4, h5⟩ := lifted_eq hR hl Q
  unfold rapRperiEq
  rw [h4, h5]
  ring

theorem turning_lifted {gamma jz : ℝ} {p : Point} (hR : 0 < p.R) (hl : 0 ≤ |p.R * p.vT| + gamma * jz) (hv : p.vR ≠ 0) (Q : Radial)
    (rr : Option (ℝ × ℝ)) : Turning gamma Q jz (flat p) rr
      ↔ SphericalAA.RperiRap Q (rad (C94Spec.lifted gamma jz p)) (SphericalAA.vr (C94Spec.lifted gamma jz p))
        (SphericalAA.vt (C94Spec.lifted gamma jz p)) (SphericalAA.E Q (C94Spec.lifted gamma jz p)) (L (C94Spec.lifted gamma jz p)) rr := by
  obtain ⟨h1, h2, h3, h4, h5, -, -⟩ := lifted_eq hR hl Q
  have hs : startsign gamma (rapRperiEq Q.phi (effE gamma Q jz (flat p)) (effL gamma jz (flat p)) p.R) = 1 := by
    rw [eff_eq hR hl]
    unfold startsign
    have : 0 < p.vR ^ 2 / 2 := by positivity
    rw [abs_of_pos this, div_self this.ne', ite_self]
  unfold Turning AdiabaticAA.RperiRap SphericalAA.RperiRap
  simp only [h1, h2, h3, h4, h5, rad_flat p hR, hs, hv, false_and, if_false]
  exact Iff.rfl

end C94aux

/-- **C94 (other values of `gamma`).** At every point with a radial velocity the actions are: the vertical action at fixed radius, the angular
momentum, and the radial action that `actionAngleSpherical` gives for the motion in the plane with the angular momentum enlarged by
`gamma` times the vertical action.

Missing for the full statement: points without radial velocity, where it is false (`C94_circular_fails`, `C94_turning_fails`), and
angular momenta that the correction makes negative (`gamma < 0`). -/
theorem C94_effective_partial (gamma : ℝ) (P : Pot3) (p : Point) (hR : 0 < p.R) (hv : p.vR ≠ 0)
    (hg : ∀ jz, VerticalAA.Action (P.vertical p.R) p.z p.vz (some jz) → 0 ≤ |p.R * p.vT| + gamma * jz) (jr lz jz : ℝ) :
    AdiabaticAA.Actions gamma P p (some (jr, lz, jz)) ↔ lz = p.R * p.vT ∧ VerticalAA.Action (P.vertical p.R) p.z p.vz (some jz)
      ∧ ∃ x y, SphericalAA.Actions P.planar (C94Spec.lifted gamma jz p) (some (jr, x, y)) := by
  unfold AdiabaticAA.Actions SphericalAA.Actions
  constructor
  · rintro ⟨oz, hz, hm⟩
    cases oz with
    | none => simp at hm
    | some j =>
      obtain ⟨rr, hr, e⟩ := hm
      cases rr with
      | none => simp at e
      | some rr =>
        simp only [Option.map_some, Option.some.injEq, Prod.mk.injEq] at e
        obtain ⟨e1, e2, rfl⟩ := e
        obtain ⟨-, -, -, h4, h5, -, -⟩ := C94aux.lifted_eq hR (hg _ hz) P.planar
        refine ⟨e2, hz, Lz (C94Spec.lifted gamma jz p), SphericalAA.jz (C94Spec.lifted gamma jz p), some rr,
          (C94aux.turning_lifted hR (hg _ hz) hv _ _).1 hr, ?_⟩
        rw [Option.map_some, e1, h4, h5]
  · rintro ⟨rfl, hz, x, y, rr, hr, e⟩
    refine ⟨some jz, hz, rr, (C94aux.turning_lifted hR (hg _ hz) hv _ _).2 hr, ?_⟩
    obtain ⟨-, -, -, h4, h5, -, -⟩ := C94aux.lifted_eq hR (hg _ hz) P.planar
    cases rr with
    | none => simp at e
    | some rr =>
      simp only [Option.map_some, Option.some.injEq, Prod.mk.injEq] at e ⊢
      refine ⟨?_, rfl, trivial⟩
      rw [e.1, h4, h5]

/-! ### Where it goes wrong -/

/-- A point mass and a vertical oscillator. -/
def C94Spec.disk : Pot3 := ⟨fun R z => -1 / R + z ^ 2 / 2, fun R _ => -1 / R ^ 2, fun R _ => -2 / R ^ 3, fun _ _ => 1⟩

namespace C94aux

theorem disk_planar : C94Spec.disk.planar = C77aux.kepler := by
  unfold C94Spec.disk Pot3.planar C77aux.kepler
  simp

theorem disk_vertical (R : ℝ) : C94Spec.disk.vertical R = C77Spec.harm 1 := by
  funext z
  unfold C94Spec.disk Pot3.vertical C77Spec.harm
  simp

theorem disk_xmax {jz : ℝ} (hj : 0 < jz) (hj' : jz ≤ 1) (ox : Option ℝ) :
    VerticalAA.XmaxOut (C77Spec.harm 1) √(2 * jz) 0 ox ↔ ox = some √(2 * jz) := by
  refine C77aux.xmax (C77aux.harm_sym one_pos) (sqrt_pos.2 (by positivity)) ?_ (by ring) ox
  exact (sqrt_le_left (by norm_num)).2 (by linarith)

theorem disk_action {jz : ℝ} (hj : 0 < jz) (hj' : jz ≤ 1) (oz : Option ℝ) :
    VerticalAA.Action (C77Spec.harm 1) √(2 * jz) 0 oz ↔ oz = some jz := by
  have hb : 0 < √(2 * jz) := sqrt_pos.2 (by positivity)
  have e : (0 : ℝ) ^ 2 / 2 + C77Spec.harm 1 √(2 * jz) = C77Spec.harm 1 √(2 * jz) := by ring
  unfold VerticalAA.Action
  simp only [disk_xmax hj hj', VerticalAA.E, e]
  rw [exists_eq_left, Option.map_some, if_neg (by intro h; rw [h] at hb; norm_num at hb), C77aux.harm_J one_pos hb, sq_sqrt (by positivity)]
  simp

theorem kepler_vcirc : C77aux.kepler.vcirc 1 = 1 := by
  unfold Radial.vcirc C77aux.kepler
  norm_num

/-- The orbit in the plane between two radii. -/
theorem kepler_bound {E l a b : ℝ} (ha : 2 / 10 ^ 9 ≤ a) (hab : a + 1 / 10 ^ 5 < b) (hb : b ≤ 100)
    (hf : ∀ r, 0 < r → E - -1 / r - l ^ 2 / (2 * r ^ 2) = -E * ((r - a) * (b - r)) / r ^ 2) (hE : E < 0)
    (h1 : √(a * -(-1 / a ^ 2)) + 1 / 10 ^ 15 ≤ l / a) (h2 : l / b + 1 / 10 ^ 15 ≤ √(b * -(-1 / b ^ 2))) :
    C77Spec.Bound C77aux.kepler E l a b := by
  have ha0 : 0 < a := lt_of_lt_of_le (by norm_num) ha
  have hab' : a < b := by linarith [show (0 : ℝ) < 1 / 10 ^ 5 by norm_num]
  refine ⟨ha, hab, hb, fun r hr => ?_, ?_, ?_, ?_, ?_, fun r h3 h4 => ?_, fun r hr h => ?_, h1, h2⟩
  · refine (hd_div (hasDerivAt_const r (-1 : ℝ)) (hasDerivAt_id r) hr.ne').congr_deriv ?_
    simp only [C77aux.kepler, id]
    field_simp
    ring
  · exact continuousOn_const.div (by fun_prop) fun x hx => pow_ne_zero 2 (ne_of_gt hx)
  · simp only [C77aux.kepler]
    have : 0 < 1 / a ^ 2 := by positivity
    rw [neg_div]
    linarith
  · simp only [C77aux.kepler]; rw [hf a ha0]; simp
  · simp only [C77aux.kepler]; rw [hf b (ha0.trans hab')]; simp
  · simp only [C77aux.kepler]
    have hr : 0 < r := ha0.trans h3
    rw [hf r hr]
    exact div_pos (mul_pos (by linarith) (mul_pos (by linarith) (by linarith))) (by positivity)
  · simp only [C77aux.kepler]
    rw [hf r hr]
    refine div_neg_of_neg_of_pos (mul_neg_of_pos_of_neg (by linarith) ?_) (by positivity)
    rcases h with h | h
    · exact mul_neg_of_neg_of_pos (by linarith) (by linarith)
    · exact mul_neg_of_pos_of_neg (by linarith) (by linarith)

theorem bound1 : C77Spec.Bound C77aux.kepler (-(7 / 25)) (6 / 5) 1 (18 / 7) := by
  refine kepler_bound (by norm_num) (by norm_num) (by norm_num) (fun r hr => ?_) (by norm_num) ?_ ?_
  · field_simp
    ring
  · rw [show (1 : ℝ) * -(-1 / 1 ^ 2) = 1 by norm_num, sqrt_one]
    norm_num
  · have : 3 / 5 ≤ √(18 / 7 * -(-1 / (18 / 7 : ℝ) ^ 2)) := by
      refine le_sqrt_of_sq_le ?_; norm_num
    refine le_trans ?_ this
    norm_num

theorem bound2 : C77Spec.Bound C77aux.kepler (-(21 / 50)) 1 (5 / 7) (5 / 3) := by
  refine kepler_bound (by norm_num) (by norm_num) (by norm_num) (fun r hr => ?_) (by norm_num) ?_ ?_
  · field_simp
    ring
  · have : √(5 / 7 * -(-1 / (5 / 7 : ℝ) ^ 2)) ≤ 6 / 5 := by
      rw [sqrt_le_iff]; norm_num
    refine le_trans (add_le_add_left this _) ?_
    norm_num
  · have : 7 / 10 ≤ √(5 / 3 * -(-1 / (5 / 3 : ℝ) ^ 2)) := by
      refine le_sqrt_of_sq_le ?_; norm_num
    refine le_trans ?_ this
    norm_num

theorem jr_pos {Q : Radial} {E l a b : ℝ} (hb : C77Spec.Bound Q E l a b) : 0 < SphericalAA.calcJr Q a b E l := by
  have hW := C77aux.well hb
  unfold SphericalAA.calcJr
  refine div_pos (intervalIntegral.intervalIntegral_pos_of_pos_on (ContinuousOn.intervalIntegrable ?_) (fun r hr => ?_) hW.lt) pi_pos
  · have : SphericalAA.jrIntegrand Q E l = fun r => √(2 * rapRperiEq Q.phi E l r) := funext (C77aux.jr_form _ _ _)
    rw [this, uIcc_of_le hW.lt.le]
    exact (continuousOn_const.mul hW.contW).sqrt
  · rw [C77aux.jr_form]
    have := hW.pos r hr
    exact sqrt_pos.2 (by linarith)

/-- What `actionAngleSpherical` finds for the point in the plane. -/
theorem lifted_turning {Q : Radial} {E l a b : ℝ} (hb : C77Spec.Bound Q E l a b) (q : Point) (hR : 0 < q.R)
    (hE : SphericalAA.E Q q = E) (hL : L q = l) (rr : Option (ℝ × ℝ)) :
    SphericalAA.RperiRap Q (rad q) (SphericalAA.vr q) (SphericalAA.vt q) (SphericalAA.E Q q) (L q) rr ↔ rr = some (a, b) := by
  have h1 := C77aux.vr_sq Q q hR
  have hr : 0 < rad q := sqrt_pos.2 (by positivity)
  rw [hE, hL] at h1
  have h2 : rad q ∈ Icc a b := (C77aux.sign hb hr).2.2 (by nlinarith [sq_nonneg (SphericalAA.vr q)])
  have h3 : SphericalAA.vt q = l / rad q := by unfold SphericalAA.vt; rw [hL]
  rw [hE, hL, h3]
  exact ⟨fun h => C77aux.turning hb h2 h1 h, fun h => h ▸ C77aux.turning_exists hb h2 h1⟩

end C94aux

/-- **C94 (circular velocity).** With the default `gamma = 1`, at a point without radial velocity whose azimuthal velocity is the circular
velocity the radial action is nought whatever the vertical action is, although the motion with the enlarged angular momentum is
eccentric. -/
theorem C94_circular_fails : ∃ p : Point, ∃ jz : ℝ, 0 < jz ∧ p.vR = 0
    ∧ (∀ out, AdiabaticAA.Actions 1 C94Spec.disk p out ↔ out = some (0, p.R * p.vT, jz))
    ∧ ∀ out, SphericalAA.Actions C94Spec.disk.planar (C94Spec.lifted 1 jz p) out → ∃ j x y, 0 < j ∧ out = some (j, x, y) := by
  refine ⟨⟨1, 0, 1, √(2 * (1 / 5)), 0, 0⟩, 1 / 5, by norm_num, rfl, fun out => ?_, fun out => ?_⟩
  · unfold AdiabaticAA.Actions
    simp only [C94aux.disk_vertical, C94aux.disk_action (show (0 : ℝ) < 1 / 5 by norm_num) (by norm_num), exists_eq_left, C94aux.disk_planar]
    have ht : ∀ rr, Turning 1 C77aux.kepler (1 / 5) (flat ⟨1, 0, 1, √(2 * (1 / 5)), 0, 0⟩) rr ↔ rr = some (1, 1) := fun rr => by
      unfold Turning AdiabaticAA.RperiRap
      have h1 : rad (flat ⟨1, 0, 1, √(2 * (1 / 5)), 0, 0⟩) = 1 := C94aux.rad_flat _ one_pos
      have h2 : SphericalAA.vr (flat ⟨1, 0, 1, √(2 * (1 / 5)), 0, 0⟩) = 0 := by simp [SphericalAA.vr, flat]
      have h3 : SphericalAA.vt (flat ⟨1, 0, 1, √(2 * (1 / 5)), 0, 0⟩) = 1 := by
        unfold SphericalAA.vt; rw [h1, C94aux.L_flat]; norm_num
      simp only [h1, h2, h3, C94aux.kepler_vcirc]
      rw [if_pos (by norm_num)]
    simp only [ht, exists_eq_left, Option.map_some]
    simp [SphericalAA.calcJr, Lz, flat]
  · obtain ⟨-, -, -, h4, h5, h6, h7⟩ := C94aux.lifted_eq (gamma := 1) (jz := 1 / 5) (p := ⟨1, 0, 1, √(2 * (1 / 5)), 0, 0⟩) one_pos
      (by positivity) C94Spec.disk.planar
    rw [C94aux.disk_planar] at *
    have hE : SphericalAA.E C77aux.kepler (C94Spec.lifted 1 (1 / 5) ⟨1, 0, 1, √(2 * (1 / 5)), 0, 0⟩) = -(7 / 25) := by
      rw [h5, h7]; simp only [C77aux.kepler]; norm_num
    have hL : L (C94Spec.lifted 1 (1 / 5) ⟨1, 0, 1, √(2 * (1 / 5)), 0, 0⟩) = 6 / 5 := by
      rw [h4, h6]; norm_num
    rintro ⟨rr, hr, rfl⟩
    rw [C94aux.lifted_turning C94aux.bound1 _ (by exact one_pos) hE hL] at hr
    subst hr
    rw [Option.map_some, hE, hL]
    exact ⟨_, _, _, C94aux.jr_pos C94aux.bound1, rfl⟩

/-- A point to which `C94_effective_partial` applies with the default `gamma`, and its only result. -/
example (jz : ℝ) (h : VerticalAA.Action (C94Spec.disk.vertical (3 / 2)) √(2 * (1 / 5)) 0 (some jz)) : 0 ≤ |(3 / 2 : ℝ) * (8 / 15)| + 1 * jz := by
  rw [C94aux.disk_vertical, C94aux.disk_action (by norm_num) (by norm_num), Option.some.injEq] at h
  rw [h]
  positivity

namespace C94aux

/-- Inwards search for a function that has the sign that keeps it going. -/
theorem search_zero {f : ℝ → ℝ} {s : ℝ} (hf : ∀ r, 0 < r → r ≤ 1 / 2 → 0 < s * f r) {o : Option ℝ}
    (he : Ends (rapRperiStep f false s) (1 / 2) o) : o = some 0 := by
  obtain ⟨n, hn⟩ := he
  refine C77aux.run_inv (rapRperiStep f false s) (fun r => ∃ k : ℕ, r = 1 / 2 ^ (k + 1)) (fun o => o = some 0)
    (fun r r' hr hst => ?_) (fun r o hr hst => ?_) n _ ⟨0, by norm_num⟩ o hn
  · obtain ⟨k, rfl⟩ := hr
    unfold rapRperiStep at hst
    simp only [Bool.false_eq_true, if_false] at hst
    split_ifs at hst
    simp only [RootSearch.Step.next.injEq] at hst
    exact ⟨k + 1, by rw [← hst, pow_succ 2 (k + 1)]; field_simp⟩
  · obtain ⟨k, rfl⟩ := hr
    have h0 : (0 : ℝ) < 1 / 2 ^ (k + 1) := by positivity
    have h1 : (1 : ℝ) / 2 ^ (k + 1) ≤ 1 / 2 := by
      refine one_div_le_one_div_of_le two_pos ?_
      rw [pow_succ]
      linarith [one_le_pow₀ (n := k) (show (1 : ℝ) ≤ 2 by norm_num)]
    unfold rapRperiStep at hst
    simp only [Bool.false_eq_true, if_false] at hst
    split_ifs at hst with h2 h3
    · simpa using hst.symm
    · exfalso
      have h4 : (1 : ℝ) / 2 ^ (k + 1) = 1 / 10 ^ 9 := by
        refine le_antisymm ?_ (not_lt.1 h3)
        by_contra h5
        exact h2 ⟨hf _ h0 h1, not_le.1 h5⟩
      have h5 : (2 : ℝ) ^ (k + 1) = 10 ^ 9 := by
        rw [one_div, one_div, inv_inj] at h4
        exact h4
      have h6 : 2 ^ (k + 1) = 10 ^ 9 := by exact_mod_cast h5
      rcases le_or_gt (k + 1) 29 with h7 | h7
      · have := Nat.pow_le_pow_right (n := 2) (by norm_num) h7
        omega
      · have := Nat.pow_le_pow_right (n := 2) (by norm_num) (show 30 ≤ k + 1 from h7)
        omega

theorem search_ends (f : ℝ → ℝ) (s : ℝ) : ∃ o, Ends (rapRperiStep f false s) (1 / 2) o := by
  obtain ⟨n, o, ho⟩ := C14_rap_rperi_ends f 1 one_pos false s
  exact ⟨o, n, by simpa [RootSearch.rapRperiFindStart] using ho n le_rfl⟩

end C94aux

/-- **C94 (turning points).** With the default `gamma = 1`, at a point without radial velocity that is slower than the circular velocity but has
a larger enlarged angular momentum than a circular orbit, the pericentre is reported to be nought although the motion with the
enlarged angular momentum does not come closer to the centre than this point. -/
theorem C94_turning_fails : ∃ p : Point, ∃ jz : ℝ, 0 < jz ∧ p.R = 1 ∧ p.vR = 0
    ∧ (∀ oz, VerticalAA.Action (C94Spec.disk.vertical p.R) p.z p.vz oz ↔ oz = some jz)
    ∧ (∃ out, AdiabaticAA.Ecc 1 C94Spec.disk p out)
    ∧ (∀ out, AdiabaticAA.Ecc 1 C94Spec.disk p out → ∃ e zmax rap, out = some (e, zmax, 0, rap))
    ∧ ∀ out, SphericalAA.Ecc C94Spec.disk.planar (C94Spec.lifted 1 jz p) out → ∃ e zmax rap, out = some (e, zmax, p.R, rap) := by
  obtain ⟨-, -, -, h4, h5, h6, h7⟩ := C94aux.lifted_eq (gamma := 1) (jz := 3 / 10) (p := ⟨1, 0, 9 / 10, √(2 * (3 / 10)), 0, 0⟩) one_pos
    (by positivity) C94Spec.disk.planar
  rw [C94aux.disk_planar] at h5 h7
  have hE : effE 1 C77aux.kepler (3 / 10) (flat ⟨1, 0, 9 / 10, √(2 * (3 / 10)), 0, 0⟩) = -(7 / 25) := by
    rw [h7]; simp only [C77aux.kepler]; norm_num [abs_of_pos]
  have hL : effL 1 (3 / 10) (flat ⟨1, 0, 9 / 10, √(2 * (3 / 10)), 0, 0⟩) = 6 / 5 := by
    rw [h6]; norm_num [abs_of_pos]
  have hf : ∀ r, 0 < r → r < 1 → rapRperiEq C77aux.kepler.phi (-(7 / 25)) (6 / 5) r < 0 := fun r h1 h2 => by
    rw [C77aux.eq_form]
    exact C94aux.bound1.outside r h1 (Or.inl h2)
  have hs : startsign 1 (rapRperiEq C77aux.kepler.phi (-(7 / 25)) (6 / 5) (1 - 1 / 10 ^ 8)) = -1 := by
    have := hf (1 - 1 / 10 ^ 8) (by norm_num) (by norm_num)
    unfold startsign
    rw [if_pos one_ne_zero, abs_of_neg this, div_neg, div_self this.ne]
  have hgo : ∀ r, 0 < r → r ≤ 1 / 2 → 0 < (-1) * rapRperiEq C77aux.kepler.phi (-(7 / 25)) (6 / 5) r := fun r h1 h2 => by
    have := hf r h1 (by linarith)
    linarith
  have ht : ∀ rr, Turning 1 C77aux.kepler (3 / 10) (flat ⟨1, 0, 9 / 10, √(2 * (3 / 10)), 0, 0⟩) rr ↔ rr = some (0, 1) := fun rr => by
    unfold Turning AdiabaticAA.RperiRap
    have h1 : rad (flat ⟨1, 0, 9 / 10, √(2 * (3 / 10)), 0, 0⟩) = 1 := C94aux.rad_flat _ one_pos
    have h2 : SphericalAA.vr (flat ⟨1, 0, 9 / 10, √(2 * (3 / 10)), 0, 0⟩) = 0 := by simp [SphericalAA.vr, flat]
    have h3 : SphericalAA.vt (flat ⟨1, 0, 9 / 10, √(2 * (3 / 10)), 0, 0⟩) = 9 / 10 := by
      unfold SphericalAA.vt; rw [h1, C94aux.L_flat]; norm_num [abs_of_pos]
    simp only [h1, h2, h3, C94aux.kepler_vcirc, hE, hL, hs]
    rw [if_neg (by norm_num [abs_of_neg]), if_neg (by norm_num), if_pos (by norm_num)]
    constructor
    · rintro ⟨s, hs1, hs2⟩
      have := C94aux.search_zero hgo hs1
      simp only [Option.some.injEq] at this
      rwa [if_pos this] at hs2
    · rintro rfl
      obtain ⟨o, ho⟩ := C94aux.search_ends (rapRperiEq C77aux.kepler.phi (-(7 / 25)) (6 / 5)) (-1)
      have := C94aux.search_zero hgo ho
      subst this
      exact ⟨0, ho, by simp⟩
  refine ⟨⟨1, 0, 9 / 10, √(2 * (3 / 10)), 0, 0⟩, 3 / 10, by norm_num, rfl, rfl, fun oz => ?_, ?_, fun out => ?_, fun out => ?_⟩
  · rw [C94aux.disk_vertical]
    exact C94aux.disk_action (by norm_num) (by norm_num) oz
  · unfold AdiabaticAA.Ecc
    simp only [ne_eq, one_ne_zero, not_false_eq_true, if_true, C94aux.disk_vertical,
      C94aux.disk_action (show (0 : ℝ) < 3 / 10 by norm_num) (by norm_num), C94aux.disk_xmax (show (0 : ℝ) < 3 / 10 by norm_num) (by norm_num)]
    refine ⟨_, some _, some (3 / 10), rfl, rfl, some (0, 1), ?_, rfl⟩
    rw [C94aux.disk_planar, ht]
  · unfold AdiabaticAA.Ecc
    simp only [ne_eq, one_ne_zero, not_false_eq_true, if_true, C94aux.disk_vertical,
      C94aux.disk_action (show (0 : ℝ) < 3 / 10 by norm_num) (by norm_num), C94aux.disk_xmax (show (0 : ℝ) < 3 / 10 by norm_num) (by norm_num)]
    rintro ⟨ox, oz, rfl, rfl, rr, hr, rfl⟩
    rw [C94aux.disk_planar, ht] at hr
    subst hr
    exact ⟨_, _, _, rfl⟩
  · rw [C94aux.disk_planar]
    rintro ⟨rr, hr, rfl⟩
    rw [C94aux.lifted_turning C94aux.bound1 _ (by exact one_pos) (h5.trans hE) (h4.trans hL)] at hr
    subst hr
    exact ⟨_, _, _, rfl⟩

/-- **C94 (default `gamma`).** With the default `gamma = 1` the radial action is not a constant of the motion in separable potentials: two points
with the same angular momentum, the same energy of the motion in the plane and the same height and vertical velocity, one of which has
actions while the other one raises `UnboundError`. -/
theorem C94_gamma_fails : ∃ p q : Point, p.R * p.vT = q.R * q.vT ∧ p.z = q.z ∧ p.vz = q.vz
    ∧ (p.vR ^ 2 + p.vT ^ 2) / 2 + C94Spec.disk.phi p.R 0 = (q.vR ^ 2 + q.vT ^ 2) / 2 + C94Spec.disk.phi q.R 0
    ∧ (∀ out, AdiabaticAA.Actions 1 C94Spec.disk p out → out = none)
    ∧ ∃ jr jz, 0 < jr ∧ ∀ out, AdiabaticAA.Actions 1 C94Spec.disk q out ↔ out = some (jr, q.R * q.vT, jz) := by
  have v1 : √(11 / 25 : ℝ) ^ 2 = 11 / 25 := sq_sqrt (by norm_num)
  have v2 : √(11 / 225 : ℝ) ^ 2 = 11 / 225 := sq_sqrt (by norm_num)
  have n1 : √(11 / 25 : ℝ) ≠ 0 := (sqrt_pos.2 (by norm_num)).ne'
  have n2 : √(11 / 225 : ℝ) ≠ 0 := (sqrt_pos.2 (by norm_num)).ne'
  refine ⟨⟨1 / 2, √(11 / 25), 8 / 5, √(2 * (1 / 5)), 0, 0⟩, ⟨3 / 2, √(11 / 225), 8 / 15, √(2 * (1 / 5)), 0, 0⟩, by norm_num, rfl, rfl, ?_,
    fun out => ?_, ?_⟩
  · simp only [C94Spec.disk]
    rw [v1, v2]
    norm_num
  · obtain ⟨h1, h2, h3, h4, h5, h6, h7⟩ := C94aux.lifted_eq (gamma := 1) (jz := 1 / 5)
      (p := ⟨1 / 2, √(11 / 25), 8 / 5, √(2 * (1 / 5)), 0, 0⟩) (by norm_num) (by positivity) C94Spec.disk.planar
    rw [C94aux.disk_planar] at h5 h7
    have hE : effE 1 C77aux.kepler (1 / 5) (flat ⟨1 / 2, √(11 / 25), 8 / 5, √(2 * (1 / 5)), 0, 0⟩) = 11 / 50 := by
      rw [h7]; simp only [C77aux.kepler, v1]; norm_num [abs_of_pos]
    have hL : effL 1 (1 / 5) (flat ⟨1 / 2, √(11 / 25), 8 / 5, √(2 * (1 / 5)), 0, 0⟩) = 1 := by
      rw [h6]; norm_num [abs_of_pos]
    unfold AdiabaticAA.Actions
    simp only [C94aux.disk_vertical, C94aux.disk_action (show (0 : ℝ) < 1 / 5 by norm_num) (by norm_num), exists_eq_left, C94aux.disk_planar]
    rintro ⟨rr, hr, rfl⟩
    rw [C94aux.turning_lifted (by norm_num) (by positivity) n1] at hr
    unfold SphericalAA.RperiRap at hr
    simp only [h1, h2, h4, h5, hE, hL, n1, false_and, if_false] at hr
    obtain ⟨rs, re, x, y, -, -, he, hm, rfl⟩ := hr
    have hre : re = none := by
      obtain ⟨n, hn⟩ := he
      refine C77aux.run_inv (rapRperiStep (rapRperiEq C77aux.kepler.phi (11 / 50) 1) true 1) (fun r => 1 / 2 ≤ r) (fun o => o = none)
        (fun r r' hr hst => ?_) (fun r o hr hst => ?_) n _ (by norm_num) re hn
      · unfold rapRperiStep at hst
        simp only [if_true] at hst
        split_ifs at hst
        simp only [RootSearch.Step.next.injEq] at hst
        linarith
      · unfold rapRperiStep at hst
        simp only [if_true] at hst
        have hr0 : 0 < r := by linarith
        have hpos : 1 * rapRperiEq C77aux.kepler.phi (11 / 50) 1 r > 0 ∧ r > 1 / 10 ^ 9 := by
          refine ⟨?_, by linarith [show (1 : ℝ) / 10 ^ 9 < 1 / 2 by norm_num]⟩
          rw [one_mul, C77aux.eq_form]
          simp only [C77aux.kepler]
          have : (11 : ℝ) / 50 - -1 / r - 1 ^ 2 / (2 * r ^ 2) = 11 / 50 + (r - 1 / 2) / r ^ 2 := by field_simp; ring
          rw [this]
          have : 0 ≤ (r - 1 / 2) / r ^ 2 := div_nonneg (by linarith) (by positivity)
          linarith
        rw [if_pos hpos] at hst
        split_ifs at hst
        simpa using hst.symm
    subst hre
    simp only at hm
    subst hm
    cases x <;> rfl
  · obtain ⟨h1, h2, h3, h4, h5, h6, h7⟩ := C94aux.lifted_eq (gamma := 1) (jz := 1 / 5)
      (p := ⟨3 / 2, √(11 / 225), 8 / 15, √(2 * (1 / 5)), 0, 0⟩) (by norm_num) (by positivity) C94Spec.disk.planar
    rw [C94aux.disk_planar] at h5 h7
    have hE : effE 1 C77aux.kepler (1 / 5) (flat ⟨3 / 2, √(11 / 225), 8 / 15, √(2 * (1 / 5)), 0, 0⟩) = -(21 / 50) := by
      rw [h7]; simp only [C77aux.kepler, v2]; norm_num [abs_of_pos]
    have hL : effL 1 (1 / 5) (flat ⟨3 / 2, √(11 / 225), 8 / 15, √(2 * (1 / 5)), 0, 0⟩) = 1 := by
      rw [h6]; norm_num [abs_of_pos]
    refine ⟨SphericalAA.calcJr C77aux.kepler (5 / 7) (5 / 3) (-(21 / 50)) 1, 1 / 5, C94aux.jr_pos C94aux.bound2, fun out => ?_⟩
    unfold AdiabaticAA.Actions
    simp only [C94aux.disk_vertical, C94aux.disk_action (show (0 : ℝ) < 1 / 5 by norm_num) (by norm_num), exists_eq_left, C94aux.disk_planar]
    have ht : ∀ rr, Turning 1 C77aux.kepler (1 / 5) (flat ⟨3 / 2, √(11 / 225), 8 / 15, √(2 * (1 / 5)), 0, 0⟩) rr
        ↔ rr = some (5 / 7, 5 / 3) := fun rr => by
      rw [C94aux.turning_lifted (by norm_num) (by positivity) n2]
      exact C94aux.lifted_turning C94aux.bound2 _ (show (0 : ℝ) < 3 / 2 by norm_num) (h5.trans hE) (h4.trans hL) rr
    simp only [ht, exists_eq_left, Option.map_some, hE, hL]
    rfl

end Verif
