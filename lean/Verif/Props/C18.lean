import Verif.Lemmas.EOM
import Verif.Lemmas.Ellipse

set_option autoImplicit false

/-!
# C18: energy conservation of the equations of motion

For each right-hand side given to the integrators: along every solution, on every interval of
times, kinetic plus potential energy is constant, for every potential whose value does not depend
on time and whose forces are its gradient along the solution.
-/

open Filter Topology

namespace Verif

/-- Cylindrical equations `(R, vR, φ, φ', z, z')`. -/
theorem C18_cylindrical {P : Pot} (hst : Static P) {y : ℝ → Fin 6 → ℝ} {I : Set ℝ} (hI : Convex ℝ I)
    (hy : Solves (EOM.full P.force) y I) (hR : ∀ s ∈ I, y s 0 ≠ 0)
    (hg : ∀ s ∈ I, GradAt P (y s 0) (y s 4) (y s 2) s)
    (hd : ∀ s ∈ I, DiffAt P (y s 0) (y s 4) (y s 2) s) :
    ∀ s ∈ I, ∀ u ∈ I,
      (y s 1 ^ 2 + (y s 0 * y s 3) ^ 2 + y s 5 ^ 2) / 2 + P.val (y s 0) (y s 4) (y s 2) s =
      (y u 1 ^ 2 + (y u 0 * y u 3) ^ 2 + y u 5 ^ 2) / 2 + P.val (y u 0) (y u 4) (y u 2) u := by
  apply const_of_hasDerivAt_zero hI
  intro s hs
  have h := hasDerivAt_pi.1 (hy s hs)
  have hval := GradAt.curve (hg s hs) (hd s hs) (h 0) (h 4) (h 2)
  have hkin := ((((h 1).pow 2).add (((h 0).mul (h 3)).pow 2)).add ((h 5).pow 2)).div_const 2
  have hsum := hkin.add hval
  have heq : (fun u => (y u 1 ^ 2 + (y u 0 * y u 3) ^ 2 + y u 5 ^ 2) / 2
      + P.val (y u 0) (y u 4) (y u 2) u) =
      fun u => (y u 1 ^ 2 + (y u 0 * y u 3) ^ 2 + y u 5 ^ 2) / 2 + P.val (y u 0) (y u 4) (y u 2) s := by
    funext u
    rw [hst _ _ _ u s]
  rw [heq]
  refine hsum.congr_deriv ?_
  have h0 := hR s hs
  simp [EOM.full, Pot.force]
  field_simp
  ring

/-- Cylindrical equations without azimuth, with the constant `l2 = (R vT)²`, for a potential that
does not depend on azimuth. -/
theorem C18_meridional {P : Pot} (hst : Static P) (l2 : ℝ) {y : ℝ → Fin 4 → ℝ} {I : Set ℝ}
    (hI : Convex ℝ I) (hy : Solves (EOM.rz P l2) y I) (hR : ∀ s ∈ I, y s 0 ≠ 0)
    (hg : ∀ s ∈ I, GradAt P (y s 0) (y s 2) 0 s) (hd : ∀ s ∈ I, DiffAt P (y s 0) (y s 2) 0 s) :
    ∀ s ∈ I, ∀ u ∈ I,
      (y s 1 ^ 2 + l2 / y s 0 ^ 2 + y s 3 ^ 2) / 2 + P.val (y s 0) (y s 2) 0 s =
      (y u 1 ^ 2 + l2 / y u 0 ^ 2 + y u 3 ^ 2) / 2 + P.val (y u 0) (y u 2) 0 u := by
  apply const_of_hasDerivAt_zero hI
  intro s hs
  have h := hasDerivAt_pi.1 (hy s hs)
  have h0 := hR s hs
  have hval := GradAt.curve (hg s hs) (hd s hs) (h 0) (h 2) (hasDerivAt_const s (0 : ℝ))
  have hl : HasDerivAt (fun u => l2 / y u 0 ^ 2) (-(2 * l2 * y s 1) / y s 0 ^ 3) s := by
    have := (hasDerivAt_const s l2).div ((h 0).pow 2) (pow_ne_zero 2 h0)
    refine this.congr_deriv ?_
    simp [EOM.rz]
    field_simp
  have hkin := ((((h 1).pow 2).add hl).add ((h 3).pow 2)).div_const 2
  have hsum := hkin.add hval
  have heq : (fun u => (y u 1 ^ 2 + l2 / y u 0 ^ 2 + y u 3 ^ 2) / 2 + P.val (y u 0) (y u 2) 0 u) =
      fun u => (y u 1 ^ 2 + l2 / y u 0 ^ 2 + y u 3 ^ 2) / 2 + P.val (y u 0) (y u 2) 0 s := by
    funext u
    rw [hst _ _ _ u s]
  rw [heq]
  refine hsum.congr_deriv ?_
  simp [EOM.rz]
  field_simp
  ring

theorem C18aux.planar {P : Pot} (hst : Static P) {y : ℝ → Fin 4 → ℝ} {I : Set ℝ} (hI : Convex ℝ I)
    (hy : Solves (EOM.planar P.force) y I) (hR : ∀ s ∈ I, y s 0 ≠ 0)
    (hg : ∀ s ∈ I, GradAt P (y s 0) 0 (y s 2) s) (hd : ∀ s ∈ I, DiffAt P (y s 0) 0 (y s 2) s) :
    ∀ s ∈ I, ∀ u ∈ I,
      (y s 1 ^ 2 + (y s 0 * y s 3) ^ 2) / 2 + P.val (y s 0) 0 (y s 2) s =
      (y u 1 ^ 2 + (y u 0 * y u 3) ^ 2) / 2 + P.val (y u 0) 0 (y u 2) u := by
  apply const_of_hasDerivAt_zero hI
  intro s hs
  have h := hasDerivAt_pi.1 (hy s hs)
  have h0 := hR s hs
  have hval := GradAt.curve (b := fun _ => 0) (hg s hs) (hd s hs) (h 0) (hasDerivAt_const s (0 : ℝ)) (h 2)
  have hkin := (((h 1).pow 2).add (((h 0).mul (h 3)).pow 2)).div_const 2
  have hsum := hkin.add hval
  have heq : (fun u => (y u 1 ^ 2 + (y u 0 * y u 3) ^ 2) / 2 + P.val (y u 0) 0 (y u 2) u) =
      fun u => (y u 1 ^ 2 + (y u 0 * y u 3) ^ 2) / 2 + P.val (y u 0) 0 (y u 2) s := by
    funext u
    rw [hst _ _ _ u s]
  rw [heq]
  refine hsum.congr_deriv ?_
  simp [EOM.planar, Pot.force]
  field_simp
  ring

theorem C18aux.planarR {P : Pot} (hst : Static P) (l2 : ℝ) {y : ℝ → Fin 2 → ℝ} {I : Set ℝ}
    (hI : Convex ℝ I) (hy : Solves (EOM.planarR P l2) y I) (hR : ∀ s ∈ I, y s 0 ≠ 0)
    (hg : ∀ s ∈ I, GradAt P (y s 0) 0 0 s) (hd : ∀ s ∈ I, DiffAt P (y s 0) 0 0 s) :
    ∀ s ∈ I, ∀ u ∈ I,
      (y s 1 ^ 2 + l2 / y s 0 ^ 2) / 2 + P.val (y s 0) 0 0 s =
      (y u 1 ^ 2 + l2 / y u 0 ^ 2) / 2 + P.val (y u 0) 0 0 u := by
  apply const_of_hasDerivAt_zero hI
  intro s hs
  have h := hasDerivAt_pi.1 (hy s hs)
  have h0 := hR s hs
  have hval := GradAt.curve (b := fun _ => 0) (c := fun _ => 0) (hg s hs) (hd s hs) (h 0)
    (hasDerivAt_const s (0 : ℝ)) (hasDerivAt_const s (0 : ℝ))
  have hl : HasDerivAt (fun u => l2 / y u 0 ^ 2) (-(2 * l2 * y s 1) / y s 0 ^ 3) s := by
    have := (hasDerivAt_const s l2).div ((h 0).pow 2) (pow_ne_zero 2 h0)
    refine this.congr_deriv ?_
    simp [EOM.planarR]
    field_simp
  have hsum := ((((h 1).pow 2).add hl).div_const 2).add hval
  have heq : (fun u => (y u 1 ^ 2 + l2 / y u 0 ^ 2) / 2 + P.val (y u 0) 0 0 u) =
      fun u => (y u 1 ^ 2 + l2 / y u 0 ^ 2) / 2 + P.val (y u 0) 0 0 s := by
    funext u
    rw [hst _ _ _ u s]
  rw [heq]
  refine hsum.congr_deriv ?_
  simp [EOM.planarR]
  field_simp
  ring

/-- Planar equations `(R, vR, φ, φ')`. -/
theorem C18_planar {P : Pot} (hst : Static P) {y : ℝ → Fin 4 → ℝ} {I : Set ℝ} (hI : Convex ℝ I)
    (hy : Solves (EOM.planar P.force) y I) (hR : ∀ s ∈ I, y s 0 ≠ 0)
    (hg : ∀ s ∈ I, PlanarGradAt P (y s 0) (y s 2) s) (hd : ∀ s ∈ I, PlanarDiffAt P (y s 0) (y s 2) s) :
    ∀ s ∈ I, ∀ u ∈ I,
      (y s 1 ^ 2 + (y s 0 * y s 3) ^ 2) / 2 + P.val (y s 0) 0 (y s 2) s =
      (y u 1 ^ 2 + (y u 0 * y u 3) ^ 2) / 2 + P.val (y u 0) 0 (y u 2) u :=
  C18aux.planar (P := P.plane) (fun R _ φ s t => hst R 0 φ s t) hI hy hR
    (fun s hs => (hg s hs).plane 0) fun s hs => (hd s hs).plane 0

/-- Planar equations without azimuth, with the constant `l2 = (R vT)²`, for a potential that does
not depend on azimuth. -/
theorem C18_planarR {P : Pot} (hst : Static P) (l2 : ℝ) {y : ℝ → Fin 2 → ℝ} {I : Set ℝ}
    (hI : Convex ℝ I) (hy : Solves (EOM.planarR P l2) y I) (hR : ∀ s ∈ I, y s 0 ≠ 0)
    (hg : ∀ s ∈ I, PlanarGradAt P (y s 0) 0 s) (hd : ∀ s ∈ I, PlanarDiffAt P (y s 0) 0 s) :
    ∀ s ∈ I, ∀ u ∈ I,
      (y s 1 ^ 2 + l2 / y s 0 ^ 2) / 2 + P.val (y s 0) 0 0 s =
      (y u 1 ^ 2 + l2 / y u 0 ^ 2) / 2 + P.val (y u 0) 0 0 u :=
  C18aux.planarR (P := P.plane) (fun R _ φ s t => hst R 0 φ s t) l2 hI hy hR
    (fun s hs => (hg s hs).plane 0) fun s hs => (hd s hs).plane 0

/-- One-dimensional equations. -/
theorem C18_linear {V f : ℝ → ℝ → ℝ} (hst : ∀ x s t, V x s = V x t) {y : ℝ → Fin 2 → ℝ} {I : Set ℝ}
    (hI : Convex ℝ I) (hy : Solves (EOM.linear f) y I)
    (hg : ∀ s ∈ I, HasDerivAt (fun x => V x s) (-f (y s 0) s) (y s 0)) :
    ∀ s ∈ I, ∀ u ∈ I, y s 1 ^ 2 / 2 + V (y s 0) s = y u 1 ^ 2 / 2 + V (y u 0) u := by
  apply const_of_hasDerivAt_zero hI
  intro s hs
  have h := hasDerivAt_pi.1 (hy s hs)
  have hval := (hg s hs).comp s (h 0)
  have hsum := (((h 1).pow 2).div_const 2).add hval
  have heq : (fun u => y u 1 ^ 2 / 2 + V (y u 0) u) = fun u => y u 1 ^ 2 / 2 + V (y u 0) s := by
    funext u
    rw [hst _ u s]
  rw [heq]
  refine hsum.congr_deriv ?_
  simp [EOM.linear]
  ring

/-- Rectangular equations, the force used by the symplectic integrators. -/
theorem C18_rectangular {P : Pot} (hst : Static P)
    (hper : ∀ R z φ t, P.val R z (φ + 2 * Real.pi) t = P.val R z φ t) {x v : ℝ → Fin 3 → ℝ}
    {I : Set ℝ} (hI : Convex ℝ I) (hx : Newton (fun t x _ => EOM.rectForce P t x) x v I)
    (h0 : ∀ s ∈ I, 0 < x s 0 ^ 2 + x s 1 ^ 2)
    (hg : ∀ s ∈ I, GradAt P (√(x s 0 ^ 2 + x s 1 ^ 2)) (x s 2) (EOM.azimuth (x s 0) (x s 1)) s)
    (hd : ∀ s ∈ I, DiffAt P (√(x s 0 ^ 2 + x s 1 ^ 2)) (x s 2) (EOM.azimuth (x s 0) (x s 1)) s) :
    ∀ s ∈ I, ∀ u ∈ I,
      (v s 0 ^ 2 + v s 1 ^ 2 + v s 2 ^ 2) / 2
        + P.val (√(x s 0 ^ 2 + x s 1 ^ 2)) (x s 2) (EOM.azimuth (x s 0) (x s 1)) s =
      (v u 0 ^ 2 + v u 1 ^ 2 + v u 2 ^ 2) / 2
        + P.val (√(x u 0 ^ 2 + x u 1 ^ 2)) (x u 2) (EOM.azimuth (x u 0) (x u 1)) u := by
  apply const_of_hasDerivAt_zero hI
  intro s hs
  obtain ⟨hq, hv⟩ := hx s hs
  have h := hasDerivAt_pi.1 hv
  have hval := EOM.cart_curve (EOM.isCart_exists hper s) hq (h0 s hs) (hg s hs) (hd s hs)
  have hsum := (((((h 0).pow 2).add ((h 1).pow 2)).add ((h 2).pow 2)).div_const 2).add hval
  have heq : (fun u => (v u 0 ^ 2 + v u 1 ^ 2 + v u 2 ^ 2) / 2
        + P.val (√(x u 0 ^ 2 + x u 1 ^ 2)) (x u 2) (EOM.azimuth (x u 0) (x u 1)) u) =
      fun u => (v u 0 ^ 2 + v u 1 ^ 2 + v u 2 ^ 2) / 2
        + P.val (√(x u 0 ^ 2 + x u 1 ^ 2)) (x u 2) (EOM.azimuth (x u 0) (x u 1)) s := by
    funext u
    rw [hst _ _ _ u s]
  rw [heq]
  refine hsum.congr_deriv ?_
  simp
  ring

/-- Planar rectangular equations. -/
theorem C18_planar_rectangular {P : Pot} (hst : Static P)
    (hper : ∀ R φ t, P.val R 0 (φ + 2 * Real.pi) t = P.val R 0 φ t) {x v : ℝ → Fin 2 → ℝ}
    {I : Set ℝ} (hI : Convex ℝ I)
    (hx : Newton (fun t x _ => EOM.planarRectForceV P.force t x 0) x v I)
    (h0 : ∀ s ∈ I, 0 < x s 0 ^ 2 + x s 1 ^ 2)
    (hg : ∀ s ∈ I, PlanarGradAt P (√(x s 0 ^ 2 + x s 1 ^ 2)) (EOM.azimuth (x s 0) (x s 1)) s)
    (hd : ∀ s ∈ I, PlanarDiffAt P (√(x s 0 ^ 2 + x s 1 ^ 2)) (EOM.azimuth (x s 0) (x s 1)) s) :
    ∀ s ∈ I, ∀ u ∈ I,
      (v s 0 ^ 2 + v s 1 ^ 2) / 2
        + P.val (√(x s 0 ^ 2 + x s 1 ^ 2)) 0 (EOM.azimuth (x s 0) (x s 1)) s =
      (v u 0 ^ 2 + v u 1 ^ 2) / 2
        + P.val (√(x u 0 ^ 2 + x u 1 ^ 2)) 0 (EOM.azimuth (x u 0) (x u 1)) u := by
  have h3 : Newton (fun t x _ => EOM.rectForce P.plane t x) (fun s => ![x s 0, x s 1, 0])
      (fun s => ![v s 0, v s 1, 0]) I := by
    intro s hs
    have a := hasDerivAt_pi.1 (hx s hs).1
    have b := hasDerivAt_pi.1 (hx s hs).2
    constructor
    · rw [hasDerivAt_pi]
      intro i
      fin_cases i
      · exact a 0
      · exact a 1
      · exact hasDerivAt_const s 0
    · rw [hasDerivAt_pi]
      intro i
      fin_cases i
      · exact b 0
      · exact b 1
      · exact hasDerivAt_const s 0
  have := C18_rectangular (P := P.plane) (fun R _ φ s t => hst R 0 φ s t)
    (fun R _ φ t => hper R φ t) hI h3 h0 (fun s hs => (hg s hs).plane _) fun s hs => (hd s hs).plane _
  intro s hs u hu
  have := this s hs u hu
  simpa [Pot.plane] using this

/-! ## Concrete cases: orbits in a homogeneous sphere -/

example : ∀ s u : ℝ,
    (Ellipse.v s 0 ^ 2 + Ellipse.v s 1 ^ 2 + Ellipse.v s 2 ^ 2) / 2
      + Ellipse.P.val (√(Ellipse.x s 0 ^ 2 + Ellipse.x s 1 ^ 2)) (Ellipse.x s 2)
        (EOM.azimuth (Ellipse.x s 0) (Ellipse.x s 1)) s =
    (Ellipse.v u 0 ^ 2 + Ellipse.v u 1 ^ 2 + Ellipse.v u 2 ^ 2) / 2
      + Ellipse.P.val (√(Ellipse.x u 0 ^ 2 + Ellipse.x u 1 ^ 2)) (Ellipse.x u 2)
        (EOM.azimuth (Ellipse.x u 0) (Ellipse.x u 1)) u :=
  fun s u => C18_rectangular Ellipse.static Ellipse.periodic.val convex_univ Ellipse.newton
    (fun s _ => Ellipse.pos s) (fun s _ => Ellipse.smoothOn.grad _ _ _ s (Ellipse.mem_D s _))
    (fun s _ => Ellipse.smoothOn.diff _ _ _ s (Ellipse.mem_D s _)) s trivial u trivial

example : ∀ s u : ℝ,
    (Ellipse.y s 1 ^ 2 + (Ellipse.y s 0 * Ellipse.y s 3) ^ 2 + Ellipse.y s 5 ^ 2) / 2
      + Ellipse.P.val (Ellipse.y s 0) (Ellipse.y s 4) (Ellipse.y s 2) s =
    (Ellipse.y u 1 ^ 2 + (Ellipse.y u 0 * Ellipse.y u 3) ^ 2 + Ellipse.y u 5 ^ 2) / 2
      + Ellipse.P.val (Ellipse.y u 0) (Ellipse.y u 4) (Ellipse.y u 2) u :=
  fun s u => C18_cylindrical Ellipse.static convex_univ Ellipse.solves (fun s _ => by simp [Ellipse.y])
    (fun s _ => Ellipse.smoothOn.grad _ _ _ s (Ellipse.y_mem s))
    (fun s _ => Ellipse.smoothOn.diff _ _ _ s (Ellipse.y_mem s)) s trivial u trivial

example : ∀ s u : ℝ,
    (Ellipse.yz s 1 ^ 2 + 2 / Ellipse.yz s 0 ^ 2 + Ellipse.yz s 3 ^ 2) / 2
      + Ellipse.P.val (Ellipse.yz s 0) (Ellipse.yz s 2) 0 s =
    (Ellipse.yz u 1 ^ 2 + 2 / Ellipse.yz u 0 ^ 2 + Ellipse.yz u 3 ^ 2) / 2
      + Ellipse.P.val (Ellipse.yz u 0) (Ellipse.yz u 2) 0 u :=
  fun s u => C18_meridional Ellipse.static 2 convex_univ Ellipse.solves_rz
    (fun s _ => by simp [Ellipse.yz])
    (fun s _ => Ellipse.smoothOn.grad _ _ _ s (Ellipse.yz_mem s))
    (fun s _ => Ellipse.smoothOn.diff _ _ _ s (Ellipse.yz_mem s)) s trivial u trivial

example : ∀ s u : ℝ,
    (Ellipse.yp s 1 ^ 2 + (Ellipse.yp s 0 * Ellipse.yp s 3) ^ 2) / 2
      + Ellipse.P.val (Ellipse.yp s 0) 0 (Ellipse.yp s 2) s =
    (Ellipse.yp u 1 ^ 2 + (Ellipse.yp u 0 * Ellipse.yp u 3) ^ 2) / 2
      + Ellipse.P.val (Ellipse.yp u 0) 0 (Ellipse.yp u 2) u :=
  fun s u => C18_planar Ellipse.static convex_univ Ellipse.solves_planar
    (fun s _ => by simp [Ellipse.yp])
    (fun s _ => (Ellipse.smoothOn.grad _ _ _ s (Ellipse.yp_mem s)).planar)
    (fun s _ => (Ellipse.smoothOn.diff _ _ _ s (Ellipse.yp_mem s)).planar) s trivial u trivial

example : ∀ s u : ℝ, Ellipse.yl s 1 ^ 2 / 2 + Ellipse.yl s 0 ^ 2 = Ellipse.yl u 1 ^ 2 / 2 + Ellipse.yl u 0 ^ 2 :=
  fun s u => C18_linear (V := fun x _ => x ^ 2) (fun _ _ _ => rfl) convex_univ Ellipse.solves_linear
    (fun s _ => ((hasDerivAt_pow 2 _).congr_deriv (by simp))) s trivial u trivial

/-- The circular orbit without azimuth. -/
example : Solves (EOM.planarR Ellipse.P 2) (fun _ => ![1, 0]) Set.univ := by
  intro s _
  have hD : ((1 : ℝ), (0 : ℝ), (0 : ℝ)) ∈ Ellipse.D := by simp [Ellipse.D]
  have := Ellipse.Rforce_in (t := s) hD
  rw [hasDerivAt_pi]
  intro i
  fin_cases i
  · exact (hasDerivAt_const s (1 : ℝ)).congr_deriv (by simp [EOM.planarR])
  · exact (hasDerivAt_const s (0 : ℝ)).congr_deriv (by simp [EOM.planarR, this])

/-- A planar ellipse. -/
example : ∀ s u : ℝ,
    ((2 * Ellipse.w * Real.sin (Ellipse.w * s)) ^ 2 + (Ellipse.w * Real.cos (Ellipse.w * s)) ^ 2) / 2
      + Ellipse.P.val (√((2 * Real.cos (Ellipse.w * s)) ^ 2 + Real.sin (Ellipse.w * s) ^ 2)) 0
        (EOM.azimuth (2 * Real.cos (Ellipse.w * s)) (Real.sin (Ellipse.w * s))) s =
    ((2 * Ellipse.w * Real.sin (Ellipse.w * u)) ^ 2 + (Ellipse.w * Real.cos (Ellipse.w * u)) ^ 2) / 2
      + Ellipse.P.val (√((2 * Real.cos (Ellipse.w * u)) ^ 2 + Real.sin (Ellipse.w * u) ^ 2)) 0
        (EOM.azimuth (2 * Real.cos (Ellipse.w * u)) (Real.sin (Ellipse.w * u))) u := by
  intro s u
  have hD : ∀ s, (√(Ellipse.x s 0 ^ 2 + Ellipse.x s 1 ^ 2), (0 : ℝ),
      EOM.azimuth (Ellipse.x s 0) (Ellipse.x s 1)) ∈ Ellipse.D := by
    intro s
    have := Ellipse.mem_D s (EOM.azimuth (Ellipse.x s 0) (Ellipse.x s 1))
    simp only [Ellipse.D, Set.mem_setOf_eq] at this ⊢
    nlinarith [sq_nonneg (Ellipse.x s 2)]
  have key := C18_planar_rectangular Ellipse.static (fun R φ t => Ellipse.periodic.val R 0 φ t)
    (x := fun s => ![Ellipse.x s 0, Ellipse.x s 1]) (v := fun s => ![Ellipse.v s 0, Ellipse.v s 1])
    convex_univ ?_ (fun s _ => Ellipse.pos s)
    (fun s _ => (Ellipse.smoothOn.grad _ _ _ s (hD s)).planar)
    (fun s _ => (Ellipse.smoothOn.diff _ _ _ s (hD s)).planar) s trivial u trivial
  · simpa [Ellipse.x, Ellipse.v] using key
  · intro s _
    have a := hasDerivAt_pi.1 (Ellipse.hasDerivAt_x s)
    have b := hasDerivAt_pi.1 (Ellipse.hasDerivAt_v s)
    have h := (Real.sqrt_pos.2 (Ellipse.pos s)).ne'
    have hp : ∀ R z φ t, Ellipse.P.phitorque R z φ t = 0 := fun _ _ _ _ => rfl
    constructor
    · rw [hasDerivAt_pi]
      intro i
      fin_cases i
      · exact a 0
      · exact a 1
    · rw [hasDerivAt_pi]
      intro i
      fin_cases i
      · refine (b 0).congr_deriv ?_
        simp only [EOM.planarRectForceV, Pot.force, Matrix.cons_val_zero, Matrix.cons_val_one,
          Ellipse.Rforce_in (hD s), hp, Fin.zero_eta]
        field_simp
        ring
      · refine (b 1).congr_deriv ?_
        simp only [EOM.planarRectForceV, Pot.force, Matrix.cons_val_zero, Matrix.cons_val_one,
          Ellipse.Rforce_in (hD s), hp, Fin.mk_one]
        field_simp
        ring

end Verif
