import Verif.Lemmas.EOM
import Verif.Lemmas.Ellipse
import Mathlib.LinearAlgebra.CrossProduct

set_option autoImplicit false

/-!
# C19: angular-momentum conservation

`AxisymmetricAt`/`SphericalPot` are stated on the potential *value*; that the torque methods then
vanish is derived from the forces being the gradient.
-/

open Filter Topology Matrix

namespace Verif

/-- The value does not depend on azimuth. -/
def Axisymmetric (P : Pot) : Prop := ∀ R z φ φ' t, P.val R z φ t = P.val R z φ' t

/-- The value depends on the distance from the origin only. -/
def SphericalPot (P : Pot) : Prop :=
  ∀ R z φ R' z' φ' t, R ^ 2 + z ^ 2 = R' ^ 2 + z' ^ 2 → P.val R z φ t = P.val R' z' φ' t

theorem SphericalPot.axisymmetric {P : Pot} (h : SphericalPot P) : Axisymmetric P :=
  fun _ _ _ _ _ => h _ _ _ _ _ _ _ rfl

theorem C19aux.torque_zero {P : Pot} (h : Axisymmetric P) {R z φ t : ℝ} (hg : GradAt P R z φ t) :
    P.phitorque R z φ t = 0 := by
  have e : (fun x => P.val R z x t) = fun _ => P.val R z φ t := by
    funext x
    exact h _ _ _ _ _
  have := hg.dphi
  rw [e] at this
  have := this.unique (hasDerivAt_const φ _)
  linarith

theorem C19aux.central {P : Pot} (h : SphericalPot P) {R z φ t : ℝ} (hg : GradAt P R z φ t)
    (hd : DiffAt P R z φ t) : R * P.zforce R z φ t = z * P.Rforce R z φ t := by
  -- rotate the point in the meridional plane
  have hc := (Real.hasDerivAt_cos 0)
  have hs := (Real.hasDerivAt_sin 0)
  have ha : HasDerivAt (fun u => R * Real.cos u - z * Real.sin u) (-z) 0 :=
    ((hc.const_mul R).sub (hs.const_mul z)).congr_deriv (by simp)
  have hb : HasDerivAt (fun u => R * Real.sin u + z * Real.cos u) R 0 :=
    ((hs.const_mul R).add (hc.const_mul z)).congr_deriv (by simp)
  have key := GradAt.curve (P := P) (t := t) (s := 0)
    (a := fun u => R * Real.cos u - z * Real.sin u) (b := fun u => R * Real.sin u + z * Real.cos u)
    (c := fun _ => φ) (by simpa using hg) (by simpa using hd) ha hb (hasDerivAt_const _ _)
  have e : (fun u => P.val (R * Real.cos u - z * Real.sin u) (R * Real.sin u + z * Real.cos u) φ t) =
      fun _ => P.val R z φ t := by
    funext u
    apply h
    linear_combination (R ^ 2 + z ^ 2) * Real.cos_sq_add_sin_sq u
  rw [e] at key
  have := key.unique (hasDerivAt_const _ _)
  simp at this
  linarith

/-- `Lz = R vT` along the cylindrical equations of motion. -/
theorem C19_Lz_cylindrical {P : Pot} (hax : Axisymmetric P) {y : ℝ → Fin 6 → ℝ} {I : Set ℝ}
    (hI : Convex ℝ I) (hy : Solves (EOM.full P.force) y I) (hR : ∀ s ∈ I, y s 0 ≠ 0)
    (hg : ∀ s ∈ I, GradAt P (y s 0) (y s 4) (y s 2) s) :
    ∀ s ∈ I, ∀ u ∈ I, y s 0 * (y s 0 * y s 3) = y u 0 * (y u 0 * y u 3) := by
  apply const_of_hasDerivAt_zero hI
  intro s hs
  have h := hasDerivAt_pi.1 (hy s hs)
  refine ((h 0).mul ((h 0).mul (h 3))).congr_deriv ?_
  have h0 := hR s hs
  have ht := C19aux.torque_zero hax (hg s hs)
  simp [EOM.full, Pot.force, ht]
  field_simp
  ring

/-- `Lz` along the planar equations of motion. -/
theorem C19_Lz_planar {P : Pot} (hax : Axisymmetric P) {y : ℝ → Fin 4 → ℝ} {I : Set ℝ}
    (hI : Convex ℝ I) (hy : Solves (EOM.planar P.force) y I) (hR : ∀ s ∈ I, y s 0 ≠ 0)
    (hg : ∀ s ∈ I, PlanarGradAt P (y s 0) (y s 2) s) :
    ∀ s ∈ I, ∀ u ∈ I, y s 0 * (y s 0 * y s 3) = y u 0 * (y u 0 * y u 3) := by
  apply const_of_hasDerivAt_zero hI
  intro s hs
  have h := hasDerivAt_pi.1 (hy s hs)
  refine ((h 0).mul ((h 0).mul (h 3))).congr_deriv ?_
  have h0 := hR s hs
  have ht := C19aux.torque_zero (P := P.plane) (fun R _ φ φ' t => hax R 0 φ φ' t) ((hg s hs).plane 0)
  have ht : P.phitorque (y s 0) 0 (y s 2) s = 0 := ht
  simp [EOM.planar, Pot.force, ht]
  field_simp
  ring

/-- `Lz = x vy - y vx` along the rectangular equations of motion. -/
theorem C19_Lz_rectangular {P : Pot} (hax : Axisymmetric P) {x v : ℝ → Fin 3 → ℝ} {I : Set ℝ}
    (hI : Convex ℝ I) (hx : Newton (fun t x _ => EOM.rectForce P t x) x v I)
    (h0 : ∀ s ∈ I, 0 < x s 0 ^ 2 + x s 1 ^ 2)
    (hg : ∀ s ∈ I, GradAt P (√(x s 0 ^ 2 + x s 1 ^ 2)) (x s 2) (EOM.azimuth (x s 0) (x s 1)) s) :
    ∀ s ∈ I, ∀ u ∈ I, x s 0 * v s 1 - x s 1 * v s 0 = x u 0 * v u 1 - x u 1 * v u 0 := by
  apply const_of_hasDerivAt_zero hI
  intro s hs
  have hq := hasDerivAt_pi.1 (hx s hs).1
  have hv := hasDerivAt_pi.1 (hx s hs).2
  refine (((hq 0).mul (hv 1)).sub ((hq 1).mul (hv 0))).congr_deriv ?_
  have ht := C19aux.torque_zero hax (hg s hs)
  simp [EOM.rectForce, EOM.rectForceV, Pot.force, ht]
  ring

/-- The whole angular momentum vector along the rectangular equations in a spherical potential. -/
theorem C19_L_rectangular {P : Pot} (hsph : SphericalPot P) {x v : ℝ → Fin 3 → ℝ} {I : Set ℝ}
    (hI : Convex ℝ I) (hx : Newton (fun t x _ => EOM.rectForce P t x) x v I)
    (h0 : ∀ s ∈ I, 0 < x s 0 ^ 2 + x s 1 ^ 2)
    (hg : ∀ s ∈ I, GradAt P (√(x s 0 ^ 2 + x s 1 ^ 2)) (x s 2) (EOM.azimuth (x s 0) (x s 1)) s)
    (hd : ∀ s ∈ I, DiffAt P (√(x s 0 ^ 2 + x s 1 ^ 2)) (x s 2) (EOM.azimuth (x s 0) (x s 1)) s) :
    ∀ s ∈ I, ∀ u ∈ I, x s ⨯₃ v s = x u ⨯₃ v u := by
  have key : ∀ i : Fin 3, ∀ s ∈ I, ∀ u ∈ I, (x s ⨯₃ v s) i = (x u ⨯₃ v u) i := by
    intro i
    apply const_of_hasDerivAt_zero hI
    intro s hs
    have hq := hasDerivAt_pi.1 (hx s hs).1
    have hv := hasDerivAt_pi.1 (hx s hs).2
    have hR : 0 < √(x s 0 ^ 2 + x s 1 ^ 2) := Real.sqrt_pos.2 (h0 s hs)
    have ht := C19aux.torque_zero hsph.axisymmetric (hg s hs)
    have hz := C19aux.central hsph (hg s hs) (hd s hs)
    have hz' : P.zforce (√(x s 0 ^ 2 + x s 1 ^ 2)) (x s 2) (EOM.azimuth (x s 0) (x s 1)) s =
        x s 2 / √(x s 0 ^ 2 + x s 1 ^ 2) *
          P.Rforce (√(x s 0 ^ 2 + x s 1 ^ 2)) (x s 2) (EOM.azimuth (x s 0) (x s 1)) s := by
      rw [div_mul_eq_mul_div, eq_div_iff hR.ne']
      linarith
    fin_cases i
    · simp only [cross_apply]
      refine (((hq 1).mul (hv 2)).sub ((hq 2).mul (hv 1))).congr_deriv ?_
      simp [EOM.rectForce, EOM.rectForceV, Pot.force, ht, hz']
      ring
    · simp only [cross_apply]
      refine (((hq 2).mul (hv 0)).sub ((hq 0).mul (hv 2))).congr_deriv ?_
      simp [EOM.rectForce, EOM.rectForceV, Pot.force, ht, hz']
      ring
    · simp only [cross_apply]
      refine (((hq 0).mul (hv 1)).sub ((hq 1).mul (hv 0))).congr_deriv ?_
      simp [EOM.rectForce, EOM.rectForceV, Pot.force, ht]
      ring
  intro s hs u hu
  funext i
  exact key i s hs u hu

/-! ## Concrete cases: orbits in a homogeneous sphere -/

theorem C19aux.sphere : SphericalPot Ellipse.P := by
  intro R z φ R' z' φ' t h
  simp only [Ellipse.P, HomogeneousSphere.pot, Pot.axi, HomogeneousSphere.evaluate, h]

example : ∀ s u : ℝ, Ellipse.x s ⨯₃ Ellipse.v s = Ellipse.x u ⨯₃ Ellipse.v u :=
  fun s u => C19_L_rectangular C19aux.sphere convex_univ Ellipse.newton
    (fun s _ => Ellipse.pos s) (fun s _ => Ellipse.smoothOn.grad _ _ _ s (Ellipse.mem_D s _))
    (fun s _ => Ellipse.smoothOn.diff _ _ _ s (Ellipse.mem_D s _)) s trivial u trivial

example : ∀ s u : ℝ, Ellipse.x s 0 * Ellipse.v s 1 - Ellipse.x s 1 * Ellipse.v s 0 =
    Ellipse.x u 0 * Ellipse.v u 1 - Ellipse.x u 1 * Ellipse.v u 0 :=
  fun s u => C19_Lz_rectangular C19aux.sphere.axisymmetric convex_univ Ellipse.newton
    (fun s _ => Ellipse.pos s) (fun s _ => Ellipse.smoothOn.grad _ _ _ s (Ellipse.mem_D s _))
    s trivial u trivial

example : ∀ s u : ℝ, Ellipse.y s 0 * (Ellipse.y s 0 * Ellipse.y s 3) =
    Ellipse.y u 0 * (Ellipse.y u 0 * Ellipse.y u 3) :=
  fun s u => C19_Lz_cylindrical C19aux.sphere.axisymmetric convex_univ Ellipse.solves
    (fun s _ => by simp [Ellipse.y])
    (fun s _ => Ellipse.smoothOn.grad _ _ _ s (Ellipse.y_mem s)) s trivial u trivial

example : ∀ s u : ℝ, Ellipse.yp s 0 * (Ellipse.yp s 0 * Ellipse.yp s 3) =
    Ellipse.yp u 0 * (Ellipse.yp u 0 * Ellipse.yp u 3) :=
  fun s u => C19_Lz_planar C19aux.sphere.axisymmetric convex_univ Ellipse.solves_planar
    (fun s _ => by simp [Ellipse.yp])
    (fun s _ => (Ellipse.smoothOn.grad _ _ _ s (Ellipse.yp_mem s)).planar) s trivial u trivial

end Verif
