import Verif.Lemmas.EOM
import Verif.Lemmas.Ellipse

set_option autoImplicit false

/-!
# C20: rectangular and cylindrical equations of motion agree
-/

open Filter Topology

namespace Verif

/-- The rectangular force is minus the gradient of the potential as a function of rectangular
coordinates, at every point off the axis. -/
theorem C20_gradient {P : Pot} {t : ℝ} {g : (Fin 3 → ℝ) → ℝ} (hcart : IsCart P t g) (x : Fin 3 → ℝ)
    (h0 : 0 < x 0 ^ 2 + x 1 ^ 2)
    (hg : GradAt P (√(x 0 ^ 2 + x 1 ^ 2)) (x 2) (EOM.azimuth (x 0) (x 1)) t)
    (hd : DiffAt P (√(x 0 ^ 2 + x 1 ^ 2)) (x 2) (EOM.azimuth (x 0) (x 1)) t) (i : Fin 3) :
    HasDerivAt (fun u => g (Function.update x i u)) (-(EOM.rectForce P t x i)) (x i) := by
  have hq : HasDerivAt (fun u => Function.update x i u) (Pi.single i 1) (x i) :=
    hasDerivAt_update x i (x i)
  have := EOM.cart_curve hcart hq (by simpa using h0) (by simpa using hg) (by simpa using hd)
  refine this.congr_deriv ?_
  simp only [Function.update_eq_self]
  fin_cases i <;> simp [Pi.single_apply]

/-- The planar rectangular force is the in-plane part of the three-dimensional one. -/
theorem C20_planar (F : Force) (t : ℝ) (x v : Fin 2 → ℝ) :
    EOM.planarRectForceV F t x v 0 = EOM.rectForceV F t ![x 0, x 1, 0] ![v 0, v 1, 0] 0 ∧
    EOM.planarRectForceV F t x v 1 = EOM.rectForceV F t ![x 0, x 1, 0] ![v 0, v 1, 0] 1 := by
  constructor <;> rfl

/-- A force field with period `2 π` in azimuth. -/
structure Force.Periodic (F : Force) : Prop where
  R : ∀ R z φ t v, F.R R z (φ + 2 * Real.pi) t v = F.R R z φ t v
  phi : ∀ R z φ t v, F.phi R z (φ + 2 * Real.pi) t v = F.phi R z φ t v
  z : ∀ R z φ t v, F.z R z (φ + 2 * Real.pi) t v = F.z R z φ t v

/-- The rectangular force at a point given in cylindrical coordinates. -/
theorem C20aux.rectForce_polar {F : Force} (hF : F.Periodic) (t : ℝ) {R φ : ℝ} (z : ℝ)
    (v : Fin 3 → ℝ) (hR : 0 < R) :
    let w : Fin 3 → ℝ := ![v 0 * Real.cos φ + v 1 * Real.sin φ, -v 0 * Real.sin φ + v 1 * Real.cos φ, v 2];
    EOM.rectForceV F t ![R * Real.cos φ, R * Real.sin φ, z] v =
      ![Real.cos φ * F.R R z φ t w - 1 / R * Real.sin φ * F.phi R z φ t w,
        Real.sin φ * F.R R z φ t w + 1 / R * Real.cos φ * F.phi R z φ t w, F.z R z φ t w] := by
  intro w
  obtain ⟨h1, h2, h3⟩ := EOM.azimuth_polar (φ := φ) hR
  have hs : R * Real.sin φ / R = Real.sin φ := by field_simp
  have hc : R * Real.cos φ / R = Real.cos φ := by field_simp
  have e1 : ∀ w, F.R R z (EOM.azimuth (R * Real.cos φ) (R * Real.sin φ)) t w = F.R R z φ t w :=
    fun w => periodic_eq (f := fun φ => F.R R z φ t w) (fun φ => hF.R R z φ t w) h2 h3
  have e2 : ∀ w, F.phi R z (EOM.azimuth (R * Real.cos φ) (R * Real.sin φ)) t w = F.phi R z φ t w :=
    fun w => periodic_eq (f := fun φ => F.phi R z φ t w) (fun φ => hF.phi R z φ t w) h2 h3
  have e3 : ∀ w, F.z R z (EOM.azimuth (R * Real.cos φ) (R * Real.sin φ)) t w = F.z R z φ t w :=
    fun w => periodic_eq (f := fun φ => F.z R z φ t w) (fun φ => hF.z R z φ t w) h2 h3
  simp only [EOM.rectForceV, Matrix.cons_val_zero, Matrix.cons_val_one, Matrix.cons_val, h1, hs, hc,
    e1, e2, e3, w]

/-- Every solution of the cylindrical equations, written in rectangular coordinates, obeys Newton's
equation with the rectangular force; also for forces that depend on velocity. -/
theorem C20_to_rectangular {F : Force} (hF : F.Periodic) {y : ℝ → Fin 6 → ℝ} {I : Set ℝ}
    (hy : Solves (EOM.full F) y I) (hR : ∀ s ∈ I, 0 < y s 0) :
    Newton (EOM.rectForceV F)
      (fun s => ![y s 0 * Real.cos (y s 2), y s 0 * Real.sin (y s 2), y s 4])
      (fun s => ![y s 1 * Real.cos (y s 2) - y s 0 * Real.sin (y s 2) * y s 3,
        y s 1 * Real.sin (y s 2) + y s 0 * Real.cos (y s 2) * y s 3, y s 5]) I := by
  intro s hs
  have h := hasDerivAt_pi.1 (hy s hs)
  have h0 := hR s hs
  have hcos := (h 2).cos
  have hsin := (h 2).sin
  have hcs := Real.cos_sq_add_sin_sq (y s 2)
  constructor
  · rw [hasDerivAt_pi]
    intro i
    fin_cases i
    · exact ((h 0).mul hcos).congr_deriv (by simp [EOM.full]; ring)
    · exact ((h 0).mul hsin).congr_deriv (by simp [EOM.full]; ring)
    · exact (h 4).congr_deriv (by simp [EOM.full])
  · rw [C20aux.rectForce_polar hF s (y s 4) _ h0]
    have e1 : (y s 1 * Real.cos (y s 2) - y s 0 * Real.sin (y s 2) * y s 3) * Real.cos (y s 2)
        + (y s 1 * Real.sin (y s 2) + y s 0 * Real.cos (y s 2) * y s 3) * Real.sin (y s 2) = y s 1 := by
      linear_combination y s 1 * hcs
    have e2 : -(y s 1 * Real.cos (y s 2) - y s 0 * Real.sin (y s 2) * y s 3) * Real.sin (y s 2)
        + (y s 1 * Real.sin (y s 2) + y s 0 * Real.cos (y s 2) * y s 3) * Real.cos (y s 2) = y s 0 * y s 3 := by
      linear_combination y s 0 * y s 3 * hcs
    simp only [Matrix.cons_val_zero, Matrix.cons_val_one, Matrix.cons_val, e1, e2]
    rw [hasDerivAt_pi]
    intro i
    fin_cases i
    · refine (((h 1).mul hcos).sub (((h 0).mul hsin).mul (h 3))).congr_deriv ?_
      simp [EOM.full]
      field_simp
      ring
    · refine (((h 1).mul hsin).add (((h 0).mul hcos).mul (h 3))).congr_deriv ?_
      simp [EOM.full]
      field_simp
      ring
    · exact (h 5).congr_deriv (by simp [EOM.full])

/-- Every solution of Newton's equation with the rectangular force that stays off the axis, followed
with any differentiable azimuth, solves the cylindrical equations. -/
theorem C20_to_cylindrical {F : Force} (hF : F.Periodic) {x v : ℝ → Fin 3 → ℝ} {I : Set ℝ}
    (hx : Newton (EOM.rectForceV F) x v I) {R φ : ℝ → ℝ} (hR : ∀ s ∈ I, 0 < R s)
    (hI : IsOpen I) (hφ : ∀ s ∈ I, DifferentiableAt ℝ φ s) (hRd : ∀ s ∈ I, DifferentiableAt ℝ R s)
    (e0 : ∀ s ∈ I, x s 0 = R s * Real.cos (φ s)) (e1 : ∀ s ∈ I, x s 1 = R s * Real.sin (φ s)) :
    Solves (EOM.full F) (fun s => ![R s, (x s 0 * v s 0 + x s 1 * v s 1) / R s, φ s,
      (x s 0 * v s 1 - x s 1 * v s 0) / R s ^ 2, x s 2, v s 2]) I := by
  intro s hs
  have h0 := hR s hs
  have hx' := hasDerivAt_pi.1 (hx s hs).1
  have hv' := hasDerivAt_pi.1 (hx s hs).2
  have hcs := Real.cos_sq_add_sin_sq (φ s)
  obtain ⟨r', hr⟩ : ∃ r', HasDerivAt R r' s := ⟨_, (hRd s hs).hasDerivAt⟩
  obtain ⟨p', hp⟩ : ∃ p', HasDerivAt φ p' s := ⟨_, (hφ s hs).hasDerivAt⟩
  have k0 : v s 0 = r' * Real.cos (φ s) - R s * Real.sin (φ s) * p' := by
    have h1 := hr.mul hp.cos
    have h2 : HasDerivAt (fun u => R u * Real.cos (φ u)) (v s 0) s :=
      (hx' 0).congr_of_eventuallyEq
        (Filter.eventuallyEq_of_mem (hI.mem_nhds hs) fun u hu => (e0 u hu).symm)
    have := h2.unique h1
    rw [this]
    ring
  have k1 : v s 1 = r' * Real.sin (φ s) + R s * Real.cos (φ s) * p' := by
    have h1 := hr.mul hp.sin
    have h2 : HasDerivAt (fun u => R u * Real.sin (φ u)) (v s 1) s :=
      (hx' 1).congr_of_eventuallyEq
        (Filter.eventuallyEq_of_mem (hI.mem_nhds hs) fun u hu => (e1 u hu).symm)
    have := h2.unique h1
    rw [this]
    ring
  have ex : x s = ![R s * Real.cos (φ s), R s * Real.sin (φ s), x s 2] := by
    funext i
    fin_cases i
    · exact e0 s hs
    · exact e1 s hs
    · rfl
  have hr' : (x s 0 * v s 0 + x s 1 * v s 1) / R s = r' := by
    rw [e0 s hs, e1 s hs, k0, k1]
    field_simp
    linear_combination r' * hcs
  have hp' : (x s 0 * v s 1 - x s 1 * v s 0) / R s ^ 2 = p' := by
    rw [e0 s hs, e1 s hs, k0, k1]
    field_simp
    linear_combination R s * p' * hcs
  have w0 : v s 0 * Real.cos (φ s) + v s 1 * Real.sin (φ s) = r' := by
    rw [k0, k1]
    linear_combination r' * hcs
  have w1 : -v s 0 * Real.sin (φ s) + v s 1 * Real.cos (φ s) = R s * p' := by
    rw [k0, k1]
    linear_combination R s * p' * hcs
  have hforce := C20aux.rectForce_polar hF s (φ := φ s) (x s 2) (v s) h0
  rw [← ex] at hforce
  simp only [w0, w1] at hforce
  have f0 := congrFun hforce 0
  have f1 := congrFun hforce 1
  have f2 := congrFun hforce 2
  simp only [Matrix.cons_val_zero, Matrix.cons_val_one, Matrix.cons_val] at f0 f1 f2
  rw [hasDerivAt_pi]
  intro i
  fin_cases i
  · exact hr.congr_deriv (by simp [EOM.full, hr'])
  · refine ((((hx' 0).mul (hv' 0)).add ((hx' 1).mul (hv' 1))).div hr h0.ne').congr_deriv ?_
    simp [EOM.full, hr', hp']
    rw [f0, f1, e0 s hs, e1 s hs, k0, k1]
    field_simp
    linear_combination (R s * (F.R (R s) (x s 2) (φ s) s ![r', R s * p', v s 2]) + R s ^ 2 * p' ^ 2) * hcs
  · exact hp.congr_deriv (by simp [EOM.full, hp'])
  · refine ((((hx' 0).mul (hv' 1)).sub ((hx' 1).mul (hv' 0))).div (hr.pow 2) (pow_ne_zero 2 h0.ne')).congr_deriv ?_
    simp [EOM.full, hr', hp']
    rw [f0, f1, e0 s hs, e1 s hs, k0, k1]
    field_simp
    linear_combination (F.phi (R s) (x s 2) (φ s) s ![r', R s * p', v s 2] - 2 * R s * p' * r') * hcs
  · exact (hx' 2).congr_deriv (by simp [EOM.full])
  · exact (hv' 2).congr_deriv (by simp [EOM.full, hr', hp', f2])

/-! ## Concrete cases -/

/-- The triaxial logarithmic halo at a point off the axis: the force is minus the gradient. -/
example (i : Fin 3) : ∃ g, IsCart (LogarithmicHalo.pot (9 / 10) (1 / 10) (some (4 / 5))) 0 g ∧
    HasDerivAt (fun u => g (Function.update ![1, -1, 1] i u))
      (-(EOM.rectForce (LogarithmicHalo.pot (9 / 10) (1 / 10) (some (4 / 5))) 0 ![1, -1, 1] i))
      ((![1, -1, 1] : Fin 3 → ℝ) i) := by
  have hm : LogarithmicHalo.m1 (4 / 5) < 1 := LogarithmicHalo.m1_lt (by norm_num)
  have hD : ∀ φ : ℝ, (√((1 : ℝ) ^ 2 + (-1) ^ 2), (1 : ℝ), φ) ∈ {p : ℝ × ℝ × ℝ |
      0 < p.1 ^ 2 * (1 - LogarithmicHalo.m1 (4 / 5) * Real.sin p.2.2 ^ 2) + (p.2.1 / (9 / 10)) ^ 2 + 1 / 10
        ∧ p.1 ≠ 0} := by
    intro φ
    have h1 : 0 ≤ 1 - LogarithmicHalo.m1 (4 / 5) * Real.sin φ ^ 2 := by
      nlinarith [Real.sin_sq_le_one φ, sq_nonneg (Real.sin φ)]
    refine ⟨?_, by positivity⟩
    have h2 := mul_nonneg (sq_nonneg (√((1 : ℝ) ^ 2 + (-1) ^ 2))) h1
    simp only
    nlinarith [sq_nonneg ((1 : ℝ) / (9 / 10))]
  have hs := LogarithmicHalo.smoothOn_nonaxi (q := 9 / 10) (core2 := 1 / 10) (b := 4 / 5) (by norm_num)
  refine ⟨_, EOM.isCart_exists (LogarithmicHalo.periodic _ _ _).val 0, ?_⟩
  exact C20_gradient (EOM.isCart_exists (LogarithmicHalo.periodic _ _ _).val 0) ![1, -1, 1]
    (by norm_num) (hs.grad _ _ _ _ (hD _)) (hs.diff _ _ _ _ (hD _)) i

theorem C20aux.periodic_force {P : Pot} (h : Periodic P) : P.force.Periodic :=
  ⟨fun R z φ t _ => h.Rforce R z φ t, fun R z φ t _ => h.phitorque R z φ t,
    fun R z φ t _ => h.zforce R z φ t⟩

example : Newton (EOM.rectForceV Ellipse.P.force)
      (fun s => ![Ellipse.y s 0 * Real.cos (Ellipse.y s 2), Ellipse.y s 0 * Real.sin (Ellipse.y s 2),
        Ellipse.y s 4])
      (fun s => ![Ellipse.y s 1 * Real.cos (Ellipse.y s 2)
          - Ellipse.y s 0 * Real.sin (Ellipse.y s 2) * Ellipse.y s 3,
        Ellipse.y s 1 * Real.sin (Ellipse.y s 2) + Ellipse.y s 0 * Real.cos (Ellipse.y s 2) * Ellipse.y s 3,
        Ellipse.y s 5]) Set.univ :=
  C20_to_rectangular (C20aux.periodic_force Ellipse.periodic) Ellipse.solves
    fun s _ => by simp [Ellipse.y]

example : Solves (EOM.full Ellipse.P.force)
    (fun s => ![1, (Real.cos (Ellipse.w * s) * -(Ellipse.w * Real.sin (Ellipse.w * s))
        + Real.sin (Ellipse.w * s) * (Ellipse.w * Real.cos (Ellipse.w * s))) / 1, Ellipse.w * s,
      (Real.cos (Ellipse.w * s) * (Ellipse.w * Real.cos (Ellipse.w * s))
        - Real.sin (Ellipse.w * s) * -(Ellipse.w * Real.sin (Ellipse.w * s))) / 1 ^ 2,
      Real.sin (Ellipse.w * s), Ellipse.w * Real.cos (Ellipse.w * s)]) Set.univ := by
  refine C20_to_cylindrical (C20aux.periodic_force Ellipse.periodic)
    (x := fun s => ![Real.cos (Ellipse.w * s), Real.sin (Ellipse.w * s), Real.sin (Ellipse.w * s)])
    (v := fun s => ![-(Ellipse.w * Real.sin (Ellipse.w * s)), Ellipse.w * Real.cos (Ellipse.w * s),
      Ellipse.w * Real.cos (Ellipse.w * s)]) (R := fun _ => 1) (φ := fun s => Ellipse.w * s)
    ?_ (fun _ _ => one_pos) isOpen_univ (fun s _ => by fun_prop) (fun s _ => by fun_prop)
    (fun s _ => by simp) (fun s _ => by simp)
  have := C20_to_rectangular (C20aux.periodic_force Ellipse.periodic) Ellipse.solves
    (fun s _ => by simp [Ellipse.y])
  simp only [Ellipse.y, Matrix.cons_val_zero, Matrix.cons_val_one, Matrix.cons_val, one_mul, zero_mul,
    zero_sub, zero_add] at this
  simpa only [mul_comm Ellipse.w, neg_mul] using this

end Verif
