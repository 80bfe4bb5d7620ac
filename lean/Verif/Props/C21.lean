import Verif.Lemmas.EOM
import Verif.Lemmas.Ellipse
import Mathlib.LinearAlgebra.Matrix.Determinant.Basic
import Mathlib.Topology.Order.IntermediateValue
import Mathlib.Topology.Instances.Matrix
import Mathlib.LinearAlgebra.SymplecticGroup

set_option autoImplicit false

/-!
# C21: the deviation equations

The matrix in the deviation equations is the Jacobian of the force of the rectangular equations, it
is symmetric, and therefore the flow of the deviations is symplectic and preserves volume.
-/

open Filter Topology

namespace Verif

/-- Every entry of the matrix is the partial derivative of a component of the force. -/
theorem C21_jacobian {P : Pot} {D : Set (ℝ × ℝ × ℝ)} (hP : SmoothOn P D) (hper : Periodic P)
    (t : ℝ) (x : Fin 3 → ℝ) (h0 : 0 < x 0 ^ 2 + x 1 ^ 2) (hD : EOM.cylPoint x ∈ D) (i j : Fin 3) :
    HasDerivAt (fun a => EOM.rectForce P t (Function.update x j a) i) (EOM.tidal P t x i j) (x j) := by
  have hq := hasDerivAt_update x j (x j)
  have hx : Function.update x j (x j) = x := Function.update_eq_self j x
  have := EOM.rectForce_curve hP hper t hq (by rw [hx]; exact h0) (by rw [hx]; exact hD) i
  refine this.congr_deriv ?_
  rw [hx]
  fin_cases j <;> simp [Pi.single_apply]

/-- The matrix gives the derivative of the force along every differentiable curve. -/
theorem C21_along_curve {P : Pot} {D : Set (ℝ × ℝ × ℝ)} (hP : SmoothOn P D) (hper : Periodic P)
    (t : ℝ) {q : ℝ → Fin 3 → ℝ} {q' : Fin 3 → ℝ} {s : ℝ} (hq : HasDerivAt q q' s)
    (h0 : 0 < q s 0 ^ 2 + q s 1 ^ 2) (hD : EOM.cylPoint (q s) ∈ D) (i : Fin 3) :
    HasDerivAt (fun u => EOM.rectForce P t (q u) i) (∑ j, EOM.tidal P t (q s) i j * q' j) s :=
  (EOM.rectForce_curve hP hper t hq h0 hD i).congr_deriv (by rw [Fin.sum_univ_three])

/-- The matrix is symmetric. -/
theorem C21_symmetric (P : Pot) (t : ℝ) (x : Fin 3 → ℝ) (i j : Fin 3) :
    EOM.tidal P t x i j = EOM.tidal P t x j i := by
  fin_cases i <;> fin_cases j <;> rfl

/-- The planar force is the in-plane force. -/
theorem C21_planar_force (P : Pot) (t : ℝ) (x : Fin 2 → ℝ) (i : Fin 2) :
    EOM.planarRectForceV P.force t x 0 i = EOM.rectForce P t ![x 0, x 1, 0] i.castSucc := by
  fin_cases i <;> rfl

/-- The planar matrix is the in-plane block of the matrix of the full equations. -/
theorem C21_planar_block (P : Pot) (t : ℝ) (x : Fin 2 → ℝ) (i j : Fin 2) :
    EOM.planarTidal P t x i j = EOM.tidal P t ![x 0, x 1, 0] i.castSucc j.castSucc := by
  obtain rfl | rfl : i = 0 ∨ i = 1 := by fin_cases i <;> simp
  all_goals
    obtain rfl | rfl : j = 0 ∨ j = 1 := by fin_cases j <;> simp
  · rfl
  · rfl
  · simp only [EOM.planarTidal, EOM.tidal, Matrix.cons_val_zero, Matrix.cons_val_one,
      Fin.castSucc_zero, Fin.castSucc_one, Matrix.cons_val]
    ring
  · rfl

/-- The planar matrix is the Jacobian of the planar force. -/
theorem C21_planar_jacobian {P : Pot} {D : Set (ℝ × ℝ × ℝ)} (hP : SmoothOn P D) (hper : Periodic P)
    (t : ℝ) (x : Fin 2 → ℝ) (h0 : 0 < x 0 ^ 2 + x 1 ^ 2) (hD : EOM.cylPoint ![x 0, x 1, 0] ∈ D)
    (i j : Fin 2) :
    HasDerivAt (fun a => EOM.planarRectForceV P.force t (Function.update x j a) 0 i)
      (EOM.planarTidal P t x i j) (x j) := by
  rw [C21_planar_block]
  have := C21_jacobian hP hper t ![x 0, x 1, 0] h0 hD i.castSucc j.castSucc
  have hj : (![x 0, x 1, 0] : Fin 3 → ℝ) j.castSucc = x j := by fin_cases j <;> rfl
  rw [hj] at this
  refine this.congr_of_eventuallyEq (Filter.Eventually.of_forall fun a => ?_)
  simp only []
  rw [C21_planar_force]
  congr 1
  congr 1
  funext k
  fin_cases k <;> fin_cases j <;> simp [Function.update]

theorem C21_planar_symmetric (P : Pot) (t : ℝ) (x : Fin 2 → ℝ) (i j : Fin 2) :
    EOM.planarTidal P t x i j = EOM.planarTidal P t x j i := by
  rw [C21_planar_block, C21_planar_block, C21_symmetric]

/-- The symplectic product of two deviations. -/
def symp {n : ℕ} (d e : (Fin n → ℝ) × (Fin n → ℝ)) : ℝ := ∑ i, (d.1 i * e.2 i - e.1 i * d.2 i)

/-- Along one orbit the symplectic product of any two deviations followed by the equations is
constant. -/
theorem C21_symplectic (P : Pot) {x v d w e f : ℝ → Fin 3 → ℝ} {I : Set ℝ} (hI : Convex ℝ I)
    (h1 : Solves (EOM.dxdv P) (fun s => (x s, v s, d s, w s)) I)
    (h2 : Solves (EOM.dxdv P) (fun s => (x s, v s, e s, f s)) I) :
    ∀ s ∈ I, ∀ u ∈ I, symp (d s, w s) (e s, f s) = symp (d u, w u) (e u, f u) := by
  apply const_of_hasDerivAt_zero hI
  intro s hs
  have a1 := h1 s hs
  have a2 := h2 s hs
  have hd := hasDerivAt_pi.1 a1.snd.snd.fst
  have hw := hasDerivAt_pi.1 a1.snd.snd.snd
  have he := hasDerivAt_pi.1 a2.snd.snd.fst
  have hf := hasDerivAt_pi.1 a2.snd.snd.snd
  have := HasDerivAt.fun_sum (u := (Finset.univ : Finset (Fin 3)))
    fun i _ => hd_sub (hd_mul (hd i) (hf i)) (hd_mul (he i) (hw i))
  refine this.congr_deriv ?_
  have s01 := C21_symmetric P s (x s) 0 1
  have s02 := C21_symmetric P s (x s) 0 2
  have s12 := C21_symmetric P s (x s) 1 2
  simp only [EOM.dxdv, Fin.sum_univ_three, s01, s02, s12]
  ring

/-- The same for the planar equations. -/
theorem C21_planar_symplectic (P : Pot) {x v d w e f : ℝ → Fin 2 → ℝ} {I : Set ℝ} (hI : Convex ℝ I)
    (h1 : Solves (EOM.planarDxdv P) (fun s => (x s, v s, d s, w s)) I)
    (h2 : Solves (EOM.planarDxdv P) (fun s => (x s, v s, e s, f s)) I) :
    ∀ s ∈ I, ∀ u ∈ I, symp (d s, w s) (e s, f s) = symp (d u, w u) (e u, f u) := by
  apply const_of_hasDerivAt_zero hI
  intro s hs
  have a1 := h1 s hs
  have a2 := h2 s hs
  have hd := hasDerivAt_pi.1 a1.snd.snd.fst
  have hw := hasDerivAt_pi.1 a1.snd.snd.snd
  have he := hasDerivAt_pi.1 a2.snd.snd.fst
  have hf := hasDerivAt_pi.1 a2.snd.snd.snd
  have := HasDerivAt.fun_sum (u := (Finset.univ : Finset (Fin 2)))
    fun i _ => hd_sub (hd_mul (hd i) (hf i)) (hd_mul (he i) (hw i))
  refine this.congr_deriv ?_
  have s01 := C21_planar_symmetric P s (x s) 0 1
  simp only [EOM.planarDxdv, Fin.sum_univ_two, s01]
  ring

/-- Position and velocity deviations as the columns of one matrix. -/
def deviations {n : ℕ} (d w : Fin n ⊕ Fin n → Fin n → ℝ) : Matrix (Fin n ⊕ Fin n) (Fin n ⊕ Fin n) ℝ :=
  Matrix.of fun r k => Sum.elim (d k) (w k) r

theorem C21aux.gram {n : ℕ} (d w : Fin n ⊕ Fin n → Fin n → ℝ) :
    (deviations d w).transpose * Matrix.J (Fin n) ℝ * deviations d w =
      Matrix.of fun k l => -symp (d k, w k) (d l, w l) := by
  ext k l
  simp only [deviations, Matrix.mul_apply, Matrix.J, Matrix.fromBlocks, Matrix.transpose_apply,
    Matrix.of_apply, Fintype.sum_sum_type, Sum.elim_inl, Sum.elim_inr, Matrix.zero_apply,
    Matrix.neg_apply, Matrix.one_apply, symp]
  simp [← Finset.sum_sub_distrib, ← Finset.sum_neg_distrib, ← Finset.sum_add_distrib]
  refine Finset.sum_congr rfl fun i _ => ?_
  have : (∑ x, -if x = i then d k x else 0) = -d k i := by
    rw [Finset.sum_neg_distrib, Finset.sum_ite_eq' Finset.univ i]
    simp
  rw [this]
  ring

theorem C21aux.volume {n : ℕ} {d w : Fin n ⊕ Fin n → ℝ → Fin n → ℝ} {I : Set ℝ} (hI : Convex ℝ I)
    (hd : ∀ k, ContinuousOn (d k) I) (hw : ∀ k, ContinuousOn (w k) I)
    (h : ∀ k l, ∀ s ∈ I, ∀ u ∈ I, symp (d k s, w k s) (d l s, w l s) = symp (d k u, w k u) (d l u, w l u)) :
    ∀ s ∈ I, ∀ u ∈ I, (deviations (fun k => d k s) (fun k => w k s)).det =
      (deviations (fun k => d k u) (fun k => w k u)).det := by
  intro s hs u hu
  set f : ℝ → ℝ := fun a => (deviations (fun k => d k a) (fun k => w k a)).det with hf
  have hsq : ∀ a ∈ I, ∀ b ∈ I, f a ^ 2 = f b ^ 2 := by
    intro a ha b hb
    have hg : ∀ c, f c ^ 2 * (Matrix.J (Fin n) ℝ).det =
        (Matrix.of fun k l => -symp (d k c, w k c) (d l c, w l c)).det := by
      intro c
      rw [← C21aux.gram, Matrix.det_mul, Matrix.det_mul, Matrix.det_transpose]
      ring
    have hJ : (Matrix.J (Fin n) ℝ).det ≠ 0 := by
      intro h0
      have := Matrix.J_det_mul_J_det (Fin n) ℝ
      rw [h0] at this
      simp at this
    have heq : (Matrix.of fun k l => -symp (d k a, w k a) (d l a, w l a)) =
        (Matrix.of fun k l => -symp (d k b, w k b) (d l b, w l b)) := by
      ext k l
      simp only [Matrix.of_apply]
      rw [h k l a ha b hb]
    have := (hg a).trans ((congrArg Matrix.det heq).trans (hg b).symm)
    exact mul_right_cancel₀ hJ this
  have hcont : ContinuousOn f I := by
    rw [continuousOn_iff_continuous_restrict]
    apply Continuous.matrix_det
    refine continuous_matrix fun r k => ?_
    rcases r with i | i
    · exact (continuous_apply i).comp (continuousOn_iff_continuous_restrict.1 (hd k))
    · exact (continuous_apply i).comp (continuousOn_iff_continuous_restrict.1 (hw k))
  change f s = f u
  by_contra hne
  have hneg : f s = -f u := (sq_eq_sq_iff_eq_or_eq_neg.1 (hsq s hs u hu)).resolve_left hne
  have hu0 : f u ≠ 0 := by
    intro h0
    rw [h0, neg_zero] at hneg
    exact hne (by rw [hneg, h0])
  have hz : ∃ a ∈ I, f a = 0 := by
    rcases lt_or_gt_of_ne hu0 with hlt | hgt
    · exact hI.isPreconnected.intermediate_value hu hs hcont ⟨hlt.le, by linarith⟩
    · exact hI.isPreconnected.intermediate_value hs hu hcont ⟨by linarith, hgt.le⟩
  obtain ⟨a, ha, h0⟩ := hz
  have := hsq a ha u hu
  rw [h0] at this
  exact hu0 (by simpa using this.symm)

/-- Volume of phase space is preserved: for any six deviations followed along one orbit, the
determinant of the matrix they form does not change. -/
theorem C21_volume (P : Pot) {x v : ℝ → Fin 3 → ℝ} {d w : Fin 3 ⊕ Fin 3 → ℝ → Fin 3 → ℝ} {I : Set ℝ}
    (hI : Convex ℝ I) (h : ∀ k, Solves (EOM.dxdv P) (fun s => (x s, v s, d k s, w k s)) I) :
    ∀ s ∈ I, ∀ u ∈ I, (deviations (fun k => d k s) (fun k => w k s)).det =
      (deviations (fun k => d k u) (fun k => w k u)).det :=
  C21aux.volume hI (fun k s hs => (h k s hs).continuousAt.snd.snd.fst.continuousWithinAt)
    (fun k s hs => (h k s hs).continuousAt.snd.snd.snd.continuousWithinAt)
    fun k l => C21_symplectic P hI (h k) (h l)

/-- The same for the planar equations and four deviations. -/
theorem C21_planar_volume (P : Pot) {x v : ℝ → Fin 2 → ℝ} {d w : Fin 2 ⊕ Fin 2 → ℝ → Fin 2 → ℝ}
    {I : Set ℝ} (hI : Convex ℝ I)
    (h : ∀ k, Solves (EOM.planarDxdv P) (fun s => (x s, v s, d k s, w k s)) I) :
    ∀ s ∈ I, ∀ u ∈ I, (deviations (fun k => d k s) (fun k => w k s)).det =
      (deviations (fun k => d k u) (fun k => w k u)).det :=
  C21aux.volume hI (fun k s hs => (h k s hs).continuousAt.snd.snd.fst.continuousWithinAt)
    (fun k s hs => (h k s hs).continuousAt.snd.snd.snd.continuousWithinAt)
    fun k l => C21_planar_symplectic P hI (h k) (h l)

/-- One dimension: the deviation equation uses the derivative of the force, and areas are
preserved. -/
theorem C21_linear {V f f2 : ℝ → ℝ → ℝ} {I : Set ℝ} (hI : Convex ℝ I) {y e : ℝ → Fin 4 → ℝ}
    (hf : ∀ x t, HasDerivAt (fun x => V x t) (-f x t) x)
    (hf2 : ∀ x t, HasDerivAt (deriv fun x => V x t) (f2 x t) x)
    (hy : Solves (EOM.linearDxdv f f2) y I) (he : Solves (EOM.linearDxdv f f2) e I)
    (hsame : ∀ s ∈ I, e s 0 = y s 0) :
    (∀ s ∈ I, ∃ k, HasDerivAt (fun x => f x s) k (y s 0) ∧
      HasDerivAt (fun u => y u 3) (k * y s 2) s) ∧
    ∀ s ∈ I, ∀ u ∈ I, y s 2 * e s 3 - e s 2 * y s 3 = y u 2 * e u 3 - e u 2 * y u 3 := by
  constructor
  · intro s hs
    refine ⟨-f2 (y s 0) s, ?_, ?_⟩
    · have hd : (deriv fun x => V x s) = fun x => -f x s := funext fun x => (hf x s).deriv
      have := (hf2 (y s 0) s)
      rw [hd] at this
      exact (hd_neg this).congr_of_eventuallyEq (Eventually.of_forall fun x => (neg_neg (f x s)).symm)
    · exact (hasDerivAt_pi.1 (hy s hs) 3).congr_deriv (by simp [EOM.linearDxdv])
  · apply const_of_hasDerivAt_zero hI
    intro s hs
    have a := hasDerivAt_pi.1 (hy s hs)
    have b := hasDerivAt_pi.1 (he s hs)
    refine (hd_sub (hd_mul (a 2) (b 3)) (hd_mul (b 2) (a 3))).congr_deriv ?_
    simp [EOM.linearDxdv, hsame s hs]
    ring

/-! ## Concrete cases -/

example (i j : Fin 3) : HasDerivAt
    (fun a => EOM.rectForce (MiyamotoNagai.pot true 1 2) 0 (Function.update ![1, -1, 1] j a) i)
    (EOM.tidal (MiyamotoNagai.pot true 1 2) 0 ![1, -1, 1] i j) ((![1, -1, 1] : Fin 3 → ℝ) j) :=
  C21_jacobian (MiyamotoNagai.smoothOn true 1 2) (periodic_axi _ _ _ _ _ _ _) 0 ![1, -1, 1]
    (by norm_num) (by
      simp only [EOM.cylPoint, Set.mem_setOf_eq]
      exact ⟨by positivity, by positivity⟩) i j

example (i j : Fin 2) : HasDerivAt
    (fun a => EOM.planarRectForceV (MiyamotoNagai.pot true 1 2).force 0 (Function.update ![1, -1] j a) 0 i)
    (EOM.planarTidal (MiyamotoNagai.pot true 1 2) 0 ![1, -1] i j) ((![1, -1] : Fin 2 → ℝ) j) :=
  C21_planar_jacobian (MiyamotoNagai.smoothOn true 1 2) (periodic_axi _ _ _ _ _ _ _) 0 ![1, -1]
    (by norm_num) (by
      simp only [EOM.cylPoint, Set.mem_setOf_eq]
      exact ⟨by positivity, by positivity⟩) i j

/-- Inside a homogeneous sphere the matrix is `-2` times the identity. -/
theorem C21aux.tidal_sphere (t s : ℝ) (i j : Fin 3) :
    EOM.tidal Ellipse.P t (Ellipse.x s) i j = if i = j then -2 else 0 := by
  have h := (Real.sqrt_pos.2 (Ellipse.pos s)).ne'
  have hsq := Real.sq_sqrt (Ellipse.pos s).le
  have hD := Ellipse.mem_D s (EOM.azimuth (Ellipse.x s 0) (Ellipse.x s 1))
  have hD' : √(Ellipse.x s 0 ^ 2 + Ellipse.x s 1 ^ 2) ^ 2 + Ellipse.x s 2 ^ 2 < 10 ^ 2 := hD
  have h1 : ∀ φ, Ellipse.P.R2deriv (√(Ellipse.x s 0 ^ 2 + Ellipse.x s 1 ^ 2)) (Ellipse.x s 2) φ t = 2 := by
    intro φ
    simp only [Ellipse.P, HomogeneousSphere.pot, Pot.axi, HomogeneousSphere.R2deriv]
    rw [if_pos hD']
  have h2 : ∀ φ, Ellipse.P.z2deriv (√(Ellipse.x s 0 ^ 2 + Ellipse.x s 1 ^ 2)) (Ellipse.x s 2) φ t = 2 := by
    intro φ
    simp only [Ellipse.P, HomogeneousSphere.pot, Pot.axi, HomogeneousSphere.z2deriv]
    rw [if_pos hD']
  have h3 : ∀ φ, Ellipse.P.Rzderiv (√(Ellipse.x s 0 ^ 2 + Ellipse.x s 1 ^ 2)) (Ellipse.x s 2) φ t = 0 := by
    intro φ
    simp only [Ellipse.P, HomogeneousSphere.pot, Pot.axi, HomogeneousSphere.Rzderiv]
    rw [if_pos hD']
  have p0 : ∀ R z φ t, Ellipse.P.phitorque R z φ t = 0 := fun _ _ _ _ => rfl
  have p1 : ∀ R z φ t, Ellipse.P.phi2deriv R z φ t = 0 := fun _ _ _ _ => rfl
  have p2 : ∀ R z φ t, Ellipse.P.Rphideriv R z φ t = 0 := fun _ _ _ _ => rfl
  have p3 : ∀ R z φ t, Ellipse.P.phizderiv R z φ t = 0 := fun _ _ _ _ => rfl
  obtain rfl | rfl | rfl : i = 0 ∨ i = 1 ∨ i = 2 := by fin_cases i <;> simp
  all_goals
    obtain rfl | rfl | rfl : j = 0 ∨ j = 1 ∨ j = 2 := by fin_cases j <;> simp
    all_goals
      simp only [EOM.tidal, Matrix.cons_val_zero, Matrix.cons_val_one, Matrix.cons_val, h1, h2, h3,
        p0, p1, p2, p3, Ellipse.Rforce_in hD]
      generalize √(Ellipse.x s 0 ^ 2 + Ellipse.x s 1 ^ 2) = R at *
      simp
      try field_simp
      try rw [hsq]
      try ring

/-- Two deviations followed along the ellipse; their product is not zero. -/
example : ∀ s : ℝ, symp (Ellipse.x s, Ellipse.v s)
      (![0, 0, Real.cos (Ellipse.w * s)], ![0, 0, -(Ellipse.w * Real.sin (Ellipse.w * s))]) =
    -(3 * Ellipse.w) := by
  have h1 : Solves (EOM.dxdv Ellipse.P)
      (fun s => (Ellipse.x s, Ellipse.v s, Ellipse.x s, Ellipse.v s)) Set.univ := by
    intro s hs
    obtain ⟨a, b⟩ := Ellipse.newton s hs
    refine a.prodMk (b.prodMk (a.prodMk ((Ellipse.hasDerivAt_v s).congr_deriv ?_)))
    funext i
    simp only [C21aux.tidal_sphere]
    fin_cases i <;> simp
  have h2 : Solves (EOM.dxdv Ellipse.P)
      (fun s => (Ellipse.x s, Ellipse.v s, ![0, 0, Real.cos (Ellipse.w * s)],
        ![0, 0, -(Ellipse.w * Real.sin (Ellipse.w * s))])) Set.univ := by
    intro s hs
    obtain ⟨a, b⟩ := Ellipse.newton s hs
    refine a.prodMk (b.prodMk (HasDerivAt.prodMk ?_ ?_))
    · rw [hasDerivAt_pi]
      intro i
      fin_cases i
      · exact hasDerivAt_const s 0
      · exact hasDerivAt_const s 0
      · exact Ellipse.dcos s
    · rw [hasDerivAt_pi]
      intro i
      simp only [C21aux.tidal_sphere]
      fin_cases i
      · exact (hasDerivAt_const s (0 : ℝ)).congr_deriv (by simp)
      · exact (hasDerivAt_const s (0 : ℝ)).congr_deriv (by simp)
      · exact ((Ellipse.dsin s).const_mul Ellipse.w).neg.congr_deriv (by simp [← Ellipse.w_sq]; ring)
  intro s
  rw [C21_symplectic Ellipse.P convex_univ h1 h2 s trivial 0 trivial]
  simp [symp, Fin.sum_univ_three, Ellipse.x, Ellipse.v]

/-- Six independent deviations: the determinant stays 1. -/
example : ∀ s : ℝ, (deviations
      (fun k : Fin 3 ⊕ Fin 3 => Sum.elim
        (fun i => (Pi.single i (Real.cos (Ellipse.w * s)) : Fin 3 → ℝ))
        (fun i => Pi.single i (Real.sin (Ellipse.w * s))) k)
      (fun k : Fin 3 ⊕ Fin 3 => Sum.elim
        (fun i => (Pi.single i (-(Ellipse.w * Real.sin (Ellipse.w * s))) : Fin 3 → ℝ))
        (fun i => Pi.single i (Ellipse.w * Real.cos (Ellipse.w * s))) k)).det = Ellipse.w ^ 3 := by
  intro s
  have key := C21_volume Ellipse.P (x := Ellipse.x) (v := Ellipse.v)
    (d := fun k : Fin 3 ⊕ Fin 3 => fun s => Sum.elim
        (fun i => (Pi.single i (Real.cos (Ellipse.w * s)) : Fin 3 → ℝ))
        (fun i => Pi.single i (Real.sin (Ellipse.w * s))) k)
    (w := fun k : Fin 3 ⊕ Fin 3 => fun s => Sum.elim
        (fun i => (Pi.single i (-(Ellipse.w * Real.sin (Ellipse.w * s))) : Fin 3 → ℝ))
        (fun i => Pi.single i (Ellipse.w * Real.cos (Ellipse.w * s))) k) convex_univ ?_ s trivial 0 trivial
  · rw [key]
    have hblk : (deviations
        (fun k : Fin 3 ⊕ Fin 3 => Sum.elim
          (fun i => (Pi.single i (Real.cos (Ellipse.w * 0)) : Fin 3 → ℝ))
          (fun i => Pi.single i (Real.sin (Ellipse.w * 0))) k)
        (fun k : Fin 3 ⊕ Fin 3 => Sum.elim
          (fun i => (Pi.single i (-(Ellipse.w * Real.sin (Ellipse.w * 0))) : Fin 3 → ℝ))
          (fun i => Pi.single i (Ellipse.w * Real.cos (Ellipse.w * 0))) k)) =
        Matrix.fromBlocks 1 0 0 (Ellipse.w • (1 : Matrix (Fin 3) (Fin 3) ℝ)) := by
      ext r k
      rcases r with r | r <;> rcases k with k | k <;>
        simp [deviations, Matrix.one_apply, Pi.single_apply, eq_comm]
    rw [hblk, Matrix.det_fromBlocks_zero₂₁]
    simp
  · have single : ∀ (i : Fin 3) {f : ℝ → ℝ} {f' s : ℝ}, HasDerivAt f f' s →
        HasDerivAt (fun s => (Pi.single i (f s) : Fin 3 → ℝ)) (Pi.single i f') s := by
      intro i f f' s h
      rw [hasDerivAt_pi]
      intro j
      by_cases hj : j = i
      · subst hj
        simpa using h
      · simpa [Pi.single_apply, hj] using hasDerivAt_const s (0 : ℝ)
    have mat : ∀ (s : ℝ) (i : Fin 3) (a : ℝ),
        (fun j => EOM.tidal Ellipse.P s (Ellipse.x s) j 0 * (Pi.single i a : Fin 3 → ℝ) 0
          + EOM.tidal Ellipse.P s (Ellipse.x s) j 1 * (Pi.single i a : Fin 3 → ℝ) 1
          + EOM.tidal Ellipse.P s (Ellipse.x s) j 2 * (Pi.single i a : Fin 3 → ℝ) 2) =
        Pi.single i (-2 * a) := by
      intro s i a
      funext j
      simp only [C21aux.tidal_sphere]
      fin_cases i <;> fin_cases j <;> simp
    intro k s hs
    obtain ⟨a, b⟩ := Ellipse.newton s hs
    rcases k with i | i
    · refine a.prodMk (b.prodMk ((single i (Ellipse.dcos s)).prodMk ?_))
      refine (single i ((Ellipse.dsin s).const_mul Ellipse.w).neg).congr_deriv ?_
      refine Eq.trans ?_ (mat s i (Real.cos (Ellipse.w * s))).symm
      rw [← mul_assoc, Ellipse.w_sq, neg_mul]
    · refine a.prodMk (b.prodMk ((single i (Ellipse.dsin s)).prodMk ?_))
      refine (single i ((Ellipse.dcos s).const_mul Ellipse.w)).congr_deriv ?_
      refine Eq.trans ?_ (mat s i (Real.sin (Ellipse.w * s))).symm
      rw [mul_neg, ← mul_assoc, Ellipse.w_sq, neg_mul]

example : ∀ s : ℝ,
    Real.sin (Ellipse.w * s) * -(Ellipse.w * Real.sin (Ellipse.w * s))
      - Real.cos (Ellipse.w * s) * (Ellipse.w * Real.cos (Ellipse.w * s)) = -Ellipse.w := by
  intro s
  have key := (C21_linear (V := fun x _ => x ^ 2) (f := fun x _ => -2 * x) (f2 := fun _ _ => 2)
    (I := Set.univ) convex_univ
    (y := fun s => ![Real.sin (Ellipse.w * s), Ellipse.w * Real.cos (Ellipse.w * s),
      Real.sin (Ellipse.w * s), Ellipse.w * Real.cos (Ellipse.w * s)])
    (e := fun s => ![Real.sin (Ellipse.w * s), Ellipse.w * Real.cos (Ellipse.w * s),
      Real.cos (Ellipse.w * s), -(Ellipse.w * Real.sin (Ellipse.w * s))])
    ?_ ?_ ?_ ?_ (fun _ _ => rfl)).2 s trivial 0 trivial
  · simpa using key
  · exact fun x _ => (hasDerivAt_pow 2 x).congr_deriv (by simp)
  · intro x t
    have : (deriv fun x : ℝ => x ^ 2) = fun x => 2 * x := by funext x; simp
    simp only [this]
    exact ((hasDerivAt_id x).const_mul 2).congr_deriv (by simp)
  · intro s _
    rw [hasDerivAt_pi]
    intro i
    fin_cases i
    · exact (Ellipse.dsin s).congr_deriv (by simp [EOM.linearDxdv])
    · exact ((Ellipse.dcos s).const_mul _).congr_deriv (by simp [EOM.linearDxdv, ← Ellipse.w_sq]; ring)
    · exact (Ellipse.dsin s).congr_deriv (by simp [EOM.linearDxdv])
    · exact ((Ellipse.dcos s).const_mul _).congr_deriv (by simp [EOM.linearDxdv, ← Ellipse.w_sq]; ring)
  · intro s _
    rw [hasDerivAt_pi]
    intro i
    fin_cases i
    · exact (Ellipse.dsin s).congr_deriv (by simp [EOM.linearDxdv])
    · exact ((Ellipse.dcos s).const_mul _).congr_deriv (by simp [EOM.linearDxdv, ← Ellipse.w_sq]; ring)
    · exact (Ellipse.dcos s).congr_deriv (by simp [EOM.linearDxdv])
    · exact ((Ellipse.dsin s).const_mul _).neg.congr_deriv (by simp [EOM.linearDxdv, ← Ellipse.w_sq]; ring)

end Verif
