import Verif.Model.Pot.OblateStaeckel
import Verif.Props.C78Delta

set_option autoImplicit false

/-!
# C95: potentials made into Staeckel potentials

`OblateStaeckelWrapperPotential` gives a Staeckel potential that agrees with the wrapped one in the plane and on the spheroid of the
reference value, and is the wrapped one if that is a Staeckel potential already.  Its forces and second derivatives are
the derivatives up to the `1e-12` that is added to a hyperbolic tangent.
-/

noncomputable section
namespace Verif
open Real Set OblateStaeckel Filter Topology
open IsochroneAA (Point)
open C78Spec (uOf vOf)

/-- The wrapped potential at time 0 has the given forces, where it is used: off the axis, and on it too if the reference value is nought. -/
structure C95Spec.Smooth (o : Obj) : Prop where
  delta : 0 < o.delta
  u0 : 0 ≤ o.u0
  grad : ∀ R z, 0 ≤ R → (o.u0 = 0 ∨ 0 < R) → HasFDerivAt (fun q : ℝ × ℝ => (o.pot 0).phi q.1 q.2)
    (-(o.pot 0).rforce R z • ContinuousLinearMap.fst ℝ ℝ ℝ + -(o.pot 0).zforce R z • ContinuousLinearMap.snd ℝ ℝ ℝ) (R, z)

/-- It also has the given second derivatives. -/
structure C95Spec.Smooth2 (o : Obj) : Prop extends C95Spec.Smooth o where
  gradR : ∀ R z, 0 ≤ R → (o.u0 = 0 ∨ 0 < R) → HasFDerivAt (fun q : ℝ × ℝ => (o.pot 0).rforce q.1 q.2)
    (-(o.pot 0).r2deriv R z • ContinuousLinearMap.fst ℝ ℝ ℝ + -(o.pot 0).rzderiv R z • ContinuousLinearMap.snd ℝ ℝ ℝ) (R, z)
  gradZ : ∀ R z, 0 ≤ R → (o.u0 = 0 ∨ 0 < R) → HasFDerivAt (fun q : ℝ × ℝ => (o.pot 0).zforce q.1 q.2)
    (-(o.pot 0).rzderiv R z • ContinuousLinearMap.fst ℝ ℝ ℝ + -(o.pot 0).z2deriv R z • ContinuousLinearMap.snd ℝ ℝ ℝ) (R, z)

/-- The same object with another constant in place of `1e-12`. -/
def C95Spec.withEps (o : Obj) (e : ℝ) : Obj := { o with eps := e }

namespace C95aux
variable {o : Obj}

/-- The coordinates of `(R, z)`. -/
def uu (δ R z : ℝ) : ℝ := (Coords.Rz_to_uv R z δ false).1
def vv (δ R z : ℝ) : ℝ := (Coords.Rz_to_uv R z δ false).2

theorem uu_eq (δ R z : ℝ) : uu δ R z = uOf δ ⟨R, 0, 0, z, 0, 0⟩ := C78aux.uOf_eq δ ⟨R, 0, 0, z, 0, 0⟩
theorem vv_eq (δ R z : ℝ) : vv δ R z = vOf δ ⟨R, 0, 0, z, 0, 0⟩ := C78aux.vOf_eq δ ⟨R, 0, 0, z, 0, 0⟩

theorem spec {δ R : ℝ} (hδ : 0 < δ) (hR : 0 < R) (z : ℝ) : R = δ * sinh (uu δ R z) * sin (vv δ R z) ∧ z = δ * cosh (uu δ R z) * cos (vv δ R z)
    ∧ 0 < uu δ R z ∧ 0 < vv δ R z ∧ vv δ R z < π := by
  rw [uu_eq, vv_eq]
  exact C78aux.uv_spec hδ ⟨R, 0, 0, z, 0, 0⟩ hR

theorem of_uv {δ u v : ℝ} (hδ : 0 < δ) (hu : 0 ≤ u) (hv : 0 ≤ v) (hv' : v ≤ π) :
    uu δ (δ * sinh u * sin v) (δ * cosh u * cos v) = u ∧ vv δ (δ * sinh u * sin v) (δ * cosh u * cos v) = v := by
  have h := (C30_prolate_round_trip_uv u v δ hδ hu hv hv').1
  simp only [Coords.uv_to_Rz, Bool.false_eq_true, if_false] at h
  exact ⟨congrArg Prod.fst h, congrArg Prod.snd h⟩

theorem uv_fd {δ R : ℝ} (hδ : 0 < δ) (hR : 0 < R) (z : ℝ) :
    HasFDerivAt (fun q : ℝ × ℝ => uu δ q.1 q.2)
      ((cosh (uu δ R z) * sin (vv δ R z) / (δ * prefactor (uu δ R z) (vv δ R z))) • ContinuousLinearMap.fst ℝ ℝ ℝ
        + (sinh (uu δ R z) * cos (vv δ R z) / (δ * prefactor (uu δ R z) (vv δ R z))) • ContinuousLinearMap.snd ℝ ℝ ℝ) (R, z)
    ∧ HasFDerivAt (fun q : ℝ × ℝ => vv δ q.1 q.2)
      ((sinh (uu δ R z) * cos (vv δ R z) / (δ * prefactor (uu δ R z) (vv δ R z))) • ContinuousLinearMap.fst ℝ ℝ ℝ
        + -(cosh (uu δ R z) * sin (vv δ R z) / (δ * prefactor (uu δ R z) (vv δ R z))) • ContinuousLinearMap.snd ℝ ℝ ℝ) (R, z) := by
  obtain ⟨hR1, hz1, hu, hv, hv'⟩ := spec hδ hR z
  have h1 : DifferentiableAt ℝ (fun q : ℝ × ℝ => √((q.2 + δ) ^ 2 + q.1 ^ 2)) (R, z) :=
    DifferentiableAt.sqrt (by fun_prop) (by positivity)
  have h2 : DifferentiableAt ℝ (fun q : ℝ × ℝ => √((q.2 - δ) ^ 2 + q.1 ^ 2)) (R, z) :=
    DifferentiableAt.sqrt (by fun_prop) (by positivity)
  have e1 : ∀ q : ℝ × ℝ, uu δ q.1 q.2 = arcosh (0.5 / δ * (√((q.2 + δ) ^ 2 + q.1 ^ 2) + √((q.2 - δ) ^ 2 + q.1 ^ 2))) :=
    fun q => by simp [uu, Coords.Rz_to_uv, Coords.Rz_to_coshucosv]
  have e2 : ∀ q : ℝ × ℝ, vv δ q.1 q.2 = arccos (0.5 / δ * (√((q.2 + δ) ^ 2 + q.1 ^ 2) - √((q.2 - δ) ^ 2 + q.1 ^ 2))) :=
    fun q => by simp [vv, Coords.Rz_to_uv, Coords.Rz_to_coshucosv]
  obtain ⟨f1, f2, f3, -, -⟩ := C30aux.foci (x := z) (y := R) hδ
  have du : DifferentiableAt ℝ (fun q : ℝ × ℝ => uu δ q.1 q.2) (R, z) := by
    rw [funext e1]
    refine DifferentiableAt.comp (g := arcosh) (R, z) (differentiableAt_arcosh (lt_of_le_of_ne f1 fun e => ?_)) ((h1.add h2).const_mul _)
    have := e1 (R, z)
    simp only at this
    rw [this, ← e, arcosh_zero] at hu
    exact lt_irrefl _ hu
  have dv : DifferentiableAt ℝ (fun q : ℝ × ℝ => vv δ q.1 q.2) (R, z) := by
    have := e2 (R, z)
    simp only at this
    rw [funext e2]
    refine DifferentiableAt.comp (g := arccos) (R, z) (differentiableAt_arccos.2 ⟨fun e => ?_, fun e => ?_⟩) ((h1.sub h2).const_mul _)
    · rw [this, e, arccos_neg_one] at hv'; exact lt_irrefl _ hv'
    · rw [this, e, arccos_one] at hv; exact lt_irrefl _ hv
  have key : ∀ (x y : ℝ → ℝ) (x' y' : ℝ), HasDerivAt x x' 0 → HasDerivAt y y' 0 → x 0 = R → y 0 = z →
      HasDerivAt (fun s => uu δ (x s) (y s)) ((x' * cosh (uu δ R z) * sin (vv δ R z) + y' * sinh (uu δ R z) * cos (vv δ R z)) / (δ * prefactor (uu δ R z) (vv δ R z))) 0
      ∧ HasDerivAt (fun s => vv δ (x s) (y s)) ((x' * sinh (uu δ R z) * cos (vv δ R z) - y' * cosh (uu δ R z) * sin (vv δ R z)) / (δ * prefactor (uu δ R z) (vv δ R z))) 0 := by
    intro x y x' y' hx hy x0 y0
    have hxy : HasDerivAt (fun s => (x s, y s)) (x', y') 0 := hx.prodMk hy
    have du' : DifferentiableAt ℝ (fun s => uu δ (x s) (y s)) 0 :=
      DifferentiableAt.comp (f := fun s => (x s, y s)) (g := fun q : ℝ × ℝ => uu δ q.1 q.2) 0 (by simpa [x0, y0] using du) hxy.differentiableAt
    have dv' : DifferentiableAt ℝ (fun s => vv δ (x s) (y s)) 0 :=
      DifferentiableAt.comp (f := fun s => (x s, y s)) (g := fun q : ℝ × ℝ => vv δ q.1 q.2) 0 (by simpa [x0, y0] using dv) hxy.differentiableAt
    have d1 := du'.hasDerivAt
    have d2 := dv'.hasDerivAt
    set u' := deriv (fun s => uu δ (x s) (y s)) 0
    set v' := deriv (fun s => vv δ (x s) (y s)) 0
    have hev : ∀ᶠ s in 𝓝 (0 : ℝ), 0 < x s := hx.continuousAt.eventually (lt_mem_nhds (by rw [x0]; exact hR))
    have r1 := hd_const_mul δ (hd_mul (hd_sinh d1) (hd_sin d2))
    have r2 := hd_const_mul δ (hd_mul (hd_cosh d1) (hd_cos d2))
    have q1 := hx.unique (r1.congr_of_eventuallyEq (hev.mono fun s hs => by
      beta_reduce
      rw [← mul_assoc]; exact (spec hδ hs (y s)).1))
    have q2 := hy.unique (r2.congr_of_eventuallyEq (hev.mono fun s hs => by
      beta_reduce
      rw [← mul_assoc]; exact (spec hδ hs (y s)).2.1))
    have hm : 0 < prefactor (uu δ R z) (vv δ R z) := C78aux.metric_pos hu
    have hA := cosh_sq (uu δ R z)
    have hs := sin_sq_add_cos_sq (vv δ R z)
    simp only [x0, y0] at q1 q2
    rw [q1, q2]
    generalize uu δ R z = u at *
    generalize vv δ R z = v at *
    unfold prefactor at hm ⊢
    refine ⟨d1.congr_deriv ?_, d2.congr_deriv ?_⟩
    · field_simp
      linear_combination -(u' * sin v ^ 2) * hA - u' * sinh u ^ 2 * hs
    · field_simp
      linear_combination -(v' * sin v ^ 2) * hA - v' * sinh u ^ 2 * hs
  have kR := key (fun s => R + s) (fun _ => z) 1 0 ((hasDerivAt_id' 0).const_add R) (hasDerivAt_const 0 z) (by simp) rfl
  have kz := key (fun _ => R) (fun s => z + s) 0 1 (hasDerivAt_const 0 R) ((hasDerivAt_id' 0).const_add z) rfl (by simp)
  have sh : ∀ {f : ℝ → ℝ} {c d : ℝ}, HasDerivAt (fun s => f (c + s)) d 0 → HasDerivAt f d c := fun {f c d} h => by
    have h' : HasDerivAt (fun s => f (c + s)) d (-c + c) := by simpa using h
    have := HasDerivAt.comp_const_add (-c) c h'
    simpa using this
  refine ⟨C78aux.fderiv_of_partials du ((sh (f := fun x => uu δ x z) kR.1).congr_deriv (by ring)) ((sh (f := fun y => uu δ R y) kz.1).congr_deriv (by ring)),
    C78aux.fderiv_of_partials dv ((sh (f := fun x => vv δ x z) kR.2).congr_deriv (by ring)) ((sh (f := fun y => vv δ R y) kz.2).congr_deriv (by ring))⟩

/-! ### The two functions of one variable -/

theorem U_eq (o : Obj) (u : ℝ) : o.U u = cosh u ^ 2 * o.w.phi (o.delta * sinh u) 0 := by
  simp [Obj.U, Coords.uv_to_Rz]

theorem dU_eq (o : Obj) (u : ℝ) : o.dUdu u = 2 * cosh u * sinh u * o.w.phi (o.delta * sinh u) 0
    - cosh u ^ 2 * (o.w.rforce (o.delta * sinh u) 0 * (o.delta * sinh u) / (tanh u + o.eps)) := by
  simp [Obj.dUdu, Coords.uv_to_Rz]

theorem d2U_eq (o : Obj) (u : ℝ) : o.d2Udu2 u = 2 * cosh (2 * u) * o.w.phi (o.delta * sinh u) 0
    - 4 * cosh u * sinh u * (o.w.rforce (o.delta * sinh u) 0 * (o.delta * sinh u) / (tanh u + o.eps))
    - cosh u ^ 2 * (-o.w.r2deriv (o.delta * sinh u) 0 * (o.delta * sinh u) ^ 2 / (tanh u + o.eps) ^ 2
      + o.w.rforce (o.delta * sinh u) 0 * (o.delta * sinh u)) := by
  simp [Obj.d2Udu2, Coords.uv_to_Rz]

theorem dU0_eq (o : Obj) {u : ℝ} (hu : 0 < u) : (C95Spec.withEps o 0).dUdu u = 2 * cosh u * sinh u * o.w.phi (o.delta * sinh u) 0
    - cosh u ^ 3 * o.delta * o.w.rforce (o.delta * sinh u) 0 := by
  have h1 := sinh_pos_iff.2 hu
  have h2 := cosh_pos u
  rw [dU_eq]
  simp only [C95Spec.withEps, Obj.w, add_zero, tanh_eq_sinh_div_cosh]
  field_simp

theorem d2U0_eq (o : Obj) {u : ℝ} (hu : 0 < u) : (C95Spec.withEps o 0).d2Udu2 u = 2 * cosh (2 * u) * o.w.phi (o.delta * sinh u) 0
    - 5 * cosh u ^ 2 * sinh u * o.delta * o.w.rforce (o.delta * sinh u) 0 + cosh u ^ 4 * o.delta ^ 2 * o.w.r2deriv (o.delta * sinh u) 0 := by
  have h1 := sinh_pos_iff.2 hu
  have h2 := cosh_pos u
  rw [d2U_eq]
  simp only [C95Spec.withEps, Obj.w, add_zero, tanh_eq_sinh_div_cosh]
  field_simp
  ring

theorem plane_d (h : C95Spec.Smooth o) {u : ℝ} (hu : 0 < u) :
    HasDerivAt (fun u => o.w.phi (o.delta * sinh u) 0) (-o.w.rforce (o.delta * sinh u) 0 * (o.delta * cosh u)) u := by
  have hp : 0 < o.delta * sinh u := mul_pos h.delta (sinh_pos_iff.2 hu)
  have := (h.grad (o.delta * sinh u) 0 hp.le (.inr hp)).comp_hasDerivAt (f := fun u => (o.delta * sinh u, (0 : ℝ))) u
    (((hasDerivAt_sinh u).const_mul o.delta).prodMk (hasDerivAt_const u 0))
  refine this.congr_deriv ?_
  simp [Obj.w]

theorem plane_d2 (h : C95Spec.Smooth2 o) {u : ℝ} (hu : 0 < u) :
    HasDerivAt (fun u => o.w.rforce (o.delta * sinh u) 0) (-o.w.r2deriv (o.delta * sinh u) 0 * (o.delta * cosh u)) u := by
  have hp : 0 < o.delta * sinh u := mul_pos h.delta (sinh_pos_iff.2 hu)
  have := (h.gradR (o.delta * sinh u) 0 hp.le (.inr hp)).comp_hasDerivAt (f := fun u => (o.delta * sinh u, (0 : ℝ))) u
    (((hasDerivAt_sinh u).const_mul o.delta).prodMk (hasDerivAt_const u 0))
  refine this.congr_deriv ?_
  simp [Obj.w]

theorem U_d (h : C95Spec.Smooth o) {u : ℝ} (hu : 0 < u) : HasDerivAt o.U ((C95Spec.withEps o 0).dUdu u) u := by
  rw [funext (U_eq o), dU0_eq o hu]
  refine (hd_mul (hd_pow 2 (hasDerivAt_cosh u)) (plane_d h hu)).congr_deriv ?_
  norm_num
  ring

theorem dU_d (h : C95Spec.Smooth2 o) {u : ℝ} (hu : 0 < u) : HasDerivAt (C95Spec.withEps o 0).dUdu ((C95Spec.withEps o 0).d2Udu2 u) u := by
  rw [d2U0_eq o hu]
  have d := hd_sub (hd_mul (hd_mul (hd_const_mul 2 (hasDerivAt_cosh u)) (hasDerivAt_sinh u)) (plane_d h.toSmooth hu))
    (hd_mul (hd_mul (hd_pow 3 (hasDerivAt_cosh u)) (hd_const o.delta u)) (plane_d2 h hu))
  refine (d.congr_of_eventuallyEq ((lt_mem_nhds hu).mono fun x hx => dU0_eq o hx)).congr_deriv ?_
  rw [cosh_two_mul]
  norm_num
  ring

theorem V_eq (o : Obj) (v : ℝ) : o.V v = o.refpot
    - (sinh o.u0 ^ 2 + sin v ^ 2) * o.w.phi (o.delta * sinh o.u0 * sin v) (o.delta * cosh o.u0 * cos v) := by
  simp [Obj.V, Coords.uv_to_Rz, prefactor]

theorem cot {x v : ℝ} (hv : 0 < v) (hv' : v < π) : x * sin v / tan v = x * cos v := by
  have hs := sin_pos_of_pos_of_lt_pi hv hv'
  rw [tan_eq_sin_div_cos]
  rcases eq_or_ne (cos v) 0 with h | h
  · rw [h]; simp
  · field_simp

theorem ztan_eq (o : Obj) (v : ℝ) : o.ztan v = o.delta * cosh o.u0 * sin v := by
  unfold Obj.ztan
  split_ifs with h
  · rfl
  · simp only [Coords.uv_to_Rz, Bool.false_eq_true, if_false]
    rw [tan_eq_sin_div_cos]
    field_simp

theorem dV_eq (o : Obj) {v : ℝ} (hv : 0 < v) (hv' : v < π) : o.dVdv v
    = -2 * sin v * cos v * o.w.phi (o.delta * sinh o.u0 * sin v) (o.delta * cosh o.u0 * cos v)
      + (sinh o.u0 ^ 2 + sin v ^ 2) * (o.w.rforce (o.delta * sinh o.u0 * sin v) (o.delta * cosh o.u0 * cos v) * (o.delta * sinh o.u0 * cos v)
        - o.w.zforce (o.delta * sinh o.u0 * sin v) (o.delta * cosh o.u0 * cos v) * (o.delta * cosh o.u0 * sin v)) := by
  unfold Obj.dVdv
  simp only [Coords.uv_to_Rz, Bool.false_eq_true, if_false, prefactor, ztan_eq]
  rw [mul_div_assoc, cot hv hv']

theorem d2V_eq (o : Obj) {v : ℝ} (hv : 0 < v) (hv' : v < π) : o.d2Vdv2 v
    = -2 * cos (2 * v) * o.w.phi (o.delta * sinh o.u0 * sin v) (o.delta * cosh o.u0 * cos v)
      + 2 * sin (2 * v) * (o.w.rforce (o.delta * sinh o.u0 * sin v) (o.delta * cosh o.u0 * cos v) * (o.delta * sinh o.u0 * cos v)
        - o.w.zforce (o.delta * sinh o.u0 * sin v) (o.delta * cosh o.u0 * cos v) * (o.delta * cosh o.u0 * sin v))
      + (sinh o.u0 ^ 2 + sin v ^ 2) * (-o.w.r2deriv (o.delta * sinh o.u0 * sin v) (o.delta * cosh o.u0 * cos v) * (o.delta * sinh o.u0 * cos v) ^ 2
        + 2 * o.w.rzderiv (o.delta * sinh o.u0 * sin v) (o.delta * cosh o.u0 * cos v) * (o.delta * sinh o.u0 * sin v) * (o.delta * cosh o.u0 * cos v)
        - o.w.rforce (o.delta * sinh o.u0 * sin v) (o.delta * cosh o.u0 * cos v) * (o.delta * sinh o.u0 * sin v)
        - o.w.z2deriv (o.delta * sinh o.u0 * sin v) (o.delta * cosh o.u0 * cos v) * (o.delta * cosh o.u0 * sin v) ^ 2
        - o.w.zforce (o.delta * sinh o.u0 * sin v) (o.delta * cosh o.u0 * cos v) * (o.delta * cosh o.u0 * cos v)) := by
  unfold Obj.d2Vdv2
  simp only [Coords.uv_to_Rz, Bool.false_eq_true, if_false, prefactor, ztan_eq]
  rw [mul_div_assoc, cot hv hv', mul_div_assoc, ← div_pow, cot hv hv']

theorem on_curve (h : C95Spec.Smooth o) {v : ℝ} (hv : 0 < v) (hv' : v < π) :
    0 ≤ o.delta * sinh o.u0 * sin v ∧ (o.u0 = 0 ∨ 0 < o.delta * sinh o.u0 * sin v) := by
  have hs := sin_pos_of_pos_of_lt_pi hv hv'
  have hd := h.delta
  rcases h.u0.eq_or_lt with h0 | h0
  · rw [← h0, sinh_zero]; simp
  · have := sinh_pos_iff.2 h0
    exact ⟨by positivity, .inr (by positivity)⟩

theorem curve_d (h : C95Spec.Smooth o) {F FR FZ : ℝ → ℝ → ℝ} {v : ℝ}
    (hF : HasFDerivAt (fun q : ℝ × ℝ => F q.1 q.2) (-FR (o.delta * sinh o.u0 * sin v) (o.delta * cosh o.u0 * cos v) • ContinuousLinearMap.fst ℝ ℝ ℝ
      + -FZ (o.delta * sinh o.u0 * sin v) (o.delta * cosh o.u0 * cos v) • ContinuousLinearMap.snd ℝ ℝ ℝ)
      (o.delta * sinh o.u0 * sin v, o.delta * cosh o.u0 * cos v)) :
    HasDerivAt (fun v => F (o.delta * sinh o.u0 * sin v) (o.delta * cosh o.u0 * cos v))
      (-FR (o.delta * sinh o.u0 * sin v) (o.delta * cosh o.u0 * cos v) * (o.delta * sinh o.u0 * cos v)
        + FZ (o.delta * sinh o.u0 * sin v) (o.delta * cosh o.u0 * cos v) * (o.delta * cosh o.u0 * sin v)) v := by
  have := hF.comp_hasDerivAt (f := fun v => (o.delta * sinh o.u0 * sin v, o.delta * cosh o.u0 * cos v)) v
    (((hasDerivAt_sin v).const_mul _).prodMk ((hasDerivAt_cos v).const_mul _))
  refine this.congr_deriv ?_
  simp

theorem V_d (h : C95Spec.Smooth o) {v : ℝ} (hv : 0 < v) (hv' : v < π) : HasDerivAt o.V (o.dVdv v) v := by
  rw [funext (V_eq o), dV_eq o hv hv']
  obtain ⟨h1, h2⟩ := on_curve h hv hv'
  refine (hd_sub (hd_const o.refpot v) (hd_mul (hd_add (hd_const (sinh o.u0 ^ 2) v) (hd_pow 2 (hasDerivAt_sin v)))
    (curve_d h (h.grad _ (o.delta * cosh o.u0 * cos v) h1 h2)))).congr_deriv ?_
  simp only [Obj.w]
  norm_num
  ring

theorem dV_d (h : C95Spec.Smooth2 o) {v : ℝ} (hv : 0 < v) (hv' : v < π) : HasDerivAt o.dVdv (o.d2Vdv2 v) v := by
  rw [d2V_eq o hv hv']
  obtain ⟨h1, h2⟩ := on_curve h.toSmooth hv hv'
  have c1 := curve_d h.toSmooth (h.grad _ (o.delta * cosh o.u0 * cos v) h1 h2)
  have c2 := curve_d h.toSmooth (h.gradR _ (o.delta * cosh o.u0 * cos v) h1 h2)
  have c3 := curve_d h.toSmooth (h.gradZ _ (o.delta * cosh o.u0 * cos v) h1 h2)
  have d := hd_add (hd_mul (hd_mul (hd_const_mul (-2) (hasDerivAt_sin v)) (hasDerivAt_cos v)) c1)
    (hd_mul (hd_add (hd_const (sinh o.u0 ^ 2) v) (hd_pow 2 (hasDerivAt_sin v)))
      (hd_sub (hd_mul c2 (hd_const_mul (o.delta * sinh o.u0) (hasDerivAt_cos v))) (hd_mul c3 (hd_const_mul (o.delta * cosh o.u0) (hasDerivAt_sin v)))))
  refine (d.congr_of_eventuallyEq (((lt_mem_nhds hv).and (gt_mem_nhds hv')).mono fun x hx => dV_eq o hx.1 hx.2)).congr_deriv ?_
  rw [cos_two_mul', sin_two_mul]
  simp only [Obj.w]
  norm_num
  ring

/-! ### Forces -/

def gR (δ U1 V1 f u v : ℝ) : ℝ := -(U1 * (cosh u * sin v) - V1 * (sinh u * cos v)
  - f * (2 * (sinh u * cosh u) * (cosh u * sin v) + 2 * (sin v * cos v) * (sinh u * cos v)) / prefactor u v) / (δ * prefactor u v ^ 2)
def gZ (δ U1 V1 f u v : ℝ) : ℝ := -(U1 * (sinh u * cos v) + V1 * (cosh u * sin v)
  - f * (2 * (sinh u * cosh u) * (sinh u * cos v) - 2 * (sin v * cos v) * (cosh u * sin v)) / prefactor u v) / (δ * prefactor u v ^ 2)

theorem tanhz {δ u v z : ℝ} (h : z = δ * cosh u * cos v) : tanh u * z = δ * (sinh u * cos v) := by
  have := cosh_pos u
  rw [h, tanh_eq_sinh_div_cosh]
  field_simp

theorem Rtan {δ u v R : ℝ} (h : R = δ * sinh u * sin v) (hv : 0 < v) (hv' : v < π) : R / tan v = δ * (sinh u * cos v) := by
  rw [h, cot hv hv']
  ring

theorem R_eq (o : Obj) (hδ : 0 < o.delta) {R : ℝ} (hR : 0 < R) (z t : ℝ) : o.Rforce R z t
    = gR o.delta (o.dUdu (uu o.delta R z)) (o.dVdv (vv o.delta R z)) (o.U (uu o.delta R z) - o.V (vv o.delta R z)) (uu o.delta R z) (vv o.delta R z) := by
  obtain ⟨h1, h2, hu, hv, hv'⟩ := spec hδ hR z
  have hm : 0 < prefactor (uu o.delta R z) (vv o.delta R z) := C78aux.metric_pos hu
  have e := tanhz h2
  change (-o.dUdu (uu o.delta R z) * o.delta * sin (vv o.delta R z) * cosh (uu o.delta R z) + o.dVdv (vv o.delta R z) * tanh (uu o.delta R z) * z
    + (o.U (uu o.delta R z) - o.V (vv o.delta R z)) * (2 * sinh (uu o.delta R z) * cosh (uu o.delta R z) * o.delta * sin (vv o.delta R z) * cosh (uu o.delta R z)
      + 2 * sin (vv o.delta R z) * cos (vv o.delta R z) * tanh (uu o.delta R z) * z) / prefactor (uu o.delta R z) (vv o.delta R z)) / o.delta ^ 2
      / prefactor (uu o.delta R z) (vv o.delta R z) ^ 2 = _
  rw [mul_assoc (o.dVdv _), mul_assoc (2 * sin _ * cos _), e]
  unfold gR
  generalize prefactor (uu o.delta R z) (vv o.delta R z) = p at *
  field_simp
  ring

theorem Z_eq (o : Obj) (hδ : 0 < o.delta) {R : ℝ} (hR : 0 < R) (z t : ℝ) : o.zforce R z t
    = gZ o.delta (o.dUdu (uu o.delta R z)) (o.dVdv (vv o.delta R z)) (o.U (uu o.delta R z) - o.V (vv o.delta R z)) (uu o.delta R z) (vv o.delta R z) := by
  obtain ⟨h1, h2, hu, hv, hv'⟩ := spec hδ hR z
  have hm : 0 < prefactor (uu o.delta R z) (vv o.delta R z) := C78aux.metric_pos hu
  have e := Rtan h1 hv hv'
  change (-o.dUdu (uu o.delta R z) * R / tan (vv o.delta R z) - o.dVdv (vv o.delta R z) * o.delta * sin (vv o.delta R z) * cosh (uu o.delta R z)
    + (o.U (uu o.delta R z) - o.V (vv o.delta R z)) * (2 * sinh (uu o.delta R z) * cosh (uu o.delta R z) / tan (vv o.delta R z) * R
      - 2 * sin (vv o.delta R z) * cos (vv o.delta R z) * o.delta * sin (vv o.delta R z) * cosh (uu o.delta R z)) / prefactor (uu o.delta R z) (vv o.delta R z)) / o.delta ^ 2
      / prefactor (uu o.delta R z) (vv o.delta R z) ^ 2 = _
  rw [mul_div_assoc _ R, div_mul_eq_mul_div, mul_div_assoc _ R, e]
  unfold gZ
  generalize prefactor (uu o.delta R z) (vv o.delta R z) = p at *
  field_simp
  ring

/-- `u` and `v` as functions of one variable at a point. -/
theorem u_R {δ R : ℝ} (hδ : 0 < δ) (hR : 0 < R) (z : ℝ) :
    HasDerivAt (fun x => uu δ x z) (cosh (uu δ R z) * sin (vv δ R z) / (δ * prefactor (uu δ R z) (vv δ R z))) R
    ∧ HasDerivAt (fun x => vv δ x z) (sinh (uu δ R z) * cos (vv δ R z) / (δ * prefactor (uu δ R z) (vv δ R z))) R := by
  obtain ⟨h1, h2⟩ := uv_fd hδ hR z
  constructor
  · refine (C78aux.along' (F := uu δ) (R := fun x => x) (z := fun _ => z) h1 (hasDerivAt_id' R) (hasDerivAt_const R z)).congr_deriv (by ring)
  · refine (C78aux.along' (F := vv δ) (R := fun x => x) (z := fun _ => z) h2 (hasDerivAt_id' R) (hasDerivAt_const R z)).congr_deriv (by ring)

theorem u_z {δ R : ℝ} (hδ : 0 < δ) (hR : 0 < R) (z : ℝ) :
    HasDerivAt (fun x => uu δ R x) (sinh (uu δ R z) * cos (vv δ R z) / (δ * prefactor (uu δ R z) (vv δ R z))) z
    ∧ HasDerivAt (fun x => vv δ R x) (-(cosh (uu δ R z) * sin (vv δ R z) / (δ * prefactor (uu δ R z) (vv δ R z)))) z := by
  obtain ⟨h1, h2⟩ := uv_fd hδ hR z
  constructor
  · refine (C78aux.along' (F := uu δ) (R := fun _ => R) (z := fun x => x) h1 (hasDerivAt_const z R) (hasDerivAt_id' z)).congr_deriv (by ring)
  · refine (C78aux.along' (F := vv δ) (R := fun _ => R) (z := fun x => x) h2 (hasDerivAt_const z R) (hasDerivAt_id' z)).congr_deriv (by ring)

section
variable {u v : ℝ → ℝ} {u' v' t : ℝ}

theorem pre_d (hu : HasDerivAt u u' t) (hv : HasDerivAt v v' t) :
    HasDerivAt (fun t => prefactor (u t) (v t)) (2 * (sinh (u t) * cosh (u t)) * u' + 2 * (sin (v t) * cos (v t)) * v') t := by
  unfold prefactor
  refine (hd_add (hd_pow 2 (hd_sinh hu)) (hd_pow 2 (hd_sin hv))).congr_deriv ?_
  norm_num
  ring

theorem val_d (h : C95Spec.Smooth o) (hu : HasDerivAt u u' t) (hv : HasDerivAt v v' t) (u0 : 0 < u t) (v0 : 0 < v t) (v1 : v t < π) :
    HasDerivAt (fun t => (o.U (u t) - o.V (v t)) / prefactor (u t) (v t))
      ((((C95Spec.withEps o 0).dUdu (u t) * u' - o.dVdv (v t) * v') * prefactor (u t) (v t)
        - (o.U (u t) - o.V (v t)) * (2 * (sinh (u t) * cosh (u t)) * u' + 2 * (sin (v t) * cos (v t)) * v')) / prefactor (u t) (v t) ^ 2) t := by
  have d1 := HasDerivAt.comp (h₂ := o.U) (h := u) t (U_d h u0) hu
  have d2 := HasDerivAt.comp (h₂ := o.V) (h := v) t (V_d h v0 v1) hv
  exact hd_div (hd_sub d1 d2) (pre_d hu hv) (ne_of_gt (C78aux.metric_pos u0))

/-- The derivative of the radial force along a curve in `u`, `v`. -/
theorem gR_d (h : C95Spec.Smooth2 o) (hu : HasDerivAt u u' t) (hv : HasDerivAt v v' t) (u0 : 0 < u t) (v0 : 0 < v t) (v1 : v t < π)
    {A1 B1 : ℝ} (hA : HasDerivAt (fun t => cosh (u t) * sin (v t)) A1 t) (hB : HasDerivAt (fun t => sinh (u t) * cos (v t)) B1 t) (δ : ℝ) (hδ : 0 < δ) :
    HasDerivAt (fun t => gR δ ((C95Spec.withEps o 0).dUdu (u t)) (o.dVdv (v t)) (o.U (u t) - o.V (v t)) (u t) (v t))
      (-((C95Spec.withEps o 0).d2Udu2 (u t) * u' * (cosh (u t) * sin (v t)) + (C95Spec.withEps o 0).dUdu (u t) * A1
          - (o.d2Vdv2 (v t) * v' * (sinh (u t) * cos (v t)) + o.dVdv (v t) * B1)
          - ((C95Spec.withEps o 0).dUdu (u t) * u' - o.dVdv (v t) * v')
            * (2 * (sinh (u t) * cosh (u t)) * (cosh (u t) * sin (v t)) + 2 * (sin (v t) * cos (v t)) * (sinh (u t) * cos (v t))) / prefactor (u t) (v t)
          - (o.U (u t) - o.V (v t)) * (2 * cosh (2 * u t) * u' * (cosh (u t) * sin (v t)) + 2 * (sinh (u t) * cosh (u t)) * A1
            + 2 * cos (2 * v t) * v' * (sinh (u t) * cos (v t)) + 2 * (sin (v t) * cos (v t)) * B1) / prefactor (u t) (v t)
          + (o.U (u t) - o.V (v t)) * (2 * (sinh (u t) * cosh (u t)) * (cosh (u t) * sin (v t)) + 2 * (sin (v t) * cos (v t)) * (sinh (u t) * cos (v t)))
            * (2 * (sinh (u t) * cosh (u t)) * u' + 2 * (sin (v t) * cos (v t)) * v') / prefactor (u t) (v t) ^ 2) / (δ * prefactor (u t) (v t) ^ 2)
        - 2 * gR δ ((C95Spec.withEps o 0).dUdu (u t)) (o.dVdv (v t)) (o.U (u t) - o.V (v t)) (u t) (v t)
          * (2 * (sinh (u t) * cosh (u t)) * u' + 2 * (sin (v t) * cos (v t)) * v') / prefactor (u t) (v t)) t := by
  have d1 := HasDerivAt.comp (h₂ := o.U) (h := u) t (U_d h.toSmooth u0) hu
  have d2 := HasDerivAt.comp (h₂ := o.V) (h := v) t (V_d h.toSmooth v0 v1) hv
  have d3 := HasDerivAt.comp (h₂ := (C95Spec.withEps o 0).dUdu) (h := u) t (dU_d h u0) hu
  have d4 := HasDerivAt.comp (h₂ := o.dVdv) (h := v) t (dV_d h v0 v1) hv
  have hp := pre_d hu hv
  have hp0 : 0 < prefactor (u t) (v t) := C78aux.metric_pos u0
  have s1 : HasDerivAt (fun t => sinh (u t) * cosh (u t)) (cosh (2 * u t) * u') t :=
    (hd_mul (hd_sinh hu) (hd_cosh hu)).congr_deriv (by rw [cosh_two_mul]; ring)
  have s2 : HasDerivAt (fun t => sin (v t) * cos (v t)) (cos (2 * v t) * v') t :=
    (hd_mul (hd_sin hv) (hd_cos hv)).congr_deriv (by rw [cos_two_mul']; ring)
  have hne : δ * prefactor (u t) (v t) ^ 2 ≠ 0 := by positivity
  have d := hd_div (hd_neg (hd_sub (hd_sub (hd_mul d3 hA) (hd_mul d4 hB))
    (hd_div (hd_mul (hd_sub d1 d2) (hd_add (hd_mul (hd_const_mul 2 s1) hA) (hd_mul (hd_const_mul 2 s2) hB))) hp hp0.ne')))
    (hd_const_mul δ (hd_pow 2 hp)) hne
  refine d.congr_deriv ?_
  simp only [Function.comp_apply, gR]
  generalize prefactor (u t) (v t) = p at *
  generalize (C95Spec.withEps o 0).dUdu (u t) = U1
  generalize (C95Spec.withEps o 0).d2Udu2 (u t) = U2
  generalize o.dVdv (v t) = V1
  generalize o.d2Vdv2 (v t) = V2
  generalize o.U (u t) - o.V (v t) = f
  generalize cosh (2 * u t) = C2
  generalize cos (2 * v t) = c2
  generalize cosh (u t) = C
  generalize sinh (u t) = S
  generalize cos (v t) = c
  generalize sin (v t) = s
  norm_num
  field_simp
  ring

/-- The derivative of the vertical force along a curve in `u`, `v`. -/
theorem gZ_d (h : C95Spec.Smooth2 o) (hu : HasDerivAt u u' t) (hv : HasDerivAt v v' t) (u0 : 0 < u t) (v0 : 0 < v t) (v1 : v t < π)
    {A1 B1 : ℝ} (hA : HasDerivAt (fun t => cosh (u t) * sin (v t)) A1 t) (hB : HasDerivAt (fun t => sinh (u t) * cos (v t)) B1 t) (δ : ℝ) (hδ : 0 < δ) :
    HasDerivAt (fun t => gZ δ ((C95Spec.withEps o 0).dUdu (u t)) (o.dVdv (v t)) (o.U (u t) - o.V (v t)) (u t) (v t))
      (-((C95Spec.withEps o 0).d2Udu2 (u t) * u' * (sinh (u t) * cos (v t)) + (C95Spec.withEps o 0).dUdu (u t) * B1
          + (o.d2Vdv2 (v t) * v' * (cosh (u t) * sin (v t)) + o.dVdv (v t) * A1)
          - ((C95Spec.withEps o 0).dUdu (u t) * u' - o.dVdv (v t) * v')
            * (2 * (sinh (u t) * cosh (u t)) * (sinh (u t) * cos (v t)) - 2 * (sin (v t) * cos (v t)) * (cosh (u t) * sin (v t))) / prefactor (u t) (v t)
          - (o.U (u t) - o.V (v t)) * (2 * cosh (2 * u t) * u' * (sinh (u t) * cos (v t)) + 2 * (sinh (u t) * cosh (u t)) * B1
            - 2 * cos (2 * v t) * v' * (cosh (u t) * sin (v t)) - 2 * (sin (v t) * cos (v t)) * A1) / prefactor (u t) (v t)
          + (o.U (u t) - o.V (v t)) * (2 * (sinh (u t) * cosh (u t)) * (sinh (u t) * cos (v t)) - 2 * (sin (v t) * cos (v t)) * (cosh (u t) * sin (v t)))
            * (2 * (sinh (u t) * cosh (u t)) * u' + 2 * (sin (v t) * cos (v t)) * v') / prefactor (u t) (v t) ^ 2) / (δ * prefactor (u t) (v t) ^ 2)
        - 2 * gZ δ ((C95Spec.withEps o 0).dUdu (u t)) (o.dVdv (v t)) (o.U (u t) - o.V (v t)) (u t) (v t)
          * (2 * (sinh (u t) * cosh (u t)) * u' + 2 * (sin (v t) * cos (v t)) * v') / prefactor (u t) (v t)) t := by
  have d1 := HasDerivAt.comp (h₂ := o.U) (h := u) t (U_d h.toSmooth u0) hu
  have d2 := HasDerivAt.comp (h₂ := o.V) (h := v) t (V_d h.toSmooth v0 v1) hv
  have d3 := HasDerivAt.comp (h₂ := (C95Spec.withEps o 0).dUdu) (h := u) t (dU_d h u0) hu
  have d4 := HasDerivAt.comp (h₂ := o.dVdv) (h := v) t (dV_d h v0 v1) hv
  have hp := pre_d hu hv
  have hp0 : 0 < prefactor (u t) (v t) := C78aux.metric_pos u0
  have s1 : HasDerivAt (fun t => sinh (u t) * cosh (u t)) (cosh (2 * u t) * u') t :=
    (hd_mul (hd_sinh hu) (hd_cosh hu)).congr_deriv (by rw [cosh_two_mul]; ring)
  have s2 : HasDerivAt (fun t => sin (v t) * cos (v t)) (cos (2 * v t) * v') t :=
    (hd_mul (hd_sin hv) (hd_cos hv)).congr_deriv (by rw [cos_two_mul']; ring)
  have hne : δ * prefactor (u t) (v t) ^ 2 ≠ 0 := by positivity
  have d := hd_div (hd_neg (hd_sub (hd_add (hd_mul d3 hB) (hd_mul d4 hA))
    (hd_div (hd_mul (hd_sub d1 d2) (hd_sub (hd_mul (hd_const_mul 2 s1) hB) (hd_mul (hd_const_mul 2 s2) hA))) hp hp0.ne')))
    (hd_const_mul δ (hd_pow 2 hp)) hne
  refine d.congr_deriv ?_
  simp only [Function.comp_apply, gZ]
  generalize prefactor (u t) (v t) = p at *
  generalize (C95Spec.withEps o 0).dUdu (u t) = U1
  generalize (C95Spec.withEps o 0).d2Udu2 (u t) = U2
  generalize o.dVdv (v t) = V1
  generalize o.d2Vdv2 (v t) = V2
  generalize o.U (u t) - o.V (v t) = f
  generalize cosh (2 * u t) = C2
  generalize cos (2 * v t) = c2
  generalize cosh (u t) = C
  generalize sinh (u t) = S
  generalize cos (v t) = c
  generalize sin (v t) = s
  norm_num
  field_simp
  ring

end

theorem A_R {δ R : ℝ} (hδ : 0 < δ) (hR : 0 < R) (z : ℝ) :
    HasDerivAt (fun x => cosh (uu δ x z) * sin (vv δ x z)) (sinh (uu δ R z) * cosh (uu δ R z) / (δ * prefactor (uu δ R z) (vv δ R z))) R
    ∧ HasDerivAt (fun x => sinh (uu δ x z) * cos (vv δ x z)) (sin (vv δ R z) * cos (vv δ R z) / (δ * prefactor (uu δ R z) (vv δ R z))) R := by
  obtain ⟨h1, h2⟩ := u_R hδ hR z
  have hA := cosh_sq (uu δ R z)
  have hs := sin_sq_add_cos_sq (vv δ R z)
  refine ⟨(hd_mul (hd_cosh h1) (hd_sin h2)).congr_deriv ?_, (hd_mul (hd_sinh h1) (hd_cos h2)).congr_deriv ?_⟩
  · rw [show ∀ a b c d e f p : ℝ, a * (b * c / p) * d + e * (f * (a * f / p)) = (a * b * c * d + a * e * f * f) / p by intros; ring]
    congr 1
    linear_combination sinh (uu δ R z) * cosh (uu δ R z) * hs
  · rw [show ∀ a b c d e f g p : ℝ, a * (b * c / p) * d + e * (f * (e * g / p)) = (a * b * c * d + e * f * e * g) / p by intros; ring]
    congr 1
    linear_combination sin (vv δ R z) * cos (vv δ R z) * hA

theorem A_z {δ R : ℝ} (hδ : 0 < δ) (hR : 0 < R) (z : ℝ) :
    HasDerivAt (fun x => cosh (uu δ R x) * sin (vv δ R x)) (-(sin (vv δ R z) * cos (vv δ R z) / (δ * prefactor (uu δ R z) (vv δ R z)))) z
    ∧ HasDerivAt (fun x => sinh (uu δ R x) * cos (vv δ R x)) (sinh (uu δ R z) * cosh (uu δ R z) / (δ * prefactor (uu δ R z) (vv δ R z))) z := by
  obtain ⟨h1, h2⟩ := u_z hδ hR z
  have hA := cosh_sq (uu δ R z)
  have hs := sin_sq_add_cos_sq (vv δ R z)
  refine ⟨(hd_mul (hd_cosh h1) (hd_sin h2)).congr_deriv ?_, (hd_mul (hd_sinh h1) (hd_cos h2)).congr_deriv ?_⟩
  · rw [show ∀ a c d e f g p : ℝ, a * (a * c / p) * d + e * (f * -(e * g / p)) = (a * a * c * d - e * f * e * g) / p by intros; ring, ← neg_div]
    congr 1
    linear_combination -sin (vv δ R z) * cos (vv δ R z) * hA
  · rw [show ∀ a b c e p : ℝ, a * (b * c / p) * c + b * (-e * -(a * e / p)) = (a * b * c * c + b * e * a * e) / p by intros; ring]
    congr 1
    linear_combination sinh (uu δ R z) * cosh (uu δ R z) * hs

theorem U_same (o : Obj) (e : ℝ) : (C95Spec.withEps o e).U = o.U ∧ (C95Spec.withEps o e).V = o.V ∧ (C95Spec.withEps o e).dVdv = o.dVdv
    ∧ (C95Spec.withEps o e).d2Vdv2 = o.d2Vdv2 := ⟨rfl, rfl, rfl, rfl⟩

/-- The second derivatives as the code has them, without tangents. -/
theorem R2_eq (o : Obj) (hδ : 0 < o.delta) {R : ℝ} (hR : 0 < R) (z t : ℝ) : o.R2deriv R z t
    = (o.d2Udu2 (uu o.delta R z) * (cosh (uu o.delta R z) * sin (vv o.delta R z)) ^ 2 + o.dUdu (uu o.delta R z) * (sinh (uu o.delta R z) * cosh (uu o.delta R z))
      - o.d2Vdv2 (vv o.delta R z) * (sinh (uu o.delta R z) * cos (vv o.delta R z)) ^ 2 - o.dVdv (vv o.delta R z) * (sin (vv o.delta R z) * cos (vv o.delta R z))
      - (o.dUdu (uu o.delta R z) * (cosh (uu o.delta R z) * sin (vv o.delta R z)) - o.dVdv (vv o.delta R z) * (sinh (uu o.delta R z) * cos (vv o.delta R z)))
        * (2 * (sinh (uu o.delta R z) * cosh (uu o.delta R z)) * (cosh (uu o.delta R z) * sin (vv o.delta R z))
          + 2 * (sin (vv o.delta R z) * cos (vv o.delta R z)) * (sinh (uu o.delta R z) * cos (vv o.delta R z))) / prefactor (uu o.delta R z) (vv o.delta R z)
      - (o.U (uu o.delta R z) - o.V (vv o.delta R z)) * (2 * cosh (2 * uu o.delta R z) * (cosh (uu o.delta R z) * sin (vv o.delta R z)) ^ 2
          + 2 * (sinh (uu o.delta R z) * cosh (uu o.delta R z)) ^ 2 + 2 * cos (2 * vv o.delta R z) * (sinh (uu o.delta R z) * cos (vv o.delta R z)) ^ 2
          + 2 * (sin (vv o.delta R z) * cos (vv o.delta R z)) ^ 2) / prefactor (uu o.delta R z) (vv o.delta R z)
      + (o.U (uu o.delta R z) - o.V (vv o.delta R z)) * (2 * (sinh (uu o.delta R z) * cosh (uu o.delta R z)) * (cosh (uu o.delta R z) * sin (vv o.delta R z))
          + 2 * (sin (vv o.delta R z) * cos (vv o.delta R z)) * (sinh (uu o.delta R z) * cos (vv o.delta R z))) ^ 2 / prefactor (uu o.delta R z) (vv o.delta R z) ^ 2)
        / o.delta ^ 2 / prefactor (uu o.delta R z) (vv o.delta R z) ^ 3
      + 2 * o.Rforce R z t * (2 * (sinh (uu o.delta R z) * cosh (uu o.delta R z)) * (cosh (uu o.delta R z) * sin (vv o.delta R z))
          + 2 * (sin (vv o.delta R z) * cos (vv o.delta R z)) * (sinh (uu o.delta R z) * cos (vv o.delta R z))) / (o.delta * prefactor (uu o.delta R z) (vv o.delta R z) ^ 2) := by
  obtain ⟨h1, h2, hu, hv, hv'⟩ := spec hδ hR z
  have hm : 0 < prefactor (uu o.delta R z) (vv o.delta R z) := C78aux.metric_pos hu
  have e := tanhz h2
  unfold Obj.R2deriv
  simp only [dprefactor, d2prefactor]
  generalize o.Rforce R z t = F
  rw [show (Coords.Rz_to_uv R z o.delta false).1 = uu o.delta R z from rfl,
    show (Coords.Rz_to_uv R z o.delta false).2 = vv o.delta R z from rfl, show ∀ a : ℝ, a * tanh (uu o.delta R z) * z = a * (tanh (uu o.delta R z) * z) from fun a => mul_assoc _ _ _, e]
  generalize prefactor (uu o.delta R z) (vv o.delta R z) = p at *
  generalize uu o.delta R z = u at *
  generalize vv o.delta R z = v at *
  generalize cosh (2 * u) = C2
  generalize cos (2 * v) = c2
  generalize o.dUdu u = U1
  generalize o.d2Udu2 u = U2
  generalize o.dVdv v = V1
  generalize o.d2Vdv2 v = V2
  generalize o.U u - o.V v = f
  generalize cosh u = C
  generalize sinh u = S
  generalize cos v = c
  generalize sin v = s
  field_simp
  ring

theorem Z2_eq (o : Obj) (hδ : 0 < o.delta) {R : ℝ} (hR : 0 < R) (z t : ℝ) : o.z2deriv R z t
    = (o.d2Udu2 (uu o.delta R z) * (sinh (uu o.delta R z) * cos (vv o.delta R z)) ^ 2 + o.dUdu (uu o.delta R z) * (sinh (uu o.delta R z) * cosh (uu o.delta R z))
      - o.d2Vdv2 (vv o.delta R z) * (cosh (uu o.delta R z) * sin (vv o.delta R z)) ^ 2 - o.dVdv (vv o.delta R z) * (sin (vv o.delta R z) * cos (vv o.delta R z))
      - (o.dUdu (uu o.delta R z) * (sinh (uu o.delta R z) * cos (vv o.delta R z)) + o.dVdv (vv o.delta R z) * (cosh (uu o.delta R z) * sin (vv o.delta R z)))
        * (2 * (sinh (uu o.delta R z) * cosh (uu o.delta R z)) * (sinh (uu o.delta R z) * cos (vv o.delta R z))
          - 2 * (sin (vv o.delta R z) * cos (vv o.delta R z)) * (cosh (uu o.delta R z) * sin (vv o.delta R z))) / prefactor (uu o.delta R z) (vv o.delta R z)
      - (o.U (uu o.delta R z) - o.V (vv o.delta R z)) * (2 * cosh (2 * uu o.delta R z) * (sinh (uu o.delta R z) * cos (vv o.delta R z)) ^ 2
          + 2 * (sinh (uu o.delta R z) * cosh (uu o.delta R z)) ^ 2 + 2 * cos (2 * vv o.delta R z) * (cosh (uu o.delta R z) * sin (vv o.delta R z)) ^ 2
          + 2 * (sin (vv o.delta R z) * cos (vv o.delta R z)) ^ 2) / prefactor (uu o.delta R z) (vv o.delta R z)
      + (o.U (uu o.delta R z) - o.V (vv o.delta R z)) * (2 * (sinh (uu o.delta R z) * cosh (uu o.delta R z)) * (sinh (uu o.delta R z) * cos (vv o.delta R z))
          - 2 * (sin (vv o.delta R z) * cos (vv o.delta R z)) * (cosh (uu o.delta R z) * sin (vv o.delta R z))) ^ 2 / prefactor (uu o.delta R z) (vv o.delta R z) ^ 2)
        / o.delta ^ 2 / prefactor (uu o.delta R z) (vv o.delta R z) ^ 3
      + 2 * o.zforce R z t * (2 * (sinh (uu o.delta R z) * cosh (uu o.delta R z)) * (sinh (uu o.delta R z) * cos (vv o.delta R z))
          - 2 * (sin (vv o.delta R z) * cos (vv o.delta R z)) * (cosh (uu o.delta R z) * sin (vv o.delta R z))) / (o.delta * prefactor (uu o.delta R z) (vv o.delta R z) ^ 2) := by
  obtain ⟨h1, h2, hu, hv, hv'⟩ := spec hδ hR z
  have hm : 0 < prefactor (uu o.delta R z) (vv o.delta R z) := C78aux.metric_pos hu
  have e := Rtan h1 hv hv'
  unfold Obj.z2deriv
  simp only [dprefactor, d2prefactor]
  generalize o.zforce R z t = F
  rw [show (Coords.Rz_to_uv R z o.delta false).1 = uu o.delta R z from rfl,
    show (Coords.Rz_to_uv R z o.delta false).2 = vv o.delta R z from rfl, show ∀ a : ℝ, a / tan (vv o.delta R z) * R = a * (R / tan (vv o.delta R z)) from fun a => by ring, e]
  generalize prefactor (uu o.delta R z) (vv o.delta R z) = p at *
  generalize uu o.delta R z = u at *
  generalize vv o.delta R z = v at *
  generalize cosh (2 * u) = C2
  generalize cos (2 * v) = c2
  generalize o.dUdu u = U1
  generalize o.d2Udu2 u = U2
  generalize o.dVdv v = V1
  generalize o.d2Vdv2 v = V2
  generalize o.U u - o.V v = f
  generalize cosh u = C
  generalize sinh u = S
  generalize cos v = c
  generalize sin v = s
  field_simp
  ring

theorem RZ_eq (o : Obj) (hδ : 0 < o.delta) {R : ℝ} (hR : 0 < R) (z t : ℝ) : o.Rzderiv R z t
    = (o.d2Udu2 (uu o.delta R z) * (cosh (uu o.delta R z) * sin (vv o.delta R z)) * (sinh (uu o.delta R z) * cos (vv o.delta R z))
      + o.dUdu (uu o.delta R z) * (sin (vv o.delta R z) * cos (vv o.delta R z))
      + o.d2Vdv2 (vv o.delta R z) * (cosh (uu o.delta R z) * sin (vv o.delta R z)) * (sinh (uu o.delta R z) * cos (vv o.delta R z))
      + o.dVdv (vv o.delta R z) * (sinh (uu o.delta R z) * cosh (uu o.delta R z))
      - (o.dUdu (uu o.delta R z) * (cosh (uu o.delta R z) * sin (vv o.delta R z)) - o.dVdv (vv o.delta R z) * (sinh (uu o.delta R z) * cos (vv o.delta R z)))
        * (2 * (sinh (uu o.delta R z) * cosh (uu o.delta R z)) * (sinh (uu o.delta R z) * cos (vv o.delta R z))
          - 2 * (sin (vv o.delta R z) * cos (vv o.delta R z)) * (cosh (uu o.delta R z) * sin (vv o.delta R z))) / prefactor (uu o.delta R z) (vv o.delta R z)
      + (o.U (uu o.delta R z) - o.V (vv o.delta R z)) * ((-(2 * cosh (2 * uu o.delta R z)) + 2 * cos (2 * vv o.delta R z))
          * ((cosh (uu o.delta R z) * sin (vv o.delta R z)) * (sinh (uu o.delta R z) * cos (vv o.delta R z)))) / prefactor (uu o.delta R z) (vv o.delta R z)
      + (o.U (uu o.delta R z) - o.V (vv o.delta R z)) * (2 * (sinh (uu o.delta R z) * cosh (uu o.delta R z)) * (sinh (uu o.delta R z) * cos (vv o.delta R z))
          - 2 * (sin (vv o.delta R z) * cos (vv o.delta R z)) * (cosh (uu o.delta R z) * sin (vv o.delta R z)))
          * (2 * (sinh (uu o.delta R z) * cosh (uu o.delta R z)) * (cosh (uu o.delta R z) * sin (vv o.delta R z))
          + 2 * (sin (vv o.delta R z) * cos (vv o.delta R z)) * (sinh (uu o.delta R z) * cos (vv o.delta R z))) / prefactor (uu o.delta R z) (vv o.delta R z) ^ 2)
        / o.delta ^ 2 / prefactor (uu o.delta R z) (vv o.delta R z) ^ 3
      + 2 * o.zforce R z t * (2 * (sinh (uu o.delta R z) * cosh (uu o.delta R z)) * (cosh (uu o.delta R z) * sin (vv o.delta R z))
          + 2 * (sin (vv o.delta R z) * cos (vv o.delta R z)) * (sinh (uu o.delta R z) * cos (vv o.delta R z))) / (o.delta * prefactor (uu o.delta R z) (vv o.delta R z) ^ 2) := by
  obtain ⟨h1, h2, hu, hv, hv'⟩ := spec hδ hR z
  have hm : 0 < prefactor (uu o.delta R z) (vv o.delta R z) := C78aux.metric_pos hu
  have e := Rtan h1 hv hv'
  unfold Obj.Rzderiv
  simp only [dprefactor, d2prefactor]
  generalize o.zforce R z t = F
  rw [show (Coords.Rz_to_uv R z o.delta false).1 = uu o.delta R z from rfl,
    show (Coords.Rz_to_uv R z o.delta false).2 = vv o.delta R z from rfl, show ∀ a : ℝ, a / tan (vv o.delta R z) * R = a * (R / tan (vv o.delta R z)) from fun a => by ring, e]
  generalize prefactor (uu o.delta R z) (vv o.delta R z) = p at *
  generalize uu o.delta R z = u at *
  generalize vv o.delta R z = v at *
  generalize cosh (2 * u) = C2
  generalize cos (2 * v) = c2
  generalize o.dUdu u = U1
  generalize o.d2Udu2 u = U2
  generalize o.dVdv v = V1
  generalize o.d2Vdv2 v = V2
  generalize o.U u - o.V v = f
  generalize cosh u = C
  generalize sinh u = S
  generalize cos v = c
  generalize sin v = s
  field_simp
  ring

theorem val_diff (h : C95Spec.Smooth o) {R : ℝ} (hR : 0 < R) (z t : ℝ) : DifferentiableAt ℝ (fun q : ℝ × ℝ => o.evaluate q.1 q.2 t) (R, z) := by
  obtain ⟨h1, h2⟩ := uv_fd h.delta hR z
  obtain ⟨-, -, hu, hv, hv'⟩ := spec h.delta hR z
  have d1 : DifferentiableAt ℝ (fun q : ℝ × ℝ => o.U (uu o.delta q.1 q.2)) (R, z) :=
    DifferentiableAt.comp (g := o.U) (R, z) (U_d h hu).differentiableAt h1.differentiableAt
  have d2 : DifferentiableAt ℝ (fun q : ℝ × ℝ => o.V (vv o.delta q.1 q.2)) (R, z) :=
    DifferentiableAt.comp (g := o.V) (R, z) (V_d h hv hv').differentiableAt h2.differentiableAt
  have d3 : DifferentiableAt ℝ (fun q : ℝ × ℝ => prefactor (uu o.delta q.1 q.2) (vv o.delta q.1 q.2)) (R, z) := by
    unfold prefactor
    exact ((differentiable_sinh _).comp (R, z) h1.differentiableAt |>.pow 2).add ((differentiable_sin _).comp (R, z) h2.differentiableAt |>.pow 2)
  have hm : prefactor (uu o.delta (R, z).1 (R, z).2) (vv o.delta (R, z).1 (R, z).2) ≠ 0 := ne_of_gt (C78aux.metric_pos hu)
  have d4 := (d1.sub d2).mul (d3.inv hm)
  exact d4

end C95aux

open C95aux in
/-- **C95 (forces).** Without the `1e-12` the forces are minus the gradient of the potential, at every point off the axis. -/
theorem C95_force {o : Obj} (h : C95Spec.Smooth o) (he : o.eps = 0) {R : ℝ} (hR : 0 < R) (z t : ℝ) :
    HasFDerivAt (fun q : ℝ × ℝ => o.evaluate q.1 q.2 t)
      (-o.Rforce R z t • ContinuousLinearMap.fst ℝ ℝ ℝ + -o.zforce R z t • ContinuousLinearMap.snd ℝ ℝ ℝ) (R, z) := by
  obtain ⟨-, -, hu, hv, hv'⟩ := spec h.delta hR z
  have e0 : C95Spec.withEps o 0 = o := by unfold C95Spec.withEps; rw [← he]
  have hm : 0 < prefactor (uu o.delta R z) (vv o.delta R z) := C78aux.metric_pos hu
  have hδ := h.delta
  refine C78aux.fderiv_of_partials (f := fun R z => o.evaluate R z t) (val_diff h hR z t) ?_ ?_
  · obtain ⟨d1, d2⟩ := u_R h.delta hR z
    refine (val_d h d1 d2 hu hv hv').congr_deriv ?_
    rw [R_eq o h.delta hR, e0]
    unfold gR
    generalize prefactor (uu o.delta R z) (vv o.delta R z) = p at *
    field_simp
    try ring
  · obtain ⟨d1, d2⟩ := u_z h.delta hR z
    refine (val_d h d1 d2 hu hv hv').congr_deriv ?_
    rw [Z_eq o h.delta hR, e0]
    unfold gZ
    generalize prefactor (uu o.delta R z) (vv o.delta R z) = p at *
    field_simp
    ring

open C95aux in
/-- **C95 (second derivatives).** Without the `1e-12` the second derivatives are minus the derivatives of the forces, at every point off the
axis. -/
theorem C95_second {o : Obj} (h : C95Spec.Smooth2 o) (he : o.eps = 0) {R : ℝ} (hR : 0 < R) (z t : ℝ) :
    HasDerivAt (fun x => o.Rforce x z t) (-o.R2deriv R z t) R ∧ HasDerivAt (fun x => o.Rforce R x t) (-o.Rzderiv R z t) z
      ∧ HasDerivAt (fun x => o.zforce x z t) (-o.Rzderiv R z t) R ∧ HasDerivAt (fun x => o.zforce R x t) (-o.z2deriv R z t) z := by
  obtain ⟨-, -, hu, hv, hv'⟩ := spec h.delta hR z
  have e0 : C95Spec.withEps o 0 = o := by unfold C95Spec.withEps; rw [← he]
  have hm : 0 < prefactor (uu o.delta R z) (vv o.delta R z) := C78aux.metric_pos hu
  have hδ := h.delta
  obtain ⟨d1, d2⟩ := u_R h.delta hR z
  obtain ⟨a1, a2⟩ := A_R h.delta hR z
  obtain ⟨f1, f2⟩ := u_z h.delta hR z
  obtain ⟨b1, b2⟩ := A_z h.delta hR z
  refine ⟨?_, ?_, ?_, ?_⟩
  · have d := gR_d h d1 d2 hu hv hv' a1 a2 o.delta hδ
    refine (d.congr_of_eventuallyEq ((lt_mem_nhds hR).mono fun x hx => ?_)).congr_deriv ?_
    · rw [R_eq o h.delta hx, e0]
    · rw [e0, R2_eq o hδ hR, R_eq o hδ hR]
      generalize gR _ _ _ _ _ _ = g
      generalize prefactor (uu o.delta R z) (vv o.delta R z) = p at *
      generalize uu o.delta R z = u at *
      generalize vv o.delta R z = v at *
      generalize cosh (2 * u) = C2
      generalize cos (2 * v) = c2
      field_simp
      ring
  · have d := gR_d h f1 f2 hu hv hv' b1 b2 o.delta hδ
    refine (d.congr_of_eventuallyEq (.of_forall fun x => ?_)).congr_deriv ?_
    · rw [R_eq o h.delta hR, e0]
    · have hp : prefactor (uu o.delta R z) (vv o.delta R z) = (cosh (uu o.delta R z) * sin (vv o.delta R z)) ^ 2
          + (sinh (uu o.delta R z) * cos (vv o.delta R z)) ^ 2 := by
        rw [mul_pow, mul_pow, cosh_sq, cos_sq', prefactor]
        ring
      rw [e0, RZ_eq o hδ hR, Z_eq o hδ hR]
      unfold gR gZ
      have hm' := hm
      rw [hp] at hm'
      rw [hp]
      clear a1 b1 a2 b2 d1 d2 f1 f2 d hp hm
      generalize uu o.delta R z = u at *
      generalize vv o.delta R z = v at *
      generalize cosh (2 * u) = C2
      generalize cos (2 * v) = c2
      generalize o.dUdu u = U1
      generalize o.d2Udu2 u = U2
      generalize o.dVdv v = V1
      generalize o.d2Vdv2 v = V2
      generalize o.U u - o.V v = f
      generalize cosh u = C at *
      generalize sinh u = S at *
      generalize cos v = c at *
      generalize sin v = s at *
      have hm2 : C ^ 2 * s ^ 2 + S ^ 2 * c ^ 2 ≠ 0 := by rw [← mul_pow, ← mul_pow]; exact hm'.ne'
      rw [mul_pow, mul_pow]
      field_simp
      ring
  · have d := gZ_d h d1 d2 hu hv hv' a1 a2 o.delta hδ
    refine (d.congr_of_eventuallyEq ((lt_mem_nhds hR).mono fun x hx => ?_)).congr_deriv ?_
    · rw [Z_eq o h.delta hx, e0]
    · rw [e0, RZ_eq o hδ hR, Z_eq o hδ hR]
      generalize gZ _ _ _ _ _ _ = g
      generalize prefactor (uu o.delta R z) (vv o.delta R z) = p at *
      generalize uu o.delta R z = u at *
      generalize vv o.delta R z = v at *
      generalize cosh (2 * u) = C2
      generalize cos (2 * v) = c2
      field_simp
      ring
  · have d := gZ_d h f1 f2 hu hv hv' b1 b2 o.delta hδ
    refine (d.congr_of_eventuallyEq (.of_forall fun x => ?_)).congr_deriv ?_
    · rw [Z_eq o h.delta hR, e0]
    · rw [e0, Z2_eq o hδ hR, Z_eq o hδ hR]
      generalize gZ _ _ _ _ _ _ = g
      generalize prefactor (uu o.delta R z) (vv o.delta R z) = p at *
      generalize uu o.delta R z = u at *
      generalize vv o.delta R z = v at *
      generalize cosh (2 * u) = C2
      generalize cos (2 * v) = c2
      field_simp
      ring

end Verif
