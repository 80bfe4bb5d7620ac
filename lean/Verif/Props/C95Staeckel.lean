import Verif.Props.C95

set_option autoImplicit false

/-!
# C95, continued: what is kept of the wrapped potential, the `1e-12`, the C code
-/

noncomputable section
namespace Verif
open Real Set OblateStaeckel Filter Topology
open C78Spec (uOf vOf)

namespace C95aux
variable {o : Obj}

theorem refpot_eq (o : Obj) : o.refpot = o.U o.u0 := by
  unfold Obj.refpot Obj.U
  ring

theorem V_plane (o : Obj) : o.V (π / 2) = 0 := by
  rw [V_eq, refpot_eq, U_eq, cosh_sq]
  simp

theorem eval_uv (o : Obj) (hδ : 0 < o.delta) {u v : ℝ} (hu : 0 ≤ u) (hv : 0 ≤ v) (hv' : v ≤ π) (t : ℝ) :
    o.evaluate (o.delta * sinh u * sin v) (o.delta * cosh u * cos v) t = (o.U u - o.V v) / prefactor u v := by
  obtain ⟨e1, e2⟩ := of_uv hδ hu hv hv'
  change (o.U (uu o.delta _ _) - o.V (vv o.delta _ _)) / prefactor (uu o.delta _ _) (vv o.delta _ _) = _
  rw [e1, e2]

/-- Points of the plane. -/
theorem plane_uv {δ R : ℝ} (hδ : 0 < δ) (hR : 0 ≤ R) : 0 ≤ arsinh (R / δ) ∧ δ * sinh (arsinh (R / δ)) = R
    ∧ uu δ R 0 = arsinh (R / δ) ∧ vv δ R 0 = π / 2 := by
  have h0 : 0 ≤ arsinh (R / δ) := arsinh_nonneg_iff.2 (by positivity)
  have h1 : δ * sinh (arsinh (R / δ)) = R := by rw [sinh_arsinh]; field_simp
  have h2 := of_uv hδ h0 (by positivity : 0 ≤ π / 2) (by linarith [pi_pos])
  rw [sin_pi_div_two, cos_pi_div_two, mul_one, mul_zero, h1] at h2
  exact ⟨h0, h1, h2⟩

theorem reflect {δ : ℝ} (R z : ℝ) : uu δ R (-z) = uu δ R z ∧ vv δ R (-z) = π - vv δ R z := by
  have e1 : (-z + δ) ^ 2 + R ^ 2 = (z - δ) ^ 2 + R ^ 2 := by ring
  have e2 : (-z - δ) ^ 2 + R ^ 2 = (z + δ) ^ 2 + R ^ 2 := by ring
  simp only [uu, vv, Coords.Rz_to_uv, Coords.Rz_to_coshucosv, Bool.false_eq_true, if_false, e1, e2]
  refine ⟨by rw [add_comm], ?_⟩
  rw [← arccos_neg]
  congr 1
  ring

theorem V_reflect (o : Obj) (he : ∀ R z, (o.pot 0).phi R (-z) = (o.pot 0).phi R z) (v : ℝ) : o.V (π - v) = o.V v := by
  rw [V_eq, V_eq, sin_pi_sub, cos_pi_sub, mul_neg]
  simp only [Obj.w]
  rw [he]

theorem comp_cont {f : ℝ → ℝ} {g : ℝ × ℝ → ℝ} {q : ℝ × ℝ} (hf : ContinuousAt f (g q)) (hg : ContinuousAt g q) : ContinuousAt (fun q => f (g q)) q :=
  ContinuousAt.comp (f := g) (x := q) hf hg

theorem cont (h : C95Spec.Smooth2 o) (he : o.eps = 0) {q : ℝ × ℝ} (hq : 0 < q.1) :
    ContinuousAt (fun q : ℝ × ℝ => uu o.delta q.1 q.2) q ∧ ContinuousAt (fun q : ℝ × ℝ => vv o.delta q.1 q.2) q
      ∧ ContinuousAt (fun q : ℝ × ℝ => o.dUdu (uu o.delta q.1 q.2)) q ∧ ContinuousAt (fun q : ℝ × ℝ => o.dVdv (vv o.delta q.1 q.2)) q
      ∧ ContinuousAt (fun q : ℝ × ℝ => o.U (uu o.delta q.1 q.2) - o.V (vv o.delta q.1 q.2)) q
      ∧ prefactor (uu o.delta q.1 q.2) (vv o.delta q.1 q.2) ≠ 0 := by
  have e0 : C95Spec.withEps o 0 = o := by unfold C95Spec.withEps; rw [← he]
  obtain ⟨R, z⟩ := q
  obtain ⟨-, -, hu, hv, hv'⟩ := spec h.delta hq z
  obtain ⟨h1, h2⟩ := uv_fd h.delta hq z
  have d := dU_d h hu
  rw [e0] at d
  have c1 := h1.continuousAt
  have c2 := h2.continuousAt
  have d1 := d.continuousAt
  have d2 := (dV_d h hv hv').continuousAt
  have d3 := (U_d h.toSmooth hu).continuousAt
  have d4 := (V_d h.toSmooth hv hv').continuousAt
  exact ⟨c1, c2, comp_cont (f := o.dUdu) (g := fun q : ℝ × ℝ => uu o.delta q.1 q.2) d1 c1, comp_cont (f := o.dVdv) (g := fun q : ℝ × ℝ => vv o.delta q.1 q.2) d2 c2,
    (comp_cont (f := o.U) (g := fun q : ℝ × ℝ => uu o.delta q.1 q.2) d3 c1).sub (comp_cont (f := o.V) (g := fun q : ℝ × ℝ => vv o.delta q.1 q.2) d4 c2), (C78aux.metric_pos hu).ne'⟩

end C95aux

open C95aux in
/-- **C95 (plane).** In the plane the potential is the wrapped one. -/
theorem C95_plane {o : Obj} (hδ : 0 < o.delta) {R : ℝ} (hR : 0 ≤ R) (t : ℝ) : o.evaluate R 0 t = (o.pot 0).phi R 0 := by
  obtain ⟨h0, h1, -, -⟩ := plane_uv hδ hR
  have h := eval_uv o hδ h0 (by positivity : 0 ≤ π / 2) (by linarith [pi_pos]) t
  rw [sin_pi_div_two, cos_pi_div_two, mul_one, mul_zero, h1, V_plane, U_eq, h1] at h
  rw [h, prefactor, sin_pi_div_two, one_pow, ← cosh_sq, sub_zero, mul_comm, mul_div_assoc, div_self (pow_ne_zero 2 (cosh_pos _).ne'), mul_one]
  rfl

open C95aux in
/-- **C95 (spheroid).** On the spheroid of the reference value (a point `(R, z)` given as `u0=` lies on it) the potential is the wrapped one. -/
theorem C95_spheroid {o : Obj} (hδ : 0 < o.delta) (hu : 0 < o.u0) {v : ℝ} (hv : 0 ≤ v) (hv' : v ≤ π) (t : ℝ) :
    o.evaluate (o.delta * sinh o.u0 * sin v) (o.delta * cosh o.u0 * cos v) t
      = (o.pot 0).phi (o.delta * sinh o.u0 * sin v) (o.delta * cosh o.u0 * cos v) := by
  have hp : 0 < prefactor o.u0 v := C78aux.metric_pos hu
  rw [eval_uv o hδ hu.le hv hv', V_eq, refpot_eq, div_eq_iff hp.ne']
  simp only [prefactor, Obj.w]
  ring

open C95aux in
/-- **C95 (reference point).** With a point off the axis as `u0=`, the potential at that point is the wrapped one. -/
theorem C95_point (amp : ℝ) (pot : ℝ → Wrapped) {delta : ℝ} (hδ : 0 < delta) {R : ℝ} (hR : 0 < R) (z t : ℝ) :
    (init amp pot delta (.inr (R, z))).evaluate R z t = (pot 0).phi R z := by
  obtain ⟨h1, h2, hu, hv, hv'⟩ := spec hδ hR z
  have h := C95_spheroid (o := init amp pot delta (.inr (R, z))) hδ hu hv.le hv'.le t
  change (init amp pot delta (.inr (R, z))).evaluate (delta * sinh (uu delta R z) * sin (vv delta R z)) (delta * cosh (uu delta R z) * cos (vv delta R z)) t
    = (pot 0).phi (delta * sinh (uu delta R z) * sin (vv delta R z)) (delta * cosh (uu delta R z) * cos (vv delta R z)) at h
  rwa [← h1, ← h2] at h

open C95aux in
/-- **C95 (Staeckel potentials).** A potential that separates with the focal distance of the wrapper is not changed. -/
theorem C95_fixed {o : Obj} (hδ : 0 < o.delta) (hu0 : 0 < o.u0) {f g : ℝ → ℝ}
    (hs : ∀ u v, 0 < u → 0 < v → v < π → (sinh u ^ 2 + sin v ^ 2) * (o.pot 0).phi (o.delta * sinh u * sin v) (o.delta * cosh u * cos v) = f u - g v)
    {R : ℝ} (hR : 0 < R) (z t : ℝ) : o.evaluate R z t = (o.pot 0).phi R z := by
  obtain ⟨h1, h2, hu, hv, hv'⟩ := spec hδ hR z
  have hp : 0 < prefactor (uu o.delta R z) (vv o.delta R z) := C78aux.metric_pos hu
  change (o.U (uu o.delta R z) - o.V (vv o.delta R z)) / prefactor (uu o.delta R z) (vv o.delta R z) = _
  have hh : (0 : ℝ) < π / 2 := by positivity
  have hh' : π / 2 < π := by linarith [pi_pos]
  have a1 := hs _ _ hu hv hv'
  have a2 := hs _ _ hu0 hv hv'
  have a3 := hs _ _ hu hh hh'
  have a4 := hs _ _ hu0 hh hh'
  rw [← h1, ← h2] at a1
  rw [sin_pi_div_two, cos_pi_div_two, mul_one, mul_zero, one_pow, ← cosh_sq] at a3 a4
  rw [div_eq_iff hp.ne', V_eq, refpot_eq, U_eq, U_eq]
  simp only [prefactor, Obj.w] at *
  linear_combination a3 - a4 + a2 - a1

open C95aux in
/-- **C95 (a Staeckel potential).** For a wrapped potential that is symmetric about the plane the result, times its amplitude, is a Staeckel potential: with
it actions, angles and frequencies are those of C78. -/
theorem C95_staeckel {o : Obj} (h : C95Spec.Smooth2 o) (he : o.eps = 0) (hev : ∀ R z, (o.pot 0).phi R (-z) = (o.pot 0).phi R z) (t : ℝ) :
    C78Spec.Staeckel (fun R z => o.amp * o.evaluate R z t) (fun R z => o.amp * o.Rforce R z t) (fun R z => o.amp * o.zforce R z t) o.delta
      (fun u => o.amp * o.U u) (fun v => o.amp * o.V v) := by
  have e0 : C95Spec.withEps o 0 = o := by unfold C95Spec.withEps; rw [← he]
  have cont := fun q : ℝ × ℝ => cont h he (q := q)
  have ev : ∀ q : ℝ × ℝ, 0 < q.1 → ∀ᶠ x : ℝ × ℝ in 𝓝 q, 0 < x.1 := fun q hq => continuous_fst.continuousAt.eventually (lt_mem_nhds hq)
  have hδ := h.delta
  refine { delta := h.delta, grad := fun R z hR => ?_, contR := fun q hq => ?_, contZ := fun q hq => ?_, even := fun R z => ?_, sep := fun u v hu hv hv' => ?_ }
  · have := (C95_force h.toSmooth he hR z t).const_mul o.amp
    refine this.congr_fderiv ?_
    rw [smul_add, smul_smul, smul_smul, mul_neg, mul_neg]
  · obtain ⟨c1, c2, c3, c4, c5, c6⟩ := cont q hq
    refine ContinuousAt.continuousWithinAt (continuousAt_const.mul (f := fun _ => o.amp) (g := fun q : ℝ × ℝ => o.Rforce q.1 q.2 t) ?_)
    refine ContinuousAt.congr ?_ ((ev q hq).mono fun x hx => (R_eq o h.delta hx x.2 t).symm)
    have hp : ContinuousAt (fun q : ℝ × ℝ => prefactor (uu o.delta q.1 q.2) (vv o.delta q.1 q.2)) q := by
      unfold prefactor
      exact ((comp_cont (f := sinh) continuous_sinh.continuousAt c1).pow 2).add ((comp_cont (f := sin) continuous_sin.continuousAt c2).pow 2)
    have s1 := comp_cont (f := sinh) (g := fun q : ℝ × ℝ => uu o.delta q.1 q.2) continuous_sinh.continuousAt c1
    have s2 := comp_cont (f := cosh) (g := fun q : ℝ × ℝ => uu o.delta q.1 q.2) continuous_cosh.continuousAt c1
    have s3 := comp_cont (f := sin) (g := fun q : ℝ × ℝ => vv o.delta q.1 q.2) continuous_sin.continuousAt c2
    have s4 := comp_cont (f := cos) (g := fun q : ℝ × ℝ => vv o.delta q.1 q.2) continuous_cos.continuousAt c2
    unfold gR
    exact ((((c3.mul (s2.mul s3)).sub (c4.mul (s1.mul s4))).sub ((c5.mul (((continuousAt_const.mul (s1.mul s2)).mul (s2.mul s3)).add
      ((continuousAt_const.mul (s3.mul s4)).mul (s1.mul s4)))).div hp c6)).neg).div (continuousAt_const.mul (hp.pow 2)) (mul_ne_zero h.delta.ne' (pow_ne_zero 2 c6))
  · obtain ⟨c1, c2, c3, c4, c5, c6⟩ := cont q hq
    refine ContinuousAt.continuousWithinAt (continuousAt_const.mul (f := fun _ => o.amp) (g := fun q : ℝ × ℝ => o.zforce q.1 q.2 t) ?_)
    refine ContinuousAt.congr ?_ ((ev q hq).mono fun x hx => (Z_eq o h.delta hx x.2 t).symm)
    have hp : ContinuousAt (fun q : ℝ × ℝ => prefactor (uu o.delta q.1 q.2) (vv o.delta q.1 q.2)) q := by
      unfold prefactor
      exact ((comp_cont (f := sinh) continuous_sinh.continuousAt c1).pow 2).add ((comp_cont (f := sin) continuous_sin.continuousAt c2).pow 2)
    have s1 := comp_cont (f := sinh) (g := fun q : ℝ × ℝ => uu o.delta q.1 q.2) continuous_sinh.continuousAt c1
    have s2 := comp_cont (f := cosh) (g := fun q : ℝ × ℝ => uu o.delta q.1 q.2) continuous_cosh.continuousAt c1
    have s3 := comp_cont (f := sin) (g := fun q : ℝ × ℝ => vv o.delta q.1 q.2) continuous_sin.continuousAt c2
    have s4 := comp_cont (f := cos) (g := fun q : ℝ × ℝ => vv o.delta q.1 q.2) continuous_cos.continuousAt c2
    unfold gZ
    exact ((((c3.mul (s1.mul s4)).add (c4.mul (s2.mul s3))).sub ((c5.mul (((continuousAt_const.mul (s1.mul s2)).mul (s1.mul s4)).sub
      ((continuousAt_const.mul (s3.mul s4)).mul (s2.mul s3)))).div hp c6)).neg).div (continuousAt_const.mul (hp.pow 2)) (mul_ne_zero h.delta.ne' (pow_ne_zero 2 c6))
  · obtain ⟨r1, r2⟩ := reflect (δ := o.delta) R z
    change o.amp * ((o.U (uu o.delta R (-z)) - o.V (vv o.delta R (-z))) / prefactor (uu o.delta R (-z)) (vv o.delta R (-z))) = o.amp *
      ((o.U (uu o.delta R z) - o.V (vv o.delta R z)) / prefactor (uu o.delta R z) (vv o.delta R z))
    rw [r1, r2, V_reflect o hev, prefactor, sin_pi_sub]
    rfl
  · have hp : 0 < prefactor u v := C78aux.metric_pos hu
    change prefactor u v * (o.amp * o.evaluate _ _ t) = _
    rw [eval_uv o h.delta hu.le hv.le hv'.le]
    field_simp

namespace C95aux

/-- What `1e-12` does to `1 / tanh(u)`. -/
theorem inv_eps {T e : ℝ} (hT : 0 < T) (he : 0 ≤ e) : |1 / T - 1 / (T + e)| ≤ e / T ^ 2 ∧ |1 / T ^ 2 - 1 / (T + e) ^ 2| ≤ 2 * e / T ^ 3 := by
  have h1 : 1 / T - 1 / (T + e) = e / (T * (T + e)) := by field_simp; ring
  have h2 : 1 / T ^ 2 - 1 / (T + e) ^ 2 = e * (2 * T + e) / (T ^ 2 * (T + e) ^ 2) := by field_simp; ring
  constructor
  · rw [h1, abs_of_nonneg (by positivity), div_le_div_iff₀ (by positivity) (by positivity)]
    nlinarith [mul_nonneg he (mul_nonneg hT.le he)]
  · rw [h2, abs_of_nonneg (by positivity), div_le_div_iff₀ (by positivity) (by positivity)]
    have : 0 ≤ e * T ^ 2 * (3 * T * e + 2 * e ^ 2) := by positivity
    nlinarith

theorem e1_le (o : Obj) (hδ : 0 < o.delta) (he : 0 ≤ o.eps) {u : ℝ} (hu : 0 < u) :
    |o.dUdu u - (C95Spec.withEps o 0).dUdu u| ≤ o.eps * (o.delta * cosh u ^ 4 * |(o.pot 0).rforce (o.delta * sinh u) 0| / sinh u) := by
  have hS := sinh_pos_iff.2 hu
  have hC := cosh_pos u
  have hT : 0 < tanh u := by rw [tanh_eq_sinh_div_cosh]; positivity
  have e : o.dUdu u - (C95Spec.withEps o 0).dUdu u = cosh u ^ 2 * o.w.rforce (o.delta * sinh u) 0 * (o.delta * sinh u) * (1 / tanh u - 1 / (tanh u + o.eps)) := by
    rw [dU_eq, dU_eq]
    simp only [C95Spec.withEps, Obj.w, add_zero]
    ring
  rw [e, abs_mul, abs_mul, abs_mul, abs_of_pos (by positivity : 0 < cosh u ^ 2), abs_of_pos (by positivity : 0 < o.delta * sinh u)]
  refine (mul_le_mul_of_nonneg_left (inv_eps hT he).1 (by positivity)).trans (le_of_eq ?_)
  rw [tanh_eq_sinh_div_cosh]
  simp only [Obj.w]
  field_simp

theorem e2_le (o : Obj) (hδ : 0 < o.delta) (he : 0 ≤ o.eps) {u : ℝ} (hu : 0 < u) :
    |o.d2Udu2 u - (C95Spec.withEps o 0).d2Udu2 u| ≤ o.eps * (4 * cosh u ^ 3 * o.delta * |(o.pot 0).rforce (o.delta * sinh u) 0|
      + 2 * cosh u ^ 5 * o.delta ^ 2 * |(o.pot 0).r2deriv (o.delta * sinh u) 0| / sinh u) := by
  have hS := sinh_pos_iff.2 hu
  have hC := cosh_pos u
  have hT : 0 < tanh u := by rw [tanh_eq_sinh_div_cosh]; positivity
  have e : o.d2Udu2 u - (C95Spec.withEps o 0).d2Udu2 u
      = 4 * cosh u * sinh u * (o.delta * sinh u) * o.w.rforce (o.delta * sinh u) 0 * (1 / tanh u - 1 / (tanh u + o.eps))
        - cosh u ^ 2 * (o.delta * sinh u) ^ 2 * o.w.r2deriv (o.delta * sinh u) 0 * (1 / tanh u ^ 2 - 1 / (tanh u + o.eps) ^ 2) := by
    rw [d2U_eq, d2U_eq]
    simp only [C95Spec.withEps, Obj.w, add_zero]
    ring
  rw [e]
  refine (abs_sub _ _).trans ?_
  rw [abs_mul, abs_mul, abs_mul _ (1 / tanh u ^ 2 - _), abs_mul (cosh u ^ 2 * _), abs_of_pos (by positivity : 0 < 4 * cosh u * sinh u * (o.delta * sinh u)),
    abs_of_pos (by positivity : 0 < cosh u ^ 2 * (o.delta * sinh u) ^ 2)]
  refine (add_le_add (mul_le_mul_of_nonneg_left (inv_eps hT he).1 (by positivity)) (mul_le_mul_of_nonneg_left (inv_eps hT he).2 (by positivity))).trans (le_of_eq ?_)
  rw [tanh_eq_sinh_div_cosh]
  simp only [Obj.w]
  field_simp

end C95aux

open C95aux in
/-- **C95 (`1e-12`).** The constant that is added to `tanh(u)` changes the forces and second derivatives by terms linear in two numbers, which are of the order of
the constant times the force and second derivative of the wrapped potential in the plane. -/
theorem C95_eps (o : Obj) (hδ : 0 < o.delta) (he : 0 ≤ o.eps) {R : ℝ} (hR : 0 < R) (z t : ℝ) : ∃ u v e₁ e₂ p A B : ℝ,
    (0 < u ∧ R = o.delta * sinh u * sin v ∧ z = o.delta * cosh u * cos v)
    ∧ (p = sinh u ^ 2 + sin v ^ 2 ∧ A = cosh u * sin v ∧ B = sinh u * cos v)
    ∧ |e₁| ≤ o.eps * (o.delta * cosh u ^ 4 * |(o.pot 0).rforce (o.delta * sinh u) 0| / sinh u)
    ∧ |e₂| ≤ o.eps * (4 * cosh u ^ 3 * o.delta * |(o.pot 0).rforce (o.delta * sinh u) 0|
      + 2 * cosh u ^ 5 * o.delta ^ 2 * |(o.pot 0).r2deriv (o.delta * sinh u) 0| / sinh u)
    ∧ o.Rforce R z t = (C95Spec.withEps o 0).Rforce R z t - e₁ * A / (o.delta * p ^ 2)
    ∧ o.zforce R z t = (C95Spec.withEps o 0).zforce R z t - e₁ * B / (o.delta * p ^ 2)
    ∧ o.R2deriv R z t = (C95Spec.withEps o 0).R2deriv R z t
      + (e₂ * A ^ 2 + e₁ * sinh u * cosh u - 6 * e₁ * A * (sinh u * cosh u * A + sin v * cos v * B) / p) / (o.delta ^ 2 * p ^ 3)
    ∧ o.z2deriv R z t = (C95Spec.withEps o 0).z2deriv R z t
      + (e₂ * B ^ 2 + e₁ * sinh u * cosh u - 6 * e₁ * B * (sinh u * cosh u * B - sin v * cos v * A) / p) / (o.delta ^ 2 * p ^ 3)
    ∧ o.Rzderiv R z t = (C95Spec.withEps o 0).Rzderiv R z t
      + (e₂ * A * B + e₁ * sin v * cos v - 2 * e₁ * A * (sinh u * cosh u * B - sin v * cos v * A) / p
        - 4 * e₁ * B * (sinh u * cosh u * A + sin v * cos v * B) / p) / (o.delta ^ 2 * p ^ 3) := by
  obtain ⟨h1, h2, hu, hv, hv'⟩ := spec hδ hR z
  have hm : 0 < prefactor (uu o.delta R z) (vv o.delta R z) := C78aux.metric_pos hu
  have hδ0 : 0 < (C95Spec.withEps o 0).delta := hδ
  have eR : o.Rforce R z t = (C95Spec.withEps o 0).Rforce R z t - (o.dUdu (uu o.delta R z) - (C95Spec.withEps o 0).dUdu (uu o.delta R z))
      * (cosh (uu o.delta R z) * sin (vv o.delta R z)) / (o.delta * prefactor (uu o.delta R z) (vv o.delta R z) ^ 2) := by
    rw [R_eq o hδ hR, R_eq _ hδ0 hR]
    change _ = gR o.delta _ (o.dVdv (vv o.delta R z)) (o.U (uu o.delta R z) - o.V (vv o.delta R z)) (uu o.delta R z) (vv o.delta R z) - _
    change _ = gR o.delta ((C95Spec.withEps o 0).dUdu (uu o.delta R z)) _ _ _ _ - _
    unfold gR
    ring
  have eZ : o.zforce R z t = (C95Spec.withEps o 0).zforce R z t - (o.dUdu (uu o.delta R z) - (C95Spec.withEps o 0).dUdu (uu o.delta R z))
      * (sinh (uu o.delta R z) * cos (vv o.delta R z)) / (o.delta * prefactor (uu o.delta R z) (vv o.delta R z) ^ 2) := by
    rw [Z_eq o hδ hR, Z_eq _ hδ0 hR]
    change _ = gZ o.delta _ (o.dVdv (vv o.delta R z)) (o.U (uu o.delta R z) - o.V (vv o.delta R z)) (uu o.delta R z) (vv o.delta R z) - _
    change _ = gZ o.delta ((C95Spec.withEps o 0).dUdu (uu o.delta R z)) _ _ _ _ - _
    unfold gZ
    ring
  have k1 : (C95Spec.withEps o 0).delta = o.delta := rfl
  have k2 : (C95Spec.withEps o 0).dVdv = o.dVdv := rfl
  have k3 : (C95Spec.withEps o 0).d2Vdv2 = o.d2Vdv2 := rfl
  have k4 : (C95Spec.withEps o 0).U = o.U := rfl
  have k5 : (C95Spec.withEps o 0).V = o.V := rfl
  refine ⟨uu o.delta R z, vv o.delta R z, _, _, prefactor (uu o.delta R z) (vv o.delta R z), _, _, ⟨hu, h1, h2⟩, ⟨rfl, rfl, rfl⟩, e1_le o hδ he hu, e2_le o hδ he hu, eR, eZ, ?_, ?_, ?_⟩
  · rw [R2_eq o hδ hR, R2_eq _ hδ0 hR, eR, k1, k2, k3, k4, k5]
    generalize prefactor (uu o.delta R z) (vv o.delta R z) = p at *
    ring
  · rw [Z2_eq o hδ hR, Z2_eq _ hδ0 hR, eZ, k1, k2, k3, k4, k5]
    generalize prefactor (uu o.delta R z) (vv o.delta R z) = p at *
    ring
  · rw [RZ_eq o hδ hR, RZ_eq _ hδ0 hR, eZ, k1, k2, k3, k4, k5]
    generalize prefactor (uu o.delta R z) (vv o.delta R z) = p at *
    ring

/-- **C95 (C).** The C functions are the amplitude times the Python functions, at every point. -/
theorem C95_c (o : Obj) (R z phi t : ℝ) : o.cEval R z phi t = o.amp * o.evaluate R z t ∧ o.cRforce R z phi t = o.amp * o.Rforce R z t
    ∧ o.cZforce R z phi t = o.amp * o.zforce R z t ∧ o.cR2deriv R z phi t = o.amp * o.R2deriv R z t
    ∧ o.cZ2deriv R z phi t = o.amp * o.z2deriv R z t ∧ o.cRzderiv R z phi t = o.amp * o.Rzderiv R z t := by
  have h1 : o.cRforce R z phi t = o.amp * o.Rforce R z t := by
    simp only [Obj.cRforce, Obj.Rforce]
    rw [div_div, mul_pow]
  have h2 : o.cZforce R z phi t = o.amp * o.zforce R z t := by
    simp only [Obj.cZforce, Obj.zforce]
    rw [div_div, mul_pow]
  refine ⟨by simp only [Obj.cEval, Obj.evaluate]; rw [mul_div_assoc], h1, h2, ?_, ?_, ?_⟩
  · simp only [Obj.cR2deriv, Obj.R2deriv, h1]
    ring
  · simp only [Obj.cZ2deriv, Obj.z2deriv, h2]
    ring
  · simp only [Obj.cRzderiv, Obj.Rzderiv, h2]
    ring

open C95aux in
/-- **C95 (C, planar).** The planar C functions are the amplitude times the Python functions in the plane. -/
theorem C95_planar_c (o : Obj) (hδ : 0 < o.delta) {R : ℝ} (hR : 0 ≤ R) (phi t : ℝ) : o.cPlanarRforce R phi t = o.amp * o.Rforce R 0 t
    ∧ o.cPlanarR2deriv R phi t = o.amp * o.R2deriv R 0 t := by
  obtain ⟨h0, h1, h2, h3⟩ := plane_uv hδ hR
  have d1 : ∀ u, o.cPlanardUdu u = o.dUdu u := fun u => by
    rw [dU_eq]
    simp [Obj.cPlanardUdu, Coords.uv_to_Rz]
    ring
  have d2 : ∀ u, o.cPlanard2Udu2 u = o.d2Udu2 u := fun u => by
    rw [d2U_eq]
    simp [Obj.cPlanard2Udu2, Coords.uv_to_Rz]
    ring
  have e2 : (Coords.Rz_to_uv R 0 o.delta false).2 = π / 2 := h3
  have f : o.cPlanarRforce R phi t = o.amp * o.Rforce R 0 t := by
    simp only [Obj.cPlanarRforce, Obj.Rforce, d1, e2, V_plane, dprefactor, cos_pi_div_two]
    generalize o.U _ = U
    generalize o.dUdu _ = U1
    generalize prefactor _ _ = p
    ring
  refine ⟨f, ?_⟩
  simp only [Obj.cPlanarR2deriv, Obj.R2deriv, f, d1, d2, e2, V_plane, dprefactor, d2prefactor, cos_pi_div_two]
  generalize o.Rforce R 0 t = F
  generalize o.U _ = U
  generalize o.dUdu _ = U1
  generalize o.d2Udu2 _ = U2
  generalize prefactor _ _ = p
  ring

/-! ### Cases -/

namespace C95aux

/-- A flattened harmonic potential. -/
def harm : Wrapped := ⟨fun R z => (R ^ 2 + 2 * z ^ 2) / 2, fun R _ => -R, fun _ z => -2 * z, fun _ _ => 1, fun _ _ => 2, fun _ _ => 0⟩

def scaled (a : ℝ) (w : Wrapped) : Wrapped :=
  ⟨fun R z => a * w.phi R z, fun R z => a * w.rforce R z, fun R z => a * w.zforce R z, fun R z => a * w.r2deriv R z, fun R z => a * w.z2deriv R z,
    fun R z => a * w.rzderiv R z⟩

theorem lin {F : ℝ → ℝ → ℝ} {R z a b : ℝ} (hd : Differentiable ℝ (fun q : ℝ × ℝ => F q.1 q.2)) (h1 : HasDerivAt (fun x => F x z) a R) (h2 : HasDerivAt (fun x => F R x) b z) :
    HasFDerivAt (fun q : ℝ × ℝ => F q.1 q.2) (a • ContinuousLinearMap.fst ℝ ℝ ℝ + b • ContinuousLinearMap.snd ℝ ℝ ℝ) (R, z) :=
  C78aux.fderiv_of_partials (hd _) h1 h2

theorem harm_smooth (a : ℝ) {o : Obj} (ho : o.pot 0 = scaled a harm) (hδ : 0 < o.delta) (hu : 0 ≤ o.u0) : C95Spec.Smooth2 o where
  delta := hδ
  u0 := hu
  grad R z _ _ := by
    rw [ho]
    refine lin (F := fun R z => a * ((R ^ 2 + 2 * z ^ 2) / 2)) (by fun_prop) ?_ ?_
    · refine (hd_const_mul a (hd_div_const 2 (hd_add (hd_pow 2 (hasDerivAt_id' R)) (hd_const (2 * z ^ 2) R)))).congr_deriv ?_
      simp [scaled, harm]
    · refine (hd_const_mul a (hd_div_const 2 (hd_add (hd_const (R ^ 2) z) (hd_const_mul 2 (hd_pow 2 (hasDerivAt_id' z)))))).congr_deriv ?_
      simp [scaled, harm]
  gradR R z _ _ := by
    rw [ho]
    refine lin (F := fun R _ => a * (-R)) (by fun_prop) ?_ ?_
    · refine (hd_const_mul a (hd_neg (hasDerivAt_id' R))).congr_deriv ?_
      simp [scaled, harm]
    · refine (hd_const (a * -R) z).congr_deriv ?_
      simp [scaled, harm]
  gradZ R z _ _ := by
    rw [ho]
    refine lin (F := fun _ z => a * (-2 * z)) (by fun_prop) ?_ ?_
    · refine (hd_const (a * (-2 * z)) R).congr_deriv ?_
      simp [scaled, harm]
    · refine (hd_const_mul a (hd_const_mul (-2) (hasDerivAt_id' z))).congr_deriv ?_
      simp [scaled, harm]

theorem one_harm : scaled 1 harm = harm := by simp [scaled, harm]

/-- The wrapper of it. -/
def ex : Obj := init 2 (fun _ => harm) 1 (.inl 1)

theorem ex_smooth : C95Spec.Smooth2 (C95Spec.withEps ex 0) := harm_smooth 1 one_harm.symm (by norm_num [C95Spec.withEps, ex, init]) (by norm_num [C95Spec.withEps, ex, init, initU0])

end C95aux

open C95aux

example (z t : ℝ) : HasFDerivAt (fun q : ℝ × ℝ => (C95Spec.withEps ex 0).evaluate q.1 q.2 t)
    (-(C95Spec.withEps ex 0).Rforce 2 z t • ContinuousLinearMap.fst ℝ ℝ ℝ + -(C95Spec.withEps ex 0).zforce 2 z t • ContinuousLinearMap.snd ℝ ℝ ℝ) (2, z) :=
  C95_force ex_smooth.toSmooth rfl (by norm_num) z t

example (z t : ℝ) : HasDerivAt (fun x => (C95Spec.withEps ex 0).zforce 2 x t) (-(C95Spec.withEps ex 0).z2deriv 2 z t) z :=
  (C95_second ex_smooth rfl (by norm_num) z t).2.2.2

example : C78Spec.Staeckel (fun R z => 2 * (C95Spec.withEps ex 0).evaluate R z 0) (fun R z => 2 * (C95Spec.withEps ex 0).Rforce R z 0)
    (fun R z => 2 * (C95Spec.withEps ex 0).zforce R z 0) 1 (fun u => 2 * (C95Spec.withEps ex 0).U u) (fun v => 2 * (C95Spec.withEps ex 0).V v) :=
  C95_staeckel ex_smooth rfl (fun R z => by simp [C95Spec.withEps, ex, init, harm]) 0

example : ex.evaluate 3 0 0 = 9 / 2 := by
  rw [C95_plane (by norm_num [ex, init]) (by norm_num)]
  norm_num [ex, init, harm]

example : (init 2 (fun _ => harm) 1 (.inr (1, 2))).evaluate 1 2 0 = 9 / 2 := by
  rw [C95_point _ _ (by norm_num) (by norm_num)]
  norm_num [harm]

example (v : ℝ) (hv : 0 ≤ v) (hv' : v ≤ π) : ex.evaluate (1 * sinh 1 * sin v) (1 * cosh 1 * cos v) 0 = ((1 * sinh 1 * sin v) ^ 2 + 2 * (1 * cosh 1 * cos v) ^ 2) / 2 :=
  C95_spheroid (o := ex) (by norm_num [ex, init]) (by norm_num [ex, init, initU0]) hv hv' 0

/-- A potential that separates: `R² + z²`. -/
example (a z : ℝ) (w : Wrapped) (hw : w.phi = fun R z => a * (R ^ 2 + z ^ 2)) : (init 1 (fun _ => w) 2 (.inl 1)).evaluate 1 z 0 = a * (1 + z ^ 2) := by
  rw [C95_fixed (o := init 1 (fun _ => w) 2 (.inl 1)) (by norm_num [init]) (by norm_num [init, initU0])
    (f := fun u => 4 * a * sinh u ^ 2 * cosh u ^ 2) (g := fun v => -(4 * a * sin v ^ 2 * cos v ^ 2))]
  · simp [init, hw]
  · intro u v _ _ _
    simp only [init, hw]
    have h1 := cosh_sq u
    have h2 := cos_sq' v
    rw [mul_pow, mul_pow, mul_pow, mul_pow, h1, h2]
    ring
  · norm_num

example (z t : ℝ) : ∃ u v e₁ e₂ p A B : ℝ, (0 < u ∧ 2 = ex.delta * sinh u * sin v ∧ z = ex.delta * cosh u * cos v) ∧ (p = sinh u ^ 2 + sin v ^ 2 ∧ A = cosh u * sin v ∧ B = sinh u * cos v)
    ∧ |e₁| ≤ ex.eps * (ex.delta * cosh u ^ 4 * |(ex.pot 0).rforce (ex.delta * sinh u) 0| / sinh u) ∧ ex.Rforce 2 z t = (C95Spec.withEps ex 0).Rforce 2 z t - e₁ * A / (ex.delta * p ^ 2) := by
  obtain ⟨u, v, e₁, e₂, p, A, B, h1, h2, h3, -, h4, -⟩ := C95_eps ex (by norm_num [ex, init]) (by norm_num [ex, init]) (R := 2) (by norm_num) z t
  exact ⟨u, v, e₁, e₂, p, A, B, h1, h2, h3, h4⟩

example (phi t : ℝ) : ex.cPlanarRforce 2 phi t = 2 * ex.Rforce 2 0 t := (C95_planar_c ex (by norm_num [ex, init]) (by norm_num) phi t).1

/-- **C95 (time).** The time is not passed on: with a potential that grows, smooth at each time, the wrapper is not even in the plane the wrapped potential at that
time. -/
theorem C95_time_fails : ∃ (pot : ℝ → Wrapped) (delta u0 : ℝ), (∀ t, C95Spec.Smooth2 (init 1 (fun _ => pot t) delta (.inl u0)))
    ∧ (init 1 pot delta (.inl u0)).evaluate 1 0 1 ≠ (pot 1).phi 1 0 := by
  refine ⟨fun t => scaled (1 + t) harm, 1, 1, fun t => harm_smooth (1 + t) rfl (by norm_num [init]) (by norm_num [init, initU0]), ?_⟩
  rw [C95_plane (by norm_num [init]) (by norm_num)]
  norm_num [init, scaled, harm]

end Verif
