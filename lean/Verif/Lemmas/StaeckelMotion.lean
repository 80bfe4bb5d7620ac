import Verif.Model.StaeckelAA
import Verif.Lemmas.LibrationRate
import Verif.Props.C30
import Mathlib.Analysis.SpecialFunctions.Arcosh
import Mathlib.Analysis.SpecialFunctions.Trigonometric.InverseDeriv

set_option autoImplicit false

/-!
# Motions in a Staeckel potential

In prolate spheroidal coordinates `R = δ sinh u sin v`, `z = δ cosh u cos v` the motion separates.
-/

noncomputable section
namespace Verif
open Real Set
open IsochroneAA (Point)

/-- A motion in cylindrical coordinates, away from the axis, under an axisymmetric force. -/
structure C78Spec.Motion (FR FZ : ℝ → ℝ → ℝ) (p : ℝ → Point) : Prop where
  pos : ∀ t, 0 < (p t).R
  R : ∀ t, HasDerivAt (fun s => (p s).R) (p t).vR t
  z : ∀ t, HasDerivAt (fun s => (p s).z) (p t).vz t
  phi : ∀ t, HasDerivAt (fun s => (p s).phi) ((p t).vT / (p t).R) t
  vR : ∀ t, HasDerivAt (fun s => (p s).vR) ((p t).vT ^ 2 / (p t).R + FR (p t).R (p t).z) t
  vT : ∀ t, HasDerivAt (fun s => (p s).vT) (-((p t).vR * (p t).vT / (p t).R)) t
  vz : ∀ t, HasDerivAt (fun s => (p s).vz) (FZ (p t).R (p t).z) t

/-- `FR`, `FZ` is the force of the potential, which is smooth away from the axis. -/
structure C78Spec.Potential (pot FR FZ : ℝ → ℝ → ℝ) : Prop where
  grad : ∀ R z, 0 < R → HasFDerivAt (fun q : ℝ × ℝ => pot q.1 q.2)
    (-FR R z • ContinuousLinearMap.fst ℝ ℝ ℝ + -FZ R z • ContinuousLinearMap.snd ℝ ℝ ℝ) (R, z)
  contR : ContinuousOn (fun q : ℝ × ℝ => FR q.1 q.2) {q | 0 < q.1}
  contZ : ContinuousOn (fun q : ℝ × ℝ => FZ q.1 q.2) {q | 0 < q.1}

/-- A Staeckel potential with focal distance `δ`: symmetric about the plane, and `(sinh² u + sin² v) Φ` is the difference of a
function of `u` and a function of `v`. -/
structure C78Spec.Staeckel (pot FR FZ : ℝ → ℝ → ℝ) (δ : ℝ) (U V : ℝ → ℝ) : Prop extends C78Spec.Potential pot FR FZ where
  delta : 0 < δ
  even : ∀ R z, pot R (-z) = pot R z
  sep : ∀ u v, 0 < u → 0 < v → v < π →
    (sinh u ^ 2 + sin v ^ 2) * pot (δ * sinh u * sin v) (δ * cosh u * cos v) = U u - V v

/-- The prolate spheroidal coordinates of the point, from the distances to the foci. -/
def C78Spec.uOf (δ : ℝ) (q : Point) : ℝ := arcosh ((√((q.z + δ) ^ 2 + q.R ^ 2) + √((q.z - δ) ^ 2 + q.R ^ 2)) / (2 * δ))
def C78Spec.vOf (δ : ℝ) (q : Point) : ℝ := arccos ((√((q.z + δ) ^ 2 + q.R ^ 2) - √((q.z - δ) ^ 2 + q.R ^ 2)) / (2 * δ))

open C78Spec (uOf vOf)

/-- The momenta conjugate to `u` and `v`. -/
def C78Spec.pu (δ : ℝ) (q : Point) : ℝ := δ * (q.vR * cosh (uOf δ q) * sin (vOf δ q) + q.vz * sinh (uOf δ q) * cos (vOf δ q))
def C78Spec.pv (δ : ℝ) (q : Point) : ℝ := δ * (q.vR * sinh (uOf δ q) * cos (vOf δ q) - q.vz * cosh (uOf δ q) * sin (vOf δ q))

/-- The energy. -/
def C78Spec.en (pot : ℝ → ℝ → ℝ) (q : Point) : ℝ := pot q.R q.z + q.vR ^ 2 / 2 + q.vT ^ 2 / 2 + q.vz ^ 2 / 2

open C78Spec (pu pv en)

/-- The third integral. -/
def C78Spec.third (pot : ℝ → ℝ → ℝ) (U : ℝ → ℝ) (δ : ℝ) (q : Point) : ℝ :=
  en pot q * sinh (uOf δ q) ^ 2 - pu δ q ^ 2 / (2 * δ ^ 2) - (q.R * q.vT) ^ 2 / (2 * δ ^ 2 * sinh (uOf δ q) ^ 2) - U (uOf δ q)

open C78Spec (third)

namespace C78aux
variable {pot FR FZ : ℝ → ℝ → ℝ} {δ : ℝ} {U V : ℝ → ℝ} {p : ℝ → Point}

theorem along (h : C78Spec.Potential pot FR FZ) {R z : ℝ → ℝ} {R' z' s : ℝ} (hR : HasDerivAt R R' s) (hz : HasDerivAt z z' s)
    (hpos : 0 < R s) : HasDerivAt (fun s => pot (R s) (z s)) (-(FR (R s) (z s) * R' + FZ (R s) (z s) * z')) s := by
  have := (h.grad (R s) (z s) hpos).comp_hasDerivAt (f := fun s => (R s, z s)) s (hR.prodMk hz)
  refine this.congr_deriv ?_
  simp
  ring

/-! ### The coordinates -/

theorem uOf_eq (δ : ℝ) (q : Point) : (Coords.Rz_to_uv q.R q.z δ false).1 = uOf δ q := by
  simp only [Coords.Rz_to_uv, Coords.Rz_to_coshucosv, Bool.false_eq_true, if_false, uOf]
  congr 1
  ring

theorem vOf_eq (δ : ℝ) (q : Point) : (Coords.Rz_to_uv q.R q.z δ false).2 = vOf δ q := by
  simp only [Coords.Rz_to_uv, Coords.Rz_to_coshucosv, Bool.false_eq_true, if_false, vOf]
  congr 1
  ring

theorem uv_spec (hδ : 0 < δ) (q : Point) (hR : 0 < q.R) :
    q.R = δ * sinh (uOf δ q) * sin (vOf δ q) ∧ q.z = δ * cosh (uOf δ q) * cos (vOf δ q)
      ∧ 0 < uOf δ q ∧ 0 < vOf δ q ∧ vOf δ q < π := by
  obtain ⟨h1, h2, h3, h4⟩ := C30_prolate_round_trip q.R q.z δ hδ hR.le
  simp only [Coords.uv_to_Rz, Bool.false_eq_true, if_false, Prod.mk.injEq] at h1
  rw [uOf_eq] at h1 h2
  rw [vOf_eq] at h1 h3 h4
  change δ * sinh (uOf δ q) * sin (vOf δ q) = q.R ∧ _ = _ at h1
  change 0 ≤ uOf δ q at h2
  change 0 ≤ vOf δ q at h3
  change vOf δ q ≤ π at h4
  refine ⟨h1.1.symm, h1.2.symm, lt_of_le_of_ne h2 fun e => ?_, lt_of_le_of_ne h3 fun e => ?_, lt_of_le_of_ne h4 fun e => ?_⟩
  · rw [← e, sinh_zero] at h1; linarith [h1.1]
  · rw [← e, sin_zero] at h1; linarith [h1.1]
  · rw [e, sin_pi] at h1; linarith [h1.1]

theorem uv_diff (hδ : 0 < δ) {q : ℝ → Point} {t R' z' : ℝ} (hpos : 0 < (q t).R) (hR : HasDerivAt (fun s => (q s).R) R' t)
    (hz : HasDerivAt (fun s => (q s).z) z' t) :
    DifferentiableAt ℝ (fun s => uOf δ (q s)) t ∧ DifferentiableAt ℝ (fun s => vOf δ (q s)) t := by
  obtain ⟨-, -, hu, hv, hv'⟩ := uv_spec hδ (q t) hpos
  have hd1 := (hR.differentiableAt)
  have hd2 := (hz.differentiableAt)
  have h1 : DifferentiableAt ℝ (fun s => √(((q s).z + δ) ^ 2 + (q s).R ^ 2)) t :=
    DifferentiableAt.sqrt (by fun_prop) (by positivity)
  have h2 : DifferentiableAt ℝ (fun s => √(((q s).z - δ) ^ 2 + (q s).R ^ 2)) t :=
    DifferentiableAt.sqrt (by fun_prop) (by positivity)
  have e1 : ∀ s, uOf δ (q s) = arcosh (0.5 / δ * (√(((q s).z + δ) ^ 2 + (q s).R ^ 2) + √(((q s).z - δ) ^ 2 + (q s).R ^ 2))) :=
    fun s => by unfold uOf; congr 1; ring
  have e2 : ∀ s, vOf δ (q s) = arccos (0.5 / δ * (√(((q s).z + δ) ^ 2 + (q s).R ^ 2) - √(((q s).z - δ) ^ 2 + (q s).R ^ 2))) :=
    fun s => by unfold vOf; congr 1; ring
  rw [e1] at hu
  rw [e2] at hv hv'
  obtain ⟨f1, f2, f3, -, -⟩ := C30aux.foci (x := (q t).z) (y := (q t).R) hδ
  constructor
  · rw [funext e1]
    refine DifferentiableAt.comp (g := arcosh) t (differentiableAt_arcosh (lt_of_le_of_ne f1 fun e => ?_)) ((h1.add h2).const_mul _)
    rw [← e, arcosh_zero] at hu
    exact lt_irrefl _ hu
  · rw [funext e2]
    refine DifferentiableAt.comp (g := arccos) t (differentiableAt_arccos.2 ⟨fun e => ?_, fun e => ?_⟩) ((h1.sub h2).const_mul _)
    · rw [e, arccos_neg_one] at hv'; exact lt_irrefl _ hv'
    · rw [e, arccos_one] at hv; exact lt_irrefl _ hv

/-- The rate of the separated motions. -/
def rate (δ : ℝ) (q : Point) : ℝ := 1 / (δ ^ 2 * (sinh (uOf δ q) ^ 2 + sin (vOf δ q) ^ 2))

theorem metric_pos {u v : ℝ} (hu : 0 < u) : 0 < sinh u ^ 2 + sin v ^ 2 := by
  have := sinh_pos_iff.2 hu
  positivity

theorem rate_pos (hδ : 0 < δ) (q : Point) (hR : 0 < q.R) : 0 < rate δ q := by
  obtain ⟨-, -, hu, -, -⟩ := uv_spec hδ q hR
  have := metric_pos (v := vOf δ q) hu
  unfold rate
  positivity

theorem duv (hδ : 0 < δ) (m : C78Spec.Motion FR FZ p) (t : ℝ) :
    HasDerivAt (fun s => uOf δ (p s)) (rate δ (p t) * pu δ (p t)) t ∧
      HasDerivAt (fun s => vOf δ (p s)) (rate δ (p t) * pv δ (p t)) t := by
  obtain ⟨h1, h2⟩ := uv_diff hδ (m.pos t) (m.R t) (m.z t)
  obtain ⟨hR, hz, hu, hv, hv'⟩ := uv_spec hδ (p t) (m.pos t)
  have hm := metric_pos (v := vOf δ (p t)) hu
  have d1 := h1.hasDerivAt
  have d2 := h2.hasDerivAt
  set u' := deriv (fun s => uOf δ (p s)) t
  set v' := deriv (fun s => vOf δ (p s)) t
  have r1 : HasDerivAt (fun s => (p s).R) (δ * (cosh (uOf δ (p t)) * u' * sin (vOf δ (p t)) + sinh (uOf δ (p t)) * (cos (vOf δ (p t)) * v'))) t := by
    have : (fun s => (p s).R) = fun s => δ * (sinh (uOf δ (p s)) * sin (vOf δ (p s))) := by
      funext s
      rw [← mul_assoc]
      exact (uv_spec hδ (p s) (m.pos s)).1
    rw [this]
    exact hd_const_mul δ (hd_mul (hd_sinh d1) (hd_sin d2))
  have r2 : HasDerivAt (fun s => (p s).z) (δ * (sinh (uOf δ (p t)) * u' * cos (vOf δ (p t)) + cosh (uOf δ (p t)) * (-sin (vOf δ (p t)) * v'))) t := by
    have : (fun s => (p s).z) = fun s => δ * (cosh (uOf δ (p s)) * cos (vOf δ (p s))) := by
      funext s
      rw [← mul_assoc]
      exact (uv_spec hδ (p s) (m.pos s)).2.1
    rw [this]
    exact hd_const_mul δ (hd_mul (hd_cosh d1) (hd_cos d2))
  have q1 := (m.R t).unique r1
  have q2 := (m.z t).unique r2
  have hA := cosh_sq (uOf δ (p t))
  have hs := sin_sq_add_cos_sq (vOf δ (p t))
  refine ⟨d1.congr_deriv ?_, d2.congr_deriv ?_⟩
  · unfold rate pu
    rw [q1, q2]
    generalize uOf δ (p t) = u at *
    generalize vOf δ (p t) = v at *
    field_simp
    linear_combination -(u' * sin v ^ 2) * hA - u' * sinh u ^ 2 * hs
  · unfold rate pv
    rw [q1, q2]
    generalize uOf δ (p t) = u at *
    generalize vOf δ (p t) = v at *
    field_simp
    linear_combination -(v' * sin v ^ 2) * hA - v' * sinh u ^ 2 * hs

/-! ### Conserved quantities -/

theorem lz_const (m : C78Spec.Motion FR FZ p) (t s : ℝ) : (p t).R * (p t).vT = (p s).R * (p s).vT := by
  refine C50aux.const_of_deriv (fun t => (p t).R * (p t).vT) (fun t => ?_) t s
  have hR := m.pos t
  refine (hd_mul (m.R t) (m.vT t)).congr_deriv ?_
  field_simp
  ring


theorem en_const (h : C78Spec.Potential pot FR FZ) (m : C78Spec.Motion FR FZ p) (t s : ℝ) : en pot (p t) = en pot (p s) := by
  refine C50aux.const_of_deriv (fun t => en pot (p t)) (fun t => ?_) t s
  have hR := m.pos t
  refine (hd_add (hd_add (hd_add (along h (m.R t) (m.z t) hR) (hd_div_const 2 (hd_pow 2 (m.vR t)))) (hd_div_const 2 (hd_pow 2 (m.vT t))))
    (hd_div_const 2 (hd_pow 2 (m.vz t)))).congr_deriv ?_
  norm_num
  field_simp
  ring

/-! ### The separated functions -/

/-- The potential and its derivatives in `u` and `v`. -/
def phiUV (pot : ℝ → ℝ → ℝ) (δ u v : ℝ) : ℝ := pot (δ * sinh u * sin v) (δ * cosh u * cos v)
def phiU (FR FZ : ℝ → ℝ → ℝ) (δ u v : ℝ) : ℝ :=
  -(FR (δ * sinh u * sin v) (δ * cosh u * cos v) * (δ * cosh u * sin v)
    + FZ (δ * sinh u * sin v) (δ * cosh u * cos v) * (δ * sinh u * cos v))
def phiV (FR FZ : ℝ → ℝ → ℝ) (δ u v : ℝ) : ℝ :=
  -(FR (δ * sinh u * sin v) (δ * cosh u * cos v) * (δ * sinh u * cos v)
    - FZ (δ * sinh u * sin v) (δ * cosh u * cos v) * (δ * cosh u * sin v))

theorem R_pos (hδ : 0 < δ) {u v : ℝ} (hu : 0 < u) (hv : 0 < v) (hv' : v < π) : 0 < δ * sinh u * sin v :=
  mul_pos (mul_pos hδ (sinh_pos_iff.2 hu)) (sin_pos_of_pos_of_lt_pi hv hv')

theorem d_phiU (hδ : 0 < δ) (h : C78Spec.Potential pot FR FZ) {u v : ℝ} (hu : 0 < u) (hv : 0 < v) (hv' : v < π) :
    HasDerivAt (fun u => phiUV pot δ u v) (phiU FR FZ δ u v) u := by
  refine along h (R := fun u => δ * sinh u * sin v) (z := fun u => δ * cosh u * cos v) ?_ ?_ (R_pos hδ hu hv hv')
  · exact (((hasDerivAt_sinh u).const_mul δ).mul_const _)
  · exact (((hasDerivAt_cosh u).const_mul δ).mul_const _)

theorem d_phiV (hδ : 0 < δ) (h : C78Spec.Potential pot FR FZ) {u v : ℝ} (hu : 0 < u) (hv : 0 < v) (hv' : v < π) :
    HasDerivAt (fun v => phiUV pot δ u v) (phiV FR FZ δ u v) v := by
  refine (along h (R := fun v => δ * sinh u * sin v) (z := fun v => δ * cosh u * cos v) ((hasDerivAt_sin v).const_mul _)
    ((hasDerivAt_cos v).const_mul _) (R_pos hδ hu hv hv')).congr_deriv ?_
  unfold phiV
  ring

/-- The derivatives of the separated functions. -/
def dU (pot FR FZ : ℝ → ℝ → ℝ) (δ u v : ℝ) : ℝ :=
  2 * sinh u * cosh u * phiUV pot δ u v + (sinh u ^ 2 + sin v ^ 2) * phiU FR FZ δ u v
def dV (pot FR FZ : ℝ → ℝ → ℝ) (δ u v : ℝ) : ℝ :=
  -(2 * sin v * cos v * phiUV pot δ u v + (sinh u ^ 2 + sin v ^ 2) * phiV FR FZ δ u v)

theorem has_dU (h : C78Spec.Staeckel pot FR FZ δ U V) {u v : ℝ} (hu : 0 < u) (hv : 0 < v) (hv' : v < π) :
    HasDerivAt U (dU pot FR FZ δ u v) u := by
  have d := hd_add (hd_mul (hd_add (hd_pow 2 (hasDerivAt_sinh u)) (hd_const (sin v ^ 2) u)) (d_phiU h.delta h.toPotential hu hv hv'))
    (hd_const (V v) u)
  refine (d.congr_of_eventuallyEq ?_).congr_deriv ?_
  · filter_upwards [lt_mem_nhds hu] with x hx
    have := h.sep x v hx hv hv'
    simp only [phiUV]
    linarith
  · unfold dU
    norm_num

theorem has_dV (h : C78Spec.Staeckel pot FR FZ δ U V) {u v : ℝ} (hu : 0 < u) (hv : 0 < v) (hv' : v < π) :
    HasDerivAt V (dV pot FR FZ δ u v) v := by
  have d := hd_sub (hd_const (U u) v) (hd_mul (hd_add (hd_const (sinh u ^ 2) v) (hd_pow 2 (hasDerivAt_sin v)))
    (d_phiV h.delta h.toPotential hu hv hv'))
  refine (d.congr_of_eventuallyEq ?_).congr_deriv ?_
  · filter_upwards [lt_mem_nhds hv, gt_mem_nhds hv'] with x hx hx'
    have := h.sep u x hu hx hx'
    simp only [phiUV]
    linarith
  · unfold dV
    norm_num

/-- One choice of the derivatives, as functions of one variable. -/
def U1 (pot FR FZ : ℝ → ℝ → ℝ) (δ u : ℝ) : ℝ := dU pot FR FZ δ u (π / 2)
def V1 (pot FR FZ : ℝ → ℝ → ℝ) (δ v : ℝ) : ℝ := dV pot FR FZ δ 1 v

theorem U1_eq (h : C78Spec.Staeckel pot FR FZ δ U V) {u v : ℝ} (hu : 0 < u) (hv : 0 < v) (hv' : v < π) :
    U1 pot FR FZ δ u = dU pot FR FZ δ u v :=
  (has_dU h hu (by positivity) (by linarith [pi_pos])).unique (has_dU h hu hv hv')

theorem V1_eq (h : C78Spec.Staeckel pot FR FZ δ U V) {u v : ℝ} (hu : 0 < u) (hv : 0 < v) (hv' : v < π) :
    V1 pot FR FZ δ v = dV pot FR FZ δ u v :=
  (has_dV h one_pos hv hv').unique (has_dV h hu hv hv')

theorem phi_cont (h : C78Spec.Potential pot FR FZ) : ContinuousOn (fun q : ℝ × ℝ => pot q.1 q.2) {q | 0 < q.1} :=
  fun q hq => (h.grad q.1 q.2 hq).continuousAt.continuousWithinAt

theorem U1_cont (hδ : 0 < δ) (h : C78Spec.Potential pot FR FZ) : ContinuousOn (U1 pot FR FZ δ) (Ioi 0) := by
  have hpi : (0 : ℝ) < π / 2 := by positivity
  have hc : ContinuousOn (fun u => (δ * sinh u * sin (π / 2), δ * cosh u * cos (π / 2))) (Ioi 0) := by fun_prop
  have hm : MapsTo (fun u => (δ * sinh u * sin (π / 2), δ * cosh u * cos (π / 2))) (Ioi 0) {q : ℝ × ℝ | 0 < q.1} :=
    fun u hu => R_pos hδ hu hpi (by linarith [pi_pos])
  have c1 := (phi_cont h).comp hc hm
  have c2 := h.contR.comp hc hm
  have c3 := h.contZ.comp hc hm
  simp only [Function.comp_def] at c1 c2 c3
  unfold U1 dU phiUV phiU
  have e1 : ContinuousOn (fun u => 2 * sinh u * cosh u) (Ioi (0 : ℝ)) := by fun_prop
  have e2 : ContinuousOn (fun u => sinh u ^ 2 + sin (π / 2) ^ 2) (Ioi (0 : ℝ)) := by fun_prop
  have e3 : ContinuousOn (fun u => δ * cosh u * sin (π / 2)) (Ioi (0 : ℝ)) := by fun_prop
  have e4 : ContinuousOn (fun u => δ * sinh u * cos (π / 2)) (Ioi (0 : ℝ)) := by fun_prop
  exact (e1.mul c1).add (e2.mul ((c2.mul e3).add (c3.mul e4)).neg)

theorem V1_cont (hδ : 0 < δ) (h : C78Spec.Potential pot FR FZ) : ContinuousOn (V1 pot FR FZ δ) (Ioo 0 π) := by
  have hc : ContinuousOn (fun v => (δ * sinh 1 * sin v, δ * cosh 1 * cos v)) (Ioo 0 π) := by fun_prop
  have hm : MapsTo (fun v => (δ * sinh 1 * sin v, δ * cosh 1 * cos v)) (Ioo 0 π) {q : ℝ × ℝ | 0 < q.1} :=
    fun v hv => R_pos hδ one_pos hv.1 hv.2
  have c1 := (phi_cont h).comp hc hm
  have c2 := h.contR.comp hc hm
  have c3 := h.contZ.comp hc hm
  simp only [Function.comp_def] at c1 c2 c3
  unfold V1 dV phiUV phiV
  have e1 : ContinuousOn (fun v => 2 * sin v * cos v) (Ioo 0 π) := by fun_prop
  have e2 : ContinuousOn (fun v => sinh 1 ^ 2 + sin v ^ 2) (Ioo 0 π) := by fun_prop
  have e3 : ContinuousOn (fun v => δ * sinh 1 * cos v) (Ioo 0 π) := by fun_prop
  have e4 : ContinuousOn (fun v => δ * cosh 1 * sin v) (Ioo 0 π) := by fun_prop
  exact ((e1.mul c1).add (e2.mul ((c2.mul e3).sub (c3.mul e4)).neg)).neg

end C78aux

/-! ### The radial and vertical functions -/

/-- Half the square of the momentum `p_u`, divided by `δ²`. -/
def C78Spec.SR (U : ℝ → ℝ) (δ E Lz I : ℝ) (u : ℝ) : ℝ := E * sinh u ^ 2 - I - U u - Lz ^ 2 / (2 * δ ^ 2 * sinh u ^ 2)
/-- Half the square of the momentum `p_v`, divided by `δ²`. -/
def C78Spec.SZ (V : ℝ → ℝ) (δ E Lz I : ℝ) (v : ℝ) : ℝ := E * sin v ^ 2 + I + V v - Lz ^ 2 / (2 * δ ^ 2 * sin v ^ 2)

namespace C78aux
open C78Spec (SR SZ)
variable {pot FR FZ : ℝ → ℝ → ℝ} {δ : ℝ} {U V : ℝ → ℝ} {p : ℝ → Point}

def SR1 (pot FR FZ : ℝ → ℝ → ℝ) (δ E Lz u : ℝ) : ℝ :=
  2 * E * sinh u * cosh u - U1 pot FR FZ δ u + Lz ^ 2 * cosh u / (δ ^ 2 * sinh u ^ 3)
def SZ1 (pot FR FZ : ℝ → ℝ → ℝ) (δ E Lz v : ℝ) : ℝ :=
  2 * E * sin v * cos v + V1 pot FR FZ δ v + Lz ^ 2 * cos v / (δ ^ 2 * sin v ^ 3)

theorem has_SR (h : C78Spec.Staeckel pot FR FZ δ U V) (E Lz I : ℝ) {u : ℝ} (hu : 0 < u) :
    HasDerivAt (SR U δ E Lz I) (SR1 pot FR FZ δ E Lz u) u := by
  have hδ := h.delta
  have hs := sinh_pos_iff.2 hu
  have d := hd_sub (hd_sub (hd_sub (hd_const_mul E (hd_pow 2 (hasDerivAt_sinh u))) (hd_const I u))
    (has_dU h hu (by positivity : 0 < π / 2) (by linarith [pi_pos])))
    (hd_div (hd_const (Lz ^ 2) u) (hd_const_mul (2 * δ ^ 2) (hd_pow 2 (hasDerivAt_sinh u))) (by positivity))
  refine d.congr_deriv ?_
  unfold SR1 U1
  norm_num
  field_simp
  ring

theorem has_SZ (h : C78Spec.Staeckel pot FR FZ δ U V) (E Lz I : ℝ) {v : ℝ} (hv : 0 < v) (hv' : v < π) :
    HasDerivAt (SZ V δ E Lz I) (SZ1 pot FR FZ δ E Lz v) v := by
  have hδ := h.delta
  have hs := sin_pos_of_pos_of_lt_pi hv hv'
  have d := hd_sub (hd_add (hd_add (hd_const_mul E (hd_pow 2 (hasDerivAt_sin v))) (hd_const I v))
    (has_dV h one_pos hv hv'))
    (hd_div (hd_const (Lz ^ 2) v) (hd_const_mul (2 * δ ^ 2) (hd_pow 2 (hasDerivAt_sin v))) (by positivity))
  refine d.congr_deriv ?_
  unfold SZ1 V1
  norm_num
  field_simp
  ring

theorem SR1_cont (h : C78Spec.Staeckel pot FR FZ δ U V) (E Lz : ℝ) : ContinuousOn (SR1 pot FR FZ δ E Lz) (Ioi 0) := by
  have hδ := h.delta
  have c := U1_cont hδ h.toPotential
  have e1 : ContinuousOn (fun u => 2 * E * sinh u * cosh u) (Ioi (0 : ℝ)) := by fun_prop
  have e2 : ContinuousOn (fun u => Lz ^ 2 * cosh u / (δ ^ 2 * sinh u ^ 3)) (Ioi (0 : ℝ)) :=
    ContinuousOn.div (by fun_prop) (by fun_prop) fun u hu => by
      have := sinh_pos_iff.2 hu
      positivity
  exact (e1.sub c).add e2

theorem SZ1_cont (h : C78Spec.Staeckel pot FR FZ δ U V) (E Lz : ℝ) : ContinuousOn (SZ1 pot FR FZ δ E Lz) (Ioo 0 π) := by
  have hδ := h.delta
  have c := V1_cont hδ h.toPotential
  have e1 : ContinuousOn (fun u => 2 * E * sin u * cos u) (Ioo (0 : ℝ) π) := by fun_prop
  have e2 : ContinuousOn (fun u => Lz ^ 2 * cos u / (δ ^ 2 * sin u ^ 3)) (Ioo (0 : ℝ) π) :=
    ContinuousOn.div (by fun_prop) (by fun_prop) fun u hu => by
      have := sin_pos_of_pos_of_lt_pi hu.1 hu.2
      positivity
  exact (e1.add c).add e2

/-! ### The equations of motion in `u` and `v` -/

/-- The velocity in terms of the momenta. -/
theorem velocities (hδ : 0 < δ) (q : Point) (hR : 0 < q.R) :
    (δ ^ 2 * (sinh (uOf δ q) ^ 2 + sin (vOf δ q) ^ 2)) * (q.vR ^ 2 + q.vz ^ 2) = pu δ q ^ 2 + pv δ q ^ 2 := by
  have hA := cosh_sq (uOf δ q)
  have hs := sin_sq_add_cos_sq (vOf δ q)
  unfold pu pv
  have hc : cos (vOf δ q) ^ 2 = 1 - sin (vOf δ q) ^ 2 := by linarith
  linear_combination (exp := 1) (-(δ ^ 2 * (q.vR ^ 2 + q.vz ^ 2) * sin (vOf δ q) ^ 2)) * hA
    - δ ^ 2 * (q.vR ^ 2 + q.vz ^ 2) * sinh (uOf δ q) ^ 2 * hs

theorem dpu (h : C78Spec.Staeckel pot FR FZ δ U V) (m : C78Spec.Motion FR FZ p) (t : ℝ) :
    HasDerivAt (fun s => pu δ (p s)) (rate δ (p t) * (δ ^ 2 * SR1 pot FR FZ δ (en pot (p t)) ((p t).R * (p t).vT) (uOf δ (p t)))) t := by
  have hδ := h.delta
  obtain ⟨d1, d2⟩ := duv hδ m t
  obtain ⟨hR, hz, hu, hv, hv'⟩ := uv_spec hδ (p t) (m.pos t)
  have hB := sinh_pos_iff.2 hu
  have hs0 := sin_pos_of_pos_of_lt_pi hv hv'
  have d := hd_const_mul δ (hd_add (hd_mul (hd_mul (m.vR t) (hd_cosh d1)) (hd_sin d2)) (hd_mul (hd_mul (m.vz t) (hd_sinh d1)) (hd_cos d2)))
  refine d.congr_deriv ?_
  have hA := cosh_sq (uOf δ (p t))
  have hs := sin_sq_add_cos_sq (vOf δ (p t))
  rw [SR1, U1_eq h hu hv hv', dU, phiU, phiUV, ← hR, ← hz]
  unfold rate pu pv en
  generalize pot (p t).R (p t).z = Φ
  generalize FR (p t).R (p t).z = fR
  generalize FZ (p t).R (p t).z = fZ
  rw [hR]
  generalize (p t).vR = vR at *
  generalize (p t).vT = vT at *
  generalize (p t).vz = vz at *
  generalize uOf δ (p t) = u at *
  generalize vOf δ (p t) = v at *
  generalize sinh u = B at *
  generalize cosh u = A at *
  generalize sin v = s at *
  generalize cos v = c at *
  have hm : B ^ 2 + s ^ 2 ≠ 0 := by positivity
  field_simp
  linear_combination A * B ^ 2 * (vR ^ 2 + vz ^ 2) * hs

theorem dpv (h : C78Spec.Staeckel pot FR FZ δ U V) (m : C78Spec.Motion FR FZ p) (t : ℝ) :
    HasDerivAt (fun s => pv δ (p s)) (rate δ (p t) * (δ ^ 2 * SZ1 pot FR FZ δ (en pot (p t)) ((p t).R * (p t).vT) (vOf δ (p t)))) t := by
  have hδ := h.delta
  obtain ⟨d1, d2⟩ := duv hδ m t
  obtain ⟨hR, hz, hu, hv, hv'⟩ := uv_spec hδ (p t) (m.pos t)
  have hB := sinh_pos_iff.2 hu
  have hs0 := sin_pos_of_pos_of_lt_pi hv hv'
  have d := hd_const_mul δ (hd_sub (hd_mul (hd_mul (m.vR t) (hd_sinh d1)) (hd_cos d2)) (hd_mul (hd_mul (m.vz t) (hd_cosh d1)) (hd_sin d2)))
  refine d.congr_deriv ?_
  have hA := cosh_sq (uOf δ (p t))
  have hs := sin_sq_add_cos_sq (vOf δ (p t))
  rw [SZ1, V1_eq h hu hv hv', dV, phiV, phiUV, ← hR, ← hz]
  unfold rate pu pv en
  generalize pot (p t).R (p t).z = Φ
  generalize FR (p t).R (p t).z = fR
  generalize FZ (p t).R (p t).z = fZ
  rw [hR]
  generalize (p t).vR = vR at *
  generalize (p t).vT = vT at *
  generalize (p t).vz = vz at *
  generalize uOf δ (p t) = u at *
  generalize vOf δ (p t) = v at *
  generalize sinh u = B at *
  generalize cosh u = A at *
  generalize sin v = s at *
  generalize cos v = c at *
  have hm : B ^ 2 + s ^ 2 ≠ 0 := by positivity
  field_simp
  linear_combination s ^ 2 * c * (vR ^ 2 + vz ^ 2) * hA

theorem third_const (h : C78Spec.Staeckel pot FR FZ δ U V) (m : C78Spec.Motion FR FZ p) (t s : ℝ) :
    third pot U δ (p t) = third pot U δ (p s) := by
  have hδ := h.delta
  have key : ∀ t, third pot U δ (p t) = SR U δ (en pot (p 0)) ((p 0).R * (p 0).vT) 0 (uOf δ (p t)) - pu δ (p t) ^ 2 / (2 * δ ^ 2) := by
    intro t
    unfold third SR
    rw [en_const h.toPotential m t 0, lz_const m t 0]
    ring
  rw [key, key]
  refine C50aux.const_of_deriv (fun t => SR U δ (en pot (p 0)) ((p 0).R * (p 0).vT) 0 (uOf δ (p t)) - pu δ (p t) ^ 2 / (2 * δ ^ 2))
    (fun t => ?_) t s
  obtain ⟨-, -, hu, -, -⟩ := uv_spec hδ (p t) (m.pos t)
  have d1 := (has_SR h (en pot (p 0)) ((p 0).R * (p 0).vT) 0 hu).comp t (duv hδ m t).1
  refine (hd_sub d1 (hd_div_const (2 * δ ^ 2) (hd_pow 2 (dpu h m t)))).congr_deriv ?_
  rw [en_const h.toPotential m t 0, lz_const m t 0]
  norm_num
  field_simp
  ring

theorem energy_u (h : C78Spec.Staeckel pot FR FZ δ U V) (q : Point) :
    pu δ q ^ 2 = 2 * (δ ^ 2 * SR U δ (en pot q) (q.R * q.vT) (third pot U δ q) (uOf δ q)) := by
  have hδ := h.delta
  unfold SR third
  field_simp
  ring

theorem energy_v (h : C78Spec.Staeckel pot FR FZ δ U V) (q : Point) (hpos : 0 < q.R) :
    pv δ q ^ 2 = 2 * (δ ^ 2 * SZ V δ (en pot q) (q.R * q.vT) (third pot U δ q) (vOf δ q)) := by
  have hδ := h.delta
  obtain ⟨hR, hz, hu, hv, hv'⟩ := uv_spec hδ q hpos
  have hB := sinh_pos_iff.2 hu
  have hs0 := sin_pos_of_pos_of_lt_pi hv hv'
  have hsep := h.sep _ _ hu hv hv'
  rw [← hR, ← hz] at hsep
  have hvel := velocities hδ q hpos
  have hen : 2 * en pot q = 2 * pot q.R q.z + (q.vR ^ 2 + q.vz ^ 2) + q.vT ^ 2 := by unfold en; ring
  unfold SZ third
  have hT : (δ ^ 2 * (sinh (uOf δ q) ^ 2 + sin (vOf δ q) ^ 2)) * q.vT ^ 2
      = (q.R * q.vT) ^ 2 / sinh (uOf δ q) ^ 2 + (q.R * q.vT) ^ 2 / sin (vOf δ q) ^ 2 := by
    rw [hR]; field_simp; ring
  have e1 : (q.R * q.vT) ^ 2 / (2 * δ ^ 2 * sinh (uOf δ q) ^ 2) = (q.R * q.vT) ^ 2 / sinh (uOf δ q) ^ 2 / (2 * δ ^ 2) := by
    field_simp
  have e2 : (q.R * q.vT) ^ 2 / (2 * δ ^ 2 * sin (vOf δ q) ^ 2) = (q.R * q.vT) ^ 2 / sin (vOf δ q) ^ 2 / (2 * δ ^ 2) := by
    field_simp
  rw [e1, e2]
  generalize (q.R * q.vT) ^ 2 / sinh (uOf δ q) ^ 2 = L1 at *
  generalize (q.R * q.vT) ^ 2 / sin (vOf δ q) ^ 2 = L2 at *
  field_simp
  linear_combination -hvel - hT - 2 * δ ^ 2 * hsep + (δ ^ 2 * (sinh (uOf δ q) ^ 2 + sin (vOf δ q) ^ 2)) * -hen

/-- The rate is continuous. -/
theorem rate_cont (h : C78Spec.Staeckel pot FR FZ δ U V) (m : C78Spec.Motion FR FZ p) : Continuous fun t => rate δ (p t) := by
  have hδ := h.delta
  have c1 : Continuous fun t => uOf δ (p t) := continuous_iff_continuousAt.2 fun t => (duv hδ m t).1.continuousAt
  have c2 : Continuous fun t => vOf δ (p t) := continuous_iff_continuousAt.2 fun t => (duv hδ m t).2.continuousAt
  unfold rate
  refine Continuous.div continuous_const (by fun_prop) fun t => ?_
  have := metric_pos (v := vOf δ (p t)) (uv_spec hδ (p t) (m.pos t)).2.2.1
  positivity

end C78aux
end Verif
