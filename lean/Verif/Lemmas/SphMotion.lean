import Verif.Model.SphericalAA
import Verif.Props.C50Motion
import Verif.Util.Libration

set_option autoImplicit false

/-!
# Motions in a spherical potential

Conservation laws, the radial motion as a libration and the angle in the orbital plane.
-/

noncomputable section
namespace Verif
open Real Set
open IsochroneAA (Point Lz L2 L mod2pi)
open SphericalAA (Radial rad)

/-- A motion in cylindrical coordinates, away from the axis, under the radial force `force`. -/
structure C77Spec.Motion (force : ℝ → ℝ) (p : ℝ → Point) : Prop where
  pos : ∀ t, 0 < (p t).R
  R : ∀ t, HasDerivAt (fun s => (p s).R) (p t).vR t
  z : ∀ t, HasDerivAt (fun s => (p s).z) (p t).vz t
  phi : ∀ t, HasDerivAt (fun s => (p s).phi) ((p t).vT / (p t).R) t
  vR : ∀ t, HasDerivAt (fun s => (p s).vR)
    ((p t).vT ^ 2 / (p t).R + force (√((p t).R ^ 2 + (p t).z ^ 2)) * ((p t).R / √((p t).R ^ 2 + (p t).z ^ 2))) t
  vT : ∀ t, HasDerivAt (fun s => (p s).vT) (-((p t).vR * (p t).vT / (p t).R)) t
  vz : ∀ t, HasDerivAt (fun s => (p s).vz)
    (force (√((p t).R ^ 2 + (p t).z ^ 2)) * ((p t).z / √((p t).R ^ 2 + (p t).z ^ 2))) t

namespace C77aux
variable {force phi : ℝ → ℝ} {p : ℝ → Point}

theorem rad_pos (m : C77Spec.Motion force p) (t : ℝ) : 0 < rad (p t) := by
  have := m.pos t
  exact sqrt_pos.2 (by positivity)

theorem rad_sq (q : Point) : rad q ^ 2 = q.R ^ 2 + q.z ^ 2 := sq_sqrt (by positivity)

theorem dr2 (m : C77Spec.Motion force p) (t : ℝ) :
    HasDerivAt (fun s => (p s).R ^ 2 + (p s).z ^ 2) (2 * ((p t).R * (p t).vR + (p t).z * (p t).vz)) t := by
  refine (hd_add (hd_pow 2 (m.R t)) (hd_pow 2 (m.z t))).congr_deriv ?_
  norm_num
  ring

theorem drad (m : C77Spec.Motion force p) (t : ℝ) : HasDerivAt (fun s => rad (p s)) (SphericalAA.vr (p t)) t := by
  have hR := m.pos t
  refine (hd_sqrt (dr2 m t) (by positivity)).congr_deriv ?_
  rw [mul_div_mul_left _ _ two_ne_zero]
  rfl

theorem lz_const (m : C77Spec.Motion force p) (t s : ℝ) : Lz (p t) = Lz (p s) := by
  refine C50aux.const_of_deriv (fun t => Lz (p t)) (fun t => ?_) t s
  have hR := m.pos t
  refine (hd_mul (m.R t) (m.vT t)).congr_deriv ?_
  field_simp
  ring

theorem dM (m : C77Spec.Motion force p) (t : ℝ) :
    HasDerivAt (fun s => (p s).R * (p s).vz - (p s).z * (p s).vR) (-((p t).vT / (p t).R * ((p t).z * (p t).vT))) t := by
  have hR := m.pos t
  refine (hd_sub (hd_mul (m.R t) (m.vz t)) (hd_mul (m.z t) (m.vR t))).congr_deriv ?_
  field_simp
  ring

theorem dzvT (m : C77Spec.Motion force p) (t : ℝ) :
    HasDerivAt (fun s => (p s).z * (p s).vT)
      ((p t).vT / (p t).R * ((p t).R * (p t).vz - (p t).z * (p t).vR)) t := by
  have hR := m.pos t
  refine (hd_mul (m.z t) (m.vT t)).congr_deriv ?_
  field_simp
  ring

theorem l2_const (m : C77Spec.Motion force p) (t s : ℝ) : L2 (p t) = L2 (p s) := by
  refine C50aux.const_of_deriv (fun t => L2 (p t)) (fun t => ?_) t s
  have h := hd_add (hd_add (hd_pow 2 (dzvT m t)) (hd_pow 2 (dM m t)))
    (hd_pow 2 (hd_mul (m.R t) (m.vT t)))
  have hR := m.pos t
  have h' := h.congr_deriv (show _ = (0 : ℝ) by
    norm_num
    field_simp
    ring)
  refine h'.congr_of_eventuallyEq (Filter.Eventually.of_forall fun s => ?_)
  simp only [L2, Lz]
  ring

theorem l_const (m : C77Spec.Motion force p) (t s : ℝ) : L (p t) = L (p s) := by
  unfold L
  rw [l2_const m t s]

theorem n_const (m : C77Spec.Motion force p) (t s : ℝ) : C50aux.N (p t) = C50aux.N (p s) := by
  unfold C50aux.N
  rw [l_const m t s, lz_const m t s]

/-- Radial and tangential velocity. -/
theorem speed (q : Point) (hR : 0 < q.R) :
    q.vR ^ 2 + q.vT ^ 2 + q.vz ^ 2 = SphericalAA.vr q ^ 2 + L q ^ 2 / rad q ^ 2 := by
  have h := C50aux.N_eq q
  have hr : 0 < rad q := sqrt_pos.2 (by positivity)
  have h2 : L q ^ 2 = (q.z * q.vT) ^ 2 + (q.R * q.vz - q.z * q.vR) ^ 2 + (q.R * q.vT) ^ 2 := by
    unfold Lz at h
    linarith
  have hq := rad_sq q
  unfold SphericalAA.vr
  rw [div_pow, ← add_div, h2, hq, eq_div_iff (by positivity)]
  ring

theorem E_const (P : Radial) (m : C77Spec.Motion P.rforce p) (hP : ∀ t, HasDerivAt P.phi (-P.rforce (rad (p t))) (rad (p t)))
    (t s : ℝ) : SphericalAA.E P (p t) = SphericalAA.E P (p s) := by
  refine C50aux.const_of_deriv (fun t => SphericalAA.E P (p t)) (fun t => ?_) t s
  have hR := m.pos t
  have hr := rad_pos m t
  have h1 := hd_pow 2 (m.vR t)
  have h2 := hd_pow 2 (m.vT t)
  have h3 := hd_pow 2 (m.vz t)
  have h0 := (hP t).comp t (drad m t)
  refine (hd_add (hd_add (hd_add h0 (h1.div_const 2)) (h2.div_const 2)) (h3.div_const 2)).congr_deriv ?_
  rw [show √((p t).R ^ 2 + (p t).z ^ 2) = rad (p t) from rfl]
  unfold SphericalAA.vr
  norm_num
  field_simp
  ring

/-- The radial equation of motion. -/
theorem dvr (m : C77Spec.Motion force p) (t : ℝ) :
    HasDerivAt (fun s => SphericalAA.vr (p s)) (force (rad (p t)) + L (p t) ^ 2 / rad (p t) ^ 3) t := by
  have hR := m.pos t
  have hr := rad_pos m t
  refine (hd_div (hd_add (hd_mul (m.R t) (m.vR t)) (hd_mul (m.z t) (m.vz t))) (drad m t) hr.ne').congr_deriv ?_
  have hsp := speed (p t) hR
  have hq := rad_sq (p t)
  rw [show √((p t).R ^ 2 + (p t).z ^ 2) = rad (p t) from rfl]
  have hL : L (p t) ^ 2 = rad (p t) ^ 2 * ((p t).vR ^ 2 + (p t).vT ^ 2 + (p t).vz ^ 2 - SphericalAA.vr (p t) ^ 2) := by
    rw [hsp]
    field_simp
    ring
  rw [hL]
  unfold SphericalAA.vr
  generalize rad (p t) = r at *
  field_simp
  linear_combination (-(r * force r)) * hq

theorem deriv_W (P : Radial) (E l r : ℝ) (hr : 0 < r) (hP : HasDerivAt P.phi (-P.rforce r) r) :
    HasDerivAt (RootSearch.rapRperiEq P.phi E l) (P.rforce r + l ^ 2 / r ^ 3) r := by
  have h := hd_div (hasDerivAt_const r (l ^ 2 / 2)) (hd_pow 2 (hasDerivAt_id r)) (by simpa using hr.ne')
  refine (hd_sub (hP.const_sub E) h).congr_deriv ?_
  norm_num
  field_simp
  ring

theorem psi_motion (m : C77Spec.Motion force p) (hL : 0 < L (p 0)) (hN : 0 < C50aux.N (p 0)) :
    ∃ V : ℝ → ℝ, (∀ t, HasDerivAt V (L (p 0) / ((p t).R ^ 2 + (p t).z ^ 2)) t)
      ∧ ∀ t, C50Spec.Same (IsochroneAA.psi (p t)) (V t) := by
  have hr2 : ∀ t, 0 < (p t).R ^ 2 + (p t).z ^ 2 := fun t => by
    have := m.pos t
    positivity
  have hcont : Continuous fun t => L (p 0) / ((p t).R ^ 2 + (p t).z ^ 2) :=
    continuous_const.div (continuous_iff_continuousAt.2 fun t => (dr2 m t).continuousAt) fun t => (hr2 t).ne'
  obtain ⟨V, hV0, hV⟩ := C50aux.antideriv _ hcont (IsochroneAA.psi (p 0))
  refine ⟨V, hV, ?_⟩
  have hdr : ∀ t, HasDerivAt (fun s => √((p s).R ^ 2 + (p s).z ^ 2) * C50aux.N (p 0))
      (((p t).R * (p t).vR + (p t).z * (p t).vz) / √((p t).R ^ 2 + (p t).z ^ 2) * C50aux.N (p 0)) t := fun t => by
    refine ((hd_sqrt (dr2 m t) (hr2 t).ne').mul_const _).congr_deriv ?_
    rw [mul_div_mul_left _ _ two_ne_zero]
  have hpsi : ∀ t, _ := fun t => C50aux.psi_spec (p t) (m.pos t) (by rw [l_const m t 0]; exact hL)
    (by rw [n_const m t 0]; exact hN)
  have hl := C50aux.lift (fun s => (p s).R * ((p s).R * (p s).vz - (p s).z * (p s).vR)
      / (√((p s).R ^ 2 + (p s).z ^ 2) * C50aux.N (p 0)))
    (fun s => (p s).z * L (p 0) / (√((p s).R ^ 2 + (p s).z ^ 2) * C50aux.N (p 0))) _ V (fun t => by
      have hR := m.pos t
      have hr := sqrt_pos.2 (hr2 t)
      have hrs : √((p t).R ^ 2 + (p t).z ^ 2) ^ 2 = (p t).R ^ 2 + (p t).z ^ 2 := sq_sqrt (hr2 t).le
      refine (hd_div (hd_mul (m.R t) (dM m t)) (hdr t) (by positivity)).congr_deriv ?_
      have hLL : L (p 0) ^ 2 = ((p t).z * (p t).vT) ^ 2 + ((p t).R * (p t).vz - (p t).z * (p t).vR) ^ 2
          + ((p t).R * (p t).vT) ^ 2 := by
        have := C50aux.N_eq (p t)
        rw [l_const m t 0] at this
        unfold Lz at this
        linarith
      generalize L (p 0) = l at *
      generalize C50aux.N (p 0) = n at *
      generalize √((p t).R ^ 2 + (p t).z ^ 2) = r at *
      rw [← hrs]
      field_simp
      linear_combination (-((p t).z * (p t).vT ^ 2) + (p t).vR * ((p t).R * (p t).vz - (p t).z * (p t).vR)) * hrs
        + (p t).z * hLL) (fun t => by
      have hR := m.pos t
      have hr := sqrt_pos.2 (hr2 t)
      have hrs : √((p t).R ^ 2 + (p t).z ^ 2) ^ 2 = (p t).R ^ 2 + (p t).z ^ 2 := sq_sqrt (hr2 t).le
      refine (hd_div ((m.z t).mul_const (L (p 0))) (hdr t) (by positivity)).congr_deriv ?_
      generalize L (p 0) = l at *
      generalize C50aux.N (p 0) = n at *
      generalize √((p t).R ^ 2 + (p t).z ^ 2) = r at *
      rw [← hrs]
      field_simp
      linear_combination (p t).vz * hrs) hV (by rw [hV0]; exact (hpsi 0).2) (by rw [hV0]; exact (hpsi 0).1)
  intro t
  refine C50aux.same_of_cos_sin ?_ ?_
  · rw [(hl t).1, (hpsi t).2, n_const m t 0]
  · rw [(hl t).2, (hpsi t).1, n_const m t 0, l_const m t 0]

theorem u_motion (m : C77Spec.Motion force p) (hL : 0 < L (p 0)) (hN : 0 < C50aux.N (p 0)) (t : ℝ) :
    C50Spec.Same ((p t).phi - IsochroneAA.u (p t)) ((p 0).phi - IsochroneAA.u (p 0)) := by
  have hu : ∀ t, _ := fun t => C50aux.u_spec (p t) (m.pos t) (by rw [l_const m t 0]; exact hL)
    (by rw [n_const m t 0]; exact hN)
  have hl := C50aux.lift (fun s => ((p s).R * (p s).vz - (p s).z * (p s).vR) / C50aux.N (p 0))
    (fun s => (p s).z * (p s).vT / C50aux.N (p 0)) (fun s => (p s).vT / (p s).R)
    (fun s => (p s).phi - (p 0).phi + IsochroneAA.u (p 0)) (fun t =>
      ((dM m t).div_const _).congr_deriv (by ring)) (fun t =>
      ((dzvT m t).div_const _).congr_deriv (by ring)) (fun t =>
      (((m.phi t).sub_const _).add_const _)) (by rw [sub_self, zero_add]; exact (hu 0).2)
      (by rw [sub_self, zero_add]; exact (hu 0).1)
  have : C50Spec.Same (IsochroneAA.u (p t)) ((p t).phi - (p 0).phi + IsochroneAA.u (p 0)) := by
    refine C50aux.same_of_cos_sin ?_ ?_
    · rw [(hl t).1, (hu t).2, n_const m t 0]
    · rw [(hl t).2, (hu t).1, n_const m t 0]
  have h2 := C50aux.same_add (C50aux.same_refl (p t).phi) (C50aux.same_neg this)
  have e1 : (p t).phi + -IsochroneAA.u (p t) = (p t).phi - IsochroneAA.u (p t) := by ring
  have e2 : (p t).phi + -((p t).phi - (p 0).phi + IsochroneAA.u (p 0)) = (p 0).phi - IsochroneAA.u (p 0) := by ring
  rwa [e1, e2] at h2

/-- The sum of the two cases: the angle in the orbital plane and the line of nodes, for orbits that are inclined or planar with
positive angular momentum. -/
theorem plane (m : C77Spec.Motion force p) (hLz : Lz (p 0) ≠ 0) (h : C50aux.N (p 0) ≠ 0 ∨ 0 < Lz (p 0)) :
    (∃ V : ℝ → ℝ, (∀ t, HasDerivAt V (L (p 0) / rad (p t) ^ 2) t) ∧ ∀ t, C50Spec.Same (IsochroneAA.psi (p t)) (V t))
      ∧ ∀ t, C50Spec.Same ((p t).phi - IsochroneAA.u (p t)) ((p 0).phi - IsochroneAA.u (p 0)) := by
  have hle := C50aux.Lz_le (p 0)
  have hL : 0 < L (p 0) := lt_of_lt_of_le (abs_pos.2 hLz) hle
  simp only [rad_sq]
  rcases (sqrt_nonneg _ : 0 ≤ C50aux.N (p 0)).lt_or_eq with hN | hN
  · exact ⟨psi_motion m hL hN, u_motion m hL hN⟩
  · have hN0 : C50aux.N (p 0) = 0 := hN.symm
    have hNt : ∀ t, C50aux.N (p t) = 0 := fun t => (n_const m t 0).trans hN0
    have hLz : 0 < Lz (p 0) := h.resolve_left fun h' => h' hN0
    have hT : ∀ t, (p t).vT ≠ 0 := fun t h => by
      have : Lz (p t) = Lz (p 0) := lz_const m t 0
      rw [← this] at hLz
      simp [Lz, h] at hLz
    have hpl := fun t => C50aux.planar (p t) (hNt t) (hT t)
    refine ⟨⟨fun t => (p t).phi, fun t => ?_, fun t => ?_⟩, fun t => ?_⟩
    · refine (m.phi t).congr_deriv ?_
      have hR := m.pos t
      have hLL : L (p 0) = (p t).R * (p t).vT := by
        have h1 := C50aux.N_eq (p 0)
        have h2 := C50aux.N_sq (p 0)
        rw [hN0] at h2
        have h3 : L (p 0) ^ 2 = Lz (p 0) ^ 2 := by
          rw [← h2] at h1
          linarith
        have h4 : L (p 0) = Lz (p 0) := by
          rcases sq_eq_sq_iff_eq_or_eq_neg.1 h3 with h | h
          · exact h
          · linarith
        rw [h4, lz_const m 0 t]
        rfl
      rw [hLL, (hpl t).1]
      field_simp
      ring
    · rw [(hpl t).2.1]
      exact C50aux.same_refl _
    · rw [(hpl t).2.2, (hpl 0).2.2, sub_self, sub_self]
      exact C50aux.same_refl _

end C77aux
end Verif
