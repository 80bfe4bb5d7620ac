import Verif.Props.C50Angles

set_option autoImplicit false

/-!
# C50: the angles advance linearly along every orbit
-/

noncomputable section
namespace Verif

open Real IsochroneAA

theorem C50aux.const_of_deriv (f : ℝ → ℝ) (h : ∀ t, HasDerivAt f 0 t) (t s : ℝ) : f t = f s :=
  is_const_of_deriv_eq_zero (fun u => (h u).differentiableAt) (fun u => (h u).deriv) t s

variable {amp b : ℝ} {p : ℝ → Point}

theorem C50aux.dr2 (m : C50Spec.Motion amp b p) (t : ℝ) :
    HasDerivAt (fun s => (p s).R ^ 2 + (p s).z ^ 2) (2 * ((p t).R * (p t).vR + (p t).z * (p t).vz)) t := by
  refine (hd_add (hd_pow 2 (m.R t)) (hd_pow 2 (m.z t))).congr_deriv ?_
  norm_num
  ring

theorem C50aux.dw (m : C50Spec.Motion amp b p) (t : ℝ) :
    HasDerivAt (fun s => C50aux.w b (p s)) (((p t).R * (p t).vR + (p t).z * (p t).vz) / C50aux.w b (p t)) t := by
  have hR := m.pos t
  refine (hd_sqrt ((C50aux.dr2 m t).const_add (b ^ 2)) (by positivity)).congr_deriv ?_
  unfold C50aux.w
  rw [mul_div_mul_left _ _ two_ne_zero]

/-- The energy is conserved. -/
theorem C50aux.energy_const (hb : 0 ≤ b) (m : C50Spec.Motion amp b p) (t s : ℝ) :
    C50Spec.energy amp b (p t) = C50Spec.energy amp b (p s) := by
  refine C50aux.const_of_deriv (fun t => C50Spec.energy amp b (p t)) (fun t => ?_) t s
  have hR := m.pos t
  have hbw := C50aux.w_gt b (p t) hR
  have h1 := hd_add (hd_add (hd_pow 2 (m.vR t)) (hd_pow 2 (m.vT t))) (hd_pow 2 (m.vz t))
  have h2 := hd_div (hasDerivAt_const t amp) ((C50aux.dw m t).const_add b) (by linarith)
  refine ((h1.div_const 2).sub h2).congr_deriv ?_
  rw [show √(b ^ 2 + ((p t).R ^ 2 + (p t).z ^ 2)) = C50aux.w b (p t) from rfl]
  norm_num
  have hw0 : C50aux.w b (p t) ≠ 0 := by linarith
  have hw1 : b + C50aux.w b (p t) ≠ 0 := by linarith
  field_simp
  ring

/-- The angular momentum about the axis is conserved. -/
theorem C50aux.lz_const (m : C50Spec.Motion amp b p) (t s : ℝ) : Lz (p t) = Lz (p s) := by
  refine C50aux.const_of_deriv (fun t => Lz (p t)) (fun t => ?_) t s
  have hR := m.pos t
  refine (hd_mul (m.R t) (m.vT t)).congr_deriv ?_
  field_simp
  ring

/-- The derivative of the component of the angular momentum perpendicular to the meridional plane. -/
theorem C50aux.dM (hb : 0 ≤ b) (m : C50Spec.Motion amp b p) (t : ℝ) :
    HasDerivAt (fun s => (p s).R * (p s).vz - (p s).z * (p s).vR) (-((p t).vT / (p t).R * ((p t).z * (p t).vT))) t := by
  have hR := m.pos t
  have hbw := C50aux.w_gt b (p t) hR
  refine (hd_sub (hd_mul (m.R t) (m.vz t)) (hd_mul (m.z t) (m.vR t))).congr_deriv ?_
  rw [show √(b ^ 2 + ((p t).R ^ 2 + (p t).z ^ 2)) = C50aux.w b (p t) from rfl]
  have hw0 : C50aux.w b (p t) ≠ 0 := by linarith
  have hw1 : b + C50aux.w b (p t) ≠ 0 := by linarith
  field_simp
  ring

theorem C50aux.dzvT (m : C50Spec.Motion amp b p) (t : ℝ) :
    HasDerivAt (fun s => (p s).z * (p s).vT)
      ((p t).vT / (p t).R * ((p t).R * (p t).vz - (p t).z * (p t).vR)) t := by
  have hR := m.pos t
  refine (hd_mul (m.z t) (m.vT t)).congr_deriv ?_
  field_simp
  ring

/-- The square of the angular momentum is conserved. -/
theorem C50aux.l2_const (hb : 0 ≤ b) (m : C50Spec.Motion amp b p) (t s : ℝ) : L2 (p t) = L2 (p s) := by
  refine C50aux.const_of_deriv (fun t => L2 (p t)) (fun t => ?_) t s
  have h := hd_add (hd_add (hd_pow 2 (C50aux.dzvT m t)) (hd_pow 2 (C50aux.dM hb m t)))
    (hd_pow 2 (hd_mul (m.R t) (m.vT t)))
  have hR := m.pos t
  have h' := h.congr_deriv (show _ = (0 : ℝ) by
    norm_num
    field_simp
    ring)
  refine h'.congr_of_eventuallyEq (Filter.Eventually.of_forall fun s => ?_)
  simp only [L2, Lz]
  ring

theorem C50aux.E_const (hb : 0 ≤ b) (m : C50Spec.Motion amp b p) (t s : ℝ) : E amp b (p t) = E amp b (p s) := by
  rw [C50aux.E_eq, C50aux.E_eq, C50aux.energy_const hb m t s]

theorem C50aux.L_const (hb : 0 ≤ b) (m : C50Spec.Motion amp b p) (t s : ℝ) : L (p t) = L (p s) := by
  unfold L
  rw [C50aux.l2_const hb m t s]

theorem C50aux.actions_const (hb : 0 ≤ b) (m : C50Spec.Motion amp b p) (t s : ℝ) :
    actions amp b (p t) = actions amp b (p s) := by
  simp only [actions, Jr, Jz, C50aux.E_const hb m t s, C50aux.L_const hb m t s, C50aux.l2_const hb m t s,
    C50aux.lz_const m t s]

theorem C50aux.Omegar_const (hb : 0 ≤ b) (m : C50Spec.Motion amp b p) (t s : ℝ) :
    Omegar amp b (p t) = Omegar amp b (p s) := by
  simp only [Omegar, C50aux.E_const hb m t s]

theorem C50aux.freqs_const (hb : 0 ≤ b) (m : C50Spec.Motion amp b p) (t s : ℝ) :
    freqs amp b (p t) = freqs amp b (p s) := by
  simp only [freqs, Omegaphi, Omegaz, Omegar, C50aux.E_const hb m t s, C50aux.L_const hb m t s,
    C50aux.l2_const hb m t s, C50aux.lz_const m t s]

theorem C50aux.c_const (hb : 0 ≤ b) (m : C50Spec.Motion amp b p) (t s : ℝ) : c amp b (p t) = c amp b (p s) := by
  simp only [c, C50aux.E_const hb m t s]

theorem C50aux.e_const (hb : 0 ≤ b) (m : C50Spec.Motion amp b p) (t s : ℝ) : e amp b (p t) = e amp b (p s) := by
  simp only [e, C50aux.c_const hb m t s, C50aux.l2_const hb m t s]

theorem C50aux.k0_const (hb : 0 ≤ b) (m : C50Spec.Motion amp b p) (t s : ℝ) :
    C50aux.k0 amp b (p t) = C50aux.k0 amp b (p s) := by
  simp only [C50aux.k0, C50aux.c_const hb m t s]

theorem C50aux.k1_const (hb : 0 ≤ b) (m : C50Spec.Motion amp b p) (t s : ℝ) :
    C50aux.k1 amp b (p t) = C50aux.k1 amp b (p s) := by
  simp only [C50aux.k1, C50aux.e_const hb m t s]

theorem C50aux.k2_const (hb : 0 ≤ b) (m : C50Spec.Motion amp b p) (t s : ℝ) :
    C50aux.k2 amp b (p t) = C50aux.k2 amp b (p s) := by
  simp only [C50aux.k2, C50aux.e_const hb m t s, C50aux.c_const hb m t s]

theorem C50aux.elements_all (ha : 0 < amp) (hb : 0 ≤ b) (m : C50Spec.Motion amp b p)
    (hE : C50Spec.energy amp b (p 0) < 0) (hJr : 0 < (actions amp b (p 0)).1) (hJ : (actions amp b (p 0)).2.1 ≠ 0)
    (t : ℝ) : C50aux.Elements amp b (p t) := by
  refine C50aux.elements amp b ha hb (p t) (m.pos t) ?_ ?_ ?_
  · rw [C50aux.energy_const hb m t 0]
    exact hE
  · rw [C50aux.actions_const hb m t 0]
    exact hJr
  · rintro h
    apply hJ
    rw [← C50aux.actions_const hb m t 0]
    simp [actions, Lz, h]

/-! ### The eccentric anomaly along the orbit -/

theorem C50aux.dX (hb : 0 ≤ b) (m : C50Spec.Motion amp b p) (he : ∀ t, C50aux.Elements amp b (p t)) (t : ℝ) :
    HasDerivAt (fun s => coseta amp b (p s))
      (-(C50aux.k0 amp b (p t) / C50aux.w b (p t) * C50aux.Y amp b (p t))) t := by
  have h1 := (((((C50aux.dw m t).sub_const b).div_const (c amp b (p t))).const_sub 1).div_const (e amp b (p t)))
  have hc := (he t).c0.ne'
  have hee := (he t).e0.ne'
  have hk := (C50aux.k0_pos amp b (p t) (he t)).ne'
  have hw : C50aux.w b (p t) ≠ 0 := by linarith [C50aux.w_gt b (p t) (m.pos t)]
  have h2 := h1.congr_of_eventuallyEq (f₁ := fun s => coseta amp b (p s)) (Filter.Eventually.of_forall fun s => by
    simp only [C50aux.coseta_eq amp b hb (p s), C50aux.c_const hb m s t, C50aux.e_const hb m s t])
  refine h2.congr_deriv ?_
  unfold C50aux.Y
  field_simp

theorem C50aux.dY (hb : 0 ≤ b) (m : C50Spec.Motion amp b p) (he : ∀ t, C50aux.Elements amp b (p t)) (t : ℝ) :
    HasDerivAt (fun s => C50aux.Y amp b (p s))
      (C50aux.k0 amp b (p t) / C50aux.w b (p t) * coseta amp b (p t)) t := by
  have hR := m.pos t
  have h1 := ((hd_add (hd_mul (m.R t) (m.vR t)) (hd_mul (m.z t) (m.vz t))).div_const
    (C50aux.k0 amp b (p t) * c amp b (p t) * e amp b (p t)))
  have h2 := h1.congr_of_eventuallyEq (f₁ := fun s => C50aux.Y amp b (p s)) (Filter.Eventually.of_forall fun s => by
    simp only [C50aux.Y, C50aux.k0_const hb m s t, C50aux.c_const hb m s t, C50aux.e_const hb m s t])
  refine h2.congr_deriv ?_
  rw [show √(b ^ 2 + ((p t).R ^ 2 + (p t).z ^ 2)) = C50aux.w b (p t) from rfl, C50aux.coseta_eq amp b hb]
  have hc := (he t).c0.ne'
  have hee := (he t).e0.ne'
  have hk := (C50aux.k0_pos amp b (p t) (he t)).ne'
  have hbw := C50aux.w_gt b (p t) hR
  have hw : C50aux.w b (p t) ≠ 0 := by linarith
  have hw1 : b + C50aux.w b (p t) ≠ 0 := by linarith
  have hw2 := C50aux.w_sq b (p t)
  have hE := C50aux.E_k0 amp b (p t) (he t)
  rw [C50aux.E_eq] at hE
  unfold C50Spec.energy at hE
  rw [show √(b ^ 2 + ((p t).R ^ 2 + (p t).z ^ 2)) = C50aux.w b (p t) from rfl] at hE
  have hk2 := C50aux.k0_sq amp b (p t) (he t)
  have key : (p t).vR * (p t).vR + (p t).R * ((p t).vT ^ 2 / (p t).R
        - amp * (p t).R / (C50aux.w b (p t) * (b + C50aux.w b (p t)) ^ 2))
      + ((p t).vz * (p t).vz + (p t).z * -(amp * (p t).z / (C50aux.w b (p t) * (b + C50aux.w b (p t)) ^ 2)))
      = amp / C50aux.w b (p t) - C50aux.k0 amp b (p t) ^ 2 := by
    have e1 : (p t).vR * (p t).vR + (p t).R * ((p t).vT ^ 2 / (p t).R
        - amp * (p t).R / (C50aux.w b (p t) * (b + C50aux.w b (p t)) ^ 2))
      + ((p t).vz * (p t).vz + (p t).z * -(amp * (p t).z / (C50aux.w b (p t) * (b + C50aux.w b (p t)) ^ 2)))
      = ((p t).vR ^ 2 + (p t).vT ^ 2 + (p t).vz ^ 2)
        - amp * ((p t).R ^ 2 + (p t).z ^ 2) / (C50aux.w b (p t) * (b + C50aux.w b (p t)) ^ 2) := by
      field_simp
      ring
    rw [e1, ← hE, show (p t).R ^ 2 + (p t).z ^ 2 = C50aux.w b (p t) ^ 2 - b ^ 2 by linarith]
    field_simp
    ring
  rw [key]
  generalize C50aux.k0 amp b (p t) = k at *
  generalize c amp b (p t) = cc at *
  generalize e amp b (p t) = ee at *
  rw [← hk2]
  field_simp
  ring

/-- **Radial angle.** -/
theorem C50aux.radial_angle (hb : 0 ≤ b) (m : C50Spec.Motion amp b p) (he : ∀ t, C50aux.Elements amp b (p t)) (t : ℝ) :
    C50Spec.Same (angler amp b (p t)) (angler amp b (p 0) + Omegar amp b (p 0) * t) := by
  have hcont : Continuous fun t => C50aux.k0 amp b (p 0) / C50aux.w b (p t) := by
    refine continuous_const.div (continuous_iff_continuousAt.2 fun t => (C50aux.dw m t).continuousAt) fun t => ?_
    linarith [C50aux.w_gt b (p t) (m.pos t)]
  obtain ⟨W, hW0, hW⟩ := C50aux.antideriv _ hcont (eta amp b (p 0))
  have hl := C50aux.lift (fun s => coseta amp b (p s)) (fun s => C50aux.Y amp b (p s))
    (fun t => C50aux.k0 amp b (p 0) / C50aux.w b (p t)) W
    (fun t => by rw [C50aux.k0_const hb m 0 t]; exact C50aux.dX hb m he t)
    (fun t => by rw [C50aux.k0_const hb m 0 t]; exact C50aux.dY hb m he t) hW
    (by rw [hW0]; exact (C50aux.eta_spec amp b _ (he 0)).1) (by rw [hW0]; exact (C50aux.eta_spec amp b _ (he 0)).2.1)
  have hs : ∀ t, C50Spec.Same (eta amp b (p t)) (W t) := fun t => by
    obtain ⟨h1, h2, _, _⟩ := C50aux.eta_spec amp b _ (he t)
    exact C50aux.same_of_cos_sin (h1.trans (hl t).1.symm) (h2.trans (hl t).2.symm)
  set κ := e amp b (p 0) * c amp b (p 0) / (c amp b (p 0) + b) with hκ
  have hlin := C50aux.linear (fun s => W s - κ * C50aux.Y amp b (p s)) (Omegar amp b (p 0)) (fun t => by
    refine ((hW t).sub ((C50aux.dY hb m he t).const_mul κ)).congr_deriv ?_
    rw [C50aux.Omegar_eq amp b _ (he 0), C50aux.coseta_eq amp b hb, C50aux.k0_const hb m t 0, C50aux.c_const hb m t 0,
      C50aux.e_const hb m t 0, hκ]
    have hc := (he 0).c0
    have hee := (he 0).e0
    have hw : C50aux.w b (p t) ≠ 0 := by linarith [C50aux.w_gt b (p t) (m.pos t)]
    have hcb : c amp b (p 0) + b ≠ 0 := by positivity
    field_simp
    ring) t
  have ha : ∀ t, angler amp b (p t) = eta amp b (p t) - κ * C50aux.Y amp b (p t) := fun t => by
    unfold angler
    rw [(C50aux.eta_spec amp b _ (he t)).2.1, C50aux.c_const hb m t 0, C50aux.e_const hb m t 0]
  simp only [hW0] at hlin
  rw [ha 0, ← hlin, ha t]
  exact C50aux.same_add (hs t) (C50aux.same_refl _)

/-- **Vertical angle**, given the position in the plane of the orbit. -/
theorem C50aux.vertical_angle (hb : 0 ≤ b) (m : C50Spec.Motion amp b p) (he : ∀ t, C50aux.Elements amp b (p t))
    (V : ℝ → ℝ) (hV : ∀ t, HasDerivAt V (L (p 0) / ((p t).R ^ 2 + (p t).z ^ 2)) t)
    (hs : ∀ t, C50Spec.Same (psi (p t)) (V t)) (t : ℝ) :
    C50Spec.Same (anglez amp b (p t)) (anglez amp b (p 0) + Omegaz amp b (p 0) * t) := by
  set κ := e amp b (p 0) * c amp b (p 0) / (c amp b (p 0) + b) with hκ
  set lam := L (p 0) / √(L2 (p 0) + 4 * amp * b) with hlam
  set q1 := C50aux.k1 amp b (p 0) with hq1
  set q2 := C50aux.k2 amp b (p 0) with hq2
  have hz : ∀ t, anglez amp b (p t) = mod2pi (psi (p t)) - (1 + lam) / 2 * (κ * C50aux.Y amp b (p t))
      - C50aux.corr q1 (coseta amp b (p t)) (C50aux.Y amp b (p t))
      - lam * C50aux.corr q2 (coseta amp b (p t)) (C50aux.Y amp b (p t)) := fun t => by
    rw [C50aux.anglez_eq amp b _ (he t), C50aux.c_const hb m t 0, C50aux.e_const hb m t 0, C50aux.L_const hb m t 0,
      C50aux.l2_const hb m t 0, C50aux.k1_const hb m t 0, C50aux.k2_const hb m t 0]
  have hlin := C50aux.linear (fun s => V s - (1 + lam) / 2 * (κ * C50aux.Y amp b (p s))
      - C50aux.corr q1 (coseta amp b (p s)) (C50aux.Y amp b (p s))
      - lam * C50aux.corr q2 (coseta amp b (p s)) (C50aux.Y amp b (p s))) (Omegaz amp b (p 0)) (fun t => by
    have hX := C50aux.dX hb m he t
    have hY := C50aux.dY hb m he t
    have hcirc := C50aux.circle amp b _ (he t)
    have d1 := C50aux.corr_deriv q1 (C50aux.k1_pos amp b _ (he 0)) (fun s => coseta amp b (p s))
      (fun s => C50aux.Y amp b (p s)) _ t hX hY hcirc
    have d2 := C50aux.corr_deriv q2 (C50aux.k2_pos amp b _ (he 0)) (fun s => coseta amp b (p s))
      (fun s => C50aux.Y amp b (p s)) _ t hX hY hcirc
    refine ((((hV t).sub ((hY.const_mul κ).const_mul ((1 + lam) / 2))).sub d1).sub (d2.const_mul lam)).congr_deriv ?_
    have hrates := C50aux.rates amp b _ (he t)
    rw [C50aux.L_const hb m t 0, C50aux.l2_const hb m t 0, C50aux.k1_const hb m t 0, C50aux.k2_const hb m t 0, ← hlam,
      ← hq1, ← hq2] at hrates
    rw [← hrates]
    have hom : Omegaz amp b (p 0) = (1 + lam) / 2 * Omegar amp b (p 0) := by
      unfold Omegaz
      rw [← hlam]
      ring
    have hr : C50aux.k0 amp b (p t) / C50aux.w b (p t) * (1 - κ * coseta amp b (p t)) = Omegar amp b (p 0) := by
      rw [C50aux.Omegar_eq amp b _ (he 0), C50aux.coseta_eq amp b hb, C50aux.k0_const hb m t 0,
        C50aux.c_const hb m t 0, C50aux.e_const hb m t 0, hκ]
      have hc := (he 0).c0
      have hee := (he 0).e0
      have hw : C50aux.w b (p t) ≠ 0 := by linarith [C50aux.w_gt b (p t) (m.pos t)]
      have hcb : c amp b (p 0) + b ≠ 0 := by positivity
      field_simp
      ring
    rw [hom, ← hr]
    ring) t
  have hV' : ∀ t, C50Spec.Same (mod2pi (psi (p t))) (V t) := fun t => C50aux.same_trans (C50aux.same_mod _) (hs t)
  have hg : ∀ t, C50Spec.Same (anglez amp b (p t)) (V t - (1 + lam) / 2 * (κ * C50aux.Y amp b (p t))
      - C50aux.corr q1 (coseta amp b (p t)) (C50aux.Y amp b (p t))
      - lam * C50aux.corr q2 (coseta amp b (p t)) (C50aux.Y amp b (p t))) := fun t => by
    obtain ⟨n, hn⟩ := hV' t
    refine ⟨n, ?_⟩
    rw [hz t, hn]
    ring
  refine C50aux.same_trans (hg t) ?_
  rw [hlin]
  exact C50aux.same_add (C50aux.same_symm (hg 0)) (C50aux.same_refl _)

/-! ### The inclination -/

theorem C50aux.N_eq (q : Point) : L q ^ 2 - Lz q ^ 2 = (q.z * q.vT) ^ 2 + (q.R * q.vz - q.z * q.vR) ^ 2 := by
  have hl : L q ^ 2 = L2 q := sq_sqrt (C50aux.L2_nonneg q)
  rw [hl, C50aux.L2_eq]
  unfold C50Spec.angmom2 Lz
  ring

/-- `L sin i`. -/
def C50aux.N (q : Point) : ℝ := √(L q ^ 2 - Lz q ^ 2)

theorem C50aux.N_sq (q : Point) : C50aux.N q ^ 2 = (q.z * q.vT) ^ 2 + (q.R * q.vz - q.z * q.vR) ^ 2 := by
  unfold C50aux.N
  rw [C50aux.N_eq, sq_sqrt (by positivity)]

theorem C50aux.N_const (hb : 0 ≤ b) (m : C50Spec.Motion amp b p) (t s : ℝ) : C50aux.N (p t) = C50aux.N (p s) := by
  unfold C50aux.N
  rw [C50aux.L_const hb m t s, C50aux.lz_const m t s]

theorem C50aux.vzindx_iff (q : Point) (hR : 0 < q.R) : vzindx q ↔ q.R * q.vz - q.z * q.vR < 0 := by
  have hr : 0 < √(q.R ^ 2 + q.z ^ 2) := sqrt_pos.2 (by positivity)
  unfold vzindx sintheta costheta
  rw [show -q.vz * (q.R / √(q.R ^ 2 + q.z ^ 2)) + q.vR * (q.z / √(q.R ^ 2 + q.z ^ 2))
    = -(q.R * q.vz - q.z * q.vR) / √(q.R ^ 2 + q.z ^ 2) by ring, gt_iff_lt, div_pos_iff_of_pos_right hr]
  constructor <;> intro h <;> linarith

theorem C50aux.arcsin_branch (S C : ℝ) (P : Prop) [Decidable P] (h1 : S ^ 2 + C ^ 2 = 1) (hP : P ↔ C < 0) :
    sin (if P then π - arcsin (clip S) else arcsin (clip S)) = S
      ∧ cos (if P then π - arcsin (clip S) else arcsin (clip S)) = C := by
  have hS1 : S ≤ 1 := by nlinarith [sq_nonneg C]
  have hS0 : -1 ≤ S := by nlinarith [sq_nonneg C]
  rw [C50aux.clip_id hS0 hS1]
  split_ifs with h
  · have hC := hP.1 h
    rw [sin_pi_sub, cos_pi_sub, sin_arcsin hS0 hS1, cos_arcsin, show 1 - S ^ 2 = (-C) ^ 2 by linarith,
      sqrt_sq (by linarith)]
    simp
  · have hC : 0 ≤ C := not_lt.1 fun hn => h (hP.2 hn)
    rw [sin_arcsin hS0 hS1, cos_arcsin, show 1 - S ^ 2 = C ^ 2 by linarith, sqrt_sq hC]
    simp

theorem C50aux.psi_spec (q : Point) (hR : 0 < q.R) (hL : 0 < L q) (hN : 0 < C50aux.N q) :
    sin (psi q) = q.z * L q / (√(q.R ^ 2 + q.z ^ 2) * C50aux.N q)
      ∧ cos (psi q) = q.R * (q.R * q.vz - q.z * q.vR) / (√(q.R ^ 2 + q.z ^ 2) * C50aux.N q) := by
  have hr : 0 < √(q.R ^ 2 + q.z ^ 2) := sqrt_pos.2 (by positivity)
  have hr2 : √(q.R ^ 2 + q.z ^ 2) ^ 2 = q.R ^ 2 + q.z ^ 2 := sq_sqrt (by positivity)
  have hs : sini q = C50aux.N q / L q := rfl
  have hs0 : sini q ≠ 0 := by
    rw [hs]
    positivity
  have hsin : costheta q / sini q = q.z * L q / (√(q.R ^ 2 + q.z ^ 2) * C50aux.N q) := by
    rw [hs]
    unfold costheta
    field_simp
  classical
  unfold psi
  rw [if_neg hs0]
  dsimp only
  rw [hsin]
  refine C50aux.arcsin_branch _ _ _ ?_ ?_
  · have hl : L q ^ 2 = L2 q := sq_sqrt (C50aux.L2_nonneg q)
    have hN2 := C50aux.N_sq q
    have hNe := C50aux.N_eq q
    rw [div_pow, div_pow, mul_pow, mul_pow, mul_pow, ← add_div, div_eq_one_iff_eq (by positivity), hr2, hN2]
    have : L q ^ 2 = (q.z * q.vT) ^ 2 + (q.R * q.vz - q.z * q.vR) ^ 2 + (q.R * q.vT) ^ 2 := by
      unfold Lz at hNe
      linarith
    rw [this]
    ring
  · rw [C50aux.vzindx_iff q hR]
    constructor
    · intro h
      exact div_neg_of_neg_of_pos (mul_neg_of_pos_of_neg hR h) (by positivity)
    · intro h
      by_contra hn
      have : 0 ≤ q.R * (q.R * q.vz - q.z * q.vR) / (√(q.R ^ 2 + q.z ^ 2) * C50aux.N q) :=
        div_nonneg (mul_nonneg hR.le (not_lt.1 hn)) (by positivity)
      linarith

theorem C50aux.u_spec (q : Point) (hR : 0 < q.R) (hL : 0 < L q) (hN : 0 < C50aux.N q) :
    sin (u q) = q.z * q.vT / C50aux.N q ∧ cos (u q) = (q.R * q.vz - q.z * q.vR) / C50aux.N q := by
  have hs : sini q = C50aux.N q / L q := rfl
  have hs0 : sini q ≠ 0 := by
    rw [hs]
    positivity
  have hsin : q.z / q.R / tani q = q.z * q.vT / C50aux.N q := by
    rw [show tani q = C50aux.N q / Lz q from rfl]
    unfold Lz
    field_simp
  classical
  unfold u
  rw [if_neg hs0]
  dsimp only
  rw [hsin]
  refine C50aux.arcsin_branch _ _ _ ?_ ?_
  · have hN2 := C50aux.N_sq q
    rw [div_pow, div_pow, ← add_div, div_eq_one_iff_eq (by positivity), hN2]
  · rw [C50aux.vzindx_iff q hR]
    constructor
    · intro h
      exact div_neg_of_neg_of_pos h hN
    · intro h
      by_contra hn
      have : 0 ≤ (q.R * q.vz - q.z * q.vR) / C50aux.N q := div_nonneg (not_lt.1 hn) hN.le
      linarith

theorem C50aux.psi_motion (hb : 0 ≤ b) (m : C50Spec.Motion amp b p) (hL : 0 < L (p 0)) (hN : 0 < C50aux.N (p 0)) :
    ∃ V : ℝ → ℝ, (∀ t, HasDerivAt V (L (p 0) / ((p t).R ^ 2 + (p t).z ^ 2)) t)
      ∧ ∀ t, C50Spec.Same (psi (p t)) (V t) := by
  have hr2 : ∀ t, 0 < (p t).R ^ 2 + (p t).z ^ 2 := fun t => by
    have := m.pos t
    positivity
  have hcont : Continuous fun t => L (p 0) / ((p t).R ^ 2 + (p t).z ^ 2) :=
    continuous_const.div (continuous_iff_continuousAt.2 fun t => (C50aux.dr2 m t).continuousAt) fun t => (hr2 t).ne'
  obtain ⟨V, hV0, hV⟩ := C50aux.antideriv _ hcont (psi (p 0))
  refine ⟨V, hV, ?_⟩
  have hdr : ∀ t, HasDerivAt (fun s => √((p s).R ^ 2 + (p s).z ^ 2) * C50aux.N (p 0))
      (((p t).R * (p t).vR + (p t).z * (p t).vz) / √((p t).R ^ 2 + (p t).z ^ 2) * C50aux.N (p 0)) t := fun t => by
    refine ((hd_sqrt (C50aux.dr2 m t) (hr2 t).ne').mul_const _).congr_deriv ?_
    rw [mul_div_mul_left _ _ two_ne_zero]
  have hpsi : ∀ t, _ := fun t => C50aux.psi_spec (p t) (m.pos t) (by rw [C50aux.L_const hb m t 0]; exact hL)
    (by rw [C50aux.N_const hb m t 0]; exact hN)
  have hl := C50aux.lift (fun s => (p s).R * ((p s).R * (p s).vz - (p s).z * (p s).vR)
      / (√((p s).R ^ 2 + (p s).z ^ 2) * C50aux.N (p 0)))
    (fun s => (p s).z * L (p 0) / (√((p s).R ^ 2 + (p s).z ^ 2) * C50aux.N (p 0))) _ V (fun t => by
      have hR := m.pos t
      have hr := sqrt_pos.2 (hr2 t)
      have hrs : √((p t).R ^ 2 + (p t).z ^ 2) ^ 2 = (p t).R ^ 2 + (p t).z ^ 2 := sq_sqrt (hr2 t).le
      refine (hd_div (hd_mul (m.R t) (C50aux.dM hb m t)) (hdr t) (by positivity)).congr_deriv ?_
      have hLL : L (p 0) ^ 2 = ((p t).z * (p t).vT) ^ 2 + ((p t).R * (p t).vz - (p t).z * (p t).vR) ^ 2
          + ((p t).R * (p t).vT) ^ 2 := by
        have := C50aux.N_eq (p t)
        rw [C50aux.L_const hb m t 0] at this
        unfold Lz at this
        linarith
      generalize L (p 0) = l at *
      generalize C50aux.N (p 0) = n at *
      generalize √((p t).R ^ 2 + (p t).z ^ 2) = r at *
      rw [← hrs]
      field_simp
      linear_combination (-((p t).z * (p t).vT ^ 2) + (p t).vR * ((p t).R * (p t).vz - (p t).z * (p t).vR)) * hrs
        + (p t).z * hLL) (fun t => by
      have hR := m.pos t
      have hr := sqrt_pos.2 (hr2 t)
      have hrs : √((p t).R ^ 2 + (p t).z ^ 2) ^ 2 = (p t).R ^ 2 + (p t).z ^ 2 := sq_sqrt (hr2 t).le
      refine (hd_div ((m.z t).mul_const (L (p 0))) (hdr t) (by positivity)).congr_deriv ?_
      generalize L (p 0) = l at *
      generalize C50aux.N (p 0) = n at *
      generalize √((p t).R ^ 2 + (p t).z ^ 2) = r at *
      rw [← hrs]
      field_simp
      linear_combination (p t).vz * hrs) hV (by rw [hV0]; exact (hpsi 0).2) (by rw [hV0]; exact (hpsi 0).1)
  intro t
  refine C50aux.same_of_cos_sin ?_ ?_
  · rw [(hl t).1, (hpsi t).2, C50aux.N_const hb m t 0]
  · rw [(hl t).2, (hpsi t).1, C50aux.N_const hb m t 0, C50aux.L_const hb m t 0]

theorem C50aux.u_motion (hb : 0 ≤ b) (m : C50Spec.Motion amp b p) (hL : 0 < L (p 0)) (hN : 0 < C50aux.N (p 0)) (t : ℝ) :
    C50Spec.Same ((p t).phi - u (p t)) ((p 0).phi - u (p 0)) := by
  have hu : ∀ t, _ := fun t => C50aux.u_spec (p t) (m.pos t) (by rw [C50aux.L_const hb m t 0]; exact hL)
    (by rw [C50aux.N_const hb m t 0]; exact hN)
  have hl := C50aux.lift (fun s => ((p s).R * (p s).vz - (p s).z * (p s).vR) / C50aux.N (p 0))
    (fun s => (p s).z * (p s).vT / C50aux.N (p 0)) (fun s => (p s).vT / (p s).R)
    (fun s => (p s).phi - (p 0).phi + u (p 0)) (fun t =>
      ((C50aux.dM hb m t).div_const _).congr_deriv (by ring)) (fun t =>
      ((C50aux.dzvT m t).div_const _).congr_deriv (by ring)) (fun t =>
      (((m.phi t).sub_const _).add_const _)) (by rw [sub_self, zero_add]; exact (hu 0).2)
      (by rw [sub_self, zero_add]; exact (hu 0).1)
  have : C50Spec.Same (u (p t)) ((p t).phi - (p 0).phi + u (p 0)) := by
    refine C50aux.same_of_cos_sin ?_ ?_
    · rw [(hl t).1, (hu t).2, C50aux.N_const hb m t 0]
    · rw [(hl t).2, (hu t).1, C50aux.N_const hb m t 0]
  have h2 := C50aux.same_add (C50aux.same_refl (p t).phi) (C50aux.same_neg this)
  have e1 : (p t).phi + -u (p t) = (p t).phi - u (p t) := by ring
  have e2 : (p t).phi + -((p t).phi - (p 0).phi + u (p 0)) = (p 0).phi - u (p 0) := by ring
  rwa [e1, e2] at h2

/-- In the plane `z = 0` both auxiliary angles are the azimuth. -/
theorem C50aux.planar (q : Point) (hN : C50aux.N q = 0) (hT : q.vT ≠ 0) : q.z = 0 ∧ psi q = q.phi ∧ u q = q.phi := by
  have h := C50aux.N_sq q
  rw [hN] at h
  have hz : (q.z * q.vT) ^ 2 = 0 := by nlinarith [sq_nonneg (q.z * q.vT), sq_nonneg (q.R * q.vz - q.z * q.vR)]
  have hz0 : q.z = 0 := by
    have := pow_eq_zero_iff (two_ne_zero) |>.1 hz
    exact (mul_eq_zero.1 this).resolve_right hT
  have hs : sini q = 0 := by
    unfold sini
    rw [show √(L q ^ 2 - Lz q ^ 2) = C50aux.N q from rfl, hN, zero_div]
  exact ⟨hz0, by simp [psi, hs], by simp [u, hs]⟩

theorem C50aux.N_pos_iff (q : Point) (h : Lz q ≠ 0) : 0 < C50aux.N q ↔ 0 < Jz q := by
  have hl := C50aux.Lz_le q
  have h0 : 0 < |Lz q| := abs_pos.2 h
  unfold C50aux.N Jz
  rw [sqrt_pos, sub_pos, sub_pos, ← sq_abs (Lz q)]
  constructor
  · intro h
    exact lt_of_pow_lt_pow_left₀ 2 (by linarith) h
  · intro h
    nlinarith

/-- **C50 (angles).** Along every bound orbit of the isochrone that is neither circular nor polar, and that is inclined or
turns with positive angular momentum, the actions and frequencies stay the same and each angle, modulo `2 pi`, advances
linearly in time at the corresponding frequency. -/
theorem C50_angles (ha : 0 < amp) (hb : 0 ≤ b) (m : C50Spec.Motion amp b p) (hE : C50Spec.energy amp b (p 0) < 0)
    (hJr : 0 < (actions amp b (p 0)).1) (hJ : (actions amp b (p 0)).2.1 ≠ 0)
    (hz : 0 < (actions amp b (p 0)).2.2 ∨ 0 < (actions amp b (p 0)).2.1) (t : ℝ) :
    actions amp b (p t) = actions amp b (p 0) ∧ freqs amp b (p t) = freqs amp b (p 0)
      ∧ C50Spec.Same (angles amp b (p t)).1 ((angles amp b (p 0)).1 + (freqs amp b (p 0)).1 * t)
      ∧ C50Spec.Same (angles amp b (p t)).2.1 ((angles amp b (p 0)).2.1 + (freqs amp b (p 0)).2.1 * t)
      ∧ C50Spec.Same (angles amp b (p t)).2.2 ((angles amp b (p 0)).2.2 + (freqs amp b (p 0)).2.2 * t) := by
  have he := C50aux.elements_all ha hb m hE hJr hJ
  have hL : 0 < L (p 0) := sqrt_pos.2 (he 0).L0
  refine ⟨C50aux.actions_const hb m t 0, C50aux.freqs_const hb m t 0, ?_⟩
  -- reduce to the angles before the final modulus
  have red : ∀ x y v : ℝ, C50Spec.Same x (y + v) → C50Spec.Same (mod2pi x) (mod2pi y + v) := fun x y v h =>
    C50aux.same_trans (C50aux.same_mod x) (C50aux.same_trans h
      (C50aux.same_add (C50aux.same_symm (C50aux.same_mod y)) (C50aux.same_refl v)))
  have main : (∃ V : ℝ → ℝ, (∀ t, HasDerivAt V (L (p 0) / ((p t).R ^ 2 + (p t).z ^ 2)) t)
      ∧ ∀ t, C50Spec.Same (psi (p t)) (V t)) ∧ C50Spec.Same ((p t).phi - u (p t)) ((p 0).phi - u (p 0)) := by
    by_cases hN : 0 < C50aux.N (p 0)
    · exact ⟨C50aux.psi_motion hb m hL hN, C50aux.u_motion hb m hL hN t⟩
    · have hN0 : C50aux.N (p 0) = 0 := le_antisymm (not_lt.1 hN) (sqrt_nonneg _)
      have hNt : ∀ t, C50aux.N (p t) = 0 := fun t => (C50aux.N_const hb m t 0).trans hN0
      have hLz : 0 < Lz (p 0) := by
        rcases hz with h | h
        · exact absurd ((C50aux.N_pos_iff _ hJ).2 h) hN
        · exact h
      have hT : ∀ t, (p t).vT ≠ 0 := fun t h => by
        have : Lz (p t) = Lz (p 0) := C50aux.lz_const m t 0
        rw [← this] at hLz
        simp [Lz, h] at hLz
      have hpl := fun t => C50aux.planar (p t) (hNt t) (hT t)
      refine ⟨⟨fun t => (p t).phi, fun t => ?_, fun t => ?_⟩, ?_⟩
      · refine (m.phi t).congr_deriv ?_
        have hR := m.pos t
        have hLL : L (p 0) = (p t).R * (p t).vT := by
          have h1 := C50aux.N_eq (p 0)
          have h2 := C50aux.N_sq (p 0)
          rw [hN0] at h2
          have h3 : L (p 0) ^ 2 = Lz (p 0) ^ 2 := by
            rw [← h2] at h1
            linarith
          have h4 : L (p 0) = Lz (p 0) := by
            rcases sq_eq_sq_iff_eq_or_eq_neg.1 h3 with h | h
            · exact h
            · linarith
          rw [h4, C50aux.lz_const m 0 t]
          rfl
        rw [hLL, (hpl t).1]
        field_simp
        ring
      · rw [(hpl t).2.1]
        exact C50aux.same_refl _
      · rw [(hpl t).2.2, (hpl 0).2.2, sub_self, sub_self]
        exact C50aux.same_refl _
  obtain ⟨⟨V, hV, hs⟩, hphi⟩ := main
  have hzz := C50aux.vertical_angle hb m he V hV hs t
  refine ⟨red _ _ _ (C50aux.radial_angle hb m he t), red _ _ _ ?_, red _ _ _ hzz⟩
  unfold anglephi
  simp only [freqs, Omegaphi]
  rw [C50aux.lz_const m t 0]
  split_ifs with h
  · have := C50aux.same_add hphi (C50aux.same_neg hzz)
    have e1 : (p t).phi - u (p t) + -anglez amp b (p t) = (p t).phi - u (p t) - anglez amp b (p t) := by ring
    have e2 : (p 0).phi - u (p 0) + -(anglez amp b (p 0) + Omegaz amp b (p 0) * t)
      = (p 0).phi - u (p 0) - anglez amp b (p 0) + Omegaz amp b (p 0) * -1 * t := by ring
    rwa [e1, e2] at this
  · have := C50aux.same_add hphi hzz
    have e2 : (p 0).phi - u (p 0) + (anglez amp b (p 0) + Omegaz amp b (p 0) * t)
      = (p 0).phi - u (p 0) + anglez amp b (p 0) + Omegaz amp b (p 0) * t := by ring
    rwa [e2] at this

/-- **C50 (planar orbits with negative angular momentum).** Turning such an orbit about the axis by an angle turns the
azimuthal angle backwards: the convention for orbits without inclination has the wrong sign.  The radial and vertical
position are the same, so the azimuthal angle should change by the angle itself. -/
theorem C50_planar_retrograde_fails (q : Point) (hz : q.z = 0) (hvz : q.vz = 0) (hR : 0 < q.R) (hT : q.vT < 0) (d : ℝ) :
    C50Spec.Same (angles amp b { q with phi := q.phi + d }).2.1 ((angles amp b q).2.1 - d) := by
  have hLz : Lz q < 0 := mul_neg_of_pos_of_neg hR hT
  have hN : ∀ f : ℝ, C50aux.N { q with phi := f } = 0 := fun f => by
    have := C50aux.N_sq { q with phi := f }
    simp only [hz, hvz] at this ⊢
    simpa using this
  have hp := C50aux.planar { q with phi := q.phi + d } (hN _) hT.ne
  have hq := C50aux.planar q (hN q.phi) hT.ne
  have hLz' : Lz { q with phi := q.phi + d } < 0 := hLz
  have e1 : anglephi amp b { q with phi := q.phi + d }
      = -(mod2pi (q.phi + d)) + (mod2pi q.phi + anglephi amp b q) := by
    unfold anglephi
    rw [if_pos hLz', if_pos hLz, hp.2.2, hq.2.2]
    unfold anglez
    rw [hp.2.1, hq.2.1]
    change q.phi + d - (q.phi + d) - (mod2pi (q.phi + d) + Omegaz amp b q / Omegar amp b q * angler amp b q
      - tan11 amp b q - 1 / √(1 + 4 * amp * b / L2 q) * tan12 amp b q) = _
    ring
  simp only [angles]
  refine C50aux.same_trans (C50aux.same_mod _) ?_
  rw [e1]
  have h1 := C50aux.same_neg (C50aux.same_mod (q.phi + d))
  have h2 := C50aux.same_add h1 (C50aux.same_add (C50aux.same_mod q.phi)
    (C50aux.same_symm (C50aux.same_mod (anglephi amp b q))))
  have e2 : -(q.phi + d) + (q.phi + mod2pi (anglephi amp b q)) = mod2pi (anglephi amp b q) - d := by ring
  rwa [e2] at h2

/-- **C50 (planar orbits, inverse).** Without inclination the position computed from actions and angles does not depend on the
azimuthal angle. -/
theorem C50_inverse_planar_fails (jr jphi ar az eta f1 f2 : ℝ) (hj : jphi ≠ 0) :
    xvOf amp b jr jphi 0 ar f1 az eta = xvOf amp b jr jphi 0 ar f2 az eta := by
  have h : √(1 - jphi ^ 2 / invL jphi 0 ^ 2) = 0 := by
    unfold invL
    rw [zero_add, sq_abs, div_self (by positivity), sub_self, sqrt_zero]
  unfold xvOf
  simp only [h, ↓reduceIte]

end Verif
