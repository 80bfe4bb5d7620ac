import Verif.Lemmas.SOS
import Verif.Props.C20

set_option autoImplicit false

/-!
# C65: surfaces of section

Integration in the angle `psi` with `(z, vz) = A (sin psi, cos psi)` follows the orbit, and the points
returned are its successive upward crossings of the surface.
-/

open Set Filter Topology Real

namespace Verif
open SOS Coords

namespace C65Spec

/-- Rectangular position of a row `(R, vR, vT, z, vz, phi)`. -/
noncomputable def position (v : Fin 6 → ℝ) : Fin 3 → ℝ := ![v 0 * cos (v 5), v 0 * sin (v 5), v 3]

/-- Rectangular velocity of a row. -/
noncomputable def velocity (v : Fin 6 → ℝ) : Fin 3 → ℝ :=
  ![v 1 * cos (v 5) - v 2 * sin (v 5), v 1 * sin (v 5) + v 2 * cos (v 5), v 4]

/-- An orbit that turns forwards in the plane of the coordinate `i` and its velocity: the angle from the
velocity axis increases with time. -/
def Turns {n : ℕ} (f : ℝ → (Fin n → ℝ) → (Fin n → ℝ) → (Fin n → ℝ)) (i : Fin n) (x v : ℝ → Fin n → ℝ)
    (I : Set ℝ) : Prop := ∀ t ∈ I, 0 < v t i ^ 2 - x t i * f t (x t) (v t) i

/-- An upward crossing of the surface. -/
def Upward {n : ℕ} (i : Fin n) (x v : ℝ → Fin n → ℝ) (t : ℝ) : Prop := x t i = 0 ∧ 0 < v t i

end C65Spec

/-! ## The equations -/

/-- A solution in the angle along which the angle advances. -/
structure C65Spec.Traj (F : Force) (Y : ℝ → Fin 6 → ℝ) (a b : ℝ) : Prop where
  sol : Solves (EOM.sos F) Y (Ioo a b)
  pos : ∀ s ∈ Ioo a b, 0 < Y s 4
  fwd : ∀ s ∈ Ioo a b, 0 < (Y s 4 * cos s) ^ 2 - Y s 4 * sin s *
    EOM.rectForceV F (Y s 5) ![Y s 0, Y s 2, Y s 4 * sin s] ![Y s 1, Y s 3, Y s 4 * cos s] 2

open C65Spec in
theorem C65aux.psidot {F : Force} {Y : ℝ → Fin 6 → ℝ} {a b : ℝ} (h : Traj F Y a b) {s : ℝ}
    (hs : s ∈ Ioo a b) : 0 < cos s ^ 2 - sin s / Y s 4 *
      EOM.rectForceV F (Y s 5) ![Y s 0, Y s 2, Y s 4 * sin s] ![Y s 1, Y s 3, Y s 4 * cos s] 2 := by
  have h1 := h.fwd s hs
  have h2 := h.pos s hs
  generalize EOM.rectForceV F (Y s 5) ![Y s 0, Y s 2, Y s 4 * sin s] ![Y s 1, Y s 3, Y s 4 * cos s] 2 = g
    at h1 ⊢
  have e : cos s ^ 2 - sin s / Y s 4 * g = ((Y s 4 * cos s) ^ 2 - Y s 4 * sin s * g) / Y s 4 ^ 2 := by
    field_simp
  rw [e]
  positivity

theorem C65aux.other {y w : ℝ} (hw : 0 < w) : y / w * (1 / w)⁻¹ = y := by
  field_simp

theorem C65aux.across {A u s w : ℝ} (hA : 0 < A) (h : cos s ^ 2 - sin s / A * u = w) (hw : 0 < w) :
    ((A * cos s * sin s + u * cos s) / w * sin s + A * cos s) * (1 / w)⁻¹ = A * cos s ∧
      ((A * cos s * sin s + u * cos s) / w * cos s + A * -sin s) * (1 / w)⁻¹ = u := by
  have hw' : w * A = A * cos s ^ 2 - sin s * u := by
    rw [← h]
    field_simp
  have hcs := sin_sq_add_cos_sq s
  constructor
  · field_simp
    linear_combination (A * cos s) * hcs + cos s * hw'
  · field_simp
    linear_combination u * hcs - sin s * hw'

open C65Spec in
/-- Every solution in the angle is an orbit: time increases, and as a function of time position and
velocity obey Newton's equations, for every force. -/
theorem C65_newton {F : Force} {Y : ℝ → Fin 6 → ℝ} {a b : ℝ} (h : Traj F Y a b) :
    StrictMonoOn (fun s => Y s 5) (Ioo a b) ∧ IsOpen ((fun s => Y s 5) '' Ioo a b) ∧
    ∃ x v : ℝ → Fin 3 → ℝ, Newton (EOM.rectForceV F) x v ((fun s => Y s 5) '' Ioo a b) ∧
      ∀ s ∈ Ioo a b, x (Y s 5) = ![Y s 0, Y s 2, Y s 4 * sin s] ∧
        v (Y s 5) = ![Y s 1, Y s 3, Y s 4 * cos s] := by
  have hd : ∀ s ∈ Ioo a b, ∀ i, HasDerivAt (fun s => Y s i) (EOM.sos F s (Y s) i) s := fun s hs =>
    hasDerivAt_pi.1 (h.sol s hs)
  obtain ⟨hm, ho, g, hg, hg'⟩ := reparam (T := fun s => Y s 5) (T' := fun s => EOM.sos F s (Y s) 5)
    (fun s hs => hd s hs 5) (fun s hs => by
      have := C65aux.psidot h hs
      simp only [EOM.sos, Matrix.cons_val]
      exact div_pos one_pos this)
  refine ⟨hm, ho, fun t => ![Y (g t) 0, Y (g t) 2, Y (g t) 4 * sin (g t)],
    fun t => ![Y (g t) 1, Y (g t) 3, Y (g t) 4 * cos (g t)], ?_, fun s hs => ?_⟩
  · rintro _ ⟨s, hs, rfl⟩
    have hp := C65aux.psidot h hs
    have hA := h.pos s hs
    have D := hd s hs
    have G := hg' s hs
    have gs := hg s hs
    simp only [EOM.sos, Matrix.cons_val] at G
    have comp : ∀ {f : ℝ → ℝ} {f' : ℝ}, HasDerivAt f f' s →
        HasDerivAt (fun t => f (g t)) (f' * (1 / (cos s ^ 2 - sin s / Y s 4 * EOM.rectForceV F (Y s 5)
          ![Y s 0, Y s 2, Y s 4 * sin s] ![Y s 1, Y s 3, Y s 4 * cos s] 2))⁻¹) (Y s 5) := by
      intro f f' hf
      have hf' : HasDerivAt f f' (g (Y s 5)) := by rw [gs]; exact hf
      exact HasDerivAt.comp (Y s 5) hf' G
    simp only [gs]
    have hz := (D 4).mul (hasDerivAt_sin s)
    have hv := (D 4).mul (hasDerivAt_cos s)
    have ac := C65aux.across hA rfl hp
    constructor
    · rw [hasDerivAt_pi]
      intro i
      fin_cases i
      · exact (comp (D 0)).congr_deriv (C65aux.other hp)
      · exact (comp (D 2)).congr_deriv (C65aux.other hp)
      · exact (comp hz).congr_deriv ac.1
    · rw [hasDerivAt_pi]
      intro i
      fin_cases i
      · exact (comp (D 1)).congr_deriv (C65aux.other hp)
      · exact (comp (D 3)).congr_deriv (C65aux.other hp)
      · exact (comp hv).congr_deriv ac.2
  · simp only [hg s hs, and_self]

theorem C65aux.psidot' {A g s : ℝ} (h2 : 0 < A) (h1 : 0 < (A * cos s) ^ 2 - A * sin s * g) :
    0 < cos s ^ 2 - sin s / A * g := by
  have e : cos s ^ 2 - sin s / A * g = ((A * cos s) ^ 2 - A * sin s * g) / A ^ 2 := by
    field_simp
  rw [e]
  positivity

/-- The same in the plane with the surface `x = 0`. -/
theorem C65_newton_x {F : Force} {Y : ℝ → Fin 4 → ℝ} {a b : ℝ} (hsol : Solves (EOM.sosX F) Y (Ioo a b))
    (hpos : ∀ s ∈ Ioo a b, 0 < Y s 2)
    (hfwd : ∀ s ∈ Ioo a b, 0 < (Y s 2 * cos s) ^ 2 - Y s 2 * sin s *
      EOM.planarRectForceV F (Y s 3) ![Y s 2 * sin s, Y s 0] ![Y s 2 * cos s, Y s 1] 0) :
    StrictMonoOn (fun s => Y s 3) (Ioo a b) ∧ IsOpen ((fun s => Y s 3) '' Ioo a b) ∧
    ∃ x v : ℝ → Fin 2 → ℝ, Newton (EOM.planarRectForceV F) x v ((fun s => Y s 3) '' Ioo a b) ∧
      ∀ s ∈ Ioo a b, x (Y s 3) = ![Y s 2 * sin s, Y s 0] ∧ v (Y s 3) = ![Y s 2 * cos s, Y s 1] := by
  have hd : ∀ s ∈ Ioo a b, ∀ i, HasDerivAt (fun s => Y s i) (EOM.sosX F s (Y s) i) s := fun s hs =>
    hasDerivAt_pi.1 (hsol s hs)
  have hp : ∀ s ∈ Ioo a b, 0 < cos s ^ 2 - sin s / Y s 2 * EOM.planarRectForceV F (Y s 3) ![Y s 2 * sin s, Y s 0] ![Y s 2 * cos s, Y s 1] 0 := fun s hs =>
    C65aux.psidot' (hpos s hs) (hfwd s hs)
  obtain ⟨hm, ho, g, hg, hg'⟩ := reparam (T := fun s => Y s 3) (T' := fun s => EOM.sosX F s (Y s) 3)
    (fun s hs => hd s hs 3) (fun s hs => by
      simp only [EOM.sosX, Matrix.cons_val]
      exact div_pos one_pos (hp s hs))
  refine ⟨hm, ho, fun t => ![Y (g t) 2 * sin (g t), Y (g t) 0], fun t => ![Y (g t) 2 * cos (g t), Y (g t) 1], ?_, fun s hs => ?_⟩
  · rintro _ ⟨s, hs, rfl⟩
    have hp' := hp s hs
    have D := hd s hs
    have G := hg' s hs
    have gs := hg s hs
    simp only [EOM.sosX, Matrix.cons_val] at G
    have comp : ∀ {f : ℝ → ℝ} {f' : ℝ}, HasDerivAt f f' s →
        HasDerivAt (fun t => f (g t)) (f' * (1 / (cos s ^ 2 - sin s / Y s 2 *
          EOM.planarRectForceV F (Y s 3) ![Y s 2 * sin s, Y s 0] ![Y s 2 * cos s, Y s 1] 0))⁻¹) (Y s 3) := by
      intro f f' hf
      have hf' : HasDerivAt f f' (g (Y s 3)) := by rw [gs]; exact hf
      exact HasDerivAt.comp (Y s 3) hf' G
    simp only [gs]
    have hz := (D 2).mul (hasDerivAt_sin s)
    have hv := (D 2).mul (hasDerivAt_cos s)
    have ac := C65aux.across (hpos s hs) rfl hp'
    constructor
    · rw [hasDerivAt_pi]
      intro i
      fin_cases i
      · exact (comp hz).congr_deriv ac.1
      · exact (comp (D 0)).congr_deriv (C65aux.other hp')
    · rw [hasDerivAt_pi]
      intro i
      fin_cases i
      · exact (comp hv).congr_deriv ac.2
      · exact (comp (D 1)).congr_deriv (C65aux.other hp')
  · simp only [hg s hs, and_self]

/-- The same in the plane with the surface `y = 0`. -/
theorem C65_newton_y {F : Force} {Y : ℝ → Fin 4 → ℝ} {a b : ℝ} (hsol : Solves (EOM.sosY F) Y (Ioo a b))
    (hpos : ∀ s ∈ Ioo a b, 0 < Y s 2)
    (hfwd : ∀ s ∈ Ioo a b, 0 < (Y s 2 * cos s) ^ 2 - Y s 2 * sin s *
      EOM.planarRectForceV F (Y s 3) ![Y s 0, Y s 2 * sin s] ![Y s 1, Y s 2 * cos s] 1) :
    StrictMonoOn (fun s => Y s 3) (Ioo a b) ∧ IsOpen ((fun s => Y s 3) '' Ioo a b) ∧
    ∃ x v : ℝ → Fin 2 → ℝ, Newton (EOM.planarRectForceV F) x v ((fun s => Y s 3) '' Ioo a b) ∧
      ∀ s ∈ Ioo a b, x (Y s 3) = ![Y s 0, Y s 2 * sin s] ∧ v (Y s 3) = ![Y s 1, Y s 2 * cos s] := by
  have hd : ∀ s ∈ Ioo a b, ∀ i, HasDerivAt (fun s => Y s i) (EOM.sosY F s (Y s) i) s := fun s hs =>
    hasDerivAt_pi.1 (hsol s hs)
  have hp : ∀ s ∈ Ioo a b, 0 < cos s ^ 2 - sin s / Y s 2 * EOM.planarRectForceV F (Y s 3) ![Y s 0, Y s 2 * sin s] ![Y s 1, Y s 2 * cos s] 1 := fun s hs =>
    C65aux.psidot' (hpos s hs) (hfwd s hs)
  obtain ⟨hm, ho, g, hg, hg'⟩ := reparam (T := fun s => Y s 3) (T' := fun s => EOM.sosY F s (Y s) 3)
    (fun s hs => hd s hs 3) (fun s hs => by
      simp only [EOM.sosY, Matrix.cons_val]
      exact div_pos one_pos (hp s hs))
  refine ⟨hm, ho, fun t => ![Y (g t) 0, Y (g t) 2 * sin (g t)], fun t => ![Y (g t) 1, Y (g t) 2 * cos (g t)], ?_, fun s hs => ?_⟩
  · rintro _ ⟨s, hs, rfl⟩
    have hp' := hp s hs
    have D := hd s hs
    have G := hg' s hs
    have gs := hg s hs
    simp only [EOM.sosY, Matrix.cons_val] at G
    have comp : ∀ {f : ℝ → ℝ} {f' : ℝ}, HasDerivAt f f' s →
        HasDerivAt (fun t => f (g t)) (f' * (1 / (cos s ^ 2 - sin s / Y s 2 *
          EOM.planarRectForceV F (Y s 3) ![Y s 0, Y s 2 * sin s] ![Y s 1, Y s 2 * cos s] 1))⁻¹) (Y s 3) := by
      intro f f' hf
      have hf' : HasDerivAt f f' (g (Y s 3)) := by rw [gs]; exact hf
      exact HasDerivAt.comp (Y s 3) hf' G
    simp only [gs]
    have hz := (D 2).mul (hasDerivAt_sin s)
    have hv := (D 2).mul (hasDerivAt_cos s)
    have ac := C65aux.across (hpos s hs) rfl hp'
    constructor
    · rw [hasDerivAt_pi]
      intro i
      fin_cases i
      · exact (comp (D 0)).congr_deriv (C65aux.other hp')
      · exact (comp hz).congr_deriv ac.1
    · rw [hasDerivAt_pi]
      intro i
      fin_cases i
      · exact (comp (D 1)).congr_deriv (C65aux.other hp')
      · exact (comp hv).congr_deriv ac.2
  · simp only [hg s hs, and_self]

/-- The angle of an orbit that turns, followed continuously: derivative and defining equations. -/
theorem C65aux.lift {z u f : ℝ → ℝ} {α β t₀ psi0 : ℝ} (ht : t₀ ∈ Ioo α β)
    (hz : ∀ t ∈ Ioo α β, HasDerivAt z (u t) t) (hu : ∀ t ∈ Ioo α β, HasDerivAt u (f t) t)
    (hf : ContinuousOn f (Ioo α β)) (hp : ∀ t ∈ Ioo α β, 0 < u t ^ 2 - z t * f t)
    (h0 : z t₀ = √(z t₀ ^ 2 + u t₀ ^ 2) * sin psi0) (h0' : u t₀ = √(z t₀ ^ 2 + u t₀ ^ 2) * cos psi0) :
    ∃ p : ℝ → ℝ, p t₀ = psi0 ∧
      (∀ t ∈ Ioo α β, HasDerivAt p ((u t ^ 2 - z t * f t) / (z t ^ 2 + u t ^ 2)) t) ∧
      ∀ t ∈ Ioo α β, z t = √(z t ^ 2 + u t ^ 2) * sin (p t) ∧ u t = √(z t ^ 2 + u t ^ 2) * cos (p t) := by
  have hA : ∀ t ∈ Ioo α β, 0 < z t ^ 2 + u t ^ 2 := by
    intro t h
    by_contra hc
    have h1 : z t = 0 := by nlinarith [sq_nonneg (z t), sq_nonneg (u t)]
    have h2 : u t = 0 := by nlinarith [sq_nonneg (z t), sq_nonneg (u t)]
    have := hp t h
    rw [h1, h2] at this
    norm_num at this
  have hzc : ContinuousOn z (Ioo α β) := fun t h => (hz t h).continuousAt.continuousWithinAt
  have huc : ContinuousOn u (Ioo α β) := fun t h => (hu t h).continuousAt.continuousWithinAt
  have hc : ContinuousOn (fun t => (u t ^ 2 - z t * f t) / (z t ^ 2 + u t ^ 2)) (Ioo α β) :=
    ((huc.pow 2).sub (hzc.mul hf)).div ((hzc.pow 2).add (huc.pow 2)) fun t h => (hA t h).ne'
  have hd : ∀ t ∈ Ioo α β, HasDerivAt
      (fun t => psi0 + ∫ r in t₀..t, (u r ^ 2 - z r * f r) / (z r ^ 2 + u r ^ 2))
      ((u t ^ 2 - z t * f t) / (z t ^ 2 + u t ^ 2)) t := by
    intro t h
    have hsub : uIcc t₀ t ⊆ Ioo α β := (ordConnected_Ioo).uIcc_subset ht h
    have := intervalIntegral.integral_hasDerivAt_right (a := t₀) (b := t)
      ((hc.mono hsub).intervalIntegrable)
      (hc.stronglyMeasurableAtFilter isOpen_Ioo t h) (hc.continuousAt (isOpen_Ioo.mem_nhds h))
    exact this.const_add psi0
  refine ⟨fun t => psi0 + ∫ r in t₀..t, (u r ^ 2 - z r * f r) / (z r ^ 2 + u r ^ 2), by simp, hd, ?_⟩
  generalize hpe : (fun t => psi0 + ∫ r in t₀..t, (u r ^ 2 - z r * f r) / (z r ^ 2 + u r ^ 2)) = p at hd ⊢
  have hp0 : p t₀ = psi0 := by rw [← hpe]; simp
  have hs : ∀ t ∈ Ioo α β, HasDerivAt (fun t => √(z t ^ 2 + u t ^ 2))
      ((z t * u t + u t * f t) / √(z t ^ 2 + u t ^ 2)) t := by
    intro t h
    have := (((hz t h).pow 2).add ((hu t h).pow 2)).sqrt (hA t h).ne'
    refine this.congr_deriv ?_
    have : √(z t ^ 2 + u t ^ 2) ≠ 0 := (Real.sqrt_pos.2 (hA t h)).ne'
    simp
    field_simp
  have k1 : ∀ t ∈ Ioo α β, (z t * cos (p t) - u t * sin (p t)) / √(z t ^ 2 + u t ^ 2) = 0 := by
    intro t h
    have := const_of_hasDerivAt_zero (f := fun t => (z t * cos (p t) - u t * sin (p t)) / √(z t ^ 2 + u t ^ 2))
      (convex_Ioo α β) (fun r hr => by
        have hq := (Real.sqrt_pos.2 (hA r hr)).ne'
        have := ((((hz r hr).mul (hd r hr).cos).sub ((hu r hr).mul (hd r hr).sin)).div (hs r hr) hq)
        refine this.congr_deriv ?_
        have e : √(z r ^ 2 + u r ^ 2) ^ 2 = z r ^ 2 + u r ^ 2 := Real.sq_sqrt (hA r hr).le
        have e' := (hA r hr).ne'
        rw [div_eq_zero_iff]
        left
        simp only [Pi.mul_apply, Pi.sub_apply]
        generalize √(z r ^ 2 + u r ^ 2) = q at e hq
        rw [← e]
        field_simp
        rw [e]
        ring) t h t₀ ht
    rw [this, hp0]
    rw [div_eq_zero_iff]
    left
    nth_rewrite 1 [h0]
    nth_rewrite 2 [h0']
    ring
  have k2 : ∀ t ∈ Ioo α β, (z t * sin (p t) + u t * cos (p t)) / √(z t ^ 2 + u t ^ 2) = 1 := by
    intro t h
    have := const_of_hasDerivAt_zero (f := fun t => (z t * sin (p t) + u t * cos (p t)) / √(z t ^ 2 + u t ^ 2))
      (convex_Ioo α β) (fun r hr => by
        have hq := (Real.sqrt_pos.2 (hA r hr)).ne'
        have := ((((hz r hr).mul (hd r hr).sin).add ((hu r hr).mul (hd r hr).cos)).div (hs r hr) hq)
        refine this.congr_deriv ?_
        have e : √(z r ^ 2 + u r ^ 2) ^ 2 = z r ^ 2 + u r ^ 2 := Real.sq_sqrt (hA r hr).le
        have e' := (hA r hr).ne'
        rw [div_eq_zero_iff]
        left
        simp only [Pi.mul_apply, Pi.add_apply]
        generalize √(z r ^ 2 + u r ^ 2) = q at e hq
        rw [← e]
        field_simp
        rw [e]
        ring) t h t₀ ht
    rw [this, hp0]
    have hq := (Real.sqrt_pos.2 (hA t₀ ht)).ne'
    rw [div_eq_one_iff_eq hq]
    nth_rewrite 1 [h0]
    nth_rewrite 2 [h0']
    linear_combination √(z t₀ ^ 2 + u t₀ ^ 2) * sin_sq_add_cos_sq psi0
  intro t h
  have hq := (Real.sqrt_pos.2 (hA t h)).ne'
  have a1 := (div_eq_zero_iff.1 (k1 t h)).resolve_right hq
  have a2 := (div_eq_one_iff_eq hq).1 (k2 t h)
  have hcs := sin_sq_add_cos_sq (p t)
  constructor
  · linear_combination cos (p t) * a1 + sin (p t) * a2 - z t * hcs
  · linear_combination cos (p t) * a2 - sin (p t) * a1 - u t * hcs

/-- Where the angle is a multiple of `2 π`. -/
theorem C65aux.upward {A psi : ℝ} (hA : 0 < A) :
    (A * sin psi = 0 ∧ 0 < A * cos psi) ↔ ∃ k : ℤ, psi = 2 * π * k := by
  constructor
  · rintro ⟨h1, h2⟩
    have hs : sin psi = 0 := by
      rcases mul_eq_zero.1 h1 with h | h
      · exact absurd h hA.ne'
      · exact h
    have hc : 0 < cos psi := pos_of_mul_pos_right h2 hA.le
    have h3 : cos psi = 1 := by nlinarith [sin_sq_add_cos_sq psi]
    obtain ⟨k, hk⟩ := (Real.cos_eq_one_iff psi).1 h3
    exact ⟨k, by rw [← hk]; ring⟩
  · rintro ⟨k, rfl⟩
    have h1 : sin (2 * π * k) = 0 := by
      rw [show 2 * π * (k : ℝ) = ((2 * k : ℤ) : ℝ) * π by push_cast; ring]
      exact Real.sin_int_mul_pi _
    have h2 : cos (2 * π * k) = 1 := by
      rw [mul_comm (2 * π)]
      exact Real.cos_int_mul_two_pi k
    rw [h1, h2]
    exact ⟨by simp, by simpa using hA⟩

open C65Spec in
/-- Conversely every orbit that turns is a solution in the angle, and its upward crossings are exactly
the points at which the angle is a multiple of `2 π`. -/
theorem C65_complete {F : Force} {x v : ℝ → Fin 3 → ℝ} {α β t₀ psi0 : ℝ} (ht : t₀ ∈ Ioo α β)
    (hN : Newton (EOM.rectForceV F) x v (Ioo α β)) (hT : Turns (EOM.rectForceV F) 2 x v (Ioo α β))
    (hc : ContinuousOn (fun t => EOM.rectForceV F t (x t) (v t) 2) (Ioo α β))
    (h0 : x t₀ 2 = √(x t₀ 2 ^ 2 + v t₀ 2 ^ 2) * sin psi0)
    (h0' : v t₀ 2 = √(x t₀ 2 ^ 2 + v t₀ 2 ^ 2) * cos psi0) :
    ∃ (p : ℝ → ℝ) (Y : ℝ → Fin 6 → ℝ), p t₀ = psi0 ∧ StrictMonoOn p (Ioo α β) ∧
      Solves (EOM.sos F) Y (p '' Ioo α β) ∧
      (∀ t ∈ Ioo α β, Y (p t) = ![x t 0, v t 0, x t 1, v t 1, √(x t 2 ^ 2 + v t 2 ^ 2), t] ∧
        x t 2 = Y (p t) 4 * sin (p t) ∧ v t 2 = Y (p t) 4 * cos (p t)) ∧
      ∀ t ∈ Ioo α β, Upward 2 x v t ↔ ∃ k : ℤ, p t = 2 * π * k := by
  have dx : ∀ t ∈ Ioo α β, ∀ i, HasDerivAt (fun t => x t i) (v t i) t := fun t h =>
    hasDerivAt_pi.1 (hN t h).1
  have dv : ∀ t ∈ Ioo α β, ∀ i, HasDerivAt (fun t => v t i) (EOM.rectForceV F t (x t) (v t) i) t :=
    fun t h => hasDerivAt_pi.1 (hN t h).2
  obtain ⟨p, hp0, hp, hzu⟩ := C65aux.lift (z := fun t => x t 2) (u := fun t => v t 2)
    (f := fun t => EOM.rectForceV F t (x t) (v t) 2) ht (fun t h => dx t h 2) (fun t h => dv t h 2) hc hT
    h0 h0'
  have hA : ∀ t ∈ Ioo α β, 0 < x t 2 ^ 2 + v t 2 ^ 2 := by
    intro t h
    by_contra hc
    have h1 : x t 2 = 0 := by nlinarith [sq_nonneg (x t 2), sq_nonneg (v t 2)]
    have h2 : v t 2 = 0 := by nlinarith [sq_nonneg (x t 2), sq_nonneg (v t 2)]
    have := hT t h
    rw [h1, h2] at this
    norm_num at this
  have hpos : ∀ t ∈ Ioo α β, 0 < (v t 2 ^ 2 - x t 2 * EOM.rectForceV F t (x t) (v t) 2) /
      (x t 2 ^ 2 + v t 2 ^ 2) := fun t h => div_pos (hT t h) (hA t h)
  obtain ⟨hm, ho, g, hg, hg'⟩ := reparam hp hpos
  refine ⟨p, fun s => ![x (g s) 0, v (g s) 0, x (g s) 1, v (g s) 1, √(x (g s) 2 ^ 2 + v (g s) 2 ^ 2), g s],
    hp0, hm, ?_, ?_, ?_⟩
  · rintro _ ⟨t, h, rfl⟩
    have G := hg' t h
    have gs := hg t h
    have comp : ∀ {f : ℝ → ℝ} {f' : ℝ}, HasDerivAt f f' t →
        HasDerivAt (fun s => f (g s)) (f' * ((v t 2 ^ 2 - x t 2 * EOM.rectForceV F t (x t) (v t) 2) /
      (x t 2 ^ 2 + v t 2 ^ 2))⁻¹) (p t) := by
      intro f f' hf
      have hf' : HasDerivAt f f' (g (p t)) := by rw [gs]; exact hf
      exact HasDerivAt.comp (p t) hf' G
    obtain ⟨e1, e2⟩ := hzu t h
    have hq := Real.sqrt_pos.2 (hA t h)
    have hx3 : ![x t 0, x t 1, √(x t 2 ^ 2 + v t 2 ^ 2) * sin (p t)] = x t := by
      rw [← e1]
      funext i
      fin_cases i <;> rfl
    have hv3 : ![v t 0, v t 1, √(x t 2 ^ 2 + v t 2 ^ 2) * cos (p t)] = v t := by
      rw [← e2]
      funext i
      fin_cases i <;> rfl
    have hA' : HasDerivAt (fun t => √(x t 2 ^ 2 + v t 2 ^ 2))
        ((x t 2 * v t 2 + v t 2 * EOM.rectForceV F t (x t) (v t) 2) / √(x t 2 ^ 2 + v t 2 ^ 2)) t := by
      have := (((dx t h 2).pow 2).add ((dv t h 2).pow 2)).sqrt (hA t h).ne'
      refine this.congr_deriv ?_
      simp
      field_simp
    have sq : √(x t 2 ^ 2 + v t 2 ^ 2) ^ 2 = x t 2 ^ 2 + v t 2 ^ 2 := Real.sq_sqrt (hA t h).le
    have hpd : cos (p t) ^ 2 - sin (p t) / √(x t 2 ^ 2 + v t 2 ^ 2) * EOM.rectForceV F t (x t) (v t) 2 =
        (v t 2 ^ 2 - x t 2 * EOM.rectForceV F t (x t) (v t) 2) / (x t 2 ^ 2 + v t 2 ^ 2) := by
      have k1 : sin (p t) = x t 2 / √(x t 2 ^ 2 + v t 2 ^ 2) := by rw [eq_div_iff hq.ne']; linarith
      have k2 : cos (p t) = v t 2 / √(x t 2 ^ 2 + v t 2 ^ 2) := by rw [eq_div_iff hq.ne']; linarith
      rw [k1, k2, div_pow, sq, div_div, ← pow_two, sq]
      ring
    have hpt := hpos t h
    simp only [gs]
    simp only [EOM.sos, Matrix.cons_val, hx3, hv3, hpd]
    rw [hasDerivAt_pi]
    have dvt := dv t h
    generalize EOM.rectForceV F t (x t) (v t) = u at *
    generalize (v t 2 ^ 2 - x t 2 * u 2) / (x t 2 ^ 2 + v t 2 ^ 2) = w at *
    intro i
    fin_cases i
    · exact (comp (dx t h 0)).congr_deriv (div_eq_mul_inv _ _).symm
    · exact (comp (dvt 0)).congr_deriv (div_eq_mul_inv _ _).symm
    · exact (comp (dx t h 1)).congr_deriv (div_eq_mul_inv _ _).symm
    · exact (comp (dvt 1)).congr_deriv (div_eq_mul_inv _ _).symm
    · refine (comp hA').congr_deriv ?_
      simp only [Matrix.cons_val, div_eq_mul_inv]
      congr 1
      generalize √(x t 2 ^ 2 + v t 2 ^ 2) = q at *
      rw [e1, e2]
      field_simp
    · refine (comp (hasDerivAt_id t)).congr_deriv ?_
      simp
  · intro t h
    obtain ⟨e1, e2⟩ := hzu t h
    refine ⟨by simp only [hg t h], ?_, ?_⟩
    · simp only [hg t h, Matrix.cons_val]
      exact e1
    · simp only [hg t h, Matrix.cons_val]
      exact e2
  · intro t h
    obtain ⟨e1, e2⟩ := hzu t h
    unfold Upward
    rw [← C65aux.upward (Real.sqrt_pos.2 (hA t h)), ← e1, ← e2]

/-! ## Coordinates -/

open C65Spec in
/-- The start in the new coordinates is the point the row stands for. -/
theorem C65_start (w : Fin 6 → ℝ) (t₀ : ℝ) :
    position w = ![init w t₀ 0, init w t₀ 2, init w t₀ 4 * sin (initPsi w)] ∧
      velocity w = ![init w t₀ 1, init w t₀ 3, init w t₀ 4 * cos (initPsi w)] ∧ init w t₀ 5 = t₀ := by
  have h1 : √(w 3 ^ 2 + w 4 ^ 2) * cos (atan2 (w 3) (w 4)) = w 4 := by
    rw [add_comm]
    exact polar_cos _ _
  have h2 : √(w 3 ^ 2 + w 4 ^ 2) * sin (atan2 (w 3) (w 4)) = w 3 := by
    rw [add_comm]
    exact polar_sin _ _
  refine ⟨?_, ?_, rfl⟩
  · simp only [position, init, initPsi, Matrix.cons_val, h2]
  · simp only [velocity, init, initPsi, Matrix.cons_val, h1]
    rw [add_comm (w 2 * cos (w 5))]

open C65Spec in
/-- A returned row stands for the point of the solution. -/
theorem C65_row (y : Fin 6 → ℝ) (psi : ℝ) :
    position (back y psi) = ![y 0, y 2, y 4 * sin psi] ∧
      velocity (back y psi) = ![y 1, y 3, y 4 * cos psi] ∧ 0 ≤ back y psi 0 := by
  have h1 := polar_cos (y 0) (y 2)
  have h2 := polar_sin (y 0) (y 2)
  have hcs := sin_sq_add_cos_sq (atan2 (y 2) (y 0))
  refine ⟨?_, ?_, Real.sqrt_nonneg _⟩
  · simp only [position, back, Matrix.cons_val, h1, h2]
  · simp only [velocity, back, Matrix.cons_val]
    congr 1
    · linear_combination y 1 * hcs
    · congr 1
      linear_combination y 3 * hcs

theorem C65aux.init_back {y : Fin 6 → ℝ} (psi t₀ : ℝ) (hA : 0 ≤ y 4) :
    init (back y psi) t₀ = ![y 0, y 1, y 2, y 3, y 4, t₀] := by
  have h1 := polar_cos (y 0) (y 2)
  have h2 := polar_sin (y 0) (y 2)
  have hcs := sin_sq_add_cos_sq (atan2 (y 2) (y 0))
  have h5 : √((y 4 * sin psi) ^ 2 + (y 4 * cos psi) ^ 2) = y 4 := by
    rw [show (y 4 * sin psi) ^ 2 + (y 4 * cos psi) ^ 2 = y 4 ^ 2 by
      linear_combination y 4 ^ 2 * sin_sq_add_cos_sq psi]
    exact Real.sqrt_sq hA
  funext i
  fin_cases i
  · simpa [init, back] using h1
  · simp [init, back]
    linear_combination y 1 * hcs
  · simpa [init, back] using h2
  · simp [init, back]
    linear_combination y 3 * hcs
  · simpa [init, back] using h5
  · simp [init]

/-- The C right-hand side is the Python one, with the variables in another order and the angle as a
seventh variable; the forces have period `2 π` in azimuth. -/
theorem C65_C_equations {F : Force} (hF : F.Periodic) {q : Fin 7 → ℝ} (h0 : 0 < q 0 ^ 2 + q 1 ^ 2) :
    let y : Fin 6 → ℝ := ![q 0, q 2, q 1, q 3, q 4, q 5];
    derivC F q = ![EOM.sos F (q 6) y 0, EOM.sos F (q 6) y 2, EOM.sos F (q 6) y 1, EOM.sos F (q 6) y 3,
      EOM.sos F (q 6) y 4, EOM.sos F (q 6) y 5, 1] := by
  intro y
  obtain ⟨c1, c2⟩ := EOM.azimuth_cos_sin h0
  have hR : 0 < √(q 0 ^ 2 + q 1 ^ 2) := Real.sqrt_pos.2 h0
  have a1 : cos (EOM.azimuth (q 0) (q 1)) = cos (atan2 (q 1) (q 0)) := by
    have := polar_cos (q 0) (q 1)
    rw [c1, div_eq_iff hR.ne']
    linarith
  have a2 : sin (EOM.azimuth (q 0) (q 1)) = sin (atan2 (q 1) (q 0)) := by
    have := polar_sin (q 0) (q 1)
    rw [c2, div_eq_iff hR.ne']
    linarith
  have e1 : ∀ R z t w, F.R R z (EOM.azimuth (q 0) (q 1)) t w = F.R R z (atan2 (q 1) (q 0)) t w :=
    fun R z t w => periodic_eq (f := fun φ => F.R R z φ t w) (fun φ => hF.R R z φ t w) a1 a2
  have e2 : ∀ R z t w, F.phi R z (EOM.azimuth (q 0) (q 1)) t w = F.phi R z (atan2 (q 1) (q 0)) t w :=
    fun R z t w => periodic_eq (f := fun φ => F.phi R z φ t w) (fun φ => hF.phi R z φ t w) a1 a2
  have e3 : ∀ R z t w, F.z R z (EOM.azimuth (q 0) (q 1)) t w = F.z R z (atan2 (q 1) (q 0)) t w :=
    fun R z t w => periodic_eq (f := fun φ => F.z R z φ t w) (fun φ => hF.z R z φ t w) a1 a2
  have hs : q 0 * q 0 + q 1 * q 1 = q 0 ^ 2 + q 1 ^ 2 := by ring
  have hps : ∀ u : ℝ, cos (q 6) * cos (q 6) - sin (q 6) * u / q 4 = cos (q 6) ^ 2 - sin (q 6) / q 4 * u :=
    fun u => by ring
  have hA : ∀ u : ℝ, cos (q 6) * (q 4 * sin (q 6) + u) = q 4 * cos (q 6) * sin (q 6) + u * cos (q 6) :=
    fun u => by ring
  simp only [derivC, EOM.sos, EOM.rectForceV, y, Matrix.cons_val, e1, e2, e3, hs, hps, hA]

/-- The C coordinates are the Python ones. -/
theorem C65_C_coordinates (w : Fin 6 → ℝ) (t₀ : ℝ) (q : Fin 7 → ℝ) :
    cylToSos ![w 0, w 1, w 2, w 3, w 4, w 5, t₀] = ![init w t₀ 0, init w t₀ 2, init w t₀ 1, init w t₀ 3,
      init w t₀ 4, init w t₀ 5, initPsi w] ∧
    ∀ i : Fin 6, sosToCyl q i.castSucc = back ![q 0, q 2, q 1, q 3, q 4, q 5] (q 6) i := by
  constructor
  · funext i
    fin_cases i <;> simp [cylToSos, init, initPsi, sq, add_comm]
  · intro i
    fin_cases i <;> simp [sosToCyl, back, sq]
    ring

/-! ## In the plane -/

/-- Rectangular position of a planar row `(R, vR, vT, phi)`. -/
noncomputable def C65Spec.position2 (v : Fin 4 → ℝ) : Fin 2 → ℝ := ![v 0 * cos (v 3), v 0 * sin (v 3)]

/-- Rectangular velocity of a planar row. -/
noncomputable def C65Spec.velocity2 (v : Fin 4 → ℝ) : Fin 2 → ℝ :=
  ![v 1 * cos (v 3) - v 2 * sin (v 3), v 1 * sin (v 3) + v 2 * cos (v 3)]

open C65Spec in
/-- The start in the new coordinates is the point the row stands for, surface `x = 0`. -/
theorem C65_start_x (w : Fin 4 → ℝ) (t₀ : ℝ) :
    position2 w = ![initX w t₀ 2 * sin (initPsiX w), initX w t₀ 0] ∧
      velocity2 w = ![initX w t₀ 2 * cos (initPsiX w), initX w t₀ 1] ∧ initX w t₀ 3 = t₀ := by
  have h1 : ∀ a b : ℝ, √(a ^ 2 + b ^ 2) * cos (atan2 a b) = b := fun a b => by
    rw [add_comm]
    exact polar_cos _ _
  have h2 : ∀ a b : ℝ, √(a ^ 2 + b ^ 2) * sin (atan2 a b) = a := fun a b => by
    rw [add_comm]
    exact polar_sin _ _
  refine ⟨?_, ?_, rfl⟩
  · simp only [position2, initX, initPsiX, Matrix.cons_val, h2]
  · simp only [velocity2, initX, initPsiX, Matrix.cons_val, h1]
    rw [add_comm (w 2 * cos (w 3))]

open C65Spec in
/-- A returned row stands for the point of the solution, surface `x = 0`. -/
theorem C65_row_x (y : Fin 4 → ℝ) (psi : ℝ) :
    position2 (backX y psi) = ![y 2 * sin psi, y 0] ∧
      velocity2 (backX y psi) = ![y 2 * cos psi, y 1] ∧ 0 ≤ backX y psi 0 := by
  have key : ∀ x y vx vy : ℝ, position2 (backRect x y vx vy) = ![x, y] ∧
      velocity2 (backRect x y vx vy) = ![vx, vy] := by
    intro x y vx vy
    have hcs := sin_sq_add_cos_sq (atan2 y x)
    constructor
    · simp only [position2, backRect, Matrix.cons_val, polar_cos, polar_sin]
    · simp only [velocity2, backRect, Matrix.cons_val]
      congr 1
      · linear_combination vx * hcs
      · congr 1
        linear_combination vy * hcs
  exact ⟨(key _ _ _ _).1, (key _ _ _ _).2, Real.sqrt_nonneg _⟩

open C65Spec in
/-- The start in the new coordinates is the point the row stands for, surface `y = 0`. -/
theorem C65_start_y (w : Fin 4 → ℝ) (t₀ : ℝ) :
    position2 w = ![initY w t₀ 0, initY w t₀ 2 * sin (initPsiY w)] ∧
      velocity2 w = ![initY w t₀ 1, initY w t₀ 2 * cos (initPsiY w)] ∧ initY w t₀ 3 = t₀ := by
  have h1 : ∀ a b : ℝ, √(a ^ 2 + b ^ 2) * cos (atan2 a b) = b := fun a b => by
    rw [add_comm]
    exact polar_cos _ _
  have h2 : ∀ a b : ℝ, √(a ^ 2 + b ^ 2) * sin (atan2 a b) = a := fun a b => by
    rw [add_comm]
    exact polar_sin _ _
  refine ⟨?_, ?_, rfl⟩
  · simp only [position2, initY, initPsiY, Matrix.cons_val, h2]
  · simp only [velocity2, initY, initPsiY, Matrix.cons_val, h1]
    rw [add_comm (w 2 * cos (w 3))]

open C65Spec in
/-- A returned row stands for the point of the solution, surface `y = 0`. -/
theorem C65_row_y (y : Fin 4 → ℝ) (psi : ℝ) :
    position2 (backY y psi) = ![y 0, y 2 * sin psi] ∧
      velocity2 (backY y psi) = ![y 1, y 2 * cos psi] ∧ 0 ≤ backY y psi 0 := by
  have key : ∀ x y vx vy : ℝ, position2 (backRect x y vx vy) = ![x, y] ∧
      velocity2 (backRect x y vx vy) = ![vx, vy] := by
    intro x y vx vy
    have hcs := sin_sq_add_cos_sq (atan2 y x)
    constructor
    · simp only [position2, backRect, Matrix.cons_val, polar_cos, polar_sin]
    · simp only [velocity2, backRect, Matrix.cons_val]
      congr 1
      · linear_combination vx * hcs
      · congr 1
        linear_combination vy * hcs
  exact ⟨(key _ _ _ _).1, (key _ _ _ _).2, Real.sqrt_nonneg _⟩

/-- The C right-hand side is the Python one, surface `x = 0`. -/
theorem C65_C_equations_x {F : Force} (hF : F.Periodic) {q : Fin 5 → ℝ} (h0 : 0 < (q 2 * sin (q 4)) ^ 2 + q 0 ^ 2) :
    let y : Fin 4 → ℝ := ![q 0, q 1, q 2, q 3];
    derivXC F q = ![EOM.sosX F (q 4) y 0, EOM.sosX F (q 4) y 1, EOM.sosX F (q 4) y 2,
      EOM.sosX F (q 4) y 3, 1] := by
  intro y
  obtain ⟨c1, c2⟩ := EOM.azimuth_cos_sin h0
  have hR := Real.sqrt_pos.2 h0
  have a1 : cos (EOM.azimuth (q 2 * sin (q 4)) (q 0)) = cos (atan2 (q 0) (q 2 * sin (q 4))) := by
    have := polar_cos (q 2 * sin (q 4)) (q 0)
    rw [c1, div_eq_iff hR.ne']
    linarith
  have a2 : sin (EOM.azimuth (q 2 * sin (q 4)) (q 0)) = sin (atan2 (q 0) (q 2 * sin (q 4))) := by
    have := polar_sin (q 2 * sin (q 4)) (q 0)
    rw [c2, div_eq_iff hR.ne']
    linarith
  have e1 : ∀ R z t w, F.R R z (EOM.azimuth (q 2 * sin (q 4)) (q 0)) t w = F.R R z (atan2 (q 0) (q 2 * sin (q 4))) t w :=
    fun R z t w => periodic_eq (f := fun φ => F.R R z φ t w) (fun φ => hF.R R z φ t w) a1 a2
  have e2 : ∀ R z t w, F.phi R z (EOM.azimuth (q 2 * sin (q 4)) (q 0)) t w = F.phi R z (atan2 (q 0) (q 2 * sin (q 4))) t w :=
    fun R z t w => periodic_eq (f := fun φ => F.phi R z φ t w) (fun φ => hF.phi R z φ t w) a1 a2
  have hs : (q 2 * sin (q 4)) * (q 2 * sin (q 4)) + (q 0) * (q 0) = (q 2 * sin (q 4)) ^ 2 + (q 0) ^ 2 := by ring
  have hps : ∀ u : ℝ, cos (q 4) * cos (q 4) - sin (q 4) * u / q 2 = cos (q 4) ^ 2 - sin (q 4) / q 2 * u :=
    fun u => by ring
  have hA : ∀ u : ℝ, cos (q 4) * (q 2 * sin (q 4) + u) = q 2 * cos (q 4) * sin (q 4) + u * cos (q 4) :=
    fun u => by ring
  have hn : -q 2 * cos (q 4) = -(q 2 * cos (q 4)) := by ring
  simp only [derivXC, EOM.sosX, EOM.planarRectForceV, y, Matrix.cons_val, e1, e2, hs, hps, hA, hn]

/-- The C right-hand side is the Python one, surface `y = 0`. -/
theorem C65_C_equations_y {F : Force} (hF : F.Periodic) {q : Fin 5 → ℝ} (h0 : 0 < q 0 ^ 2 + (q 2 * sin (q 4)) ^ 2) :
    let y : Fin 4 → ℝ := ![q 0, q 1, q 2, q 3];
    derivYC F q = ![EOM.sosY F (q 4) y 0, EOM.sosY F (q 4) y 1, EOM.sosY F (q 4) y 2,
      EOM.sosY F (q 4) y 3, 1] := by
  intro y
  obtain ⟨c1, c2⟩ := EOM.azimuth_cos_sin h0
  have hR := Real.sqrt_pos.2 h0
  have a1 : cos (EOM.azimuth (q 0) (q 2 * sin (q 4))) = cos (atan2 (q 2 * sin (q 4)) (q 0)) := by
    have := polar_cos (q 0) (q 2 * sin (q 4))
    rw [c1, div_eq_iff hR.ne']
    linarith
  have a2 : sin (EOM.azimuth (q 0) (q 2 * sin (q 4))) = sin (atan2 (q 2 * sin (q 4)) (q 0)) := by
    have := polar_sin (q 0) (q 2 * sin (q 4))
    rw [c2, div_eq_iff hR.ne']
    linarith
  have e1 : ∀ R z t w, F.R R z (EOM.azimuth (q 0) (q 2 * sin (q 4))) t w = F.R R z (atan2 (q 2 * sin (q 4)) (q 0)) t w :=
    fun R z t w => periodic_eq (f := fun φ => F.R R z φ t w) (fun φ => hF.R R z φ t w) a1 a2
  have e2 : ∀ R z t w, F.phi R z (EOM.azimuth (q 0) (q 2 * sin (q 4))) t w = F.phi R z (atan2 (q 2 * sin (q 4)) (q 0)) t w :=
    fun R z t w => periodic_eq (f := fun φ => F.phi R z φ t w) (fun φ => hF.phi R z φ t w) a1 a2
  have hs : (q 0) * (q 0) + (q 2 * sin (q 4)) * (q 2 * sin (q 4)) = (q 0) ^ 2 + (q 2 * sin (q 4)) ^ 2 := by ring
  have hps : ∀ u : ℝ, cos (q 4) * cos (q 4) - sin (q 4) * u / q 2 = cos (q 4) ^ 2 - sin (q 4) / q 2 * u :=
    fun u => by ring
  have hA : ∀ u : ℝ, cos (q 4) * (q 2 * sin (q 4) + u) = q 2 * cos (q 4) * sin (q 4) + u * cos (q 4) :=
    fun u => by ring
  have hn : -q 2 * cos (q 4) = -(q 2 * cos (q 4)) := by ring
  simp only [derivYC, EOM.sosY, EOM.planarRectForceV, y, Matrix.cons_val, e1, e2, hs, hps, hA, hn]

/-- The C coordinates are the Python ones, for both surfaces. -/
theorem C65_C_coordinates_planar (w : Fin 4 → ℝ) (t₀ : ℝ) (q : Fin 5 → ℝ) :
    polarToSos ![w 0, w 1, w 2, w 3, t₀] false =
      ![initX w t₀ 0, initX w t₀ 1, initX w t₀ 2, initX w t₀ 3, initPsiX w] ∧
    polarToSos ![w 0, w 1, w 2, w 3, t₀] true =
      ![initY w t₀ 0, initY w t₀ 1, initY w t₀ 2, initY w t₀ 3, initPsiY w] ∧
    (∀ i : Fin 4, sosToPolar q false i.castSucc = backX ![q 0, q 1, q 2, q 3] (q 4) i) ∧
    ∀ i : Fin 4, sosToPolar q true i.castSucc = backY ![q 0, q 1, q 2, q 3] (q 4) i := by
  refine ⟨?_, ?_, ?_, ?_⟩
  · funext i
    fin_cases i <;> simp [polarToSos, initX, initPsiX, sq, add_comm]
  · funext i
    fin_cases i <;> simp [polarToSos, initY, initPsiY, sq, add_comm]
  · intro i
    fin_cases i <;> simp [sosToPolar, backX, backRect, sq]
    ring
  · intro i
    fin_cases i <;> simp [sosToPolar, backY, backRect, sq]
    ring

end Verif
