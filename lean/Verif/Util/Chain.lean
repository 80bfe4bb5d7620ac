import Verif.Spec.Pot
import Verif.Util.Deriv
import Mathlib.Analysis.Calculus.FDeriv.Prod
import Mathlib.Analysis.Calculus.Deriv.Prod
import Mathlib.Analysis.Calculus.Deriv.Comp
import Mathlib.Analysis.SpecialFunctions.Complex.Arg
import Mathlib.Analysis.SpecialFunctions.Trigonometric.Angle
import Mathlib.Analysis.Calculus.MeanValue

set_option autoImplicit false

/-!
# Chain rule for functions of three variables and local polar coordinates
-/

open Filter Topology

namespace Verif

/-- Chain rule along a curve from the three partial derivatives and differentiability. -/
theorem chain3 {f : ℝ → ℝ → ℝ → ℝ} {a b c : ℝ → ℝ} {s a' b' c' fa fb fc : ℝ}
    (hd : DifferentiableAt ℝ (fun p : ℝ × ℝ × ℝ => f p.1 p.2.1 p.2.2) (a s, b s, c s))
    (ha : HasDerivAt (fun x => f x (b s) (c s)) fa (a s))
    (hb : HasDerivAt (fun x => f (a s) x (c s)) fb (b s))
    (hc : HasDerivAt (fun x => f (a s) (b s) x) fc (c s))
    (da : HasDerivAt a a' s) (db : HasDerivAt b b' s) (dc : HasDerivAt c c' s) :
    HasDerivAt (fun x => f (a x) (b x) (c x)) (fa * a' + fb * b' + fc * c') s := by
  obtain ⟨L, hL⟩ := hd
  have e1 : L (1, 0, 0) = fa := by
    have h : HasDerivAt (fun x : ℝ => (x, b s, c s)) (1, 0, 0) (a s) :=
      (hasDerivAt_id _).prodMk ((hasDerivAt_const _ _).prodMk (hasDerivAt_const _ _))
    have k := HasFDerivAt.comp_hasDerivAt (a s) (l := fun p : ℝ × ℝ × ℝ => f p.1 p.2.1 p.2.2) hL h
    exact k.unique ha
  have e2 : L (0, 1, 0) = fb := by
    have h : HasDerivAt (fun x : ℝ => (a s, x, c s)) (0, 1, 0) (b s) :=
      (hasDerivAt_const _ _).prodMk ((hasDerivAt_id _).prodMk (hasDerivAt_const _ _))
    have k := HasFDerivAt.comp_hasDerivAt (b s) (l := fun p : ℝ × ℝ × ℝ => f p.1 p.2.1 p.2.2) hL h
    exact k.unique hb
  have e3 : L (0, 0, 1) = fc := by
    have h : HasDerivAt (fun x : ℝ => (a s, b s, x)) (0, 0, 1) (c s) :=
      (hasDerivAt_const _ _).prodMk ((hasDerivAt_const _ _).prodMk (hasDerivAt_id _))
    have k := HasFDerivAt.comp_hasDerivAt (c s) (l := fun p : ℝ × ℝ × ℝ => f p.1 p.2.1 p.2.2) hL h
    exact k.unique hc
  have h : HasDerivAt (fun x : ℝ => (a x, b x, c x)) (a', b', c') s := da.prodMk (db.prodMk dc)
  have key := HasFDerivAt.comp_hasDerivAt s (l := fun p : ℝ × ℝ × ℝ => f p.1 p.2.1 p.2.2) hL h
  have e : L (a', b', c') = fa * a' + fb * b' + fc * c' := by
    have : ((a', b', c') : ℝ × ℝ × ℝ) = a' • (1, 0, 0) + b' • (0, 1, 0) + c' • (0, 0, 1) := by
      simp
    rw [this, map_add, map_add, map_smul, map_smul, map_smul, e1, e2, e3]
    simp only [smul_eq_mul]
    ring
  rw [e] at key
  exact key

/-- A function whose derivative vanishes on a convex set is constant there. -/
theorem const_of_hasDerivAt_zero {f : ℝ → ℝ} {I : Set ℝ} (hI : Convex ℝ I)
    (h : ∀ s ∈ I, HasDerivAt f 0 s) : ∀ s ∈ I, ∀ t ∈ I, f s = f t := by
  intro s hs t ht
  have := hI.norm_image_sub_le_of_norm_hasDerivWithin_le (f := f) (f' := fun _ => 0) (C := 0)
    (fun x hx => (h x hx).hasDerivWithinAt) (fun x _ => by simp) hs ht
  have h0 : f t - f s = 0 := by simpa using this
  linarith

/-- Two angles with equal cosine and sine differ by a multiple of `2 π`. -/
theorem angle_eq {a b : ℝ} (hc : Real.cos a = Real.cos b) (hs : Real.sin a = Real.sin b) :
    ∃ k : ℤ, a = b + k * (2 * Real.pi) := by
  have h := Real.Angle.cos_sin_inj hc hs
  obtain ⟨k, hk⟩ := Real.Angle.angle_eq_iff_two_pi_dvd_sub.1 h
  exact ⟨k, by linarith⟩

/-- A `2 π`-periodic function takes equal values at angles with equal cosine and sine. -/
theorem periodic_eq {β : Type*} {f : ℝ → β} (hf : ∀ x, f (x + 2 * Real.pi) = f x) {a b : ℝ}
    (hc : Real.cos a = Real.cos b) (hs : Real.sin a = Real.sin b) : f a = f b := by
  obtain ⟨k, rfl⟩ := angle_eq hc hs
  exact (Function.Periodic.int_mul (c := 2 * Real.pi) hf k) b

/-- Local polar coordinates along a moving point: the azimuth can be followed continuously from any
value `φ₀` that it has at one time. -/
theorem local_polar {x y : ℝ → ℝ} {s x' y' R₀ φ₀ : ℝ} (hx : HasDerivAt x x' s)
    (hy : HasDerivAt y y' s) (hR : 0 < R₀) (ex : x s = R₀ * Real.cos φ₀)
    (ey : y s = R₀ * Real.sin φ₀) :
    ∃ φ : ℝ → ℝ, φ s = φ₀ ∧ HasDerivAt φ ((x s * y' - y s * x') / R₀ ^ 2) s ∧
      HasDerivAt (fun u => √(x u ^ 2 + y u ^ 2)) ((x s * x' + y s * y') / R₀) s ∧
      √(x s ^ 2 + y s ^ 2) = R₀ ∧
      ∀ᶠ u in 𝓝 s, 0 < √(x u ^ 2 + y u ^ 2) ∧
        x u = √(x u ^ 2 + y u ^ 2) * Real.cos (φ u) ∧
        y u = √(x u ^ 2 + y u ^ 2) * Real.sin (φ u) := by
  set c := Real.cos φ₀ with hc
  set d := Real.sin φ₀ with hd
  have cd : c ^ 2 + d ^ 2 = 1 := Real.cos_sq_add_sin_sq φ₀
  have hsq : x s ^ 2 + y s ^ 2 = R₀ ^ 2 := by
    rw [ex, ey]
    linear_combination R₀ ^ 2 * cd
  -- components along and across the direction `φ₀`
  have hp : HasDerivAt (fun u => x u * c + y u * d) (x' * c + y' * d) s :=
    (hx.mul_const c).add (hy.mul_const d)
  have hq : HasDerivAt (fun u => y u * c - x u * d) (y' * c - x' * d) s :=
    (hy.mul_const c).sub (hx.mul_const d)
  have p0 : x s * c + y s * d = R₀ := by
    rw [ex, ey]
    linear_combination R₀ * cd
  have q0 : y s * c - x s * d = 0 := by
    rw [ex, ey]
    ring
  have hdiv := hq.div hp (by rw [p0]; exact hR.ne')
  have hφ : HasDerivAt (fun u => φ₀ + Real.arctan ((y u * c - x u * d) / (x u * c + y u * d)))
      ((x s * y' - y s * x') / R₀ ^ 2) s := by
    have := (hdiv.arctan).const_add φ₀
    refine this.congr_deriv ?_
    simp only [Pi.div_apply, q0, p0]
    rw [ex, ey]
    field_simp
    ring
  refine ⟨_, ?_, hφ, ?_, ?_, ?_⟩
  · simp [q0]
  · have h2 : HasDerivAt (fun u => x u ^ 2 + y u ^ 2) (2 * x s * x' + 2 * y s * y') s := by
      have := (hx.pow 2).add (hy.pow 2)
      exact this.congr_deriv (by simp)
    have := h2.sqrt (by rw [hsq]; positivity)
    refine this.congr_deriv ?_
    rw [hsq, Real.sqrt_sq hR.le]
    field_simp
  · rw [hsq, Real.sqrt_sq hR.le]
  · have hpos : ∀ᶠ u in 𝓝 s, 0 < x u * c + y u * d :=
      hp.continuousAt.eventually (lt_mem_nhds (show 0 < x s * c + y s * d by rw [p0]; exact hR))
    filter_upwards [hpos] with u hu
    set p := x u * c + y u * d with hpd
    set q := y u * c - x u * d with hqd
    have e : x u ^ 2 + y u ^ 2 = p ^ 2 + q ^ 2 := by
      rw [hpd, hqd]
      linear_combination (-(x u ^ 2 + y u ^ 2)) * cd
    have hpq : 0 < p ^ 2 + q ^ 2 := by positivity
    have h1 : √(1 + (q / p) ^ 2) = √(p ^ 2 + q ^ 2) / p := by
      rw [show 1 + (q / p) ^ 2 = (p ^ 2 + q ^ 2) / p ^ 2 by field_simp, Real.sqrt_div hpq.le,
        Real.sqrt_sq hu.le]
    have hr : 0 < √(p ^ 2 + q ^ 2) := Real.sqrt_pos.2 hpq
    rw [e]
    refine ⟨hr, ?_, ?_⟩
    · rw [Real.cos_add, Real.cos_arctan, Real.sin_arctan, h1, ← hc, ← hd]
      field_simp
      rw [hpd, hqd]
      linear_combination (-(x u)) * cd
    · rw [Real.sin_add, Real.cos_arctan, Real.sin_arctan, h1, ← hc, ← hd]
      field_simp
      rw [hpd, hqd]
      linear_combination (-(y u)) * cd

end Verif
