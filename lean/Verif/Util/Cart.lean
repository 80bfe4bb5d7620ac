import Verif.Util.PotLemmas
import Mathlib.Topology.Constructions

set_option autoImplicit false

/-!
# Potentials given in a rotated rectangular frame

A potential written as `Φ(x, y, z)` in a frame rotated by the angle `p`, with its rectangular gradient and Hessian,
and the cylindrical methods that follow by the polar transformation.
-/

open Filter Topology

namespace Verif

/-- The gradient and Hessian of `Φ` on an open domain, stated along every differentiable curve. -/
structure CartC2 (Φ px py pz pxx pxy pxz pyy pyz pzz : ℝ → ℝ → ℝ → ℝ) (D : ℝ → ℝ → ℝ → Prop) : Prop where
  opn : IsOpen {q : ℝ × ℝ × ℝ | D q.1 q.2.1 q.2.2}
  d0 : ∀ {x y z : ℝ → ℝ} {x' y' z' s : ℝ}, HasDerivAt x x' s → HasDerivAt y y' s → HasDerivAt z z' s →
    D (x s) (y s) (z s) → HasDerivAt (fun s => Φ (x s) (y s) (z s))
      (px (x s) (y s) (z s) * x' + py (x s) (y s) (z s) * y' + pz (x s) (y s) (z s) * z') s
  dx : ∀ {x y z : ℝ → ℝ} {x' y' z' s : ℝ}, HasDerivAt x x' s → HasDerivAt y y' s → HasDerivAt z z' s →
    D (x s) (y s) (z s) → HasDerivAt (fun s => px (x s) (y s) (z s))
      (pxx (x s) (y s) (z s) * x' + pxy (x s) (y s) (z s) * y' + pxz (x s) (y s) (z s) * z') s
  dy : ∀ {x y z : ℝ → ℝ} {x' y' z' s : ℝ}, HasDerivAt x x' s → HasDerivAt y y' s → HasDerivAt z z' s →
    D (x s) (y s) (z s) → HasDerivAt (fun s => py (x s) (y s) (z s))
      (pxy (x s) (y s) (z s) * x' + pyy (x s) (y s) (z s) * y' + pyz (x s) (y s) (z s) * z') s
  dz : ∀ {x y z : ℝ → ℝ} {x' y' z' s : ℝ}, HasDerivAt x x' s → HasDerivAt y y' s → HasDerivAt z z' s →
    D (x s) (y s) (z s) → HasDerivAt (fun s => pz (x s) (y s) (z s))
      (pxz (x s) (y s) (z s) * x' + pyz (x s) (y s) (z s) * y' + pzz (x s) (y s) (z s) * z') s

/-- The domain stays satisfied along a curve. -/
theorem CartC2.near {Φ px py pz pxx pxy pxz pyy pyz pzz : ℝ → ℝ → ℝ → ℝ} {D : ℝ → ℝ → ℝ → Prop}
    (h : CartC2 Φ px py pz pxx pxy pxz pyy pyz pzz D) {x y z : ℝ → ℝ} {s : ℝ} (hx : ContinuousAt x s)
    (hy : ContinuousAt y s) (hz : ContinuousAt z s) (hD : D (x s) (y s) (z s)) :
    ∀ᶠ r in 𝓝 s, D (x r) (y r) (z r) := by
  have hc : ContinuousAt (fun r => (x r, y r, z r)) s := hx.prodMk (hy.prodMk hz)
  exact hc.eventually (h.opn.mem_nhds (x := (x s, y s, z s)) hD)

/-- A record of cylindrical methods agrees at time `t` with the polar transformation of the rectangular derivatives
in the frame rotated by `p`. -/
structure Polar (P : Pot) (t p : ℝ) (Φ px py pz pxx pxy pxz pyy pyz pzz : ℝ → ℝ → ℝ → ℝ) (D : ℝ → ℝ → ℝ → Prop) :
    Prop where
  val : ∀ R z φ, P.val R z φ t = Φ (R * Real.cos (φ - p)) (R * Real.sin (φ - p)) z
  Rforce : ∀ R z φ, D (R * Real.cos (φ - p)) (R * Real.sin (φ - p)) z → P.Rforce R z φ t =
    -(Real.cos (φ - p) * px (R * Real.cos (φ - p)) (R * Real.sin (φ - p)) z
      + Real.sin (φ - p) * py (R * Real.cos (φ - p)) (R * Real.sin (φ - p)) z)
  zforce : ∀ R z φ, D (R * Real.cos (φ - p)) (R * Real.sin (φ - p)) z → P.zforce R z φ t =
    -pz (R * Real.cos (φ - p)) (R * Real.sin (φ - p)) z
  phitorque : ∀ R z φ, D (R * Real.cos (φ - p)) (R * Real.sin (φ - p)) z → P.phitorque R z φ t =
    -(R * (-Real.sin (φ - p) * px (R * Real.cos (φ - p)) (R * Real.sin (φ - p)) z
      + Real.cos (φ - p) * py (R * Real.cos (φ - p)) (R * Real.sin (φ - p)) z))
  R2deriv : ∀ R z φ, D (R * Real.cos (φ - p)) (R * Real.sin (φ - p)) z → P.R2deriv R z φ t =
    Real.cos (φ - p) ^ 2 * pxx (R * Real.cos (φ - p)) (R * Real.sin (φ - p)) z
      + 2 * Real.cos (φ - p) * Real.sin (φ - p) * pxy (R * Real.cos (φ - p)) (R * Real.sin (φ - p)) z
      + Real.sin (φ - p) ^ 2 * pyy (R * Real.cos (φ - p)) (R * Real.sin (φ - p)) z
  z2deriv : ∀ R z φ, D (R * Real.cos (φ - p)) (R * Real.sin (φ - p)) z → P.z2deriv R z φ t =
    pzz (R * Real.cos (φ - p)) (R * Real.sin (φ - p)) z
  Rzderiv : ∀ R z φ, D (R * Real.cos (φ - p)) (R * Real.sin (φ - p)) z → P.Rzderiv R z φ t =
    Real.cos (φ - p) * pxz (R * Real.cos (φ - p)) (R * Real.sin (φ - p)) z
      + Real.sin (φ - p) * pyz (R * Real.cos (φ - p)) (R * Real.sin (φ - p)) z
  phi2deriv : ∀ R z φ, D (R * Real.cos (φ - p)) (R * Real.sin (φ - p)) z → P.phi2deriv R z φ t =
    R ^ 2 * (Real.sin (φ - p) ^ 2 * pxx (R * Real.cos (φ - p)) (R * Real.sin (φ - p)) z
      - 2 * Real.sin (φ - p) * Real.cos (φ - p) * pxy (R * Real.cos (φ - p)) (R * Real.sin (φ - p)) z
      + Real.cos (φ - p) ^ 2 * pyy (R * Real.cos (φ - p)) (R * Real.sin (φ - p)) z)
      - R * (Real.cos (φ - p) * px (R * Real.cos (φ - p)) (R * Real.sin (φ - p)) z
        + Real.sin (φ - p) * py (R * Real.cos (φ - p)) (R * Real.sin (φ - p)) z)
  Rphideriv : ∀ R z φ, D (R * Real.cos (φ - p)) (R * Real.sin (φ - p)) z → P.Rphideriv R z φ t =
    R * (-Real.sin (φ - p) * Real.cos (φ - p) * pxx (R * Real.cos (φ - p)) (R * Real.sin (φ - p)) z
      + (Real.cos (φ - p) ^ 2 - Real.sin (φ - p) ^ 2) * pxy (R * Real.cos (φ - p)) (R * Real.sin (φ - p)) z
      + Real.sin (φ - p) * Real.cos (φ - p) * pyy (R * Real.cos (φ - p)) (R * Real.sin (φ - p)) z)
      + (-Real.sin (φ - p) * px (R * Real.cos (φ - p)) (R * Real.sin (φ - p)) z
        + Real.cos (φ - p) * py (R * Real.cos (φ - p)) (R * Real.sin (φ - p)) z)
  phizderiv : ∀ R z φ, D (R * Real.cos (φ - p)) (R * Real.sin (φ - p)) z → P.phizderiv R z φ t =
    R * (-Real.sin (φ - p) * pxz (R * Real.cos (φ - p)) (R * Real.sin (φ - p)) z
      + Real.cos (φ - p) * pyz (R * Real.cos (φ - p)) (R * Real.sin (φ - p)) z)

section
variable {P : Pot} {t p : ℝ} {Φ px py pz pxx pxy pxz pyy pyz pzz : ℝ → ℝ → ℝ → ℝ} {D : ℝ → ℝ → ℝ → Prop}

private theorem hxR (φ p R : ℝ) : HasDerivAt (fun R => R * Real.cos (φ - p)) (Real.cos (φ - p)) R := by
  simpa using (hasDerivAt_id R).mul_const (Real.cos (φ - p))
private theorem hyR (φ p R : ℝ) : HasDerivAt (fun R => R * Real.sin (φ - p)) (Real.sin (φ - p)) R := by
  simpa using (hasDerivAt_id R).mul_const (Real.sin (φ - p))
private theorem hcφ (φ p : ℝ) : HasDerivAt (fun φ => Real.cos (φ - p)) (-Real.sin (φ - p)) φ := by
  simpa using ((hasDerivAt_id φ).sub_const p).cos
private theorem hsφ (φ p : ℝ) : HasDerivAt (fun φ => Real.sin (φ - p)) (Real.cos (φ - p)) φ := by
  simpa using ((hasDerivAt_id φ).sub_const p).sin
private theorem hxφ (φ p R : ℝ) : HasDerivAt (fun φ => R * Real.cos (φ - p)) (R * -Real.sin (φ - p)) φ :=
  (hcφ φ p).const_mul R
private theorem hyφ (φ p R : ℝ) : HasDerivAt (fun φ => R * Real.sin (φ - p)) (R * Real.cos (φ - p)) φ :=
  (hsφ φ p).const_mul R

theorem Polar.grad (q : Polar P t p Φ px py pz pxx pxy pxz pyy pyz pzz D)
    (h : CartC2 Φ px py pz pxx pxy pxz pyy pyz pzz D) {R z φ : ℝ}
    (hD : D (R * Real.cos (φ - p)) (R * Real.sin (φ - p)) z) : GradAt P R z φ t := by
  refine ⟨?_, ?_, ?_⟩
  · rw [q.Rforce R z φ hD, show (fun x => P.val x z φ t) = _ from funext fun x => q.val x z φ]
    exact (h.d0 (hxR φ p R) (hyR φ p R) (hasDerivAt_const R z) hD).congr_deriv (by ring)
  · rw [q.zforce R z φ hD, show (fun x => P.val R x φ t) = _ from funext fun x => q.val R x φ]
    exact (h.d0 (hasDerivAt_const z _) (hasDerivAt_const z _) (hasDerivAt_id z) hD).congr_deriv (by simp)
  · rw [q.phitorque R z φ hD, show (fun x => P.val R z x t) = _ from funext fun x => q.val R z x]
    exact (h.d0 (hxφ φ p R) (hyφ φ p R) (hasDerivAt_const φ z) hD).congr_deriv (by ring)

theorem Polar.nearR (h : CartC2 Φ px py pz pxx pxy pxz pyy pyz pzz D) {R z φ : ℝ}
    (hD : D (R * Real.cos (φ - p)) (R * Real.sin (φ - p)) z) :
    ∀ᶠ x in 𝓝 R, D (x * Real.cos (φ - p)) (x * Real.sin (φ - p)) z :=
  h.near (hxR φ p R).continuousAt (hyR φ p R).continuousAt continuousAt_const hD
theorem Polar.nearz (h : CartC2 Φ px py pz pxx pxy pxz pyy pyz pzz D) {R z φ : ℝ}
    (hD : D (R * Real.cos (φ - p)) (R * Real.sin (φ - p)) z) :
    ∀ᶠ x in 𝓝 z, D (R * Real.cos (φ - p)) (R * Real.sin (φ - p)) x :=
  h.near continuousAt_const continuousAt_const continuousAt_id hD
theorem Polar.nearφ (h : CartC2 Φ px py pz pxx pxy pxz pyy pyz pzz D) {R z φ : ℝ}
    (hD : D (R * Real.cos (φ - p)) (R * Real.sin (φ - p)) z) :
    ∀ᶠ x in 𝓝 φ, D (R * Real.cos (x - p)) (R * Real.sin (x - p)) z :=
  h.near (hxφ φ p R).continuousAt (hyφ φ p R).continuousAt continuousAt_const hD

theorem Polar.forceHess (q : Polar P t p Φ px py pz pxx pxy pxz pyy pyz pzz D)
    (h : CartC2 Φ px py pz pxx pxy pxz pyy pyz pzz D) {R z φ : ℝ}
    (hD : D (R * Real.cos (φ - p)) (R * Real.sin (φ - p)) z) : ForceHess P R z φ t := by
  have nR := Polar.nearR h hD
  have nz := Polar.nearz h hD
  have np := Polar.nearφ h hD
  have id' := hasDerivAt_id z
  refine ⟨?_, ?_, ?_, ?_, ?_, ?_, ?_, ?_, ?_⟩
  · refine HasDerivAt.congr_of_eventuallyEq ?_ (nR.mono fun x hx => q.Rforce x z φ hx)
    rw [q.R2deriv R z φ hD]
    exact ((h.dx (hxR φ p R) (hyR φ p R) (hasDerivAt_const R z) hD).const_mul (Real.cos (φ - p)) |>.fun_add
      ((h.dy (hxR φ p R) (hyR φ p R) (hasDerivAt_const R z) hD).const_mul (Real.sin (φ - p)))).fun_neg.congr_deriv
        (by ring)
  · refine HasDerivAt.congr_of_eventuallyEq ?_ (nz.mono fun x hx => q.Rforce R x φ hx)
    rw [q.Rzderiv R z φ hD]
    exact ((h.dx (hasDerivAt_const z _) (hasDerivAt_const z _) id' hD).const_mul (Real.cos (φ - p)) |>.fun_add
      ((h.dy (hasDerivAt_const z _) (hasDerivAt_const z _) id' hD).const_mul
        (Real.sin (φ - p)))).fun_neg.congr_deriv (by simp)
  · refine HasDerivAt.congr_of_eventuallyEq ?_ (np.mono fun x hx => q.Rforce R z x hx)
    rw [q.Rphideriv R z φ hD]
    exact ((hcφ φ p).fun_mul (h.dx (hxφ φ p R) (hyφ φ p R) (hasDerivAt_const φ z) hD) |>.fun_add
      ((hsφ φ p).fun_mul (h.dy (hxφ φ p R) (hyφ φ p R) (hasDerivAt_const φ z) hD))).fun_neg.congr_deriv (by ring)
  · refine HasDerivAt.congr_of_eventuallyEq ?_ (nR.mono fun x hx => q.zforce x z φ hx)
    rw [q.Rzderiv R z φ hD]
    exact (h.dz (hxR φ p R) (hyR φ p R) (hasDerivAt_const R z) hD).fun_neg.congr_deriv (by ring)
  · refine HasDerivAt.congr_of_eventuallyEq ?_ (nz.mono fun x hx => q.zforce R x φ hx)
    rw [q.z2deriv R z φ hD]
    exact (h.dz (hasDerivAt_const z _) (hasDerivAt_const z _) id' hD).fun_neg.congr_deriv (by simp)
  · refine HasDerivAt.congr_of_eventuallyEq ?_ (np.mono fun x hx => q.zforce R z x hx)
    rw [q.phizderiv R z φ hD]
    exact (h.dz (hxφ φ p R) (hyφ φ p R) (hasDerivAt_const φ z) hD).fun_neg.congr_deriv (by ring)
  · refine HasDerivAt.congr_of_eventuallyEq ?_ (nR.mono fun x hx => q.phitorque x z φ hx)
    rw [q.Rphideriv R z φ hD]
    exact ((hasDerivAt_id R).fun_mul ((h.dx (hxR φ p R) (hyR φ p R) (hasDerivAt_const R z) hD).const_mul
      (-Real.sin (φ - p)) |>.fun_add ((h.dy (hxR φ p R) (hyR φ p R) (hasDerivAt_const R z) hD).const_mul
        (Real.cos (φ - p))))).fun_neg.congr_deriv (by simp; ring)
  · refine HasDerivAt.congr_of_eventuallyEq ?_ (nz.mono fun x hx => q.phitorque R x φ hx)
    rw [q.phizderiv R z φ hD]
    exact (((h.dx (hasDerivAt_const z _) (hasDerivAt_const z _) id' hD).const_mul (-Real.sin (φ - p)) |>.fun_add
      ((h.dy (hasDerivAt_const z _) (hasDerivAt_const z _) id' hD).const_mul
        (Real.cos (φ - p)))).const_mul R).fun_neg.congr_deriv (by simp)
  · refine HasDerivAt.congr_of_eventuallyEq ?_ (np.mono fun x hx => q.phitorque R z x hx)
    rw [q.phi2deriv R z φ hD]
    exact (((hsφ φ p).fun_neg.fun_mul (h.dx (hxφ φ p R) (hyφ φ p R) (hasDerivAt_const φ z) hD) |>.fun_add
      ((hcφ φ p).fun_mul (h.dy (hxφ φ p R) (hyφ φ p R) (hasDerivAt_const φ z) hD))).const_mul R).fun_neg.congr_deriv
        (by ring)

theorem Polar.hess (q : Polar P t p Φ px py pz pxx pxy pxz pyy pyz pzz D)
    (h : CartC2 Φ px py pz pxx pxy pxz pyy pyz pzz D) {R z φ : ℝ}
    (hD : D (R * Real.cos (φ - p)) (R * Real.sin (φ - p)) z) : HessAt P R z φ t :=
  HessAt.of_force ⟨(Polar.nearR h hD).mono fun _ k => q.grad h k, (Polar.nearz h hD).mono fun _ k => q.grad h k,
    (Polar.nearφ h hD).mono fun _ k => q.grad h k⟩ (q.forceHess h hD)

theorem Polar.poisson (q : Polar P t p Φ px py pz pxx pxy pxz pyy pyz pzz D)
    (h : CartC2 Φ px py pz pxx pxy pxz pyy pyz pzz D) {R z φ : ℝ}
    (hD : D (R * Real.cos (φ - p)) (R * Real.sin (φ - p)) z) (hR : R ≠ 0)
    (hd : 4 * Real.pi * P.dens R z φ t = pxx (R * Real.cos (φ - p)) (R * Real.sin (φ - p)) z
      + pyy (R * Real.cos (φ - p)) (R * Real.sin (φ - p)) z + pzz (R * Real.cos (φ - p)) (R * Real.sin (φ - p)) z) :
    PoissonAt P R z φ t := by
  rw [poissonAt_iff (q.grad h hD) (q.hess h hD)]
  unfold PoissonAlg
  rw [hd, q.R2deriv _ _ _ hD, q.Rforce _ _ _ hD, q.phi2deriv _ _ _ hD, q.z2deriv _ _ _ hD]
  have hcs := Real.sin_sq_add_cos_sq (φ - p)
  generalize pxx (R * Real.cos (φ - p)) (R * Real.sin (φ - p)) z = a1
  generalize pyy (R * Real.cos (φ - p)) (R * Real.sin (φ - p)) z = a2
  generalize pzz (R * Real.cos (φ - p)) (R * Real.sin (φ - p)) z = a3
  generalize pxy (R * Real.cos (φ - p)) (R * Real.sin (φ - p)) z = a4
  generalize px (R * Real.cos (φ - p)) (R * Real.sin (φ - p)) z = a5
  generalize py (R * Real.cos (φ - p)) (R * Real.sin (φ - p)) z = a6
  generalize Real.sin (φ - p) = S at *
  generalize Real.cos (φ - p) = C at *
  field_simp
  linear_combination (-(R * a1 + R * a2)) * hcs

end
end Verif
