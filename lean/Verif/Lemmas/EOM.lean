import Verif.Spec.Dynamics
import Verif.Model.EOM
import Verif.Util.Chain
import Verif.Util.PotLemmas
import Mathlib.Analysis.Calculus.Deriv.Pi

set_option autoImplicit false

/-!
# Lemmas about rectangular and cylindrical coordinates used for the equations of motion
-/

open Filter Topology

namespace Verif

/-- Chain rule for the potential value along a curve. -/
theorem GradAt.curve {P : Pot} {a b c : ℝ → ℝ} {s a' b' c' t : ℝ}
    (hg : GradAt P (a s) (b s) (c s) t) (hd : DiffAt P (a s) (b s) (c s) t)
    (da : HasDerivAt a a' s) (db : HasDerivAt b b' s) (dc : HasDerivAt c c' s) :
    HasDerivAt (fun u => P.val (a u) (b u) (c u) t)
      (-(P.Rforce (a s) (b s) (c s) t * a' + P.zforce (a s) (b s) (c s) t * b'
        + P.phitorque (a s) (b s) (c s) t * c')) s :=
  (chain3 (f := fun x y z => P.val x y z t) hd hg.dR hg.dz hg.dphi da db dc).congr_deriv (by ring)

/-- The potential that is constant in `z` and equals `P` in the plane. -/
def Pot.plane (P : Pot) : Pot :=
  { P with
    val := fun R _ φ t => P.val R 0 φ t
    Rforce := fun R _ φ t => P.Rforce R 0 φ t
    phitorque := fun R _ φ t => P.phitorque R 0 φ t
    zforce := fun _ _ _ _ => 0 }

theorem PlanarGradAt.plane {P : Pot} {R φ t : ℝ} (h : PlanarGradAt P R φ t) (z : ℝ) :
    GradAt P.plane R z φ t :=
  ⟨h.dR, by simpa [Pot.plane] using hasDerivAt_const z (P.val R 0 φ t), h.dphi⟩

theorem PlanarDiffAt.plane {P : Pot} {R φ t : ℝ} (h : PlanarDiffAt P R φ t) (z : ℝ) :
    DiffAt P.plane R z φ t :=
  DifferentiableAt.comp (g := fun p : ℝ × ℝ => P.val p.1 0 p.2 t)
    (f := fun p : ℝ × ℝ × ℝ => (p.1, p.2.2)) (R, z, φ) h (by fun_prop)

theorem GradAt.planar {P : Pot} {R φ t : ℝ} (h : GradAt P R 0 φ t) : PlanarGradAt P R φ t :=
  ⟨h.dR, h.dphi⟩

theorem DiffAt.planar {P : Pot} {R φ t : ℝ} (h : DiffAt P R 0 φ t) : PlanarDiffAt P R φ t :=
  DifferentiableAt.comp (g := fun p : ℝ × ℝ × ℝ => P.val p.1 p.2.1 p.2.2 t)
    (f := fun p : ℝ × ℝ => (p.1, 0, p.2)) (R, φ) h (by fun_prop)

namespace EOM

/-- The computed azimuth is an azimuth. -/
theorem azimuth_spec {x y : ℝ} (h : 0 < x ^ 2 + y ^ 2) :
    0 < √(x ^ 2 + y ^ 2) ∧ x = √(x ^ 2 + y ^ 2) * Real.cos (azimuth x y) ∧
    y = √(x ^ 2 + y ^ 2) * Real.sin (azimuth x y) := by
  set R := √(x ^ 2 + y ^ 2) with hR
  have hpos : 0 < R := Real.sqrt_pos.2 h
  have hsq : R ^ 2 = x ^ 2 + y ^ 2 := Real.sq_sqrt h.le
  have hle : |x / R| ≤ 1 := by
    rw [abs_div, abs_of_pos hpos, div_le_one hpos]
    exact Real.abs_le_sqrt (by nlinarith [sq_nonneg y])
  have hc : Real.cos (Real.arccos (x / R)) = x / R :=
    Real.cos_arccos (by linarith [(abs_le.1 hle).1]) (abs_le.1 hle).2
  have hs : Real.sin (Real.arccos (x / R)) = |y| / R := by
    rw [Real.sin_arccos, ← Real.sqrt_sq_eq_abs, show 1 - (x / R) ^ 2 = y ^ 2 / R ^ 2 by
      field_simp; linarith, Real.sqrt_div (sq_nonneg y), Real.sqrt_sq hpos.le]
  refine ⟨hpos, ?_⟩
  unfold azimuth
  rw [← hR]
  dsimp only
  by_cases hy : y < 0
  · rw [if_pos hy, Real.cos_two_pi_sub, Real.sin_two_pi_sub, hc, hs, abs_of_neg hy]
    constructor <;> field_simp
  · rw [if_neg hy, hc, hs, abs_of_nonneg (not_lt.1 hy)]
    constructor <;> field_simp

/-- Cosine and sine of the computed azimuth as the code computes them. -/
theorem azimuth_cos_sin {x y : ℝ} (h : 0 < x ^ 2 + y ^ 2) :
    Real.cos (azimuth x y) = x / √(x ^ 2 + y ^ 2) ∧
    Real.sin (azimuth x y) = y / √(x ^ 2 + y ^ 2) := by
  obtain ⟨h0, h1, h2⟩ := azimuth_spec h
  constructor
  · rw [eq_div_iff h0.ne']
    linarith
  · rw [eq_div_iff h0.ne']
    linarith

/-- The azimuth computed from a point equals any other azimuth of it up to full turns. -/
theorem azimuth_polar {R φ : ℝ} (hR : 0 < R) :
    √((R * Real.cos φ) ^ 2 + (R * Real.sin φ) ^ 2) = R ∧
    Real.cos (azimuth (R * Real.cos φ) (R * Real.sin φ)) = Real.cos φ ∧
    Real.sin (azimuth (R * Real.cos φ) (R * Real.sin φ)) = Real.sin φ := by
  have e : (R * Real.cos φ) ^ 2 + (R * Real.sin φ) ^ 2 = R ^ 2 := by
    linear_combination R ^ 2 * Real.cos_sq_add_sin_sq φ
  have h : 0 < (R * Real.cos φ) ^ 2 + (R * Real.sin φ) ^ 2 := by
    rw [e]
    positivity
  have h2 : √((R * Real.cos φ) ^ 2 + (R * Real.sin φ) ^ 2) = R := by
    rw [e, Real.sqrt_sq hR.le]
  obtain ⟨hc, hs⟩ := azimuth_cos_sin h
  rw [h2] at hc hs
  refine ⟨h2, ?_, ?_⟩
  · rw [hc]
    field_simp
  · rw [hs]
    field_simp

/-- Chain rule for the potential in rectangular coordinates along a curve. -/
theorem cart_curve {P : Pot} {t : ℝ} {g : (Fin 3 → ℝ) → ℝ} (hcart : IsCart P t g)
    {q : ℝ → Fin 3 → ℝ} {q' : Fin 3 → ℝ} {s : ℝ} (hq : HasDerivAt q q' s)
    (h0 : 0 < q s 0 ^ 2 + q s 1 ^ 2)
    (hg : GradAt P (√(q s 0 ^ 2 + q s 1 ^ 2)) (q s 2) (azimuth (q s 0) (q s 1)) t)
    (hd : DiffAt P (√(q s 0 ^ 2 + q s 1 ^ 2)) (q s 2) (azimuth (q s 0) (q s 1)) t) :
    HasDerivAt (fun u => g (q u))
      (-(rectForce P t (q s) 0 * q' 0 + rectForce P t (q s) 1 * q' 1
        + rectForce P t (q s) 2 * q' 2)) s := by
  have hq' := hasDerivAt_pi.1 hq
  obtain ⟨hR, ex, ey⟩ := azimuth_spec h0
  obtain ⟨φ, hφ0, hφ, hRd, hR0, hev⟩ := local_polar (hq' 0) (hq' 1) hR ex ey
  have key := GradAt.curve (P := P) (t := t) (a := fun u => √(q u 0 ^ 2 + q u 1 ^ 2))
    (b := fun u => q u 2) (c := φ) (by rw [hφ0]; exact hg) (by rw [hφ0]; exact hd) hRd (hq' 2) hφ
  have heq : (fun u => g (q u)) =ᶠ[𝓝 s]
      fun u => P.val (√(q u 0 ^ 2 + q u 1 ^ 2)) (q u 2) (φ u) t := by
    filter_upwards [hev] with u hu
    rw [← hcart _ _ _ hu.1, ← hu.2.1, ← hu.2.2]
    congr 1
    funext i
    fin_cases i <;> rfl
  refine (key.congr_of_eventuallyEq heq).congr_deriv ?_
  simp only [hφ0]
  simp only [rectForce, rectForceV, Pot.force, Matrix.cons_val_zero, Matrix.cons_val_one,
    Matrix.cons_val]
  have hne := hR.ne'
  field_simp
  ring

/-- A rectangular version of a periodic potential exists. -/
theorem isCart_exists {P : Pot} (hP : ∀ R z φ t, P.val R z (φ + 2 * Real.pi) t = P.val R z φ t)
    (t : ℝ) : IsCart P t
      (fun x => P.val (√(x 0 ^ 2 + x 1 ^ 2)) (x 2) (azimuth (x 0) (x 1)) t) := by
  intro R z φ hR
  obtain ⟨h1, h2, h3⟩ := azimuth_polar (φ := φ) hR
  simp only [Matrix.cons_val_zero, Matrix.cons_val_one, Matrix.cons_val]
  rw [h1]
  exact periodic_eq (f := fun φ => P.val R z φ t) (fun x => hP R z x t) h2 h3

end EOM

end Verif

namespace Verif

/-- On a region of smoothness the second-derivative methods are the derivatives of the forces. -/
theorem SmoothOn.forceHess {P : Pot} {D : Set (ℝ × ℝ × ℝ)} (h : SmoothOn P D) {R z φ t : ℝ}
    (hp : (R, z, φ) ∈ D) : ForceHess P R z φ t := by
  have hn := h.isOpen.mem_nhds hp
  have cR : Filter.Tendsto (fun x : ℝ => (x, z, φ)) (𝓝 R) (𝓝 (R, z, φ)) :=
    (Continuous.prodMk continuous_id continuous_const).tendsto' _ _ rfl
  have cz : Filter.Tendsto (fun x : ℝ => (R, x, φ)) (𝓝 z) (𝓝 (R, z, φ)) :=
    (Continuous.prodMk continuous_const (Continuous.prodMk continuous_id continuous_const)).tendsto' _ _ rfl
  have cp : Filter.Tendsto (fun x : ℝ => (R, z, x)) (𝓝 φ) (𝓝 (R, z, φ)) :=
    (Continuous.prodMk continuous_const (Continuous.prodMk continuous_const continuous_id)).tendsto' _ _ rfl
  have eR : ∀ᶠ x in 𝓝 R, GradAt P x z φ t := (cR.eventually hn).mono fun x hx => h.grad _ _ _ _ hx
  have ez : ∀ᶠ x in 𝓝 z, GradAt P R x φ t := (cz.eventually hn).mono fun x hx => h.grad _ _ _ _ hx
  have ep : ∀ᶠ x in 𝓝 φ, GradAt P R z x t := (cp.eventually hn).mono fun x hx => h.grad _ _ _ _ hx
  have aux : ∀ {F G : ℝ → ℝ} {d a : ℝ}, HasDerivAt G d a → (∀ᶠ x in 𝓝 a, G x = -F x) →
      HasDerivAt F (-d) a := by
    intro F G d a hG e
    exact (hG.neg).congr_of_eventuallyEq (e.mono fun x hx => by simp [hx])
  have hh := h.hess R z φ t hp
  exact ⟨aux hh.RR (eR.mono fun _ k => k.dR.deriv), aux hh.Rz (ez.mono fun _ k => k.dR.deriv),
    aux hh.Rp (ep.mono fun _ k => k.dR.deriv), aux hh.zR (eR.mono fun _ k => k.dz.deriv),
    aux hh.zz (ez.mono fun _ k => k.dz.deriv), aux hh.zp (ep.mono fun _ k => k.dz.deriv),
    aux hh.pR (eR.mono fun _ k => k.dphi.deriv), aux hh.pz (ez.mono fun _ k => k.dphi.deriv),
    aux hh.pp (ep.mono fun _ k => k.dphi.deriv)⟩

namespace EOM

/-- The point of the region of a potential at which the code evaluates it for rectangular
coordinates `x`. -/
noncomputable def cylPoint (x : Fin 3 → ℝ) : ℝ × ℝ × ℝ :=
  (√(x 0 ^ 2 + x 1 ^ 2), x 2, azimuth (x 0) (x 1))

/-- Derivative of the rectangular force along a curve. -/
theorem rectForce_curve {P : Pot} {D : Set (ℝ × ℝ × ℝ)} (hP : SmoothOn P D) (hper : Periodic P)
    (t : ℝ) {q : ℝ → Fin 3 → ℝ} {q' : Fin 3 → ℝ} {s : ℝ} (hq : HasDerivAt q q' s)
    (h0 : 0 < q s 0 ^ 2 + q s 1 ^ 2) (hD : cylPoint (q s) ∈ D) (i : Fin 3) :
    HasDerivAt (fun u => rectForce P t (q u) i)
      (tidal P t (q s) i 0 * q' 0 + tidal P t (q s) i 1 * q' 1 + tidal P t (q s) i 2 * q' 2) s := by
  have hq' := hasDerivAt_pi.1 hq
  obtain ⟨hR, ex, ey⟩ := azimuth_spec h0
  obtain ⟨φ, hφ0, hφ, hRd, hR0, hev⟩ := local_polar (hq' 0) (hq' 1) hR ex ey
  have hf := hP.forceHess (t := t) hD
  have hfd := hP.fdiff _ _ _ t hD
  -- the three force components along the curve with continuous azimuth
  have kR := chain3 (f := fun x y z => P.Rforce x y z t) (a := fun u => √(q u 0 ^ 2 + q u 1 ^ 2))
    (b := fun u => q u 2) (c := φ) (s := s) (by rw [hφ0]; exact hfd.dR) (by rw [hφ0]; exact hf.RR)
    (by rw [hφ0]; exact hf.Rz) (by rw [hφ0]; exact hf.Rp) hRd (hq' 2) hφ
  have kp := chain3 (f := fun x y z => P.phitorque x y z t) (a := fun u => √(q u 0 ^ 2 + q u 1 ^ 2))
    (b := fun u => q u 2) (c := φ) (s := s) (by rw [hφ0]; exact hfd.dphi) (by rw [hφ0]; exact hf.pR)
    (by rw [hφ0]; exact hf.pz) (by rw [hφ0]; exact hf.pp) hRd (hq' 2) hφ
  have kz := chain3 (f := fun x y z => P.zforce x y z t) (a := fun u => √(q u 0 ^ 2 + q u 1 ^ 2))
    (b := fun u => q u 2) (c := φ) (s := s) (by rw [hφ0]; exact hfd.dz) (by rw [hφ0]; exact hf.zR)
    (by rw [hφ0]; exact hf.zz) (by rw [hφ0]; exact hf.zp) hRd (hq' 2) hφ
  have hne : √(q s 0 ^ 2 + q s 1 ^ 2) ≠ 0 := hR.ne'
  have hsq : √(q s 0 ^ 2 + q s 1 ^ 2) ^ 2 = q s 0 ^ 2 + q s 1 ^ 2 := Real.sq_sqrt h0.le
  have kc : HasDerivAt (fun u => q u 0 / √(q u 0 ^ 2 + q u 1 ^ 2))
      (-(q s 1 * (q s 0 * q' 1 - q s 1 * q' 0)) / √(q s 0 ^ 2 + q s 1 ^ 2) ^ 3) s := by
    refine (hd_div (hq' 0) hRd hne).congr_deriv ?_
    generalize √(q s 0 ^ 2 + q s 1 ^ 2) = R at *
    field_simp
    rw [hsq]
    ring
  have ks : HasDerivAt (fun u => q u 1 / √(q u 0 ^ 2 + q u 1 ^ 2))
      (q s 0 * (q s 0 * q' 1 - q s 1 * q' 0) / √(q s 0 ^ 2 + q s 1 ^ 2) ^ 3) s := by
    refine (hd_div (hq' 1) hRd hne).congr_deriv ?_
    generalize √(q s 0 ^ 2 + q s 1 ^ 2) = R at *
    field_simp
    rw [hsq]
    ring
  have ki : HasDerivAt (fun u => 1 / √(q u 0 ^ 2 + q u 1 ^ 2))
      (-(q s 0 * q' 0 + q s 1 * q' 1) / √(q s 0 ^ 2 + q s 1 ^ 2) ^ 3) s := by
    refine (hd_div (hd_const 1 s) hRd hne).congr_deriv ?_
    generalize √(q s 0 ^ 2 + q s 1 ^ 2) = R at *
    field_simp
    ring
  have eqs : ∀ᶠ u in 𝓝 s, Real.cos (azimuth (q u 0) (q u 1)) = Real.cos (φ u) ∧
      Real.sin (azimuth (q u 0) (q u 1)) = Real.sin (φ u) := by
    filter_upwards [hev] with u hu
    have hpos : 0 < q u 0 ^ 2 + q u 1 ^ 2 := by
      by_contra hneg
      have := Real.sqrt_eq_zero_of_nonpos (not_lt.1 hneg)
      rw [this] at hu
      exact lt_irrefl _ hu.1
    obtain ⟨hc, hs⟩ := azimuth_cos_sin hpos
    rw [hc, hs]
    constructor
    · rw [div_eq_iff hu.1.ne']
      linarith [hu.2.1]
    · rw [div_eq_iff hu.1.ne']
      linarith [hu.2.2]
  have eR : ∀ᶠ u in 𝓝 s, P.Rforce (√(q u 0 ^ 2 + q u 1 ^ 2)) (q u 2) (azimuth (q u 0) (q u 1)) t =
      P.Rforce (√(q u 0 ^ 2 + q u 1 ^ 2)) (q u 2) (φ u) t :=
    eqs.mono fun u hu => periodic_eq (f := fun φ => P.Rforce _ _ φ t)
      (fun φ => hper.Rforce _ _ φ t) hu.1 hu.2
  have ep : ∀ᶠ u in 𝓝 s, P.phitorque (√(q u 0 ^ 2 + q u 1 ^ 2)) (q u 2) (azimuth (q u 0) (q u 1)) t =
      P.phitorque (√(q u 0 ^ 2 + q u 1 ^ 2)) (q u 2) (φ u) t :=
    eqs.mono fun u hu => periodic_eq (f := fun φ => P.phitorque _ _ φ t)
      (fun φ => hper.phitorque _ _ φ t) hu.1 hu.2
  have ez : ∀ᶠ u in 𝓝 s, P.zforce (√(q u 0 ^ 2 + q u 1 ^ 2)) (q u 2) (azimuth (q u 0) (q u 1)) t =
      P.zforce (√(q u 0 ^ 2 + q u 1 ^ 2)) (q u 2) (φ u) t :=
    eqs.mono fun u hu => periodic_eq (f := fun φ => P.zforce _ _ φ t)
      (fun φ => hper.zforce _ _ φ t) hu.1 hu.2
  obtain rfl | rfl | rfl : i = 0 ∨ i = 1 ∨ i = 2 := by fin_cases i <;> simp
  · have key := hd_sub (hd_mul kc kR) (hd_mul (hd_mul ki ks) kp)
    refine (key.congr_of_eventuallyEq ?_).congr_deriv ?_
    · filter_upwards [eR, ep] with u h1 h2
      simp only [rectForce, rectForceV, Pot.force, Matrix.cons_val_zero, Matrix.cons_val_one,
        Matrix.cons_val, h1, h2]
    simp only [tidal, hφ0, Matrix.cons_val_zero, Matrix.cons_val_one, Matrix.cons_val]
    generalize √(q s 0 ^ 2 + q s 1 ^ 2) = R at *
    field_simp
    ring
  · have key := hd_add (hd_mul ks kR) (hd_mul (hd_mul ki kc) kp)
    refine (key.congr_of_eventuallyEq ?_).congr_deriv ?_
    · filter_upwards [eR, ep] with u h1 h2
      simp only [rectForce, rectForceV, Pot.force, Matrix.cons_val_zero, Matrix.cons_val_one,
        Matrix.cons_val, h1, h2]
    simp only [tidal, hφ0, Matrix.cons_val_zero, Matrix.cons_val_one, Matrix.cons_val]
    generalize √(q s 0 ^ 2 + q s 1 ^ 2) = R at *
    field_simp
    ring
  · refine (kz.congr_of_eventuallyEq ?_).congr_deriv ?_
    · filter_upwards [ez] with u h1
      simp only [rectForce, rectForceV, Pot.force, Matrix.cons_val_zero, Matrix.cons_val_one,
        Matrix.cons_val, ← h1]
    simp only [tidal, hφ0, Matrix.cons_val_zero, Matrix.cons_val_one, Matrix.cons_val]
    generalize √(q s 0 ^ 2 + q s 1 ^ 2) = R at *
    field_simp
    ring

end EOM

end Verif
