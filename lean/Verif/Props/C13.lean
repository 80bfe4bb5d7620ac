import Verif.Model.PotQuant
import Verif.Lemmas.EOM
import Verif.Lemmas.Smooth

set_option autoImplicit false

/-!
# C13: force and second derivative along the spherical radius; tidal radius
-/

open Filter Topology

namespace Verif

/-- The potential along the ray through `(R, z)` at azimuth `φ`, by distance from the origin. -/
noncomputable def alongRay (P : Pot) (R z φ t : ℝ) (s : ℝ) : ℝ :=
  let r := √(R ^ 2 + z ^ 2);
  P.val (s * (R / r)) (s * (z / r)) φ t

theorem C13aux.ray {R z : ℝ} (h : 0 < R ^ 2 + z ^ 2) :
    √(R ^ 2 + z ^ 2) * (R / √(R ^ 2 + z ^ 2)) = R ∧ √(R ^ 2 + z ^ 2) * (z / √(R ^ 2 + z ^ 2)) = z := by
  have := (Real.sqrt_pos.2 h).ne'
  constructor <;> field_simp

theorem C13aux.lin (c s : ℝ) : HasDerivAt (fun s => s * c) c s := by
  simpa using (hasDerivAt_id s).mul_const c

theorem C13aux.first {P : Pot} {R z φ t s : ℝ} (R0 z0 : ℝ)
    (hg : GradAt P (s * (R0 / √(R0 ^ 2 + z0 ^ 2))) (s * (z0 / √(R0 ^ 2 + z0 ^ 2))) φ t)
    (hd : DiffAt P (s * (R0 / √(R0 ^ 2 + z0 ^ 2))) (s * (z0 / √(R0 ^ 2 + z0 ^ 2))) φ t) :
    HasDerivAt (alongRay P R0 z0 φ t)
      (-(P.Rforce (s * (R0 / √(R0 ^ 2 + z0 ^ 2))) (s * (z0 / √(R0 ^ 2 + z0 ^ 2))) φ t
          * (R0 / √(R0 ^ 2 + z0 ^ 2))
        + P.zforce (s * (R0 / √(R0 ^ 2 + z0 ^ 2))) (s * (z0 / √(R0 ^ 2 + z0 ^ 2))) φ t
          * (z0 / √(R0 ^ 2 + z0 ^ 2)))) s := by
  have := GradAt.curve (P := P) (t := t) (a := fun s => s * (R0 / √(R0 ^ 2 + z0 ^ 2)))
    (b := fun s => s * (z0 / √(R0 ^ 2 + z0 ^ 2))) (c := fun _ => φ) hg hd
    (C13aux.lin _ s) (C13aux.lin _ s) (hasDerivAt_const s φ)
  exact this.congr_deriv (by ring)

/-- `rforce` is minus the derivative of the potential along the ray. -/
theorem C13_rforce {P : Pot} {R z φ t : ℝ} (h : 0 < R ^ 2 + z ^ 2) (hg : GradAt P R z φ t)
    (hd : DiffAt P R z φ t) :
    HasDerivAt (alongRay P R z φ t) (-(PotQuant.rforce P R z φ t)) (√(R ^ 2 + z ^ 2)) := by
  obtain ⟨e1, e2⟩ := C13aux.ray h
  refine (C13aux.first (R := R) (z := z) R z (by rw [e1, e2]; exact hg)
    (by rw [e1, e2]; exact hd)).congr_deriv ?_
  rw [e1, e2]
  simp only [PotQuant.rforce]
  ring

/-- `r2deriv` is the second derivative of the potential along the ray. -/
theorem C13_r2deriv {P : Pot} {D : Set (ℝ × ℝ × ℝ)} (hP : SmoothOn P D) {R z φ t : ℝ}
    (h : 0 < R ^ 2 + z ^ 2) (hD : (R, z, φ) ∈ D) :
    HasDerivAt (deriv (alongRay P R z φ t)) (PotQuant.r2deriv P R z φ t) (√(R ^ 2 + z ^ 2)) := by
  obtain ⟨e1, e2⟩ := C13aux.ray h
  have hr := (Real.sqrt_pos.2 h).ne'
  have hf := hP.forceHess (t := t) hD
  have hfd := hP.fdiff _ _ _ t hD
  have kR := chain3 (f := fun x y z => P.Rforce x y z t) (a := fun s => s * (R / √(R ^ 2 + z ^ 2)))
    (b := fun s => s * (z / √(R ^ 2 + z ^ 2))) (c := fun _ => φ) (s := √(R ^ 2 + z ^ 2))
    (by rw [e1, e2]; exact hfd.dR) (by rw [e1, e2]; exact hf.RR) (by rw [e1, e2]; exact hf.Rz)
    (by rw [e1, e2]; exact hf.Rp) (C13aux.lin _ _) (C13aux.lin _ _) (hasDerivAt_const _ φ)
  have kz := chain3 (f := fun x y z => P.zforce x y z t) (a := fun s => s * (R / √(R ^ 2 + z ^ 2)))
    (b := fun s => s * (z / √(R ^ 2 + z ^ 2))) (c := fun _ => φ) (s := √(R ^ 2 + z ^ 2))
    (by rw [e1, e2]; exact hfd.dz) (by rw [e1, e2]; exact hf.zR) (by rw [e1, e2]; exact hf.zz)
    (by rw [e1, e2]; exact hf.zp) (C13aux.lin _ _) (C13aux.lin _ _) (hasDerivAt_const _ φ)
  have key := hd_neg (hd_add (hd_mul_const (R / √(R ^ 2 + z ^ 2)) kR)
    (hd_mul_const (z / √(R ^ 2 + z ^ 2)) kz))
  refine (key.congr_of_eventuallyEq ?_).congr_deriv ?_
  · have hc : ContinuousAt (fun s : ℝ => (s * (R / √(R ^ 2 + z ^ 2)), s * (z / √(R ^ 2 + z ^ 2)), φ))
        (√(R ^ 2 + z ^ 2)) := by fun_prop
    have : ∀ᶠ s in 𝓝 (√(R ^ 2 + z ^ 2)),
        (s * (R / √(R ^ 2 + z ^ 2)), s * (z / √(R ^ 2 + z ^ 2)), φ) ∈ D := by
      apply hc.eventually
      apply hP.isOpen.mem_nhds
      simpa only [e1, e2] using hD
    filter_upwards [this] with s hs
    exact (C13aux.first (R := R) (z := z) R z (hP.grad _ _ _ _ hs) (hP.diff _ _ _ _ hs)).deriv
  · simp only [PotQuant.r2deriv]
    ring

/-- The tidal radius is the radius at which the mass balances the difference between the squared
angular frequency and the second derivative of the potential along the ray. -/
theorem C13_rtide {P : Pot} {D : Set (ℝ × ℝ × ℝ)} (hP : SmoothOn P D) {R z φ t M : ℝ}
    (h : 0 < R ^ 2 + z ^ 2) (hD : (R, z, φ) ∈ D) (hM : 0 ≤ M)
    (hpos : 0 < deriv (alongRay P R z φ t) (√(R ^ 2 + z ^ 2)) / √(R ^ 2 + z ^ 2)
      - deriv (deriv (alongRay P R z φ t)) (√(R ^ 2 + z ^ 2))) :
    ∃ rt, PotQuant.rtide P R z φ t (some M) = .ok rt ∧ 0 ≤ rt ∧
      rt ^ 3 * (deriv (alongRay P R z φ t) (√(R ^ 2 + z ^ 2)) / √(R ^ 2 + z ^ 2)
        - deriv (deriv (alongRay P R z φ t)) (√(R ^ 2 + z ^ 2))) = M := by
  refine ⟨_, rfl, ?_⟩
  rw [(C13_rforce h (hP.grad _ _ _ _ hD) (hP.diff _ _ _ _ hD)).deriv,
    (C13_r2deriv hP h hD).deriv] at hpos ⊢
  have hq : 0 ≤ M / (-PotQuant.rforce P R z φ t / √(R ^ 2 + z ^ 2) - PotQuant.r2deriv P R z φ t) :=
    div_nonneg hM hpos.le
  refine ⟨Real.rpow_nonneg hq _, ?_⟩
  rw [← Real.rpow_natCast, ← Real.rpow_mul hq]
  norm_num
  exact div_mul_cancel₀ _ hpos.ne'

/-- Without a mass an error is raised. -/
theorem C13_rtide_raises (P : Pot) (R z φ t : ℝ) : ∃ e, PotQuant.rtide P R z φ t none = .error e :=
  ⟨_, rfl⟩

example : HasDerivAt (deriv (alongRay (LogarithmicHalo.pot (9 / 10) (1 / 10) (some (4 / 5))) 1 1 2 0))
    (PotQuant.r2deriv (LogarithmicHalo.pot (9 / 10) (1 / 10) (some (4 / 5))) 1 1 2 0) (√(1 ^ 2 + 1 ^ 2)) := by
  refine C13_r2deriv (LogarithmicHalo.smoothOn_nonaxi (q := 9 / 10) (core2 := 1 / 10) (b := 4 / 5)
    (by norm_num)) (by norm_num) ?_
  simp only [Set.mem_setOf_eq, LogarithmicHalo.m1]
  refine ⟨?_, by norm_num⟩
  have h1 := Real.sin_sq_le_one 2
  have h2 := sq_nonneg (Real.sin 2)
  norm_num
  nlinarith

end Verif
