import Verif.Model.Pot.PowerSphericalCutoff
import Verif.Lemmas.Pot.Spherical

set_option autoImplicit false

noncomputable section
namespace Verif.PowerSphCut
open Real Filter Topology Set

variable {α rc : ℝ}

theorem s_eq : (1.5 : ℝ) - 0.5 * α = 1.5 - α / 2 := by norm_num; ring
theorem s_pos (h : α < 3) : 0 < (1.5 : ℝ) - α / 2 := by norm_num; linarith

theorem sq_rpow {u : ℝ} (hu : 0 ≤ u) (e : ℝ) : (u ^ 2) ^ e = u ^ (2 * e) := by
  rw [← rpow_natCast, ← rpow_mul hu]; norm_num

/-- The enclosed mass through the incomplete Gamma function. -/
def massG (α rc r : ℝ) : ℝ := 2 * π * rc ^ (3 - α) * lowerGamma (1.5 - α / 2) ((r / rc) ^ 2)

theorem mass_eq (h : α < 3) (hc : 0 < rc) {r : ℝ} (hr : 0 < r) : mass α rc r = massG α rc r := by
  have hs := s_pos h
  have hu : 0 < r / rc := by positivity
  unfold mass massG
  rw [← hyp1f1_lower hs (by positivity : 0 < (r / rc) ^ 2), sq_rpow hu.le,
    show (2.5 : ℝ) - α / 2 = 1.5 - α / 2 + 1 by norm_num; ring,
    show 2 * ((1.5 : ℝ) - α / 2) = 3 - α by norm_num; ring, div_rpow hr.le hc.le]
  have := rpow_pos_of_pos hc (3 - α)
  field_simp

theorem massG_deriv (h : α < 3) (hc : 0 < rc) {r : ℝ} (hr : 0 < r) :
    HasDerivAt (massG α rc) (4 * π * r ^ (2 - α) * exp (-((r / rc) ^ 2))) r := by
  have hs := s_pos h
  have hu : 0 < r / rc := by positivity
  have h1 : HasDerivAt (fun r : ℝ => (r / rc) ^ 2) (2 * r / rc ^ 2) r := by
    have := ((hasDerivAt_id r).div_const rc).pow 2
    refine this.congr_deriv ?_
    simp only [id]; push_cast; field_simp
    try ring
  have h2 := ((lowerGamma_deriv hs (by positivity : 0 < (r / rc) ^ 2)).comp r h1).const_mul (2 * π * rc ^ (3 - α))
  refine h2.congr_deriv ?_
  rw [sq_rpow hu.le, show 2 * ((1.5 : ℝ) - α / 2 - 1) = 1 - α by norm_num; ring, div_rpow hr.le hc.le,
    show (3 : ℝ) - α = 1 - α + 2 by ring, rpow_add hc, show (2 : ℝ) - α = 1 - α + 1 by ring, rpow_add hr]
  have := rpow_pos_of_pos hc (1 - α)
  simp only [rpow_one, rpow_two]
  field_simp; ring

/-- The value through incomplete Gamma functions. -/
def valG (α rc r : ℝ) : ℝ :=
  2 * π * rc ^ (3 - α) * (1 / rc * lowerGamma (1 - α / 2) ((r / rc) ^ 2)) - massG α rc r / r

theorem val_eq (h : α < 2) {R z r : ℝ} (hr : 0 < r) (e : √(R ^ 2 + z ^ 2) = r) : evaluate α rc R z = valG α rc r := by
  unfold evaluate valG massG
  simp only [e, hr.ne', if_false]
  rw [mul_assoc (1 / rc), gammainc_mul (by linarith), gammainc_mul (s_pos (by linarith))]
  ring

theorem valG_deriv (h : α < 2) (hc : 0 < rc) {r : ℝ} (hr : 0 < r) :
    HasDerivAt (valG α rc) (massG α rc r / r ^ 2) r := by
  have hu : 0 < r / rc := by positivity
  have h1 : HasDerivAt (fun r : ℝ => (r / rc) ^ 2) (2 * r / rc ^ 2) r := by
    have := ((hasDerivAt_id r).div_const rc).pow 2
    refine this.congr_deriv ?_
    simp only [id]; push_cast; field_simp
    try ring
  have h2 := (((lowerGamma_deriv (by linarith : 0 < 1 - α / 2) (by positivity : 0 < (r / rc) ^ 2)).comp r h1).const_mul
    (1 / rc)).const_mul (2 * π * rc ^ (3 - α))
  have h3 := h2.sub ((massG_deriv (by linarith : α < 3) hc hr).div (hasDerivAt_id r) hr.ne')
  refine h3.congr_deriv ?_
  rw [sq_rpow hu.le, show 2 * (1 - α / 2 - 1) = -α by ring, div_rpow hr.le hc.le,
    show (3 : ℝ) - α = -α + 3 by ring, rpow_add hc, show (2 : ℝ) - α = -α + 2 by ring, rpow_add hr,
    show (3 : ℝ) = (3 : ℕ) by norm_num, rpow_natCast]
  have := rpow_pos_of_pos hc (-α)
  simp only [rpow_two, id]
  field_simp; ring

/-- The radial profile. -/
def rad (α rc : ℝ) : Spherical.Radial :=
  Spherical.stat (valG α rc) (fun r => -(massG α rc r / r ^ 2))
    (fun r => 4 * π * r ^ (-α) * exp (-((r / rc) ^ 2)) - 2 * massG α rc r / r ^ 3)
    (fun r => r ^ (-α) * exp (-((r / rc) ^ 2)))

theorem force_deriv (h : α < 3) (hc : 0 < rc) {r : ℝ} (hr : 0 < r) :
    HasDerivAt (fun r => -(massG α rc r / r ^ 2))
      (-(4 * π * r ^ (-α) * exp (-((r / rc) ^ 2)) - 2 * massG α rc r / r ^ 3)) r := by
  have := ((massG_deriv h hc hr).div ((hasDerivAt_id r).pow 2) (pow_ne_zero 2 hr.ne')).neg
  refine this.congr_deriv ?_
  rw [show (2 : ℝ) - α = -α + 2 by ring, rpow_add hr]
  simp only [rpow_two, id, Pi.pow_apply]
  push_cast
  field_simp
  try ring

theorem radOK (h : α < 2) (hc : 0 < rc) : Spherical.RadialOK (rad α rc) (Ioi 0) :=
  Spherical.RadialOK.stat isOpen_Ioi (fun _ h => h) (fun r hr => by simpa using valG_deriv h hc hr)
    (fun r hr => force_deriv (by linarith) hc hr) (fun r hr => by
      have := ne_of_gt (mem_Ioi.1 hr)
      field_simp; ring)

theorem npow {r : ℝ} (hr : 0 < r) : r ^ (-2 - α) = r ^ (-α) / r ^ 2 := by
  rw [show -2 - α = -α - 2 by ring, rpow_sub hr, rpow_two]

theorem consistent (h : α < 2) (hc : 0 < rc) : Consistent (pot α rc) (Spherical.Dom (Ioi 0)) := by
  refine Spherical.consistent_axi (radOK h hc) (fun _ _ => ⟨rfl, rfl, rfl, rfl⟩) ?_ ?_ ?_ ?_ ?_ ?_ ?_
  · intro R z r _ hr e _; exact val_eq h hr e
  all_goals
    intro R z r _ hr e ez
    first | unfold Rforce | unfold zforce | unfold R2deriv | unfold z2deriv | unfold Rzderiv | unfold dens
    simp only [← sq, e, rad, Spherical.stat, mass_eq (by linarith : α < 3) hc hr, npow hr, rpow_neg hr.le]
    try simp only [ez]
    have := rpow_pos_of_pos hr α
    try field_simp
    try ring

section C
variable (amp : ℝ) {R z : ℝ}
theorem cmass_eq (h : α < 3) (r : ℝ) : cmass (r ^ 2) α rc = massG α rc r := by
  unfold cmass massG
  rw [s_eq, gammainc_mul (s_pos h), div_div, ← sq, ← div_pow]
theorem cEval_eq (h : α < 2) (hp : 0 < R ^ 2 + z ^ 2) :
    cEval amp α rc R z = amp * evaluate α rc R z := by
  have hr := sqrt_pos.2 hp
  rw [val_eq h hr rfl]
  unfold cEval valG massG
  have e : R ^ 2 + z ^ 2 = √(R ^ 2 + z ^ 2) ^ 2 := (sq_sqrt hp.le).symm
  simp only [← sq, s_eq]
  rw [e, sqrt_sq hr.le, div_div, ← sq, ← div_pow, show (1 : ℝ) - 0.5 * α = 1 - α / 2 by norm_num; ring]
  rw [upper_lower (by linarith) (by positivity), upper_lower (s_pos (by linarith)) (by positivity)]
  generalize √(R ^ 2 + z ^ 2) = r at hr
  field_simp
theorem cPlanarRforce_eq (h : α < 3) {r : ℝ} :
    cPlanarRforce amp α rc r = amp * (-(massG α rc r / r ^ 2)) := by
  unfold cPlanarRforce
  simp only [← sq, cmass_eq h]
  ring
theorem cPlanarR2deriv_eq (h : α < 3) {r : ℝ} (hr : 0 < r) : cPlanarR2deriv amp α rc r
    = amp * (4 * π * r ^ (-α) * exp (-((r / rc) ^ 2)) - 2 * massG α rc r / r ^ 3) := by
  unfold cPlanarR2deriv
  simp only [← sq, cmass_eq h]
  rw [sq_rpow hr.le, sq_rpow hr.le, show 2 * (-0.5 * α) = -α by norm_num; ring, show 2 * (1.5 : ℝ) = (3 : ℕ) by norm_num,
    rpow_natCast, show -r ^ 2 / rc / rc = -((r / rc) ^ 2) by rw [div_div, ← sq, neg_div, div_pow]]
theorem cDens_eq (hp : 0 < R ^ 2 + z ^ 2) : cDens amp α rc R z = amp * dens α rc R z := by
  have hr := sqrt_pos.2 hp
  have e : R ^ 2 + z ^ 2 = √(R ^ 2 + z ^ 2) ^ 2 := (sq_sqrt hp.le).symm
  unfold cDens dens
  simp only [← sq]
  rw [e, sqrt_sq hr.le, rpow_neg hr.le, neg_div, neg_div, div_div, ← sq, ← div_pow]
  ring
theorem clookup_eq (h : α < 3) (hp : 0 < R ^ 2 + z ^ 2) : -amp * cmass (R * R + z * z) α rc / (R * R + z * z) ^ (1.5 : ℝ)
    = amp * -(massG α rc √(R ^ 2 + z ^ 2) / √(R ^ 2 + z ^ 2) ^ 3) := by
  have hr := sqrt_pos.2 hp
  have e : R ^ 2 + z ^ 2 = √(R ^ 2 + z ^ 2) ^ 2 := (sq_sqrt hp.le).symm
  simp only [← sq]
  rw [e, sqrt_sq hr.le, cmass_eq h, sq_rpow hr.le, show 2 * (1.5 : ℝ) = (3 : ℕ) by norm_num, rpow_natCast]
  ring
end C

end Verif.PowerSphCut
