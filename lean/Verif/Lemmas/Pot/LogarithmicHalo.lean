import Verif.Model.Pot.LogarithmicHalo

set_option autoImplicit false

noncomputable section
namespace Verif.LogarithmicHalo
open Real Filter Topology

/-- The argument of the logarithm. -/
def arg (q core2 : ℝ) (b : Option ℝ) (R z φ : ℝ) : ℝ :=
  match b with
  | some b => R ^ 2 * (1 - m1 b * sin φ ^ 2) + (z / q) ^ 2 + core2
  | none => R ^ 2 + (z / q) ^ 2 + core2

theorem consistent_axi {q core2 : ℝ} (hq : q ≠ 0) :
    Consistent (pot q core2 none) (fun R z _ => 0 < R ^ 2 + (z / q) ^ 2 + core2) := by
  have e : pot q core2 none = Pot.axi (fun R z => evaluate q core2 none R z 0)
    (fun R z => Rforce q core2 none R z 0) (fun R z => zforce q core2 none R z 0)
    (fun R z => R2deriv q core2 none R z 0) (fun R z => z2deriv q core2 none R z 0)
    (fun R z => Rzderiv q core2 none R z 0) (fun R z => dens q core2 none R z 0) := rfl
  rw [e]
  refine Consistent.axi (D := fun R z => 0 < R ^ 2 + (z / q) ^ 2 + core2) ?_ ?_ ?_ ?_ ?_ ?_ ?_ ?_ ?_
  · exact fun R z h => ev_pos (f := fun x => x ^ 2 + (z / q) ^ 2 + core2) (by fun_prop) h
  · exact fun R z h => ev_pos (f := fun x => R ^ 2 + (x / q) ^ 2 + core2) (by fun_prop) h
  all_goals
    intro R z h; try intro h'
    dsimp only [evaluate, Rforce, zforce, R2deriv, z2deriv, Rzderiv, dens]
    have h1 := h.ne'
  all_goals
    try apply HasDerivAt.congr_deriv
    try · hasderiv
          all_goals positivity
  all_goals
    obtain ⟨y, rfl⟩ : ∃ y, z = q * y := ⟨z / q, by field_simp⟩
    rw [mul_div_cancel_left₀ _ hq] at h1 h
    try simp only [mul_div_cancel_left₀ _ hq]
    try simp only [zpow_neg, zpow_ofNat]
    try field_simp
    try ring

/-- Non-axisymmetric halo. -/
theorem consistent_nonaxi {q core2 b : ℝ} (hq : q ≠ 0) :
    Consistent (pot q core2 (some b)) (fun R z φ =>
      0 < R ^ 2 * (1 - m1 b * sin φ ^ 2) + (z / q) ^ 2 + core2 ∧ R ≠ 0) := by
  refine Consistent.of_force ⟨?_, ?_, ?_⟩ ?_ ?_ ?_
  · exact fun R z φ h => (ev_pos (f := fun x => x ^ 2 * (1 - m1 b * sin φ ^ 2) + (z / q) ^ 2 + core2)
      (by fun_prop) h.1).and (isOpen_ne.mem_nhds h.2)
  · exact fun R z φ h => (ev_pos (f := fun x => R ^ 2 * (1 - m1 b * sin φ ^ 2) + (x / q) ^ 2 + core2)
      (by fun_prop) h.1).and (Eventually.of_forall fun _ => h.2)
  · exact fun R z φ h => (ev_pos (f := fun x => R ^ 2 * (1 - m1 b * sin x ^ 2) + (z / q) ^ 2 + core2)
      (by fun_prop) h.1).and (Eventually.of_forall fun _ => h.2)
  · intro R z φ t ⟨h, hR⟩
    constructor
    all_goals
      dsimp only [pot, evaluate, Rforce, zforce, phitorque, Rt2]
      apply HasDerivAt.congr_deriv
      · hasderiv
        all_goals exact h.ne'
      · have h1 := h.ne'
        obtain ⟨y, rfl⟩ : ∃ y, z = q * y := ⟨z / q, by field_simp⟩
        rw [mul_div_cancel_left₀ _ hq] at h1 h
        try simp only [mul_div_cancel_left₀ _ hq]
        try rw [sin_two_mul]
        field_simp
        try ring
  · intro R z φ t ⟨h, hR⟩
    constructor
    all_goals
      dsimp only [pot, Rforce, zforce, phitorque, R2deriv, z2deriv, Rzderiv, phi2deriv, Rphideriv,
        phizderiv, Rt2]
      apply HasDerivAt.congr_deriv
      · hasderiv
        all_goals first | exact h.ne' | exact hR
      · have h1 := h.ne'
        obtain ⟨y, rfl⟩ : ∃ y, z = q * y := ⟨z / q, by field_simp⟩
        rw [mul_div_cancel_left₀ _ hq] at h1 h
        try simp only [mul_div_cancel_left₀ _ hq]
        have hc := cos_sq' φ
        try rw [sin_two_mul]
        try rw [cos_two_mul]
        field_simp
        elimsq hc
        try ring
  · intro R z φ t ⟨h, hR⟩ _
    have h1 := h.ne'
    obtain ⟨y, rfl⟩ : ∃ y, z = q * y := ⟨z / q, by field_simp⟩
    rw [mul_div_cancel_left₀ _ hq] at h1 h
    try simp only [mul_div_cancel_left₀ _ hq]
    dsimp only [PoissonAlg, pot, Rforce, R2deriv, z2deriv, phi2deriv, dens, Rt2]
    field_simp
    ring
end Verif.LogarithmicHalo

namespace Verif.LogarithmicHalo
open Real

theorem m1_lt {b : ℝ} (hb : b ≠ 0) : m1 b < 1 := by
  unfold m1
  have : 0 < 1 / b ^ 2 := by positivity
  linarith

section
variable (amp q c : ℝ) {b : Option ℝ} (hb : ∀ x ∈ b, x ≠ 0) (R z φ : ℝ)
include hb

theorem cEval_eq : cEval amp q c (cArg b) R z φ = amp * evaluate q c b R z φ := by
  unfold cEval evaluate; simp only [← sq]
  rcases b with _ | b
  · simp only [cArg, show ¬ ((2:ℝ) < 1) by norm_num, if_false, Rt2, div_eq_mul_inv, ← inv_pow]
    ring
  · have h1 := m1_lt (hb b rfl)
    simp only [cArg, h1, if_true, Rt2, div_eq_mul_inv, ← inv_pow]
    ring
theorem cRforce_eq : cRforce amp q c (cArg b) R z φ = amp * Rforce q c b R z φ := by
  unfold cRforce Rforce; simp only [← sq]
  rcases b with _ | b
  · simp only [cArg, show ¬ ((2:ℝ) < 1) by norm_num, if_false, Rt2, div_eq_mul_inv, ← inv_pow]
    ring
  · have h1 := m1_lt (hb b rfl)
    simp only [cArg, h1, if_true, Rt2, div_eq_mul_inv, ← inv_pow]
    ring
theorem cPlanarRforce_eq : cPlanarRforce amp c (cArg b) R φ = amp * Rforce q c b R 0 φ := by
  unfold cPlanarRforce Rforce; simp only [← sq]
  rcases b with _ | b
  · simp only [cArg, show ¬ ((2:ℝ) < 1) by norm_num, if_false, Rt2, div_eq_mul_inv, ← inv_pow]
    ring
  · have h1 := m1_lt (hb b rfl)
    simp only [cArg, h1, if_true, Rt2, div_eq_mul_inv, ← inv_pow]
    ring
theorem czforce_eq : czforce amp q c (cArg b) R z φ = amp * zforce q c b R z φ := by
  unfold czforce zforce; simp only [← sq]
  rcases b with _ | b
  · simp only [cArg, show ¬ ((2:ℝ) < 1) by norm_num, if_false, Rt2, div_eq_mul_inv, ← inv_pow]
    ring
  · have h1 := m1_lt (hb b rfl)
    simp only [cArg, h1, if_true, Rt2, div_eq_mul_inv, ← inv_pow]
    ring
theorem cphitorque_eq : cphitorque amp q c (cArg b) R z φ = amp * phitorque q c b R z φ := by
  unfold cphitorque phitorque; simp only [← sq]
  rcases b with _ | b
  · simp only [cArg, show ¬ ((2:ℝ) < 1) by norm_num, if_false, Rt2, div_eq_mul_inv, ← inv_pow]
    ring
  · have h1 := m1_lt (hb b rfl)
    simp only [cArg, h1, if_true, Rt2, div_eq_mul_inv, ← inv_pow]
    ring
theorem cPlanarphitorque_eq :
    cPlanarphitorque amp c (cArg b) R φ = amp * phitorque q c b R 0 φ := by
  unfold cPlanarphitorque phitorque; simp only [← sq]
  rcases b with _ | b
  · simp only [cArg, show ¬ ((2:ℝ) < 1) by norm_num, if_false, Rt2, div_eq_mul_inv, ← inv_pow]
    ring
  · have h1 := m1_lt (hb b rfl)
    simp only [cArg, h1, if_true, Rt2, div_eq_mul_inv, ← inv_pow]
    ring
theorem cR2deriv_eq : cR2deriv amp q c (cArg b) R z φ = amp * R2deriv q c b R z φ := by
  unfold cR2deriv R2deriv; simp only [← sq]
  rcases b with _ | b
  · simp only [cArg, show ¬ ((2:ℝ) < 1) by norm_num, if_false, Rt2, div_eq_mul_inv, ← inv_pow]
    ring
  · have h1 := m1_lt (hb b rfl)
    simp only [cArg, h1, if_true, Rt2, div_eq_mul_inv, ← inv_pow]
    ring
theorem cz2deriv_eq : cz2deriv amp q c (cArg b) R z φ = amp * z2deriv q c b R z φ := by
  unfold cz2deriv z2deriv; simp only [← sq]
  rcases b with _ | b
  · simp only [cArg, show ¬ ((2:ℝ) < 1) by norm_num, if_false, Rt2, div_eq_mul_inv, ← inv_pow]
    ring
  · have h1 := m1_lt (hb b rfl)
    simp only [cArg, h1, if_true, Rt2, div_eq_mul_inv, ← inv_pow]
    ring
theorem cRzderiv_eq : cRzderiv amp q c (cArg b) R z φ = amp * Rzderiv q c b R z φ := by
  unfold cRzderiv Rzderiv; simp only [← sq]
  rcases b with _ | b
  · simp only [cArg, show ¬ ((2:ℝ) < 1) by norm_num, if_false, Rt2, div_eq_mul_inv, ← inv_pow]
    ring
  · have h1 := m1_lt (hb b rfl)
    simp only [cArg, h1, if_true, Rt2, div_eq_mul_inv, ← inv_pow]
    ring
theorem cphi2deriv_eq : cphi2deriv amp q c (cArg b) R z φ = amp * phi2deriv q c b R z φ := by
  unfold cphi2deriv phi2deriv; simp only [← sq]
  rcases b with _ | b
  · simp only [cArg, show ¬ ((2:ℝ) < 1) by norm_num, if_false, Rt2, div_eq_mul_inv, ← inv_pow]
    ring
  · have h1 := m1_lt (hb b rfl)
    simp only [cArg, h1, if_true, Rt2, div_eq_mul_inv, ← inv_pow]
    ring
theorem cRphideriv_eq : cRphideriv amp q c (cArg b) R z φ = amp * Rphideriv q c b R z φ := by
  unfold cRphideriv Rphideriv; simp only [← sq]
  rcases b with _ | b
  · simp only [cArg, show ¬ ((2:ℝ) < 1) by norm_num, if_false, Rt2, div_eq_mul_inv, ← inv_pow]
    ring
  · have h1 := m1_lt (hb b rfl)
    simp only [cArg, h1, if_true, Rt2, div_eq_mul_inv, ← inv_pow]
    ring
theorem czphideriv_eq : czphideriv amp q c (cArg b) R z φ = amp * phizderiv q c b R z φ := by
  unfold czphideriv phizderiv; simp only [← sq]
  rcases b with _ | b
  · simp only [cArg, show ¬ ((2:ℝ) < 1) by norm_num, if_false, Rt2, div_eq_mul_inv, ← inv_pow]
    ring
  · have h1 := m1_lt (hb b rfl)
    simp only [cArg, h1, if_true, Rt2, div_eq_mul_inv, ← inv_pow]
    ring
theorem cDens_eq : cDens amp q c (cArg b) R z φ = amp * dens q c b R z φ := by
  unfold cDens dens; simp only [← sq, zpow_neg, zpow_ofNat]
  rcases b with _ | b
  · simp only [cArg, show ¬ ((2:ℝ) < 1) by norm_num, if_false, Rt2, div_eq_mul_inv, ← inv_pow]
    ring
  · have h1 := m1_lt (hb b rfl)
    simp only [cArg, h1, if_true, Rt2, div_eq_mul_inv, ← inv_pow]
    ring
theorem cPlanarR2deriv_eq :
    cPlanarR2deriv amp c (cArg b) R φ = amp * R2deriv q c b R 0 φ := by
  unfold cPlanarR2deriv R2deriv; simp only [← sq]
  rcases b with _ | b
  · simp only [cArg, show ¬ ((2:ℝ) < 1) by norm_num, if_false, Rt2, div_eq_mul_inv, ← inv_pow]
    ring
  · have h1 := m1_lt (hb b rfl)
    simp only [cArg, h1, if_true, Rt2, div_eq_mul_inv, ← inv_pow]
    ring
theorem cPlanarphi2deriv_eq :
    cPlanarphi2deriv amp c (cArg b) R φ = amp * phi2deriv q c b R 0 φ := by
  unfold cPlanarphi2deriv phi2deriv; simp only [← sq]
  rcases b with _ | b
  · simp only [cArg, show ¬ ((2:ℝ) < 1) by norm_num, if_false, Rt2, div_eq_mul_inv, ← inv_pow]
    ring
  · have h1 := m1_lt (hb b rfl)
    simp only [cArg, h1, if_true, Rt2, div_eq_mul_inv, ← inv_pow]
    ring
end

/-- The planar mixed derivative simplifies `denom - Rt2 * denom²` to `c * denom²`,
which needs a nonzero denominator. -/
theorem cPlanarRphideriv_eq (amp q c : ℝ) {b : Option ℝ} (hb : ∀ x ∈ b, x ≠ 0) (R φ : ℝ)
    (h : arg q c b R 0 φ ≠ 0) :
    cPlanarRphideriv amp c (cArg b) R φ = amp * Rphideriv q c b R 0 φ := by
  unfold cPlanarRphideriv Rphideriv
  rcases b with _ | b
  · simp only [cArg, show ¬ ((2:ℝ) < 1) by norm_num, if_false]; ring
  · have h1 := m1_lt (hb b rfl)
    simp only [arg] at h
    simp only [cArg, h1, if_true, Rt2, ← sq]
    simp only [zero_div, ne_eq, OfNat.ofNat_ne_zero, not_false_eq_true, zero_pow, add_zero] at h ⊢
    field_simp
    ring
end Verif.LogarithmicHalo
