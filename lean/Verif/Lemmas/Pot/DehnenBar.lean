import Verif.Model.Pot.DehnenBar
import Verif.Util.PotLemmas
import Verif.Util.PlanarLemmas

set_option autoImplicit false

noncomputable section
namespace Verif.DehnenBar
open Real Filter Topology

/-! Value without the time and azimuth factors, and its derivatives, on both sides of `rb`. -/

section radial
variable {rb R z : ℝ}

/-- The value inside. -/
def vIn (rb R z : ℝ) : ℝ := ((√(R ^ 2 + z ^ 2) / rb) ^ 3 - 2) * R ^ 2 / (R ^ 2 + z ^ 2)
/-- The value outside. -/
def vOut (rb R z : ℝ) : ℝ := -(rb / √(R ^ 2 + z ^ 2)) ^ 3 / (1 + z ^ 2 / R ^ 2)
/-- Minus the radial derivative inside. -/
def fIn (rb R z : ℝ) : ℝ :=
  -((√(R ^ 2 + z ^ 2) / rb) ^ 3 * R * (3 * R ^ 2 + 2 * z ^ 2) - 4 * R * z ^ 2)
    / √(R ^ 2 + z ^ 2) ^ 4
/-- Minus the radial derivative outside. -/
def fOut (rb R z : ℝ) : ℝ :=
  -(rb / √(R ^ 2 + z ^ 2)) ^ 3 * R / √(R ^ 2 + z ^ 2) ^ 4 * (3 * R ^ 2 - 2 * z ^ 2)
/-- Minus the vertical derivative inside. -/
def gIn (rb R z : ℝ) : ℝ :=
  -((√(R ^ 2 + z ^ 2) / rb) ^ 3 + 4) * R ^ 2 * z / √(R ^ 2 + z ^ 2) ^ 4
/-- Minus the vertical derivative outside. -/
def gOut (rb R z : ℝ) : ℝ := -5 * (rb / √(R ^ 2 + z ^ 2)) ^ 3 * R ^ 2 * z / √(R ^ 2 + z ^ 2) ^ 4

variable (hb : rb ≠ 0) (hR : R ≠ 0)
include hb hR

theorem vIn_R : HasDerivAt (fun x => vIn rb x z) (-fIn rb R z) R := by
  have h : 0 < R ^ 2 + z ^ 2 := by positivity
  have hs := sqrt_pos.2 h
  have hq : √(R ^ 2 + z ^ 2) ^ 2 = R ^ 2 + z ^ 2 := sq_sqrt h.le
  dsimp only [vIn, fIn]
  apply HasDerivAt.congr_deriv
  · hasderiv
    all_goals exact h.ne'
  · generalize √(R ^ 2 + z ^ 2) = s at *
    have hz : z ^ 2 = s ^ 2 - R ^ 2 := by linarith
    rw [← hq]
    push_cast
    field_simp
    rw [hz]
    ring

theorem vIn_z : HasDerivAt (fun x => vIn rb R x) (-gIn rb R z) z := by
  have h : 0 < R ^ 2 + z ^ 2 := by positivity
  have hs := sqrt_pos.2 h
  have hq : √(R ^ 2 + z ^ 2) ^ 2 = R ^ 2 + z ^ 2 := sq_sqrt h.le
  dsimp only [vIn, gIn]
  apply HasDerivAt.congr_deriv
  · hasderiv
    all_goals exact h.ne'
  · generalize √(R ^ 2 + z ^ 2) = s at *
    rw [← hq]
    push_cast
    field_simp
    ring

theorem vOut_R : HasDerivAt (fun x => vOut rb x z) (-fOut rb R z) R := by
  have h : 0 < R ^ 2 + z ^ 2 := by positivity
  have hs := sqrt_pos.2 h
  have hq : √(R ^ 2 + z ^ 2) ^ 2 = R ^ 2 + z ^ 2 := sq_sqrt h.le
  have h1 : 1 + z ^ 2 / R ^ 2 ≠ 0 := by positivity
  dsimp only [vOut, fOut]
  apply HasDerivAt.congr_deriv
  · hasderiv
    all_goals first | exact h.ne' | exact hs.ne' | exact h1 | exact pow_ne_zero 2 hR
  · generalize √(R ^ 2 + z ^ 2) = s at *
    have e : 1 + z ^ 2 / R ^ 2 = s ^ 2 / R ^ 2 := by rw [hq]; field_simp
    have hz : z ^ 2 = s ^ 2 - R ^ 2 := by linarith
    rw [e]
    push_cast
    field_simp
    rw [hz]
    ring

theorem vOut_z : HasDerivAt (fun x => vOut rb R x) (-gOut rb R z) z := by
  have h : 0 < R ^ 2 + z ^ 2 := by positivity
  have hs := sqrt_pos.2 h
  have hq : √(R ^ 2 + z ^ 2) ^ 2 = R ^ 2 + z ^ 2 := sq_sqrt h.le
  have h1 : 1 + z ^ 2 / R ^ 2 ≠ 0 := by positivity
  dsimp only [vOut, gOut]
  apply HasDerivAt.congr_deriv
  · hasderiv
    all_goals first | exact h.ne' | exact hs.ne' | exact h1 | exact pow_ne_zero 2 hR
  · generalize √(R ^ 2 + z ^ 2) = s at *
    have e : 1 + z ^ 2 / R ^ 2 = s ^ 2 / R ^ 2 := by rw [hq]; field_simp
    rw [e]
    push_cast
    field_simp
    ring

/-- Second derivatives, without the azimuth factor. -/
theorem fIn_R : HasDerivAt (fun x => fIn rb x z)
    (-((√(R ^ 2 + z ^ 2) / rb) ^ 3 * ((9 * R ^ 2 + 2 * z ^ 2) / √(R ^ 2 + z ^ 2) ^ 4
          - R ^ 2 / √(R ^ 2 + z ^ 2) ^ 6 * (3 * R ^ 2 + 2 * z ^ 2))
        + 4 * z ^ 2 / √(R ^ 2 + z ^ 2) ^ 6 * (4 * R ^ 2 - √(R ^ 2 + z ^ 2) ^ 2))) R := by
  have h : 0 < R ^ 2 + z ^ 2 := by positivity
  have hs := sqrt_pos.2 h
  have hq : √(R ^ 2 + z ^ 2) ^ 2 = R ^ 2 + z ^ 2 := sq_sqrt h.le
  dsimp only [fIn]
  apply HasDerivAt.congr_deriv
  · hasderiv
    all_goals first | exact h.ne' | exact pow_ne_zero 4 hs.ne'
  · generalize √(R ^ 2 + z ^ 2) = s at *
    have hz : z ^ 2 = s ^ 2 - R ^ 2 := by linarith
    push_cast
    field_simp
    rw [hz]
    ring

theorem fIn_z : HasDerivAt (fun x => fIn rb R x)
    (-(R * z / √(R ^ 2 + z ^ 2) ^ 6 * ((√(R ^ 2 + z ^ 2) / rb) ^ 3
      * (2 * √(R ^ 2 + z ^ 2) ^ 2 - R ^ 2) + 8 * (√(R ^ 2 + z ^ 2) ^ 2 - 2 * R ^ 2)))) z := by
  have h : 0 < R ^ 2 + z ^ 2 := by positivity
  have hs := sqrt_pos.2 h
  have hq : √(R ^ 2 + z ^ 2) ^ 2 = R ^ 2 + z ^ 2 := sq_sqrt h.le
  dsimp only [fIn]
  apply HasDerivAt.congr_deriv
  · hasderiv
    all_goals first | exact h.ne' | exact pow_ne_zero 4 hs.ne'
  · generalize √(R ^ 2 + z ^ 2) = s at *
    have hz : R ^ 2 = s ^ 2 - z ^ 2 := by linarith
    push_cast
    field_simp
    rw [hz]
    ring

theorem gIn_R : HasDerivAt (fun x => gIn rb x z)
    (-(R * z / √(R ^ 2 + z ^ 2) ^ 6 * ((√(R ^ 2 + z ^ 2) / rb) ^ 3
      * (2 * √(R ^ 2 + z ^ 2) ^ 2 - R ^ 2) + 8 * (√(R ^ 2 + z ^ 2) ^ 2 - 2 * R ^ 2)))) R := by
  have h : 0 < R ^ 2 + z ^ 2 := by positivity
  have hs := sqrt_pos.2 h
  have hq : √(R ^ 2 + z ^ 2) ^ 2 = R ^ 2 + z ^ 2 := sq_sqrt h.le
  dsimp only [gIn]
  apply HasDerivAt.congr_deriv
  · hasderiv
    all_goals first | exact h.ne' | exact pow_ne_zero 4 hs.ne'
  · generalize √(R ^ 2 + z ^ 2) = s at *
    push_cast
    field_simp
    ring

theorem gIn_z : HasDerivAt (fun x => gIn rb R x)
    (-(R ^ 2 / √(R ^ 2 + z ^ 2) ^ 6 * ((√(R ^ 2 + z ^ 2) / rb) ^ 3
      * (√(R ^ 2 + z ^ 2) ^ 2 - z ^ 2) + 4 * (√(R ^ 2 + z ^ 2) ^ 2 - 4 * z ^ 2)))) z := by
  have h : 0 < R ^ 2 + z ^ 2 := by positivity
  have hs := sqrt_pos.2 h
  have hq : √(R ^ 2 + z ^ 2) ^ 2 = R ^ 2 + z ^ 2 := sq_sqrt h.le
  dsimp only [gIn]
  apply HasDerivAt.congr_deriv
  · hasderiv
    all_goals first | exact h.ne' | exact pow_ne_zero 4 hs.ne'
  · generalize √(R ^ 2 + z ^ 2) = s at *
    push_cast
    field_simp
    ring

theorem fOut_R : HasDerivAt (fun x => fOut rb x z)
    (-((rb / √(R ^ 2 + z ^ 2)) ^ 3 / √(R ^ 2 + z ^ 2) ^ 6
      * ((√(R ^ 2 + z ^ 2) ^ 2 - 7 * R ^ 2) * (3 * R ^ 2 - 2 * z ^ 2)
        + 6 * R ^ 2 * √(R ^ 2 + z ^ 2) ^ 2))) R := by
  have h : 0 < R ^ 2 + z ^ 2 := by positivity
  have hs := sqrt_pos.2 h
  have hq : √(R ^ 2 + z ^ 2) ^ 2 = R ^ 2 + z ^ 2 := sq_sqrt h.le
  dsimp only [fOut]
  apply HasDerivAt.congr_deriv
  · hasderiv
    all_goals first | exact h.ne' | exact hs.ne' | exact pow_ne_zero 4 hs.ne'
  · generalize √(R ^ 2 + z ^ 2) = s at *
    push_cast
    field_simp
    ring

theorem fOut_z : HasDerivAt (fun x => fOut rb R x)
    (-(5 * (rb / √(R ^ 2 + z ^ 2)) ^ 3 * R * z / √(R ^ 2 + z ^ 2) ^ 6
      * (2 * √(R ^ 2 + z ^ 2) ^ 2 - 7 * R ^ 2))) z := by
  have h : 0 < R ^ 2 + z ^ 2 := by positivity
  have hs := sqrt_pos.2 h
  have hq : √(R ^ 2 + z ^ 2) ^ 2 = R ^ 2 + z ^ 2 := sq_sqrt h.le
  dsimp only [fOut]
  apply HasDerivAt.congr_deriv
  · hasderiv
    all_goals first | exact h.ne' | exact hs.ne' | exact pow_ne_zero 4 hs.ne'
  · generalize √(R ^ 2 + z ^ 2) = s at *
    have hz : R ^ 2 = s ^ 2 - z ^ 2 := by linarith
    push_cast
    field_simp
    rw [hz]
    ring

theorem gOut_R : HasDerivAt (fun x => gOut rb x z)
    (-(5 * (rb / √(R ^ 2 + z ^ 2)) ^ 3 * R * z / √(R ^ 2 + z ^ 2) ^ 6
      * (2 * √(R ^ 2 + z ^ 2) ^ 2 - 7 * R ^ 2))) R := by
  have h : 0 < R ^ 2 + z ^ 2 := by positivity
  have hs := sqrt_pos.2 h
  have hq : √(R ^ 2 + z ^ 2) ^ 2 = R ^ 2 + z ^ 2 := sq_sqrt h.le
  dsimp only [gOut]
  apply HasDerivAt.congr_deriv
  · hasderiv
    all_goals first | exact h.ne' | exact hs.ne' | exact pow_ne_zero 4 hs.ne'
  · generalize √(R ^ 2 + z ^ 2) = s at *
    push_cast
    field_simp
    ring

theorem gOut_z : HasDerivAt (fun x => gOut rb R x)
    (-(5 * (rb / √(R ^ 2 + z ^ 2)) ^ 3 * R ^ 2 / √(R ^ 2 + z ^ 2) ^ 6
      * (√(R ^ 2 + z ^ 2) ^ 2 - 7 * z ^ 2))) z := by
  have h : 0 < R ^ 2 + z ^ 2 := by positivity
  have hs := sqrt_pos.2 h
  have hq : √(R ^ 2 + z ^ 2) ^ 2 = R ^ 2 + z ^ 2 := sq_sqrt h.le
  dsimp only [gOut]
  apply HasDerivAt.congr_deriv
  · hasderiv
    all_goals first | exact h.ne' | exact hs.ne' | exact pow_ne_zero 4 hs.ne'
  · generalize √(R ^ 2 + z ^ 2) = s at *
    push_cast
    field_simp
    ring

/-- The branches agree, with their first derivatives, on the sphere `r = rb`. -/
theorem match_rb (e : √(R ^ 2 + z ^ 2) = rb) :
    vIn rb R z = vOut rb R z ∧ fIn rb R z = fOut rb R z ∧ gIn rb R z = gOut rb R z := by
  have h : 0 < R ^ 2 + z ^ 2 := by positivity
  have hq : √(R ^ 2 + z ^ 2) ^ 2 = R ^ 2 + z ^ 2 := sq_sqrt h.le
  dsimp only [vIn, vOut, fIn, fOut, gIn, gOut]
  rw [e] at hq ⊢
  have e1 : 1 + z ^ 2 / R ^ 2 = rb ^ 2 / R ^ 2 := by rw [hq]; field_simp
  rw [e1, ← hq]
  refine ⟨?_, ?_, ?_⟩ <;> field_simp <;> ring

end radial

/-- The factor common to value and the radial and vertical forces. -/
def C (k : Par) (φ t : ℝ) : ℝ := k.af * smooth k t * cos (ang k φ t)
/-- The factor of the torque. -/
def S (k : Par) (φ t : ℝ) : ℝ := k.af * smooth k t * sin (ang k φ t)

theorem C_phi (k : Par) (φ t : ℝ) : HasDerivAt (fun x => C k x t) (-2 * S k φ t) φ := by
  dsimp only [C, S, ang]
  apply HasDerivAt.congr_deriv
  · hasderiv
  · ring
theorem S_phi (k : Par) (φ t : ℝ) : HasDerivAt (fun x => S k x t) (2 * C k φ t) φ := by
  dsimp only [C, S, ang]
  apply HasDerivAt.congr_deriv
  · hasderiv
  · ring

section eqs
variable (k : Par) {R : ℝ} (z φ t : ℝ)

open Classical in
theorem evaluate_eq (hR : R ≠ 0) : evaluate k R z φ t
    = C k φ t * (if √(R ^ 2 + z ^ 2) ≤ k.rb then vIn k.rb R z else vOut k.rb R z) := by
  have h : 0 < R ^ 2 + z ^ 2 := by positivity
  have hs := (sqrt_pos.2 h).ne'
  unfold evaluate C vIn vOut
  dsimp only
  rw [if_neg hs]
  split_ifs <;> ring

open Classical in
theorem Rforce_eq : Rforce k R z φ t
    = C k φ t * (if √(R ^ 2 + z ^ 2) ≤ k.rb then fIn k.rb R z else fOut k.rb R z) := by
  unfold Rforce C fIn fOut
  dsimp only
  split_ifs <;> ring

open Classical in
theorem zforce_eq : zforce k R z φ t
    = C k φ t * (if √(R ^ 2 + z ^ 2) ≤ k.rb then gIn k.rb R z else gOut k.rb R z) := by
  unfold zforce C gIn gOut
  dsimp only
  split_ifs <;> ring

open Classical in
theorem phitorque_eq (hR : R ≠ 0) : phitorque k R z φ t
    = 2 * S k φ t * (if √(R ^ 2 + z ^ 2) ≤ k.rb then vIn k.rb R z else vOut k.rb R z) := by
  have h : 0 < R ^ 2 + z ^ 2 := by positivity
  have h1 : 1 + z ^ 2 / R ^ 2 ≠ 0 := by positivity
  unfold phitorque S vIn vOut
  dsimp only
  split_ifs
  · ring
  · field_simp
    
open Classical in
theorem phi2deriv_eq (hR : R ≠ 0) : phi2deriv k R z φ t
    = -4 * C k φ t * (if √(R ^ 2 + z ^ 2) ≤ k.rb then vIn k.rb R z else vOut k.rb R z) := by
  have h : 0 < R ^ 2 + z ^ 2 := by positivity
  have hq : √(R ^ 2 + z ^ 2) ^ 2 = R ^ 2 + z ^ 2 := sq_sqrt h.le
  have h1 : 1 + z ^ 2 / R ^ 2 ≠ 0 := by positivity
  unfold phi2deriv C vIn vOut
  dsimp only
  rw [hq]
  split_ifs
  · ring
  · field_simp

open Classical in
theorem Rphideriv_eq : Rphideriv k R z φ t
    = 2 * S k φ t * (if √(R ^ 2 + z ^ 2) ≤ k.rb then fIn k.rb R z else fOut k.rb R z) := by
  unfold Rphideriv S fIn fOut
  dsimp only
  split_ifs <;> ring

open Classical in
theorem phizderiv_eq : phizderiv k R z φ t
    = 2 * S k φ t * (if √(R ^ 2 + z ^ 2) ≤ k.rb then gIn k.rb R z else gOut k.rb R z) := by
  unfold phizderiv S gIn gOut
  dsimp only
  split_ifs <;> ring

end eqs

/-- Derivative of a piecewise radial factor. -/
theorem V_R (k : Par) {R z : ℝ} (hb : k.rb ≠ 0) (hR : R ≠ 0) : HasDerivAt
    (fun x => if √(x ^ 2 + z ^ 2) ≤ k.rb then vIn k.rb x z else vOut k.rb x z)
    (-(if √(R ^ 2 + z ^ 2) ≤ k.rb then fIn k.rb R z else fOut k.rb R z)) R := by
  have hc : Continuous fun x : ℝ => √(x ^ 2 + z ^ 2) := by fun_prop
  rcases lt_trichotomy (√(R ^ 2 + z ^ 2)) k.rb with h | h | h
  · rw [if_pos h.le]
    exact hd_ite_pos (vIn_R hb hR) ((hc.continuousAt.eventually (gt_mem_nhds h)).mono fun _ => le_of_lt)
  · obtain ⟨m1, m2, -⟩ := match_rb hb hR h
    rw [if_pos h.le]
    exact hd_ite (vIn_R hb hR) (by rw [m2]; exact vOut_R hb hR) m1
  · rw [if_neg (not_le.2 h)]
    exact hd_ite_neg (vOut_R hb hR) ((hc.continuousAt.eventually (lt_mem_nhds h)).mono fun _ => not_le.2)

theorem V_z (k : Par) {R z : ℝ} (hb : k.rb ≠ 0) (hR : R ≠ 0) : HasDerivAt
    (fun x => if √(R ^ 2 + x ^ 2) ≤ k.rb then vIn k.rb R x else vOut k.rb R x)
    (-(if √(R ^ 2 + z ^ 2) ≤ k.rb then gIn k.rb R z else gOut k.rb R z)) z := by
  have hc : Continuous fun x : ℝ => √(R ^ 2 + x ^ 2) := by fun_prop
  rcases lt_trichotomy (√(R ^ 2 + z ^ 2)) k.rb with h | h | h
  · rw [if_pos h.le]
    exact hd_ite_pos (vIn_z hb hR) ((hc.continuousAt.eventually (gt_mem_nhds h)).mono fun _ => le_of_lt)
  · obtain ⟨m1, -, m2⟩ := match_rb hb hR h
    rw [if_pos h.le]
    exact hd_ite (vIn_z hb hR) (by rw [m2]; exact vOut_z hb hR) m1
  · rw [if_neg (not_le.2 h)]
    exact hd_ite_neg (vOut_z hb hR) ((hc.continuousAt.eventually (lt_mem_nhds h)).mono fun _ => not_le.2)

private theorem ev_ne {R : ℝ} (hR : R ≠ 0) : ∀ᶠ x in 𝓝 R, x ≠ 0 := isOpen_ne.mem_nhds hR

theorem grad (k : Par) (hb : k.rb ≠ 0) {R : ℝ} (z φ t : ℝ) (hR : R ≠ 0) : GradAt (pot k) R z φ t := by
  classical
  constructor
  · refine HasDerivAt.congr_of_eventuallyEq ?_ ((ev_ne hR).mono fun x hx => evaluate_eq k z φ t hx)
    dsimp only [pot]
    rw [Rforce_eq, ← mul_neg]
    have := (V_R k (z := z) hb hR).const_mul (C k φ t)
    convert this using 3 <;> congr
  · refine HasDerivAt.congr_of_eventuallyEq ?_ (Eventually.of_forall fun x => evaluate_eq k x φ t hR)
    dsimp only [pot]
    rw [zforce_eq, ← mul_neg]
    have := (V_z k (z := z) hb hR).const_mul (C k φ t)
    convert this using 3 <;> congr
  · refine HasDerivAt.congr_of_eventuallyEq ?_ (Eventually.of_forall fun x => evaluate_eq k z x t hR)
    dsimp only [pot]
    rw [phitorque_eq k z φ t hR]
    refine ((C_phi k φ t).mul_const _).congr_deriv ?_
    ring

theorem hess (k : Par) (hb : k.rb ≠ 0) {R : ℝ} (z φ t : ℝ) (hR : R ≠ 0)
    (hr : √(R ^ 2 + z ^ 2) ≠ k.rb) : HessAt (pot k) R z φ t := by
  classical
  refine HessAt.of_force ⟨(ev_ne hR).mono fun x hx => grad k hb _ _ _ hx,
    Eventually.of_forall fun x => grad k hb _ _ _ hR,
    Eventually.of_forall fun x => grad k hb _ _ _ hR⟩ ?_
  have hcR : Continuous fun x : ℝ => √(x ^ 2 + z ^ 2) := by fun_prop
  have hcz : Continuous fun x : ℝ => √(R ^ 2 + x ^ 2) := by fun_prop
  have hRp : HasDerivAt (fun x => Rforce k R z x t) (-Rphideriv k R z φ t) φ := by
    rw [Rphideriv_eq]; simp only [Rforce_eq]
    exact ((C_phi k φ t).mul_const _).congr_deriv (by ring)
  have hzp : HasDerivAt (fun x => zforce k R z x t) (-phizderiv k R z φ t) φ := by
    rw [phizderiv_eq]; simp only [zforce_eq]
    exact ((C_phi k φ t).mul_const _).congr_deriv (by ring)
  have hpp : HasDerivAt (fun x => phitorque k R z x t) (-phi2deriv k R z φ t) φ := by
    rw [phi2deriv_eq k z φ t hR]; simp only [phitorque_eq k z _ t hR]
    exact (((S_phi k φ t).const_mul 2).mul_const _).congr_deriv (by ring)
  have hpR : HasDerivAt (fun x => phitorque k x z φ t) (-Rphideriv k R z φ t) R := by
    refine HasDerivAt.congr_of_eventuallyEq ?_ ((ev_ne hR).mono fun x hx => phitorque_eq k z φ t hx)
    rw [Rphideriv_eq, ← mul_neg]
    have := (V_R k (z := z) hb hR).const_mul (2 * S k φ t)
    convert this using 3 <;> congr
  have hpz : HasDerivAt (fun x => phitorque k R x φ t) (-phizderiv k R z φ t) z := by
    refine HasDerivAt.congr_of_eventuallyEq ?_ (Eventually.of_forall fun x => phitorque_eq k x φ t hR)
    rw [phizderiv_eq, ← mul_neg]
    have := (V_z k (z := z) hb hR).const_mul (2 * S k φ t)
    convert this using 3 <;> congr
  rcases lt_or_gt_of_ne hr with h | h
  · have eR : ∀ᶠ x in 𝓝 R, √(x ^ 2 + z ^ 2) ≤ k.rb :=
      (hcR.continuousAt.eventually (gt_mem_nhds h)).mono fun _ => le_of_lt
    have ez : ∀ᶠ x in 𝓝 z, √(R ^ 2 + x ^ 2) ≤ k.rb :=
      (hcz.continuousAt.eventually (gt_mem_nhds h)).mono fun _ => le_of_lt
    refine ⟨?_, ?_, hRp, ?_, ?_, hzp, hpR, hpz, hpp⟩
    · refine HasDerivAt.congr_of_eventuallyEq (f₁ := fun x => Rforce k x z φ t)
        (((fIn_R (z := z) hb hR).const_mul (C k φ t)).congr_deriv ?_)
        (eR.mono fun x hx => by beta_reduce; rw [Rforce_eq, if_pos hx])
      dsimp only [pot, R2deriv, C]; rw [if_pos h.le]; ring
    · refine HasDerivAt.congr_of_eventuallyEq (f₁ := fun x => Rforce k R x φ t)
        (((fIn_z (z := z) hb hR).const_mul (C k φ t)).congr_deriv ?_)
        (ez.mono fun x hx => by beta_reduce; rw [Rforce_eq, if_pos hx])
      dsimp only [pot, Rzderiv, C]; rw [if_pos h.le]; ring
    · refine HasDerivAt.congr_of_eventuallyEq (f₁ := fun x => zforce k x z φ t)
        (((gIn_R (z := z) hb hR).const_mul (C k φ t)).congr_deriv ?_)
        (eR.mono fun x hx => by beta_reduce; rw [zforce_eq, if_pos hx])
      dsimp only [pot, Rzderiv, C]; rw [if_pos h.le]; ring
    · refine HasDerivAt.congr_of_eventuallyEq (f₁ := fun x => zforce k R x φ t)
        (((gIn_z (z := z) hb hR).const_mul (C k φ t)).congr_deriv ?_)
        (ez.mono fun x hx => by beta_reduce; rw [zforce_eq, if_pos hx])
      dsimp only [pot, z2deriv, C]; rw [if_pos h.le]; ring
  · have eR : ∀ᶠ x in 𝓝 R, ¬ √(x ^ 2 + z ^ 2) ≤ k.rb :=
      (hcR.continuousAt.eventually (lt_mem_nhds h)).mono fun _ => not_le.2
    have ez : ∀ᶠ x in 𝓝 z, ¬ √(R ^ 2 + x ^ 2) ≤ k.rb :=
      (hcz.continuousAt.eventually (lt_mem_nhds h)).mono fun _ => not_le.2
    have h' := not_le.2 h
    refine ⟨?_, ?_, hRp, ?_, ?_, hzp, hpR, hpz, hpp⟩
    · refine HasDerivAt.congr_of_eventuallyEq (f₁ := fun x => Rforce k x z φ t)
        (((fOut_R (z := z) hb hR).const_mul (C k φ t)).congr_deriv ?_)
        (eR.mono fun x hx => by beta_reduce; rw [Rforce_eq, if_neg hx])
      dsimp only [pot, R2deriv, C]; rw [if_neg h']; ring
    · refine HasDerivAt.congr_of_eventuallyEq (f₁ := fun x => Rforce k R x φ t)
        (((fOut_z (z := z) hb hR).const_mul (C k φ t)).congr_deriv ?_)
        (ez.mono fun x hx => by beta_reduce; rw [Rforce_eq, if_neg hx])
      dsimp only [pot, Rzderiv, C]; rw [if_neg h']; ring
    · refine HasDerivAt.congr_of_eventuallyEq (f₁ := fun x => zforce k x z φ t)
        (((gOut_R (z := z) hb hR).const_mul (C k φ t)).congr_deriv ?_)
        (eR.mono fun x hx => by beta_reduce; rw [zforce_eq, if_neg hx])
      dsimp only [pot, Rzderiv, C]; rw [if_neg h']; ring
    · refine HasDerivAt.congr_of_eventuallyEq (f₁ := fun x => zforce k R x φ t)
        (((gOut_z (z := z) hb hR).const_mul (C k φ t)).congr_deriv ?_)
        (ez.mono fun x hx => by beta_reduce; rw [zforce_eq, if_neg hx])
      dsimp only [pot, z2deriv, C]; rw [if_neg h']; ring

/-- Poisson's equation holds with the density the base class computes. -/
theorem poisson (k : Par) (hb : k.rb ≠ 0) {R : ℝ} (z φ t : ℝ) (hR : R ≠ 0)
    (hr : √(R ^ 2 + z ^ 2) ≠ k.rb) : PoissonAt (pot k) R z φ t := by
  rw [poissonAt_iff (grad k hb z φ t hR) (hess k hb z φ t hR hr)]
  unfold PoissonAlg
  dsimp only [pot]
  field_simp
  ring

end Verif.DehnenBar

/-! ### The C functions -/

namespace Verif.DehnenBar
open Real

theorem sqrt_le_iff_c {R z rb : ℝ} (hb : 0 < rb) :
    R * R + z * z ≤ rb * rb ↔ √(R ^ 2 + z ^ 2) ≤ rb := by
  rw [Real.sqrt_le_left hb.le]
  constructor <;> intro h <;> nlinarith

theorem c3_eq (amp : ℝ) (k : Par) (R z φ t : ℝ) :
    cRforce (cArgs amp k) R z φ t = amp * Rforce k R z φ t ∧
    czforce (cArgs amp k) R z φ t = amp * zforce k R z φ t ∧
    cphitorque (cArgs amp k) R z φ t = amp * phitorque k R z φ t := by
  refine ⟨?_, ?_, ?_⟩
  all_goals
    dsimp only [cRforce, Rforce, czforce, zforce, cphitorque, phitorque, cArgs, smooth, ang]
    rw [← pow_two, ← pow_two]
    split_ifs <;> ring

theorem cHess_eq (amp : ℝ) (k : Par) (hb : 0 < k.rb) {R z : ℝ} (φ t : ℝ) (h : 0 < R ^ 2 + z ^ 2) :
    cR2deriv (cArgs amp k) R z φ t = amp * R2deriv k R z φ t ∧
    cz2deriv (cArgs amp k) R z φ t = amp * z2deriv k R z φ t ∧
    cRzderiv (cArgs amp k) R z φ t = amp * Rzderiv k R z φ t ∧
    cphi2deriv (cArgs amp k) R z φ t = amp * phi2deriv k R z φ t ∧
    cRphideriv (cArgs amp k) R z φ t = amp * Rphideriv k R z φ t ∧
    czphideriv (cArgs amp k) R z φ t = amp * phizderiv k R z φ t := by
  have hs := sqrt_pos.2 h
  have hq : √(R ^ 2 + z ^ 2) ^ 2 = R ^ 2 + z ^ 2 := sq_sqrt h.le
  have e2 : R * R + z * z = R ^ 2 + z ^ 2 := by ring
  refine ⟨?_, ?_, ?_, ?_, ?_, ?_⟩
  all_goals
    dsimp only [cR2deriv, cz2deriv, cRzderiv, cphi2deriv, cRphideriv, czphideriv,
      R2deriv, z2deriv, Rzderiv, phi2deriv, Rphideriv, phizderiv, cArgs, smooth, ang]
    simp only [sqrt_le_iff_c hb]
    split_ifs
    all_goals
      simp only [e2, rpow_three_half h, rpow_neg_three_half h]
      generalize √(R ^ 2 + z ^ 2) = s at *
      have e4 : s ^ 4 = (R ^ 2 + z ^ 2) ^ 2 := by rw [← hq]; ring
      have e6 : s ^ 6 = (R ^ 2 + z ^ 2) ^ 3 := by rw [← hq]; ring
      rw [← hq]
      field_simp
      try ring

theorem cPlanar_eq (amp : ℝ) (k : Par) (hb : k.rb ≠ 0) {R : ℝ} (φ t : ℝ) (hR : 0 < R) :
    cPlanarRforce (cArgs amp k) R φ t = amp * Rforce k R 0 φ t ∧
    cPlanarphitorque (cArgs amp k) R φ t = amp * phitorque k R 0 φ t ∧
    cPlanarR2deriv (cArgs amp k) R φ t = amp * R2deriv k R 0 φ t ∧
    cPlanarphi2deriv (cArgs amp k) R φ t = amp * phi2deriv k R 0 φ t ∧
    cPlanarRphideriv (cArgs amp k) R φ t = amp * Rphideriv k R 0 φ t := by
  have e : √(R ^ 2 + 0 ^ 2) = R := by
    rw [zero_pow two_ne_zero, add_zero, sqrt_sq hR.le]
  refine ⟨?_, ?_, ?_, ?_, ?_⟩
  all_goals
    dsimp only [cPlanarRforce, cPlanarphitorque, cPlanarR2deriv, cPlanarphi2deriv, cPlanarRphideriv,
      Rforce, phitorque, R2deriv, phi2deriv, Rphideriv, cArgs, smooth, ang]
    simp only [e]
    split_ifs <;> field_simp <;> ring

/-- The array code path agrees with the scalar one off the axis. -/
theorem evaluateArr_eq (k : Par) {R : ℝ} (z φ t : ℝ) (hR : R ≠ 0) :
    evaluateArr k R z φ t = evaluate k R z φ t := by
  have h : 0 < R ^ 2 + z ^ 2 := by positivity
  have hs := (sqrt_pos.2 h).ne'
  dsimp only [evaluateArr, evaluate]
  rw [if_neg hs, if_pos hR]
  split_ifs <;> ring

end Verif.DehnenBar
