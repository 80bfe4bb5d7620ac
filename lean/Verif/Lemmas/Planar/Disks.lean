import Verif.Model.Planar.Disks
import Verif.Util.PlanarLemmas
import Verif.Util.PotLemmas

set_option autoImplicit false

noncomputable section
namespace Verif
open Real Filter Topology

namespace HenonHeiles

theorem grad (R φ t : ℝ) : PGradAt pot R φ t := by
  constructor
  all_goals
    dsimp only [pot, evaluate, Rforce, phitorque]
    apply HasDerivAt.congr_deriv
    · hasderiv
    · try ring

theorem hess (R φ t : ℝ) : PHessAt pot R φ t := by
  refine PHessAt.of_force (Eventually.of_forall fun _ => grad _ _ _)
    (Eventually.of_forall fun _ => grad _ _ _) ?_
  constructor
  all_goals
    dsimp only [pot, R2deriv, phi2deriv, Rphideriv, Rforce, phitorque]
    apply HasDerivAt.congr_deriv
    · hasderiv
    · push_cast; try ring

end HenonHeiles

namespace Elliptical

theorem grad (k : Par) {R : ℝ} (φ t : ℝ) (hR : 0 < R) : PGradAt (pot k) R φ t := by
  refine PGradAt.scale _ ?_
  constructor
  all_goals
    dsimp only [evaluate, Rforce, phitorque]
    apply HasDerivAt.congr_deriv
    · hasderiv
      try exact hR
    · try rw [rpow_sub_one hR.ne']
      ring

theorem hess (k : Par) {R : ℝ} (φ t : ℝ) (hR : 0 < R) : PHessAt (pot k) R φ t := by
  refine PHessAt.of_force ((lt_mem_nhds hR).mono fun _ h => grad k _ _ h)
    (Eventually.of_forall fun _ => grad k _ _ hR) ?_
  have e : R ^ (k.p - 2) = R ^ (k.p - 1) / R := by
    rw [show k.p - 2 = k.p - 1 - 1 by ring, rpow_sub_one hR.ne']
  constructor
  all_goals
    dsimp only [pot, PPot.scale, Rforce, phitorque, R2deriv, phi2deriv, Rphideriv]
    apply HasDerivAt.congr_deriv
    · hasderiv
      try exact hR
    · try rw [e]
      try rw [rpow_sub_one hR.ne']
      ring

end Elliptical

namespace Spiral

theorem grad (k : Par) (A : ℝ → ℝ) {R : ℝ} (φ t : ℝ) (hα : k.alpha ≠ 0) (hR : R ≠ 0) :
    PGradAt (pot k A) R φ t := by
  refine PGradAt.scale _ ?_
  constructor
  all_goals
    dsimp only [evaluate, Rforce, phitorque, chi]
    apply HasDerivAt.congr_deriv
    · hasderiv
      try exact hR
    · field_simp
      try ring

theorem hess (k : Par) (A : ℝ → ℝ) {R : ℝ} (φ t : ℝ) (hα : k.alpha ≠ 0) (hR : R ≠ 0) :
    PHessAt (pot k A) R φ t := by
  refine PHessAt.of_force ((isOpen_ne.mem_nhds hR : _ ∈ 𝓝 R) |> fun h =>
      Filter.mem_of_superset h fun x hx => grad k A _ _ hα hx)
    (Eventually.of_forall fun _ => grad k A _ _ hα hR) ?_
  constructor
  all_goals
    dsimp only [pot, PPot.scale, Rforce, phitorque, R2deriv, phi2deriv, Rphideriv, chi]
    apply HasDerivAt.congr_deriv
    · hasderiv
      all_goals exact hR
    · field_simp
      try ring

end Spiral

namespace Cosmphi

/-- The relations between the attributes of an instance that the constructor establishes. -/
structure WF (k : Par) : Prop where
  m0 : k.m ≠ 0
  rbp : 0 < k.rb → k.rbp = k.rb ^ k.p
  rb2p : 0 < k.rb → k.rb2p = (k.rb ^ k.p) ^ 2

theorem init_wf (amp phib p phio : ℝ) {m : ℤ} (hm : m ≠ 0) (r1 : ℝ) (rb : Option ℝ)
    (cpsp : Option (ℝ × ℝ)) : WF (init amp phib p phio m r1 rb cpsp) := by
  refine ⟨?_, ?_, ?_⟩
  · rcases cpsp with _ | ⟨c, s⟩ <;> rcases rb with _ | rb <;> simpa [init] using hm
  all_goals
    rcases cpsp with _ | ⟨c, s⟩ <;> rcases rb with _ | rb <;> simp [init]

/-- Away from the break radius the two force methods are the derivatives of the value, for every
setting of the attributes that a constructor can produce. -/
theorem grad (k : Par) (w : WF k) {R : ℝ} (φ t : ℝ) (hR : 0 < R) (hb : R ≠ k.rb) :
    PGradAt (pot k) R φ t := by
  have hm : (k.m : ℝ) ≠ 0 := Int.cast_ne_zero.2 w.m0
  refine PGradAt.scale _ ?_
  have hp : R ^ k.p ≠ 0 := (rpow_pos_of_pos hR _).ne'
  rcases lt_or_gt_of_ne hb with h | h
  · have hrb : 0 < k.rb := hR.trans h
    constructor
    · dsimp only [evaluate, Rforce]
      rw [if_pos h]
      refine hd_ite_pos ?_ (gt_mem_nhds h)
      apply HasDerivAt.congr_deriv
      · hasderiv
        all_goals first | exact hR | exact hp
      · rw [w.rbp hrb, w.rb2p hrb, rpow_add_one hR.ne']
        field_simp
        try ring
    · dsimp only [evaluate, phitorque]
      simp only [if_pos h]
      apply HasDerivAt.congr_deriv
      · hasderiv
      · field_simp
        try ring
  · have h' : ¬ R < k.rb := not_lt.2 h.le
    constructor
    · dsimp only [evaluate, Rforce]
      rw [if_neg h']
      refine hd_ite_neg ?_ ((lt_mem_nhds h).mono fun x hx => not_lt.2 (le_of_lt hx))
      apply HasDerivAt.congr_deriv
      · hasderiv
        all_goals exact hR
      · rw [rpow_sub_one hR.ne']
        field_simp
        try ring
    · dsimp only [evaluate, phitorque]
      simp only [if_neg h']
      apply HasDerivAt.congr_deriv
      · hasderiv
      · field_simp
        try ring

/-- With `r1 = 1` the potential is differentiable at the break radius too. -/
theorem grad_break (k : Par) (w : WF k) (h1 : k.r1p = 1) {R : ℝ} (φ t : ℝ) (hR : 0 < R) :
    PGradAt (pot k) R φ t := by
  by_cases hb : R = k.rb
  swap
  · exact grad k w φ t hR hb
  have hm : (k.m : ℝ) ≠ 0 := Int.cast_ne_zero.2 w.m0
  refine PGradAt.scale _ ?_
  have hp : R ^ k.p ≠ 0 := (rpow_pos_of_pos hR _).ne'
  have hrb : 0 < k.rb := hb ▸ hR
  have e1 : k.rbp = R ^ k.p := by rw [w.rbp hrb, hb]
  have e2 : k.rb2p = (R ^ k.p) ^ 2 := by rw [w.rb2p hrb, hb]
  have h' : ¬ R < k.rb := not_lt.2 hb.ge
  constructor
  · dsimp only [evaluate, Rforce]
    rw [if_neg h']
    refine hd_ite ?_ ?_ ?_
    · apply HasDerivAt.congr_deriv
      · hasderiv
        all_goals first | exact hR | exact hp
      · rw [e1, rpow_sub_one hR.ne']
        field_simp
        try ring
    · apply HasDerivAt.congr_deriv
      · hasderiv
        all_goals exact hR
      · rw [rpow_sub_one hR.ne']
        field_simp
        try ring
    · rw [e1, h1]
      field_simp
      ring
  · dsimp only [evaluate, phitorque]
    simp only [if_neg h']
    apply HasDerivAt.congr_deriv
    · hasderiv
    · field_simp
      try ring

/-- Second derivatives: outside the break radius always; inside only for `m = 1`. -/
theorem hess (k : Par) (w : WF k) {R : ℝ} (φ t : ℝ) (hR : 0 < R)
    (hb : k.rb < R ∨ R < k.rb ∧ k.m = 1) : PHessAt (pot k) R φ t := by
  have hm : (k.m : ℝ) ≠ 0 := Int.cast_ne_zero.2 w.m0
  have hne : R ≠ k.rb := by rcases hb with h | h; exacts [h.ne', h.1.ne]
  have o : ∀ᶠ x in 𝓝 R, 0 < x ∧ x ≠ k.rb := (lt_mem_nhds hR).and (isOpen_ne.mem_nhds hne)
  refine PHessAt.of_force (o.mono fun _ h => grad k w _ _ h.1 h.2)
    (Eventually.of_forall fun _ => grad k w _ _ hR hne) ?_
  have hp : R ^ k.p ≠ 0 := (rpow_pos_of_pos hR _).ne'
  have em1 : R ^ (k.p - 1) = R ^ k.p / R := rpow_sub_one hR.ne' _
  have em2 : R ^ (k.p - 2) = R ^ k.p / R / R := by
    rw [show k.p - 2 = k.p - 1 - 1 by ring, rpow_sub_one hR.ne', em1]
  have ep1 : R ^ (k.p + 1) = R ^ k.p * R := rpow_add_one hR.ne' _
  have ep2 : R ^ (k.p + 2) = R ^ k.p * R * R := by
    rw [show k.p + 2 = k.p + 1 + 1 by ring, rpow_add_one hR.ne', ep1]
  have hp1 : R ^ (k.p + 1) ≠ 0 := (rpow_pos_of_pos hR _).ne'
  rcases hb with h | ⟨h, h1⟩
  · have h' : ¬ R < k.rb := not_lt.2 h.le
    have ev : ∀ᶠ x in 𝓝 R, ¬ x < k.rb := (lt_mem_nhds h).mono fun x hx => not_lt.2 (le_of_lt hx)
    constructor
    all_goals
      dsimp only [pot, PPot.scale, Rforce, phitorque, R2deriv, phi2deriv, Rphideriv]
      simp only [if_neg h']
    · rw [← mul_neg]
      refine HasDerivAt.const_mul _ (hd_ite_neg ?_ ev)
      apply HasDerivAt.congr_deriv
      · hasderiv
        all_goals exact hR
      · rw [em1, em2]; field_simp; try ring
    · apply HasDerivAt.congr_deriv
      · hasderiv
      · field_simp; try ring
    · rw [← mul_neg]
      refine HasDerivAt.const_mul _ (hd_ite_neg ?_ ev)
      apply HasDerivAt.congr_deriv
      · hasderiv
        all_goals exact hR
      · rw [em1]; field_simp; try ring
    · apply HasDerivAt.congr_deriv
      · hasderiv
      · field_simp; try ring
  · have ev : ∀ᶠ x in 𝓝 R, x < k.rb := gt_mem_nhds h
    have hrb : 0 < k.rb := hR.trans h
    have e1 : (k.m : ℝ) = 1 := by exact_mod_cast h1
    constructor
    all_goals
      dsimp only [pot, PPot.scale, Rforce, phitorque, R2deriv, phi2deriv, Rphideriv]
      simp only [if_pos h, e1]
    · rw [← mul_neg]
      refine HasDerivAt.const_mul _ (hd_ite_pos ?_ ev)
      apply HasDerivAt.congr_deriv
      · hasderiv
        all_goals first | exact hR | exact hp1
      · rw [ep1, ep2]; field_simp; try ring
    · apply HasDerivAt.congr_deriv
      · hasderiv
      · field_simp; try ring
    · rw [← mul_neg]
      refine HasDerivAt.const_mul _ (hd_ite_pos ?_ ev)
      apply HasDerivAt.congr_deriv
      · hasderiv
        all_goals first | exact hR | exact hp
      · rw [ep1, w.rbp hrb, w.rb2p hrb]; field_simp; try ring
    · apply HasDerivAt.congr_deriv
      · hasderiv
      · field_simp; try ring

/-- Inside the break radius: the pure second derivatives are exact, and the mixed derivative is `m`
times what the method returns. -/
theorem hess_inside (k : Par) (w : WF k) {R : ℝ} (φ t : ℝ) (hR : 0 < R) (h : R < k.rb) :
    HasDerivAt (fun x => deriv (fun y => (pot k).val y φ t) x) ((pot k).R2deriv R φ t) R ∧
    HasDerivAt (fun x => deriv (fun y => (pot k).val R y t) x) ((pot k).phi2deriv R φ t) φ ∧
    HasDerivAt (fun x => deriv (fun y => (pot k).val y x t) R) (k.m * (pot k).Rphideriv R φ t) φ := by
  have hm : (k.m : ℝ) ≠ 0 := Int.cast_ne_zero.2 w.m0
  have ev : ∀ᶠ x in 𝓝 R, x < k.rb := gt_mem_nhds h
  have ep1 : R ^ (k.p + 1) = R ^ k.p * R := rpow_add_one hR.ne' _
  have ep2 : R ^ (k.p + 2) = R ^ k.p * R * R := by
    rw [show k.p + 2 = k.p + 1 + 1 by ring, rpow_add_one hR.ne', ep1]
  have hp : R ^ k.p ≠ 0 := (rpow_pos_of_pos hR _).ne'
  have hp1 : R ^ (k.p + 1) ≠ 0 := (rpow_pos_of_pos hR _).ne'
  have o : ∀ᶠ x in 𝓝 R, 0 < x ∧ x < k.rb := (lt_mem_nhds hR).and ev
  refine ⟨?_, ?_, ?_⟩
  · refine HasDerivAt.congr_of_eventuallyEq (f₁ := _) ?_
      (o.mono fun x hx => (grad k w φ t hx.1 hx.2.ne).dR.deriv)
    dsimp only [pot, PPot.scale, Rforce, R2deriv]
    simp only [if_pos h, ← mul_neg]
    refine HasDerivAt.const_mul _ ?_
    refine HasDerivAt.congr_of_eventuallyEq ?_ (ev.mono fun x hx => by
      beta_reduce; rw [if_pos hx])
    apply HasDerivAt.congr_deriv
    · hasderiv
      all_goals first | exact hR | exact hp1
    · rw [ep1, ep2]; field_simp; try ring
  · refine HasDerivAt.congr_of_eventuallyEq (f₁ := _) ?_
      (Eventually.of_forall fun x => (grad k w x t hR h.ne).dphi.deriv)
    dsimp only [pot, PPot.scale, phitorque, phi2deriv]
    simp only [if_pos h]
    apply HasDerivAt.congr_deriv
    · hasderiv
    · field_simp; try ring
  · refine HasDerivAt.congr_of_eventuallyEq (f₁ := _) ?_
      (Eventually.of_forall fun x => (grad k w x t hR h.ne).dR.deriv)
    dsimp only [pot, PPot.scale, Rforce, Rphideriv]
    simp only [if_pos h]
    apply HasDerivAt.congr_deriv
    · hasderiv
    · field_simp; try ring

end Cosmphi
end Verif
