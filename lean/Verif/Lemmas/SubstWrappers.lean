import Verif.Model.Pot.SubstWrappers
import Verif.Lemmas.Pot.Ops

set_option autoImplicit false

/-! # Wrappers that substitute coordinates: derivatives -/

noncomputable section
namespace Verif
open Real Filter Topology

theorem Pot.poissonAlg_poissonDens (P : Pot) (R z φ t : ℝ) : PoissonAlg P.poissonDens R z φ t := by
  simp only [PoissonAlg, Pot.poissonDens]
  field_simp
  ring

namespace KuzminLike

/-- Regular points: off the disk for `b = 0`, and `xi > 0`. -/
def Reg (a b R z : ℝ) : Prop := 0 < z ^ 2 + b ^ 2 ∧ 0 < R ^ 2 + (a + √(z ^ 2 + b ^ 2)) ^ 2

theorem Reg.openR {a b R z : ℝ} (h : Reg a b R z) : ∀ᶠ x in 𝓝 R, Reg a b x z := by
  refine (ev_pos (f := fun x => x ^ 2 + (a + √(z ^ 2 + b ^ 2)) ^ 2) (by fun_prop) h.2).mono fun x hx => ⟨h.1, hx⟩

theorem Reg.openz {a b R z : ℝ} (h : Reg a b R z) : ∀ᶠ x in 𝓝 z, Reg a b R x := by
  filter_upwards [ev_pos (f := fun x => x ^ 2 + b ^ 2) (by fun_prop) h.1,
    ev_pos (f := fun x => R ^ 2 + (a + √(x ^ 2 + b ^ 2)) ^ 2) (by fun_prop) h.2] with x h1 h2 using ⟨h1, h2⟩

theorem Reg.xi_pos {a b R z : ℝ} (h : Reg a b R z) : 0 < xi a b R z := sqrt_pos.2 h.2

section
variable {a b R z : ℝ} (h : Reg a b R z)
include h

theorem roots : ∃ w x : ℝ, 0 < w ∧ 0 < x ∧ √(z ^ 2 + b ^ 2) = w ∧ √(b ^ 2 + z ^ 2) = w ∧
    √(R ^ 2 + (a + w) ^ 2) = x ∧ √((a + w) ^ 2 + R ^ 2) = x ∧
    z ^ 2 + b ^ 2 = w ^ 2 ∧ b ^ 2 + z ^ 2 = w ^ 2 ∧ R ^ 2 + (a + w) ^ 2 = x ^ 2 ∧ (a + w) ^ 2 + R ^ 2 = x ^ 2 ∧
    w ^ 2 = z ^ 2 + b ^ 2 ∧ x ^ 2 = R ^ 2 + (a + w) ^ 2 := by
  refine ⟨_, √(R ^ 2 + (a + √(z ^ 2 + b ^ 2)) ^ 2), sqrt_pos.2 h.1, sqrt_pos.2 h.2, rfl, by rw [add_comm], rfl,
    by rw [add_comm], ?_, ?_, ?_, ?_, ?_, ?_⟩
  · rw [sq_sqrt h.1.le]
  · rw [sq_sqrt h.1.le, add_comm]
  · rw [sq_sqrt h.2.le]
  · rw [sq_sqrt h.2.le, add_comm]
  · rw [sq_sqrt h.1.le]
  · rw [sq_sqrt h.2.le]

theorem hd_xi_R : HasDerivAt (fun x => xi a b x z) (dxidR a b R z) R := by
  have h1 := h.1; have h2 := h.2
  obtain ⟨w, x, hw, hx, e1, -, e2, -⟩ := roots h
  unfold dxidR xi
  apply HasDerivAt.congr_deriv
  · hasderiv
    all_goals positivity
  · rw [e1, e2]; field_simp; norm_num; try ring

theorem hd_xi_z : HasDerivAt (fun x => xi a b R x) (dxidz a b R z) z := by
  have h1 := h.1; have h2 := h.2
  obtain ⟨w, x, hw, hx, e1, -, e2, -⟩ := roots h
  unfold dxidz xi
  apply HasDerivAt.congr_deriv
  · hasderiv
    all_goals positivity
  · rw [e1, e2]; field_simp; norm_num; try ring

theorem hd_dxidR_R : HasDerivAt (fun x => dxidR a b x z) (d2xidR2 a b R z) R := by
  have h1 := h.1; have h2 := h.2
  obtain ⟨w, x, hw, hx, e1, e1', e2, e2', f1, f1', f2, f2', g1, g2⟩ := roots h
  unfold dxidR d2xidR2 xi
  apply HasDerivAt.congr_deriv
  · hasderiv
    all_goals positivity
  · rw [e1, e2]; field_simp; rw [g2]; ring

theorem hd_dxidR_z : HasDerivAt (fun x => dxidR a b R x) (d2xidRdz a b R z) z := by
  have h1 := h.1; have h2 := h.2
  have h2' : 0 < (a + √(b ^ 2 + z ^ 2)) ^ 2 + R ^ 2 := by rw [add_comm, add_comm (b ^ 2)]; exact h2
  obtain ⟨w, x, hw, hx, e1, e1', e2, e2', f1, f1', f2, f2', g1, g2⟩ := roots h
  unfold dxidR d2xidRdz xi
  rw [rpow_three_half h2']
  apply HasDerivAt.congr_deriv
  · hasderiv
    all_goals positivity
  · rw [e1, e1', e2, e2', f2']; field_simp; norm_num; try ring

theorem hd_dxidz_R : HasDerivAt (fun x => dxidz a b x z) (d2xidRdz a b R z) R := by
  have h1 := h.1; have h2 := h.2
  have h2' : 0 < (a + √(b ^ 2 + z ^ 2)) ^ 2 + R ^ 2 := by rw [add_comm, add_comm (b ^ 2)]; exact h2
  obtain ⟨w, x, hw, hx, e1, e1', e2, e2', f1, f1', f2, f2', g1, g2⟩ := roots h
  unfold dxidz d2xidRdz xi
  rw [rpow_three_half h2']
  apply HasDerivAt.congr_deriv
  · hasderiv
    all_goals positivity
  · rw [e1, e1', e2, e2', f2']; field_simp; norm_num; try ring

theorem hd_dxidz_z : HasDerivAt (fun x => dxidz a b R x) (d2xidz2 a b R z) z := by
  have h1 := h.1; have h2 := h.2
  have h1' : 0 < b ^ 2 + z ^ 2 := by rw [add_comm]; exact h1
  obtain ⟨w, x, hw, hx, e1, e1', e2, e2', f1, f1', f2, f2', g1, g2⟩ := roots h
  unfold dxidz d2xidz2 xi
  rw [rpow_three_half h1']
  apply HasDerivAt.congr_deriv
  · hasderiv
    all_goals positivity
  · rw [e1, e1', e2, f1']
    have hb : b ^ 2 = w ^ 2 - z ^ 2 := by linarith
    have hR : R ^ 2 = x ^ 2 - (a + w) ^ 2 := by linarith
    rw [hb, hR]
    field_simp
    ring

theorem hd_subst_R {F : ℝ → ℝ} {F' : ℝ} (hF : HasDerivAt F F' (xi a b R z)) :
    HasDerivAt (fun x => F (xi a b x z)) (F' * dxidR a b R z) R :=
  HasDerivAt.comp (h₂ := F) (h := fun x => xi a b x z) R hF (hd_xi_R h)

theorem hd_subst_z {F : ℝ → ℝ} {F' : ℝ} (hF : HasDerivAt F F' (xi a b R z)) :
    HasDerivAt (fun x => F (xi a b R x)) (F' * dxidz a b R z) z :=
  HasDerivAt.comp (h₂ := F) (h := fun x => xi a b R x) z hF (hd_xi_z h)
end

/-- What the wrapped potential must satisfy: in the plane its radial force and second radial derivative are
derivatives, and the azimuth does not matter. -/
structure InPlane (P : Pot) : Prop where
  force : ∀ x φ t, 0 < x → HasDerivAt (fun y => P.val y 0 φ t) (-P.Rforce x 0 φ t) x
  d2 : ∀ x φ t, 0 < x → HasDerivAt (fun y => P.Rforce y 0 φ t) (-P.R2deriv x 0 φ t) x
  axi : ∀ x φ φ' t, 0 < x → P.val x 0 φ t = P.val x 0 φ' t

theorem InPlane.Rforce_axi {P : Pot} (h : InPlane P) {x φ φ' t : ℝ} (hx : 0 < x) :
    P.Rforce x 0 φ t = P.Rforce x 0 φ' t := by
  have e : (fun y => P.val y 0 φ t) =ᶠ[𝓝 x] fun y => P.val y 0 φ' t :=
    (lt_mem_nhds hx).mono fun y hy => h.axi y φ φ' t hy
  have := (h.force x φ t hx).unique ((h.force x φ' t hx).congr_of_eventuallyEq e)
  linarith

theorem consistent {a b : ℝ} {P : Pot} (hP : InPlane P) :
    Consistent (pot a b P) (fun R z _ => Reg a b R z) := by
  refine Consistent.of_force ⟨fun _ _ _ h => h.openR, fun _ _ _ h => h.openz,
    fun _ _ _ h => Eventually.of_forall fun _ => h⟩ ?_ ?_ (fun _ _ _ _ _ _ => Pot.poissonAlg_poissonDens _ _ _ _ _)
  · intro R z φ t h
    refine ⟨?_, ?_, ?_⟩
    · have q := hd_subst_R h (hP.force _ φ t h.xi_pos)
      refine q.congr_deriv ?_
      simp only [pot, potWith, Pot.poissonDens]
      ring
    · have q := hd_subst_z h (hP.force _ φ t h.xi_pos)
      refine q.congr_deriv ?_
      simp only [pot, potWith, Pot.poissonDens]
      ring
    · have e : (fun x => (pot a b P).val R z x t) = fun _ => P.val (xi a b R z) 0 φ t :=
        funext fun x => hP.axi _ _ _ _ h.xi_pos
      rw [e]
      simpa [pot, potWith, Pot.poissonDens] using hasDerivAt_const φ (P.val (xi a b R z) 0 φ t)
  · intro R z φ t h
    have hc : ∀ c : ℝ, HasDerivAt (fun _ : ℝ => c) (-0) φ := fun c => by simpa using hasDerivAt_const φ c
    have h0 : ∀ y : ℝ, HasDerivAt (fun _ : ℝ => (0 : ℝ)) (-0) y := fun y => by simpa using hasDerivAt_const y (0 : ℝ)
    refine ⟨?_, ?_, ?_, ?_, ?_, ?_, h0 _, h0 _, h0 _⟩
    · have q := ((hd_subst_R h (hP.d2 _ φ t h.xi_pos)).fun_mul (hd_dxidR_R h))
      refine q.congr_deriv ?_
      simp only [pot, potWith, Pot.poissonDens, Function.comp]
      ring
    · have q := ((hd_subst_z h (hP.d2 _ φ t h.xi_pos)).fun_mul (hd_dxidR_z h))
      refine q.congr_deriv ?_
      simp only [pot, potWith, Pot.poissonDens, Function.comp]
      ring
    · have e : (fun x => (pot a b P).Rforce R z x t) = fun _ => (pot a b P).Rforce R z φ t :=
        funext fun x => by
          simp only [pot, potWith, Pot.poissonDens]
          rw [hP.Rforce_axi h.xi_pos]
      rw [e]; exact hc _
    · have q := ((hd_subst_R h (hP.d2 _ φ t h.xi_pos)).fun_mul (hd_dxidz_R h))
      refine q.congr_deriv ?_
      simp only [pot, potWith, Pot.poissonDens, Function.comp]
      ring
    · have q := ((hd_subst_z h (hP.d2 _ φ t h.xi_pos)).fun_mul (hd_dxidz_z h))
      refine q.congr_deriv ?_
      simp only [pot, potWith, Pot.poissonDens, Function.comp]
      ring
    · have e : (fun x => (pot a b P).zforce R z x t) = fun _ => (pot a b P).zforce R z φ t :=
        funext fun x => by
          simp only [pot, potWith, Pot.poissonDens]
          rw [hP.Rforce_axi h.xi_pos]
      rw [e]; exact hc _

/-! ### C helper functions -/
theorem cxi_eq (a b R z : ℝ) : cxi a (b ^ 2) R z = xi a b R z := by simp only [cxi, xi, ← sq]
theorem cdxidR_eq (a b R z : ℝ) : cdxidR a (b ^ 2) R z = dxidR a b R z := by simp only [cdxidR, dxidR, xi, ← sq]
theorem cdxidz_eq (a b R z : ℝ) : cdxidz a (b ^ 2) R z = dxidz a b R z := by simp only [cdxidz, dxidz, xi, ← sq]
theorem cd2xidR2_eq {a b R z : ℝ} (h : 0 < R ^ 2 + (a + √(z ^ 2 + b ^ 2)) ^ 2) :
    cd2xidR2 a (b ^ 2) R z = d2xidR2 a b R z := by
  simp only [cd2xidR2, d2xidR2, xi, ← sq]
  rw [rpow_three_half h, pow_succ √_, sq_sqrt h.le]
theorem cd2xidz2_eq {a b R z : ℝ} (h : Reg a b R z) : cd2xidz2 a (b ^ 2) R z = d2xidz2 a b R z := by
  have h1' : 0 < b ^ 2 + z ^ 2 := by rw [add_comm]; exact h.1
  simp only [cd2xidz2, d2xidz2, cxi_eq]
  rw [rpow_three_half h1', show z * z = z ^ 2 by ring, add_comm (b ^ 2) (z ^ 2), pow_succ √(z ^ 2 + b ^ 2),
    sq_sqrt h.1.le]
  congr 2
  ring
theorem cd2xidRdz_eq {a b R z : ℝ} (h : Reg a b R z) : cd2xidRdz a (b ^ 2) R z = d2xidRdz a b R z := by
  simp only [cd2xidRdz, d2xidRdz, ← sq]
  rw [add_comm (b ^ 2) (z ^ 2), add_comm ((a + √(z ^ 2 + b ^ 2)) ^ 2), div_div]
  ring

end KuzminLike

namespace CylSep

/-- What the wrapped potential must satisfy at time 0: derivatives along the plane and along the vertical line
through `Rp`. -/
structure OnLines (P : Pot) (Rp : ℝ) (DR Dz : ℝ → Prop) : Prop where
  openR : ∀ R, DR R → ∀ᶠ x in 𝓝 R, DR x
  openz : ∀ z, Dz z → ∀ᶠ x in 𝓝 z, Dz x
  R1 : ∀ R, DR R → HasDerivAt (fun x => P.val x 0 0 0) (-P.Rforce R 0 0 0) R
  R2 : ∀ R, DR R → HasDerivAt (fun x => P.Rforce x 0 0 0) (-P.R2deriv R 0 0 0) R
  z1 : ∀ z, Dz z → HasDerivAt (fun x => P.val Rp x 0 0) (-P.zforce Rp z 0 0) z
  z2 : ∀ z, Dz z → HasDerivAt (fun x => P.zforce Rp x 0 0) (-P.z2deriv Rp z 0 0) z

theorem consistent {P : Pot} {Rp : ℝ} {DR Dz : ℝ → Prop} (h : OnLines P Rp DR Dz) :
    Consistent (pot Rp P) (fun R z _ => DR R ∧ Dz z) := by
  have h0 : ∀ c y : ℝ, HasDerivAt (fun _ : ℝ => c) (-0) y := fun c y => by simpa using hasDerivAt_const y c
  refine Consistent.of_force ⟨fun _ _ _ k => (h.openR _ k.1).mono fun _ hx => ⟨hx, k.2⟩,
    fun _ _ _ k => (h.openz _ k.2).mono fun _ hx => ⟨k.1, hx⟩,
    fun _ _ _ k => Eventually.of_forall fun _ => k⟩ ?_ ?_ (fun _ _ _ _ _ _ => Pot.poissonAlg_poissonDens _ _ _ _ _)
  · intro R z φ t k
    refine ⟨?_, ?_, h0 _ _⟩
    · exact ((h.R1 R k.1).add_const (P.val Rp z 0 0)).sub_const _
    · exact ((h.z1 z k.2).const_add (P.val R 0 0 0)).sub_const _
  · intro R z φ t k
    exact ⟨h.R2 R k.1, h0 _ _, h0 _ _, h0 _ _, h.z2 z k.2, h0 _ _, h0 _ _, h0 _ _, h0 _ _⟩

end CylSep
end Verif
