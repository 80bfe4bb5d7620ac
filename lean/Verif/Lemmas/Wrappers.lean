import Verif.Model.Wrappers
import Verif.Lemmas.EOM
import Verif.Lemmas.Pot.Ops

set_option autoImplicit false

/-!
# Wrappers keep the methods consistent
-/

open Filter Topology

namespace Verif

/-- At a fixed time an amplitude wrapper is the wrapped potential with a constant amplitude. -/
theorem GradAt.modulate {P : Pot} {R z φ t : ℝ} (A : ℝ → ℝ) (h : GradAt P R z φ t) :
    GradAt (Wrap.modulate A P) R z φ t :=
  ⟨(hd_const_mul (A t) h.dR).congr_deriv (by simp [Wrap.modulate]),
    (hd_const_mul (A t) h.dz).congr_deriv (by simp [Wrap.modulate]),
    (hd_const_mul (A t) h.dphi).congr_deriv (by simp [Wrap.modulate])⟩

theorem HessAt.modulate {P : Pot} {R z φ t : ℝ} (A : ℝ → ℝ) (h : HessAt P R z φ t) :
    HessAt (Wrap.modulate A P) R z φ t := by
  constructor <;> simp only [Wrap.modulate, deriv_const_mul_field]
  · exact hd_const_mul (A t) h.RR
  · exact hd_const_mul (A t) h.Rz
  · exact hd_const_mul (A t) h.Rp
  · exact hd_const_mul (A t) h.zR
  · exact hd_const_mul (A t) h.zz
  · exact hd_const_mul (A t) h.zp
  · exact hd_const_mul (A t) h.pR
  · exact hd_const_mul (A t) h.pz
  · exact hd_const_mul (A t) h.pp

theorem PoissonAt.modulate {P : Pot} {R z φ t : ℝ} (A : ℝ → ℝ) (h : PoissonAt P R z φ t) :
    PoissonAt (Wrap.modulate A P) R z φ t := by
  unfold PoissonAt at *
  simp only [Wrap.modulate, deriv_const_mul_field]
  rw [show 4 * Real.pi * (A t * P.dens R z φ t) = A t * (4 * Real.pi * P.dens R z φ t) by ring, h]
  ring

/-- Shifting the azimuth. -/
theorem GradAt.solidBody {P : Pot} {R z φ t : ℝ} (omega pa : ℝ)
    (h : GradAt P R z (φ - omega * t - pa) t) : GradAt (Wrap.solidBody omega pa P) R z φ t := by
  refine ⟨h.dR, h.dz, ?_⟩
  have e : ∀ x, x - omega * t - pa = x - (omega * t + pa) := fun x => by ring
  have := h.dphi
  simp only [Wrap.solidBody, e] at *
  exact this.comp_sub_const φ (omega * t + pa)

theorem Wrap.deriv_shift (f : ℝ → ℝ) (a b x : ℝ) : deriv (fun y => f (y - a - b)) x = deriv f (x - a - b) := by
  have e : (fun y => f (y - a - b)) = fun y => f (y - (a + b)) := funext fun y => by
    rw [sub_sub]
  rw [e, deriv_comp_sub_const, sub_sub]

theorem Wrap.hd_shift {f : ℝ → ℝ} {f' a b x : ℝ} (h : HasDerivAt f f' (x - a - b)) :
    HasDerivAt (fun y => f (y - a - b)) f' x := by
  have e : (fun y => f (y - a - b)) = fun y => f (y - (a + b)) := funext fun y => by
    rw [sub_sub]
  rw [sub_sub] at h
  rw [e]
  exact h.comp_sub_const x (a + b)

theorem HessAt.solidBody {P : Pot} {R z φ t : ℝ} (omega pa : ℝ)
    (h : HessAt P R z (φ - omega * t - pa) t) : HessAt (Wrap.solidBody omega pa P) R z φ t := by
  have e : ∀ R z x, deriv (fun y => P.val R z (y - omega * t - pa) t) x =
      deriv (fun y => P.val R z y t) (x - omega * t - pa) :=
    fun R z x => Wrap.deriv_shift (fun y => P.val R z y t) _ _ x
  constructor <;> simp only [Wrap.solidBody, e]
  · exact h.RR
  · exact h.Rz
  · exact Wrap.hd_shift (f := fun x => deriv (fun y => P.val y z x t) R) h.Rp
  · exact h.zR
  · exact h.zz
  · exact Wrap.hd_shift (f := fun x => deriv (fun y => P.val R y x t) z) h.zp
  · exact h.pR
  · exact h.pz
  · exact Wrap.hd_shift (f := fun x => deriv (fun y => P.val R z y t) x) h.pp

theorem PoissonAt.solidBody {P : Pot} {R z φ t : ℝ} (omega pa : ℝ)
    (h : PoissonAt P R z (φ - omega * t - pa) t) : PoissonAt (Wrap.solidBody omega pa P) R z φ t := by
  unfold PoissonAt at *
  have e : ∀ R z x, deriv (fun y => P.val R z (y - omega * t - pa) t) x =
      deriv (fun y => P.val R z y t) (x - omega * t - pa) :=
    fun R z x => Wrap.deriv_shift (fun y => P.val R z y t) _ _ x
  simp only [Wrap.solidBody, e]
  rw [h, Wrap.deriv_shift (fun x => deriv (fun y => P.val R z y t) x)]

theorem Wrap.corotPhi_hd {R : ℝ} (hR : 0 < R) (vpo beta t₀ pa φ t : ℝ) :
    HasDerivAt (fun x => Wrap.corotPhi vpo beta t₀ pa x φ t)
      (-(vpo * (beta - 1) * R ^ (beta - 2) * (t - t₀))) R := by
  have h := hd_sub (hd_sub (hd_const φ R) (hd_mul_const (t - t₀)
    (hd_const_mul vpo (hd_rpow (beta - 1) (hd_id R) hR)))) (hd_const pa R)
  refine h.congr_deriv ?_
  rw [show beta - 2 = beta - 1 - 1 by ring, Real.rpow_sub_one hR.ne' (beta - 1)]
  ring

/-- Derivatives of any function of `R, z, phi` at the shifted azimuth. -/
theorem Wrap.corot_chain {F : ℝ → ℝ → ℝ → ℝ} {R z : ℝ} {vpo beta t₀ pa φ t FR Fz Fp : ℝ} (hR : 0 < R)
    (hd : DifferentiableAt ℝ (fun p : ℝ × ℝ × ℝ => F p.1 p.2.1 p.2.2)
      (R, z, Wrap.corotPhi vpo beta t₀ pa R φ t))
    (h1 : HasDerivAt (fun x => F x z (Wrap.corotPhi vpo beta t₀ pa R φ t)) FR R)
    (h2 : HasDerivAt (fun x => F R x (Wrap.corotPhi vpo beta t₀ pa R φ t)) Fz z)
    (h3 : HasDerivAt (fun x => F R z x) Fp (Wrap.corotPhi vpo beta t₀ pa R φ t)) :
    HasDerivAt (fun x => F x z (Wrap.corotPhi vpo beta t₀ pa x φ t))
      (FR - Fp * (vpo * (beta - 1) * R ^ (beta - 2) * (t - t₀))) R ∧
    HasDerivAt (fun x => F R x (Wrap.corotPhi vpo beta t₀ pa R φ t)) Fz z ∧
    HasDerivAt (fun x => F R z (Wrap.corotPhi vpo beta t₀ pa R x t)) Fp φ := by
  refine ⟨?_, h2, ?_⟩
  · have := chain3 (f := F) (a := fun x => x) (b := fun _ => z)
      (c := fun x => Wrap.corotPhi vpo beta t₀ pa x φ t) (s := R) hd h1 h2 h3 (hasDerivAt_id R)
      (hasDerivAt_const R z) (Wrap.corotPhi_hd hR vpo beta t₀ pa φ t)
    exact this.congr_deriv (by ring)
  · have := Wrap.hd_shift (f := fun x => F R z x) (a := vpo * R ^ (beta - 1) * (t - t₀)) (b := pa)
      (x := φ) h3
    exact this

theorem GradAt.corotating {P : Pot} {R z φ t vpo beta t₀ pa : ℝ} (hR : 0 < R)
    (hg : GradAt P R z (Wrap.corotPhi vpo beta t₀ pa R φ t) t)
    (hd : DiffAt P R z (Wrap.corotPhi vpo beta t₀ pa R φ t) t) :
    GradAt (Wrap.corotating vpo beta t₀ pa P) R z φ t := by
  obtain ⟨a, b, c⟩ := Wrap.corot_chain (F := fun R z φ => P.val R z φ t) hR hd hg.dR hg.dz hg.dphi
  refine ⟨a.congr_deriv ?_, b, c⟩
  simp only [Wrap.corotating]
  ring

/-- Points near one at which the shifted point lies in an open region. -/
theorem Wrap.corot_near {D : Set (ℝ × ℝ × ℝ)} (ho : IsOpen D) {R z φ t vpo beta t₀ pa : ℝ} (hR : 0 < R)
    (hD : (R, z, Wrap.corotPhi vpo beta t₀ pa R φ t) ∈ D) :
    (∀ᶠ x in 𝓝 R, 0 < x ∧ (x, z, Wrap.corotPhi vpo beta t₀ pa x φ t) ∈ D) ∧
    (∀ᶠ x in 𝓝 z, (R, x, Wrap.corotPhi vpo beta t₀ pa R φ t) ∈ D) ∧
    (∀ᶠ x in 𝓝 φ, (R, z, Wrap.corotPhi vpo beta t₀ pa R x t) ∈ D) := by
  have c1 : ContinuousAt (fun x => (x, z, Wrap.corotPhi vpo beta t₀ pa x φ t)) R :=
    continuousAt_id.prodMk (continuousAt_const.prodMk (Wrap.corotPhi_hd hR vpo beta t₀ pa φ t).continuousAt)
  have c2 : ContinuousAt (fun x => (R, x, Wrap.corotPhi vpo beta t₀ pa R φ t)) z := by fun_prop
  have c3 : ContinuousAt (fun x => (R, z, Wrap.corotPhi vpo beta t₀ pa R x t)) φ := by
    simp only [Wrap.corotPhi]
    fun_prop
  exact ⟨(lt_mem_nhds hR).and (c1.eventually (ho.mem_nhds hD)), c2.eventually (ho.mem_nhds hD),
    c3.eventually (ho.mem_nhds hD)⟩

theorem HessAt.corotating {P : Pot} {D : Set (ℝ × ℝ × ℝ)} (hP : SmoothOn P D)
    {R z φ t vpo beta t₀ pa : ℝ} (hR : 0 < R)
    (hD : (R, z, Wrap.corotPhi vpo beta t₀ pa R φ t) ∈ D) :
    HessAt (Wrap.corotating vpo beta t₀ pa P) R z φ t := by
  obtain ⟨n1, n2, n3⟩ := Wrap.corot_near hP.isOpen hR hD
  have g : GradNear (Wrap.corotating vpo beta t₀ pa P) R z φ t :=
    ⟨n1.mono fun x h => GradAt.corotating h.1 (hP.grad _ _ _ _ h.2) (hP.diff _ _ _ _ h.2),
      n2.mono fun x h => GradAt.corotating hR (hP.grad _ _ _ _ h) (hP.diff _ _ _ _ h),
      n3.mono fun x h => GradAt.corotating hR (hP.grad _ _ _ _ h) (hP.diff _ _ _ _ h)⟩
  have f := hP.forceHess (t := t) hD
  have d := hP.fdiff _ _ _ t hD
  obtain ⟨R1, R2, R3⟩ := Wrap.corot_chain (F := fun R z φ => P.Rforce R z φ t) hR d.dR f.RR f.Rz f.Rp
  obtain ⟨z1, z2, z3⟩ := Wrap.corot_chain (F := fun R z φ => P.zforce R z φ t) hR d.dz f.zR f.zz f.zp
  obtain ⟨p1, p2, p3⟩ := Wrap.corot_chain (F := fun R z φ => P.phitorque R z φ t) hR d.dphi f.pR f.pz f.pp
  have hs : HasDerivAt (fun x : ℝ => vpo * (beta - 1) * x ^ (beta - 2) * (t - t₀))
      (vpo * (beta - 1) * (beta - 2) * R ^ (beta - 3) * (t - t₀)) R := by
    have := hd_mul_const (t - t₀) (hd_const_mul (vpo * (beta - 1)) (hd_rpow (beta - 2) (hd_id R) hR))
    refine this.congr_deriv ?_
    rw [show beta - 3 = beta - 2 - 1 by ring, Real.rpow_sub_one hR.ne' (beta - 2)]
    ring
  refine HessAt.of_force g ⟨?_, ?_, ?_, ?_, z2, z3, ?_, p2, p3⟩
  · refine (hd_sub R1 (hd_mul p1 hs)).congr_deriv ?_
    simp only [Wrap.corotating]
    ring
  · refine (hd_sub R2 (hd_mul_const (vpo * (beta - 1) * R ^ (beta - 2) * (t - t₀)) p2)).congr_deriv ?_
    simp only [Wrap.corotating]
    ring
  · refine (hd_sub R3 (hd_mul_const (vpo * (beta - 1) * R ^ (beta - 2) * (t - t₀)) p3)).congr_deriv ?_
    simp only [Wrap.corotating]
    ring
  · refine z1.congr_deriv ?_
    simp only [Wrap.corotating]
    ring
  · refine p1.congr_deriv ?_
    simp only [Wrap.corotating]
    ring

end Verif
