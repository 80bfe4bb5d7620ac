import Verif.Lemmas.Pot.Sum
import Verif.Lemmas.EOM

set_option autoImplicit false

/-! # Smooth potentials under amplitudes, sums and restriction -/

open Filter Topology

namespace Verif

theorem SmoothOn.mono {P : Pot} {D E : Set (ℝ × ℝ × ℝ)} (h : SmoothOn P D) (o : IsOpen E) (s : E ⊆ D) : SmoothOn P E :=
  ⟨o, fun _ _ _ _ k => h.grad _ _ _ _ (s k), fun _ _ _ _ k => h.hess _ _ _ _ (s k),
    fun _ _ _ _ k => h.diff _ _ _ _ (s k), fun _ _ _ _ k => h.fdiff _ _ _ _ (s k)⟩

theorem SmoothOn.scale {P : Pot} {D : Set (ℝ × ℝ × ℝ)} (amp : ℝ) (h : SmoothOn P D) : SmoothOn (P.scale amp) D :=
  ⟨h.isOpen, fun _ _ _ _ k => (h.grad _ _ _ _ k).scale amp, fun _ _ _ _ k => (h.hess _ _ _ _ k).scale amp,
    fun _ _ _ _ k => (h.diff _ _ _ _ k).const_mul amp,
    fun _ _ _ _ k => ⟨(h.fdiff _ _ _ _ k).dR.const_mul amp, (h.fdiff _ _ _ _ k).dz.const_mul amp,
      (h.fdiff _ _ _ _ k).dphi.const_mul amp⟩⟩

theorem SmoothOn.near {P : Pot} {D : Set (ℝ × ℝ × ℝ)} (h : SmoothOn P D) {R z φ : ℝ} (t : ℝ) (hp : (R, z, φ) ∈ D) :
    GradNear P R z φ t := by
  have hn := h.isOpen.mem_nhds hp
  have cR : ContinuousAt (fun x : ℝ => (x, z, φ)) R := by fun_prop
  have cz : ContinuousAt (fun x : ℝ => (R, x, φ)) z := by fun_prop
  have cp : ContinuousAt (fun x : ℝ => (R, z, x)) φ := by fun_prop
  exact ⟨(cR.eventually hn).mono fun _ k => h.grad _ _ _ _ k, (cz.eventually hn).mono fun _ k => h.grad _ _ _ _ k,
    (cp.eventually hn).mono fun _ k => h.grad _ _ _ _ k⟩

theorem SmoothOn.add {P Q : Pot} {D : Set (ℝ × ℝ × ℝ)} (h : SmoothOn P D) (k : SmoothOn Q D) : SmoothOn (P.add Q) D where
  isOpen := h.isOpen
  grad R z φ t d := (h.grad R z φ t d).add (k.grad R z φ t d)
  hess R z φ t d := by
    have n : GradNear (P.add Q) R z φ t :=
      ⟨((h.near t d).nR.and (k.near t d).nR).mono fun _ i => i.1.add i.2,
        ((h.near t d).nz.and (k.near t d).nz).mono fun _ i => i.1.add i.2,
        ((h.near t d).np.and (k.near t d).np).mono fun _ i => i.1.add i.2⟩
    refine HessAt.of_force n ?_
    have a := h.forceHess (t := t) d
    have b := k.forceHess (t := t) d
    constructor
    · exact (hd_add a.RR b.RR).congr_deriv (by simp only [Pot.add]; ring)
    · exact (hd_add a.Rz b.Rz).congr_deriv (by simp only [Pot.add]; ring)
    · exact (hd_add a.Rp b.Rp).congr_deriv (by simp only [Pot.add]; ring)
    · exact (hd_add a.zR b.zR).congr_deriv (by simp only [Pot.add]; ring)
    · exact (hd_add a.zz b.zz).congr_deriv (by simp only [Pot.add]; ring)
    · exact (hd_add a.zp b.zp).congr_deriv (by simp only [Pot.add]; ring)
    · exact (hd_add a.pR b.pR).congr_deriv (by simp only [Pot.add]; ring)
    · exact (hd_add a.pz b.pz).congr_deriv (by simp only [Pot.add]; ring)
    · exact (hd_add a.pp b.pp).congr_deriv (by simp only [Pot.add]; ring)
  diff R z φ t d := (h.diff R z φ t d).add (k.diff R z φ t d)
  fdiff R z φ t d := ⟨(h.fdiff R z φ t d).dR.add (k.fdiff R z φ t d).dR,
    (h.fdiff R z φ t d).dz.add (k.fdiff R z φ t d).dz, (h.fdiff R z φ t d).dphi.add (k.fdiff R z φ t d).dphi⟩

theorem SmoothOn.zero {D : Set (ℝ × ℝ × ℝ)} (o : IsOpen D) : SmoothOn Pot.zero D where
  isOpen := o
  grad _ _ _ _ _ := .zero
  hess R z φ t _ := by
    refine HessAt.of_force ⟨.of_forall fun _ => .zero, .of_forall fun _ => .zero, .of_forall fun _ => .zero⟩ ?_
    constructor <;> simpa [Pot.zero] using hd_const _ _
  diff _ _ _ _ _ := differentiableAt_const 0
  fdiff _ _ _ _ _ := ⟨differentiableAt_const 0, differentiableAt_const 0, differentiableAt_const 0⟩

theorem SmoothOn.sum {l : List Pot} {D : Set (ℝ × ℝ × ℝ)} (o : IsOpen D) (h : ∀ P ∈ l, SmoothOn P D) :
    SmoothOn (Pot.sum l) D := by
  induction l with
  | nil => exact .zero o
  | cons P l ih => exact (h P (by simp)).add (ih fun Q hQ => h Q (by simp [hQ]))

theorem PoissonAt.add {P Q : Pot} {D : Set (ℝ × ℝ × ℝ)} (h : SmoothOn P D) (k : SmoothOn Q D) {R z φ t : ℝ}
    (d : (R, z, φ) ∈ D) (hP : PoissonAt P R z φ t) (hQ : PoissonAt Q R z φ t) : PoissonAt (P.add Q) R z φ t := by
  have a := (poissonAt_iff (h.grad _ _ _ t d) (h.hess _ _ _ t d)).1 hP
  have b := (poissonAt_iff (k.grad _ _ _ t d) (k.hess _ _ _ t d)).1 hQ
  refine (poissonAt_iff ((h.add k).grad _ _ _ t d) ((h.add k).hess _ _ _ t d)).2 ?_
  simp only [PoissonAlg, Pot.add] at *
  linear_combination a + b

end Verif
