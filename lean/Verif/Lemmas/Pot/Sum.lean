import Verif.Lemmas.Pot.Ops

set_option autoImplicit false

/-! # Closure of the specifications under sums -/

open Filter Topology

namespace Verif

/-- Pointwise sum of two records of methods. -/
def Pot.add (P Q : Pot) : Pot where
  val := fun R z φ t => P.val R z φ t + Q.val R z φ t
  Rforce := fun R z φ t => P.Rforce R z φ t + Q.Rforce R z φ t
  zforce := fun R z φ t => P.zforce R z φ t + Q.zforce R z φ t
  phitorque := fun R z φ t => P.phitorque R z φ t + Q.phitorque R z φ t
  R2deriv := fun R z φ t => P.R2deriv R z φ t + Q.R2deriv R z φ t
  z2deriv := fun R z φ t => P.z2deriv R z φ t + Q.z2deriv R z φ t
  Rzderiv := fun R z φ t => P.Rzderiv R z φ t + Q.Rzderiv R z φ t
  phi2deriv := fun R z φ t => P.phi2deriv R z φ t + Q.phi2deriv R z φ t
  Rphideriv := fun R z φ t => P.Rphideriv R z φ t + Q.Rphideriv R z φ t
  phizderiv := fun R z φ t => P.phizderiv R z φ t + Q.phizderiv R z φ t
  dens := fun R z φ t => P.dens R z φ t + Q.dens R z φ t

/-- The record of an empty sum. -/
def Pot.zero : Pot where
  val := fun _ _ _ _ => 0
  Rforce := fun _ _ _ _ => 0
  zforce := fun _ _ _ _ => 0
  phitorque := fun _ _ _ _ => 0
  R2deriv := fun _ _ _ _ => 0
  z2deriv := fun _ _ _ _ => 0
  Rzderiv := fun _ _ _ _ => 0
  phi2deriv := fun _ _ _ _ => 0
  Rphideriv := fun _ _ _ _ => 0
  phizderiv := fun _ _ _ _ => 0
  dens := fun _ _ _ _ => 0

private theorem fh {F G : ℝ → ℝ} {d a : ℝ} (h : HasDerivAt F d a) (e : ∀ᶠ x in 𝓝 a, F x = -G x) :
    HasDerivAt G (-d) a := by
  refine (hd_neg h).congr_of_eventuallyEq ?_
  filter_upwards [e] with x hx
  simp [hx]

theorem ForceHess.of_hess {P : Pot} {R z φ t : ℝ} (g : GradNear P R z φ t)
    (h : HessAt P R z φ t) : ForceHess P R z φ t where
  RR := fh h.RR (g.nR.mono fun _ k => k.dR.deriv)
  Rz := fh h.Rz (g.nz.mono fun _ k => k.dR.deriv)
  Rp := fh h.Rp (g.np.mono fun _ k => k.dR.deriv)
  zR := fh h.zR (g.nR.mono fun _ k => k.dz.deriv)
  zz := fh h.zz (g.nz.mono fun _ k => k.dz.deriv)
  zp := fh h.zp (g.np.mono fun _ k => k.dz.deriv)
  pR := fh h.pR (g.nR.mono fun _ k => k.dphi.deriv)
  pz := fh h.pz (g.nz.mono fun _ k => k.dphi.deriv)
  pp := fh h.pp (g.np.mono fun _ k => k.dphi.deriv)

theorem Consistent.near {P : Pot} {D : ℝ → ℝ → ℝ → Prop} (o : AxisOpen D) (c : Consistent P D)
    {R z φ : ℝ} (t : ℝ) (h : D R z φ) : GradNear P R z φ t :=
  ⟨(o.oR _ _ _ h).mono fun _ k => c.grad _ _ _ _ k, (o.oz _ _ _ h).mono fun _ k => c.grad _ _ _ _ k,
    (o.op _ _ _ h).mono fun _ k => c.grad _ _ _ _ k⟩

theorem GradAt.add {P Q : Pot} {R z φ t : ℝ} (a : GradAt P R z φ t) (b : GradAt Q R z φ t) :
    GradAt (P.add Q) R z φ t where
  dR := (hd_add a.dR b.dR).congr_deriv (by simp only [Pot.add]; ring)
  dz := (hd_add a.dz b.dz).congr_deriv (by simp only [Pot.add]; ring)
  dphi := (hd_add a.dphi b.dphi).congr_deriv (by simp only [Pot.add]; ring)

theorem GradAt.zero {R z φ t : ℝ} : GradAt Pot.zero R z φ t := by
  constructor <;> simpa [Pot.zero] using hd_const _ _

theorem Consistent.add {P Q : Pot} {D : ℝ → ℝ → ℝ → Prop} (o : AxisOpen D) (c : Consistent P D)
    (d : Consistent Q D) : Consistent (P.add Q) D := by
  refine .of_force o (fun R z φ t h => (c.grad _ _ _ _ h).add (d.grad _ _ _ _ h)) ?_ ?_
  · intro R z φ t h
    have a := ForceHess.of_hess (c.near o t h) (c.hess _ _ _ _ h)
    have b := ForceHess.of_hess (d.near o t h) (d.hess _ _ _ _ h)
    constructor
    · exact (hd_add a.RR b.RR).congr_deriv (by simp only [Pot.add]; ring)
    · exact (hd_add a.Rz b.Rz).congr_deriv (by simp only [Pot.add]; ring)
    · exact (hd_add a.Rp b.Rp).congr_deriv (by simp only [Pot.add]; ring)
    · exact (hd_add a.zR b.zR).congr_deriv (by simp only [Pot.add]; ring)
    · exact (hd_add a.zz b.zz).congr_deriv (by simp only [Pot.add]; ring)
    · exact (hd_add a.zp b.zp).congr_deriv (by simp only [Pot.add]; ring)
    · exact (hd_add a.pR b.pR).congr_deriv (by simp only [Pot.add]; ring)
    · exact (hd_add a.pz b.pz).congr_deriv (by simp only [Pot.add]; ring)
    · exact (hd_add a.pp b.pp).congr_deriv (by simp only [Pot.add]; ring)
  · intro R z φ t h hR
    have a := (poissonAt_iff (c.grad _ _ _ t h) (c.hess _ _ _ t h)).1 (c.poisson _ _ _ t h hR)
    have b := (poissonAt_iff (d.grad _ _ _ t h) (d.hess _ _ _ t h)).1 (d.poisson _ _ _ t h hR)
    simp only [PoissonAlg, Pot.add] at *
    linear_combination a + b

theorem Consistent.zero {D : ℝ → ℝ → ℝ → Prop} (o : AxisOpen D) : Consistent Pot.zero D := by
  refine .of_force o (fun R z φ t h => .zero) ?_ ?_
  · intro R z φ t h
    constructor <;> simpa [Pot.zero] using hd_const _ _
  · intro R z φ t h hR
    simp [PoissonAlg, Pot.zero]

/-- Sum of a finite family. -/
def Pot.sum (l : List Pot) : Pot := l.foldr Pot.add Pot.zero

theorem GradAt.sum {l : List Pot} {R z φ t : ℝ} (h : ∀ P ∈ l, GradAt P R z φ t) :
    GradAt (Pot.sum l) R z φ t := by
  induction l with
  | nil => exact .zero
  | cons P l ih => exact (h P (by simp)).add (ih fun Q hQ => h Q (by simp [hQ]))

theorem Consistent.sum {l : List Pot} {D : ℝ → ℝ → ℝ → Prop} (o : AxisOpen D)
    (h : ∀ P ∈ l, Consistent P D) : Consistent (Pot.sum l) D := by
  induction l with
  | nil => exact .zero o
  | cons P l ih => exact (h P (by simp)).add o (ih fun Q hQ => h Q (by simp [hQ]))

end Verif
