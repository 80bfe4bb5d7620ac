import Verif.Spec.Pot
import Verif.Util.Deriv

set_option autoImplicit false

/-!
# Helper lemmas turning derivatives of the force methods into the specification
-/

open Filter Topology

namespace Verif

/-- The second-derivative methods are derivatives of minus the force methods. -/
structure ForceHess (P : Pot) (R z φ t : ℝ) : Prop where
  RR : HasDerivAt (fun x => P.Rforce x z φ t) (-P.R2deriv R z φ t) R
  Rz : HasDerivAt (fun x => P.Rforce R x φ t) (-P.Rzderiv R z φ t) z
  Rp : HasDerivAt (fun x => P.Rforce R z x t) (-P.Rphideriv R z φ t) φ
  zR : HasDerivAt (fun x => P.zforce x z φ t) (-P.Rzderiv R z φ t) R
  zz : HasDerivAt (fun x => P.zforce R x φ t) (-P.z2deriv R z φ t) z
  zp : HasDerivAt (fun x => P.zforce R z x t) (-P.phizderiv R z φ t) φ
  pR : HasDerivAt (fun x => P.phitorque x z φ t) (-P.Rphideriv R z φ t) R
  pz : HasDerivAt (fun x => P.phitorque R x φ t) (-P.phizderiv R z φ t) z
  pp : HasDerivAt (fun x => P.phitorque R z x t) (-P.phi2deriv R z φ t) φ

/-- `GradAt` in a neighbourhood along the three coordinate axes. -/
structure GradNear (P : Pot) (R z φ t : ℝ) : Prop where
  nR : ∀ᶠ x in 𝓝 R, GradAt P x z φ t
  nz : ∀ᶠ x in 𝓝 z, GradAt P R x φ t
  np : ∀ᶠ x in 𝓝 φ, GradAt P R z x t

theorem GradNear.at {P : Pot} {R z φ t : ℝ} (h : GradNear P R z φ t) : GradAt P R z φ t :=
  h.nR.self_of_nhds

private theorem hd_of_ev {F G : ℝ → ℝ} {d a : ℝ} (h : HasDerivAt G (-d) a)
    (e : ∀ᶠ x in 𝓝 a, F x = -G x) : HasDerivAt F d a := by
  have h2 : HasDerivAt (fun x => -G x) d a := by simpa using hd_neg h
  exact h2.congr_of_eventuallyEq e

theorem HessAt.of_force {P : Pot} {R z φ t : ℝ} (g : GradNear P R z φ t)
    (h : ForceHess P R z φ t) : HessAt P R z φ t where
  RR := hd_of_ev h.RR (g.nR.mono fun _ k => k.dR.deriv)
  Rz := hd_of_ev h.Rz (g.nz.mono fun _ k => k.dR.deriv)
  Rp := hd_of_ev h.Rp (g.np.mono fun _ k => k.dR.deriv)
  zR := hd_of_ev h.zR (g.nR.mono fun _ k => k.dz.deriv)
  zz := hd_of_ev h.zz (g.nz.mono fun _ k => k.dz.deriv)
  zp := hd_of_ev h.zp (g.np.mono fun _ k => k.dz.deriv)
  pR := hd_of_ev h.pR (g.nR.mono fun _ k => k.dphi.deriv)
  pz := hd_of_ev h.pz (g.nz.mono fun _ k => k.dphi.deriv)
  pp := hd_of_ev h.pp (g.np.mono fun _ k => k.dphi.deriv)

/-- The algebraic form of Poisson's equation in terms of the methods. -/
def PoissonAlg (P : Pot) (R z φ t : ℝ) : Prop :=
  4 * Real.pi * P.dens R z φ t
    = P.R2deriv R z φ t - P.Rforce R z φ t / R + P.phi2deriv R z φ t / R ^ 2
      + P.z2deriv R z φ t

theorem poissonAt_iff {P : Pot} {R z φ t : ℝ} (g : GradAt P R z φ t) (h : HessAt P R z φ t) :
    PoissonAt P R z φ t ↔ PoissonAlg P R z φ t := by
  unfold PoissonAt PoissonAlg
  rw [h.RR.deriv, h.pp.deriv, h.zz.deriv, g.dR.deriv, neg_div, ← sub_eq_add_neg]

/-- An axisymmetric time-independent potential given by functions of `(R, z)`.
`phitorque` and the azimuthal second derivatives are the constant 0 returned by
`Potential.phitorque` etc. for axisymmetric potentials
(`galpy/potential/Potential.py`: `_phitorque`, `_phi2deriv`, `_Rphideriv`,
`_phizderiv` default to 0 when `isNonAxi` is False). -/
def Pot.axi (v Rf zf R2 z2 Rz d : ℝ → ℝ → ℝ) : Pot where
  val := fun R z _ _ => v R z
  Rforce := fun R z _ _ => Rf R z
  zforce := fun R z _ _ => zf R z
  phitorque := fun _ _ _ _ => 0
  R2deriv := fun R z _ _ => R2 R z
  z2deriv := fun R z _ _ => z2 R z
  Rzderiv := fun R z _ _ => Rz R z
  phi2deriv := fun _ _ _ _ => 0
  Rphideriv := fun _ _ _ _ => 0
  phizderiv := fun _ _ _ _ => 0
  dens := fun R z _ _ => d R z

section axi
variable {v Rf zf R2 z2 Rz d : ℝ → ℝ → ℝ} {R z φ t : ℝ}

theorem GradAt.axi (hR : HasDerivAt (fun x => v x z) (-(Rf R z)) R)
    (hz : HasDerivAt (fun x => v R x) (-(zf R z)) z) :
    GradAt (Pot.axi v Rf zf R2 z2 Rz d) R z φ t :=
  ⟨hR, hz, by simpa [Pot.axi] using hd_const _ _⟩

theorem GradNear.axi {D : ℝ → ℝ → Prop} (hg : ∀ R z φ t, D R z → GradAt (Pot.axi v Rf zf R2 z2 Rz d) R z φ t)
    (hR : ∀ᶠ x in 𝓝 R, D x z) (hz : ∀ᶠ x in 𝓝 z, D R x) :
    GradNear (Pot.axi v Rf zf R2 z2 Rz d) R z φ t :=
  ⟨hR.mono fun _ k => hg _ _ _ _ k, hz.mono fun _ k => hg _ _ _ _ k,
    Filter.Eventually.of_forall fun _ => hg _ _ _ _ hR.self_of_nhds⟩

theorem ForceHess.axi (hRR : HasDerivAt (fun x => Rf x z) (-R2 R z) R)
    (hRz : HasDerivAt (fun x => Rf R x) (-Rz R z) z)
    (hzR : HasDerivAt (fun x => zf x z) (-Rz R z) R)
    (hzz : HasDerivAt (fun x => zf R x) (-z2 R z) z) :
    ForceHess (Pot.axi v Rf zf R2 z2 Rz d) R z φ t :=
  ⟨hRR, hRz, by simpa [Pot.axi] using hd_const _ _, hzR, hzz,
    by simpa [Pot.axi] using hd_const _ _, by simpa [Pot.axi] using hd_const _ _,
    by simpa [Pot.axi] using hd_const _ _, by simpa [Pot.axi] using hd_const _ _⟩

theorem PoissonAlg.axi (h : 4 * Real.pi * d R z = R2 R z - Rf R z / R + z2 R z) :
    PoissonAlg (Pot.axi v Rf zf R2 z2 Rz d) R z φ t := by
  simp only [PoissonAlg, Pot.axi, zero_div, add_zero]; exact h

end axi

/-- A potential is consistent on a domain: gradient and Hessian everywhere on
the domain, Poisson's equation off the axis `R = 0` (where the cylindrical form
of the Laplacian divides by `R`). -/
structure Consistent (P : Pot) (D : ℝ → ℝ → ℝ → Prop) : Prop where
  grad : ∀ R z φ t, D R z φ → GradAt P R z φ t
  hess : ∀ R z φ t, D R z φ → HessAt P R z φ t
  poisson : ∀ R z φ t, D R z φ → R ≠ 0 → PoissonAt P R z φ t

/-- A domain that is open along each of the three coordinate axes. -/
structure AxisOpen (D : ℝ → ℝ → ℝ → Prop) : Prop where
  oR : ∀ R z φ, D R z φ → ∀ᶠ x in 𝓝 R, D x z φ
  oz : ∀ R z φ, D R z φ → ∀ᶠ x in 𝓝 z, D R x φ
  op : ∀ R z φ, D R z φ → ∀ᶠ x in 𝓝 φ, D R z x

/-- General constructor. -/
theorem Consistent.of_force {P : Pot} {D : ℝ → ℝ → ℝ → Prop} (o : AxisOpen D)
    (g : ∀ R z φ t, D R z φ → GradAt P R z φ t)
    (f : ∀ R z φ t, D R z φ → ForceHess P R z φ t)
    (p : ∀ R z φ t, D R z φ → R ≠ 0 → PoissonAlg P R z φ t) : Consistent P D := by
  have hs : ∀ R z φ t, D R z φ → HessAt P R z φ t := fun R z φ t h =>
    HessAt.of_force ⟨(o.oR _ _ _ h).mono fun _ k => g _ _ _ _ k,
      (o.oz _ _ _ h).mono fun _ k => g _ _ _ _ k,
      (o.op _ _ _ h).mono fun _ k => g _ _ _ _ k⟩ (f _ _ _ _ h)
  exact ⟨g, hs, fun R z φ t h h' =>
    (poissonAt_iff (g _ _ _ _ h) (hs _ _ _ _ h)).2 (p _ _ _ _ h h')⟩

/-- One-stop constructor for axisymmetric potentials on an open domain. -/
theorem Consistent.axi {v Rf zf R2 z2 Rz d : ℝ → ℝ → ℝ} {D : ℝ → ℝ → Prop}
    (oR : ∀ R z, D R z → ∀ᶠ x in 𝓝 R, D x z)
    (oz : ∀ R z, D R z → ∀ᶠ x in 𝓝 z, D R x)
    (hR : ∀ R z, D R z → HasDerivAt (fun x => v x z) (-(Rf R z)) R)
    (hz : ∀ R z, D R z → HasDerivAt (fun x => v R x) (-(zf R z)) z)
    (hRR : ∀ R z, D R z → HasDerivAt (fun x => Rf x z) (-R2 R z) R)
    (hRz : ∀ R z, D R z → HasDerivAt (fun x => Rf R x) (-Rz R z) z)
    (hzR : ∀ R z, D R z → HasDerivAt (fun x => zf x z) (-Rz R z) R)
    (hzz : ∀ R z, D R z → HasDerivAt (fun x => zf R x) (-z2 R z) z)
    (hp : ∀ R z, D R z → R ≠ 0 → 4 * Real.pi * d R z = R2 R z - Rf R z / R + z2 R z) :
    Consistent (Pot.axi v Rf zf R2 z2 Rz d) (fun R z _ => D R z) :=
  Consistent.of_force ⟨fun _ _ _ h => oR _ _ h, fun _ _ _ h => oz _ _ h,
      fun _ _ _ h => Eventually.of_forall fun _ => h⟩
    (fun _ _ _ _ h => GradAt.axi (hR _ _ h) (hz _ _ h))
    (fun _ _ _ _ h => ForceHess.axi (hRR _ _ h) (hRz _ _ h) (hzR _ _ h) (hzz _ _ h))
    (fun _ _ _ _ h k => PoissonAlg.axi (hp _ _ h k))

theorem Consistent.mono {P : Pot} {D D' : ℝ → ℝ → ℝ → Prop} (h : Consistent P D)
    (i : ∀ R z φ, D' R z φ → D R z φ) : Consistent P D' :=
  ⟨fun _ _ _ _ k => h.grad _ _ _ _ (i _ _ _ k), fun _ _ _ _ k => h.hess _ _ _ _ (i _ _ _ k),
    fun _ _ _ _ k => h.poisson _ _ _ _ (i _ _ _ k)⟩

/-- Openness of `0 < f R z` along each axis from continuity. -/
theorem ev_pos {f : ℝ → ℝ} {a : ℝ} (hc : ContinuousAt f a) (h : 0 < f a) :
    ∀ᶠ x in 𝓝 a, 0 < f x := hc.eventually (lt_mem_nhds h)

/-! ### Half-integer powers -/

theorem rpow_neg_half {u : ℝ} (h : 0 < u) : u ^ (-(1/2) : ℝ) = 1 / √u := by
  rw [Real.rpow_neg h.le, ← Real.sqrt_eq_rpow, one_div]
theorem rpow_three_half {u : ℝ} (h : 0 < u) : u ^ (3/2 : ℝ) = u * √u := by
  rw [Real.sqrt_eq_rpow, ← Real.rpow_one_add' h.le (by norm_num)]; norm_num
theorem rpow_five_half {u : ℝ} (h : 0 < u) : u ^ (5/2 : ℝ) = u ^ 2 * √u := by
  rw [Real.sqrt_eq_rpow, ← Real.rpow_natCast, ← Real.rpow_add h]; norm_num
theorem rpow_seven_half {u : ℝ} (h : 0 < u) : u ^ (7/2 : ℝ) = u ^ 3 * √u := by
  rw [Real.sqrt_eq_rpow, ← Real.rpow_natCast, ← Real.rpow_add h]; norm_num
theorem rpow_neg_three_half {u : ℝ} (h : 0 < u) : u ^ (-(3/2) : ℝ) = 1 / (u * √u) := by
  rw [Real.rpow_neg h.le, rpow_three_half h, one_div]
theorem rpow_neg_five_half {u : ℝ} (h : 0 < u) : u ^ (-(5/2) : ℝ) = 1 / (u ^ 2 * √u) := by
  rw [Real.rpow_neg h.le, rpow_five_half h, one_div]
theorem rpow_neg_seven_half {u : ℝ} (h : 0 < u) : u ^ (-(7/2) : ℝ) = 1 / (u ^ 3 * √u) := by
  rw [Real.rpow_neg h.le, rpow_seven_half h, one_div]

theorem rpow_neg_nine_half {u : ℝ} (h : 0 < u) : u ^ (-(9/2) : ℝ) = 1 / (u ^ 4 * √u) := by
  rw [Real.rpow_neg h.le, show (9/2:ℝ) = (4:ℕ) + 1/2 by norm_num, Real.rpow_add h,
    Real.rpow_natCast, ← Real.sqrt_eq_rpow, one_div]

end Verif
