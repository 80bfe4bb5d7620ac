import Verif.Model.Pot.Spherical

set_option autoImplicit false

noncomputable section
namespace Verif

/-- Consistency is a local property: a potential that agrees with a consistent
one on an open domain is consistent there. -/
theorem Consistent.congr {P Q : Pot} {D : ℝ → ℝ → ℝ → Prop} (o : AxisOpen D)
    (c : Consistent Q D)
    (hv : ∀ R z φ t, D R z φ → P.val R z φ t = Q.val R z φ t)
    (hR : ∀ R z φ t, D R z φ → P.Rforce R z φ t = Q.Rforce R z φ t)
    (hz : ∀ R z φ t, D R z φ → P.zforce R z φ t = Q.zforce R z φ t)
    (hp : ∀ R z φ t, D R z φ → P.phitorque R z φ t = Q.phitorque R z φ t)
    (hRR : ∀ R z φ t, D R z φ → P.R2deriv R z φ t = Q.R2deriv R z φ t)
    (hzz : ∀ R z φ t, D R z φ → P.z2deriv R z φ t = Q.z2deriv R z φ t)
    (hRz : ∀ R z φ t, D R z φ → P.Rzderiv R z φ t = Q.Rzderiv R z φ t)
    (hpp : ∀ R z φ t, D R z φ → P.phi2deriv R z φ t = Q.phi2deriv R z φ t)
    (hRp : ∀ R z φ t, D R z φ → P.Rphideriv R z φ t = Q.Rphideriv R z φ t)
    (hzp : ∀ R z φ t, D R z φ → P.phizderiv R z φ t = Q.phizderiv R z φ t)
    (hd : ∀ R z φ t, D R z φ → R ≠ 0 → P.dens R z φ t = Q.dens R z φ t) : Consistent P D := by
  have g : ∀ R z φ t, D R z φ → GradAt P R z φ t := fun R z φ t h => by
    have q := c.grad R z φ t h
    refine ⟨?_, ?_, ?_⟩
    · rw [hR _ _ _ _ h]
      exact q.dR.congr_of_eventuallyEq ((o.oR _ _ _ h).mono fun _ k => hv _ _ _ _ k)
    · rw [hz _ _ _ _ h]
      exact q.dz.congr_of_eventuallyEq ((o.oz _ _ _ h).mono fun _ k => hv _ _ _ _ k)
    · rw [hp _ _ _ _ h]
      exact q.dphi.congr_of_eventuallyEq ((o.op _ _ _ h).mono fun _ k => hv _ _ _ _ k)
  have hs : ∀ R z φ t, D R z φ → HessAt P R z φ t := fun R z φ t h => by
    have q := c.hess R z φ t h
    have eR : ∀ R z φ, D R z φ → deriv (fun x => P.val x z φ t) R = deriv (fun x => Q.val x z φ t) R :=
      fun R z φ h => by
        rw [(g R z φ t h).dR.deriv, (c.grad R z φ t h).dR.deriv, hR _ _ _ _ h]
    have ez : ∀ R z φ, D R z φ → deriv (fun x => P.val R x φ t) z = deriv (fun x => Q.val R x φ t) z :=
      fun R z φ h => by
        rw [(g R z φ t h).dz.deriv, (c.grad R z φ t h).dz.deriv, hz _ _ _ _ h]
    have ep : ∀ R z φ, D R z φ → deriv (fun x => P.val R z x t) φ = deriv (fun x => Q.val R z x t) φ :=
      fun R z φ h => by
        rw [(g R z φ t h).dphi.deriv, (c.grad R z φ t h).dphi.deriv, hp _ _ _ _ h]
    constructor
    · rw [hRR _ _ _ _ h]
      exact q.RR.congr_of_eventuallyEq ((o.oR _ _ _ h).mono fun _ k => eR _ _ _ k)
    · rw [hRz _ _ _ _ h]
      exact q.Rz.congr_of_eventuallyEq ((o.oz _ _ _ h).mono fun _ k => eR _ _ _ k)
    · rw [hRp _ _ _ _ h]
      exact q.Rp.congr_of_eventuallyEq ((o.op _ _ _ h).mono fun _ k => eR _ _ _ k)
    · rw [hRz _ _ _ _ h]
      exact q.zR.congr_of_eventuallyEq ((o.oR _ _ _ h).mono fun _ k => ez _ _ _ k)
    · rw [hzz _ _ _ _ h]
      exact q.zz.congr_of_eventuallyEq ((o.oz _ _ _ h).mono fun _ k => ez _ _ _ k)
    · rw [hzp _ _ _ _ h]
      exact q.zp.congr_of_eventuallyEq ((o.op _ _ _ h).mono fun _ k => ez _ _ _ k)
    · rw [hRp _ _ _ _ h]
      exact q.pR.congr_of_eventuallyEq ((o.oR _ _ _ h).mono fun _ k => ep _ _ _ k)
    · rw [hzp _ _ _ _ h]
      exact q.pz.congr_of_eventuallyEq ((o.oz _ _ _ h).mono fun _ k => ep _ _ _ k)
    · rw [hpp _ _ _ _ h]
      exact q.pp.congr_of_eventuallyEq ((o.op _ _ _ h).mono fun _ k => ep _ _ _ k)
  refine ⟨g, hs, fun R z φ t h h' => ?_⟩
  have a := (poissonAt_iff (c.grad _ _ _ _ h) (c.hess _ _ _ _ h)).1 (c.poisson R z φ t h h')
  refine (poissonAt_iff (g _ _ _ _ h) (hs _ _ _ _ h)).2 ?_
  unfold PoissonAlg at a ⊢
  rw [hd _ _ _ _ h h', hRR _ _ _ _ h, hR _ _ _ _ h, hpp _ _ _ _ h, hzz _ _ _ _ h, a]

/-- Consistency on two domains gives consistency on the union. -/
theorem Consistent.or {P : Pot} {D E : ℝ → ℝ → ℝ → Prop} (c : Consistent P D) (d : Consistent P E) :
    Consistent P (fun R z φ => D R z φ ∨ E R z φ) :=
  ⟨fun _ _ _ _ h => h.elim (c.grad _ _ _ _) (d.grad _ _ _ _),
   fun _ _ _ _ h => h.elim (c.hess _ _ _ _) (d.hess _ _ _ _),
   fun _ _ _ _ h k => h.elim (fun h => c.poisson _ _ _ _ h k) (fun h => d.poisson _ _ _ _ h k)⟩

namespace Spherical
open Real Filter Topology

/-- A radial profile whose force is minus the derivative of its potential, etc. on `S`. -/
structure RadialOK (P : Radial) (S : Set ℝ) : Prop where
  isOpen : IsOpen S
  pos : ∀ r ∈ S, 0 < r
  force : ∀ r ∈ S, ∀ t, HasDerivAt (fun x => P.val x t) (-P.force r t) r
  d2 : ∀ r ∈ S, ∀ t, HasDerivAt (fun x => P.force x t) (-P.d2 r t) r
  dens : ∀ r ∈ S, ∀ t, 4 * π * P.dens r t = P.d2 r t - 2 * P.force r t / r

/-- Domain of points whose spherical radius lies in `S`. -/
def Dom (S : Set ℝ) : ℝ → ℝ → ℝ → Prop := fun R z _ => √(R ^ 2 + z ^ 2) ∈ S

theorem Dom.axisOpen {S : Set ℝ} (h : IsOpen S) : AxisOpen (Dom S) where
  oR := fun R z _ k =>
    (show ContinuousAt (fun x : ℝ => √(x ^ 2 + z ^ 2)) R by fun_prop).eventually (h.mem_nhds k)
  oz := fun R z _ k =>
    (show ContinuousAt (fun x : ℝ => √(R ^ 2 + x ^ 2)) z by fun_prop).eventually (h.mem_nhds k)
  op := fun _ _ _ k => Eventually.of_forall fun _ => k

theorem Dom.pos {S : Set ℝ} (h : ∀ r ∈ S, 0 < r) {R z φ : ℝ} (k : Dom S R z φ) :
    0 < R ^ 2 + z ^ 2 := sqrt_pos.1 (h _ k)

private theorem dR {R z : ℝ} (h : R ^ 2 + z ^ 2 ≠ 0) :
    HasDerivAt (fun x => √(x ^ 2 + z ^ 2)) (R / √(R ^ 2 + z ^ 2)) R := by
  have : HasDerivAt (fun x => √(x ^ 2 + z ^ 2)) ((2 * R ^ 1 * 1 + 0) / (2 * √(R ^ 2 + z ^ 2))) R := by
    have := hd_sqrt (hd_add (hd_pow 2 (hd_id R)) (hd_const (z ^ 2) R)) h
    simpa using this
  refine this.congr_deriv ?_
  rw [show 2 * R ^ 1 * 1 + 0 = 2 * R by ring, mul_div_mul_left _ _ two_ne_zero]
private theorem dz {R z : ℝ} (h : R ^ 2 + z ^ 2 ≠ 0) :
    HasDerivAt (fun x => √(R ^ 2 + x ^ 2)) (z / √(R ^ 2 + z ^ 2)) z := by
  have := dR (R := z) (z := R) (by rwa [add_comm])
  simpa only [add_comm (R ^ 2)] using this

theorem consistent {P : Radial} {S : Set ℝ} (ok : RadialOK P S) : Consistent (pot P) (Dom S) := by
  have key : ∀ R z φ, Dom S R z φ → ∃ r, 0 < r ∧ r ∈ S ∧ √(R ^ 2 + z ^ 2) = r ∧
      HasDerivAt (fun x => √(x ^ 2 + z ^ 2)) (R / r) R ∧
      HasDerivAt (fun x => √(R ^ 2 + x ^ 2)) (z / r) z ∧ z ^ 2 = r ^ 2 - R ^ 2 := by
    intro R z φ h
    have hp := Dom.pos ok.pos h
    exact ⟨_, sqrt_pos.2 hp, h, rfl, dR hp.ne', dz hp.ne', by rw [sq_sqrt hp.le]; ring⟩
  have comp : ∀ {F : ℝ → ℝ} {d r a e : ℝ} {f : ℝ → ℝ}, HasDerivAt F d r → HasDerivAt f e a → f a = r →
      HasDerivAt (fun x => F (f x)) (d * e) a := by
    intro F d r a e f hF hf er
    subst er
    exact hF.comp a hf
  refine Consistent.of_force (Dom.axisOpen ok.isOpen) ?_ ?_ ?_
  · intro R z φ t h
    obtain ⟨r, hr, hS, e, hR, hz, e2⟩ := key R z φ h
    refine ⟨?_, ?_, by simpa [pot, evaluate] using hd_const _ _⟩
    · refine (comp (ok.force r hS t) hR e).congr_deriv ?_
      simp only [pot, Rforce, e]; ring
    · refine (comp (ok.force r hS t) hz e).congr_deriv ?_
      simp only [pot, zforce, e]; ring
  · intro R z φ t h
    obtain ⟨r, hr, hS, e, hR, hz, e2⟩ := key R z φ h
    have fR := comp (ok.d2 r hS t) hR e
    have fz := comp (ok.d2 r hS t) hz e
    have hr0 := hr.ne'
    have h0 : ∀ a, HasDerivAt (fun _ : ℝ => (0:ℝ)) (-0) a := fun a => by simpa using hd_const 0 a
    refine ⟨?_, ?_, by simpa [pot, Rforce] using hd_const _ _, ?_, ?_,
      by simpa [pot, zforce] using hd_const _ _, h0 _, h0 _, h0 _⟩
    · refine (hd_div (hd_mul fR (hd_id R)) hR ?_).congr_deriv ?_
      · rwa [e]
      · simp only [pot, R2deriv, e]; field_simp; elimsq e2; ring
    · refine (hd_div (hd_mul_const R fz) hz ?_).congr_deriv ?_
      · rwa [e]
      · simp only [pot, Rzderiv, e]; field_simp; ring
    · refine (hd_div (hd_mul_const z fR) hR ?_).congr_deriv ?_
      · rwa [e]
      · simp only [pot, Rzderiv, e]; field_simp; ring
    · refine (hd_div (hd_mul fz (hd_id z)) hz ?_).congr_deriv ?_
      · rwa [e]
      · simp only [pot, z2deriv, e]; field_simp; elimsq e2; ring
  · intro R z φ t h h'
    obtain ⟨r, hr, hS, e, hR, hz, e2⟩ := key R z φ h
    have := ok.dens r hS t
    simp only [PoissonAlg, pot, dens, R2deriv, z2deriv, Rforce, e, this]
    field_simp; elimsq e2; ring

/-- The default density always satisfies the radial Poisson equation. -/
theorem rdensDefault_ok (force d2 : ℝ → ℝ → ℝ) (r t : ℝ) :
    4 * π * rdensDefault force d2 r t = d2 r t - 2 * force r t / r := by
  unfold rdensDefault; have := pi_ne_zero; field_simp

/-- Consistency of an axisymmetric potential whose methods are, on the domain, those of a
time-independent radial profile. -/
theorem consistent_axi {P : Radial} {S : Set ℝ} (ok : RadialOK P S) {v Rf zf R2 z2 Rz d : ℝ → ℝ → ℝ}
    (st : ∀ r t, P.val r t = P.val r 0 ∧ P.force r t = P.force r 0 ∧ P.d2 r t = P.d2 r 0 ∧
      P.dens r t = P.dens r 0)
    (hv : ∀ R z r, r ∈ S → 0 < r → √(R ^ 2 + z ^ 2) = r → z ^ 2 = r ^ 2 - R ^ 2 → v R z = P.val r 0)
    (hR : ∀ R z r, r ∈ S → 0 < r → √(R ^ 2 + z ^ 2) = r → z ^ 2 = r ^ 2 - R ^ 2 →
      Rf R z = P.force r 0 * R / r)
    (hz : ∀ R z r, r ∈ S → 0 < r → √(R ^ 2 + z ^ 2) = r → z ^ 2 = r ^ 2 - R ^ 2 →
      zf R z = P.force r 0 * z / r)
    (hRR : ∀ R z r, r ∈ S → 0 < r → √(R ^ 2 + z ^ 2) = r → z ^ 2 = r ^ 2 - R ^ 2 →
      R2 R z = P.d2 r 0 * R ^ 2 / r ^ 2 - P.force r 0 * z ^ 2 / r ^ 3)
    (hzz : ∀ R z r, r ∈ S → 0 < r → √(R ^ 2 + z ^ 2) = r → z ^ 2 = r ^ 2 - R ^ 2 →
      z2 R z = P.d2 r 0 * z ^ 2 / r ^ 2 - P.force r 0 * R ^ 2 / r ^ 3)
    (hRz : ∀ R z r, r ∈ S → 0 < r → √(R ^ 2 + z ^ 2) = r → z ^ 2 = r ^ 2 - R ^ 2 →
      Rz R z = P.d2 r 0 * R * z / r ^ 2 + P.force r 0 * R * z / r ^ 3)
    (hd : ∀ R z r, r ∈ S → 0 < r → √(R ^ 2 + z ^ 2) = r → z ^ 2 = r ^ 2 - R ^ 2 → d R z = P.dens r 0) :
    Consistent (Pot.axi v Rf zf R2 z2 Rz d) (Dom S) := by
  have key : ∀ R z φ, Dom S R z φ → 0 < √(R ^ 2 + z ^ 2) ∧ z ^ 2 = √(R ^ 2 + z ^ 2) ^ 2 - R ^ 2 :=
    fun R z φ h => ⟨ok.pos _ h, by rw [sq_sqrt (Dom.pos ok.pos h).le]; ring⟩
  refine Consistent.congr (Dom.axisOpen ok.isOpen) (consistent ok) ?_ ?_ ?_ ?_ ?_ ?_ ?_ ?_ ?_ ?_ ?_
  all_goals intro R z φ t h; try intro _
  all_goals obtain ⟨k1, k2⟩ := key R z φ h
  all_goals obtain ⟨s1, s2, s3, s4⟩ := st (√(R ^ 2 + z ^ 2)) t
  all_goals
    simp only [Pot.axi, pot, evaluate, Rforce, zforce, R2deriv, z2deriv, Rzderiv, dens, s1, s2, s3, s4]
  · exact hv _ _ _ h k1 rfl k2
  · exact hR _ _ _ h k1 rfl k2
  · exact hz _ _ _ h k1 rfl k2
  · exact hRR _ _ _ h k1 rfl k2
  · exact hzz _ _ _ h k1 rfl k2
  · exact hRz _ _ _ h k1 rfl k2
  · exact hd _ _ _ h k1 rfl k2

/-- A time-independent radial profile. -/
def stat (v f d2 d : ℝ → ℝ) : Radial := ⟨fun r _ => v r, fun r _ => f r, fun r _ => d2 r, fun r _ => d r⟩

/-- `RadialOK` for a time-independent profile. -/
theorem RadialOK.stat {v f d2 d : ℝ → ℝ} {S : Set ℝ} (o : IsOpen S) (p : ∀ r ∈ S, 0 < r)
    (hf : ∀ r ∈ S, HasDerivAt v (-f r) r) (h2 : ∀ r ∈ S, HasDerivAt f (-d2 r) r)
    (hd : ∀ r ∈ S, 4 * π * d r = d2 r - 2 * f r / r) : RadialOK (Spherical.stat v f d2 d) S :=
  ⟨o, p, fun r h _ => hf r h, fun r h _ => h2 r h, fun r h _ => hd r h⟩

section C
variable (amp : ℝ) (P : Radial) (R z t : ℝ)
theorem cEval_eq : cEval amp P R z t = amp * evaluate P R z t := by simp only [cEval, evaluate, ← sq]
theorem cRforce_eq : cRforce amp P R z t = amp * Rforce P R z t := by
  simp only [cRforce, Rforce, ← sq]; ring
theorem czforce_eq : czforce amp P R z t = amp * zforce P R z t := by
  simp only [czforce, zforce, ← sq]; ring
theorem cDens_eq : cDens amp P R z t = amp * dens P R z t := by simp only [cDens, dens, ← sq]
theorem cPlanarRforce_eq (h : 0 < R) : cPlanarRforce amp P R t = amp * Rforce P R 0 t := by
  simp only [cPlanarRforce, Rforce, ne_eq, OfNat.ofNat_ne_zero, not_false_eq_true, zero_pow, add_zero,
    sqrt_sq h.le]; have := h.ne'; field_simp
theorem cPlanarR2deriv_eq (h : 0 < R) : cPlanarR2deriv amp P R t = amp * R2deriv P R 0 t := by
  simp only [cPlanarR2deriv, R2deriv, ne_eq, OfNat.ofNat_ne_zero, not_false_eq_true, zero_pow, add_zero,
    sqrt_sq h.le]; have := h.ne'; field_simp; ring

/-- The C body agrees with the Python body whenever the planar functions do. -/
theorem cR2_eq {pR2 pRf : ℝ → ℝ} (h : 0 < R ^ 2 + z ^ 2)
    (h2 : pR2 (√(R ^ 2 + z ^ 2)) = amp * P.d2 (√(R ^ 2 + z ^ 2)) t)
    (h1 : pRf (√(R ^ 2 + z ^ 2)) = amp * P.force (√(R ^ 2 + z ^ 2)) t) :
    cR2 pR2 pRf R z = amp * R2deriv P R z t := by
  have hr := sqrt_pos.2 h
  have e0 : R ^ 2 + z ^ 2 = √(R ^ 2 + z ^ 2) ^ 2 := (sq_sqrt h.le).symm
  simp only [cR2, R2deriv, ← sq, h1, h2]
  generalize √(R ^ 2 + z ^ 2) = r at *
  rw [e0]; field_simp; ring
theorem cz2_eq {pR2 pRf : ℝ → ℝ} (h : 0 < R ^ 2 + z ^ 2)
    (h2 : pR2 (√(R ^ 2 + z ^ 2)) = amp * P.d2 (√(R ^ 2 + z ^ 2)) t)
    (h1 : pRf (√(R ^ 2 + z ^ 2)) = amp * P.force (√(R ^ 2 + z ^ 2)) t) :
    cz2 pR2 pRf R z = amp * z2deriv P R z t := by
  have hr := sqrt_pos.2 h
  have e0 : R ^ 2 + z ^ 2 = √(R ^ 2 + z ^ 2) ^ 2 := (sq_sqrt h.le).symm
  simp only [cz2, z2deriv, ← sq, h1, h2]
  generalize √(R ^ 2 + z ^ 2) = r at *
  rw [e0]; field_simp; ring
theorem cRz_eq {pR2 pRf : ℝ → ℝ} (h : 0 < R ^ 2 + z ^ 2)
    (h2 : pR2 (√(R ^ 2 + z ^ 2)) = amp * P.d2 (√(R ^ 2 + z ^ 2)) t)
    (h1 : pRf (√(R ^ 2 + z ^ 2)) = amp * P.force (√(R ^ 2 + z ^ 2)) t) :
    cRz pR2 pRf R z = amp * Rzderiv P R z t := by
  have hr := sqrt_pos.2 h
  have e0 : R ^ 2 + z ^ 2 = √(R ^ 2 + z ^ 2) ^ 2 := (sq_sqrt h.le).symm
  simp only [cRz, Rzderiv, ← sq, h1, h2]
  generalize √(R ^ 2 + z ^ 2) = r at *
  rw [e0]; field_simp; ring
theorem cR2deriv_eq (h : 0 < R ^ 2 + z ^ 2) : cR2deriv amp P R z t = amp * R2deriv P R z t :=
  cR2_eq amp P R z t h rfl rfl
theorem cz2deriv_eq (h : 0 < R ^ 2 + z ^ 2) : cz2deriv amp P R z t = amp * z2deriv P R z t :=
  cz2_eq amp P R z t h rfl rfl
theorem cRzderiv_eq (h : 0 < R ^ 2 + z ^ 2) : cRzderiv amp P R z t = amp * Rzderiv P R z t :=
  cRz_eq amp P R z t h rfl rfl
end C
end Spherical
end Verif
