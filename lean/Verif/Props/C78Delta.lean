import Verif.Props.C78
import Verif.Lemmas.Pot.KuzminKutuzov

set_option autoImplicit false

/-!
# C78: the focal distance, the Kuzmin-Kutuzov potential, and points below the plane
-/

noncomputable section
namespace Verif
open Real Set Filter Topology
open IsochroneAA (Point mod2pi)
open StaeckelAA
open C78Spec (SR SZ uOf vOf pu pv en third Orbit)

namespace C78aux
variable {pot FR FZ : ℝ → ℝ → ℝ} {δ : ℝ} {U V : ℝ → ℝ}

/-- A function along a curve. -/
theorem along' {F : ℝ → ℝ → ℝ} {dR dz : ℝ} {R z : ℝ → ℝ} {R' z' s : ℝ}
    (h : HasFDerivAt (fun q : ℝ × ℝ => F q.1 q.2) (dR • ContinuousLinearMap.fst ℝ ℝ ℝ + dz • ContinuousLinearMap.snd ℝ ℝ ℝ) (R s, z s))
    (hR : HasDerivAt R R' s) (hz : HasDerivAt z z' s) : HasDerivAt (fun s => F (R s) (z s)) (dR * R' + dz * z') s := by
  refine (h.comp_hasDerivAt (f := fun s => (R s, z s)) s (hR.prodMk hz)).congr_deriv ?_
  simp

end C78aux

open C78aux in
/-- At every point off the axis where the mixed derivative of a Staeckel potential does not vanish, the estimate of the focal distance is
the focal distance, if it is not below the smallest allowed value `delta0`. -/
theorem C78_delta {pot FR FZ : ℝ → ℝ → ℝ} {δ : ℝ} {U V : ℝ → ℝ} (h : C78Spec.Staeckel pot FR FZ δ U V) {R2 z2 Rz : ℝ → ℝ → ℝ}
    (hR : ∀ R z, 0 < R → HasFDerivAt (fun q : ℝ × ℝ => FR q.1 q.2)
      (-R2 R z • ContinuousLinearMap.fst ℝ ℝ ℝ + -Rz R z • ContinuousLinearMap.snd ℝ ℝ ℝ) (R, z))
    (hZ : ∀ R z, 0 < R → HasFDerivAt (fun q : ℝ × ℝ => FZ q.1 q.2)
      (-Rz R z • ContinuousLinearMap.fst ℝ ℝ ℝ + -z2 R z • ContinuousLinearMap.snd ℝ ℝ ℝ) (R, z))
    (delta0 R z : ℝ) (hd : delta0 ^ 2 ≤ δ ^ 2) (hpos : 0 < R) (hz : z ≠ 0 → Rz R z ≠ 0) (hz0 : z = 0 → Rz R (1 / 10 ^ 4) ≠ 0) :
    estimateDelta FR FZ R2 z2 Rz delta0 R z = δ := by
  have hδ := h.delta
  -- for every height
  have key : ∀ z, Rz R z ≠ 0 → z ^ 2 - R ^ 2 + (3 * R * FZ R z - 3 * z * FR R z + R * z * (R2 R z - z2 R z)) / Rz R z = δ ^ 2 := by
    intro z hne
    obtain ⟨eR, ez, hu, hv, hv'⟩ := uv_spec hδ ⟨R, 0, 0, z, 0, 0⟩ hpos
    generalize uOf δ ⟨R, 0, 0, z, 0, 0⟩ = u at *
    generalize vOf δ ⟨R, 0, 0, z, 0, 0⟩ = v at *
    simp only at eR ez
    have hRv : HasDerivAt (fun x => δ * sinh u * sin x) (δ * sinh u * cos v) v := (hasDerivAt_sin v).const_mul _
    have hzv : HasDerivAt (fun x => δ * cosh u * cos x) (δ * cosh u * -sin v) v := (hasDerivAt_cos v).const_mul _
    have aR := hR (δ * sinh u * sin v) (δ * cosh u * cos v) (R_pos hδ hu hv hv')
    have aZ := hZ (δ * sinh u * sin v) (δ * cosh u * cos v) (R_pos hδ hu hv hv')
    have d1 := along' (R := fun x => δ * sinh u * sin x) (z := fun x => δ * cosh u * cos x) aR hRv hzv
    have d2 := along' (R := fun x => δ * sinh u * sin x) (z := fun x => δ * cosh u * cos x) aZ hRv hzv
    have dphi := d_phiV hδ h.toPotential hu hv hv'
    have dpu : HasDerivAt (fun v => phiU FR FZ δ u v) _ v :=
      (hd_add (hd_mul d1 (hd_const_mul (δ * cosh u) (hasDerivAt_sin v))) (hd_mul d2 (hd_const_mul (δ * sinh u) (hasDerivAt_cos v)))).neg
    have dd : HasDerivAt (fun v => dU pot FR FZ δ u v) _ v :=
      hd_add (hd_const_mul (2 * sinh u * cosh u) dphi) (hd_mul (hd_add (hd_const (sinh u ^ 2) v) (hd_pow 2 (hasDerivAt_sin v))) dpu)
    have dz : HasDerivAt (fun v => dU pot FR FZ δ u v) 0 v := by
      refine (hasDerivAt_const v (U1 pot FR FZ δ u)).congr_of_eventuallyEq ?_
      filter_upwards [lt_mem_nhds hv, gt_mem_nhds hv'] with x hx hx'
      exact (U1_eq h hu hx hx').symm
    have e := dd.unique dz
    have hm := metric_pos (v := v) hu
    unfold phiU phiV at e
    rw [← eR, ← ez] at e
    have hA := cosh_sq u
    have hs := sin_sq_add_cos_sq v
    generalize FR R z = fR at *
    generalize FZ R z = fZ at *
    generalize R2 R z = a2 at *
    generalize z2 R z = b2 at *
    generalize Rz R z = m at *
    have e' : (sinh u ^ 2 + sin v ^ 2) * (m * (z ^ 2 - R ^ 2 - δ ^ 2) + (3 * R * fZ - 3 * z * fR + R * z * (a2 - b2))) = 0 := by
      rw [eR, ez]
      norm_num at e
      generalize sinh u = B at *
      generalize cosh u = A at *
      generalize sin v = s at *
      generalize cos v = c at *
      rw [ez] at e
      linear_combination e + (2 * δ * B * s * fZ) * (hs - hA) + (B ^ 2 + s ^ 2) * m * δ ^ 2 * ((A ^ 2 - B ^ 2) * hs + hA)
    have e2 := (mul_eq_zero.1 e').resolve_left hm.ne'
    field_simp
    linarith
  unfold estimateDelta
  simp only
  have hne : Rz R (if z = 0 then 1 / 10 ^ 4 else z) ≠ 0 := by
    split_ifs with h0
    · exact hz0 h0
    · exact hz h0
  rw [key _ hne, if_neg (fun hh => absurd hh.1 (not_lt.2 hd)), sqrt_sq hδ.le]


-- In the harmonic potential the focal distance is not determined (`Rz = 0`); see `C78_KuzminKutuzov_delta` below for an instance.


open C78aux in
/-- At the lowest point of an orbit (the momentum in `v` vanishes and the point is below the plane) the calculation without C raises an
exception, although the orbit is regular: by the symmetry of the potential the actions are those of the mirrored point. -/
theorem C78_below_fails {pot FR FZ : ℝ → ℝ → ℝ} {δ : ℝ} {U V : ℝ → ℝ} {a b c : ℝ} {p : ℝ → Point} (o : Orbit pot FR FZ δ U V a b c p) (t : ℝ)
    (hu : pu δ (p t) = 0 ∨ (1 / 10 ^ 7 ≤ |pu δ (p t)| ∧ 1 / 10 ^ 10 ≤ pu δ (p t) ^ 2 / (2 * δ ^ 2)))
    (hpv : pv δ (p t) = 0) (hz : (p t).z < 0) (u0 : Option ℝ) (hu0 : ∀ x, u0 = some x → 0 < x) :
    (∀ out, Angles pot δ u0 (p t) out ↔ out = none) ∧ (∀ out, Actions pot δ (p t) out ↔ out = none) ∧
      ∀ out, Ecc pot δ (p t) out ↔ out = none := by
  have hb := bound' o t
  have hc0 := b_c0 hb
  have hch := b_ch hb
  have hδ := o.staeckel.delta
  have hR := o.motion.pos t
  have hδ2 : 0 < δ ^ 2 := by positivity
  obtain ⟨-, ez, hu', hv, hv'⟩ := uv_spec hδ (p t) hR
  have mv := v_mem o t
  have hvx : vOf δ (p t) = π - c := by
    have ev := energy_v o.staeckel (p t) hR
    rw [hpv] at ev
    have h0 : SZ V δ (en pot (p t)) ((p t).R * (p t).vT) (third pot U δ (p t)) (vOf δ (p t)) = 0 := by
      have : δ ^ 2 * SZ V δ (en pot (p t)) ((p t).R * (p t).vT) (third pot U δ (p t)) (vOf δ (p t)) = 0 := by linarith
      exact (mul_eq_zero.1 this).resolve_left hδ2.ne'
    have hcos : cos (vOf δ (p t)) < 0 := by
      by_contra hn
      have hA := cosh_pos (uOf δ (p t))
      have : 0 ≤ δ * cosh (uOf δ (p t)) * cos (vOf δ (p t)) := mul_nonneg (by positivity) (not_lt.1 hn)
      linarith
    have hlt : π / 2 < vOf δ (p t) := by
      by_contra hn
      linarith [cos_nonneg_of_mem_Icc ⟨by linarith [pi_pos], not_lt.1 hn⟩]
    by_contra hne
    have := hb.inside' _ (by linarith) (lt_of_le_of_ne mv.2 hne)
    linarith
  have h8 : (0 : ℝ) < 1 / 10 ^ 8 := by positivity
  have h28 : (2 : ℝ) / 10 ^ 8 = 2 * (1 / 10 ^ 8) := by ring
  have hc8 := hb.c_pos
  have hwide : 1 / 10 ^ 8 < π / 2 - c := by
    have := not_lt.1 (small7 o.staeckel hb)
    linarith [show (1 : ℝ) / 10 ^ 8 < 1 / 10 ^ 7 by norm_num]
  have hV : ∀ u0 : Option ℝ, (∀ x, u0 = some x → 0 < x) → ∀ r,
      Vmin ((single pot δ u0 (p t)).sZ pot δ) (single pot δ u0 (p t)).vx (single pot δ u0 (p t)).pvx r ↔ r = none := by
    intro u0 hu0 r
    have eS : ∀ v, 0 < v → v < π → _ := fun v h1 h2 => sZ_eq o.staeckel (p t) hR u0 hu0 h1 h2
    rw [s_vx, s_pvx, hpv, hvx]
    unfold Vmin
    rw [if_pos (by rw [abs_zero]; positivity), if_pos]
    constructor
    · rw [eS _ (by linarith) (by linarith), show π - c + 1 / 10 ^ 8 = π - (c - 1 / 10 ^ 8) by ring,
        SZ_sym o.staeckel _ _ _ (by linarith) (by linarith)]
      exact hb.outside' _ (by linarith) (by linarith)
    · rw [eS _ (by linarith) (by linarith)]
      exact hb.inside' _ (by linarith) (by linarith)
  have hn : ∀ x, (none : Option ℝ) = some x → 0 < x := by simp
  refine ⟨fun out => ?_, fun out => ?_, fun out => ?_⟩
  · unfold Angles
    simp only [turningU o t hu, hV u0 hu0, exists_eq_left, Option.map_none]
  · unfold Actions
    simp only [turningU o t hu, hV none hn, exists_eq_left, Option.map_none]
  · unfold Ecc
    simp only [turningU o t hu, hV none hn, exists_eq_left, Option.map_none]

example : Actions C78aux.Ex.pot 1 (C78aux.Ex.p π) none ∧ ∃ jr jz, Actions C78aux.Ex.pot 1 (C78aux.Ex.p 0) (some (jr, 1, jz)) := by
  refine ⟨((C78_below_fails C78aux.Ex.orbit π (.inl C78aux.Ex.pupi) C78aux.Ex.pvpi C78aux.Ex.zpi none (by simp)).2.1 none).2 rfl, ?_⟩
  have h := (C78_actions_partial C78aux.Ex.orbit 0 C78aux.Ex.clear0 _).2 rfl
  rw [C78aux.Ex.lz0] at h
  exact ⟨_, _, h⟩


/-! ### The Kuzmin-Kutuzov potential -/

namespace C78aux
open KuzminKutuzov (lam nu disc)

theorem fderiv_of_partials {f : ℝ → ℝ → ℝ} {R z a b : ℝ} (hd : DifferentiableAt ℝ (fun q : ℝ × ℝ => f q.1 q.2) (R, z))
    (h1 : HasDerivAt (fun x => f x z) a R) (h2 : HasDerivAt (fun x => f R x) b z) :
    HasFDerivAt (fun q : ℝ × ℝ => f q.1 q.2) (a • ContinuousLinearMap.fst ℝ ℝ ℝ + b • ContinuousLinearMap.snd ℝ ℝ ℝ) (R, z) := by
  have h := hd.hasFDerivAt
  have e1 := (h.comp_hasDerivAt (f := fun x => (x, z)) R ((hasDerivAt_id' R).prodMk (hasDerivAt_const R z))).unique h1
  have e2 := (h.comp_hasDerivAt (f := fun x => (R, x)) z ((hasDerivAt_const z R).prodMk (hasDerivAt_id' z))).unique h2
  convert h using 1
  ext
  · simp [← e1]
  · simp [← e2]

theorem disc_pos {D R : ℝ} (hD : 0 < D) (hR : 0 < R) (z : ℝ) : 0 < disc D R z := by
  unfold disc
  positivity

theorem eval_form (ac D R z : ℝ) : KuzminKutuzov.evaluate ac D R z = -1 / (√(lam ac D R z) + √(nu ac D R z)) := by
  unfold KuzminKutuzov.evaluate
  rw [KuzminKutuzov.lambdanu_eq]

theorem lam_diff {ac D : ℝ} (hD : 0 < D) {q : ℝ × ℝ} (hq : 0 < q.1) : ContDiffAt ℝ 2 (fun q : ℝ × ℝ => lam ac D q.1 q.2) q
    ∧ ContDiffAt ℝ 2 (fun q : ℝ × ℝ => nu ac D q.1 q.2) q := by
  have hd := disc_pos hD hq q.2
  have h1 : ContDiffAt ℝ 2 (fun q : ℝ × ℝ => √(disc D q.1 q.2)) q := by
    refine ContDiffAt.sqrt ?_ hd.ne'
    unfold disc
    fun_prop
  unfold lam nu
  exact ⟨by fun_prop, by fun_prop⟩

theorem eval_smooth {ac D : ℝ} (hac : 1 < ac) (hD : 0 < D) {q : ℝ × ℝ} (hq : 0 < q.1) :
    ContDiffAt ℝ 2 (fun q : ℝ × ℝ => KuzminKutuzov.evaluate ac D q.1 q.2) q := by
  simp only [eval_form]
  obtain ⟨h1, h2⟩ := lam_diff (ac := ac) hD hq
  have pl := KuzminKutuzov.lam_pos q.1 q.2 hac hD.ne'
  have pn := KuzminKutuzov.nu_pos q.1 q.2 hac hD.ne'
  refine ContDiffAt.div contDiffAt_const ((h1.sqrt pl.ne').add (h2.sqrt pn.ne')) ?_
  have := sqrt_pos.2 pl
  have := sqrt_pos.2 pn
  positivity

theorem jac_smooth {D : ℝ} (hD : 0 < D) (i j : Fin 2) {q : ℝ × ℝ} (hq : 0 < q.1) :
    ContDiffAt ℝ 1 (fun q : ℝ × ℝ => Coords.Rz_to_lambdanu_jac q.1 q.2 D i j) q := by
  have hd := disc_pos hD hq q.2
  have h1 : ContDiffAt ℝ 1 (fun q : ℝ × ℝ => √(disc D q.1 q.2)) q := by
    refine ContDiffAt.sqrt ?_ hd.ne'
    unfold disc
    fun_prop
  have h2 : √(disc D q.1 q.2) ≠ 0 := (sqrt_pos.2 hd).ne'
  have e1 : ContDiffAt ℝ 1 (fun q : ℝ × ℝ => (q.1 ^ 2 + q.2 ^ 2 + D ^ 2) / √(disc D q.1 q.2)) q := ContDiffAt.div (by fun_prop) h1 h2
  have e2 : ContDiffAt ℝ 1 (fun q : ℝ × ℝ => (q.1 ^ 2 + q.2 ^ 2 - D ^ 2) / √(disc D q.1 q.2)) q := ContDiffAt.div (by fun_prop) h1 h2
  unfold disc at e1 e2
  fin_cases i <;> fin_cases j <;> simp [Coords.Rz_to_lambdanu_jac]
  · exact contDiffAt_fst.mul (contDiffAt_const.add e1)
  · exact contDiffAt_snd.mul (contDiffAt_const.add e2)
  · exact contDiffAt_fst.mul (contDiffAt_const.sub e1)
  · exact contDiffAt_snd.mul (contDiffAt_const.sub e2)

theorem ln_smooth {ac D : ℝ} (hac : 1 < ac) (hD : 0 < D) {q : ℝ × ℝ} (hq : 0 < q.1) :
    ContDiffAt ℝ 1 (fun q : ℝ × ℝ => KuzminKutuzov.lderiv (lam ac D q.1 q.2) (nu ac D q.1 q.2)) q ∧
    ContDiffAt ℝ 1 (fun q : ℝ × ℝ => KuzminKutuzov.nderiv (lam ac D q.1 q.2) (nu ac D q.1 q.2)) q := by
  obtain ⟨h1, h2⟩ := lam_diff (ac := ac) hD hq
  have pl := KuzminKutuzov.lam_pos q.1 q.2 hac hD.ne'
  have pn := KuzminKutuzov.nu_pos q.1 q.2 hac hD.ne'
  have s1 := (h1.sqrt pl.ne').of_le (by norm_num : (1 : WithTop ℕ∞) ≤ 2)
  have s2 := (h2.sqrt pn.ne').of_le (by norm_num : (1 : WithTop ℕ∞) ≤ 2)
  have q1 := sqrt_pos.2 pl
  have q2 := sqrt_pos.2 pn
  unfold KuzminKutuzov.lderiv KuzminKutuzov.nderiv
  constructor
  · exact ContDiffAt.div (ContDiffAt.div contDiffAt_const s1 q1.ne') ((s1.add s2).pow 2) (by positivity)
  · exact ContDiffAt.div (ContDiffAt.div contDiffAt_const s2 q2.ne') ((s1.add s2).pow 2) (by positivity)

theorem force_smooth {ac D : ℝ} (hac : 1 < ac) (hD : 0 < D) {q : ℝ × ℝ} (hq : 0 < q.1) :
    ContDiffAt ℝ 1 (fun q : ℝ × ℝ => KuzminKutuzov.Rforce ac D q.1 q.2) q ∧
    ContDiffAt ℝ 1 (fun q : ℝ × ℝ => KuzminKutuzov.zforce ac D q.1 q.2) q := by
  obtain ⟨l1, l2⟩ := ln_smooth hac hD hq
  unfold KuzminKutuzov.Rforce KuzminKutuzov.zforce
  simp only [KuzminKutuzov.lambdanu_eq]
  exact ⟨(((jac_smooth hD 0 0 hq).mul l1).add ((jac_smooth hD 1 0 hq).mul l2)).neg,
    (((jac_smooth hD 0 1 hq).mul l1).add ((jac_smooth hD 1 1 hq).mul l2)).neg⟩

theorem uv_form {ac D u v : ℝ} (hD : 0 < D) :
    lam ac D (D * sinh u * sin v) (D * cosh u * cos v) = D ^ 2 * cosh u ^ 2 - D ^ 2 / (1 - ac ^ 2) ∧
    nu ac D (D * sinh u * sin v) (D * cosh u * cos v) = D ^ 2 * cos v ^ 2 - D ^ 2 / (1 - ac ^ 2) := by
  have hA := cosh_sq u
  have hs := sin_sq_add_cos_sq v
  have e : disc D (D * sinh u * sin v) (D * cosh u * cos v) = (D ^ 2 * (sinh u ^ 2 + sin v ^ 2)) ^ 2 := by
    unfold disc
    have hs' : sin v ^ 2 = 1 - cos v ^ 2 := by linarith
    rw [mul_pow, mul_pow, mul_pow, mul_pow, hA, hs']
    ring
  unfold lam nu
  rw [e, sqrt_sq (by positivity)]
  have hs' : sin v ^ 2 = 1 - cos v ^ 2 := by linarith
  constructor
  · rw [mul_pow, mul_pow, mul_pow, mul_pow, hA, hs']
    ring
  · rw [mul_pow, mul_pow, mul_pow, mul_pow, hA, hs']
    ring

end C78aux

open C78aux in
/-- `KuzminKutuzovStaeckelPotential` is a Staeckel potential whose focal distance is its parameter `Delta`: the theorems above apply to
it, and the estimate of the focal distance returns `Delta`. -/
theorem C78_KuzminKutuzov (amp ac D : ℝ) (hac : 1 < ac) (hD : 0 < D) :
    C78Spec.Staeckel (fun R z => amp * KuzminKutuzov.evaluate ac D R z) (fun R z => amp * KuzminKutuzov.Rforce ac D R z)
      (fun R z => amp * KuzminKutuzov.zforce ac D R z) D
      (fun u => -(amp / D ^ 2) * √(D ^ 2 * cosh u ^ 2 - D ^ 2 / (1 - ac ^ 2))) (fun v => -(amp / D ^ 2) * √(D ^ 2 * cos v ^ 2 - D ^ 2 / (1 - ac ^ 2))) := by
  have hc := KuzminKutuzov.consistent hac hD.ne'
  refine ⟨⟨fun R z hR => ?_, fun q hq => ?_, fun q hq => ?_⟩, hD, fun R z => ?_, fun u v hu hv hv' => ?_⟩
  · have hd := disc_pos hD hR z
    have h1 : HasDerivAt (fun x => KuzminKutuzov.evaluate ac D x z) (-KuzminKutuzov.Rforce ac D R z) R := (hc.grad R z 0 0 hd).dR
    have h2 : HasDerivAt (fun x => KuzminKutuzov.evaluate ac D R x) (-KuzminKutuzov.zforce ac D R z) z := (hc.grad R z 0 0 hd).dz
    refine (fderiv_of_partials (f := fun R z => amp * KuzminKutuzov.evaluate ac D R z)
      (((eval_smooth hac hD (q := (R, z)) hR).differentiableAt (by norm_num)).const_mul amp) (h1.const_mul amp) (h2.const_mul amp)).congr_fderiv ?_
    simp
  · exact ((force_smooth hac hD hq).1.continuousAt.const_smul amp).continuousWithinAt
  · exact ((force_smooth hac hD hq).2.continuousAt.const_smul amp).continuousWithinAt
  · simp only [eval_form, KuzminKutuzov.lam, KuzminKutuzov.nu, KuzminKutuzov.disc]
    ring_nf
  · obtain ⟨e1, e2⟩ := uv_form (ac := ac) (u := u) (v := v) hD
    have pl := KuzminKutuzov.lam_pos (D * sinh u * sin v) (D * cosh u * cos v) hac hD.ne'
    have pn := KuzminKutuzov.nu_pos (D * sinh u * sin v) (D * cosh u * cos v) hac hD.ne'
    rw [eval_form, e1, e2]
    rw [e1] at pl
    rw [e2] at pn
    have hA := cosh_sq u
    have hs := sin_sq_add_cos_sq v
    have s1 := sq_sqrt pl.le
    have s2 := sq_sqrt pn.le
    have q1 := sqrt_pos.2 pl
    have q2 := sqrt_pos.2 pn
    generalize √(D ^ 2 * cosh u ^ 2 - D ^ 2 / (1 - ac ^ 2)) = x at *
    generalize √(D ^ 2 * cos v ^ 2 - D ^ 2 / (1 - ac ^ 2)) = y at *
    have : D ^ 2 * (sinh u ^ 2 + sin v ^ 2) = (x - y) * (x + y) := by
      have hs' : sin v ^ 2 = 1 - cos v ^ 2 := by linarith
      rw [hs']
      linear_combination -s1 + s2 + (-D ^ 2) * hA
    field_simp
    linear_combination -amp * this

namespace C78aux
open KuzminKutuzov (lam nu disc)

/-- The square of the radicand: `√(λ ν)²`. -/
def kkq (ac D R z : ℝ) : ℝ := D ^ 2 * z ^ 2 - D ^ 2 / (1 - ac ^ 2) * (R ^ 2 + z ^ 2 + D ^ 2) + (D ^ 2 / (1 - ac ^ 2)) ^ 2
def kkw (ac D R z : ℝ) : ℝ := R ^ 2 + z ^ 2 + D ^ 2 - 2 * (D ^ 2 / (1 - ac ^ 2)) + 2 * √(kkq ac D R z)

theorem kkq_pos {ac D : ℝ} (hac : 1 < ac) (hD : 0 < D) (R z : ℝ) : 0 < kkq ac D R z := by
  have hg := KuzminKutuzov.neg_gamma_pos hac hD.ne'
  unfold kkq
  have : 0 ≤ -(D ^ 2 / (1 - ac ^ 2)) * (R ^ 2 + z ^ 2 + D ^ 2) := mul_nonneg (by linarith) (by positivity)
  nlinarith [sq_nonneg (D * z), sq_pos_of_neg hg]

theorem kkw_pos {ac D : ℝ} (hac : 1 < ac) (hD : 0 < D) (R z : ℝ) : 0 < kkw ac D R z := by
  have hg := KuzminKutuzov.neg_gamma_pos hac hD.ne'
  have := sqrt_nonneg (kkq ac D R z)
  unfold kkw
  nlinarith [sq_nonneg R, sq_nonneg z, sq_nonneg D]

theorem kk_closed {ac D : ℝ} (hac : 1 < ac) (hD : 0 < D) (R z : ℝ) : KuzminKutuzov.evaluate ac D R z = -1 / √(kkw ac D R z) := by
  have pl := KuzminKutuzov.lam_pos R z hac hD.ne'
  have pn := KuzminKutuzov.nu_pos R z hac hD.ne'
  rw [eval_form]
  congr 1
  have hd := sq_sqrt (KuzminKutuzov.disc_nonneg D R z)
  have e : lam ac D R z * nu ac D R z = kkq ac D R z := by
    unfold lam nu kkq
    generalize D ^ 2 / (1 - ac ^ 2) = g
    unfold disc at *
    linear_combination (-1 / 4) * hd
  have e2 : kkw ac D R z = (√(lam ac D R z) + √(nu ac D R z)) ^ 2 := by
    rw [add_sq, sq_sqrt pl.le, sq_sqrt pn.le, mul_assoc, ← sqrt_mul pl.le, e]
    unfold kkw lam nu
    ring
  rw [e2, sqrt_sq (by positivity)]

theorem kk_R {ac D : ℝ} (hac : 1 < ac) (hD : 0 < D) {R : ℝ} (hR : 0 < R) (z : ℝ) : KuzminKutuzov.Rforce ac D R z =
    -(R * (1 + -(D ^ 2 / (1 - ac ^ 2)) / √(kkq ac D R z)) / √(kkw ac D R z) ^ 3) := by
  have h1 : HasDerivAt (fun x => KuzminKutuzov.evaluate ac D x z) (-KuzminKutuzov.Rforce ac D R z) R :=
    ((KuzminKutuzov.consistent hac hD.ne').grad R z 0 0 (disc_pos hD hR z)).dR
  simp only [kk_closed hac hD] at h1
  have pq := kkq_pos hac hD R z
  have pw := kkw_pos hac hD R z
  have sq' := sqrt_pos.2 pq
  have sw := sqrt_pos.2 pw
  have h2 : HasDerivAt (fun x => kkq ac D x z) (-(D ^ 2 / (1 - ac ^ 2)) * (2 * R)) R := by
    unfold kkq
    generalize D ^ 2 / (1 - ac ^ 2) = g
    refine ((((((hasDerivAt_id' R).pow 2).add_const (z ^ 2)).add_const (D ^ 2)).const_mul g).const_sub (D ^ 2 * z ^ 2)).add_const (g ^ 2) |>.congr_deriv ?_
    norm_num
  have h3 : HasDerivAt (fun x => kkw ac D x z) (2 * R * (1 + -(D ^ 2 / (1 - ac ^ 2)) / √(kkq ac D R z))) R := by
    have := ((((((hasDerivAt_id' R).pow 2).add_const (z ^ 2)).add_const (D ^ 2)).sub_const (2 * (D ^ 2 / (1 - ac ^ 2))))).add ((h2.sqrt pq.ne').const_mul 2)
    refine this.congr_deriv ?_
    norm_num
    field_simp
  have h4 := (hasDerivAt_const R (-1 : ℝ)).div (h3.sqrt pw.ne') sw.ne'
  have e := h1.unique h4
  have e3 := sq_sqrt pw.le
  rw [← neg_eq_iff_eq_neg, e]
  field_simp
  ring

/-- The mixed derivative vanishes only on the plane. -/
theorem kk_Rz {ac D : ℝ} (hac : 1 < ac) (hD : 0 < D) {R : ℝ} (hR : 0 < R) {z : ℝ} (hz : z ≠ 0) :
    KuzminKutuzov.Rzderiv ac D R z ≠ 0 := by
  have hg := KuzminKutuzov.neg_gamma_pos hac hD.ne'
  have h0 : HasDerivAt (fun x => deriv (fun y => KuzminKutuzov.evaluate ac D y x) R) (KuzminKutuzov.Rzderiv ac D R z) z :=
    ((KuzminKutuzov.consistent hac hD.ne').hess R z 0 0 (disc_pos hD hR z)).Rz
  have h1 : HasDerivAt (fun x => R * (1 + -(D ^ 2 / (1 - ac ^ 2)) / √(kkq ac D R x)) / √(kkw ac D R x) ^ 3) (KuzminKutuzov.Rzderiv ac D R z) z := by
    refine h0.congr_of_eventuallyEq (Filter.Eventually.of_forall fun x => ?_)
    have : HasDerivAt (fun y => KuzminKutuzov.evaluate ac D y x) (-KuzminKutuzov.Rforce ac D R x) R :=
      ((KuzminKutuzov.consistent hac hD.ne').grad R x 0 0 (disc_pos hD hR x)).dR
    simp only
    rw [this.deriv, kk_R hac hD hR, neg_neg]
  have pq := kkq_pos hac hD R z
  have pw := kkw_pos hac hD R z
  have sq' := sqrt_pos.2 pq
  have sw := sqrt_pos.2 pw
  have h2 : HasDerivAt (fun x => kkq ac D R x) ((D ^ 2 + -(D ^ 2 / (1 - ac ^ 2))) * (2 * z)) z := by
    unfold kkq
    generalize D ^ 2 / (1 - ac ^ 2) = g
    refine (((((hasDerivAt_id' z).pow 2).const_mul (D ^ 2)).sub (((((hasDerivAt_id' z).pow 2).const_add (R ^ 2)).add_const (D ^ 2)).const_mul g))).add_const (g ^ 2) |>.congr_deriv ?_
    norm_num
    ring
  have h3 : HasDerivAt (fun x => kkw ac D R x) (2 * z * (1 + (D ^ 2 + -(D ^ 2 / (1 - ac ^ 2))) / √(kkq ac D R z))) z := by
    have := ((((((hasDerivAt_id' z).pow 2).const_add (R ^ 2)).add_const (D ^ 2)).sub_const (2 * (D ^ 2 / (1 - ac ^ 2))))).add ((h2.sqrt pq.ne').const_mul 2)
    refine this.congr_deriv ?_
    norm_num
    field_simp
  have h4 := ((((hasDerivAt_const z (-(D ^ 2 / (1 - ac ^ 2)))).div (h2.sqrt pq.ne') sq'.ne').const_add 1).const_mul R).div
    ((h3.sqrt pw.ne').pow 3) (pow_pos sw 3).ne'
  have e := h1.unique h4
  simp only [Pi.pow_apply, Pi.div_apply] at e
  clear h1 h4
  rw [e]
  generalize D ^ 2 / (1 - ac ^ 2) = g at *
  have hg' : 0 < -g := by linarith
  generalize -g = k at *
  generalize √(kkq ac D R z) = q at *
  generalize √(kkw ac D R z) = w at *
  have key : (R * ((0 * q - k * ((D ^ 2 + k) * (2 * z) / (2 * q))) / q ^ 2) * w ^ 3 - R * (1 + k / q) * (3 * w ^ (3 - 1) * (2 * z * (1 + (D ^ 2 + k) / q) / (2 * w))))
      / (w ^ 3) ^ 2 = -(z * (R * (k * (D ^ 2 + k) / q ^ 3 * w ^ 3 + (1 + k / q) * 3 * w * (1 + (D ^ 2 + k) / q)) / w ^ 6)) := by
    field_simp
    ring
  have hpos : 0 < R * (k * (D ^ 2 + k) / q ^ 3 * w ^ 3 + (1 + k / q) * 3 * w * (1 + (D ^ 2 + k) / q)) / w ^ 6 := by positivity
  refine ne_of_eq_of_ne (Eq.trans ?_ key) (neg_ne_zero.2 (mul_ne_zero hz hpos.ne'))
  norm_num

end C78aux

open C78aux in
/-- For `KuzminKutuzovStaeckelPotential`, `estimateDeltaStaeckel` returns the parameter `Delta` at every point off the axis. -/
theorem C78_KuzminKutuzov_delta (amp ac D : ℝ) (hamp : amp ≠ 0) (hac : 1 < ac) (hD : 0 < D) (delta0 R z : ℝ) (hd : delta0 ^ 2 ≤ D ^ 2)
    (hR : 0 < R) :
    estimateDelta (fun R z => amp * KuzminKutuzov.Rforce ac D R z) (fun R z => amp * KuzminKutuzov.zforce ac D R z)
      (fun R z => amp * KuzminKutuzov.R2deriv ac D R z) (fun R z => amp * KuzminKutuzov.z2deriv ac D R z)
      (fun R z => amp * KuzminKutuzov.Rzderiv ac D R z) delta0 R z = D := by
  have hc := KuzminKutuzov.consistent hac hD.ne'
  have dR : ∀ R z, 0 < R → HasDerivAt (fun y => KuzminKutuzov.evaluate ac D y z) (-KuzminKutuzov.Rforce ac D R z) R :=
    fun R z h => (hc.grad R z 0 0 (disc_pos hD h z)).dR
  have dz : ∀ R z, 0 < R → HasDerivAt (fun y => KuzminKutuzov.evaluate ac D R y) (-KuzminKutuzov.zforce ac D R z) z :=
    fun R z h => (hc.grad R z 0 0 (disc_pos hD h z)).dz
  refine C78_delta (C78_KuzminKutuzov amp ac D hac hD) (fun R z h => ?_) (fun R z h => ?_) delta0 R z hd hR
    (fun hz => mul_ne_zero hamp (kk_Rz hac hD hR hz)) fun _ => mul_ne_zero hamp (kk_Rz hac hD hR (by norm_num))
  · have h1 : HasDerivAt (fun x => KuzminKutuzov.Rforce ac D x z) (-KuzminKutuzov.R2deriv ac D R z) R := by
      have := ((hc.hess R z 0 0 (disc_pos hD h z)).RR).neg
      refine this.congr_of_eventuallyEq ?_
      filter_upwards [lt_mem_nhds h] with x hx
      exact (by simpa using ((congrArg Neg.neg (dR x z hx).deriv).symm) : _)
    have h2 : HasDerivAt (fun x => KuzminKutuzov.Rforce ac D R x) (-KuzminKutuzov.Rzderiv ac D R z) z := by
      have := ((hc.hess R z 0 0 (disc_pos hD h z)).Rz).neg
      refine this.congr_of_eventuallyEq (Filter.Eventually.of_forall fun x => ?_)
      exact (by simpa using ((congrArg Neg.neg (dR R x h).deriv).symm) : _)
    have := fderiv_of_partials (f := fun R z => amp * KuzminKutuzov.Rforce ac D R z)
      (((force_smooth hac hD (q := (R, z)) h).1.differentiableAt (by norm_num)).const_mul amp) (h1.const_mul amp) (h2.const_mul amp)
    refine this.congr_fderiv ?_
    simp
  · have h1 : HasDerivAt (fun x => KuzminKutuzov.zforce ac D x z) (-KuzminKutuzov.Rzderiv ac D R z) R := by
      have := ((hc.hess R z 0 0 (disc_pos hD h z)).zR).neg
      refine this.congr_of_eventuallyEq ?_
      filter_upwards [lt_mem_nhds h] with x hx
      exact (by simpa using ((congrArg Neg.neg (dz x z hx).deriv).symm) : _)
    have h2 : HasDerivAt (fun x => KuzminKutuzov.zforce ac D R x) (-KuzminKutuzov.z2deriv ac D R z) z := by
      have := ((hc.hess R z 0 0 (disc_pos hD h z)).zz).neg
      refine this.congr_of_eventuallyEq (Filter.Eventually.of_forall fun x => ?_)
      exact (by simpa using ((congrArg Neg.neg (dz R x h).deriv).symm) : _)
    have := fderiv_of_partials (f := fun R z => amp * KuzminKutuzov.zforce ac D R z)
      (((force_smooth hac hD (q := (R, z)) h).2.differentiableAt (by norm_num)).const_mul amp) (h1.const_mul amp) (h2.const_mul amp)
    refine this.congr_fderiv ?_
    simp

example : estimateDelta (fun R z => 1 * KuzminKutuzov.Rforce 5 1 R z) (fun R z => 1 * KuzminKutuzov.zforce 5 1 R z)
    (fun R z => 1 * KuzminKutuzov.R2deriv 5 1 R z) (fun R z => 1 * KuzminKutuzov.z2deriv 5 1 R z)
    (fun R z => 1 * KuzminKutuzov.Rzderiv 5 1 R z) (1 / 10 ^ 6) 1 0 = 1 :=
  C78_KuzminKutuzov_delta 1 5 1 one_ne_zero (by norm_num) one_pos _ _ _ (by norm_num) one_pos

end Verif
