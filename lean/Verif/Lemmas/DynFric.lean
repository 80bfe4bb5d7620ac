import Verif.Model.DynFric
import Verif.Lemmas.Coords
import Verif.Util.Deriv

set_option autoImplicit false

/-!
# Lemmas on dynamical friction
-/

noncomputable section
namespace Verif.DynFric
open Real Spec Filter Set Coords
open scoped Topology

theorem Obj.Xfactor_eq (o : Obj) (r v : ℝ) : o.Xfactor r v = erfFac (v / (√2 * o.sr r)) := by
  simp only [Obj.Xfactor, erfFac]
  rw [show v * (1 / √2) / o.sr r = v / (√2 * o.sr r) by rw [mul_one_div, div_div]]
  ring

theorem CPar.Xfactor_eq (p : CPar) (r v : ℝ) : p.Xfactor r v = erfFac (v / (√2 * p.sr r)) := by
  simp only [CPar.Xfactor, erfFac]
  rw [show 1 / √2 * v / p.sr r = v / (√2 * p.sr r) by rw [one_div_mul_eq_div, div_div]]
  generalize v / (√2 * p.sr r) = X
  rw [show -X * X = -X ^ 2 by ring]
  ring

/-- `C` has partial derivatives `Cr`, `Cv` along every curve through `(r, v)`. -/
def CurveDeriv (C : ℝ → ℝ → ℝ) (r v Cr Cv : ℝ) : Prop :=
  ∀ (rc vc : ℝ → ℝ) (r' v' s : ℝ), rc s = r → vc s = v → HasDerivAt rc r' s → HasDerivAt vc v' s →
    HasDerivAt (fun s => C (rc s) (vc s)) (Cr * r' + Cv * v') s

theorem CurveDeriv.congr {C D : ℝ → ℝ → ℝ} {r v Cr Cv Dr Dv : ℝ} (h : CurveDeriv C r v Cr Cv) (hr : Cr = Dr) (hv : Cv = Dv)
    (he : ∀ (rc vc : ℝ → ℝ) (r' v' s : ℝ), rc s = r → vc s = v → HasDerivAt rc r' s → HasDerivAt vc v' s →
      ∀ᶠ u in 𝓝 s, D (rc u) (vc u) = C (rc u) (vc u)) : CurveDeriv D r v Dr Dv := by
  intro rc vc r' v' s h1 h2 h3 h4
  rw [← hr, ← hv]
  exact (h rc vc r' v' s h1 h2 h3 h4).congr_of_eventuallyEq (he rc vc r' v' s h1 h2 h3 h4)

theorem CurveDeriv.mul {C D : ℝ → ℝ → ℝ} {r v Cr Cv Dr Dv : ℝ} (h : CurveDeriv C r v Cr Cv) (k : CurveDeriv D r v Dr Dv) :
    CurveDeriv (fun r v => C r v * D r v) r v (Cr * D r v + C r v * Dr) (Cv * D r v + C r v * Dv) := by
  intro rc vc r' v' s h1 h2 h3 h4
  have := (h rc vc r' v' s h1 h2 h3 h4).mul (k rc vc r' v' s h1 h2 h3 h4)
  refine this.congr_deriv ?_
  simp only [h1, h2]
  ring

theorem CurveDeriv.comp {C : ℝ → ℝ → ℝ} {r v Cr Cv f' : ℝ} {f : ℝ → ℝ} (h : CurveDeriv C r v Cr Cv)
    (hf : HasDerivAt f f' (C r v)) : CurveDeriv (fun r v => f (C r v)) r v (f' * Cr) (f' * Cv) := by
  intro rc vc r' v' s h1 h2 h3 h4
  have hf' : HasDerivAt f f' (C (rc s) (vc s)) := by rw [h1, h2]; exact hf
  refine (hf'.comp s (h rc vc r' v' s h1 h2 h3 h4)).congr_deriv ?_
  ring

namespace CPar
variable {p : CPar}

/-- The grid of the spline and its derivative, at a radius that is not an end of the grid. -/
structure SplineOK (p : CPar) (r : ℝ) : Prop where
  grid : p.ro < p.rf
  lo : p.ro < r
  hi : r ≠ p.rf
  deriv : ∀ d, 0 < d → d < 1 → HasDerivAt p.cspl (p.cspl' d) d
  pos : 0 < p.sr r

theorem dInd_mid {r : ℝ} (hg : p.ro < p.rf) (h1 : p.ro ≤ r) (h2 : r ≤ p.rf) : p.dInd r = (r - p.ro) / (p.rf - p.ro) := by
  have hp : 0 < p.rf - p.ro := sub_pos.2 hg
  have a : ¬(r - p.ro) / (p.rf - p.ro) < 0 := not_lt.2 (div_nonneg (sub_nonneg.2 h1) hp.le)
  have b : ¬(r - p.ro) / (p.rf - p.ro) > 1 := not_lt.2 ((div_le_one hp).2 (by linarith))
  simp only [dInd]
  rw [if_neg a, if_neg b]

theorem dInd_out {r : ℝ} (hg : p.ro < p.rf) (h2 : p.rf < r) : p.dInd r = 1 := by
  have hp : 0 < p.rf - p.ro := sub_pos.2 hg
  have b : (r - p.ro) / (p.rf - p.ro) > 1 := (one_lt_div hp).2 (by linarith)
  simp only [dInd]
  rw [if_neg (by linarith), if_pos b]

theorem sr_deriv {r : ℝ} (h : SplineOK p r) : HasDerivAt p.sr (p.dsr r) r := by
  have hp : 0 < p.rf - p.ro := sub_pos.2 h.grid
  rcases lt_or_gt_of_ne h.hi with hi | hi
  · have d0 : 0 < (r - p.ro) / (p.rf - p.ro) := div_pos (sub_pos.2 h.lo) hp
    have d1 : (r - p.ro) / (p.rf - p.ro) < 1 := (div_lt_one hp).2 (by linarith)
    have hd : HasDerivAt (fun r => (r - p.ro) / (p.rf - p.ro)) (1 / (p.rf - p.ro)) r :=
      ((hasDerivAt_id r).sub_const _).div_const _
    refine (((h.deriv _ d0 d1).comp r hd).congr_of_eventuallyEq ?_).congr_deriv ?_
    · filter_upwards [Ioo_mem_nhds h.lo hi] with u hu
      simp only [sr, Function.comp]
      rw [dInd_mid h.grid hu.1.le hu.2.le]
    · simp only [dsr]
      rw [if_neg (by rintro (k | k) <;> linarith)]
      ring
  · have d1 : (r - p.ro) / (p.rf - p.ro) > 1 := (one_lt_div hp).2 (by linarith)
    have : p.dsr r = 0 := by
      simp only [dsr]
      rw [if_pos (Or.inr d1)]
    rw [this]
    refine (hasDerivAt_const r (p.cspl 1)).congr_of_eventuallyEq ?_
    filter_upwards [Ioi_mem_nhds hi] with u hu
    simp only [sr]
    rw [dInd_out h.grid hu]

theorem M_deriv {r v : ℝ} (h : SplineOK p r) :
    CurveDeriv (fun r v => v / p.sr r) r v (-(v / p.sr r) * p.dsr r / p.sr r) (1 / p.sr r) := by
  intro rc vc r' v' s h1 h2 h3 h4
  have hs : HasDerivAt (fun s => p.sr (rc s)) (p.dsr r * r') s := by
    have := sr_deriv h
    rw [← h1] at this ⊢
    exact this.comp s h3
  have hp := h.pos
  have := h4.div hs (by rw [h1]; exact hp.ne')
  refine this.congr_deriv ?_
  rw [h1, h2]
  field_simp
  ring

theorem Xf_deriv {r v : ℝ} (h : SplineOK p r) :
    CurveDeriv p.Xfactor r v (p.dXf r v * (-(1 / √2 * v / p.sr r) * p.dsr r / p.sr r)) (p.dXf r v * (1 / √2 / p.sr r)) := by
  have h2 : (0 : ℝ) < √2 := sqrt_pos.2 two_pos
  have hp := h.pos
  have hX : v / (√2 * p.sr r) = 1 / √2 * (v / p.sr r) := by field_simp
  have hm : HasDerivAt (fun x : ℝ => 1 / √2 * x) (1 / √2) (v / p.sr r) := by
    simpa using (hasDerivAt_id (v / p.sr r)).const_mul (1 / √2)
  have hc := ((M_deriv (v := v) h).comp hm).comp (f := erfFac) (erfFac_deriv _)
  refine hc.congr ?_ ?_ ?_
  · simp only [dXf]
    rw [show 1 / √2 * v / p.sr r = 1 / √2 * (v / p.sr r) by ring,
      show -(1 / √2 * (v / p.sr r)) * (1 / √2 * (v / p.sr r)) = -(1 / √2 * (v / p.sr r)) ^ 2 by ring]
    ring
  · simp only [dXf]
    rw [show 1 / √2 * v / p.sr r = 1 / √2 * (v / p.sr r) by ring,
      show -(1 / √2 * (v / p.sr r)) * (1 / √2 * (v / p.sr r)) = -(1 / √2 * (v / p.sr r)) ^ 2 by ring]
    ring
  · intro rc vc r' v' s _ _ _ _
    refine Eventually.of_forall fun u => ?_
    rw [Xfactor_eq, show vc u / (√2 * p.sr (rc u)) = 1 / √2 * (vc u / p.sr (rc u)) by
      rw [one_div_mul_eq_div, div_div, mul_comm]]

/-- The Coulomb logarithm is not at the switch between its two forms. -/
structure LogOK (p : CPar) (v : ℝ) : Prop where
  gamma : 0 < p.gamma2
  ms : 0 < p.ms
  off : p.lnLambda < 0 → p.ms / v ^ 2 ≠ p.rhm

theorem lnL_deriv {r v : ℝ} (h : LogOK p v) (hr : 0 < r) (hv : 0 < v) :
    CurveDeriv (fun r v => p.lnL (r ^ 2) v) r v (p.dlnLr (r ^ 2) v * r) (p.dlnLv (r ^ 2) v) := by
  have hg := h.gamma
  have hms := h.ms
  by_cases hL : p.lnLambda < 0
  · rcases lt_or_gt_of_ne (h.off hL) with hb | hb
    · have hrhm : 0 < p.rhm := lt_trans (by positivity) hb
      intro rc vc r' v' s h1 h2 h3 h4
      have hd : HasDerivAt (fun u => 0.5 * log (1 + rc u ^ 2 / p.gamma2 / p.rhm / p.rhm))
          (0.5 * (2 * r * r' / p.gamma2 / p.rhm / p.rhm / (1 + r ^ 2 / p.gamma2 / p.rhm / p.rhm))) s := by
        have := ((((((h3.pow 2).div_const p.gamma2).div_const p.rhm).div_const p.rhm).const_add 1).log
          (by simp only [Pi.pow_apply, h1]; positivity)).const_mul 0.5
        refine this.congr_deriv ?_
        simp only [Pi.pow_apply, h1]
        push_cast
        ring
      refine (hd.congr_of_eventuallyEq ?_).congr_deriv ?_
      · have hc : ContinuousAt (fun u => p.ms / vc u ^ 2) s :=
          continuousAt_const.div (h4.continuousAt.pow 2) (by rw [h2]; positivity)
        have : ∀ᶠ u in 𝓝 s, p.ms / vc u ^ 2 < p.rhm := hc.eventually_lt continuousAt_const (by rw [h2]; exact hb)
        filter_upwards [this] with u hu
        simp only [lnL]
        rw [if_pos hL, if_pos (by rw [div_div, ← pow_two]; exact hu)]
      · simp only [dlnLr, dlnLv]
        rw [if_pos hL, if_pos hL, if_pos hb, if_pos hb]
        field_simp
        ring
    · intro rc vc r' v' s h1 h2 h3 h4
      have hd : HasDerivAt (fun u => 0.5 * log (1 + rc u ^ 2 * vc u ^ 4 / (p.gamma2 * p.ms ^ 2)))
          (0.5 * ((2 * r * r' * v ^ 4 + r ^ 2 * (4 * v ^ 3 * v')) / (p.gamma2 * p.ms ^ 2)
            / (1 + r ^ 2 * v ^ 4 / (p.gamma2 * p.ms ^ 2)))) s := by
        have := (((((h3.pow 2).mul (h4.pow 4)).div_const (p.gamma2 * p.ms ^ 2)).const_add 1).log
          (by simp only [Pi.pow_apply, Pi.mul_apply, h1, h2]; positivity)).const_mul 0.5
        refine this.congr_deriv ?_
        simp only [Pi.pow_apply, Pi.mul_apply, h1, h2]
        push_cast
        ring
      refine (hd.congr_of_eventuallyEq ?_).congr_deriv ?_
      · have hc : ContinuousAt (fun u => p.ms / vc u ^ 2) s :=
          continuousAt_const.div (h4.continuousAt.pow 2) (by rw [h2]; positivity)
        have : ∀ᶠ u in 𝓝 s, p.rhm < p.ms / vc u ^ 2 := continuousAt_const.eventually_lt hc (by rw [h2]; exact hb)
        have hpos : ∀ᶠ u in 𝓝 s, 0 < vc u := continuousAt_const.eventually_lt h4.continuousAt (by rw [h2]; exact hv)
        filter_upwards [this, hpos] with u hu hu'
        simp only [lnL]
        rw [if_pos hL, if_neg (by rw [div_div, ← pow_two]; exact not_lt.2 hu.le)]
        congr 3
        field_simp
      · simp only [dlnLr, dlnLv]
        rw [if_pos hL, if_pos hL, if_neg (not_lt.2 hb.le), if_neg (not_lt.2 hb.le)]
        field_simp
        ring
  · intro rc vc r' v' s _ _ _ _
    simp only [dlnLr, dlnLv, lnL]
    rw [if_neg hL, if_neg hL]
    simp only [if_neg hL]
    refine (hasDerivAt_const s p.lnLambda).congr_deriv (by ring)

/-- The classical coefficient. -/
theorem ccdm_deriv {r v : ℝ} (hs : SplineOK p r) (hL : LogOK p v) (hr : 0 < r) (hv : 0 < v) :
    CurveDeriv (fun r v => p.lnL (r ^ 2) v * p.Xfactor r v) r v
      (p.dlnLr (r ^ 2) v * r * p.Xfactor r v + p.lnL (r ^ 2) v * p.dXf r v * (-(1 / √2 * v / p.sr r) * p.dsr r / p.sr r))
      (p.dlnLv (r ^ 2) v * p.Xfactor r v + p.lnL (r ^ 2) v * p.dXf r v * (1 / √2 / p.sr r)) :=
  ((lnL_deriv hL hr hv).mul (Xf_deriv hs)).congr (by ring) (by ring) fun _ _ _ _ _ _ _ _ _ => Eventually.of_forall fun _ => rfl

theorem fdm_deriv {mhbar constF r v : ℝ} (hs : SplineOK p r) (hr : 0 < r) (hv : 0 < v) (hm : 0 < mhbar) (hF : constF < 0)
    (h1 : 2 * mhbar * v * r ≠ v / p.sr r) (h4 : 2 * mhbar * v * r ≠ 4 * (v / p.sr r)) :
    CurveDeriv (p.fdmFactor mhbar constF) r v (p.dfdmr mhbar r v) (p.dfdmv mhbar r v) := by
  have hsr := hs.pos
  have hk0 : 0 < 2 * mhbar * v * r := by positivity
  have hM0 : 0 < v / p.sr r := by positivity
  have dk : CurveDeriv (fun r v => 2 * mhbar * v * r) r v (2 * mhbar * v) (2 * mhbar * r) := by
    intro rc vc r' v' s e1 e2 e3 e4
    refine (((e4.const_mul (2 * mhbar))).mul e3).congr_deriv ?_
    rw [e1, e2]; ring
  have dM := M_deriv (v := v) hs
  have dX := Xf_deriv (v := v) hs
  have ck : ∀ {rc vc : ℝ → ℝ} {s : ℝ}, ContinuousAt rc s → ContinuousAt vc s →
      ContinuousAt (fun u => 2 * mhbar * vc u * rc u) s := fun a b => (continuousAt_const.mul b).mul a
  have cM : ∀ {rc vc : ℝ → ℝ} {s : ℝ}, rc s = r → ContinuousAt rc s → ContinuousAt vc s →
      ContinuousAt (fun u => vc u / p.sr (rc u)) s := fun {rc vc s} e a b =>
    b.div (ContinuousAt.comp (g := p.sr) (f := rc) (x := s) (by rw [e]; exact (sr_deriv hs).continuousAt) a) (by rw [e]; exact hsr.ne')
  have c4 : ∀ {rc vc : ℝ → ℝ} {s : ℝ}, rc s = r → ContinuousAt rc s → ContinuousAt vc s →
      ContinuousAt (fun u => 4 * (vc u / p.sr (rc u))) s := fun e a b => continuousAt_const.mul (cM e a b)
  have e2 : (2.0 : ℝ) = 2 := by norm_num
  rcases lt_or_gt_of_ne h1 with hlt | hgt
  · -- zero-velocity regime
    refine (dk.comp (f := zvFac) (zvFac_deriv hk0)).congr ?_ ?_ ?_
    · simp only [dfdmr]
      rw [if_pos hlt]
      field_simp
    · simp only [dfdmv]
      rw [if_pos hlt]
      field_simp
    · intro rc vc r' v' s e1 e3 a b
      replace a := a.continuousAt
      replace b := b.continuousAt
      filter_upwards [(ck a b).eventually_lt (cM e1 a b) (by simp only [e1, e3]; exact hlt)] with u hu
      simp only [fdmFactor, e2]
      rw [if_pos hF, if_pos hu, zvFac]
      ring
  · rcases lt_or_gt_of_ne h4 with hlt4 | hgt4
    · -- intermediate regime
      intro rc vc r' v' s e1 e3 e4 e5
      have Dk := dk rc vc r' v' s e1 e3 e4 e5
      have DM := dM rc vc r' v' s e1 e3 e4 e5
      have DX := dX rc vc r' v' s e1 e3 e4 e5
      have DZ := (dM.comp (f := zvFac) (zvFac_deriv hM0)) rc vc r' v' s e1 e3 e4 e5
      have Dmu := (hd_div ((DM.const_mul 2).sub (Dk.div_const 2)) ((DM.const_mul 2).sub (DM.div_const 2))
        (by simp only [Pi.sub_apply, e1, e3]; linarith [hM0]))
      have Dall := (Dmu.mul DZ).add ((Dmu.const_sub 1).mul (DX.const_mul (log 4)))
      refine (Dall.congr_of_eventuallyEq ?_).congr_deriv ?_
      · have a1 := (cM e1 e4.continuousAt e5.continuousAt).eventually_lt (ck e4.continuousAt e5.continuousAt)
          (by simp only [e1, e3]; exact hgt)
        have a2 := (ck e4.continuousAt e5.continuousAt).eventually_lt (c4 e1 e4.continuousAt e5.continuousAt)
          (by simp only [e1, e3]; exact hlt4)
        filter_upwards [a1, a2] with u hu hu'
        simp only [fdmFactor, e2]
        rw [if_pos hF, if_neg (not_lt.2 hu.le), if_neg (not_lt.2 hu'.le)]
        simp only [zvFac, Pi.add_apply, Pi.mul_apply, Pi.sub_apply]
        ring
      · simp only [dfdmr, dfdmv, e1, e3, Pi.sub_apply]
        rw [if_neg (not_lt.2 hgt.le), if_neg (not_lt.2 hlt4.le), if_neg (not_lt.2 hgt.le), if_neg (not_lt.2 hlt4.le)]
        have hz : zvFac (v / p.sr r) = eulerMascheroniConstant + log (v / p.sr r) - Ci (v / p.sr r)
            + sin (v / p.sr r) / (v / p.sr r) - 1 := by rw [zvFac]; ring
        rw [← hz]
        generalize zvFac (v / p.sr r) = Z
        generalize sin (v / p.sr r) = sM
        generalize p.dXf r v = dXf
        generalize p.Xfactor r v = Xf
        generalize log 4 = l4
        field_simp
        ring
    · -- dispersion regime
      intro rc vc r' v' s e1 e3 e4 e5
      have Dk := dk rc vc r' v' s e1 e3 e4 e5
      have DM := dM rc vc r' v' s e1 e3 e4 e5
      have DX := dX rc vc r' v' s e1 e3 e4 e5
      have Dl := (hd_div Dk DM (by simp only [e1, e3]; exact hM0.ne')).log
        (by simp only [e1, e3]; exact (div_pos hk0 hM0).ne')
      refine ((Dl.mul DX).congr_of_eventuallyEq ?_).congr_deriv ?_
      · have a1 := (cM e1 e4.continuousAt e5.continuousAt).eventually_lt (ck e4.continuousAt e5.continuousAt)
          (by simp only [e1, e3]; exact hgt)
        have a2 := (c4 e1 e4.continuousAt e5.continuousAt).eventually_lt (ck e4.continuousAt e5.continuousAt)
          (by simp only [e1, e3]; exact hgt4)
        filter_upwards [a1, a2] with u hu hu'
        simp only [fdmFactor, e2]
        rw [if_pos hF, if_neg (not_lt.2 hu.le), if_pos hu']
        rfl
      · simp only [dfdmr, dfdmv, e1, e3]
        rw [if_neg (not_lt.2 hgt.le), if_pos hgt4, if_neg (not_lt.2 hgt.le), if_pos hgt4]
        generalize p.dXf r v = dXf
        generalize p.Xfactor r v = Xf
        generalize log (2 * mhbar * v * r / (v / p.sr r)) = lg
        field_simp
        ring

/-- The coefficient that the FDM force applies. -/
def coefFDM (p : CPar) (mhbar constF r v : ℝ) : ℝ :=
  if p.fdmFactor mhbar constF r v / (p.lnL (r ^ 2) v * p.Xfactor r v) < 1 ∨ constF ≥ 0 then p.fdmFactor mhbar constF r v
  else p.lnL (r ^ 2) v * p.Xfactor r v

theorem ceff_deriv {mhbar constF r v : ℝ} (hs : SplineOK p r) (hL : LogOK p v) (hr : 0 < r) (hv : 0 < v)
    (hC : 0 < p.lnL (r ^ 2) v * p.Xfactor r v)
    (hreg : constF < 0 → 0 < mhbar ∧ 2 * mhbar * v * r ≠ v / p.sr r ∧ 2 * mhbar * v * r ≠ 4 * (v / p.sr r)
      ∧ p.fdmFactor mhbar constF r v ≠ p.lnL (r ^ 2) v * p.Xfactor r v) :
    CurveDeriv (p.coefFDM mhbar constF) r v (p.ceff mhbar constF r v).2.1 (p.ceff mhbar constF r v).2.2
    ∧ (p.ceff mhbar constF r v).1 = p.coefFDM mhbar constF r v := by
  by_cases hF : constF < 0
  · obtain ⟨hm, h1, h4, hne⟩ := hreg hF
    have dF := fdm_deriv hs hr hv hm hF h1 h4
    have dC := ccdm_deriv hs hL hr hv
    have cq : ∀ {rc vc : ℝ → ℝ} {r' v' s : ℝ}, rc s = r → vc s = v → HasDerivAt rc r' s → HasDerivAt vc v' s →
        ContinuousAt (fun u => p.fdmFactor mhbar constF (rc u) (vc u)
          / (p.lnL (rc u ^ 2) (vc u) * p.Xfactor (rc u) (vc u))) s := fun {rc vc r' v' s} e1 e2 a b =>
      ((dF rc vc r' v' s e1 e2 a b).continuousAt).div ((dC rc vc r' v' s e1 e2 a b).continuousAt)
        (by simp only [e1, e2]; exact hC.ne')
    rcases lt_or_gt_of_ne hne with hlt | hgt
    · have hq : p.fdmFactor mhbar constF r v / (p.lnL (r ^ 2) v * p.Xfactor r v) < 1 := (div_lt_one hC).2 hlt
      constructor
      · refine dF.congr ?_ ?_ ?_
        · simp only [ceff]; rw [if_pos hF, if_pos hq]
        · simp only [ceff]; rw [if_pos hF, if_pos hq]
        · intro rc vc r' v' s e1 e2 a b
          filter_upwards [(cq e1 e2 a b).eventually_lt continuousAt_const (by simp only [e1, e2]; exact hq)] with u hu
          simp only [coefFDM]
          rw [if_pos (Or.inl hu)]
      · simp only [ceff, coefFDM]; rw [if_pos hF, if_pos hq, if_pos (Or.inl hq)]
    · have hq : 1 < p.fdmFactor mhbar constF r v / (p.lnL (r ^ 2) v * p.Xfactor r v) := (one_lt_div hC).2 hgt
      constructor
      · refine dC.congr ?_ ?_ ?_
        · simp only [ceff]; rw [if_pos hF, if_neg (not_lt.2 hq.le)]
        · simp only [ceff]; rw [if_pos hF, if_neg (not_lt.2 hq.le)]
        · intro rc vc r' v' s e1 e2 a b
          filter_upwards [continuousAt_const.eventually_lt (cq e1 e2 a b) (by simp only [e1, e2]; exact hq)] with u hu
          simp only [coefFDM]
          rw [if_neg (by rintro (k | k) <;> linarith)]
      · simp only [ceff, coefFDM]
        rw [if_pos hF, if_neg (not_lt.2 hq.le), if_neg (by rintro (k | k) <;> linarith)]
  · have e : p.coefFDM mhbar constF = fun _ _ => constF := by
      funext r v
      simp only [coefFDM, fdmFactor]
      rw [if_pos (Or.inr (not_lt.1 hF)), if_neg hF]
    constructor
    · intro rc vc r' v' s _ _ _ _
      rw [e]
      simp only [ceff]
      rw [if_neg hF]
      exact (hasDerivAt_const s constF).congr_deriv (by ring)
    · rw [e]
      simp only [ceff]
      rw [if_neg hF]

/-- A friction force `A v` with `A = -amp C(r, v) ρ / v³`, along a curve in phase space. -/
theorem assemble {C : ℝ → ℝ → ℝ} {amp Cr Cv ρ : ℝ} {c : ℝ → Fin 6 → ℝ} {c' : Fin 6 → ℝ} {s : ℝ} {ρc : ℝ → ℝ} {g : Vec}
    (hc : ∀ i, HasDerivAt (fun u => c u i) (c' i) s)
    (hr : 0 < c s 0 * c s 0 + c s 1 * c s 1 + c s 2 * c s 2) (hv : 0 < c s 3 * c s 3 + c s 4 * c s 4 + c s 5 * c s 5)
    (hC : CurveDeriv C (√(c s 0 * c s 0 + c s 1 * c s 1 + c s 2 * c s 2)) (√(c s 3 * c s 3 + c s 4 * c s 4 + c s 5 * c s 5)) Cr Cv)
    (hρ : HasDerivAt ρc (g 0 * c' 0 + g 1 * c' 1 + g 2 * c' 2) s) (hρ0 : ρc s = ρ) (k : Fin 6) :
    let r := √(c s 0 * c s 0 + c s 1 * c s 1 + c s 2 * c s 2);
    let v := √(c s 3 * c s 3 + c s 4 * c s 4 + c s 5 * c s 5);
    let Cf := -amp / v ^ 2 / v;
    let A := Cf * C r v * ρ;
    let dAdv := Cf * ρ * (Cv - 3 * C r v / v);
    let dAdx : Fin 3 → Fin 6 → ℝ := fun j l => Cf * (Cr * c s l / r * ρ + C r v * g j);
    HasDerivAt (fun u => -amp * C (√(c u 0 * c u 0 + c u 1 * c u 1 + c u 2 * c u 2)) (√(c u 3 * c u 3 + c u 4 * c u 4 + c u 5 * c u 5))
        / (√(c u 3 * c u 3 + c u 4 * c u 4 + c u 5 * c u 5)) ^ 3 * ρc u * c u k)
      (c s k * dAdx 0 0 * c' 0 + c s k * dAdx 1 1 * c' 1 + c s k * dAdx 2 2 * c' 2
        + c s k * c s 3 / v * dAdv * c' 3 + c s k * c s 4 / v * dAdv * c' 4 + c s k * c s 5 / v * dAdv * c' 5 + A * c' k) s := by
  intro r v Cf A dAdv dAdx
  have hrp : 0 < r := sqrt_pos.2 hr
  have hvp : 0 < v := sqrt_pos.2 hv
  have dr : HasDerivAt (fun u => √(c u 0 * c u 0 + c u 1 * c u 1 + c u 2 * c u 2))
      ((c s 0 * c' 0 + c s 1 * c' 1 + c s 2 * c' 2) / r) s := by
    have := ((((hc 0).mul (hc 0)).add ((hc 1).mul (hc 1))).add ((hc 2).mul (hc 2))).sqrt hr.ne'
    refine this.congr_deriv ?_
    simp only [Pi.add_apply, Pi.mul_apply]
    show _ / (2 * r) = _
    field_simp
    ring
  have dv : HasDerivAt (fun u => √(c u 3 * c u 3 + c u 4 * c u 4 + c u 5 * c u 5))
      ((c s 3 * c' 3 + c s 4 * c' 4 + c s 5 * c' 5) / v) s := by
    have := ((((hc 3).mul (hc 3)).add ((hc 4).mul (hc 4))).add ((hc 5).mul (hc 5))).sqrt hv.ne'
    refine this.congr_deriv ?_
    simp only [Pi.add_apply, Pi.mul_apply]
    show _ / (2 * v) = _
    field_simp
    ring
  have dC := hC _ _ _ _ s rfl rfl dr dv
  have := (((hd_div (dC.const_mul (-amp)) (dv.pow 3) (pow_ne_zero 3 hvp.ne')).mul hρ).mul (hc k))
  refine this.congr_deriv ?_
  simp only [hρ0, Pi.pow_apply, Pi.mul_apply]
  rw [show √(c s 0 * c s 0 + c s 1 * c s 1 + c s 2 * c s 2) = r from rfl,
    show √(c s 3 * c s 3 + c s 4 * c s 4 + c s 5 * c s 5) = v from rfl]
  simp only [A, dAdv, dAdx, Cf]
  generalize C r v = C0
  clear_value r v
  field_simp
  push_cast
  ring

end CPar
end Verif.DynFric
