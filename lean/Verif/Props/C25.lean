import Verif.Lemmas.Coords
import Mathlib.Analysis.Real.Pi.Bounds

set_option autoImplicit false

/-!
# C25: equatorial, Galactic and custom sky coordinates

`Spec.dir lon lat` is the unit vector of a position on the sky.  The proper motion statements say that the
converted proper motion is the rate of change of the converted position, along every motion on the sky.
-/

noncomputable section
namespace Verif
open Real Coords

/-- Away from the two Galactic poles. -/
def C25aux.OffPole (e : Epoch) (ra dec : ℝ) : Prop :=
  Spec.dir ra dec ≠ Spec.dir e.ra_ngp e.dec_ngp ∧ Spec.dir ra dec ≠ -Spec.dir e.ra_ngp e.dec_ngp

open C25aux (OffPole)

theorem C25aux.OffPole.lt {e : Epoch} {ra dec : ℝ} (h : OffPole e ra dec) :
    newLat e.ra_ngp e.dec_ngp ra dec ^ 2 < 1 := newLat_lt h.1 h.2

/-- Both conversions are one rotation: the right-handed frame with the given north pole, in which the celestial
pole has the given longitude. -/
theorem C25_direction (e : Epoch) : ∃ T, Spec.IsFrame e.theta e.ra_ngp e.dec_ngp T ∧
    (∀ ra dec, OffPole e ra dec →
      Spec.dir (radec_to_lb e ra dec).1 (radec_to_lb e ra dec).2 = T.mulVec (Spec.dir ra dec)) ∧
    ∀ l b, T.mulVec (Spec.dir (lb_to_radec e l b).1 (lb_to_radec e l b).2) = Spec.dir l b := by
  refine ⟨radecT e, radecT_frame e, ?_, ?_⟩
  · intro ra dec h
    rw [radec_to_lb_eq e ra dec h.lt]
    exact custom_dir (radecT_rotation e).1 ra dec
  · intro l b
    rw [lb_to_radec_eq, custom_dir (rot_transpose (radecT_rotation e)).1, Matrix.mulVec_mulVec,
      (radecT_rotation e).1, Matrix.one_mulVec]

/-- Longitudes are returned in `[0, 2 pi)`, latitudes in `[-pi/2, pi/2]`. -/
theorem C25_ranges (e : Epoch) (x y : ℝ) :
    (0 ≤ (lb_to_radec e x y).1 ∧ (lb_to_radec e x y).1 < 2 * π) ∧
      (-(π / 2) ≤ (lb_to_radec e x y).2 ∧ (lb_to_radec e x y).2 ≤ π / 2) ∧
      (OffPole e x y → (0 ≤ (radec_to_lb e x y).1 ∧ (radec_to_lb e x y).1 < 2 * π) ∧
        -(π / 2) < (radec_to_lb e x y).2 ∧ (radec_to_lb e x y).2 < π / 2) := by
  refine ⟨?_, ?_, fun h => ?_⟩
  · rw [lb_to_radec_eq]; exact (custom_range _ _ _).1
  · rw [lb_to_radec_eq]; exact (custom_range _ _ _).2
  · rw [radec_to_lb_eq e x y h.lt]
    refine ⟨(custom_range _ _ _).1, ?_⟩
    have h2 : (radec_to_custom (radecT e) x y).2 = arcsin (newLat e.ra_ngp e.dec_ngp x y) := by
      simp only [radec_to_custom, sky_lat (radecT_row e)]
    have := h.lt
    rw [h2]
    exact ⟨Real.neg_pi_div_two_lt_arcsin.2 (by nlinarith), Real.arcsin_lt_pi_div_two.2 (by nlinarith)⟩

/-- Round trip from equatorial coordinates. -/
theorem C25_round_trip (e : Epoch) (ra dec : ℝ) (h : OffPole e ra dec) (h1 : 0 ≤ ra) (h2 : ra < 2 * π)
    (h3 : -(π / 2) < dec) (h4 : dec < π / 2) :
    lb_to_radec e (radec_to_lb e ra dec).1 (radec_to_lb e ra dec).2 = (ra, dec) := by
  rw [lb_to_radec_eq]
  refine custom_inverse (radecT_rotation e).1 ?_ h1 h2 h3 h4
  rw [radec_to_lb_eq e ra dec h.lt]
  exact custom_dir (radecT_rotation e).1 ra dec

/-- A Galactic position off the Galactic poles is off the poles in equatorial coordinates. -/
theorem C25aux.offPole_of_lb (e : Epoch) (l b : ℝ) (h3 : -(π / 2) < b) (h4 : b < π / 2) :
    newLat e.ra_ngp e.dec_ngp (lb_to_radec e l b).1 (lb_to_radec e l b).2 = sin b ∧
      newLat e.ra_ngp e.dec_ngp (lb_to_radec e l b).1 (lb_to_radec e l b).2 ^ 2 < 1 := by
  have hd : (radecT e).mulVec (skyXYZ (lb_to_radec e l b).1 (lb_to_radec e l b).2) = Spec.dir l b := by
    rw [lb_to_radec_eq, skyXYZ_eq, custom_dir (rot_transpose (radecT_rotation e)).1, Matrix.mulVec_mulVec,
      (radecT_rotation e).1, Matrix.one_mulVec]
  have e2 : newLat e.ra_ngp e.dec_ngp (lb_to_radec e l b).1 (lb_to_radec e l b).2 = sin b := by
    rw [← sky_lat (radecT_row e), hd]; simp [Spec.dir]
  refine ⟨e2, ?_⟩
  rw [e2]
  have := Real.cos_pos_of_mem_Ioo ⟨h3, h4⟩
  nlinarith [Real.sin_sq_add_cos_sq b]

/-- Round trip from Galactic coordinates. -/
theorem C25_round_trip_galactic (e : Epoch) (l b : ℝ) (h1 : 0 ≤ l) (h2 : l < 2 * π) (h3 : -(π / 2) < b)
    (h4 : b < π / 2) : radec_to_lb e (lb_to_radec e l b).1 (lb_to_radec e l b).2 = (l, b) := by
  rw [radec_to_lb_eq e _ _ (C25aux.offPole_of_lb e l b h3 h4).2]
  have := custom_inverse (T := (radecT e).transpose) (rot_transpose (radecT_rotation e)).1
    (ra := l) (dec := b) (l := (lb_to_radec e l b).1) (b := (lb_to_radec e l b).2) ?_ h1 h2 h3 h4
  · rwa [Matrix.transpose_transpose] at this
  · rw [lb_to_radec_eq]; exact custom_dir (rot_transpose (radecT_rotation e)).1 l b

theorem C25aux.pmAngles_eq {decp rap ra dec : ℝ} (h : dec ≠ decp) :
    pmAngles decp rap ra dec = (kap rap decp ra dec / sqrt (kap rap decp ra dec ^ 2 + sig rap decp ra ^ 2),
      sig rap decp ra / sqrt (kap rap decp ra dec ^ 2 + sig rap decp ra ^ 2)) := by
  simp only [pmAngles, if_neg h, kap, sig]

/-- The converted proper motion is the rate of the converted position: with `pmra = ra' cos dec`,
`pmdec = dec'`, the rates of `l` and `b` are `pmll / cos b` and `pmbb`.  Excluded are the Galactic poles, the
jump of the longitude at `l = 0`, and `dec = dec_ngp` exactly, where the code moves `dec` by `1e-16`. -/
theorem C25_proper_motion (e : Epoch) {ra dec : ℝ → ℝ} {ra' dec' t : ℝ} (hra : HasDerivAt ra ra' t)
    (hdec : HasDerivAt dec dec' t) (hp : OffPole e (ra t) (dec t)) (hl : (radec_to_lb e (ra t) (dec t)).1 ≠ 0)
    (hd : dec t ≠ e.dec_ngp) :
    HasDerivAt (fun s => (radec_to_lb e (ra s) (dec s)).1)
        ((pmrapmdec_to_pmllpmbb e (ra' * cos (dec t)) dec' (ra t) (dec t)).1 /
          cos (radec_to_lb e (ra t) (dec t)).2) t ∧
      HasDerivAt (fun s => (radec_to_lb e (ra s) (dec s)).2)
        (pmrapmdec_to_pmllpmbb e (ra' * cos (dec t)) dec' (ra t) (dec t)).2 t := by
  have hlt := hp.lt
  have hev : ∀ᶠ s in nhds t, radec_to_lb e (ra s) (dec s) = radec_to_custom (radecT e) (ra s) (dec s) := by
    have hc : ContinuousAt (fun s => newLat e.ra_ngp e.dec_ngp (ra s) (dec s) ^ 2) t := by
      have h1 := hra.continuousAt
      have h2 := hdec.continuousAt
      unfold newLat
      fun_prop
    exact (hc.eventually_lt continuousAt_const hlt).mono fun s hs => radec_to_lb_eq e _ _ hs
  rw [radec_to_lb_eq e _ _ hlt] at hl ⊢
  have hcut := wrap_atan2_ne hl
  have hpos : 0 < 1 - newLat e.ra_ngp e.dec_ngp (ra t) (dec t) ^ 2 := by linarith
  have hb : cos (radec_to_custom (radecT e) (ra t) (dec t)).2 =
      sqrt (1 - newLat e.ra_ngp e.dec_ngp (ra t) (dec t) ^ 2) := by
    simp only [radec_to_custom, sky_lat (radecT_row e), Real.cos_arcsin]
  have hs := Real.sqrt_pos.2 hpos
  have hss := Real.sq_sqrt hpos.le
  constructor
  · refine HasDerivAt.congr_of_eventuallyEq (f := fun s => (radec_to_custom (radecT e) (ra s) (dec s)).1) ?_
      (hev.mono fun s hs => by simp only [hs])
    refine (hd_newlon (radecT_row e) (radecT_rotation e) hra hdec hcut).congr_deriv ?_
    rw [hb]
    simp only [pmrapmdec_to_pmllpmbb, C25aux.pmAngles_eq hd, kap_sig]
    generalize sqrt (1 - newLat e.ra_ngp e.dec_ngp (ra t) (dec t) ^ 2) = w at *
    rw [← hss]; field_simp
  · refine HasDerivAt.congr_of_eventuallyEq (f := fun s => (radec_to_custom (radecT e) (ra s) (dec s)).2) ?_
      (hev.mono fun s hs => by simp only [hs])
    refine (hd_newlat (radecT_row e) hra hdec hlt).congr_deriv ?_
    simp only [pmrapmdec_to_pmllpmbb, C25aux.pmAngles_eq hd, kap_sig]
    generalize sqrt (1 - newLat e.ra_ngp e.dec_ngp (ra t) (dec t) ^ 2) = w at *
    field_simp

/-- The same for the conversion from Galactic proper motions. -/
theorem C25_proper_motion_galactic (e : Epoch) {l b : ℝ → ℝ} {l' b' t : ℝ} (hl : HasDerivAt l l' t)
    (hb : HasDerivAt b b' t) (hb1 : -(π / 2) < b t) (hb2 : b t < π / 2)
    (hra : (lb_to_radec e (l t) (b t)).1 ≠ 0) (hpole : cos (lb_to_radec e (l t) (b t)).2 ≠ 0)
    (hd : (lb_to_radec e (l t) (b t)).2 ≠ e.dec_ngp) :
    HasDerivAt (fun s => (lb_to_radec e (l s) (b s)).1)
        ((pmllpmbb_to_pmrapmdec e (l' * cos (b t)) b' (l t) (b t)).1 / cos (lb_to_radec e (l t) (b t)).2) t ∧
      HasDerivAt (fun s => (lb_to_radec e (l s) (b s)).2)
        (pmllpmbb_to_pmrapmdec e (l' * cos (b t)) b' (l t) (b t)).2 t := by
  set T := (radecT e).transpose with hT
  have hTr := rot_transpose (radecT_rotation e)
  have hn : ∀ i, T 2 i = Spec.dir e.theta e.dec_ngp i := fun i => by
    rw [hT, Matrix.transpose_apply, radecT_col]
  have hlt : newLat e.theta e.dec_ngp (l t) (b t) ^ 2 < 1 := by
    have h2 : (lb_to_radec e (l t) (b t)).2 = arcsin (newLat e.theta e.dec_ngp (l t) (b t)) := by
      rw [lb_to_radec_eq]; simp only [radec_to_custom, ← hT, sky_lat hn]
    rw [h2, Real.cos_arcsin] at hpole
    have := Real.sqrt_ne_zero'.1 hpole
    linarith
  have e1 : (fun s => (lb_to_radec e (l s) (b s)).1) =
      fun s => wrap (atan2 (T.mulVec (skyXYZ (l s) (b s)) 1) (T.mulVec (skyXYZ (l s) (b s)) 0)) := by
    funext s; rw [lb_to_radec_eq]; rfl
  have e2 : (fun s => (lb_to_radec e (l s) (b s)).2) = fun s => arcsin (T.mulVec (skyXYZ (l s) (b s)) 2) := by
    funext s; rw [lb_to_radec_eq]; rfl
  have hcut : T.mulVec (skyXYZ (l t) (b t)) 0 < 0 ∨ T.mulVec (skyXYZ (l t) (b t)) 1 ≠ 0 := by
    have h1 := congrFun e1 t
    rw [h1] at hra
    exact wrap_atan2_ne hra
  have d1 := hd_newlon hn hTr hl hb hcut
  have d2 := hd_newlat hn hl hb hlt
  rw [← e1] at d1
  rw [← e2] at d2
  generalize (kap e.theta e.dec_ngp (l t) (b t) * (cos (b t) * l') + sig e.theta e.dec_ngp (l t) * b') /
        (1 - newLat e.theta e.dec_ngp (l t) (b t) ^ 2) = ra' at d1
  generalize (-sig e.theta e.dec_ngp (l t) * (cos (b t) * l') + kap e.theta e.dec_ngp (l t) (b t) * b') /
        sqrt (1 - newLat e.theta e.dec_ngp (l t) (b t) ^ 2) = dec' at d2
  have hdir : ∀ s, Spec.dir (l s) (b s) =
      (radecT e).mulVec (skyXYZ (lb_to_radec e (l s) (b s)).1 (lb_to_radec e (l s) (b s)).2) := by
    intro s
    rw [lb_to_radec_eq, skyXYZ_eq, custom_dir (rot_transpose (radecT_rotation e)).1, Matrix.mulVec_mulVec,
      (radecT_rotation e).1, Matrix.one_mulVec]
  obtain ⟨q1, q2, q3⟩ := rates_of_dir (radecT_row e) (radecT_rotation e) d1 d2 hl hb hdir
  have hcb : 0 < cos (b t) := Real.cos_pos_of_mem_Ioo ⟨hb1, hb2⟩
  refine ⟨d1.congr_deriv ?_, d2.congr_deriv ?_⟩
  all_goals
    simp only [pmllpmbb_to_pmrapmdec, C25aux.pmAngles_eq hd, ← q1, Real.sqrt_sq hcb.le]
    generalize kap e.ra_ngp e.dec_ngp (lb_to_radec e (l t) (b t)).1 (lb_to_radec e (l t) (b t)).2 = k at *
    generalize sig e.ra_ngp e.dec_ngp (lb_to_radec e (l t) (b t)).1 = m at *
    generalize cos (lb_to_radec e (l t) (b t)).2 = cd at *
    generalize cos (b t) = c at *
    field_simp
  · apply mul_left_cancel₀ hcb.ne'
    linear_combination (ra' * cd) * q1 - k * q2 + m * q3
  · apply mul_left_cancel₀ hcb.ne'
    linear_combination dec' * q1 - m * q2 - k * q3

/-- The total proper motion does not change. -/
theorem C25_proper_motion_norm (e : Epoch) (pmra pmdec ra dec : ℝ) (hp : OffPole e ra dec) (hd : dec ≠ e.dec_ngp) :
    (pmrapmdec_to_pmllpmbb e pmra pmdec ra dec).1 ^ 2 + (pmrapmdec_to_pmllpmbb e pmra pmdec ra dec).2 ^ 2 =
      pmra ^ 2 + pmdec ^ 2 := by
  have hpos : 0 < 1 - newLat e.ra_ngp e.dec_ngp ra dec ^ 2 := by linarith [hp.lt]
  have h := kap_sig e.ra_ngp e.dec_ngp ra dec
  have hs := Real.sqrt_pos.2 hpos
  have hss := Real.sq_sqrt hpos.le
  simp only [pmrapmdec_to_pmllpmbb, C25aux.pmAngles_eq hd, h]
  generalize sqrt (1 - newLat e.ra_ngp e.dec_ngp ra dec ^ 2) = w at *
  rw [← hss] at h
  field_simp
  linear_combination (pmra ^ 2 + pmdec ^ 2) * h

/-- Proper motions make the round trip. -/
theorem C25_proper_motion_round_trip (e : Epoch) (pmra pmdec ra dec : ℝ) (hp : OffPole e ra dec)
    (hd : dec ≠ e.dec_ngp) (h1 : 0 ≤ ra) (h2 : ra < 2 * π) (h3 : -(π / 2) < dec) (h4 : dec < π / 2) :
    pmllpmbb_to_pmrapmdec e (pmrapmdec_to_pmllpmbb e pmra pmdec ra dec).1
      (pmrapmdec_to_pmllpmbb e pmra pmdec ra dec).2 (radec_to_lb e ra dec).1 (radec_to_lb e ra dec).2 =
      (pmra, pmdec) := by
  have hpos : 0 < 1 - newLat e.ra_ngp e.dec_ngp ra dec ^ 2 := by linarith [hp.lt]
  have h := kap_sig e.ra_ngp e.dec_ngp ra dec
  have hs := Real.sqrt_pos.2 hpos
  have hss := Real.sq_sqrt hpos.le
  simp only [pmllpmbb_to_pmrapmdec, C25_round_trip e ra dec hp h1 h2 h3 h4, pmrapmdec_to_pmllpmbb,
    C25aux.pmAngles_eq hd, h]
  generalize sqrt (1 - newLat e.ra_ngp e.dec_ngp ra dec ^ 2) = w at *
  rw [← hss] at h
  ext
  · field_simp; linear_combination pmra * h
  · field_simp; linear_combination pmdec * h

/-- And from Galactic proper motions. -/
theorem C25_proper_motion_round_trip_galactic (e : Epoch) (pmll pmbb l b : ℝ) (h3 : -(π / 2) < b) (h4 : b < π / 2)
    (hd : (lb_to_radec e l b).2 ≠ e.dec_ngp) :
    pmrapmdec_to_pmllpmbb e (pmllpmbb_to_pmrapmdec e pmll pmbb l b).1 (pmllpmbb_to_pmrapmdec e pmll pmbb l b).2
      (lb_to_radec e l b).1 (lb_to_radec e l b).2 = (pmll, pmbb) := by
  have hlt := (C25aux.offPole_of_lb e l b h3 h4).2
  simp only [pmllpmbb_to_pmrapmdec, pmrapmdec_to_pmllpmbb, C25aux.pmAngles_eq hd]
  generalize (lb_to_radec e l b).1 = ra at *
  generalize (lb_to_radec e l b).2 = dec at *
  have hpos : 0 < 1 - newLat e.ra_ngp e.dec_ngp ra dec ^ 2 := by linarith
  have h := kap_sig e.ra_ngp e.dec_ngp ra dec
  have hs := Real.sqrt_pos.2 hpos
  have hss := Real.sq_sqrt hpos.le
  rw [h]
  generalize sqrt (1 - newLat e.ra_ngp e.dec_ngp ra dec ^ 2) = w at *
  rw [← hss] at h
  ext
  · field_simp; linear_combination pmll * h
  · field_simp; linear_combination pmbb * h

/-! ### Custom sky coordinates -/

/-- Custom coordinates are those of the direction multiplied by the matrix, in the standard ranges. -/
theorem C25_custom_direction (T : Matrix (Fin 3) (Fin 3) ℝ) (hT : T * T.transpose = 1) (ra dec : ℝ) :
    Spec.dir (radec_to_custom T ra dec).1 (radec_to_custom T ra dec).2 = T.mulVec (Spec.dir ra dec) ∧
      T.mulVec (Spec.dir (custom_to_radec T ra dec).1 (custom_to_radec T ra dec).2) = Spec.dir ra dec ∧
      (0 ≤ (radec_to_custom T ra dec).1 ∧ (radec_to_custom T ra dec).1 < 2 * π) ∧
      -(π / 2) ≤ (radec_to_custom T ra dec).2 ∧ (radec_to_custom T ra dec).2 ≤ π / 2 := by
  refine ⟨custom_dir hT ra dec, ?_, custom_range T ra dec⟩
  have ht : T.transpose * T.transpose.transpose = 1 := by
    rw [Matrix.transpose_transpose]; exact mul_eq_one_comm.1 hT
  rw [custom_to_radec, custom_dir ht, Matrix.mulVec_mulVec, hT, Matrix.one_mulVec]

/-- Round trips. -/
theorem C25_custom_round_trip (T : Matrix (Fin 3) (Fin 3) ℝ) (hT : T * T.transpose = 1) (x y : ℝ) (h1 : 0 ≤ x)
    (h2 : x < 2 * π) (h3 : -(π / 2) < y) (h4 : y < π / 2) :
    custom_to_radec T (radec_to_custom T x y).1 (radec_to_custom T x y).2 = (x, y) ∧
      radec_to_custom T (custom_to_radec T x y).1 (custom_to_radec T x y).2 = (x, y) := by
  have ht : T.transpose * T.transpose.transpose = 1 := by
    rw [Matrix.transpose_transpose]; exact mul_eq_one_comm.1 hT
  refine ⟨custom_inverse hT (custom_dir hT x y) h1 h2 h3 h4, ?_⟩
  have := custom_inverse (T := T.transpose) ht (custom_dir ht x y) h1 h2 h3 h4
  rwa [Matrix.transpose_transpose] at this

/-- The converted proper motion is the rate of the custom coordinates. Excluded are the custom poles, the jump
at `phi1 = 0` and the declination of the custom pole. -/
theorem C25_custom_proper_motion (T : Matrix (Fin 3) (Fin 3) ℝ) (hT : Spec.IsRotation T) {ra dec : ℝ → ℝ}
    {ra' dec' t : ℝ} (hra : HasDerivAt ra ra' t) (hdec : HasDerivAt dec dec' t)
    (hp : cos (radec_to_custom T (ra t) (dec t)).2 ≠ 0) (hl : (radec_to_custom T (ra t) (dec t)).1 ≠ 0)
    (hd : dec t ≠ (custom_to_radec T 0 (π / 2)).2) :
    HasDerivAt (fun s => (radec_to_custom T (ra s) (dec s)).1)
        ((pmrapmdec_to_custom T (ra' * cos (dec t)) dec' (ra t) (dec t)).1 /
          cos (radec_to_custom T (ra t) (dec t)).2) t ∧
      HasDerivAt (fun s => (radec_to_custom T (ra s) (dec s)).2)
        (pmrapmdec_to_custom T (ra' * cos (dec t)) dec' (ra t) (dec t)).2 t := by
  have hn := custom_pole hT.1
  have hb : cos (radec_to_custom T (ra t) (dec t)).2 =
      sqrt (1 - newLat (custom_to_radec T 0 (π / 2)).1 (custom_to_radec T 0 (π / 2)).2 (ra t) (dec t) ^ 2) := by
    simp only [radec_to_custom, sky_lat hn, Real.cos_arcsin]
  rw [hb] at hp ⊢
  simp only [pmrapmdec_to_custom, C25aux.pmAngles_eq hd, kap_sig]
  generalize (custom_to_radec T 0 (π / 2)).1 = rap at *
  generalize (custom_to_radec T 0 (π / 2)).2 = decp at *
  have hpos := Real.sqrt_ne_zero'.1 hp
  have hlt : newLat rap decp (ra t) (dec t) ^ 2 < 1 := by linarith
  have hs := Real.sqrt_pos.2 hpos
  have hss := Real.sq_sqrt hpos.le
  constructor
  · refine (hd_newlon hn hT hra hdec (wrap_atan2_ne hl)).congr_deriv ?_
    generalize sqrt (1 - newLat rap decp (ra t) (dec t) ^ 2) = w at *
    rw [← hss]; field_simp
  · refine (hd_newlat hn hra hdec hlt).congr_deriv ?_
    generalize sqrt (1 - newLat rap decp (ra t) (dec t) ^ 2) = w at *
    field_simp

/-- Converting a proper motion to custom coordinates and back returns it, and its size does not change. -/
theorem C25_custom_proper_motion_inverse (T : Matrix (Fin 3) (Fin 3) ℝ) (hT : Spec.IsRotation T)
    (pmra pmdec ra dec : ℝ) (h1 : -(π / 2) < dec) (h2 : dec < π / 2) (hp : cos (radec_to_custom T ra dec).2 ≠ 0)
    (hd : dec ≠ (custom_to_radec T 0 (π / 2)).2)
    (hd' : (radec_to_custom T ra dec).2 ≠ (radec_to_custom T 0 (π / 2)).2) :
    custom_to_pmrapmdec T (pmrapmdec_to_custom T pmra pmdec ra dec).1 (pmrapmdec_to_custom T pmra pmdec ra dec).2
        (radec_to_custom T ra dec).1 (radec_to_custom T ra dec).2 = (pmra, pmdec) ∧
      (pmrapmdec_to_custom T pmra pmdec ra dec).1 ^ 2 + (pmrapmdec_to_custom T pmra pmdec ra dec).2 ^ 2 =
        pmra ^ 2 + pmdec ^ 2 := by
  have hTt := rot_transpose hT
  have hn := custom_pole hT.1
  have hn' := custom_pole hTt.1
  have hdir := custom_dir hT.1 ra dec
  have hcb : 0 < cos (radec_to_custom T ra dec).2 :=
    lt_of_le_of_ne (Real.cos_nonneg_of_mem_Icc (custom_range T ra dec).2) hp.symm
  have hcd : 0 < cos dec := Real.cos_pos_of_mem_Ioo ⟨h1, h2⟩
  have hdir' : Spec.dir ra dec =
      T.transpose.mulVec (Spec.dir (radec_to_custom T ra dec).1 (radec_to_custom T ra dec).2) := by
    rw [hdir, Matrix.mulVec_mulVec, show T.transpose * T = 1 from mul_eq_one_comm.1 hT.1, Matrix.one_mulVec]
  have hd2 : (radec_to_custom T ra dec).2 ≠ (custom_to_radec T.transpose 0 (π / 2)).2 := by
    rw [custom_to_radec, Matrix.transpose_transpose]; exact hd'
  obtain ⟨k1, f1⟩ := tangent_rot hn hT pmra pmdec hcb hdir
  obtain ⟨k2, f2⟩ := tangent_rot hn' hTt (pmrapmdec_to_custom T pmra pmdec ra dec).1
    (pmrapmdec_to_custom T pmra pmdec ra dec).2 hcd hdir'
  have p1 : tangent (radec_to_custom T ra dec).1 (radec_to_custom T ra dec).2
      (pmrapmdec_to_custom T pmra pmdec ra dec).1 (pmrapmdec_to_custom T pmra pmdec ra dec).2 =
      T.mulVec (tangent ra dec pmra pmdec) := by
    rw [f1]
    simp only [pmrapmdec_to_custom, C25aux.pmAngles_eq hd, ← k1, Real.sqrt_sq hcb.le]
    congr 1 <;> ring
  constructor
  · rw [p1, Matrix.mulVec_mulVec, show T.transpose * T = 1 from mul_eq_one_comm.1 hT.1, Matrix.one_mulVec] at f2
    obtain ⟨q1, q2⟩ := tangent_inj f2
    generalize pmrapmdec_to_custom T pmra pmdec ra dec = pm at *
    rw [custom_to_pmrapmdec, pmrapmdec_to_custom]
    simp only [C25aux.pmAngles_eq hd2, ← k2, Real.sqrt_sq hcd.le]
    ext
    · simp only; rw [q1]; ring
    · simp only; rw [q2]; ring
  · simp only [pmrapmdec_to_custom, C25aux.pmAngles_eq hd, ← k1, Real.sqrt_sq hcb.le]
    generalize cos (radec_to_custom T ra dec).2 = c at *
    field_simp
    linear_combination -(pmra ^ 2 + pmdec ^ 2) * k1

/-- The matrix has to be a proper rotation: for a reflection the sign of the first component is wrong. -/
theorem C25_custom_reflection_fails : ∃ T : Matrix (Fin 3) (Fin 3) ℝ, T * T.transpose = 1 ∧
    ∃ (ra dec : ℝ → ℝ) (ra' dec' t : ℝ), HasDerivAt ra ra' t ∧ HasDerivAt dec dec' t ∧
      cos (radec_to_custom T (ra t) (dec t)).2 ≠ 0 ∧ (radec_to_custom T (ra t) (dec t)).1 ≠ 0 ∧
      dec t ≠ (custom_to_radec T 0 (π / 2)).2 ∧
      ¬ HasDerivAt (fun s => (radec_to_custom T (ra s) (dec s)).1)
        ((pmrapmdec_to_custom T (ra' * cos (dec t)) dec' (ra t) (dec t)).1 /
          cos (radec_to_custom T (ra t) (dec t)).2) t := by
  have hp := Real.pi_pos
  refine ⟨!![1, 0, 0; 0, -1, 0; 0, 0, 1], ?_, fun s => s, fun _ => 0, 1, 0, π, hasDerivAt_id _,
    hasDerivAt_const _ _, ?_, ?_, ?_, ?_⟩
  · ext i j; fin_cases i <;> fin_cases j <;> simp [Matrix.mul_apply, Fin.sum_univ_three]
  all_goals
    have e1 : ∀ s : ℝ, radec_to_custom !![1, 0, 0; 0, -1, 0; 0, 0, 1] s 0 = (wrap (atan2 (-sin s) (cos s)), 0) := by
      intro s; simp [radec_to_custom, skyXYZ, mulVec3]
    have e2 : (custom_to_radec !![1, 0, 0; 0, -1, 0; 0, 0, 1] 0 (π / 2)).2 = π / 2 := by
      simp [custom_to_radec, radec_to_custom, skyXYZ, mulVec3]
    have e3 : wrap (atan2 (-sin π) (cos π)) = π := by
      have := wrap_atan2_polar (r := 1) one_pos hp.le (by linarith : π < 2 * π)
      simpa using this
  · simp only [e1]; simp
  · simp only [e1, e3]; exact hp.ne'
  · rw [e2]; exact (by positivity : (0 : ℝ) < π / 2).ne
  · intro h
    simp only [e1] at h
    have hv : (pmrapmdec_to_custom !![1, 0, 0; 0, -1, 0; 0, 0, 1] (1 * cos 0) 0 π 0).1 / cos 0 = 1 := by
      have hd : (0 : ℝ) ≠ (custom_to_radec !![1, 0, 0; 0, -1, 0; 0, 0, 1] 0 (π / 2)).2 := by
        rw [e2]; exact (by positivity : (0 : ℝ) < π / 2).ne
      simp only [pmrapmdec_to_custom, C25aux.pmAngles_eq hd, kap, sig]
      rw [e2]
      simp
    rw [hv] at h
    have hx : HasDerivAt (fun s : ℝ => cos s) (-sin π) π := Real.hasDerivAt_cos π
    have hy : HasDerivAt (fun s : ℝ => -sin s) (-cos π) π := (Real.hasDerivAt_sin π).neg
    have := (hd_wrap_atan2 hx hy (Or.inl (by simp))).unique h
    norm_num at this

/-! ### Examples -/

/-- A position off the poles of every epoch. -/
theorem C25aux.offPole_equator (e : Epoch) : OffPole e (e.ra_ngp - π / 2) 0 := by
  have h : newLat e.ra_ngp e.dec_ngp (e.ra_ngp - π / 2) 0 = 0 := by simp [newLat]
  have q : newLat e.ra_ngp e.dec_ngp (e.ra_ngp - π / 2) 0 =
      Spec.dir (e.ra_ngp - π / 2) 0 0 * Spec.dir e.ra_ngp e.dec_ngp 0 +
      Spec.dir (e.ra_ngp - π / 2) 0 1 * Spec.dir e.ra_ngp e.dec_ngp 1 +
      Spec.dir (e.ra_ngp - π / 2) 0 2 * Spec.dir e.ra_ngp e.dec_ngp 2 := by
    rw [newLat]; simp only [Spec.dir, Matrix.cons_val_zero, Matrix.cons_val_one, Matrix.cons_val, Real.cos_sub]; ring
  have s := sq_dir e.ra_ngp e.dec_ngp
  unfold Spec.sq at s
  constructor <;> intro hc <;> rw [hc] at q <;> (try simp only [Pi.neg_apply] at q) <;> nlinarith

example : lb_to_radec epoch2000 (radec_to_lb epoch2000 (epoch2000.ra_ngp - π / 2) 0).1
    (radec_to_lb epoch2000 (epoch2000.ra_ngp - π / 2) 0).2 = (epoch2000.ra_ngp - π / 2, 0) := by
  have := Real.pi_pos
  refine C25_round_trip _ _ _ (C25aux.offPole_equator _) ?_ ?_ ?_ ?_ <;> simp [epoch2000] <;> linarith

example : radec_to_lb epoch1950 (lb_to_radec epoch1950 1 (1 / 2)).1 (lb_to_radec epoch1950 1 (1 / 2)).2 =
    (1, 1 / 2) := by
  have := Real.pi_gt_three
  exact C25_round_trip_galactic _ _ _ (by norm_num) (by linarith) (by linarith) (by linarith)

example (pmra pmdec : ℝ) : pmllpmbb_to_pmrapmdec epoch1950
    (pmrapmdec_to_pmllpmbb epoch1950 pmra pmdec (epoch1950.ra_ngp - π / 2) 0).1
    (pmrapmdec_to_pmllpmbb epoch1950 pmra pmdec (epoch1950.ra_ngp - π / 2) 0).2
    (radec_to_lb epoch1950 (epoch1950.ra_ngp - π / 2) 0).1 (radec_to_lb epoch1950 (epoch1950.ra_ngp - π / 2) 0).2 =
    (pmra, pmdec) := by
  have := Real.pi_pos
  refine C25_proper_motion_round_trip _ _ _ _ _ (C25aux.offPole_equator _) ?_ ?_ ?_ ?_ ?_ <;>
    (try simp only [epoch1950]) <;> try linarith

/-- A star moving along the celestial equator. -/
example : HasDerivAt (fun s => (radec_to_lb ⟨0, π / 4, π / 2⟩ s 0).2)
    (pmrapmdec_to_pmllpmbb ⟨0, π / 4, π / 2⟩ (1 * cos 0) 0 0 0).2 0 := by
  have hp := Real.pi_pos
  have ho : OffPole ⟨0, π / 4, π / 2⟩ 0 0 := by simpa using C25aux.offPole_equator ⟨0, π / 4, π / 2⟩
  refine (C25_proper_motion ⟨0, π / 4, π / 2⟩ (ra := fun s => s) (dec := fun _ => 0) (hasDerivAt_id 0)
    (hasDerivAt_const 0 0) ho ?_ ?_).2
  · rw [radec_to_lb_eq _ _ _ ho.lt]
    have e1 : (radec_to_custom (radecT ⟨0, π / 4, π / 2⟩) 0 0).1 = π / 2 := by
      have := wrap_atan2_polar (r := 1) one_pos (by positivity : 0 ≤ π / 2) (by linarith)
      simpa [radec_to_custom, skyXYZ, mulVec3, radecT, Matrix.mul_apply, Fin.sum_univ_three] using this
    rw [e1]; positivity
  · exact (by positivity : (0 : ℝ) < π / 4).ne

example : custom_to_radec (radecT epoch2000) (radec_to_custom (radecT epoch2000) 3 1).1
    (radec_to_custom (radecT epoch2000) 3 1).2 = (3, 1) := by
  have := Real.pi_gt_three
  exact (C25_custom_round_trip _ (radecT_rotation _).1 3 1 (by norm_num) (by linarith) (by linarith) (by linarith)).1

end Verif
