import Verif.Lemmas.Pot.Ferrers
import Verif.Lemmas.Pot.Ops
import Verif.Props.C01Ellipsoidal
import Verif.Util.BetaInt

set_option autoImplicit false

/-!
# C01, C02, C03, C62, C71 for FerrersPotential

Exponents `n > 1`, for which the density is continuously differentiable; any position angle and rotation rate.
-/

noncomputable section
namespace Verif
open Ferrers Set MeasureTheory
open C01aux (off)

namespace C01aux

theorem ferrers_grad {p : Ferrers.Par} (hp : p.Good) (hax : p.b = 1 ∨ p.isNonAxi) {R z : ℝ} (φ t : ℝ) (h0 : R ≠ 0 ∨ z ≠ 0) :
    GradAt (Ferrers.pot p) R z φ t := by
  have h := (ref_grad hp (p.ang t) t (off (φ - p.ang t) h0)).scale p.rhocM
  obtain ⟨f1, f2, f3⟩ := forces_eq hp hax R z φ t
  refine ⟨?_, ?_, ?_⟩
  · rw [f1, show (fun x => (Ferrers.pot p).val x z φ t) = _ from funext fun x => val_eq hp hax x z φ t]; exact h.1
  · rw [f2, show (fun x => (Ferrers.pot p).val R x φ t) = _ from funext fun x => val_eq hp hax R x φ t]; exact h.2
  · rw [f3, show (fun x => (Ferrers.pot p).val R z x t) = _ from funext fun x => val_eq hp hax R z x t]; exact h.3

theorem ferrers_val {p : Ferrers.Par} (hp : p.Good) (hax : p.b = 1 ∨ p.isNonAxi) (t : ℝ) (R z φ : ℝ) :
    (Ferrers.pot p).val R z φ t = ((ref p (p.ang t)).scale p.rhocM).val R z φ t := val_eq hp hax R z φ t

theorem ferrers_hess {p : Ferrers.Par} (hp : p.Good) (hax : p.b = 1 ∨ p.isNonAxi) {R z φ t : ℝ}
    (hs : Real.sin (p.ang t) = 0) (h0 : R ≠ 0 ∨ z ≠ 0) : HessAt (Ferrers.pot p) R z φ t := by
  have ho := off (φ - p.ang t) h0
  have h := (ref_hess hp (p.ang t) t ho).scale p.rhocM
  obtain ⟨e1, e2, e3, e4⟩ := hess_aligned hp hax hs ho
  obtain ⟨e5, e6⟩ := z2_phiz_eq hp hax ho
  have v := ferrers_val hp hax t
  constructor
  · simp only [v, e1]; exact h.RR
  · simp only [v, e2]; exact h.Rz
  · simp only [v, e4]; exact h.Rp
  · simp only [v, e2]; exact h.zR
  · simp only [v, e5]; exact h.zz
  · simp only [v, e6]; exact h.zp
  · simp only [v, e4]; exact h.pR
  · simp only [v, e6]; exact h.pz
  · simp only [v, e3]; exact h.pp

/-- The value of a triaxial case. -/
theorem nonaxi {a n b c ω pa : ℝ} (h : b = 1 ∨ |b - 1| > 1e-10) :
    (⟨a, n, b, c, ω, pa⟩ : Ferrers.Par).b = 1 ∨ (⟨a, n, b, c, ω, pa⟩ : Ferrers.Par).isNonAxi := h

end C01aux
open C01aux

/-- Forces, inside and outside the body. -/
theorem C01_Ferrers {a n b c : ℝ} (ha : 0 < a) (hn : 1 < n) (hb : 0 < b) (hc : 0 < c) (hax : b = 1 ∨ |b - 1| > 1e-10)
    (ω pa amp R z φ t : ℝ) (h0 : R ≠ 0 ∨ z ≠ 0) :
    GradAt ((Ferrers.pot ⟨a, n, b, c, ω, pa⟩).scale amp) R z φ t :=
  (ferrers_grad ⟨ha, hb, hc, hn⟩ hax φ t h0).scale amp
example : GradAt ((Ferrers.pot ⟨2, 2, 4/5, 1/2, 1, 3⟩).scale 3) 1 0 0 5 :=
  C01_Ferrers (by norm_num) (by norm_num) (by norm_num) (by norm_num) (Or.inr (by norm_num [abs_of_neg])) 1 3 3 1 0 0 5
    (Or.inl one_ne_zero)

/-- Second derivatives, when the bar points along the `x` axis at the time; missing: other position angles, for which
only the derivatives `zz` and `φz` are right (`C02_Ferrers_zz_partial`, `C02_Ferrers_fails`). -/
theorem C02_Ferrers_partial {a n b c : ℝ} (ha : 0 < a) (hn : 1 < n) (hb : 0 < b) (hc : 0 < c)
    (hax : b = 1 ∨ |b - 1| > 1e-10) {ω pa t : ℝ} (hs : Real.sin (pa + ω * t) = 0) (amp R z φ : ℝ) (h0 : R ≠ 0 ∨ z ≠ 0) :
    HessAt ((Ferrers.pot ⟨a, n, b, c, ω, pa⟩).scale amp) R z φ t :=
  (ferrers_hess (p := ⟨a, n, b, c, ω, pa⟩) ⟨ha, hb, hc, hn⟩ hax hs h0).scale amp
example : HessAt ((Ferrers.pot ⟨2, 2, 4/5, 1/2, 1, 0⟩).scale 3) 1 0 0 Real.pi :=
  C02_Ferrers_partial (by norm_num) (by norm_num) (by norm_num) (by norm_num) (Or.inr (by norm_num [abs_of_neg]))
    (by simp) 3 1 0 0 (Or.inl one_ne_zero)

/-- At all position angles `_z2deriv` and `_phizderiv` are the second derivatives of the value. -/
theorem C02_Ferrers_zz_partial {a n b c : ℝ} (ha : 0 < a) (hn : 1 < n) (hb : 0 < b) (hc : 0 < c)
    (hax : b = 1 ∨ |b - 1| > 1e-10) (ω pa R z φ t : ℝ) (h0 : R ≠ 0 ∨ z ≠ 0) :
    HasDerivAt (fun x => deriv (fun y => (Ferrers.pot ⟨a, n, b, c, ω, pa⟩).val R y φ t) x)
      ((Ferrers.pot ⟨a, n, b, c, ω, pa⟩).z2deriv R z φ t) z
    ∧ HasDerivAt (fun x => deriv (fun y => (Ferrers.pot ⟨a, n, b, c, ω, pa⟩).val R y x t) z)
      ((Ferrers.pot ⟨a, n, b, c, ω, pa⟩).phizderiv R z φ t) φ := by
  set p : Ferrers.Par := ⟨a, n, b, c, ω, pa⟩
  have hp : p.Good := ⟨ha, hb, hc, hn⟩
  have ho := off (φ - p.ang t) h0
  have h := (ref_hess hp (p.ang t) t ho).scale p.rhocM
  obtain ⟨e5, e6⟩ := z2_phiz_eq hp hax ho
  have v := ferrers_val hp hax t
  constructor
  · simp only [v, e5]; exact h.zz
  · simp only [v, e6]; exact h.zp
example : HasDerivAt (fun x => deriv (fun y => (Ferrers.pot ⟨2, 2, 1, 1/2, 1, 3⟩).val 1 y 0 5) x)
    ((Ferrers.pot ⟨2, 2, 1, 1/2, 1, 3⟩).z2deriv 1 0 0 5) 0 :=
  (C02_Ferrers_zz_partial (by norm_num) (by norm_num) (by norm_num) (by norm_num) (Or.inl rfl) 1 3 1 0 0 5
    (Or.inl one_ne_zero)).1

/-- A bar at a position angle of 45 degrees: on its long axis, inside the body, `_R2deriv` returns the second derivative
across the bar and not the one along it. The Hessian is rotated by the position angle in the wrong direction. -/
theorem C02_Ferrers_fails {a n b c : ℝ} (ha : 0 < a) (hn : 1 < n) (hb : 0 < b) (hb1 : b < 1) (hc : 0 < c)
    (hax : |b - 1| > 1e-10) {R : ℝ} (hR : 0 < R) (hRa : R < a) :
    ¬ HasDerivAt (fun x => deriv (fun y => (Ferrers.pot ⟨a, n, b, c, 0, Real.pi / 4⟩).val y 0 (Real.pi / 4) 0) x)
      ((Ferrers.pot ⟨a, n, b, c, 0, Real.pi / 4⟩).R2deriv R 0 (Real.pi / 4) 0) R := by
  set p : Ferrers.Par := ⟨a, n, b, c, 0, Real.pi / 4⟩ with hpd
  have hp : p.Good := ⟨ha, hb, hc, hn⟩
  have hna : p.isNonAxi := hax
  have h0 : R ≠ 0 ∨ (0:ℝ) ≠ 0 := Or.inl hR.ne'
  have ho := off (z := 0) (Real.pi / 4 - p.ang 0) h0
  have h := (ref_hess hp (p.ang 0) 0 ho).scale p.rhocM
  have v := ferrers_val hp (Or.inr hna) 0
  intro hd
  simp only [v] at hd
  have e := hd.unique h.RR
  have ha0 : p.ang 0 = Real.pi / 4 := by simp [Par.ang, hpd]
  have o1 : Ellipsoidal.Off R 0 0 := by unfold Ellipsoidal.Off; positivity
  obtain ⟨e1, e2, -, e4, -, -⟩ := hess_eq hp o1
  have l : (Ferrers.pot p).R2deriv R 0 (Real.pi / 4) 0 = p.rhocM * Ellipsoidal.fyy (ell p) R 0 0 := by
    have x1 : Ferrers.xyz p R (Real.pi / 4) 0 0 = (R, 0, 0) := by simp [Ferrers.xyz, Coords.cyl_to_rect, hpd]
    have ang : p.omegab * 0 + p.pa = Real.pi / 4 := by simp [hpd]
    simp only [Ferrers.pot, Ferrers.R2deriv, Ferrers.rotHess, phi_nonaxi hna, x1, ang, e1, e2, e4]
    have c2 : Real.cos (Real.pi / 4) ^ 2 = 1 / 2 := by rw [Real.cos_pi_div_four, div_pow, Real.sq_sqrt (by norm_num)]; norm_num
    rw [Real.sin_pi_div_four, ← Real.cos_pi_div_four]
    generalize Real.cos (Real.pi / 4) = C at *
    have c4 : C ^ 4 = 1 / 4 := by rw [show C ^ 4 = (C ^ 2) ^ 2 by ring, c2]; norm_num
    ring_nf
    simp only [c4]
    ring
  have r : ((ref p (p.ang 0)).scale p.rhocM).R2deriv R 0 (Real.pi / 4) 0 = p.rhocM * Ellipsoidal.fxx (ell p) R 0 0 := by
    simp [Pot.scale, ref, ha0]
  rw [l, r] at e
  have hρ : p.rhocM ≠ 0 := by
    have g1 := Real.Gamma_pos_of_pos (by linarith : 0 < n + 2.5)
    have g2 := Real.Gamma_pos_of_pos (by linarith : 0 < n + 1)
    have := Real.pi_pos
    simp only [Par.rhocM, hpd]
    positivity
  have e' := mul_left_cancel₀ hρ e
  have hk : 4 * Real.pi * p.b * p.c ≠ 0 := by have := Real.pi_pos; have := hp.hb; have := hp.hc; positivity
  have e'' := mul_left_cancel₀ (by exact hk) (e' : 4 * Real.pi * p.b * p.c * _ = 4 * Real.pi * p.b * p.c * _)
  have hq : 0 < EllInt.N (R, 0, 0) := o1
  have hU : ∀ s, Ellipsoidal.U (ell p) (R, 0, 0) s = R ^ 2 * Ellipsoidal.co 1 s := fun s => by
    unfold Ellipsoidal.U EllInt.u; simp; try ring
  have ho' : ∀ s ∈ Ioc (0:ℝ) 1, Ellipsoidal.co 1 s = s ^ 2 := fun s hs => by
    rw [Ellipsoidal.co_eq hs]; simp
  have om_pos : ∀ s ∈ Ioc (0:ℝ) 1, 0 < Ellipsoidal.om (ell p).b2 (ell p).c2 s := fun s hs => by
    unfold Ellipsoidal.om
    have := Real.sqrt_pos.2 (mul_pos (Ellipsoidal.lin_pos (ell_good hp).b2 hs) (Ellipsoidal.lin_pos (ell_good hp).c2 hs))
    positivity
  -- the part with the derivative of the density is negative
  have j : Ellipsoidal.J (ell p) 1 1 R 0 0 ≤ 0 := by
    unfold Ellipsoidal.J
    rw [K_none]
    rw [intervalIntegral.integral_of_le zero_le_one]
    refine integral_nonpos_of_ae ?_
    refine (ae_restrict_iff' measurableSet_Ioc).2 (Filter.Eventually.of_forall fun s hs => ?_)
    have c1 : 0 ≤ Ellipsoidal.co 1 s := by rw [ho' s hs]; positivity
    have o := (om_pos s hs).le
    refine mul_nonpos_of_nonpos_of_nonneg ?_ (by positivity)
    unfold Ellipsoidal.h2
    rw [md_ell (U_nonneg hp R 0 0 hs)]
    have : 0 ≤ max 0 (1 - Ellipsoidal.U (ell p) (R, 0, 0) s / p.a ^ 2) ^ (p.n - 1) := Real.rpow_nonneg (le_max_left _ _) _
    have hn0 : 0 < p.n := by simp only [hpd]; linarith
    refine div_nonpos_of_nonpos_of_nonneg ?_ (Real.sqrt_nonneg _)
    have h1 := Real.sqrt_nonneg (Ellipsoidal.U (ell p) (R, 0, 0) s)
    have : 0 ≤ 2 * p.n / p.a ^ 2 * max 0 (1 - Ellipsoidal.U (ell p) (R, 0, 0) s / p.a ^ 2) ^ (p.n - 1)
      * √(Ellipsoidal.U (ell p) (R, 0, 0) s) := by positivity
    linarith [this, neg_mul (2:ℝ) p.n, neg_div (p.a ^ 2) (2 * p.n),
      show -2 * p.n / p.a ^ 2 * max 0 (1 - Ellipsoidal.U (ell p) (R, 0, 0) s / p.a ^ 2) ^ (p.n - 1)
        * √(Ellipsoidal.U (ell p) (R, 0, 0) s) = -(2 * p.n / p.a ^ 2 * max 0 (1 - Ellipsoidal.U (ell p) (R, 0, 0) s / p.a ^ 2) ^ (p.n - 1)
        * √(Ellipsoidal.U (ell p) (R, 0, 0) s)) by ring]
  -- the other part is smaller along the bar
  have i : Ellipsoidal.I (ell p) 1 R 0 0 < Ellipsoidal.I (ell p) (ell p).b2 R 0 0 := by
    have i1 := Ellipsoidal.qint_h1 (ell_good hp) one_pos hq rfl
    have i2 := Ellipsoidal.qint_h1 (ell_good hp) (ell_good hp).b2 hq rfl
    have := intervalIntegral.intervalIntegral_pos_of_pos_on (i2.sub i1) (fun s hs => ?_) one_pos
    · rw [intervalIntegral.integral_sub i2 i1] at this
      unfold Ellipsoidal.I
      rw [K_none, K_none]
      linarith
    · have hs' : s ∈ Ioc (0:ℝ) 1 := ⟨hs.1, hs.2.le⟩
      have o := om_pos s hs'
      have lt : Ellipsoidal.co 1 s < Ellipsoidal.co (ell p).b2 s := by
        rw [Ellipsoidal.co_eq hs', Ellipsoidal.co_eq hs']
        have l1 := Ellipsoidal.lin_pos (ell_good hp).b2 hs'
        have : (ell p).b2 < 1 := by
          simp only [Ellipsoidal.Par.b2, ell, hpd]
          exact pow_lt_one₀ hb.le hb1 (by norm_num)
        have s2 : 0 < s ^ 2 := pow_pos hs.1 2
        gcongr
      have hh : 0 < Ellipsoidal.h1 (ell p) (Ellipsoidal.U (ell p) (R, 0, 0) s) := by
        rw [h1_ell (U_nonneg hp R 0 0 hs')]
        refine Real.rpow_pos_of_pos (lt_max_of_lt_right ?_) _
        rw [hU, ho' s hs', sub_pos, div_lt_one (by simp only [hpd]; positivity), ← mul_pow]
        have : R * s < a := by nlinarith [hs.1, hs.2]
        simp only [hpd]
        have : 0 ≤ R * s := mul_nonneg hR.le hs.1.le
        gcongr
      have := mul_pos hh (mul_pos (sub_pos.2 lt) o)
      linarith [this, show Ellipsoidal.h1 (ell p) (Ellipsoidal.U (ell p) (R, 0, 0) s)
        * ((Ellipsoidal.co (ell p).b2 s - Ellipsoidal.co 1 s) * Ellipsoidal.om (ell p).b2 (ell p).c2 s)
        = Ellipsoidal.h1 (ell p) (Ellipsoidal.U (ell p) (R, 0, 0) s) * (Ellipsoidal.co (ell p).b2 s * Ellipsoidal.om (ell p).b2 (ell p).c2 s)
        - Ellipsoidal.h1 (ell p) (Ellipsoidal.U (ell p) (R, 0, 0) s) * (Ellipsoidal.co 1 s * Ellipsoidal.om (ell p).b2 (ell p).c2 s) by ring]
  have hR2 : 0 ≤ R ^ 2 := sq_nonneg R
  nlinarith [mul_nonneg hR2 (neg_nonneg.2 j)]

/-- Poisson's equation, when `a = 1`; missing: other `a` (`C03_Ferrers_fails`). -/
theorem C03_Ferrers_partial {n b c : ℝ} (hn : 1 < n) (hb : 0 < b) (hc : 0 < c) (hax : b = 1 ∨ |b - 1| > 1e-10)
    (ω pa amp R z φ t : ℝ) (hR : R ≠ 0) :
    PoissonAt ((Ferrers.pot ⟨1, n, b, c, ω, pa⟩).scale amp) R z φ t := by
  set p : Ferrers.Par := ⟨1, n, b, c, ω, pa⟩ with hpd
  have hp : p.Good := ⟨one_pos, hb, hc, hn⟩
  refine PoissonAt.scale amp ?_
  have h := (ref_poisson hp (p.ang t) t (off (z := z) (φ - p.ang t) (Or.inl hR)) hR).scale p.rhocM
  have v := ferrers_val hp hax t
  unfold PoissonAt at *
  simp only [v]
  rw [← h]
  congr 1
  have ea : φ - p.pa - p.omegab * t = φ - p.ang t := by unfold Par.ang; ring
  have a1 : p.a = 1 := rfl
  have nn : 0 ≤ (R * Real.cos (φ - p.ang t)) ^ 2 + (R * Real.sin (φ - p.ang t)) ^ 2 / p.b2 + z ^ 2 / p.c2 := by
    have := b2_pos hp
    have := c2_pos hp
    positivity
  simp only [Ferrers.pot, Ferrers.dens, Ferrers.xyz, Coords.cyl_to_rect, ea, Pot.scale, ref, Par.a2, a1, ell, Ferrers.prof]
  rw [Real.sq_sqrt nn]
  norm_num
  split_ifs with h1
  · rw [max_eq_right (by linarith)]
  · rw [max_eq_left (by linarith), Real.zero_rpow (by simp only [hpd]; linarith), mul_zero]
example : PoissonAt ((Ferrers.pot ⟨1, 2, 4/5, 1/2, 1, 3⟩).scale 3) 1 1 0 5 :=
  C03_Ferrers_partial (by norm_num) (by norm_num) (by norm_num) (Or.inr (by norm_num [abs_of_neg])) 1 3 3 1 1 0 5 one_ne_zero

/-- For `a > 1` the density inside the body on the long axis, and with it `dens`, is not a quarter of the Laplacian over
`π`: the code divides by `a²` twice. -/
theorem C03_Ferrers_fails {a n b c : ℝ} (ha : 1 < a) (hn : 1 < n) (hb : 0 < b) (hc : 0 < c) (hax : b = 1 ∨ |b - 1| > 1e-10)
    (ω pa t : ℝ) {R : ℝ} (hR : 0 < R) (hRa : R < a) :
    ¬ PoissonAt (Ferrers.pot ⟨a, n, b, c, ω, pa⟩) R 0 (pa + ω * t) t := by
  set p : Ferrers.Par := ⟨a, n, b, c, ω, pa⟩ with hpd
  have hp : p.Good := ⟨by simp only [hpd]; linarith, hb, hc, hn⟩
  have h := (ref_poisson hp (p.ang t) t (off (z := 0) (pa + ω * t - p.ang t) (Or.inl hR.ne')) hR.ne').scale p.rhocM
  have v := ferrers_val hp hax t
  intro h'
  unfold PoissonAt at h h'
  simp only [v] at h'
  rw [← h] at h'
  have e := mul_left_cancel₀ (by positivity : 4 * Real.pi ≠ 0) h'
  have ea : pa + ω * t - p.ang t = 0 := by simp [Par.ang, hpd]
  have ea' : pa + ω * t - p.pa - p.omegab * t = 0 := by simp [hpd]
  have a0 : 0 < a := by linarith
  have r1 : R ^ 2 / a ^ 2 < 1 := by rw [div_lt_one (by positivity)]; gcongr
  simp only [Ferrers.pot, Ferrers.dens, Ferrers.xyz, Coords.cyl_to_rect, ea, ea', Pot.scale, ref, Par.a2, ell, Ferrers.prof] at e
  simp only [Real.cos_zero, Real.sin_zero, mul_one, mul_zero, ne_eq, OfNat.ofNat_ne_zero, not_false_eq_true, zero_pow, zero_div,
    add_zero, Real.sq_sqrt (sq_nonneg R)] at e
  have pa' : p.a = a := rfl
  have pn' : p.n = n := rfl
  rw [pa', pn', if_pos r1, max_eq_right (by linarith)] at e
  have hρ : p.rhocM ≠ 0 := by
    have g1 := Real.Gamma_pos_of_pos (by linarith : 0 < n + 2.5)
    have g2 := Real.Gamma_pos_of_pos (by linarith : 0 < n + 1)
    have := Real.pi_pos
    simp only [Par.rhocM, hpd]
    positivity
  have e' := mul_left_cancel₀ hρ e
  have q : 0 < R ^ 2 / a ^ 2 := by positivity
  have a2 : 1 < a ^ 2 := one_lt_pow₀ ha (by norm_num)
  have r2 : R ^ 2 / a ^ 2 / a ^ 2 < R ^ 2 / a ^ 2 := by
    rw [div_lt_iff₀ (by positivity)]
    nlinarith
  have := Real.rpow_lt_rpow (by linarith : 0 ≤ 1 - R ^ 2 / a ^ 2) (by linarith : 1 - R ^ 2 / a ^ 2 < 1 - R ^ 2 / a ^ 2 / a ^ 2)
    (by linarith : 0 < n)
  linarith

/-- The density that does satisfy Poisson's equation with the value, for any `a`, has total mass one: `amp` is the total
mass, as documented. -/
theorem C62_Ferrers {a n b c : ℝ} (ha : 0 < a) (hn : 1 < n) (hb : 0 < b) (hc : 0 < c) (hax : b = 1 ∨ |b - 1| > 1e-10)
    (ω pa : ℝ) : ∃ ρ : ℝ → ℝ,
    (∀ R z φ t, R ≠ 0 → PoissonAt { Ferrers.pot ⟨a, n, b, c, ω, pa⟩ with
      dens := fun R z φ t => ρ (ellRadius b c ![R * Real.cos (φ - (pa + ω * t)), R * Real.sin (φ - (pa + ω * t)), z]) } R z φ t)
    ∧ ∃ m, EllipsoidMass b c ρ m ∧ ∀ S, a ≤ S → m S = 1 := by
  set p : Ferrers.Par := ⟨a, n, b, c, ω, pa⟩ with hpd
  have hp : p.Good := ⟨ha, hb, hc, hn⟩
  refine ⟨fun m => p.rhocM * (Ferrers.prof a n).mdens m, fun R z φ t hR => ?_, ?_⟩
  · have h := (ref_poisson hp (p.ang t) t (off (z := z) (φ - p.ang t) (Or.inl hR)) hR).scale p.rhocM
    have v := ferrers_val hp hax t
    unfold PoissonAt at *
    simp only [v]
    rw [← h]
    simp only [Pot.scale, ref, ellRadius, Par.ang, hpd, Par.b2, Par.c2, ell]
    simp [div_pow]
  · have hc' : Continuous fun m : ℝ => m ^ 2 * (p.rhocM * (Ferrers.prof a n).mdens m) := by
      simp only [Ferrers.prof]
      have : Continuous fun m : ℝ => max 0 (1 - m ^ 2 / a ^ 2) ^ n :=
        Continuous.rpow_const (by fun_prop) fun _ => Or.inr (by linarith)
      fun_prop
    have := EllipsoidMass.of_shell hb hc (Ellipsoidal.shell_int
      (P := ⟨fun _ => 0, fun m => p.rhocM * (Ferrers.prof a n).mdens m, fun _ => 0⟩) fun R hR => hc'.intervalIntegrable 0 R)
    refine ⟨_, this, fun S hS => ?_⟩
    simp only
    rw [← intervalIntegral.integral_add_adjacent_intervals (hc'.intervalIntegrable 0 a) (hc'.intervalIntegrable a S)]
    have z1 : ∫ m in a..S, m ^ 2 * (p.rhocM * (Ferrers.prof a n).mdens m) = 0 := by
      rw [intervalIntegral.integral_congr (g := fun _ => 0), intervalIntegral.integral_zero]
      intro m hm
      rw [uIcc_of_le hS] at hm
      have : 1 ≤ m ^ 2 / a ^ 2 := by
        rw [le_div_iff₀ (by positivity), one_mul]
        exact pow_le_pow_left₀ ha.le hm.1 2
      simp only [Ferrers.prof]
      rw [max_eq_left (by linarith), Real.zero_rpow (by linarith)]
      ring
    have z2 : ∫ m in (0:ℝ)..a, m ^ 2 * (p.rhocM * (Ferrers.prof a n).mdens m) = p.rhocM * (a ^ 3 * (B (3 / 2) (n + 1) / 2)) := by
      have k := speed_beta (q := 2) (n := n) (ψ := a ^ 2 / 2) (by norm_num) (by linarith) (by positivity)
      have e1 : √(2 * (a ^ 2 / 2)) = a := by rw [show 2 * (a ^ 2 / 2) = a ^ 2 by ring, Real.sqrt_sq ha.le]
      have e2 : ∫ v in (0:ℝ)..a, v ^ (2:ℝ) * (a ^ 2 / 2 - v ^ 2 / 2) ^ n
          = (a ^ 2 / 2) ^ n * ∫ v in (0:ℝ)..a, v ^ 2 * (Ferrers.prof a n).mdens v := by
        rw [← intervalIntegral.integral_const_mul]
        refine intervalIntegral.integral_congr fun v hv => ?_
        rw [uIcc_of_le ha.le] at hv
        have h1 : v ^ 2 / a ^ 2 ≤ 1 := by
          rw [div_le_one (by positivity)]
          exact pow_le_pow_left₀ hv.1 hv.2 2
        simp only [Ferrers.prof]
        rw [max_eq_right (by linarith), show a ^ 2 / 2 - v ^ 2 / 2 = a ^ 2 / 2 * (1 - v ^ 2 / a ^ 2) by field_simp,
          Real.mul_rpow (by positivity) (by linarith), Real.rpow_two]
        ring
      rw [e1, e2, show ((2:ℝ) + 1) / 2 + n = 3 / 2 + n by ring, Real.rpow_add (by positivity),
        show ((2:ℝ) + 1) / 2 = 3 / 2 by norm_num, show ((2:ℝ) - 1) / 2 = 1 / 2 by norm_num] at k
      have h0 : (a ^ 2 / 2) ^ n ≠ 0 := (Real.rpow_pos_of_pos (by positivity) n).ne'
      have k' : ∫ v in (0:ℝ)..a, v ^ 2 * (Ferrers.prof a n).mdens v
          = 2 ^ (1 / 2 : ℝ) * ((a ^ 2 / 2) ^ (3 / 2 : ℝ) * B (3 / 2) (n + 1)) :=
        mul_left_cancel₀ h0 (by rw [k]; ring)
      have e3 : (2:ℝ) ^ (1 / 2 : ℝ) * (a ^ 2 / 2) ^ (3 / 2 : ℝ) = a ^ 3 / 2 := by
        rw [Real.div_rpow (by positivity) (by norm_num), show (3 / 2 : ℝ) = 1 / 2 + 1 by norm_num, Real.rpow_add (by norm_num : (0:ℝ) < 2),
          Real.rpow_add (by positivity : 0 < a ^ 2), ← Real.sqrt_eq_rpow (a ^ 2), Real.sqrt_sq ha.le, Real.rpow_one, Real.rpow_one]
        have : (2:ℝ) ^ (1 / 2 : ℝ) ≠ 0 := (Real.rpow_pos_of_pos (by norm_num) _).ne'
        field_simp
      rw [show (fun m => m ^ 2 * (p.rhocM * (Ferrers.prof a n).mdens m)) = fun m => p.rhocM * (m ^ 2 * (Ferrers.prof a n).mdens m) from
        funext fun m => by ring, intervalIntegral.integral_const_mul, k', ← mul_assoc (2 ^ (1 / 2 : ℝ)), e3]
      ring
    rw [z1, z2, add_zero]
    have g1 := Real.Gamma_pos_of_pos (by linarith : 0 < n + 2.5)
    have g2 := Real.Gamma_pos_of_pos (by linarith : 0 < n + 1)
    have g3 : Real.Gamma (3 / 2) = √Real.pi / 2 := by
      have := Real.Gamma_add_one (s := 1 / 2) (by norm_num)
      rw [Real.Gamma_one_half_eq] at this
      rw [show (3 / 2 : ℝ) = 1 / 2 + 1 by norm_num, this]
      ring
    have e4 : Real.pi ^ (1.5 : ℝ) = Real.pi * √Real.pi := by
      rw [show (1.5 : ℝ) = 1 + 1 / 2 by norm_num, Real.rpow_add Real.pi_pos, Real.rpow_one, ← Real.sqrt_eq_rpow]
    have hs := Real.sqrt_pos.2 Real.pi_pos
    unfold B
    rw [g3, show (3 / 2 : ℝ) + (n + 1) = n + 2.5 by norm_num; ring]
    simp only [Par.rhocM, hpd]
    rw [e4]
    field_simp
    norm_num
example : ∃ ρ m : ℝ → ℝ, EllipsoidMass (4/5) (1/2) ρ m ∧ ∀ S, 2 ≤ S → m S = 1 := by
  obtain ⟨ρ, -, m, h⟩ := C62_Ferrers (a := 2) (n := 2) (b := 4/5) (c := 1/2) (by norm_num) (by norm_num) (by norm_num)
    (by norm_num) (Or.inr (by norm_num [abs_of_neg])) 0 0
  exact ⟨ρ, m, h⟩

/-- Whatever was evaluated before on the same object, every method returns the value at the requested point. -/
theorem C71_Ferrers (p : Ferrers.Par) (l : List (Ferrers.Method × ℝ × ℝ × ℝ × ℝ)) :
    Ferrers.calls p {} l = l.map fun c => some ((match c.1 with
      | .val => (Ferrers.pot p).val
      | .Rforce => (Ferrers.pot p).Rforce
      | .phitorque => (Ferrers.pot p).phitorque
      | .zforce => (Ferrers.pot p).zforce
      | .R2deriv => (Ferrers.pot p).R2deriv
      | .z2deriv => (Ferrers.pot p).z2deriv
      | .Rzderiv => (Ferrers.pot p).Rzderiv
      | .phi2deriv => (Ferrers.pot p).phi2deriv
      | .Rphideriv => (Ferrers.pot p).Rphideriv
      | .phizderiv => (Ferrers.pot p).phizderiv
      | .dens => (Ferrers.pot p).dens) c.2.1 c.2.2.1 c.2.2.2.1 c.2.2.2.2) := by
  have key : ∀ (l : List (Ferrers.Method × ℝ × ℝ × ℝ × ℝ)) (s : Ferrers.PyCache),
      (∀ k F, s.force = some (k, F) → F = Ferrers.xyzforces p k.1 k.2.1 k.2.2.1 k.2.2.2) →
      Ferrers.calls p s l = l.map fun c => some ((match c.1 with
      | .val => (Ferrers.pot p).val
      | .Rforce => (Ferrers.pot p).Rforce
      | .phitorque => (Ferrers.pot p).phitorque
      | .zforce => (Ferrers.pot p).zforce
      | .R2deriv => (Ferrers.pot p).R2deriv
      | .z2deriv => (Ferrers.pot p).z2deriv
      | .Rzderiv => (Ferrers.pot p).Rzderiv
      | .phi2deriv => (Ferrers.pot p).phi2deriv
      | .Rphideriv => (Ferrers.pot p).Rphideriv
      | .phizderiv => (Ferrers.pot p).phizderiv
      | .dens => (Ferrers.pot p).dens) c.2.1 c.2.2.1 c.2.2.2.1 c.2.2.2.2) := by
    intro l
    induction l with
    | nil => intros; rfl
    | cons c l ih =>
      intro s hs
      obtain ⟨m, R, z, φ, t⟩ := c
      have hv : (computeForces p s R (p.phi φ) z t).force = some ((R, p.phi φ, z, t), Ferrers.xyzforces p R (p.phi φ) z t) := by
        unfold computeForces
        split_ifs with h
        · cases hf : s.force with
          | none => simp [hf] at h
          | some k =>
            simp only [hf, Option.map_some, Option.some.injEq] at h
            have := hs k.1 k.2 hf
            rw [h] at this
            rw [← this, ← h]
        · rfl
      have hv' : ∀ k F, (computeForces p s R (p.phi φ) z t).force = some (k, F) →
          F = Ferrers.xyzforces p k.1 k.2.1 k.2.2.1 k.2.2.2 := by
        intro k F h
        rw [hv] at h
        simp only [Option.some.injEq, Prod.mk.injEq] at h
        obtain ⟨rfl, rfl⟩ := h
        rfl
      simp only [Ferrers.calls, List.map_cons]
      congr 1
      · cases m <;> simp only [Ferrers.call, hv, Option.map_some] <;> rfl
      · exact ih _ (by cases m <;> first | exact hs | exact hv')
  exact key l {} (by simp)
example : Ferrers.calls ⟨1, 2, 4/5, 1/2, 1, 3⟩ {} [(.Rforce, 1, 0, 0, 0), (.zforce, 1, 1, 0, 0), (.Rforce, 1, 0, 0, 0)]
    = [some ((Ferrers.pot ⟨1, 2, 4/5, 1/2, 1, 3⟩).Rforce 1 0 0 0), some ((Ferrers.pot ⟨1, 2, 4/5, 1/2, 1, 3⟩).zforce 1 1 0 0),
      some ((Ferrers.pot ⟨1, 2, 4/5, 1/2, 1, 3⟩).Rforce 1 0 0 0)] := by
  rw [C71_Ferrers]
  rfl

end Verif
