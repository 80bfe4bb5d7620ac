import Verif.Model.PotQuant
import Verif.Lemmas.EOM
import Verif.Lemmas.Smooth
import Verif.Lemmas.Ellipse

set_option autoImplicit false

/-!
# C11: circular velocity and frequencies
-/

open Filter Topology

namespace Verif

/-- The square of the circular velocity is `R` times the radial derivative of the potential in the
plane. -/
theorem C11_vcirc {P : Pot} {R φ t : ℝ} (hg : GradAt P R 0 φ t)
    (hin : 0 ≤ R * deriv (fun x => P.val x 0 φ t) R) :
    0 ≤ PotQuant.vcirc P R φ t ∧
    PotQuant.vcirc P R φ t ^ 2 = R * deriv (fun x => P.val x 0 φ t) R := by
  rw [hg.dR.deriv] at *
  exact ⟨Real.sqrt_nonneg _, Real.sq_sqrt hin⟩

/-- The angular frequency of the circular orbit is the circular velocity divided by the radius. -/
theorem C11_omegac (P : Pot) {R t : ℝ} (hR : 0 < R) :
    PotQuant.omegac P R t = PotQuant.vcirc P R 0 t / R := by
  unfold PotQuant.omegac PotQuant.vcirc
  conv_rhs => rw [← Real.sqrt_sq hR.le, ← Real.sqrt_div' _ (sq_nonneg R)]
  rw [Real.sqrt_sq hR.le]
  congr 1
  field_simp

/-- A circular orbit with this angular frequency solves the planar radial balance: the centrifugal
acceleration equals the derivative of the potential. -/
theorem C11_circular_balance {P : Pot} {R t : ℝ} (hR : 0 < R) (hg : GradAt P R 0 0 t)
    (hin : 0 ≤ deriv (fun x => P.val x 0 0 t) R) :
    PotQuant.omegac P R t ^ 2 * R = deriv (fun x => P.val x 0 0 t) R := by
  rw [hg.dR.deriv] at *
  rw [PotQuant.omegac, Real.sq_sqrt (div_nonneg hin hR.le)]
  field_simp

/-- In a static axisymmetric potential the circular orbit with this angular frequency solves the
planar equations of motion. -/
theorem C11_circular_orbit {P : Pot} {R : ℝ} (hR : 0 < R)
    (hg : ∀ φ t, GradAt P R 0 φ t) (hax : ∀ R z φ φ' t t', P.val R z φ t = P.val R z φ' t')
    (hin : 0 ≤ deriv (fun x => P.val x 0 0 0) R) :
    Solves (EOM.planar P.force)
      (fun s => ![R, 0, PotQuant.omegac P R 0 * s, PotQuant.omegac P R 0]) Set.univ := by
  intro s _
  have h1 := C11_circular_balance hR (hg 0 0) hin
  have h2 : P.Rforce R 0 (PotQuant.omegac P R 0 * s) s = -deriv (fun x => P.val x 0 0 0) R := by
    have := (hg (PotQuant.omegac P R 0 * s) s).dR.deriv
    simp only [hax _ _ (PotQuant.omegac P R 0 * s) 0 s 0] at this
    linarith
  have h3 : P.phitorque R 0 (PotQuant.omegac P R 0 * s) s = 0 := by
    have := (hg (PotQuant.omegac P R 0 * s) s).dphi
    have e : (fun x => P.val R 0 x s) = fun _ => P.val R 0 0 0 := funext fun x => hax _ _ _ _ _ _
    rw [e] at this
    linarith [this.unique (hasDerivAt_const _ _)]
  generalize PotQuant.omegac P R 0 = w at *
  rw [hasDerivAt_pi]
  intro i
  obtain rfl | rfl | rfl | rfl : i = 0 ∨ i = 1 ∨ i = 2 ∨ i = 3 := by fin_cases i <;> simp
  · simpa [EOM.planar] using hasDerivAt_const s R
  · simp only [EOM.planar, Pot.force, Matrix.cons_val_zero, Matrix.cons_val_one, Matrix.cons_val, h2]
    refine (hasDerivAt_const s (0 : ℝ)).congr_deriv ?_
    rw [← h1]
    field_simp
    ring
  · simpa [EOM.planar] using (hasDerivAt_id s).const_mul w
  · simp only [EOM.planar, Pot.force, Matrix.cons_val_zero, Matrix.cons_val_one, Matrix.cons_val, h3]
    refine (hasDerivAt_const s w).congr_deriv ?_
    ring

/-- `dvcircdR` is the derivative of `vcirc`. -/
theorem C11_dvcircdR {P : Pot} {D : Set (ℝ × ℝ × ℝ)} (hP : SmoothOn P D) {R φ t : ℝ}
    (hD : (R, 0, φ) ∈ D) (hin : 0 < R * deriv (fun x => P.val x 0 φ t) R) :
    HasDerivAt (fun x => PotQuant.vcirc P x φ t) (PotQuant.dvcircdR P R φ t) R := by
  rw [(hP.grad _ _ _ _ hD).dR.deriv] at hin
  have hf := (hP.forceHess (t := t) hD).RR
  refine (hd_sqrt (hd_mul (hd_id R) (hd_neg hf)) hin.ne').congr_deriv ?_
  have : √(R * -P.Rforce R 0 φ t) ≠ 0 := (Real.sqrt_pos.2 hin).ne'
  simp only [PotQuant.dvcircdR, PotQuant.vcirc]
  field_simp

theorem C11aux.omega2 {P : Pot} {D : Set (ℝ × ℝ × ℝ)} (hP : SmoothOn P D) {R t : ℝ} (hR : 0 < R)
    (hD : (R, 0, 0) ∈ D) (hin : 0 < deriv (fun x => P.val x 0 0 t) R) :
    HasDerivAt (fun x => PotQuant.omegac P x t ^ 2)
      (P.R2deriv R 0 0 t / R + P.Rforce R 0 0 t / R ^ 2) R := by
  rw [(hP.grad _ _ _ _ hD).dR.deriv] at hin
  have hf := (hP.forceHess (t := t) hD).RR
  have key := hd_div (hd_neg hf) (hd_id R) hR.ne'
  have hpos : ∀ᶠ x in 𝓝 R, 0 < -P.Rforce x 0 0 t / x :=
    key.continuousAt.eventually (lt_mem_nhds (div_pos hin hR))
  refine (key.congr_of_eventuallyEq (hpos.mono fun x hx => Real.sq_sqrt hx.le)).congr_deriv ?_
  field_simp
  ring

/-- The square of the epicycle frequency is `R d(Ω²)/dR + 4 Ω²`. -/
theorem C11_epifreq {P : Pot} {D : Set (ℝ × ℝ × ℝ)} (hP : SmoothOn P D) {R t : ℝ} (hR : 0 < R)
    (hD : (R, 0, 0) ∈ D) (hin : 0 < deriv (fun x => P.val x 0 0 t) R)
    (hst : 0 ≤ R * deriv (fun x => PotQuant.omegac P x t ^ 2) R + 4 * PotQuant.omegac P R t ^ 2) :
    PotQuant.epifreq P R t ^ 2 =
      R * deriv (fun x => PotQuant.omegac P x t ^ 2) R + 4 * PotQuant.omegac P R t ^ 2 := by
  rw [(C11aux.omega2 hP hR hD hin).deriv] at *
  rw [(hP.grad _ _ _ _ hD).dR.deriv] at hin
  have e : PotQuant.omegac P R t ^ 2 = -P.Rforce R 0 0 t / R :=
    Real.sq_sqrt (div_pos hin hR).le
  rw [e] at hst ⊢
  have e2 : R * (P.R2deriv R 0 0 t / R + P.Rforce R 0 0 t / R ^ 2) + 4 * (-P.Rforce R 0 0 t / R)
      = P.R2deriv R 0 0 t - 3 / R * P.Rforce R 0 0 t := by
    field_simp
    ring
  rw [e2] at hst ⊢
  exact Real.sq_sqrt hst

/-- The effective radial potential of an orbit with the angular momentum of the circular orbit has
the square of the epicycle frequency as second derivative at the circular radius. -/
theorem C11_epifreq_effective {P : Pot} {D : Set (ℝ × ℝ × ℝ)} (hP : SmoothOn P D) {R t : ℝ} (hR : 0 < R)
    (hD : (R, 0, 0) ∈ D) (hin : 0 ≤ deriv (fun x => P.val x 0 0 t) R) :
    let L := R * PotQuant.vcirc P R 0 t;
    let eff := fun x => P.val x 0 0 t + L ^ 2 / (2 * x ^ 2);
    HasDerivAt eff 0 R ∧
    (0 ≤ deriv (deriv eff) R → PotQuant.epifreq P R t ^ 2 = deriv (deriv eff) R) := by
  intro L eff
  have hd := (hP.grad R 0 0 t hD).dR.deriv
  have hL : L ^ 2 = R ^ 3 * -P.Rforce R 0 0 t := by
    have : L ^ 2 = R ^ 2 * PotQuant.vcirc P R 0 t ^ 2 := by ring
    rw [this, (C11_vcirc (hP.grad R 0 0 t hD) (mul_nonneg hR.le hin)).2, hd]
    ring
  have hnear : ∀ᶠ x in 𝓝 R, (x, (0 : ℝ), (0 : ℝ)) ∈ D ∧ x ≠ 0 := by
    have c : ContinuousAt (fun x : ℝ => (x, (0 : ℝ), (0 : ℝ))) R := by fun_prop
    exact (c.eventually (hP.isOpen.mem_nhds hD)).and (isOpen_ne.mem_nhds hR.ne')
  have d1 : ∀ x, (x, (0 : ℝ), (0 : ℝ)) ∈ D → x ≠ 0 →
      HasDerivAt eff (-P.Rforce x 0 0 t - L ^ 2 / x ^ 3) x := by
    intro x hx h0
    have k := hd_div (hd_const (L ^ 2) x) (hd_const_mul 2 (hd_pow 2 (hd_id x)))
      (by simpa using h0)
    refine (hd_add (hP.grad _ _ _ t hx).dR k).congr_deriv ?_
    norm_num
    field_simp
    ring
  constructor
  · refine (d1 R hD hR.ne').congr_deriv ?_
    rw [hL]
    field_simp
    ring
  · have k := hd_sub (hd_neg (hP.forceHess (t := t) hD).RR)
      (hd_div (hd_const (L ^ 2) R) (hd_pow 3 (hd_id R)) (pow_ne_zero 3 hR.ne'))
    have k2 : HasDerivAt (deriv eff) (P.R2deriv R 0 0 t - 3 / R * P.Rforce R 0 0 t) R := by
      refine (k.congr_of_eventuallyEq (hnear.mono fun x hx => (d1 x hx.1 hx.2).deriv)).congr_deriv ?_
      rw [hL]
      norm_num
      field_simp
    rw [k2.deriv]
    intro h
    exact Real.sq_sqrt h

/-- The square of the vertical frequency is the second vertical derivative of the potential. -/
theorem C11_verticalfreq {P : Pot} {R t : ℝ} (hh : HessAt P R 0 0 t)
    (h : 0 ≤ deriv (fun x => deriv (fun y => P.val R y 0 t) x) 0) :
    PotQuant.verticalfreq P R t ^ 2 = deriv (fun x => deriv (fun y => P.val R y 0 t) x) 0 := by
  rw [hh.zz.deriv] at *
  exact Real.sq_sqrt h

/-- The terminal velocity is odd in longitude and vanishes towards the tangent direction `l = 90`
degrees. -/
theorem C11_vterm (P : Pot) (l t : ℝ) (deg : Bool) :
    PotQuant.vterm P (-l) t deg = -PotQuant.vterm P l t deg ∧ PotQuant.vterm P 90 t true = 0 ∧
    PotQuant.vterm P (Real.pi / 2) t false = 0 ∧
    PotQuant.vterm P l t true = PotQuant.vterm P (l * (Real.pi / 180)) t false := by
  refine ⟨?_, ?_, ?_, ?_⟩
  · cases deg <;> simp [PotQuant.vterm, neg_div]
  · have : (90 : ℝ) / 180 * Real.pi = Real.pi / 2 := by ring
    simp [PotQuant.vterm, this]
  · simp [PotQuant.vterm]
  · have : l / 180 * Real.pi = l * (Real.pi / 180) := by ring
    simp [PotQuant.vterm, this]

/-- In a flattened potential of the form `f(R² + z²/q²)` the flattening is `q` off the plane. -/
theorem C11_flattening {P : Pot} {R z t q : ℝ} (f : ℝ → ℝ) {f' : ℝ} (hq : 0 < q) (hR : R ≠ 0)
    (hz : z ≠ 0) (hv : ∀ R z, P.val R z 0 t = f (R ^ 2 + z ^ 2 / q ^ 2))
    (hf : HasDerivAt f f' (R ^ 2 + z ^ 2 / q ^ 2)) (hf' : f' ≠ 0) (hg : GradAt P R z 0 t) :
    PotQuant.flattening P R z t = q := by
  have h1 := hg.dR
  have h2 := hg.dz
  simp only [hv] at h1 h2
  have k1 : HasDerivAt (fun x => f (x ^ 2 + z ^ 2 / q ^ 2)) (f' * (2 * R)) R := by
    have i : HasDerivAt (fun x : ℝ => x ^ 2 + z ^ 2 / q ^ 2) (2 * R) R := by
      refine (hd_add (hd_pow 2 (hd_id R)) (hd_const (z ^ 2 / q ^ 2) R)).congr_deriv ?_
      norm_num
    exact HasDerivAt.comp (h₂ := f) R hf i
  have k2 : HasDerivAt (fun x => f (R ^ 2 + x ^ 2 / q ^ 2)) (f' * (2 * z / q ^ 2)) z := by
    have i : HasDerivAt (fun x : ℝ => R ^ 2 + x ^ 2 / q ^ 2) (2 * z / q ^ 2) z := by
      refine (hd_add (hd_const (R ^ 2) z) (hd_div_const (q ^ 2) (hd_pow 2 (hd_id z)))).congr_deriv ?_
      norm_num
    exact HasDerivAt.comp (h₂ := f) z hf i
  have e1 : P.Rforce R z 0 t = -(f' * (2 * R)) := by linarith [h1.unique k1]
  have e2 : P.zforce R z 0 t = -(f' * (2 * z / q ^ 2)) := by linarith [h2.unique k2]
  have : z / R * P.Rforce R z 0 t / P.zforce R z 0 t = q ^ 2 := by
    rw [e1, e2]
    field_simp
  rw [PotQuant.flattening, this, abs_of_nonneg (sq_nonneg q), Real.sqrt_sq hq.le]

/-! ### Concrete cases: Plummer sphere with `b = 1`, at `R = 2` -/

theorem C11aux.mem : ((2 : ℝ), (0 : ℝ), (0 : ℝ)) ∈ {p : ℝ × ℝ × ℝ | 0 < p.1 ^ 2 + p.2.1 ^ 2 + 1 ^ 2} := by
  norm_num

theorem C11aux.inward : 0 < deriv (fun x => (Plummer.pot 1).val x 0 0 0) 2 := by
  rw [((Plummer.smoothOn 1).grad 2 0 0 0 C11aux.mem).dR.deriv]
  have : (Plummer.pot 1).Rforce 2 0 0 0 = Plummer.Rforce 1 2 0 := rfl
  rw [this, Plummer.Rforce]
  have : (0 : ℝ) < ((2 : ℝ) ^ 2 + 0 ^ 2 + 1 ^ 2) ^ (-(3 / 2) : ℝ) := by positivity
  linarith

example : HasDerivAt (fun x => PotQuant.vcirc (Plummer.pot 1) x 0 0)
    (PotQuant.dvcircdR (Plummer.pot 1) 2 0 0) 2 :=
  C11_dvcircdR (Plummer.smoothOn 1) C11aux.mem (mul_pos two_pos C11aux.inward)

example : Solves (EOM.planar (Plummer.pot 1).force)
    (fun s => ![2, 0, PotQuant.omegac (Plummer.pot 1) 2 0 * s, PotQuant.omegac (Plummer.pot 1) 2 0])
    Set.univ :=
  C11_circular_orbit two_pos (fun φ t => (Plummer.smoothOn 1).grad 2 0 φ t (by norm_num))
    (fun _ _ _ _ _ _ => rfl) C11aux.inward.le

example : ∃ k, 0 ≤ k ∧ PotQuant.epifreq (Plummer.pot 1) 2 0 ^ 2 = k ∧
    k = 2 * deriv (fun x => PotQuant.omegac (Plummer.pot 1) x 0 ^ 2) 2
      + 4 * PotQuant.omegac (Plummer.pot 1) 2 0 ^ 2 := by
  have hst : 0 ≤ 2 * deriv (fun x => PotQuant.omegac (Plummer.pot 1) x 0 ^ 2) 2
      + 4 * PotQuant.omegac (Plummer.pot 1) 2 0 ^ 2 := by
    rw [(C11aux.omega2 (Plummer.smoothOn 1) two_pos C11aux.mem C11aux.inward).deriv]
    have h := C11aux.inward
    rw [((Plummer.smoothOn 1).grad 2 0 0 0 C11aux.mem).dR.deriv] at h
    rw [PotQuant.omegac, Real.sq_sqrt (div_pos h two_pos).le]
    have e1 : (Plummer.pot 1).Rforce 2 0 0 0 = -(5 * (5 : ℝ) ^ (-(5 / 2) : ℝ)) * 2 := by
      change Plummer.Rforce 1 2 0 = _
      rw [Plummer.Rforce, show (2 : ℝ) ^ 2 + 0 ^ 2 + 1 ^ 2 = 5 by norm_num,
        show (-(3 / 2) : ℝ) = 1 + -(5 / 2) by norm_num, Real.rpow_add (by norm_num), Real.rpow_one]
    have e2 : (Plummer.pot 1).R2deriv 2 0 0 0 = -7 * (5 : ℝ) ^ (-(5 / 2) : ℝ) := by
      change Plummer.R2deriv 1 2 0 = _
      rw [Plummer.R2deriv, show (2 : ℝ) ^ 2 + 0 ^ 2 + 1 ^ 2 = 5 by norm_num]
      norm_num
    rw [e1, e2]
    have : (0 : ℝ) < (5 : ℝ) ^ (-(5 / 2) : ℝ) := by positivity
    linarith
  exact ⟨_, hst, C11_epifreq (Plummer.smoothOn 1) two_pos C11aux.mem C11aux.inward hst, rfl⟩

end Verif
