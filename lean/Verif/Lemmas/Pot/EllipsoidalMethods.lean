import Verif.Lemmas.Pot.Ellipsoidal
import Verif.Lemmas.Pot.Ops

set_option autoImplicit false

/-! # Ellipsoidal potentials: Poisson's equation, the cylindrical methods, the memory and the C version -/

open Set MeasureTheory Filter Topology

namespace Verif.Ellipsoidal
open Real hiding pi
open EllInt

variable {p : Par}

/-! ### Poisson -/

theorem d_co {β s : ℝ} (hβ : 0 < β) (hs : s ∈ Ioc (0:ℝ) 1) : HasDerivAt (co β) (2 * co β s ^ 2 / s ^ 3) s := by
  have h := lin_pos hβ hs
  have h0 := hs.1
  have e : co β =ᶠ[𝓝 s] fun s => s ^ 2 / (1 + (β - 1) * s ^ 2) := by
    filter_upwards [lt_mem_nhds h0] with r hr
    unfold co
    rw [show β + (1 / r ^ 2 - 1) = (1 + (β - 1) * r ^ 2) / r ^ 2 by field_simp; ring, one_div_div]
  have d : HasDerivAt (fun s : ℝ => s ^ 2 / (1 + (β - 1) * s ^ 2)) _ s :=
    (hasDerivAt_pow 2 s).fun_div (((hasDerivAt_pow 2 s).const_mul (β - 1)).const_add 1) h.ne'
  refine (d.congr_of_eventuallyEq e).congr_deriv ?_
  rw [co_eq hs]
  field_simp
  ring

theorem d_s3om {b2 c2 s : ℝ} (hb : 0 < b2) (hc : 0 < c2) (hs : s ∈ Ioc (0:ℝ) 1) :
    HasDerivAt (fun s => s ^ 3 * om b2 c2 s) ((co 1 s + co b2 s + co c2 s) * om b2 c2 s) s := by
  have h1 := lin_pos hb hs
  have h2 := lin_pos hc hs
  have h0 := hs.1
  have hL : ∀ β : ℝ, HasDerivAt (fun s : ℝ => 1 + (β - 1) * s ^ 2) ((β - 1) * (2 * s)) s := fun β => by
    simpa using ((hasDerivAt_pow 2 s).const_mul (β - 1)).const_add 1
  have d := (hasDerivAt_pow 3 s).fun_mul ((hasDerivAt_const s (1:ℝ)).fun_div
    (((hL b2).fun_mul (hL c2)).sqrt (mul_pos h1 h2).ne') (sqrt_pos.2 (mul_pos h1 h2)).ne')
  refine d.congr_deriv ?_
  rw [co_eq hs, co_eq hs, co_eq hs]
  unfold om
  have hsq := sq_sqrt (mul_pos h1 h2).le
  have hpos := sqrt_pos.2 (mul_pos h1 h2)
  have e1 : (1:ℝ) + (1 - 1) * s ^ 2 = 1 := by ring
  rw [e1]
  clear d hL
  generalize √((1 + (b2 - 1) * s ^ 2) * (1 + (c2 - 1) * s ^ 2)) = Q at *
  obtain ⟨B, hB⟩ : ∃ B, B = 1 + (b2 - 1) * s ^ 2 := ⟨_, rfl⟩
  obtain ⟨C, hC⟩ : ∃ C, C = 1 + (c2 - 1) * s ^ 2 := ⟨_, rfl⟩
  have hb' : b2 - 1 = (B - 1) / s ^ 2 := by rw [hB]; field_simp; ring
  have hc' : c2 - 1 = (C - 1) / s ^ 2 := by rw [hC]; field_simp; ring
  rw [← hB] at h1 hsq ⊢
  rw [← hC] at h2 hsq ⊢
  rw [hb', hc']
  field_simp
  rw [hsq]
  norm_num
  ring

theorem poisson (hp : p.Good) (hg : p.gl = none) {x y z : ℝ} (hq : Off x y z) :
    fxx p x y z + fyy p x y z + fzz p x y z = 4 * π * p.prof.mdens (√(x ^ 2 + y ^ 2 / p.b2 + z ^ 2 / p.c2)) := by
  have hq' : 0 < N (x, y, z) := hq
  obtain ⟨κ, k0, k1, _, b1, _⟩ := hp.mild hg
  have hb := hp.b2
  have hc := hp.c2
  let G : ℝ → ℝ := fun s => h1 p (U p (x, y, z) s) * (s ^ 3 * om p.b2 p.c2 s)
  let g : ℝ → ℝ := fun s =>
    (x ^ 2 * (h2 p (U p (x, y, z) s) * (co 1 s * (co 1 s * om p.b2 p.c2 s)))
      + y ^ 2 * (h2 p (U p (x, y, z) s) * (co p.b2 s * (co p.b2 s * om p.b2 p.c2 s)))
      + z ^ 2 * (h2 p (U p (x, y, z) s) * (co p.c2 s * (co p.c2 s * om p.b2 p.c2 s))))
    + (h1 p (U p (x, y, z) s) * (co 1 s * om p.b2 p.c2 s) + h1 p (U p (x, y, z) s) * (co p.b2 s * om p.b2 p.c2 s)
      + h1 p (U p (x, y, z) s) * (co p.c2 s * om p.b2 p.c2 s))
  have hd : ∀ s ∈ Ioc (0:ℝ) 1, HasDerivAt G (g s) s := by
    intro s hs
    have hU := U_pos hp hq' hs
    have du := (((d_co one_pos hs).const_mul (x ^ 2)).fun_add ((d_co hb hs).const_mul (y ^ 2))).fun_add
      ((d_co hc hs).const_mul (z ^ 2))
    have d := ((d_h1 hp hU).comp s du).fun_mul (d_s3om hb hc hs)
    refine d.congr_deriv ?_
    have h0 := hs.1
    simp only [g, h2', Function.comp_def]
    change 1 / 2 * h2 p (U p (x, y, z) s) * _ * _ + h1 p (U p (x, y, z) s) * _ = _
    field_simp
  have i1 := (qint_h2 hp one_pos one_pos hq') hg
  have i2 := (qint_h2 hp hb hb hq') hg
  have i3 := (qint_h2 hp hc hc hq') hg
  have j1 := (qint_h1 hp one_pos hq') hg
  have j2 := (qint_h1 hp hb hq') hg
  have j3 := (qint_h1 hp hc hq') hg
  have ii := ((i1.const_mul (x ^ 2)).add (i2.const_mul (y ^ 2))).add (i3.const_mul (z ^ 2))
  have jj := (j1.add j2).add j3
  have wt : Wt (3 + 0) fun s => s ^ 3 * om p.b2 p.c2 s := by
    refine Wt.mul ⟨by fun_prop, 1, zero_le_one, fun s hs => ?_⟩ (wt_om hb hc)
    rw [abs_of_pos (pow_pos hs.1 3), one_mul, show (3:ℝ) = ((3:ℕ):ℝ) by norm_num, rpow_natCast]
  obtain ⟨C, hC, bG⟩ := hu_bound (sq_co one_pos) (sq_co hb) (sq_co hc) (by linarith : 0 ≤ κ + 1) b1 wt hq' le_rfl
  have t0 : Tendsto G (𝓝[>] 0) (𝓝 0) := by
    have hz : Tendsto (fun s : ℝ => C * s ^ (3 + 0 - 2 * (κ + 1))) (𝓝[>] 0) (𝓝 0) := by
      have hpos : 0 < 3 + 0 - 2 * (κ + 1) := by linarith
      have : ContinuousAt (fun s : ℝ => C * s ^ (3 + 0 - 2 * (κ + 1))) 0 :=
        continuousAt_const.mul (continuousAt_rpow_const 0 _ (Or.inr hpos.le))
      have := this.tendsto
      rw [zero_rpow hpos.ne', mul_zero] at this
      exact this.mono_left nhdsWithin_le_nhds
    refine squeeze_zero_norm' ?_ hz
    filter_upwards [Ioc_mem_nhdsGT (zero_lt_one' ℝ)] with s hs
    exact bG (x, y, z) le_rfl le_rfl s hs
  have t1 : Tendsto G (𝓝[<] 1) (𝓝 (G 1)) :=
    ((hd 1 ⟨zero_lt_one, le_rfl⟩).continuousAt.tendsto).mono_left nhdsWithin_le_nhds
  have ftc := intervalIntegral.integral_eq_sub_of_hasDerivAt_of_tendsto zero_lt_one
    (fun s hs => hd s ⟨hs.1, hs.2.le⟩) (ii.add jj) t0 t1
  have split : ∫ s in (0:ℝ)..1, g s = (x ^ 2 * J p 1 1 x y z + y ^ 2 * J p p.b2 p.b2 x y z + z ^ 2 * J p p.c2 p.c2 x y z)
      + (I p 1 x y z + I p p.b2 x y z + I p p.c2 x y z) := by
    simp only [g, J, I, K, quad, hg]
    rw [intervalIntegral.integral_add ii jj, intervalIntegral.integral_add
      ((i1.const_mul (x ^ 2)).add (i2.const_mul (y ^ 2))) (i3.const_mul (z ^ 2)),
      intervalIntegral.integral_add (i1.const_mul (x ^ 2)) (i2.const_mul (y ^ 2)),
      intervalIntegral.integral_add (j1.add j2) j3, intervalIntegral.integral_add j1 j2,
      intervalIntegral.integral_const_mul, intervalIntegral.integral_const_mul, intervalIntegral.integral_const_mul]
  rw [sub_zero] at ftc
  have hG1 : G 1 = p.prof.mdens (√(x ^ 2 + y ^ 2 / p.b2 + z ^ 2 / p.c2)) / (p.b * p.c) := by
    have hbp := hp.hb
    have hcp := hp.hc
    simp only [G, h1, U, u, co, om]
    norm_num
    rw [show p.b2 = p.b ^ 2 from rfl, show p.c2 = p.c ^ 2 from rfl, ← mul_pow, sqrt_sq (mul_pos hbp hcp).le]
    simp only [div_eq_mul_inv]
  have hbp := hp.hb
  have hcp := hp.hc
  have hfin : fxx p x y z + fyy p x y z + fzz p x y z = 4 * π * p.b * p.c * ∫ s in (0:ℝ)..1, g s := by
    rw [split]; simp only [fxx, fyy, fzz]; ring
  rw [hfin, ftc, hG1]
  field_simp

/-! ### The methods -/

theorem xyzforces_aligned (h : p.rot = none) (x y z : ℝ) :
    xyzforces p (x, y, z) = (-fx p x y z, -fy p x y z, -fz p x y z) := by
  simp only [xyzforces, toFrame, h, forceIntAll_eq, fx, fy, fz, I, Prod.mk.injEq]
  refine ⟨?_, ?_, ?_⟩ <;> ring

theorem xyzforces_rot {M : Tilt.Mat} (h : p.rot = some M) (x y z : ℝ) :
    xyzforces p (x, y, z) = (-fx p (M.mulVec ![x, y, z] 0) (M.mulVec ![x, y, z] 1) (M.mulVec ![x, y, z] 2),
      -fy p (M.mulVec ![x, y, z] 0) (M.mulVec ![x, y, z] 1) (M.mulVec ![x, y, z] 2),
      -fz p (M.mulVec ![x, y, z] 0) (M.mulVec ![x, y, z] 1) (M.mulVec ![x, y, z] 2)) := by
  simp only [xyzforces, toFrame, h, forceIntAll_eq, fx, fy, fz, I, Prod.mk.injEq]
  refine ⟨?_, ?_, ?_⟩ <;> ring

theorem xyzhess_eq (hp : p.Good) {x y z : ℝ} (hq : Off x y z) :
    xyzhess p (x, y, z) = ⟨fxx p x y z, fxy p x y z, fxz p x y z, fyy p x y z, fyz p x y z, fzz p x y z⟩ := by
  simp only [xyzhess, hessIntAll_eq hp hq, fxx, fxy, fxz, fyy, fyz, fzz]

/-- Nothing but `x² + y²` matters when `b = 1`. -/
theorem K_sym (hb : p.b = 1) (h w : ℝ → ℝ) (R z φ : ℝ) : K p h w (R * cos φ, R * sin φ, z) = K p h w (R, 0, z) := by
  have : p.b2 = 1 := by unfold Par.b2; rw [hb]; norm_num
  unfold K U u
  congr 1
  funext s
  rw [this]
  congr 2
  simp only
  have := sin_sq_add_cos_sq φ
  linear_combination (R ^ 2 * co 1 s) * this

theorem phi_nonaxi (h : p.isNonAxi) (φ : ℝ) : p.phi φ = φ := by simp [Par.phi, h]
theorem phi_axi (h : ¬ p.isNonAxi) (φ : ℝ) : p.phi φ = 0 := by simp [Par.phi, h]

theorem polar (hp : p.Good) (ha : p.rot = none) (hax : p.b = 1 ∨ p.isNonAxi) (t : ℝ) :
    Polar (pot p) t 0 (evaluateXyz p) (fx p) (fy p) (fz p) (fxx p) (fxy p) (fxz p) (fyy p) (fyz p) (fzz p) Off := by
  by_cases hn : p.isNonAxi
  · refine ⟨?_, fun R z φ h => ?_, fun R z φ h => ?_, fun R z φ h => ?_, fun R z φ h => ?_, fun R z φ h => ?_,
      fun R z φ h => ?_, fun R z φ h => ?_, fun R z φ h => ?_, fun R z φ h => ?_⟩
    all_goals simp only [sub_zero] at *
    · intro R z φ
      simp only [pot, evaluate, toFrame, ha, phi_nonaxi hn, Coords.cyl_to_rect]
    all_goals simp only [pot, phi_nonaxi hn, Coords.cyl_to_rect, RforceOf, zforceOf, phitorqueOf, R2derivOf, RzderivOf,
      phi2derivOf, RphiderivOf, phizderivOf, fromFrame, ha, xyzforces_aligned ha, cos_two_mul']
    all_goals try rw [xyzhess_eq hp h]
    all_goals ring
  · have hb : p.b = 1 := hax.resolve_right hn
    have hb2 : p.b2 = 1 := by unfold Par.b2; rw [hb]; norm_num
    have s1 : ∀ β R z φ, I p β (R * cos φ) (R * sin φ) z = I p β R 0 z := fun β R z φ => K_sym hb _ _ _ _ _
    have s2 : ∀ β γ R z φ, J p β γ (R * cos φ) (R * sin φ) z = J p β γ R 0 z := fun β γ R z φ => K_sym hb _ _ _ _ _
    have f1 : ∀ x y z, fx p x y z = 4 * π * p.b * p.c * (x * I p 1 x y z) := fun _ _ _ => rfl
    have f2 : ∀ x y z, fy p x y z = 4 * π * p.b * p.c * (y * I p p.b2 x y z) := fun _ _ _ => rfl
    have f3 : ∀ x y z, fz p x y z = 4 * π * p.b * p.c * (z * I p p.c2 x y z) := fun _ _ _ => rfl
    have off : ∀ {R z φ : ℝ}, Off (R * cos φ) (R * sin φ) z → Off R 0 z := by
      intro R z φ h
      unfold Off at *
      nlinarith [sin_sq_add_cos_sq φ]
    have e0 : ∀ R z : ℝ, (R * cos 0, R * sin 0, z) = (R, (0:ℝ), z) := fun R z => by simp
    refine ⟨?_, fun R z φ h => ?_, fun R z φ h => ?_, fun R z φ h => ?_, fun R z φ h => ?_, fun R z φ h => ?_,
      fun R z φ h => ?_, fun R z φ h => ?_, fun R z φ h => ?_, fun R z φ h => ?_⟩
    all_goals simp only [sub_zero] at *
    · intro R z φ
      simp only [pot, evaluate, toFrame, ha, phi_axi hn, Coords.cyl_to_rect, evaluateXyz_eq, K_sym hb]
    all_goals simp only [pot, phi_axi hn, Coords.cyl_to_rect, RforceOf, zforceOf, phitorqueOf, R2derivOf, RzderivOf,
      phi2derivOf, RphiderivOf, phizderivOf, fromFrame, ha, xyzforces_aligned ha, cos_zero, sin_zero, mul_one, mul_zero]
    all_goals try rw [xyzhess_eq hp (off h)]
    all_goals simp only [f1, f2, f3, fxx, fxy, fxz, fyy, fyz, fzz, s1, s2, hb2, J_comm 1 p.c2]
    all_goals
      have hcs : sin φ ^ 2 = 1 - cos φ ^ 2 := by linarith [sin_sq_add_cos_sq φ]
      ring_nf
      try simp only [hcs, show sin φ ^ 4 = (1 - cos φ ^ 2) ^ 2 by rw [← hcs]; ring,
        show sin φ ^ 3 = sin φ * (1 - cos φ ^ 2) by rw [← hcs]; ring]
      try ring_nf

/-- The gradient in a rotated frame. -/
theorem grad_rot (hp : p.Good) {M : Tilt.Mat} (hM : p.rot = some M) {R z φ : ℝ} (t : ℝ)
    (hD : Off (M.mulVec ![R * cos φ, R * sin φ, z] 0) (M.mulVec ![R * cos φ, R * sin φ, z] 1)
      (M.mulVec ![R * cos φ, R * sin φ, z] 2)) : GradAt (pot p) R z φ t := by
  have hn : p.isNonAxi := Or.inl (by rw [hM]; simp)
  have hv : ∀ R z φ, (pot p).val R z φ t = evaluateXyz p (M.mulVec ![R * cos φ, R * sin φ, z] 0)
      (M.mulVec ![R * cos φ, R * sin φ, z] 1) (M.mulVec ![R * cos φ, R * sin φ, z] 2) := by
    intro R z φ
    simp only [pot, evaluate, toFrame, hM, phi_nonaxi hn, Coords.cyl_to_rect]
  have comp : ∀ {a b c : ℝ → ℝ} {a' b' c' r : ℝ} (i : Fin 3), HasDerivAt a a' r → HasDerivAt b b' r →
      HasDerivAt c c' r → HasDerivAt (fun r => M.mulVec ![a r, b r, c r] i) (M i 0 * a' + M i 1 * b' + M i 2 * c') r := by
    intro a b c a' b' c' r i ha hb hc
    have := ((ha.const_mul (M i 0)).fun_add (hb.const_mul (M i 1))).fun_add (hc.const_mul (M i 2))
    refine this.congr_of_eventuallyEq (Eventually.of_forall fun r => ?_)
    simp [Matrix.mulVec, dotProduct, Fin.sum_univ_three]
  have along : ∀ {a b c : ℝ → ℝ} {a' b' c' r : ℝ}, HasDerivAt a a' r → HasDerivAt b b' r → HasDerivAt c c' r →
      Off (M.mulVec ![a r, b r, c r] 0) (M.mulVec ![a r, b r, c r] 1) (M.mulVec ![a r, b r, c r] 2) →
      HasDerivAt (fun r => evaluateXyz p (M.mulVec ![a r, b r, c r] 0) (M.mulVec ![a r, b r, c r] 1)
        (M.mulVec ![a r, b r, c r] 2))
        (-((fromFrame p (xyzforces p (a r, b r, c r))).1 * a' + (fromFrame p (xyzforces p (a r, b r, c r))).2.1 * b'
          + (fromFrame p (xyzforces p (a r, b r, c r))).2.2 * c')) r := by
    intro a b c a' b' c' r ha hb hc hD
    refine ((cart hp).d0 (comp 0 ha hb hc) (comp 1 ha hb hc) (comp 2 ha hb hc) hD).congr_deriv ?_
    simp only [xyzforces_rot hM, fromFrame, hM, Matrix.mulVec, dotProduct, Fin.sum_univ_three, Matrix.transpose_apply,
      Matrix.cons_val_zero, Matrix.cons_val_one, Matrix.cons_val]
    ring
  have hc : HasDerivAt (fun φ => R * cos φ) (R * -sin φ) φ := (hasDerivAt_cos φ).const_mul R
  have hs : HasDerivAt (fun φ => R * sin φ) (R * cos φ) φ := (hasDerivAt_sin φ).const_mul R
  have hcR : HasDerivAt (fun R => R * cos φ) (cos φ) R := by simpa using (hasDerivAt_id R).mul_const (cos φ)
  have hsR : HasDerivAt (fun R => R * sin φ) (sin φ) R := by simpa using (hasDerivAt_id R).mul_const (sin φ)
  refine ⟨?_, ?_, ?_⟩
  · rw [show (fun x => (pot p).val x z φ t) = _ from funext fun x => hv x z φ]
    refine (along hcR hsR (hasDerivAt_const R z) hD).congr_deriv ?_
    simp only [pot, RforceOf, phi_nonaxi hn, Coords.cyl_to_rect]
    ring
  · rw [show (fun x => (pot p).val R x φ t) = _ from funext fun x => hv R x φ]
    refine (along (hasDerivAt_const z _) (hasDerivAt_const z _) (hasDerivAt_id z) hD).congr_deriv ?_
    simp only [pot, zforceOf, phi_nonaxi hn, Coords.cyl_to_rect, id]
    ring
  · rw [show (fun x => (pot p).val R z x t) = _ from funext fun x => hv R z x]
    refine (along hc hs (hasDerivAt_const φ z) hD).congr_deriv ?_
    simp only [pot, phitorqueOf, phi_nonaxi hn, Coords.cyl_to_rect]
    ring

/-! ### The memory -/

/-- Python: what is remembered is right. -/
def PyCache.Valid (p : Par) (s : PyCache) : Prop :=
  (∀ q F, s.force = some (q, F) → F = xyzforces p q) ∧ ∀ q H, s.hess = some (q, H) → H = xyzhess p q

theorem computeForces_valid {s : PyCache} (h : s.Valid p) (q : ℝ × ℝ × ℝ) :
    (computeForces p s q).Valid p ∧ (computeForces p s q).force = some (q, xyzforces p q) := by
  unfold computeForces
  split_ifs with hk
  · refine ⟨⟨?_, h.2⟩, rfl⟩
    rintro q' F e
    simp only [Option.some.injEq, Prod.mk.injEq] at e
    obtain ⟨rfl, rfl⟩ := e
    rfl
  · rw [not_not] at hk
    cases hs : s.force with
    | none => simp [hs] at hk
    | some c =>
      obtain ⟨k, F⟩ := c
      simp only [hs, Option.map_some, Option.some.injEq] at hk
      subst hk
      exact ⟨h, by rw [h.1 k F hs]⟩

theorem computeHess_valid {s : PyCache} (h : s.Valid p) (q : ℝ × ℝ × ℝ) :
    (computeHess p s q).Valid p ∧ (computeHess p s q).hess = some (q, xyzhess p q)
      ∧ (computeHess p s q).force = s.force := by
  unfold computeHess
  split_ifs with hk
  · refine ⟨⟨h.1, ?_⟩, rfl, rfl⟩
    rintro q' F e
    simp only [Option.some.injEq, Prod.mk.injEq] at e
    obtain ⟨rfl, rfl⟩ := e
    rfl
  · rw [not_not] at hk
    cases hs : s.hess with
    | none => simp [hs] at hk
    | some c =>
      obtain ⟨k, F⟩ := c
      simp only [hs, Option.map_some, Option.some.injEq] at hk
      subst hk
      exact ⟨h, by rw [h.2 k F hs], rfl⟩

/-- The value of a method computed afresh. -/
def Method.get (P : Pot) : Method → ℝ → ℝ → ℝ → ℝ
  | .Rforce => fun R z φ => P.Rforce R z φ 0
  | .zforce => fun R z φ => P.zforce R z φ 0
  | .phitorque => fun R z φ => P.phitorque R z φ 0
  | .R2deriv => fun R z φ => P.R2deriv R z φ 0
  | .z2deriv => fun R z φ => P.z2deriv R z φ 0
  | .Rzderiv => fun R z φ => P.Rzderiv R z φ 0
  | .phi2deriv => fun R z φ => P.phi2deriv R z φ 0
  | .Rphideriv => fun R z φ => P.Rphideriv R z φ 0
  | .phizderiv => fun R z φ => P.phizderiv R z φ 0

/-- Is it one of the forces? -/
def Method.isForce : Method → Bool
  | .Rforce | .zforce | .phitorque => true
  | _ => false

/-- What a call returns on a new object. -/
noncomputable def fresh (p : Par) (m : Method) (R z φ : ℝ) : Except Err ℝ :=
  if m.isForce ∨ p.rot = none then .ok (m.get (pot p) R z φ) else .error .notImplemented

theorem call_eq {s : PyCache} (h : s.Valid p) (m : Method) (R z φ : ℝ) :
    (call p s m R z φ).1.Valid p ∧ (call p s m R z φ).2 = fresh p m R z φ := by
  have f := computeForces_valid h (Coords.cyl_to_rect R (p.phi φ) z)
  have g := computeHess_valid h (Coords.cyl_to_rect R (p.phi φ) z)
  have k := computeHess_valid f.1 (Coords.cyl_to_rect R (p.phi φ) z)
  unfold call fresh
  cases hr : p.rot with
  | none =>
    cases m <;> simp only [Method.isForce, Method.get, or_true, if_true, pot]
    case Rforce => exact ⟨f.1, by simp [f.2, attr, Except.map]⟩
    case zforce => exact ⟨f.1, by simp [f.2, attr, Except.map]⟩
    case phitorque => exact ⟨f.1, by simp [f.2, attr, Except.map]⟩
    case R2deriv => exact ⟨g.1, by simp [g.2.1, attr, Except.map]⟩
    case z2deriv => exact ⟨g.1, by simp [g.2.1, attr, Except.map]⟩
    case Rzderiv => exact ⟨g.1, by simp [g.2.1, attr, Except.map]⟩
    case phizderiv => exact ⟨g.1, by simp [g.2.1, attr, Except.map]⟩
    case phi2deriv => exact ⟨k.1, by simp [k.2.1, k.2.2, f.2, attr, Except.map, Except.bind]⟩
    case Rphideriv => exact ⟨k.1, by simp [k.2.1, k.2.2, f.2, attr, Except.map, Except.bind]⟩
  | some M =>
    cases m <;> simp [Method.isForce, Method.get, pot, h]
    case Rforce => exact ⟨f.1, by simp [f.2, attr, Except.map]⟩
    case zforce => exact ⟨f.1, by simp [f.2, attr, Except.map]⟩
    case phitorque => exact ⟨f.1, by simp [f.2, attr, Except.map]⟩

theorem calls_eq {s : PyCache} (l : List (Method × ℝ × ℝ × ℝ)) (h : s.Valid p) :
    calls p s l = l.map fun c => fresh p c.1 c.2.1 c.2.2.1 c.2.2.2 := by
  induction l generalizing s with
  | nil => rfl
  | cons c l ih =>
    obtain ⟨m, R, z, φ⟩ := c
    have := call_eq h m R z φ
    simp only [calls, List.map_cons, this.2, ih this.1]

end Verif.Ellipsoidal
