import Verif.Props.C59Hernquist

set_option autoImplicit false

/-!
# C59: the inversion with constant anisotropy

`constantbetadf` differentiates `ν r^(2β)` with respect to the potential `m` times. For half-integer
`β` the last derivative is the energy distribution, otherwise there is one more integral. Both have
the tracer density as their moment of order zero and solve the Jeans equation.
-/

noncomputable section
open Real MeasureTheory Set Filter Topology

namespace Verif
open Sph C59aux

namespace C59Spec

/-- What is asked of the tracer density `ν`: `F` is the radial force of the potential, `ddtb` the
derivative of `ν r^(2β)`, the derivatives with respect to the potential up to the order `m` exist
and are zero at infinity, and the radial derivative of the last is continuous and integrable. -/
structure CBTracer (P : Pot) (F ddtb ν : ℝ → ℝ) (β : ℝ) (m : ℕ) : Prop where
  force : ∀ r, 0 < r → F r = P.Rforce r 0 0 0
  d1 : ∀ r, 0 < r → HasDerivAt (fun r => ν r * r ^ (2 * β)) (ddtb r) r
  lim : Tendsto (fun r => ν r * r ^ (2 * β)) atTop (𝓝 0)
  diff : ∀ k < m, DifferentiableOn ℝ (cbFunc F ddtb k) (Ioi 0)
  bnd : ∀ k < m, Tendsto (cbFunc F ddtb k) atTop (𝓝 0)
  cont : ContinuousOn (cbGrad F ddtb m) (Ioi 0)
  int : ∀ r, 0 < r → IntegrableOn (cbGrad F ddtb m) (Ioi r)

end C59Spec
open C59Spec

namespace C59aux

theorem bounded_of_lim {f : ℝ → ℝ} {l r : ℝ} (hr : 0 < r) (hc : ContinuousOn f (Ioi 0)) (hl : Tendsto f atTop (𝓝 l)) :
    ∃ c, ∀ x ∈ Ioi r, ‖f x‖ ≤ c := by
  obtain ⟨X, hX⟩ := (hl.eventually (Metric.ball_mem_nhds l one_pos)).exists_forall_of_atTop
  obtain ⟨M, hM⟩ := (isCompact_Icc (a := r) (b := max r X)).exists_bound_of_continuousOn
    (hc.mono fun x hx => lt_of_lt_of_le hr hx.1)
  refine ⟨max M (1 + ‖l‖), fun x hx => ?_⟩
  rcases le_total x (max r X) with h1 | h1
  · exact (hM x ⟨le_of_lt hx, h1⟩).trans (le_max_left _ _)
  · have := hX x (le_trans (le_max_right _ _) h1)
    rw [dist_eq_norm] at this
    refine le_trans ?_ (le_max_right _ _)
    have h2 := norm_add_le (f x - l) l
    rw [sub_add_cancel] at h2
    linarith

section iterated
variable {Φ Fo : ℝ → ℝ} {G : ℕ → ℝ → ℝ} {g : ℝ → ℝ}

theorem mul_force_int (h : Inv.Halo Φ Fo) {f : ℝ → ℝ} {l r : ℝ} (hr : 0 < r) (hc : ContinuousOn f (Ioi 0))
    (hl : Tendsto f atTop (𝓝 l)) : IntegrableOn (fun x => f x * Fo x) (Ioi r) := by
  have hF : IntegrableOn Fo (Ioi r) :=
    integrableOn_Ioi_deriv_of_nonneg' (fun x hx => h.deriv x (lt_of_lt_of_le hr hx))
      (fun x hx => (h.pos x (hr.trans hx)).le) h.lim
  obtain ⟨c, hc'⟩ := bounded_of_lim hr hc hl
  exact Integrable.bdd_mul (c := c) hF ((hc.mono (Ioi_subset_Ioi hr.le)).aestronglyMeasurable measurableSet_Ioi)
    ((ae_restrict_iff' measurableSet_Ioi).2 (Eventually.of_forall hc'))

theorem mul_pow_int (h : Inv.Halo Φ Fo) {g : ℝ → ℝ} {r : ℝ} (hr : 0 < r) (hg : IntegrableOn g (Ioi r)) (n : ℕ) :
    IntegrableOn (fun x => g x * (Φ x - Φ r) ^ n) (Ioi r) := by
  refine Integrable.mul_bdd (c := (-Φ r) ^ n) hg ?_ ?_
  · exact (((h.contΦ.mono (Ioi_subset_Ioi hr.le)).sub continuousOn_const).pow n).aestronglyMeasurable measurableSet_Ioi
  · refine (ae_restrict_iff' measurableSet_Ioi).2 (Eventually.of_forall fun x hx => ?_)
    have h1 := h.mono hr (hr.trans hx) hx
    have h2 := h.neg (hr.trans hx)
    rw [norm_of_nonneg (pow_nonneg (by linarith) n)]
    exact pow_le_pow_left₀ (by linarith) (by linarith) n

/-- One integration by parts. -/
theorem parts (h : Inv.Halo Φ Fo) {f g : ℝ → ℝ} {r : ℝ} (hr : 0 < r)
    (hd : ∀ x, 0 < x → HasDerivAt f (g x) x) (hl : Tendsto f atTop (𝓝 0)) (hg : IntegrableOn g (Ioi r)) (n : ℕ) :
    ∫ x in Ioi r, g x * (Φ x - Φ r) ^ (n + 1) = -(n + 1) * ∫ x in Ioi r, f x * Fo x * (Φ x - Φ r) ^ n := by
  have hc : ContinuousOn f (Ioi 0) := fun x hx => (hd x hx).continuousAt.continuousWithinAt
  have i1 := mul_pow_int h hr hg (n + 1)
  have i2 := mul_pow_int h hr (mul_force_int h hr hc hl) n
  have := integral_Ioi_of_hasDerivAt_of_tendsto' (a := r)
    (f := fun x => f x * (Φ x - Φ r) ^ (n + 1))
    (f' := fun x => g x * (Φ x - Φ r) ^ (n + 1) + (n + 1) * (f x * Fo x * (Φ x - Φ r) ^ n))
    (m := 0 * (0 - Φ r) ^ (n + 1)) ?_ (i1.add (i2.const_mul _)) (hl.mul ((h.lim.sub_const _).pow _))
  · rw [integral_add i1 (i2.const_mul _), MeasureTheory.integral_const_mul] at this
    simp at this
    linarith
  · intro x hx
    have hx0 := lt_of_lt_of_le hr hx
    refine ((hd x hx0).fun_mul (((h.deriv x hx0).sub_const (Φ r)).fun_pow (n + 1))).congr_deriv ?_
    push_cast
    simp
    ring

/-- All integrations by parts. -/
theorem iterated (h : Inv.Halo Φ Fo) (m : ℕ) {r : ℝ} (hr : 0 < r)
    (hG : ∀ k < m, ∀ x, 0 < x → HasDerivAt (G k) (-(G (k + 1) x * Fo x)) x)
    (hg : ∀ x, 0 < x → HasDerivAt (G m) (g x) x) (hl : ∀ k ≤ m, Tendsto (G k) atTop (𝓝 0))
    (hi : IntegrableOn g (Ioi r)) :
    ∫ x in Ioi r, g x * (Φ x - Φ r) ^ m = -(m.factorial * G 0 r) := by
  induction m generalizing g with
  | zero =>
    simp only [pow_zero, mul_one]
    rw [integral_Ioi_of_hasDerivAt_of_tendsto' (fun x hx => hg x (lt_of_lt_of_le hr hx)) hi (hl 0 le_rfl)]
    simp
  | succ m ih =>
    have hc : ContinuousOn (G (m + 1)) (Ioi 0) := fun x hx => (hg x hx).continuousAt.continuousWithinAt
    have hm := mul_force_int h hr hc (hl _ le_rfl)
    have := ih (g := fun x => -(G (m + 1) x * Fo x)) (fun k hk => hG k (by omega)) (hG m (by omega))
      (fun k hk => hl k (by omega)) hm.neg
    rw [parts h hr hg (hl _ le_rfl) hi m]
    simp only [neg_mul, integral_neg, neg_inj] at this ⊢
    rw [this, Nat.factorial_succ]
    push_cast
    ring

/-- One more power of the potential leaves one integral. -/
theorem iterated_succ (h : Inv.Halo Φ Fo) (m : ℕ) {r : ℝ} (hr : 0 < r)
    (hG : ∀ k < m, ∀ x, 0 < x → HasDerivAt (G k) (-(G (k + 1) x * Fo x)) x)
    (hg : ∀ x, 0 < x → HasDerivAt (G m) (g x) x) (hl : ∀ k ≤ m, Tendsto (G k) atTop (𝓝 0))
    (hi : IntegrableOn g (Ioi r)) :
    ∫ x in Ioi r, g x * (Φ x - Φ r) ^ (m + 1) = -((m + 1).factorial * ∫ x in Ioi r, G 0 x * Fo x) := by
  induction m generalizing g with
  | zero =>
    rw [parts h hr hg (hl _ le_rfl) hi 0]
    simp
  | succ m ih =>
    have hc : ContinuousOn (G (m + 1)) (Ioi 0) := fun x hx => (hg x hx).continuousAt.continuousWithinAt
    have hm := mul_force_int h hr hc (hl _ le_rfl)
    have := ih (g := fun x => -(G (m + 1) x * Fo x)) (fun k hk => hG k (by omega)) (hG m (by omega))
      (fun k hk => hl k (by omega)) hm.neg
    rw [parts h hr hg (hl _ le_rfl) hi (m + 1)]
    simp only [neg_mul, integral_neg, neg_inj] at this ⊢
    rw [this, Nat.factorial_succ (m + 1)]
    push_cast
    ring

end iterated

/-- The velocity integral as an energy integral, for any power of the velocity. -/
theorem energy_integral_rpow {ψ q : ℝ} (hψ : 0 < ψ) (f : ℝ → ℝ) :
    ∫ v in (0 : ℝ)..√(2 * ψ), v ^ q * f (-ψ + v ^ 2 / 2)
      = 2 ^ ((q - 1) / 2) * ∫ E in Ioo (-ψ) 0, (E - -ψ) ^ ((q - 1) / 2) * f E := by
  have e : ∫ v in (0 : ℝ)..√(2 * ψ), v ^ q * f (-ψ + v ^ 2 / 2)
      = ∫ v in (0 : ℝ)..√(2 * ψ), v * (fun x => 2 ^ ((q - 1) / 2) * (x ^ ((q - 1) / 2) * f (-ψ + x))) (v ^ 2 / 2) := by
    refine intervalIntegral.integral_congr_ae (Eventually.of_forall fun v hv => ?_)
    rw [uIoc_of_le (sqrt_nonneg _)] at hv
    have hv0 : 0 < v := hv.1
    beta_reduce
    have h1 : v * (2 ^ ((q - 1) / 2) * (v ^ 2 / 2) ^ ((q - 1) / 2)) = v ^ q := by
      rw [← mul_rpow two_pos.le (by positivity), show 2 * (v ^ 2 / 2) = v ^ 2 by ring, ← rpow_natCast, ← rpow_mul hv0.le]
      nth_rewrite 1 [← rpow_one v]
      rw [← rpow_add hv0]
      congr 1
      push_cast
      ring
    rw [← h1]
    ring
  rw [e, speed_subst hψ.le (fun x => 2 ^ ((q - 1) / 2) * (x ^ ((q - 1) / 2) * f (-ψ + x))),
    intervalIntegral.integral_const_mul, ← integral_Ioc_eq_integral_Ioo,
    ← intervalIntegral.integral_of_le (by linarith)]
  congr 1
  have := intervalIntegral.integral_comp_add_left (fun E => (E - -ψ) ^ ((q - 1) / 2) * f E) (-ψ) (a := 0) (b := ψ)
  rw [add_zero, neg_add_cancel] at this
  rw [← this]
  refine intervalIntegral.integral_congr fun x _ => ?_
  beta_reduce
  rw [show -ψ + x - -ψ = x by ring]

/-- An integral over energies as one over the radii where the potential has that energy. -/
theorem energy_to_radius {Φ Fo : ℝ → ℝ} (h : Inv.Halo Φ Fo) {r : ℝ} (hr : 0 < r) (H : ℝ → ℝ) :
    ∫ E in Ioo (Φ r) 0, H E = ∫ x in Ioi r, Fo x * H (Φ x) := by
  have himg : Φ '' Ioi r = Ioo (Φ r) 0 := by
    ext E
    constructor
    · rintro ⟨x, hx, rfl⟩
      exact ⟨h.mono hr (hr.trans hx) hx, h.neg (hr.trans hx)⟩
    · rintro ⟨h1, h2⟩
      obtain ⟨s, hs, he⟩ := h.exists_radius hr h1 h2
      exact ⟨s, hs, he⟩
  rw [← himg, integral_image_eq_integral_abs_deriv_smul (f' := Fo) measurableSet_Ioi
    (fun x hx => (h.deriv x (hr.trans hx)).hasDerivWithinAt)
    ((h.mono.mono (Ioi_subset_Ioi hr.le)).injOn)]
  refine setIntegral_congr_fun measurableSet_Ioi fun x hx => ?_
  simp only [smul_eq_mul]
  rw [abs_of_pos (h.pos x (hr.trans hx))]

/-- The derivatives of `ν r^(2β)` with respect to the relative potential. -/
def cbChain (F ddtb ν : ℝ → ℝ) (β : ℝ) : ℕ → ℝ → ℝ
  | 0, r => ν r * r ^ (2 * β)
  | k + 1, r => cbFunc F ddtb k r

variable {P : Pot} {F ddtb ν : ℝ → ℝ} {β : ℝ} {m : ℕ}

theorem chain_deriv (h : C59Spec.Halo P) (t : CBTracer P F ddtb ν β m) (k : ℕ) (hk : k < m) (x : ℝ) (hx : 0 < x) :
    HasDerivAt (cbChain F ddtb ν β k) (-(cbChain F ddtb ν β (k + 1) x * -P.Rforce x 0 0 0)) x := by
  have hF := (h.inward x hx).ne
  cases k with
  | zero =>
    refine (t.d1 x hx).congr_deriv ?_
    simp only [cbChain, cbFunc]
    rw [t.force x hx]
    field_simp
  | succ k =>
    have := ((t.diff k (by omega)).differentiableAt (Ioi_mem_nhds hx)).hasDerivAt
    refine this.congr_deriv ?_
    simp only [cbChain, cbFunc]
    rw [t.force x hx]
    field_simp

theorem chain_last (t : CBTracer P F ddtb ν β m) (x : ℝ) (hx : 0 < x) :
    HasDerivAt (cbChain F ddtb ν β m) (cbGrad F ddtb m x) x := by
  cases m with
  | zero => exact t.d1 x hx
  | succ k => exact ((t.diff k (by omega)).differentiableAt (Ioi_mem_nhds hx)).hasDerivAt

theorem chain_lim (t : CBTracer P F ddtb ν β m) (k : ℕ) (hk : k ≤ m) :
    Tendsto (cbChain F ddtb ν β k) atTop (𝓝 0) := by
  cases k with
  | zero => exact t.lim
  | succ k => exact t.bnd k (by omega)

theorem grad_div (k : ℕ) (r : ℝ) : cbFunc F ddtb k r = cbGrad F ddtb k r / F r := by
  cases k <;> rfl

theorem cb_iter (h : C59Spec.Halo P) (t : CBTracer P F ddtb ν β m) {r : ℝ} (hr : 0 < r) :
    ∫ x in Ioi r, cbGrad F ddtb m x * (phi P x - phi P r) ^ m = -(m.factorial * (ν r * r ^ (2 * β))) :=
  iterated h.inv m hr (chain_deriv h t) (chain_last t) (chain_lim t) (t.int r hr)

theorem cb_iter_succ (h : C59Spec.Halo P) (t : CBTracer P F ddtb ν β m) {r : ℝ} (hr : 0 < r) :
    ∫ x in Ioi r, cbGrad F ddtb m x * (phi P x - phi P r) ^ (m + 1)
      = -((m + 1).factorial * ∫ x in Ioi r, ν x * x ^ (2 * β) * -P.Rforce x 0 0 0) :=
  iterated_succ h.inv m hr (chain_deriv h t) (chain_last t) (chain_lim t) (t.int r hr)

/-- The energy moments of the half-integer distribution are radial integrals. -/
theorem half_moment (h : C59Spec.Halo P) (t : CBTracer P F ddtb ν β m) {rphi : ℝ → ℝ}
    (hi : ∀ r, 0 < r → rphi (phi P r) = r) {Emin r : ℝ} (hr : 0 < r) (hE : Emin ≤ phi P r) (n : ℕ) :
    ∫ E in Ioo (phi P r) 0, (E - phi P r) ^ (n : ℝ) * cbHalfFE F ddtb rphi β (m + 1) 0 Emin E
      = -(∫ x in Ioi r, cbGrad F ddtb m x * (phi P x - phi P r) ^ n)
        / (2 * π ^ (1.5 : ℝ) * 2 ^ (0.5 - β) * Gamma (1 - β)) := by
  rw [energy_to_radius h.inv hr, neg_div, ← integral_div, ← integral_neg]
  refine setIntegral_congr_fun measurableSet_Ioi fun x hx => ?_
  have hx0 := hr.trans hx
  have hF := (h.inward x hx0).ne
  simp only [cbHalfFE]
  rw [if_pos ⟨h.inv.neg hx0, hE.trans (h.inv.mono hr hx0 hx).le⟩, hi x hx0, Nat.add_sub_cancel, grad_div,
    t.force x hx0, rpow_natCast]
  field_simp

/-- The energy distribution as one radial integral. -/
theorem cb_radial (h : C59Spec.Halo P) (t : CBTracer P F ddtb ν β (cbM β)) (ha : cbAlpha β < 1) (ha0 : 0 ≤ cbAlpha β)
    {rphi : ℝ → ℝ} (hi : ∀ r, 0 < r → rphi (phi P r) = r) {Emin s : ℝ} (hs : 0 < s) (hE : Emin ≤ phi P s) :
    cbFE P F ddtb rphi β 0 Emin (phi P s)
      = -(∫ r in Ioi s, cbGrad F ddtb (cbM β) r * (phi P r - phi P s) ^ ((1 - cbAlpha β) - 1)) * cbPrefactor β := by
  have hint := h.inv.section_integrable (g := cbGrad F ddtb (cbM β)) (q := 1 - cbAlpha β) hs (by linarith) (by linarith)
    t.cont (t.int s hs)
  have e : ∀ r ∈ Ioi s, cbRaw P (cbGrad F ddtb (cbM β)) (cbAlpha β) (phi P s) r
      = cbGrad F ddtb (cbM β) r * (phi P r - phi P s) ^ ((1 - cbAlpha β) - 1) := by
    intro r hr
    have := sub_pos.2 (h.inv.mono hs (hs.trans hr) hr)
    rw [cbRaw, show 1 - cbAlpha β - 1 = -cbAlpha β by ring, rpow_neg this.le, div_eq_mul_inv]
  have hG : IntegrableOn (cbRaw P (cbGrad F ddtb (cbM β)) (cbAlpha β) (phi P s)) (Ioi s) :=
    (integrableOn_congr_fun e measurableSet_Ioi).2 hint
  have key := Inv.split_integral (q := 1 - cbAlpha β) (by linarith) hs hG
  rw [cbFE, if_pos ⟨h.inv.neg hs, hE⟩, hi s hs]
  congr 2
  rw [← setIntegral_congr_fun measurableSet_Ioi e, ← key]
  congr 1
  refine intervalIntegral.integral_congr fun x hx => ?_
  have h1 : 1 - cbAlpha β ≠ 0 := by linarith
  simp only [cbSmall]
  rw [show cbAlpha β / (1 - cbAlpha β) = 1 / (1 - cbAlpha β) - 1 by field_simp; ring]

/-- The order and the remainder of the code, for `β` below one. -/
theorem alpha_mem (hβ : β < 1) : 0 ≤ cbAlpha β ∧ cbAlpha β < 1 := by
  have h0 : (0 : ℤ) ≤ ⌊1.5 - β⌋ := Int.floor_nonneg.2 (by norm_num; linarith)
  have h1 : ((cbM β : ℕ) : ℝ) = (⌊1.5 - β⌋ : ℝ) := by
    rw [cbM]
    exact_mod_cast congrArg (Int.cast (R := ℝ)) (Int.toNat_of_nonneg h0)
  rw [cbAlpha, h1]
  constructor
  · linarith [Int.floor_le (1.5 - β)]
  · linarith [Int.lt_floor_add_one (1.5 - β)]

/-- The energy moments of the general distribution. -/
theorem cb_moment (h : C59Spec.Halo P) (t : CBTracer P F ddtb ν β (cbM β)) (hβ : β < 1)
    {rphi : ℝ → ℝ} (hi : ∀ r, 0 < r → rphi (phi P r) = r) {Emin r : ℝ} (hr : 0 < r) (hE : Emin ≤ phi P r) (n : ℕ) :
    ∫ E in Ioo (phi P r) 0, (E - phi P r) ^ (1 / 2 - β + n) * cbFE P F ddtb rphi β 0 Emin E
      = -(cbPrefactor β * B (3 / 2 - β + n) (1 - cbAlpha β))
        * ∫ x in Ioi r, cbGrad F ddtb (cbM β) x * (phi P x - phi P r) ^ (cbM β + n) := by
  obtain ⟨ha0, ha1⟩ := alpha_mem hβ
  have hn : (0 : ℝ) ≤ n := n.cast_nonneg
  obtain ⟨ha, -⟩ := abel (p := 3 / 2 - β + n) (q := 1 - cbAlpha β) (g := cbGrad F ddtb (cbM β)) (a := phi P r) (T := 0)
    (by linarith) (by linarith) (by
      have : 3 / 2 - β = cbM β + cbAlpha β := by rw [cbAlpha]; ring
      have : (0 : ℝ) ≤ cbM β := Nat.cast_nonneg _
      linarith)
    (h.inv.contΦ.mono (Ioi_subset_Ioi hr.le)) (t.int r hr)
    (fun x hx => ⟨h.inv.mono hr (hr.trans hx) hx, (h.inv.neg (hr.trans hx)).le⟩) rphi (h.inv.rphi_spec hi hr)
  have e : ∀ E ∈ Ioo (phi P r) 0, (E - phi P r) ^ (1 / 2 - β + n) * cbFE P F ddtb rphi β 0 Emin E
      = -cbPrefactor β * ((E - phi P r) ^ (3 / 2 - β + n - 1)
        * ∫ x in Ioi (rphi E), cbGrad F ddtb (cbM β) x * (phi P x - E) ^ (1 - cbAlpha β - 1)) := by
    rintro E ⟨h1, h2⟩
    obtain ⟨s, hs, rfl⟩ := h.inv.exists_radius hr h1 h2
    have hs0 := hr.trans hs
    rw [cb_radial h t ha1 ha0 hi hs0 (hE.trans h1.le), hi s hs0, show 3 / 2 - β + n - 1 = 1 / 2 - β + n by ring]
    ring
  rw [setIntegral_congr_fun measurableSet_Ioo e, MeasureTheory.integral_const_mul, ha,
    show 3 / 2 - β + n + (1 - cbAlpha β) - 1 = ((cbM β + n : ℕ) : ℝ) by push_cast; rw [cbAlpha]; ring]
  simp only [rpow_natCast, ← mul_assoc]
  rw [MeasureTheory.integral_mul_const]
  ring

end C59aux

/-- Half-integer `β = 1/2 - m`: the distribution function has the density it was asked for. -/
theorem C59_constantbeta_half {P : Pot} {F ddtb ν : ℝ → ℝ} {β : ℝ} {m : ℕ} (h : C59Spec.Halo P)
    (hβ : β = 1 / 2 - m) (t : CBTracer P F ddtb ν β m) {rphi : ℝ → ℝ} (hi : ∀ r, 0 < r → rphi (phi P r) = r)
    {Emin r : ℝ} (hr : 0 < r) (hE : Emin ≤ phi P r) :
    cbVmoment P 0 β (cbHalfFE F ddtb rphi β (m + 1) 0 Emin) r 0 0 = ν r := by
  have hn := h.inv.neg hr
  have h1 := energy_integral_rpow (ψ := -phi P r) (q := 2 - 2 * β) (by linarith) (cbHalfFE F ddtb rphi β (m + 1) 0 Emin)
  have h2 := half_moment h t hi hr hE m
  rw [neg_neg, show (2 - 2 * β - 1) / 2 = (m : ℝ) by rw [hβ]; ring] at h1
  rw [cb00, zero_sub, h1, h2, cb_iter h t hr, show (3 / 2 : ℝ) - β = (m : ℝ) + 1 by rw [hβ]; ring,
    Gamma_nat_eq_factorial, show (0.5 : ℝ) - β = (m : ℝ) by rw [hβ]; norm_num]
  have hg : 0 < Gamma (1 - β) := Gamma_pos_of_pos (by
    have : (0 : ℝ) ≤ m := m.cast_nonneg
    linarith)
  have hp : π ^ (1.5 : ℝ) = π * √π := by
    rw [sqrt_eq_rpow, show (1.5 : ℝ) = 1 + 1 / 2 by norm_num, rpow_add pi_pos, rpow_one]
  have hrr : r ^ (-2 * β) * r ^ (2 * β) = 1 := by rw [← rpow_add hr]; norm_num
  rw [hp]
  generalize Gamma (1 - β) = γ at hg ⊢
  generalize r ^ (-2 * β) = x1 at hrr ⊢
  generalize r ^ (2 * β) = x2 at hrr ⊢
  have hx2 : x2 ≠ 0 := right_ne_zero_of_mul_eq_one hrr
  have hs : √π ≠ 0 := (sqrt_pos.2 pi_pos).ne'
  have hf : (m.factorial : ℝ) ≠ 0 := by exact_mod_cast m.factorial_ne_zero
  have h2m : (2 : ℝ) ^ (m : ℝ) ≠ 0 := by positivity
  generalize (2 : ℝ) ^ (m : ℝ) = w at h2m ⊢
  field_simp
  linear_combination (ν r) * hrr

/-- Any other `β` below one: the distribution function has the density it was asked for. -/
theorem C59_constantbeta {P : Pot} {F ddtb ν : ℝ → ℝ} {β : ℝ} (h : C59Spec.Halo P)
    (hβ : β < 1) (t : CBTracer P F ddtb ν β (cbM β)) {rphi : ℝ → ℝ} (hi : ∀ r, 0 < r → rphi (phi P r) = r)
    {Emin r : ℝ} (hr : 0 < r) (hE : Emin ≤ phi P r) :
    cbVmoment P 0 β (cbFE P F ddtb rphi β 0 Emin) r 0 0 = ν r := by
  have hn := h.inv.neg hr
  have h1 := energy_integral_rpow (ψ := -phi P r) (q := 2 - 2 * β) (by linarith) (cbFE P F ddtb rphi β 0 Emin)
  have h2 := cb_moment h t hβ hi hr hE 0
  rw [neg_neg, show (2 - 2 * β - 1) / 2 = 1 / 2 - β by ring] at h1
  rw [Nat.cast_zero, add_zero, add_zero, add_zero, cb_iter h t hr] at h2
  rw [cb00, zero_sub, h1, h2, B, cbPrefactor,
    show 3 / 2 - β + (1 - cbAlpha β) = (cbM β : ℝ) + 1 by rw [cbAlpha]; ring, Gamma_nat_eq_factorial]
  obtain ⟨ha0, ha1⟩ := alpha_mem hβ
  have g1 := (Gamma_pos_of_pos (show 0 < 1 - β by linarith)).ne'
  have g2 := (Gamma_pos_of_pos (show 0 < 1 - cbAlpha β by linarith)).ne'
  have g3 := (Gamma_pos_of_pos (show 0 < 3 / 2 - β by linarith)).ne'
  have hp : (2 * π) ^ (1.5 : ℝ) = 2 * π * (√2 * √π) := by
    rw [← sqrt_mul two_pos.le, sqrt_eq_rpow, show (1.5 : ℝ) = 1 + 1 / 2 by norm_num, rpow_add (by positivity), rpow_one]
  have hs2 : (2 : ℝ) ^ (1 / 2 - β) = √2 / 2 ^ β := by rw [sqrt_eq_rpow, rpow_sub two_pos]
  have hrr : r ^ (-2 * β) * r ^ (2 * β) = 1 := by rw [← rpow_add hr]; norm_num
  rw [hp, hs2]
  generalize Gamma (1 - β) = γ1 at g1 ⊢
  generalize Gamma (1 - cbAlpha β) = γ2 at g2 ⊢
  generalize Gamma (3 / 2 - β) = γ3 at g3 ⊢
  generalize r ^ (-2 * β) = x1 at hrr ⊢
  generalize r ^ (2 * β) = x2 at hrr ⊢
  have hs : √π ≠ 0 := (sqrt_pos.2 pi_pos).ne'
  have hs' : √2 ≠ 0 := by positivity
  have hf : ((cbM β).factorial : ℝ) ≠ 0 := by exact_mod_cast (cbM β).factorial_ne_zero
  have h2m : (2 : ℝ) ^ β ≠ 0 := by positivity
  generalize (2 : ℝ) ^ β = w at h2m ⊢
  field_simp
  linear_combination (ν r) * hrr

namespace C59aux

theorem cb20 (P : Pot) (phiMax β : ℝ) (fE : ℝ → ℝ) (r : ℝ) :
    cbVmoment P phiMax β fE r 2 0
      = 2 * π * r ^ (-2 * β) * (∫ v in (0 : ℝ)..√(2 * (phiMax - phi P r)), v ^ (4 - 2 * β) * fE (phi P r + v ^ 2 / 2))
        * (Gamma (1 - β) * (√π / 2) / Gamma (5 / 2 - β)) := by
  have e : ∀ v : ℝ, phi P r + 0.5 * v ^ 2 = phi P r + v ^ 2 / 2 := fun v => by ring
  have h3 : Gamma ((2 + 1 : ℝ) / 2) = √π / 2 := by rw [← Gamma_three_half]; norm_num
  simp only [cbVmoment, vmaxAtR, e]
  rw [if_neg (by norm_num)]
  simp only [Nat.cast_zero, Nat.cast_ofNat, add_zero, zero_div]
  rw [show 0 - β + 1 = 1 - β by ring, h3, show (0.5 : ℝ) * (0 + 2 - 2 * β + 3) = 5 / 2 - β by ring,
    show 2 - 2 * β + 2 = 4 - 2 * β by ring]
  ring

end C59aux

/-- Half-integer `β`: the radial dispersion solves the Jeans equation with that anisotropy. -/
theorem C59_constantbeta_half_jeans {P : Pot} {F ddtb ν : ℝ → ℝ} {β : ℝ} {m : ℕ} (h : C59Spec.Halo P)
    (hβ : β = 1 / 2 - m) (t : CBTracer P F ddtb ν β m) {rphi : ℝ → ℝ} (hi : ∀ r, 0 < r → rphi (phi P r) = r)
    {Emin r : ℝ} (hr : 0 < r) (hE : Emin ≤ phi P r) :
    cbVmoment P 0 β (cbHalfFE F ddtb rphi β (m + 1) 0 Emin) r 2 0
      = r ^ (-2 * β) * ∫ x in Ioi r, ν x * x ^ (2 * β) * -P.Rforce x 0 0 0 := by
  have hn := h.inv.neg hr
  have h1 := energy_integral_rpow (ψ := -phi P r) (q := 4 - 2 * β) (by linarith) (cbHalfFE F ddtb rphi β (m + 1) 0 Emin)
  have h2 := half_moment h t hi hr hE (m + 1)
  rw [neg_neg, show (4 - 2 * β - 1) / 2 = ((m + 1 : ℕ) : ℝ) by push_cast; rw [hβ]; ring] at h1
  rw [cb20, zero_sub, h1, h2, cb_iter_succ h t hr, show (5 / 2 : ℝ) - β = ((m + 1 : ℕ) : ℝ) + 1 by push_cast; rw [hβ]; ring,
    Gamma_nat_eq_factorial, show (0.5 : ℝ) - β = (m : ℝ) by rw [hβ]; norm_num]
  have hg : 0 < Gamma (1 - β) := Gamma_pos_of_pos (by
    have : (0 : ℝ) ≤ m := m.cast_nonneg
    linarith)
  have hp : π ^ (1.5 : ℝ) = π * √π := by
    rw [sqrt_eq_rpow, show (1.5 : ℝ) = 1 + 1 / 2 by norm_num, rpow_add pi_pos, rpow_one]
  have hw : (2 : ℝ) ^ ((m + 1 : ℕ) : ℝ) = 2 * 2 ^ (m : ℝ) := by
    rw [rpow_natCast, rpow_natCast, pow_succ]; ring
  rw [hp, hw]
  generalize Gamma (1 - β) = γ at hg ⊢
  have hs : √π ≠ 0 := (sqrt_pos.2 pi_pos).ne'
  have hf : ((m + 1).factorial : ℝ) ≠ 0 := by exact_mod_cast (m + 1).factorial_ne_zero
  have h2m : (2 : ℝ) ^ (m : ℝ) ≠ 0 := by positivity
  generalize (2 : ℝ) ^ (m : ℝ) = w at h2m ⊢
  field_simp

/-- Any other `β` below one: likewise. -/
theorem C59_constantbeta_jeans {P : Pot} {F ddtb ν : ℝ → ℝ} {β : ℝ} (h : C59Spec.Halo P)
    (hβ : β < 1) (t : CBTracer P F ddtb ν β (cbM β)) {rphi : ℝ → ℝ} (hi : ∀ r, 0 < r → rphi (phi P r) = r)
    {Emin r : ℝ} (hr : 0 < r) (hE : Emin ≤ phi P r) :
    cbVmoment P 0 β (cbFE P F ddtb rphi β 0 Emin) r 2 0
      = r ^ (-2 * β) * ∫ x in Ioi r, ν x * x ^ (2 * β) * -P.Rforce x 0 0 0 := by
  have hn := h.inv.neg hr
  have h1 := energy_integral_rpow (ψ := -phi P r) (q := 4 - 2 * β) (by linarith) (cbFE P F ddtb rphi β 0 Emin)
  have h2 := cb_moment h t hβ hi hr hE 1
  rw [neg_neg, show (4 - 2 * β - 1) / 2 = 1 / 2 - β + (1 : ℕ) by push_cast; ring] at h1
  rw [cb_iter_succ h t hr] at h2
  rw [cb20, zero_sub, h1, h2, B, cbPrefactor,
    show 3 / 2 - β + (1 : ℕ) + (1 - cbAlpha β) = ((cbM β + 1 : ℕ) : ℝ) + 1 by push_cast; rw [cbAlpha]; ring,
    Gamma_nat_eq_factorial, show 3 / 2 - β + (1 : ℕ) = 5 / 2 - β by push_cast; ring]
  obtain ⟨ha0, ha1⟩ := alpha_mem hβ
  have g1 := (Gamma_pos_of_pos (show 0 < 1 - β by linarith)).ne'
  have g2 := (Gamma_pos_of_pos (show 0 < 1 - cbAlpha β by linarith)).ne'
  have g3 := (Gamma_pos_of_pos (show 0 < 5 / 2 - β by linarith)).ne'
  have hp : (2 * π) ^ (1.5 : ℝ) = 2 * π * (√2 * √π) := by
    rw [← sqrt_mul two_pos.le, sqrt_eq_rpow, show (1.5 : ℝ) = 1 + 1 / 2 by norm_num, rpow_add (by positivity), rpow_one]
  have hs2 : (2 : ℝ) ^ (1 / 2 - β + (1 : ℕ)) = 2 * √2 / 2 ^ β := by
    rw [Nat.cast_one, rpow_add two_pos, rpow_one, sqrt_eq_rpow, rpow_sub two_pos]; ring
  rw [hp, hs2]
  generalize Gamma (1 - β) = γ1 at g1 ⊢
  generalize Gamma (1 - cbAlpha β) = γ2 at g2 ⊢
  generalize Gamma (5 / 2 - β) = γ3 at g3 ⊢
  have hs : √π ≠ 0 := (sqrt_pos.2 pi_pos).ne'
  have hs' : √2 ≠ 0 := by positivity
  have hf : ((cbM β + 1).factorial : ℝ) ≠ 0 := by exact_mod_cast (cbM β + 1).factorial_ne_zero
  have h2m : (2 : ℝ) ^ β ≠ 0 := by positivity
  generalize (2 : ℝ) ^ β = w at h2m ⊢
  field_simp

/-! ## The functions that the inversion is given -/

/-- `_rforce_jax` is the radial force, with the amplitude. -/
theorem C59_rforce_jax (amp a : ℝ) (ha : 0 < a) {r : ℝ} (hr : 0 < r) :
    (∀ b : ℝ, Plummer.rforceJax amp b r = ((Plummer.pot b).scale amp).Rforce r 0 0 0) ∧
    (∀ α : ℝ, PowerSpherical.rforceJax amp α r = ((PowerSpherical.pot α).scale amp).Rforce r 0 0 0) ∧
    DehnenCore.rforceJax amp a r = ((DehnenCore.pot a).scale amp).Rforce r 0 0 0 ∧
    Hernquist.rforceJax amp a r = ((Hernquist.pot a).scale amp).Rforce r 0 0 0 ∧
    NFW.rforceJax amp a r = ((NFW.pot a).scale amp).Rforce r 0 0 0 := by
  have hsq : √(r ^ 2 + 0 ^ 2) = r := by rw [show r ^ 2 + (0 : ℝ) ^ 2 = r ^ 2 by ring, sqrt_sq hr.le]
  have har : 0 < a + r := by linarith
  have hra : 0 < r + a := by linarith
  refine ⟨fun b => ?_, fun α => ?_, ?_, ?_, ?_⟩
  · simp only [Plummer.rforceJax, Pot.scale, Plummer.pot, Pot.axi, Plummer.Rforce]
    rw [show r ^ 2 + (0 : ℝ) ^ 2 + b ^ 2 = r ^ 2 + b ^ 2 by ring]; ring
  · simp only [PowerSpherical.rforceJax, Pot.scale, PowerSpherical.pot, Pot.axi, PowerSpherical.Rforce]
    rw [show r ^ 2 + (0 : ℝ) ^ 2 = r ^ (2 : ℝ) by rw [rpow_two]; ring, ← rpow_mul hr.le,
      show (2 : ℝ) * (α / 2) = α - 1 + 1 by ring, rpow_add_one hr.ne']
    have := (rpow_pos_of_pos hr (α - 1)).ne'
    field_simp
  · simp only [DehnenCore.rforceJax, Pot.scale, DehnenCore.pot, Pot.axi, DehnenCore.Rforce]
    rw [hsq]; ring
  · simp only [Hernquist.rforceJax, Pot.scale, Hernquist.pot, Pot.axi, Hernquist.Rforce]
    rw [hsq]
    field_simp
    ring
  · simp only [NFW.rforceJax, Pot.scale, NFW.pot, Pot.axi, NFW.Rforce]
    rw [hsq, show r ^ 2 + (0 : ℝ) ^ 2 = r ^ 2 by ring]
    field_simp

example : NFW.rforceJax 3 2 1 = ((NFW.pot 2).scale 3).Rforce 1 0 0 0 := (C59_rforce_jax 3 2 two_pos one_pos).2.2.2.2

end Verif
