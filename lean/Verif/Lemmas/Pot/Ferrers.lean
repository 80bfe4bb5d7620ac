import Verif.Model.Pot.Ferrers
import Verif.Lemmas.Pot.EllipsoidalMass
import Mathlib.Analysis.InnerProductSpace.NormPow
import Mathlib.MeasureTheory.Function.Jacobian

set_option autoImplicit false

/-! # Ferrers potential -/

open Set MeasureTheory Filter Topology

namespace Verif.Ferrers
open Real hiding pi
open Ellipsoidal (co om U K h0 h1 h2 I J Off fx fy fz fxx fxy fxz fyy fyz fzz quad)

/-! ### The profile -/

theorem posPow_deriv {q : ℝ} (hq : 1 < q) (x : ℝ) :
    HasDerivAt (fun x : ℝ => max 0 x ^ q) (q * max 0 x ^ (q - 1)) x := by
  rcases lt_trichotomy x 0 with h | h | h
  · rw [max_eq_left h.le, zero_rpow (by linarith), mul_zero]
    refine (hasDerivAt_const x (0:ℝ)).congr_of_eventuallyEq ?_
    filter_upwards [gt_mem_nhds h] with y hy
    rw [max_eq_left (le_of_lt hy), zero_rpow (by linarith)]
  · subst h
    rw [max_self, zero_rpow (by linarith), mul_zero]
    have h0 := hasDerivAt_abs_rpow 0 hq
    rw [mul_zero, hasDerivAt_iff_isLittleO] at h0
    rw [hasDerivAt_iff_isLittleO]
    refine Asymptotics.IsBigO.trans_isLittleO ?_ h0
    refine Asymptotics.IsBigO.of_bound 1 (Eventually.of_forall fun y => ?_)
    simp only [max_self, abs_zero, zero_rpow (by linarith : q ≠ 0), sub_zero, smul_zero, Real.norm_eq_abs, one_mul]
    rw [abs_of_nonneg (rpow_nonneg (le_max_left _ _) _), abs_of_nonneg (rpow_nonneg (abs_nonneg _) _)]
    exact rpow_le_rpow (le_max_left _ _) (max_le (abs_nonneg _) (le_abs_self _)) (by linarith)
  · rw [max_eq_right h.le]
    refine (hasDerivAt_rpow_const (Or.inl h.ne')).congr_of_eventuallyEq ?_
    filter_upwards [lt_mem_nhds h] with y hy
    rw [max_eq_right (le_of_lt hy)]

/-- The density `(1 - m²/a²)ⁿ` inside, zero outside, as a profile of an ellipsoidal potential. -/
noncomputable def prof (a n : ℝ) : Ellipsoidal.Profile where
  psi := fun m => -a ^ 2 / (n + 1) * max 0 (1 - m ^ 2 / a ^ 2) ^ (n + 1)
  mdens := fun m => max 0 (1 - m ^ 2 / a ^ 2) ^ n
  mdensDeriv := fun m => -2 * n * m / a ^ 2 * max 0 (1 - m ^ 2 / a ^ 2) ^ (n - 1)

variable {p : Par}

/-- The aligned ellipsoidal potential it is. -/
noncomputable def ell (p : Par) : Ellipsoidal.Par := ⟨p.b, p.c, prof p.a p.n, none, none⟩

/-- The parameters for which two derivatives exist. -/
structure Par.Good (p : Par) : Prop where
  ha : 0 < p.a
  hb : 0 < p.b
  hc : 0 < p.c
  hn : 1 < p.n

theorem prof_ok {a n : ℝ} (ha : 0 < a) (hn : 1 < n) : (prof a n).OK := by
  have d : ∀ m : ℝ, HasDerivAt (fun m : ℝ => 1 - m ^ 2 / a ^ 2) (-(2 * m) / a ^ 2) m := fun m => by
    have := ((hasDerivAt_pow 2 m).div_const (a ^ 2)).const_sub 1
    refine this.congr_deriv ?_
    norm_num
    ring
  constructor
  · intro m _
    refine (((posPow_deriv (by linarith : 1 < n + 1) _).comp m (d m)).const_mul (-a ^ 2 / (n + 1))).congr_deriv ?_
    have : n + 1 ≠ 0 := by linarith
    simp only [prof, add_sub_cancel_right]
    field_simp
  · intro m _
    refine ((posPow_deriv hn _).comp m (d m)).congr_deriv ?_
    simp only [prof]
    ring

theorem prof_mild {a n : ℝ} (hn : 1 < n) : (prof a n).Mild := by
  have c : ∀ k : ℝ, 0 < k → ContinuousOn (fun m : ℝ => max 0 (1 - m ^ 2 / a ^ 2) ^ k) (Ici 0) := fun k hk =>
    ContinuousOn.rpow_const (by fun_prop) fun _ _ => Or.inr hk.le
  refine Ellipsoidal.mild_of_zero (G₀ := (prof a n).psi) (G₁ := fun m => (prof a n).mdens m * m ^ 2)
    (G₂ := fun m => (prof a n).mdensDeriv m * m ^ 3) ?_ ?_ ?_ (fun _ _ => rfl) (fun m hm => ?_) fun m hm => ?_
  · exact continuousOn_const.mul (c _ (by linarith))
  · exact (c _ (by linarith)).mul (by fun_prop)
  · exact ((by fun_prop : ContinuousOn (fun m : ℝ => -2 * n * m / a ^ 2) (Ici 0)).mul (c _ (by linarith))).mul (by fun_prop)
  · field_simp
  · field_simp

theorem ell_good (h : p.Good) : (ell p).Good :=
  ⟨h.hb, h.hc, fun l hl => by simp [ell] at hl, prof_ok h.ha h.hn, fun _ => prof_mild h.hn⟩

/-! ### The lower limit -/

section
variable {a b c : ℝ} (ha : 0 < a) (hb : 0 < b) (hc : 0 < c) {x y z : ℝ}
include ha hb hc

/-- `1 - m²` at `τ`. -/
noncomputable def bb (a b c x y z τ : ℝ) : ℝ := 1 - x ^ 2 / (a + τ) - y ^ 2 / (b + τ) - z ^ 2 / (c + τ)

theorem bb_mono {τ τ' : ℝ} (h0 : 0 ≤ τ) (h : τ ≤ τ') : bb a b c x y z τ ≤ bb a b c x y z τ' := by
  unfold bb
  gcongr

theorem bb_strict (hq : 0 < x ^ 2 + y ^ 2 + z ^ 2) {τ τ' : ℝ} (h0 : 0 ≤ τ) (h : τ < τ') :
    bb a b c x y z τ < bb a b c x y z τ' := by
  have k : ∀ {w e : ℝ}, 0 < e → w ≠ 0 → w ^ 2 / (e + τ') < w ^ 2 / (e + τ) := fun {w e} he hw => by
    have : 0 < w ^ 2 := by positivity
    gcongr
  have k' : ∀ {w e : ℝ}, 0 < e → w ^ 2 / (e + τ') ≤ w ^ 2 / (e + τ) := fun {w e} he => by gcongr
  unfold bb
  have x1 := k' (w := x) ha
  have y1 := k' (w := y) hb
  have z1 := k' (w := z) hc
  by_cases hx : x = 0
  · by_cases hy : y = 0
    · have hz : z ≠ 0 := by rintro rfl; simp [hx, hy] at hq
      have := k hc hz
      linarith
    · have := k hb hy
      linarith
  · have := k ha hx
    linarith

theorem bb_cubic {τ : ℝ} (h0 : 0 ≤ τ) : 1 * τ ^ 3 + (a + b + c - x ^ 2 - y ^ 2 - z ^ 2) * τ ^ 2
    + (a * b + a * c + b * c - a * y ^ 2 - a * z ^ 2 - b * x ^ 2 - b * z ^ 2 - c * x ^ 2 - c * y ^ 2) * τ
    + (a * b * c - a * b * z ^ 2 - a * c * y ^ 2 - b * c * x ^ 2)
    = bb a b c x y z τ * ((a + τ) * (b + τ) * (c + τ)) := by
  unfold bb
  have h1 : a + τ ≠ 0 := by positivity
  have h2 : b + τ ≠ 0 := by positivity
  have h3 : c + τ ≠ 0 := by positivity
  field_simp
  ring

/-- Beyond the lower limit, and only there, the base is positive. -/
theorem lowerlim_spec :
    0 ≤ lowerlim (x ^ 2) (y ^ 2) (z ^ 2) a b c
    ∧ ∀ τ, 0 < τ → (lowerlim (x ^ 2) (y ^ 2) (z ^ 2) a b c < τ ↔ 0 < bb a b c x y z τ) := by
  by_cases ho : x ^ 2 / a + y ^ 2 / b + z ^ 2 / c > 1
  · have hq : 0 < x ^ 2 + y ^ 2 + z ^ 2 := by
      by_contra h
      have hx : x ^ 2 = 0 := by nlinarith [sq_nonneg x, sq_nonneg y, sq_nonneg z]
      have hy : y ^ 2 = 0 := by nlinarith [sq_nonneg x, sq_nonneg y, sq_nonneg z]
      have hz : z ^ 2 = 0 := by nlinarith [sq_nonneg x, sq_nonneg y, sq_nonneg z]
      rw [hx, hy, hz] at ho
      norm_num at ho
    have hb0 : bb a b c x y z 0 < 0 := by unfold bb; simp only [add_zero]; linarith
    have hbig : 0 ≤ bb a b c x y z (x ^ 2 + y ^ 2 + z ^ 2) := by
      unfold bb
      set S := x ^ 2 + y ^ 2 + z ^ 2
      have k : ∀ {w e : ℝ}, 0 < e → w ^ 2 / (e + S) ≤ w ^ 2 / S := fun {w e} he => by
        gcongr
        linarith
      have x1 := k (w := x) ha
      have y1 := k (w := y) hb
      have z1 := k (w := z) hc
      have : x ^ 2 / S + y ^ 2 / S + z ^ 2 / S = 1 := by
        rw [← add_div, ← add_div]; exact div_self hq.ne'
      linarith
    have hcont : ContinuousOn (bb a b c x y z) (Icc 0 (x ^ 2 + y ^ 2 + z ^ 2)) := by
      unfold bb
      have k : ∀ {w e : ℝ}, 0 < e → ContinuousOn (fun τ : ℝ => w ^ 2 / (e + τ)) (Icc 0 (x ^ 2 + y ^ 2 + z ^ 2)) :=
        fun {w e} he => ContinuousOn.div (by fun_prop) (by fun_prop) fun τ hτ => by
          have : 0 ≤ τ := hτ.1
          positivity
      exact ((continuousOn_const.sub (k ha)).sub (k hb)).sub (k hc)
    obtain ⟨r, hr, hr0⟩ := intermediate_value_Icc hq.le hcont ⟨hb0.le, hbig⟩
    have hrpos : 0 < r := lt_of_le_of_ne hr.1 (by rintro rfl; rw [hr0] at hb0; exact lt_irrefl _ hb0)
    have hset : {r | 0 < r ∧ 1 * r ^ 3 + (a + b + c - x ^ 2 - y ^ 2 - z ^ 2) * r ^ 2
        + (a * b + a * c + b * c - a * y ^ 2 - a * z ^ 2 - b * x ^ 2 - b * z ^ 2 - c * x ^ 2 - c * y ^ 2) * r
        + (a * b * c - a * b * z ^ 2 - a * c * y ^ 2 - b * c * x ^ 2) = 0} = {r} := by
      ext r'
      simp only [mem_setOf_eq, mem_singleton_iff]
      constructor
      · rintro ⟨h1, h2⟩
        rw [bb_cubic ha hb hc h1.le] at h2
        have h3 := (mul_eq_zero.1 h2).resolve_right (by positivity)
        rcases lt_trichotomy r' r with h | h | h
        · have := bb_strict ha hb hc hq h1.le h; linarith
        · exact h
        · have := bb_strict ha hb hc hq hr.1 h; linarith
      · rintro rfl
        refine ⟨hrpos, ?_⟩
        rw [bb_cubic ha hb hc hr.1, hr0, zero_mul]
    have hl : lowerlim (x ^ 2) (y ^ 2) (z ^ 2) a b c = r := by
      unfold lowerlim
      rw [if_pos ho]
      simp only
      rw [hset, csInf_singleton]
    rw [hl]
    refine ⟨hr.1, fun τ hτ => ⟨fun h => ?_, fun h => ?_⟩⟩
    · have := bb_strict ha hb hc hq hr.1 h; linarith
    · by_contra hle
      have := bb_mono ha hb hc (x := x) (y := y) (z := z) hτ.le (not_lt.1 hle)
      linarith
  · have hl : lowerlim (x ^ 2) (y ^ 2) (z ^ 2) a b c = 0 := by unfold lowerlim; rw [if_neg ho]
    rw [hl]
    refine ⟨le_rfl, fun τ hτ => ⟨fun h => ?_, fun _ => hτ⟩⟩
    have hb0 : 0 ≤ bb a b c x y z 0 := by unfold bb; simp only [add_zero]; linarith
    rcases (add_nonneg (add_nonneg (sq_nonneg x) (sq_nonneg y)) (sq_nonneg z)).eq_or_lt with hq | hq
    · have hx : x ^ 2 = 0 := by nlinarith [sq_nonneg x, sq_nonneg y, sq_nonneg z]
      have hy : y ^ 2 = 0 := by nlinarith [sq_nonneg x, sq_nonneg y, sq_nonneg z]
      have hz : z ^ 2 = 0 := by nlinarith [sq_nonneg x, sq_nonneg y, sq_nonneg z]
      simp [bb, hx, hy, hz]
    · have := bb_strict ha hb hc hq le_rfl hτ
      linarith

end

/-! ### The change of variable `τ = a² (1/s² - 1)` -/

theorem image_tau {A : ℝ} (hA : 0 < A) : (fun s : ℝ => A * (1 / s ^ 2 - 1)) '' Ioo 0 1 = Ioi 0 := by
  ext τ
  simp only [mem_image, mem_Ioo, mem_Ioi]
  constructor
  · rintro ⟨s, ⟨h0, h1⟩, rfl⟩
    have : s ^ 2 < 1 := pow_lt_one₀ h0.le h1 (by norm_num)
    have : 1 < 1 / s ^ 2 := by rw [lt_div_iff₀ (by positivity)]; linarith
    exact mul_pos hA (by linarith)
  · intro h
    refine ⟨1 / √(1 + τ / A), ⟨by positivity, ?_⟩, ?_⟩
    · have : 1 < √(1 + τ / A) := by
        rw [lt_sqrt (by norm_num)]
        have : 0 < τ / A := by positivity
        linarith
      rw [div_lt_one (by linarith)]
      exact this
    · rw [div_pow, sq_sqrt (by positivity)]
      field_simp
      ring

theorem subst_tau {A : ℝ} (hA : 0 < A) (F : ℝ → ℝ) :
    ∫ τ in Ioi (0:ℝ), F τ = ∫ s in (0:ℝ)..1, 2 * A / s ^ 3 * F (A * (1 / s ^ 2 - 1)) := by
  have hd : ∀ s ∈ Ioo (0:ℝ) 1, HasDerivWithinAt (fun s : ℝ => A * (1 / s ^ 2 - 1)) (-(2 * A / s ^ 3)) (Ioo 0 1) s := by
    intro s hs
    have h0 := hs.1.ne'
    refine ((((hasDerivAt_const s (1:ℝ)).fun_div (hasDerivAt_pow 2 s) (pow_ne_zero 2 h0)).sub_const 1).const_mul A).hasDerivWithinAt.congr_deriv ?_
    field_simp
    norm_num
    ring
  have hinj : InjOn (fun s : ℝ => A * (1 / s ^ 2 - 1)) (Ioo 0 1) := by
    intro s hs s' hs' h
    have h1 := mul_left_cancel₀ hA.ne' h
    have h2 : 1 / s ^ 2 = 1 / s' ^ 2 := by linarith
    have h3 : s ^ 2 = s' ^ 2 := by simpa using h2
    exact (pow_left_inj₀ hs.1.le hs'.1.le two_ne_zero).1 h3
  have := integral_image_eq_integral_abs_deriv_smul measurableSet_Ioo hd hinj F
  rw [image_tau hA] at this
  rw [this, intervalIntegral.integral_of_le zero_le_one, integral_Ioc_eq_integral_Ioo]
  refine setIntegral_congr_fun measurableSet_Ioo fun s hs => ?_
  have := hs.1
  simp only [abs_neg, smul_eq_mul]
  rw [abs_of_pos (by positivity)]

section
variable (hp : p.Good) (x y z : ℝ)
include hp

theorem a2_pos : 0 < p.a2 := pow_pos hp.ha 2
theorem b2_pos : 0 < p.b2 := pow_pos hp.hb 2
theorem c2_pos : 0 < p.c2 := pow_pos hp.hc 2

/-- The integrals of the code over the unit interval. -/
theorem integral_eq {F F' : ℝ → ℝ} (h1 : ∀ τ, 0 < τ → 0 < bb p.a2 (p.b2 * p.a2) (p.c2 * p.a2) x y z τ → F τ = F' τ)
    (h2 : ∀ τ, 0 < τ → bb p.a2 (p.b2 * p.a2) (p.c2 * p.a2) x y z τ ≤ 0 → F' τ = 0) :
    ∫ τ in Ioi (lowerlim (x ^ 2) (y ^ 2) (z ^ 2) p.a2 (p.b2 * p.a2) (p.c2 * p.a2)), F τ
      = ∫ s in (0:ℝ)..1, 2 * p.a2 / s ^ 3 * F' (p.a2 * (1 / s ^ 2 - 1)) := by
  have ha := a2_pos hp
  have hb := b2_pos hp
  have hc := c2_pos hp
  obtain ⟨l0, l1⟩ := lowerlim_spec ha (mul_pos hb ha) (mul_pos hc ha) (x := x) (y := y) (z := z)
  rw [← subst_tau ha]
  rw [setIntegral_eq_of_subset_of_forall_diff_eq_zero measurableSet_Ioi (Ioi_subset_Ioi l0) (f := F')]
  · refine setIntegral_congr_fun measurableSet_Ioi fun τ hτ => ?_
    have hτ0 : 0 < τ := lt_of_le_of_lt l0 hτ
    exact h1 τ hτ0 ((l1 τ hτ0).1 hτ)
  · intro τ hτ
    have hτ0 : 0 < τ := hτ.1
    refine h2 τ hτ0 (not_lt.1 fun h => hτ.2 ((l1 τ hτ0).2 h))

/-- The integrand with the base cut off at zero. -/
noncomputable def cut (p : Par) (x y z k τ : ℝ) : ℝ :=
  max 0 (bb p.a2 (p.b2 * p.a2) (p.c2 * p.a2) x y z τ) ^ k
    / √((p.a2 + τ) * (p.b2 * p.a2 + τ) * (p.c2 * p.a2 + τ))

omit hp in
theorem cut_pos {k τ : ℝ} (h : 0 < bb p.a2 (p.b2 * p.a2) (p.c2 * p.a2) x y z τ) :
    fracInt x y z p.a2 (p.b2 * p.a2) (p.c2 * p.a2) τ k = cut p x y z k τ := by
  unfold fracInt cut
  rw [max_eq_right h.le]
  rfl
omit hp in
theorem cut_neg {k τ : ℝ} (hk : 0 < k) (h : bb p.a2 (p.b2 * p.a2) (p.c2 * p.a2) x y z τ ≤ 0) : cut p x y z k τ = 0 := by
  unfold cut
  rw [max_eq_left h, zero_rpow hk.ne', zero_div]

theorem cut_at {s : ℝ} (hs : s ∈ Ioc (0:ℝ) 1) (k : ℝ) : 2 * p.a2 / s ^ 3 * cut p x y z k (p.a2 * (1 / s ^ 2 - 1))
    = 2 / p.a * (max 0 (1 - U (ell p) (x, y, z) s / p.a ^ 2) ^ k * om p.b2 p.c2 s) := by
  have ha := hp.ha
  have h0 := hs.1
  have l1 := Ellipsoidal.lin_pos (b2_pos hp) hs
  have l2 := Ellipsoidal.lin_pos (c2_pos hp) hs
  have e1 : ∀ β : ℝ, β * p.a2 + p.a2 * (1 / s ^ 2 - 1) = p.a2 * (β + (1 / s ^ 2 - 1)) := fun β => by ring
  have eU : bb p.a2 (p.b2 * p.a2) (p.c2 * p.a2) x y z (p.a2 * (1 / s ^ 2 - 1)) = 1 - U (ell p) (x, y, z) s / p.a ^ 2 := by
    unfold bb U EllInt.u
    simp only [ell, Ellipsoidal.Par.b2, Ellipsoidal.Par.c2]
    have := e1 1
    rw [one_mul] at this
    rw [this, e1, e1]
    unfold co
    have ha2 : p.a2 = p.a ^ 2 := rfl
    rw [ha2]
    simp only [Par.b2, Par.c2]
    simp only [div_eq_mul_inv, mul_inv, one_mul]
    ring
  have eS : √((p.a2 + p.a2 * (1 / s ^ 2 - 1)) * (p.b2 * p.a2 + p.a2 * (1 / s ^ 2 - 1)) * (p.c2 * p.a2 + p.a2 * (1 / s ^ 2 - 1)))
      = p.a ^ 3 / s ^ 3 * √((1 + (p.b2 - 1) * s ^ 2) * (1 + (p.c2 - 1) * s ^ 2)) := by
    rw [← sqrt_sq (by positivity : 0 ≤ p.a ^ 3 / s ^ 3), ← sqrt_mul (by positivity)]
    congr 1
    simp only [Par.a2]
    field_simp
    ring
  unfold cut
  rw [eU, eS]
  unfold om
  have hq : 0 < √((1 + (p.b2 - 1) * s ^ 2) * (1 + (p.c2 - 1) * s ^ 2)) := sqrt_pos.2 (mul_pos l1 l2)
  generalize max 0 (1 - U (ell p) (x, y, z) s / p.a ^ 2) ^ k = X
  simp only [Par.a2]
  field_simp

theorem integral_cut {F : ℝ → ℝ} {G : ℝ → ℝ} (h : ∀ s ∈ Ioc (0:ℝ) 1, F s = G s) :
    ∫ s in (0:ℝ)..1, F s = ∫ s in (0:ℝ)..1, G s := by
  rw [intervalIntegral.integral_of_le zero_le_one, intervalIntegral.integral_of_le zero_le_one]
  exact setIntegral_congr_fun measurableSet_Ioc h

theorem U_nonneg {s : ℝ} (hs : s ∈ Ioc (0:ℝ) 1) : 0 ≤ U (ell p) (x, y, z) s := by
  have k : ∀ {β : ℝ}, 0 < β → 0 ≤ co β s := fun {β} hβ => by
    rw [Ellipsoidal.co_eq hs]
    have := Ellipsoidal.lin_pos hβ hs
    positivity
  have h1 := k one_pos
  have h2 := k (ell_good hp).b2
  have h3 := k (ell_good hp).c2
  unfold U EllInt.u
  positivity

omit hp in
theorem K_none (h w : ℝ → ℝ) (q : ℝ × ℝ × ℝ) : K (ell p) h w q = ∫ s in (0:ℝ)..1, h (U (ell p) q s) * w s := rfl
omit hp in
theorem h0_ell {v : ℝ} (hv : 0 ≤ v) : h0 (ell p) v = -p.a ^ 2 / (p.n + 1) * max 0 (1 - v / p.a ^ 2) ^ (p.n + 1) := by
  simp only [h0, ell, prof, sq_sqrt hv]
omit hp in
theorem h1_ell {v : ℝ} (hv : 0 ≤ v) : h1 (ell p) v = max 0 (1 - v / p.a ^ 2) ^ p.n := by
  simp only [h1, ell, prof, sq_sqrt hv]
omit hp in
theorem md_ell {v : ℝ} (hv : 0 ≤ v) : (ell p).prof.mdensDeriv √v
    = -2 * p.n / p.a ^ 2 * max 0 (1 - v / p.a ^ 2) ^ (p.n - 1) * √v := by
  simp only [ell, prof, sq_sqrt hv]
  ring

theorem evaluateXyz_eq : evaluateXyz p x y z = p.rhocM * Ellipsoidal.evaluateXyz (ell p) x y z := by
  have hn := hp.hn
  have ha := hp.ha
  have e : potInt x y z p.a2 (p.b2 * p.a2) (p.c2 * p.a2) p.n
      = -2 * (p.n + 1) / p.a ^ 3 * K (ell p) (h0 (ell p)) (om p.b2 p.c2) (x, y, z) := by
    unfold potInt
    rw [integral_eq hp x y z (F' := cut p x y z (p.n + 1)) (fun τ _ h => cut_pos x y z h)
      (fun τ _ h => cut_neg x y z (by linarith) h)]
    rw [K_none, ← intervalIntegral.integral_const_mul]
    refine integral_cut hp fun s hs => ?_
    rw [cut_at hp x y z hs, h0_ell (U_nonneg hp x y z hs)]
    have : p.n + 1 ≠ 0 := by linarith
    generalize max 0 (1 - U (ell p) (x, y, z) s / p.a ^ 2) ^ (p.n + 1) = X
    field_simp
  rw [Ellipsoidal.evaluateXyz_eq]
  unfold evaluateXyz
  rw [e]
  simp only [ell, Par.b2, Par.c2, Ellipsoidal.Par.b2, Ellipsoidal.Par.c2]
  have : p.n + 1 ≠ 0 := by linarith
  field_simp

theorem a_add {s : ℝ} (hs : s ∈ Ioc (0:ℝ) 1) (β : ℝ) : 1 / (β * p.a2 + p.a2 * (1 / s ^ 2 - 1)) = co β s / p.a ^ 2 := by
  have := hp.ha
  unfold co
  rw [show β * p.a2 + p.a2 * (1 / s ^ 2 - 1) = (β + (1 / s ^ 2 - 1)) * p.a ^ 2 by simp only [Par.a2]; ring, div_div]

theorem forceXyz_eq : forceXyz p x y z 0 = -(p.rhocM * fx (ell p) x y z)
    ∧ forceXyz p x y z 1 = -(p.rhocM * fy (ell p) x y z) ∧ forceXyz p x y z 2 = -(p.rhocM * fz (ell p) x y z) := by
  have hn := hp.hn
  have ha := hp.ha
  have key : ∀ (w β : ℝ) (i : ℕ), (∀ τ, (x * ind i 0 + y * ind i 1 + z * ind i 2)
      / (p.a2 * ind i 0 + p.b2 * p.a2 * ind i 1 + p.c2 * p.a2 * ind i 2 + τ) = w * (1 / (β * p.a2 + τ))) →
      forceInt x y z p.a2 (p.b2 * p.a2) (p.c2 * p.a2) p.n i = 2 / p.a ^ 3 * (w * I (ell p) β x y z) := by
    intro w β i hi
    unfold forceInt
    rw [integral_eq hp x y z (F' := fun τ => w * (1 / (β * p.a2 + τ)) * cut p x y z p.n τ)
      (fun τ _ h => by rw [cut_pos x y z h, hi]) (fun τ _ h => by rw [cut_neg x y z (by linarith) h, mul_zero])]
    rw [I, K_none, ← intervalIntegral.integral_const_mul, ← intervalIntegral.integral_const_mul]
    refine integral_cut hp fun s hs => ?_
    have := cut_at hp x y z hs p.n
    rw [a_add hp hs, h1_ell (U_nonneg hp x y z hs)]
    calc _ = w * (co β s / p.a ^ 2) * (2 * p.a2 / s ^ 3 * cut p x y z p.n (p.a2 * (1 / s ^ 2 - 1))) := by ring
      _ = _ := by
        rw [this]
        simp only [Par.b2, Par.c2, Ellipsoidal.Par.b2, Ellipsoidal.Par.c2, ell]
        ring
  unfold forceXyz
  rw [key x 1 0 (fun τ => by simp [ind]; ring), key y p.b2 1 (fun τ => by simp [ind]; ring),
    key z p.c2 2 (fun τ => by simp [ind]; ring)]
  simp only [fx, fy, fz, I, Par.b2, Par.c2, ell, Ellipsoidal.Par.b2, Ellipsoidal.Par.c2]
  refine ⟨?_, ?_, ?_⟩ <;> field_simp <;> ring

theorem hess_int (hq : Off x y z) {i j : ℕ} (hi : i < 3) (hj : j < 3) :
    hessXyz p x y z i j = p.rhocM * (4 * π * p.b * p.c * Ellipsoidal.hessInt (ell p) x y z i j) := by
  have hn := hp.hn
  have ha := hp.ha
  have e : hessInt x y z p.a2 (p.b2 * p.a2) (p.c2 * p.a2) p.n i j
      = -4 / p.a ^ 3 * Ellipsoidal.hessInt (ell p) x y z i j := by
    unfold hessInt
    rw [integral_eq hp x y z (F' := fun τ => if i ≠ j then
      cut p x y z (p.n - 1) τ * p.n
        * (1 + (-1 - 2 * x / (τ + p.a2)) * either i j 0)
        * (1 + (-1 - 2 * y / (τ + p.b2 * p.a2)) * either i j 1)
        * (1 + (-1 - 2 * z / (τ + p.c2 * p.a2)) * either i j 2)
    else
      cut p x y z (p.n - 1) τ * p.n * (4 * (x ^ 2 * ind i 0 + y ^ 2 * ind i 1 + z ^ 2 * ind i 2))
          / (τ + (p.a2 * ind i 0 + p.b2 * p.a2 * ind i 1 + p.c2 * p.a2 * ind i 2)) ^ 2
        + cut p x y z p.n τ * (-2 / (τ + (p.a2 * ind i 0 + p.b2 * p.a2 * ind i 1 + p.c2 * p.a2 * ind i 2))))
      (fun τ _ h => by simp only [cut_pos x y z h])
      (fun τ _ h => by
        rw [cut_neg x y z (by linarith) h, cut_neg x y z (by linarith) h]
        simp)]
    unfold Ellipsoidal.hessInt
    rw [← intervalIntegral.integral_const_mul]
    refine integral_cut hp fun s hs => ?_
    have hU := Ellipsoidal.U_pos (ell_good hp) (q := (x, y, z)) (by simpa [EllInt.N, Off] using hq) hs
    have c0 := cut_at hp x y z hs p.n
    have c1 := cut_at hp x y z hs (p.n - 1)
    have eU : x ^ 2 / (1 + (1 / s ^ 2 - 1)) + y ^ 2 / ((ell p).b2 + (1 / s ^ 2 - 1)) + z ^ 2 / ((ell p).c2 + (1 / s ^ 2 - 1))
        = U (ell p) (x, y, z) s := by
      unfold U EllInt.u co
      ring
    have a0 : ∀ β : ℝ, p.a2 * (1 / s ^ 2 - 1) + β * p.a2 = p.a ^ 2 * (β + (1 / s ^ 2 - 1)) := fun β => by
      simp only [Par.a2]; ring
    have a0' : p.a2 * (1 / s ^ 2 - 1) + p.a2 = p.a ^ 2 * (1 + (1 / s ^ 2 - 1)) := by
      simp only [Par.a2]; ring
    have a1 : ∀ β : ℝ, 0 < β → 0 < β + (1 / s ^ 2 - 1) := fun β hβ => by
      have h1 := hs.1
      have h2 : s ^ 2 ≤ 1 := pow_le_one₀ hs.1.le hs.2
      have : 1 ≤ 1 / s ^ 2 := by rw [le_div_iff₀ (by positivity)]; linarith
      linarith
    have a2 := a1 1 one_pos
    have a3 := a1 _ (b2_pos hp)
    have a4 := a1 _ (c2_pos hp)
    have eb : (ell p).b2 = p.b2 := rfl
    have ec : (ell p).c2 = p.c2 := rfl
    have om1 : om p.b2 p.c2 s = 1 / √((1 + (p.b2 - 1) * s ^ 2) * (1 + (p.c2 - 1) * s ^ 2)) := rfl
    simp only [eU, sq_sqrt hU.le]
    rw [eb, ec]
    have e1 : (ell p).prof.mdensDeriv √(U (ell p) (x, y, z) s)
        = -2 * p.n / p.a ^ 2 * max 0 (1 - U (ell p) (x, y, z) s / p.a ^ 2) ^ (p.n - 1) * √(U (ell p) (x, y, z) s) := by
      exact md_ell hU.le
    have e2 : (ell p).prof.mdens √(U (ell p) (x, y, z) s) = max 0 (1 - U (ell p) (x, y, z) s / p.a ^ 2) ^ p.n :=
      h1_ell hU.le
    rw [e1, e2]
    have hm := sqrt_pos.2 hU
    generalize √(U (ell p) (x, y, z) s) = m at *
    generalize max 0 (1 - U (ell p) (x, y, z) s / p.a ^ 2) ^ p.n = X at *
    generalize max 0 (1 - U (ell p) (x, y, z) s / p.a ^ 2) ^ (p.n - 1) = Y at *
    generalize cut p x y z p.n (p.a2 * (1 / s ^ 2 - 1)) = C at *
    generalize cut p x y z (p.n - 1) (p.a2 * (1 / s ^ 2 - 1)) = D at *
    rw [om1] at c0 c1
    have hQ : 0 < √((1 + (p.b2 - 1) * s ^ 2) * (1 + (p.c2 - 1) * s ^ 2)) :=
      sqrt_pos.2 (mul_pos (Ellipsoidal.lin_pos (b2_pos hp) hs) (Ellipsoidal.lin_pos (c2_pos hp) hs))
    generalize √((1 + (p.b2 - 1) * s ^ 2) * (1 + (p.c2 - 1) * s ^ 2)) = Q at *
    have hκ : 0 < 2 * p.a2 / s ^ 3 := by
      have := hs.1
      have := a2_pos hp
      positivity
    have b0 := a0 p.b2
    have d0 := a0 p.c2
    generalize 2 * p.a2 / s ^ 3 = κ at *
    obtain rfl : C = 2 / p.a * (X * (1 / Q)) / κ := by rw [← c0]; field_simp
    obtain rfl : D = 2 / p.a * (Y * (1 / Q)) / κ := by rw [← c1]; field_simp
    generalize 1 + (1 / s ^ 2 - 1) = P1 at *
    generalize p.b2 + (1 / s ^ 2 - 1) = P2 at *
    generalize p.c2 + (1 / s ^ 2 - 1) = P3 at *
    generalize p.b2 * p.a2 = Bb at *
    generalize p.c2 * p.a2 = Cc at *
    generalize p.a2 * (1 / s ^ 2 - 1) = T at *
    interval_cases i <;> interval_cases j <;>
      simp only [ind, either, Ellipsoidal.ind, ne_eq, not_true_eq_false, not_false_eq_true, if_true, if_false, zero_ne_one, one_ne_zero,
        OfNat.ofNat_ne_zero, OfNat.ofNat_ne_one, mul_zero, mul_one, add_zero, zero_add, zero_div, or_true, or_false, true_or, false_or,
        OfNat.zero_ne_ofNat, OfNat.one_ne_ofNat, or_self] <;>
      simp only [a0', b0, d0] <;> field_simp <;> ring
  unfold hessXyz
  rw [e]
  field_simp
  try ring

end

/-! ### The methods -/

/-- What the methods should be: the ellipsoidal functions in the frame turned by `ang`. -/
noncomputable def ref (p : Par) (ang : ℝ) : Pot where
  val := fun R z φ _ => Ellipsoidal.evaluateXyz (ell p) (R * cos (φ - ang)) (R * sin (φ - ang)) z
  Rforce := fun R z φ _ => -(cos (φ - ang) * fx (ell p) (R * cos (φ - ang)) (R * sin (φ - ang)) z
      + sin (φ - ang) * fy (ell p) (R * cos (φ - ang)) (R * sin (φ - ang)) z)
  zforce := fun R z φ _ => -fz (ell p) (R * cos (φ - ang)) (R * sin (φ - ang)) z
  phitorque := fun R z φ _ => -(R * (-sin (φ - ang) * fx (ell p) (R * cos (φ - ang)) (R * sin (φ - ang)) z
      + cos (φ - ang) * fy (ell p) (R * cos (φ - ang)) (R * sin (φ - ang)) z))
  R2deriv := fun R z φ _ => cos (φ - ang) ^ 2 * fxx (ell p) (R * cos (φ - ang)) (R * sin (φ - ang)) z
      + 2 * cos (φ - ang) * sin (φ - ang) * fxy (ell p) (R * cos (φ - ang)) (R * sin (φ - ang)) z
      + sin (φ - ang) ^ 2 * fyy (ell p) (R * cos (φ - ang)) (R * sin (φ - ang)) z
  z2deriv := fun R z φ _ => fzz (ell p) (R * cos (φ - ang)) (R * sin (φ - ang)) z
  Rzderiv := fun R z φ _ => cos (φ - ang) * fxz (ell p) (R * cos (φ - ang)) (R * sin (φ - ang)) z
      + sin (φ - ang) * fyz (ell p) (R * cos (φ - ang)) (R * sin (φ - ang)) z
  phi2deriv := fun R z φ _ => R ^ 2 * (sin (φ - ang) ^ 2 * fxx (ell p) (R * cos (φ - ang)) (R * sin (φ - ang)) z
      - 2 * sin (φ - ang) * cos (φ - ang) * fxy (ell p) (R * cos (φ - ang)) (R * sin (φ - ang)) z
      + cos (φ - ang) ^ 2 * fyy (ell p) (R * cos (φ - ang)) (R * sin (φ - ang)) z)
      - R * (cos (φ - ang) * fx (ell p) (R * cos (φ - ang)) (R * sin (φ - ang)) z
        + sin (φ - ang) * fy (ell p) (R * cos (φ - ang)) (R * sin (φ - ang)) z)
  Rphideriv := fun R z φ _ => R * (-sin (φ - ang) * cos (φ - ang) * fxx (ell p) (R * cos (φ - ang)) (R * sin (φ - ang)) z
      + (cos (φ - ang) ^ 2 - sin (φ - ang) ^ 2) * fxy (ell p) (R * cos (φ - ang)) (R * sin (φ - ang)) z
      + sin (φ - ang) * cos (φ - ang) * fyy (ell p) (R * cos (φ - ang)) (R * sin (φ - ang)) z)
      + (-sin (φ - ang) * fx (ell p) (R * cos (φ - ang)) (R * sin (φ - ang)) z
        + cos (φ - ang) * fy (ell p) (R * cos (φ - ang)) (R * sin (φ - ang)) z)
  phizderiv := fun R z φ _ => R * (-sin (φ - ang) * fxz (ell p) (R * cos (φ - ang)) (R * sin (φ - ang)) z
      + cos (φ - ang) * fyz (ell p) (R * cos (φ - ang)) (R * sin (φ - ang)) z)
  dens := fun R z φ _ => (ell p).prof.mdens
    (√((R * cos (φ - ang)) ^ 2 + (R * sin (φ - ang)) ^ 2 / p.b2 + z ^ 2 / p.c2))

theorem ref_polar (p : Par) (ang t : ℝ) : Polar (ref p ang) t ang (Ellipsoidal.evaluateXyz (ell p)) (fx (ell p)) (fy (ell p))
    (fz (ell p)) (fxx (ell p)) (fxy (ell p)) (fxz (ell p)) (fyy (ell p)) (fyz (ell p)) (fzz (ell p)) Off :=
  ⟨fun _ _ _ => rfl, fun _ _ _ _ => rfl, fun _ _ _ _ => rfl, fun _ _ _ _ => rfl, fun _ _ _ _ => rfl, fun _ _ _ _ => rfl,
    fun _ _ _ _ => rfl, fun _ _ _ _ => rfl, fun _ _ _ _ => rfl, fun _ _ _ _ => rfl⟩

theorem ref_grad (hp : p.Good) (ang : ℝ) {R z φ : ℝ} (t : ℝ) (h : Off (R * cos (φ - ang)) (R * sin (φ - ang)) z) :
    GradAt (ref p ang) R z φ t := (ref_polar p ang t).grad (Ellipsoidal.cart (ell_good hp)) h
theorem ref_hess (hp : p.Good) (ang : ℝ) {R z φ : ℝ} (t : ℝ) (h : Off (R * cos (φ - ang)) (R * sin (φ - ang)) z) :
    HessAt (ref p ang) R z φ t := (ref_polar p ang t).hess (Ellipsoidal.cart (ell_good hp)) h
theorem ref_poisson (hp : p.Good) (ang : ℝ) {R z φ : ℝ} (t : ℝ) (h : Off (R * cos (φ - ang)) (R * sin (φ - ang)) z)
    (hR : R ≠ 0) : PoissonAt (ref p ang) R z φ t :=
  (ref_polar p ang t).poisson (Ellipsoidal.cart (ell_good hp)) h hR (Ellipsoidal.poisson (ell_good hp) rfl h).symm

/-- The angle of the bar. -/
def Par.ang (p : Par) (t : ℝ) : ℝ := p.pa + p.omegab * t

theorem phi_nonaxi (h : p.isNonAxi) (φ : ℝ) : p.phi φ = φ := by simp [Par.phi, h]
theorem phi_axi (h : ¬ p.isNonAxi) (φ : ℝ) : p.phi φ = 0 := by simp [Par.phi, h]

section
variable (hp : p.Good) (hax : p.b = 1 ∨ p.isNonAxi)
include hp

theorem I_sym (hb : p.b = 1) (β R z φ : ℝ) : I (ell p) β (R * cos φ) (R * sin φ) z = I (ell p) β R 0 z :=
  Ellipsoidal.K_sym (p := ell p) hb _ _ _ _ _
theorem J_sym (hb : p.b = 1) (β γ R z φ : ℝ) : J (ell p) β γ (R * cos φ) (R * sin φ) z = J (ell p) β γ R 0 z :=
  Ellipsoidal.K_sym (p := ell p) hb _ _ _ _ _

omit hp in
theorem fx_I (x y z : ℝ) : fx (ell p) x y z = 4 * π * p.b * p.c * (x * I (ell p) 1 x y z) := rfl
omit hp in
theorem fy_I (x y z : ℝ) : fy (ell p) x y z = 4 * π * p.b * p.c * (y * I (ell p) p.b2 x y z) := rfl
omit hp in
theorem fz_I (x y z : ℝ) : fz (ell p) x y z = 4 * π * p.b * p.c * (z * I (ell p) p.c2 x y z) := rfl

include hax

theorem val_eq (R z φ t : ℝ) : (pot p).val R z φ t = p.rhocM * (ref p (p.ang t)).val R z φ t := by
  have e : (pot p).val R z φ t = p.rhocM * Ellipsoidal.evaluateXyz (ell p) (R * cos (p.phi φ - p.ang t)) (R * sin (p.phi φ - p.ang t)) z := by
    simp only [pot, evaluate, Coords.cyl_to_rect, evaluateXyz_eq hp]
    rw [cos_sub, sin_sub]
    unfold Par.ang
    congr 2 <;> ring
  rw [e]
  by_cases hn : p.isNonAxi
  · rw [phi_nonaxi hn]
    rfl
  · have hb := hax.resolve_right hn
    simp only [ref, Ellipsoidal.evaluateXyz_eq]
    rw [Ellipsoidal.K_sym (p := ell p) hb, Ellipsoidal.K_sym (p := ell p) hb]

theorem forces_eq (R z φ t : ℝ) : (pot p).Rforce R z φ t = p.rhocM * (ref p (p.ang t)).Rforce R z φ t
    ∧ (pot p).zforce R z φ t = p.rhocM * (ref p (p.ang t)).zforce R z φ t
    ∧ (pot p).phitorque R z φ t = p.rhocM * (ref p (p.ang t)).phitorque R z φ t := by
  have ea : ∀ φ, φ - p.pa - p.omegab * t = φ - p.ang t := fun φ => by unfold Par.ang; ring
  have ea' : p.pa + p.omegab * t = p.ang t := rfl
  simp only [pot, xyzforces, xyz, Coords.cyl_to_rect, ea, ea', (forceXyz_eq hp _ _ _).1, (forceXyz_eq hp _ _ _).2.1,
    (forceXyz_eq hp _ _ _).2.2, ref]
  by_cases hn : p.isNonAxi
  · simp only [phi_nonaxi hn]
    rw [cos_sub φ, sin_sub φ]
    exact ⟨by ring, by ring, by ring⟩
  · have hb := hax.resolve_right hn
    have hb2 : p.b2 = 1 := by unfold Par.b2; rw [hb]; norm_num
    simp only [phi_axi hn, fx_I, fy_I, fz_I, I_sym hp hb, hb2]
    simp only [cos_zero, sin_zero, zero_sub, cos_neg, sin_neg]
    have h1 := sin_sq_add_cos_sq (p.ang t)
    have h2 := sin_sq_add_cos_sq (φ - p.ang t)
    refine ⟨?_, by ring, by ring⟩
    linear_combination (p.rhocM * 4 * π * p.b * p.c * R * I (ell p) 1 R 0 z) * (h2 - h1)

omit hax in
theorem hess_eq {x y z : ℝ} (hq : Off x y z) : hessXyz p x y z 0 0 = p.rhocM * fxx (ell p) x y z
    ∧ hessXyz p x y z 0 1 = p.rhocM * fxy (ell p) x y z ∧ hessXyz p x y z 0 2 = p.rhocM * fxz (ell p) x y z
    ∧ hessXyz p x y z 1 1 = p.rhocM * fyy (ell p) x y z ∧ hessXyz p x y z 1 2 = p.rhocM * fyz (ell p) x y z
    ∧ hessXyz p x y z 2 2 = p.rhocM * fzz (ell p) x y z := by
  have e := Ellipsoidal.hessIntAll_eq (ell_good hp) hq
  have e' : Ellipsoidal.hessIntAll (ell p) x y z = ⟨Ellipsoidal.hessInt (ell p) x y z 0 0, Ellipsoidal.hessInt (ell p) x y z 0 1,
      Ellipsoidal.hessInt (ell p) x y z 0 2, Ellipsoidal.hessInt (ell p) x y z 1 1, Ellipsoidal.hessInt (ell p) x y z 1 2,
      Ellipsoidal.hessInt (ell p) x y z 2 2⟩ := rfl
  rw [e'] at e
  simp only [Ellipsoidal.Hess.mk.injEq] at e
  obtain ⟨e1, e2, e3, e4, e5, e6⟩ := e
  refine ⟨?_, ?_, ?_, ?_, ?_, ?_⟩
  all_goals rw [hess_int hp x y z hq (by norm_num) (by norm_num)]
  · rw [e1]; rfl
  · rw [e2]; rfl
  · rw [e3]; rfl
  · rw [e4]; rfl
  · rw [e5]; rfl
  · rw [e6]; rfl

omit hax hp in
theorem off_turn {R z φ φ' : ℝ} (h : Off (R * cos φ) (R * sin φ) z) : Off (R * cos φ') (R * sin φ') z := by
  unfold Off at *
  nlinarith [sin_sq_add_cos_sq φ, sin_sq_add_cos_sq φ']

/-- These two are right at all angles. -/
theorem z2_phiz_eq {R z φ t : ℝ} (h : Off (R * cos (φ - p.ang t)) (R * sin (φ - p.ang t)) z) :
    (pot p).z2deriv R z φ t = p.rhocM * (ref p (p.ang t)).z2deriv R z φ t
    ∧ (pot p).phizderiv R z φ t = p.rhocM * (ref p (p.ang t)).phizderiv R z φ t := by
  have ea : ∀ φ, φ - p.pa - p.omegab * t = φ - p.ang t := fun φ => by unfold Par.ang; ring
  have ea' : p.pa + p.omegab * t = p.ang t := rfl
  have hq : Off (R * cos (p.phi φ - p.ang t)) (R * sin (p.phi φ - p.ang t)) z := off_turn h
  obtain ⟨-, -, e3, -, e5, e6⟩ := hess_eq hp hq
  simp only [pot, z2deriv, phizderiv, xyz, Coords.cyl_to_rect, ea, ea', e3, e5, e6, ref]
  by_cases hn : p.isNonAxi
  · simp only [phi_nonaxi hn]
    rw [cos_sub φ, sin_sub φ]
    exact ⟨trivial, by ring⟩
  · have hb := hax.resolve_right hn
    have hb2 : (ell p).b2 = 1 := by unfold Ellipsoidal.Par.b2 ell; rw [hb]; norm_num
    simp only [phi_axi hn, fxz, fyz, fzz, I_sym hp hb, J_sym hp hb, hb2]
    simp only [cos_zero, sin_zero, zero_sub, cos_neg, sin_neg]
    exact ⟨trivial, by ring⟩

/-- The others only when the bar is aligned with the `x` axis. -/
theorem hess_aligned {R z φ t : ℝ} (hs : sin (p.ang t) = 0) (h : Off (R * cos (φ - p.ang t)) (R * sin (φ - p.ang t)) z) :
    (pot p).R2deriv R z φ t = p.rhocM * (ref p (p.ang t)).R2deriv R z φ t
    ∧ (pot p).Rzderiv R z φ t = p.rhocM * (ref p (p.ang t)).Rzderiv R z φ t
    ∧ (pot p).phi2deriv R z φ t = p.rhocM * (ref p (p.ang t)).phi2deriv R z φ t
    ∧ (pot p).Rphideriv R z φ t = p.rhocM * (ref p (p.ang t)).Rphideriv R z φ t := by
  have ea : ∀ φ, φ - p.pa - p.omegab * t = φ - p.ang t := fun φ => by unfold Par.ang; ring
  have ea' : p.pa + p.omegab * t = p.ang t := rfl
  have ea'' : p.omegab * t + p.pa = p.ang t := add_comm _ _
  have hq : Off (R * cos (p.phi φ - p.ang t)) (R * sin (p.phi φ - p.ang t)) z := off_turn h
  obtain ⟨e1, e2, e3, e4, e5, e6⟩ := hess_eq hp hq
  simp only [pot, R2deriv, Rzderiv, phi2deriv, Rphideriv, rotHess, rotForce, xyz, Coords.cyl_to_rect, ea, ea', ea'', e1, e2, e3, e4, e5,
    (forceXyz_eq hp _ _ _).1, (forceXyz_eq hp _ _ _).2.1, ref, cos_two_mul']
  have hc : cos (p.ang t) ^ 2 = 1 := by
    have := sin_sq_add_cos_sq (p.ang t)
    rw [hs] at this
    linarith
  have cs : ∀ φ, cos (φ - p.ang t) = cos φ * cos (p.ang t) := fun φ => by rw [cos_sub, hs]; ring
  have ss : ∀ φ, sin (φ - p.ang t) = sin φ * cos (p.ang t) := fun φ => by rw [sin_sub, hs]; ring
  by_cases hn : p.isNonAxi
  · simp only [phi_nonaxi hn, hs, cs, ss]
    generalize hcc : cos (p.ang t) = c at *
    rcases mul_self_eq_one_iff.1 (by linarith [pow_two c] : c * c = 1) with rfl | rfl
    · exact ⟨by ring, by ring, by ring, by ring⟩
    · exact ⟨by ring, by ring, by ring, by ring⟩
  · have hb := hax.resolve_right hn
    have hb2 : (ell p).b2 = 1 := by unfold Ellipsoidal.Par.b2 ell; rw [hb]; norm_num
    have hb2' : p.b2 = 1 := hb2
    simp only [phi_axi hn, fxx, fxy, fxz, fyy, fyz, fx_I, fy_I, I_sym hp hb, J_sym hp hb, hb2, hb2', Ellipsoidal.J_comm 1 (ell p).c2]
    simp only [cs, ss, hs, cos_zero, sin_zero]
    have h2 : sin φ ^ 2 = 1 - cos φ ^ 2 := by linarith [sin_sq_add_cos_sq φ]
    generalize cos (p.ang t) = c at *
    have h4 : sin φ ^ 4 = (1 - cos φ ^ 2) ^ 2 := by rw [← h2]; ring
    have h3 : sin φ ^ 3 = sin φ * (1 - cos φ ^ 2) := by rw [← h2]; ring
    rcases mul_self_eq_one_iff.1 (by linarith [pow_two c] : c * c = 1) with rfl | rfl
    all_goals
      refine ⟨?_, ?_, ?_, ?_⟩
      all_goals
        ring_nf
        try simp only [h2, h3, h4]
        try ring_nf

end

end Verif.Ferrers
