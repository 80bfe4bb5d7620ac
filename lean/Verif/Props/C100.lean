import Verif.Lemmas.Dop853
import Mathlib.Data.List.TakeWhile

set_option autoImplicit false

/-!
# C100: the DOP853 integrator

For every table of coefficients, right-hand side, tolerance and list of output times in one direction: the rows are
samples of a curve made of accepted Runge-Kutta steps, and the result depends on time only through the equation.
-/

noncomputable section
namespace Verif
open Dop853

namespace C100Spec
variable {n : ℕ}

/-- The coefficients of the explicit method with twelve stages: the file has no `a<i>2` for `i > 3`, no `a<i>3` for `i > 5`,
and the last stage is at the end of the step. -/
def A (T : Tab) (i j : ℕ) : ℝ := if (j = 2 ∧ i ≠ 3) ∨ (j = 3 ∧ i ≠ 4 ∧ i ≠ 5) then 0 else T.a i j
def node (T : Tab) (i : ℕ) : ℝ := if i = 12 then 1 else T.c i
/-- The stages with a weight in the new state. -/
def used : Finset ℕ := {1, 6, 7, 8, 9, 10, 11, 12}

/-- A step of the explicit Runge-Kutta method from `x` at `t` to `x'` at `t + h`, with slopes `K`. -/
structure RK (T : Tab) (f : V n → ℝ → V n) (x : V n) (t h : ℝ) (x' : V n) (K : ℕ → V n) : Prop where
  first : K 1 = f x t
  stage : ∀ i, 2 ≤ i → i ≤ 12 → K i = f (x + h • ∑ j ∈ Finset.Ico 1 i, A T i j • K j) (t + node T i * h)
  new : x' = x + h • ∑ j ∈ used, T.b j • K j

/-- Mean square of an estimate of the slope's error in units of the tolerance. -/
def sq (rtol atol : ℝ) (x x' v : V n) : ℝ := ∑ i, (v i / (atol + rtol * max |x i| |x' i|)) ^ 2
/-- The two estimates, of orders five and three. -/
def est5 (T : Tab) (K : ℕ → V n) : V n := ∑ j ∈ used, T.er j • K j
def est3 (T : Tab) (K : ℕ → V n) : V n :=
  ∑ j ∈ used, T.b j • K j - (T.bhh 1 • K 1 + T.bhh 2 • K 9 + T.bhh 3 • K 12)

/-- The stages after the step and the curve of the dense output (Hairer, Norsett and Wanner). -/
def s14 : Finset ℕ := {1, 7, 8, 9, 10, 11, 12, 13}
def s15 : Finset ℕ := {1, 6, 7, 8, 11, 12, 13, 14}
def s16 : Finset ℕ := {1, 6, 7, 8, 9, 13, 14, 15}
def sd : Finset ℕ := {1, 6, 7, 8, 9, 10, 11, 12, 13, 14, 15, 16}
def high (T : Tab) (h : ℝ) (K : ℕ → V n) (i : ℕ) : V n := h • ∑ j ∈ sd, T.d i j • K j
structure Dense (T : Tab) (f : V n → ℝ → V n) (x : V n) (t h : ℝ) (x' : V n) (K : ℕ → V n) (γ : ℝ → V n) : Prop where
  k13 : K 13 = f x' (t + h)
  k14 : K 14 = f (x + h • ∑ j ∈ s14, T.a 14 j • K j) (t + T.c 14 * h)
  k15 : K 15 = f (x + h • ∑ j ∈ s15, T.a 15 j • K j) (t + T.c 15 * h)
  k16 : K 16 = f (x + h • ∑ j ∈ s16, T.a 16 j • K j) (t + T.c 16 * h)
  curve : ∀ θ : ℝ, γ (t + θ * h) = x + θ • (x' - x + (1 - θ) • (h • K 1 - (x' - x) + θ • ((2 : ℝ) • (x' - x)
    - h • (K 1 + K 13) + (1 - θ) • (high T h K 4 + θ • (high T h K 5 + (1 - θ) • (high T h K 6 + θ • high T h K 7))))))

/-- A step: start, length, states at both ends and the curve in between. -/
structure Piece (n : ℕ) where
  t : ℝ
  h : ℝ
  x : V n
  x' : V n
  γ : ℝ → V n

/-- What an accepted step is: a Runge-Kutta step that passes the error test, and a curve that joins the two states with the
slopes of the equation at both ends and is that of the dense output in between. -/
structure Piece.OK (T : Tab) (f : V n → ℝ → V n) (rtol atol hb : ℝ) (p : Piece n) : Prop where
  ne : p.h ≠ 0
  small : |p.h| ≤ hb
  rk : ∃ K, RK T f p.x p.t p.h p.x' K ∧ |p.h| * sq rtol atol p.x p.x' (est5 T K)
    ≤ √((sq rtol atol p.x p.x' (est5 T K) + 0.01 * sq rtol atol p.x p.x' (est3 T K)) * n)
    ∧ Dense T f p.x p.t p.h p.x' K p.γ
  start : p.γ p.t = p.x
  stop : p.γ (p.t + p.h) = p.x'
  dstart : HasDerivAt p.γ (f p.x p.t) p.t
  dstop : HasDerivAt p.γ (f p.x' (p.t + p.h)) (p.t + p.h)

/-- `t` is in the step (the end excluded), in its direction. -/
def Piece.has (p : Piece n) (t : ℝ) : Prop := 0 ≤ (t - p.t) / p.h ∧ (t - p.t) / p.h < 1

/-- Each step starts where the one before it ends. -/
def Chained : ℝ → V n → List (Piece n) → ℝ → V n → Prop
  | t, x, [], t', x' => t = t' ∧ x = x'
  | t, x, p :: L, t', x' => p.t = t ∧ p.x = x ∧ Chained (t + p.h) p.x' L t' x'

end C100Spec
open C100Spec

namespace C100aux
variable {n : ℕ}

theorem chained_snoc {t t' : ℝ} {x x' : V n} {L : List (Piece n)} (h : Chained t x L t' x') (p : Piece n) (h1 : p.t = t')
    (h2 : p.x = x') : Chained t x (L ++ [p]) (t' + p.h) p.x' := by
  induction L generalizing t x with
  | nil =>
    obtain ⟨rfl, rfl⟩ := h
    exact ⟨h1, h2, rfl, rfl⟩
  | cons q L ih => exact ⟨h.1, h.2.1, ih h.2.2⟩

/-- The slopes by number. -/
def slopes (k1 k2 k3 k4 k5 k6 k7 k8 k9 k10 k11 k12 k13 k14 k15 k16 : V n) : ℕ → V n
  | 1 => k1 | 2 => k2 | 3 => k3 | 4 => k4 | 5 => k5 | 6 => k6 | 7 => k7 | 8 => k8 | 9 => k9 | 10 => k10 | 11 => k11
  | 12 => k12 | 13 => k13 | 14 => k14 | 15 => k15 | 16 => k16 | _ => 0

theorem used_sum (g : ℕ → V n) : ∑ j ∈ used, g j = g 1 + g 6 + g 7 + g 8 + g 9 + g 10 + g 11 + g 12 := by
  simp only [used]
  repeat rw [Finset.sum_insert (by decide)]
  rw [Finset.sum_singleton]
  abel

theorem seq_rk {P : Par n} {x : V n} {t h : ℝ} {k1 k2 k3 k4 k5 k6 k7 k8 k9 k10 k11 k12 kb : V n}
    (s : Seq P x t h k1 k2 k3 k4 k5 k6 k7 k8 k9 k10 k11 k12 kb) (h1 : k1 = P.f x t) (k13 k14 k15 k16 : V n) :
    RK P.tab P.f x t h (x + h • kb) (slopes k1 k2 k3 k4 k5 k6 k7 k8 k9 k10 k11 k12 k13 k14 k15 k16) := by
  refine ⟨h1, fun i hi hi' => ?_, ?_⟩
  · interval_cases i
    all_goals simp only [Finset.sum_Ico_succ_top, Nat.reduceLeDiff, Finset.Ico_self, Finset.sum_empty, zero_add, A, slopes,
      node]
    all_goals norm_num
    · rw [smul_smul]; exact s.e2
    · simpa only [smul_add] using s.e3
    · simpa only [smul_add] using s.e4
    · simpa only [smul_add] using s.e5
    · simpa only [smul_add] using s.e6
    · simpa only [smul_add] using s.e7
    · simpa only [smul_add] using s.e8
    · simpa only [smul_add] using s.e9
    · simpa only [smul_add] using s.e10
    · simpa only [smul_add] using s.e11
    · simpa only [smul_add] using s.e12
  · rw [used_sum]
    exact congrArg (fun v => x + h • v) s.eb

theorem herm {Q : ℝ → ℝ} (hQ : Differentiable ℝ Q) (r1 r2 told h t : ℝ) :
    HasDerivAt (fun t => r1 + (t - told) / h * (r2 + (1 - (t - told) / h) * Q ((t - told) / h)))
      ((r2 + (1 - (t - told) / h) * Q ((t - told) / h) + (t - told) / h * (-Q ((t - told) / h)
        + (1 - (t - told) / h) * deriv Q ((t - told) / h))) / h) t := by
  have ds : HasDerivAt (fun t : ℝ => (t - told) / h) (1 / h) t := ((hasDerivAt_id t).sub_const told).div_const h
  have dq : HasDerivAt (fun t : ℝ => Q ((t - told) / h)) (deriv Q ((t - told) / h) * (1 / h)) t :=
    HasDerivAt.comp (h₂ := Q) t ((hQ ((t - told) / h)).hasDerivAt) ds
  have d := ((ds.mul (((ds.const_sub 1).mul dq).const_add r2)).const_add r1)
  refine d.congr_deriv ?_
  simp only [Pi.mul_apply]
  ring

/-- The curve of an accepted step. -/
theorem curve {P : Par n} (x : V n) (t : ℝ) {h : ℝ} (h0 : h ≠ 0) (K : Ks n) (kn : V n) :
    dense t t h (rcont P x t h K kn) = x ∧ dense (t + h) t h (rcont P x t h K kn) = K.k5
    ∧ HasDerivAt (fun u => dense u t h (rcont P x t h K kn)) K.k1 t
    ∧ HasDerivAt (fun u => dense u t h (rcont P x t h K kn)) kn (t + h) := by
  have s0 : (t - t) / h = 0 := by simp
  have s1 : (t + h - t) / h = 1 := by rw [add_sub_cancel_left, div_self h0]
  set r := rcont P x t h K kn with hr
  have e1 : r.r1 = x := rfl
  have e2 : r.r2 = K.k5 - x := rfl
  have e3 : r.r3 = h • K.k1 - (K.k5 - x) := rfl
  have e4 : r.r4 = K.k5 - x - h • kn - (h • K.k1 - (K.k5 - x)) := rfl
  refine ⟨by simp [dense, e1], by simp [dense, s1, e1, e2, h0], ?_, ?_⟩
  all_goals
    refine hasDerivAt_pi.2 fun i => ?_
    have hQ : Differentiable ℝ fun s : ℝ => r.r3 i + s * (r.r4 i + (1 - s) * (r.r5 i + s * (r.r6 i + (1 - s) * (r.r7 i
      + s * r.r8 i)))) := by fun_prop
  · refine (herm hQ (r.r1 i) (r.r2 i) t h t).congr_deriv ?_
    rw [s0, e2, e3]
    simp only [Pi.sub_apply, Pi.smul_apply, smul_eq_mul]
    field_simp
    ring
  · refine (herm hQ (r.r1 i) (r.r2 i) t h (t + h)).congr_deriv ?_
    rw [s1, e2, e3, e4]
    simp only [Pi.sub_apply, Pi.smul_apply, smul_eq_mul]
    field_simp
    ring

theorem err_le {P : Par n} {x : V n} {h : ℝ} {k1 k2 k3 k4 k5 k6 k7 k8 k9 k10 k11 k12 k13 k14 k15 k16 kb : V n} (hn : 0 < n)
    (eb : kb = P.tab.b 1 • k1 + P.tab.b 6 • k6 + P.tab.b 7 • k7 + P.tab.b 8 • k8 + P.tab.b 9 • k9 + P.tab.b 10 • k10
      + P.tab.b 11 • k11 + P.tab.b 12 • k12)
    (he : errOf P x h ⟨k1, k6, k7, k8, k9, k10, k11, k12, kb, x + h • kb⟩ ≤ 1) :
    |h| * sq P.rtol P.atol x (x + h • kb) (est5 P.tab (slopes k1 k2 k3 k4 k5 k6 k7 k8 k9 k10 k11 k12 k13 k14 k15 k16))
      ≤ √((sq P.rtol P.atol x (x + h • kb) (est5 P.tab (slopes k1 k2 k3 k4 k5 k6 k7 k8 k9 k10 k11 k12 k13 k14 k15 k16))
        + 0.01 * sq P.rtol P.atol x (x + h • kb) (est3 P.tab (slopes k1 k2 k3 k4 k5 k6 k7 k8 k9 k10 k11 k12 k13 k14 k15 k16))) * n) := by
  have n0 : (0:ℝ) < n := by exact_mod_cast hn
  have x3 : est3 P.tab (slopes k1 k2 k3 k4 k5 k6 k7 k8 k9 k10 k11 k12 k13 k14 k15 k16)
      = kb - P.tab.bhh 1 • k1 - P.tab.bhh 2 • k9 - P.tab.bhh 3 • k12 := by
    rw [est3, used_sum, eb]
    simp only [slopes]
    abel
  have x5 : est5 P.tab (slopes k1 k2 k3 k4 k5 k6 k7 k8 k9 k10 k11 k12 k13 k14 k15 k16)
      = P.tab.er 1 • k1 + P.tab.er 6 • k6 + P.tab.er 7 • k7 + P.tab.er 8 • k8 + P.tab.er 9 • k9 + P.tab.er 10 • k10
        + P.tab.er 11 • k11 + P.tab.er 12 • k12 := by
    rw [est5, used_sum]
    rfl
  rw [x3, x5]
  unfold errOf at he
  simp only at he
  unfold C100Spec.sq
  set E5 := ∑ i, ((P.tab.er 1 • k1 + P.tab.er 6 • k6 + P.tab.er 7 • k7 + P.tab.er 8 • k8 + P.tab.er 9 • k9
    + P.tab.er 10 • k10 + P.tab.er 11 • k11 + P.tab.er 12 • k12) i / (P.atol + P.rtol * max |x i| |(x + h • kb) i|)) ^ 2
  set E3 := ∑ i, ((kb - P.tab.bhh 1 • k1 - P.tab.bhh 2 • k9 - P.tab.bhh 3 • k12) i
    / (P.atol + P.rtol * max |x i| |(x + h • kb) i|)) ^ 2
  have p5 : 0 ≤ E5 := Finset.sum_nonneg fun i _ => sq_nonneg _
  have p3 : 0 ≤ E3 := Finset.sum_nonneg fun i _ => sq_nonneg _
  by_cases hd : E5 + 0.01 * E3 ≤ 0
  · have : E5 = 0 := by norm_num at hd; linarith
    rw [this, mul_zero]
    exact Real.sqrt_nonneg _
  · rw [if_neg hd] at he
    rw [not_le] at hd
    have hp : 0 < √((E5 + 0.01 * E3) * n) := Real.sqrt_pos.2 (mul_pos hd n0)
    rw [one_div, Real.sqrt_inv, ← div_eq_mul_inv, div_le_one hp] at he
    exact he

/-- What holds between the passes. -/
structure Inv (P : Par n) (x0 : V n) (t0 hb : ℝ) (ts : List ℝ) (S : St n) (L : List (Piece n)) : Prop where
  k1 : S.k1 = P.f S.x S.tc
  chain : Chained t0 x0 L S.tc S.x
  ok : ∀ p ∈ L, p.OK P.tab P.f P.rtol P.atol hb ∧ 0 < P.pn * p.h
  hb : |S.h| ≤ hb
  later : ∀ r ∈ S.rest, P.pn * S.tc ≤ P.pn * r
  sorted : S.rest.Pairwise fun a b => P.pn * a ≤ P.pn * b
  rows : ∃ done rs, done ++ S.rest = ts ∧ S.out = x0 :: rs
    ∧ List.Forall₂ (fun t r => ∃ p ∈ L, p.has t ∧ r = p.γ t) done rs

open Classical in
theorem drop_ge {pn c : ℝ} {l : List ℝ} (hs : l.Pairwise fun a b => pn * a ≤ pn * b) :
    ∀ r ∈ l.dropWhile (fun t => decide (pn * t < pn * c)), pn * c ≤ pn * r := by
  induction l with
  | nil => simp
  | cons a l ih =>
    rw [List.pairwise_cons] at hs
    intro r hr
    rw [List.dropWhile_cons] at hr
    split_ifs at hr with ha
    · exact ih hs.2 r hr
    · simp only [decide_eq_true_eq, not_lt] at ha
      rcases List.mem_cons.1 hr with rfl | hr
      · exact ha
      · exact ha.trans (hs.1 r hr)

theorem hmin_pos : 0 < hmin := by unfold hmin; positivity

theorem err_nonneg (P : Par n) (x : V n) (h : ℝ) (K : Ks n) : 0 ≤ errOf P x h K := by
  unfold errOf
  exact mul_nonneg (mul_nonneg (abs_nonneg _) (Finset.sum_nonneg fun i _ => sq_nonneg _)) (Real.sqrt_nonneg _)

theorem set_sum (g : ℕ → V n) :
    ∑ j ∈ s14, g j = g 1 + g 7 + g 8 + g 9 + g 10 + g 11 + g 12 + g 13
    ∧ ∑ j ∈ s15, g j = g 1 + g 6 + g 7 + g 8 + g 11 + g 12 + g 13 + g 14
    ∧ ∑ j ∈ s16, g j = g 1 + g 6 + g 7 + g 8 + g 9 + g 13 + g 14 + g 15
    ∧ ∑ j ∈ sd, g j = g 1 + g 6 + g 7 + g 8 + g 9 + g 10 + g 11 + g 12 + g 13 + g 14 + g 15 + g 16 := by
  refine ⟨?_, ?_, ?_, ?_⟩
  all_goals
    simp only [s14, s15, s16, sd]
    repeat rw [Finset.sum_insert (by decide)]
    rw [Finset.sum_singleton]
    abel

theorem err_ok (P : Par n) (x : V n) (t : ℝ) {h : ℝ} (h0 : h ≠ 0) (K1 : V n) (h1 : K1 = P.f x t)
    (he : errOf P x h (stages P x t h K1) ≤ 1) :
    ∃ K, RK P.tab P.f x t h (stages P x t h K1).k5 K
      ∧ |h| * sq P.rtol P.atol x (stages P x t h K1).k5 (est5 P.tab K)
        ≤ √((sq P.rtol P.atol x (stages P x t h K1).k5 (est5 P.tab K)
          + 0.01 * sq P.rtol P.atol x (stages P x t h K1).k5 (est3 P.tab K)) * n)
      ∧ Dense P.tab P.f x t h (stages P x t h K1).k5 K
        (fun u => dense u t h (rcont P x t h (stages P x t h K1) (P.f (stages P x t h K1).k5 (t + h)))) := by
  obtain ⟨k2, k3, k4, k5, k6, k7, k8, k9, k10, k11, k12, kb, q, e⟩ := stages_seq P x t h K1
  rw [e] at he ⊢
  have e13 : ∃ k13, k13 = P.f (x + h • kb) (t + h) := ⟨_, rfl⟩
  obtain ⟨k13, e13⟩ := e13
  have e14 : ∃ v, v = P.f (x + h • (P.tab.a 14 1 • K1 + P.tab.a 14 7 • k7 + P.tab.a 14 8 • k8 + P.tab.a 14 9 • k9
    + P.tab.a 14 10 • k10 + P.tab.a 14 11 • k11 + P.tab.a 14 12 • k12 + P.tab.a 14 13 • k13)) (t + P.tab.c 14 * h) :=
    ⟨_, rfl⟩
  obtain ⟨k14, e14⟩ := e14
  have e15 : ∃ v, v = P.f (x + h • (P.tab.a 15 1 • K1 + P.tab.a 15 6 • k6 + P.tab.a 15 7 • k7 + P.tab.a 15 8 • k8
    + P.tab.a 15 11 • k11 + P.tab.a 15 12 • k12 + P.tab.a 15 13 • k13 + P.tab.a 15 14 • k14)) (t + P.tab.c 15 * h) :=
    ⟨_, rfl⟩
  obtain ⟨k15, e15⟩ := e15
  have e16 : ∃ v, v = P.f (x + h • (P.tab.a 16 1 • K1 + P.tab.a 16 6 • k6 + P.tab.a 16 7 • k7 + P.tab.a 16 8 • k8
    + P.tab.a 16 9 • k9 + P.tab.a 16 13 • k13 + P.tab.a 16 14 • k14 + P.tab.a 16 15 • k15)) (t + P.tab.c 16 * h) :=
    ⟨_, rfl⟩
  obtain ⟨k16, e16⟩ := e16
  refine ⟨_, seq_rk q h1 k13 k14 k15 k16, ?_, e13, ?_, ?_, ?_, fun θ => ?_⟩
  · rcases Nat.eq_zero_or_pos n with rfl | hn
    · simp [C100Spec.sq]
    · exact err_le hn q.eb he
  · rw [(set_sum _).1]; exact e14
  · rw [(set_sum _).2.1]; exact e15
  · rw [(set_sum _).2.2.1]; exact e16
  · have et : (t + θ * h - t) / h = θ := by rw [add_sub_cancel_left, mul_div_assoc, div_self h0, mul_one]
    have er : x + h • kb - x - h • k13 - (h • K1 - (x + h • kb - x))
        = (2 : ℝ) • (x + h • kb - x) - h • (K1 + k13) := by
      rw [two_smul, smul_add]; abel
    simp only [dense, et, rcont, high, (set_sum _).2.2.2, slopes, ← e13, ← e14, ← e15, ← e16, er]

open Classical in
theorem step_inv {P : Par n} (hp : P.pn * P.pn = 1) (f0 : 0 < P.fac1) (f1 : P.fac1 ≤ 1) (s0 : 0 < P.safe) (s1 : P.safe ≤ 1)
    (hbeta : P.beta ≤ 5 / 8) {x0 : V n} {t0 hb : ℝ} (hm : |P.hmax| ≤ hb) (hb0 : hmin ≤ hb) {ts : List ℝ} {S : St n}
    {L : List (Piece n)} (I : Inv P x0 t0 hb ts S L) : ∃ L', Inv P x0 t0 hb ts (step P S) L' := by
  have ap : |P.pn| = 1 := abs_sig hp
  have m0 : 0 < max |S.h| hmin := lt_max_of_lt_right hmin_pos
  have eh : |P.pn * max |S.h| hmin| = max |S.h| hmin := by rw [abs_mul, ap, one_mul, abs_of_pos m0]
  have ph : P.pn * (P.pn * max |S.h| hmin) = max |S.h| hmin := by rw [← mul_assoc, hp, one_mul]
  have lh : max |S.h| hmin ≤ hb := max_le I.hb hb0
  unfold step
  simp only []
  set m := max |S.h| hmin
  set h := P.pn * m
  have h0 : h ≠ 0 := fun e => by rw [e, abs_zero] at eh; exact m0.ne eh
  set K := stages P S.x S.tc h S.k1 with hK
  by_cases he : errOf P S.x h K ≤ 1
  · rw [if_pos he]
    have K1 : K.k1 = P.f S.x S.tc := I.k1
    obtain ⟨c1, c2, c3, c4⟩ := curve (P := P) S.x S.tc h0 K (P.f K.k5 (S.tc + h))
    set p : Piece n := ⟨S.tc, h, S.x, K.k5, fun u => dense u S.tc h (rcont P S.x S.tc h K (P.f K.k5 (S.tc + h)))⟩ with hpp
    have pok : p.OK P.tab P.f P.rtol P.atol hb :=
      ⟨h0, eh.le.trans lh, err_ok P S.x S.tc h0 S.k1 I.k1 he, c1, c2, K1 ▸ c3, c4⟩
    refine ⟨L ++ [p], rfl, chained_snoc I.chain p rfl rfl, ?_, ?_, ?_, ?_, ?_⟩
    · intro q hq
      rcases List.mem_append.1 hq with hq | hq
      · exact I.ok q hq
      · rw [List.mem_singleton] at hq
        subst hq
        exact ⟨pok, by change 0 < P.pn * h; rw [ph]; exact m0⟩
    · simp only
      have b0 : 0 ≤ hb := hmin_pos.le.trans hb0
      have bb : ∀ u : ℝ, |if |u| > |P.hmax| then P.pn * |P.hmax| else u| ≤ hb := by
        intro u
        split_ifs with hu
        · rw [abs_mul, ap, one_mul, abs_abs]; exact hm
        · exact (not_lt.1 hu).trans hm
      by_cases hr : S.reject = true
      · rw [if_pos hr, abs_mul, ap, one_mul, abs_of_nonneg (le_min (abs_nonneg _) (abs_nonneg _))]
        exact (min_le_right _ _).trans (eh.le.trans lh)
      · rw [if_neg hr]
        exact bb _
    · exact drop_ge I.sorted
    · exact I.sorted.sublist (List.dropWhile_sublist _)
    · obtain ⟨done, rs, e1, e2, e3⟩ := I.rows
      refine ⟨done ++ S.rest.takeWhile (fun t => decide (P.pn * t < P.pn * (S.tc + h))),
        rs ++ (S.rest.takeWhile (fun t => decide (P.pn * t < P.pn * (S.tc + h)))).map p.γ, ?_, ?_, ?_⟩
      · rw [List.append_assoc, List.takeWhile_append_dropWhile, e1]
      · simp only
        rw [e2]
        rfl
      · refine List.rel_append (e3.imp fun t r ⟨q, hq, a⟩ => ⟨q, List.mem_append_left _ hq, a⟩) ?_
        rw [List.forall₂_map_right_iff, List.forall₂_same]
        intro t ht
        refine ⟨p, List.mem_append_right _ (List.mem_singleton_self _), ?_, rfl⟩
        have l1 : P.pn * S.tc ≤ P.pn * t := I.later t ((List.takeWhile_sublist _).subset ht)
        have l2 : P.pn * t < P.pn * (S.tc + h) := by
          simpa using List.mem_takeWhile_imp ht
        have e : (t - S.tc) / h = (P.pn * t - P.pn * S.tc) / m := by
          rw [div_eq_div_iff h0 m0.ne']
          linear_combination (-(t - S.tc) * m) * hp
        rw [mul_add, ph] at l2
        refine ⟨?_, ?_⟩
        · change 0 ≤ (t - S.tc) / h
          rw [e]
          exact div_nonneg (by linarith) m0.le
        · change (t - S.tc) / h < 1
          rw [e, div_lt_one m0]
          linarith
  · rw [if_neg he]
    refine ⟨L, I.k1, I.chain, I.ok, ?_, I.later, I.sorted, I.rows⟩
    simp only
    rw [not_le] at he
    have a1 : 1 ≤ 1 / P.fac1 := by rw [le_div_iff₀ f0]; linarith
    have a2 : 1 ≤ errOf P S.x h K ^ (1 / 8 - P.beta * 0.2 : ℝ) := Real.one_le_rpow he.le (by norm_num; linarith)
    have a3 : 1 ≤ errOf P S.x h K ^ (1 / 8 - P.beta * 0.2 : ℝ) / P.safe := by
      rw [le_div_iff₀ s0]; linarith
    have a4 := le_min a1 a3
    rw [abs_div, eh, abs_of_pos (by linarith)]
    exact (div_le_self m0.le a4).trans lh

theorem loop_inv {P : Par n} (hp : P.pn * P.pn = 1) (f0 : 0 < P.fac1) (f1 : P.fac1 ≤ 1) (s0 : 0 < P.safe) (s1 : P.safe ≤ 1)
    (hbeta : P.beta ≤ 5 / 8) {x0 : V n} {t0 hb : ℝ} (hm : |P.hmax| ≤ hb) (hb0 : hmin ≤ hb) {ts : List ℝ} (k : ℕ) {S : St n}
    {L : List (Piece n)} (I : Inv P x0 t0 hb ts S L) {out : List (V n)} (he : loop P k S = some out) :
    ∃ S' L', Inv P x0 t0 hb ts S' L' ∧ S'.rest = [] ∧ S'.out = out := by
  induction k generalizing S L with
  | zero =>
    unfold loop at he
    split_ifs at he with h
    exact ⟨S, L, I, h, Option.some.inj he⟩
  | succ k ih =>
    unfold loop at he
    split_ifs at he with h
    · exact ⟨S, L, I, h, Option.some.inj he⟩
    · obtain ⟨L', I'⟩ := step_inv hp f0 f1 s0 s1 hbeta hm hb0 I
      exact ih I' he

theorem abs_sign (a b : ℝ) : |customSign a b| = |a| := by
  unfold customSign
  split_ifs <;> simp

theorem hinit_le (P : Par n) (x : V n) (t0 : ℝ) (k : V n) : |hinit P x t0 k| ≤ |P.hmax| := by
  unfold hinit
  simp only [abs_sign]
  rw [abs_of_nonneg (le_min (by positivity) (le_min (abs_nonneg _) (abs_nonneg _)))]
  exact (min_le_right _ _).trans (min_le_right _ _)

/-- Rows are only added. -/
theorem out_prefix (P : Par n) (S : St n) : S.out <+: (step P S).out := by
  unfold step
  simp only []
  split_ifs
  · exact List.prefix_append _ _
  all_goals first | exact List.prefix_append _ _ | exact List.prefix_rfl

theorem loop_prefix (P : Par n) (k : ℕ) {S : St n} {o : List (V n)} (h : loop P k S = some o) : S.out <+: o := by
  induction k generalizing S with
  | zero =>
    unfold loop at h
    split_ifs at h
    exact Option.some.inj h ▸ List.prefix_rfl
  | succ k ih =>
    unfold loop at h
    split_ifs at h
    · exact Option.some.inj h ▸ List.prefix_rfl
    · exact (out_prefix P S).trans (ih h)

theorem while_app {α : Type} (p : α → Bool) (l us : List α) (h : ¬∀ a ∈ l, p a = true) :
    (l ++ us).takeWhile p = l.takeWhile p ∧ (l ++ us).dropWhile p = l.dropWhile p ++ us := by
  induction l with
  | nil => simp at h
  | cons a l ih =>
    rw [List.cons_append, List.takeWhile_cons, List.dropWhile_cons, List.takeWhile_cons, List.dropWhile_cons]
    by_cases ha : p a = true
    · have : ¬∀ a ∈ l, p a = true := fun h' => h fun b hb => by
        rcases List.mem_cons.1 hb with rfl | hb
        · exact ha
        · exact h' b hb
      obtain ⟨e1, e2⟩ := ih this
      simp only [ha, if_true, e1, e2, and_self]
    · simp [ha]

open Classical in
/-- A pass with more times to come. -/
theorem step_more (P : Par n) (S : St n) (us : List ℝ) :
    step P { S with rest := S.rest ++ us } = { step P S with rest := (step P S).rest ++ us }
    ∨ ((step P S).rest = [] ∧ (step P S).out <+: (step P { S with rest := S.rest ++ us }).out) := by
  unfold step
  simp only []
  set h := P.pn * max |S.h| hmin
  set K := stages P S.x S.tc h S.k1 with hK
  by_cases he : errOf P S.x h K ≤ 1
  · simp only [if_pos he]
    by_cases hl : ∀ a ∈ S.rest, (decide (P.pn * a < P.pn * (S.tc + h))) = true
    · refine Or.inr ⟨List.dropWhile_eq_nil_iff.2 hl, ?_⟩
      rw [List.takeWhile_eq_self_iff.2 hl, List.takeWhile_append_of_pos hl, List.map_append, ← List.append_assoc]
      exact List.prefix_append _ _
    · obtain ⟨e1, e2⟩ := while_app _ S.rest us hl
      refine Or.inl ?_
      rw [e1, e2]
  · simp only [if_neg he]
    exact Or.inl trivial

theorem loop_more (P : Par n) (us : List ℝ) (k k' : ℕ) {S : St n} {o o' : List (V n)} (h : loop P k S = some o)
    (h' : loop P k' { S with rest := S.rest ++ us } = some o') : o <+: o' := by
  induction k generalizing S k' with
  | zero =>
    unfold loop at h
    split_ifs at h
    have := loop_prefix P k' h'
    exact Option.some.inj h ▸ this
  | succ k ih =>
    unfold loop at h
    split_ifs at h with hr
    · have := loop_prefix P k' h'
      exact Option.some.inj h ▸ this
    · have hr' : S.rest ++ us ≠ [] := fun e => hr (List.append_eq_nil_iff.1 e).1
      cases k' with
      | zero => simp only [loop, if_neg hr'] at h'; exact absurd h' (by simp)
      | succ k' =>
        simp only [loop, if_neg hr'] at h'
        rcases step_more P S us with e | ⟨e1, e2⟩
        · rw [e] at h'
          exact ih k' h h'
        · have : loop P k (step P S) = some (step P S).out := by
            cases k <;> simp only [loop, if_pos e1]
          rw [this] at h
          exact Option.some.inj h ▸ e2.trans (loop_prefix P k' h')

end C100aux
open C100aux

/-- When the integrator ends, the first row is the initial state and every other row is a point of a curve made of accepted
steps, at its time: each step is an explicit Runge-Kutta step with twelve stages of the user's equation, passes the error
test, starts where the previous one ends, goes towards the last time and is no longer than the bound, and the curve joins
the states with the slopes of the equation. For forward and backward times, also repeated ones. -/
theorem C100_output {n : ℕ} (T : Tab) (f : V n → ℝ → V n) (x0 : V n) (t0 : ℝ) (ts : List ℝ)
    {hmax h rtol atol safe beta fac1 fac2 : ℝ} (f0 : 0 < fac1) (f1 : fac1 ≤ 1) (s0 : 0 < safe) (s1 : safe ≤ 1)
    (hbeta : beta ≤ 5 / 8) (fuel : ℕ) {tl : ℝ} (htl : (t0 :: ts).getLast? = some tl)
    (dir : ((t0 :: ts).Pairwise (· ≤ ·) ∧ t0 < tl) ∨ (t0 :: ts).Pairwise (· ≥ ·)) {rows : List (V n)}
    (he : dop853 T f x0 t0 ts hmax h rtol atol safe beta fac1 fac2 fuel = some rows) :
    ∃ L t' x' rs, Chained t0 x0 L t' x' ∧ rows = x0 :: rs
      ∧ (∀ p ∈ L, p.OK T f rtol atol (max (max |h| (if hmax = 0 then |tl - t0| else |hmax|)) (1000 * 2 ^ (-52 : ℤ)))
        ∧ (0 < p.h ↔ t0 < tl))
      ∧ List.Forall₂ (fun t r => ∃ p ∈ L, p.has t ∧ r = p.γ t) ts rs := by
  classical
  have el : (t0 :: ts).getLast (List.cons_ne_nil _ _) = tl := by
    rw [List.getLast?_eq_getLast_of_ne_nil (List.cons_ne_nil _ _)] at htl
    exact Option.some.inj htl
  unfold dop853 at he
  simp only [el] at he
  set P : Par n := ⟨T, f, if hmax = 0 then tl - t0 else hmax, rtol, atol, safe, beta, fac1, fac2, customSign 1 (tl - t0)⟩
    with hP
  have eb : |P.hmax| = if hmax = 0 then |tl - t0| else |hmax| := by
    simp only [hP]; split_ifs <;> rfl
  have em : (1000 * 2 ^ (-52 : ℤ) : ℝ) = hmin := by unfold hmin; norm_num
  set hb := max (max |h| (if hmax = 0 then |tl - t0| else |hmax|)) (1000 * 2 ^ (-52 : ℤ)) with hhb
  have b1 : |P.hmax| ≤ hb := eb ▸ (le_max_right _ _).trans (le_max_left _ _)
  have b2 : hmin ≤ hb := em ▸ le_max_right _ _
  have hp : P.pn * P.pn = 1 := by
    simp only [hP, customSign]; split_ifs <;> simp
  have es : (t0 :: ts).Pairwise fun a b => P.pn * a ≤ P.pn * b := by
    rcases dir with ⟨d, d'⟩ | d
    · have : P.pn = 1 := by simp only [hP, customSign]; rw [if_pos (by linarith)]; simp
      simpa only [this, one_mul] using d
    · have l : tl ≤ t0 := by
        have := List.getLast_mem (List.cons_ne_nil t0 ts)
        rw [el] at this
        rcases List.mem_cons.1 this with e | e
        · exact e.le
        · exact (List.pairwise_cons.1 d).1 tl e
      have : P.pn = -1 := by simp only [hP, customSign]; rw [if_neg (by linarith)]; simp
      rw [this]
      exact d.imp fun {a b} hab => by linarith
  have I0 : Inv P x0 t0 hb ts (init P x0 h t0 ts) [] := by
    refine ⟨rfl, ⟨rfl, rfl⟩, by simp, ?_, (List.pairwise_cons.1 es).1, (List.pairwise_cons.1 es).2,
      [], [], rfl, rfl, List.Forall₂.nil⟩
    unfold init
    simp only
    split_ifs
    · exact (hinit_le _ _ _ _).trans b1
    · exact (le_max_left _ _).trans (le_max_left _ _)
  obtain ⟨S, L, I, r1, r2⟩ := loop_inv hp f0 f1 s0 s1 hbeta b1 b2 fuel I0 he
  obtain ⟨done, rs, q1, q2, q3⟩ := I.rows
  rw [r1, List.append_nil] at q1
  subst q1
  refine ⟨L, S.tc, S.x, rs, I.chain, r2 ▸ q2, fun p hp' => ⟨(I.ok p hp').1, ?_⟩, q3⟩
  have pp := (I.ok p hp').2
  by_cases hd : t0 < tl
  · have : P.pn = 1 := by simp only [hP, customSign]; rw [if_pos (by linarith)]; simp
    rw [this, one_mul] at pp
    exact iff_of_true pp hd
  · have : P.pn = -1 := by simp only [hP, customSign]; rw [if_neg (by linarith)]; simp
    rw [this] at pp
    exact iff_of_false (by linarith) hd

/-- The rows depend on time only through the equation: in the time `σ t + s`, with `σ = 1` (shift) or `σ = -1` (reversal), the
integrator gives the same rows, with the same number of passes, also for a first step and a largest step of the other
sign. -/
theorem C100_time {n : ℕ} (T : Tab) (f : V n → ℝ → V n) (x0 : V n) (t0 : ℝ) (ts : List ℝ)
    {hmax hmax' h h' : ℝ} (rtol atol safe beta fac1 fac2 : ℝ) (fuel : ℕ) (e1 : |hmax'| = |hmax|) (e2 : |h'| = |h|)
    {tl : ℝ} (htl : (t0 :: ts).getLast? = some tl) (hne : tl ≠ t0) {σ : ℝ} (hσ : σ = 1 ∨ σ = -1) (s : ℝ) :
    dop853 T (fun x t => σ • f x (σ * (t - s))) x0 (σ * t0 + s) (ts.map fun t => σ * t + s) hmax' h' rtol atol safe beta
      fac1 fac2 fuel = dop853 T f x0 t0 ts hmax h rtol atol safe beta fac1 fac2 fuel := by
  classical
  have hs : σ * σ = 1 := by rcases hσ with rfl | rfl <;> norm_num
  have el : (t0 :: ts).getLast (List.cons_ne_nil _ _) = tl := by
    rw [List.getLast?_eq_getLast_of_ne_nil (List.cons_ne_nil _ _)] at htl
    exact Option.some.inj htl
  have el' : ((σ * t0 + s) :: ts.map fun t => σ * t + s).getLast (List.cons_ne_nil _ _) = σ * tl + s := by
    have := List.getLast_map (f := fun t => σ * t + s) (l := t0 :: ts) (by simp)
    rw [el] at this
    exact this
  have ed : σ * tl + s - (σ * t0 + s) = σ * (tl - t0) := by ring
  have hz : hmax' = 0 ↔ hmax = 0 := by rw [← abs_eq_zero, e1, abs_eq_zero]
  unfold dop853
  simp only [el, el', ed, hz, sign_map hs (sub_ne_zero.2 hne)]
  set P : Par n := ⟨T, f, if hmax = 0 then tl - t0 else hmax, rtol, atol, safe, beta, fac1, fac2, customSign 1 (tl - t0)⟩
    with hP
  have hp : P.pn ≠ 0 := by
    intro e
    have := abs_sign 1 (tl - t0)
    rw [show customSign 1 (tl - t0) = 0 from e] at this
    norm_num at this
  have hh : |if hmax = 0 then σ * (tl - t0) else hmax'| = |P.hmax| := by
    simp only [hP]
    split_ifs
    · rw [abs_mul, abs_sig hs, one_mul]
    · exact e1
  exact loop_rel hs s _ hh fuel (init_rel hs s _ hp hh x0 e2 t0 ts)

/-- With a largest step given, the rows at the first times do not depend on the times that follow. -/
theorem C100_prefix {n : ℕ} (T : Tab) (f : V n → ℝ → V n) (x0 : V n) (t0 : ℝ) (ts us : List ℝ) {hmax : ℝ} (hm : hmax ≠ 0)
    (h rtol atol safe beta fac1 fac2 : ℝ) (k k' : ℕ) {tl tl' : ℝ} (htl : (t0 :: ts).getLast? = some tl)
    (htl' : (t0 :: (ts ++ us)).getLast? = some tl') (dir : t0 < tl ↔ t0 < tl') {rows rows' : List (V n)}
    (he : dop853 T f x0 t0 ts hmax h rtol atol safe beta fac1 fac2 k = some rows)
    (he' : dop853 T f x0 t0 (ts ++ us) hmax h rtol atol safe beta fac1 fac2 k' = some rows') : rows <+: rows' := by
  classical
  have el : (t0 :: ts).getLast (List.cons_ne_nil _ _) = tl := by
    rw [List.getLast?_eq_getLast_of_ne_nil (List.cons_ne_nil _ _)] at htl
    exact Option.some.inj htl
  have el' : (t0 :: (ts ++ us)).getLast (List.cons_ne_nil _ _) = tl' := by
    rw [List.getLast?_eq_getLast_of_ne_nil (List.cons_ne_nil _ _)] at htl'
    exact Option.some.inj htl'
  have es : customSign 1 (tl' - t0) = customSign 1 (tl - t0) := by
    unfold customSign
    by_cases hd : t0 < tl
    · rw [if_pos (by linarith [dir.1 hd]), if_pos (by linarith)]
    · have : ¬t0 < tl' := fun e => hd (dir.2 e)
      rw [if_neg (by linarith), if_neg (by linarith)]
  unfold dop853 at he he'
  simp only [el, if_neg hm] at he
  simp only [el', if_neg hm, es] at he'
  exact loop_more _ us k k' he he'

/-- The limit on the number of steps (`nmax`, 1e8 by default, "Maximum number of steps") is never looked at: there is a bounded
right-hand side for which no step is ever accepted, so the call does not end, whatever the limit. -/
theorem C100_nmax_fails (T : Tab) (hc : ∀ i, 6 ≤ i → i ≤ 11 → T.c i ≠ 0)
    (he : T.er 6 + T.er 7 + T.er 8 + T.er 9 + T.er 10 + T.er 11 + T.er 12 ≠ 0) (safe beta fac1 fac2 : ℝ) :
    ∃ f : V 1 → ℝ → V 1, (∃ M, ∀ x t i, |f x t i| ≤ M)
      ∧ ∀ fuel, dop853 T f 0 0 [1] 1 1 0 1 safe beta fac1 fac2 fuel = none := by
  classical
  set e := T.er 6 + T.er 7 + T.er 8 + T.er 9 + T.er 10 + T.er 11 + T.er 12 with hee
  set g := T.b 6 + T.b 7 + T.b 8 + T.b 9 + T.b 10 + T.b 11 + T.b 12 - T.bhh 2 - T.bhh 3 with hg
  have q0 : 0 < e ^ 2 + 0.01 * g ^ 2 := by positivity
  set q := √(e ^ 2 + 0.01 * g ^ 2) with hq
  have qp : 0 < q := Real.sqrt_pos.2 q0
  have e2 : 0 < e ^ 2 := by positivity
  set M := q / e ^ 2 * (2 / hmin) with hM
  have M0 : 0 < M := mul_pos (div_pos qp e2) (div_pos two_pos hmin_pos)
  set f : V 1 → ℝ → V 1 := fun _ t _ => if t = 0 then 0 else M with hf
  refine ⟨f, ⟨M, fun x t i => ?_⟩, fun fuel => ?_⟩
  · simp only [hf]
    split_ifs
    · simpa using M0.le
    · rw [abs_of_pos M0]
  unfold dop853
  simp only [List.getLast_cons_cons, List.getLast_singleton, one_ne_zero, if_false]
  set P : Par 1 := ⟨T, f, 1, 0, 1, safe, beta, fac1, fac2, customSign 1 (1 - 0)⟩ with hP
  have pn1 : P.pn = 1 := by simp [hP, customSign]
  have fM : ∀ {v x : V 1} {t : ℝ}, v = P.f x t → t ≠ 0 → v = fun _ => M := fun {v x t} hv ht => by
    rw [hv]; funext i; simp only [hP, hf, if_neg ht]
  have rej : ∀ S : St 1, S.k1 = 0 → S.tc = 0 → 1 < errOf P S.x (P.pn * max |S.h| hmin)
      (stages P S.x S.tc (P.pn * max |S.h| hmin) S.k1) := by
    intro S h1 h2
    rw [h1, h2, pn1, one_mul]
    have m0 : 0 < max |S.h| hmin := lt_max_of_lt_right hmin_pos
    have ml : hmin ≤ max |S.h| hmin := le_max_right _ _
    set m := max |S.h| hmin
    obtain ⟨k2, k3, k4, k5, k6, k7, k8, k9, k10, k11, k12, kb, s, ek⟩ := stages_seq P S.x 0 m 0
    have cm : ∀ i, 6 ≤ i → i ≤ 11 → 0 + T.c i * m ≠ 0 := fun i a b => by
      rw [zero_add]; exact mul_ne_zero (hc i a b) m0.ne'
    have u6 : k6 = fun _ => M := fM s.e6 (cm 6 (by norm_num) (by norm_num))
    have u7 : k7 = fun _ => M := fM s.e7 (cm 7 (by norm_num) (by norm_num))
    have u8 : k8 = fun _ => M := fM s.e8 (cm 8 (by norm_num) (by norm_num))
    have u9 : k9 = fun _ => M := fM s.e9 (cm 9 (by norm_num) (by norm_num))
    have u10 : k10 = fun _ => M := fM s.e10 (cm 10 (by norm_num) (by norm_num))
    have u11 : k11 = fun _ => M := fM s.e11 (cm 11 (by norm_num) (by norm_num))
    have u12 : k12 = fun _ => M := fM s.e12 (by rw [zero_add]; exact m0.ne')
    have ub := s.eb
    rw [ek]
    unfold errOf
    simp only [Finset.univ_unique, Finset.sum_singleton, ub, u6, u7, u8, u9, u10, u11, u12, Pi.add_apply, Pi.sub_apply,
      Pi.smul_apply, Pi.zero_apply, smul_eq_mul, smul_zero, zero_add, sub_zero]
    simp only [hP, zero_mul, add_zero, div_one, Nat.cast_one, mul_one]
    have x5 : T.er 6 * M + T.er 7 * M + T.er 8 * M + T.er 9 * M + T.er 10 * M + T.er 11 * M + T.er 12 * M = e * M := by
      rw [hee]; ring
    have x3 : T.b 6 * M + T.b 7 * M + T.b 8 * M + T.b 9 * M + T.b 10 * M + T.b 11 * M + T.b 12 * M - T.bhh 2 * M
        - T.bhh 3 * M = g * M := by
      rw [hg]; ring
    rw [x5, x3]
    have d0 : (e * M) ^ 2 + 0.01 * (g * M) ^ 2 = M ^ 2 * (e ^ 2 + 0.01 * g ^ 2) := by ring
    have dp : 0 < M ^ 2 * (e ^ 2 + 0.01 * g ^ 2) := mul_pos (pow_pos M0 2) q0
    rw [d0, if_neg (not_le.2 dp), one_div, Real.sqrt_inv, Real.sqrt_mul (sq_nonneg M), Real.sqrt_sq M0.le, ← hq,
      abs_of_pos m0]
    have : m * (e * M) ^ 2 * (M * q)⁻¹ = 2 * (m / hmin) := by
      rw [hM]
      have := hmin_pos.ne'
      field_simp
    rw [this]
    have : 1 ≤ m / hmin := by rw [le_div_iff₀ hmin_pos]; linarith
    linarith
  have key : ∀ (k : ℕ) (S : St 1), S.k1 = 0 → S.tc = 0 → S.rest = [1] → loop P k S = none := by
    intro k
    induction k with
    | zero => intro S _ _ h3; simp [loop, h3]
    | succ k ih =>
      intro S h1 h2 h3
      have : loop P (k + 1) S = loop P k (step P S) := by simp [loop, h3]
      rw [this]
      have r := rej S h1 h2
      have es : step P S = { S with h := (step P S).h, reject := true } := by
        unfold step
        simp only [if_neg (not_le.2 r)]
      rw [es]
      exact ih _ h1 h2 h3
  refine key fuel _ ?_ rfl rfl
  change f 0 0 = 0
  funext i
  simp [hf]

/-- A run of the integrator that ends: from 0 to 1 and back-to-back times, in one step. -/
theorem C100aux.run (T : Tab) (x : V 2) : ∃ rows, dop853 T (fun _ _ => 0) x 0 [0.5, 1] 2 2 0 1 0.9 0 0.333 6 1 = some rows := by
  classical
  unfold dop853
  simp only [List.getLast_cons_cons, List.getLast_singleton, OfNat.ofNat_ne_zero, if_false]
  set P : Par 2 := ⟨T, fun _ _ => 0, 2, 0, 1, 0.9, 0, 0.333, 6, customSign 1 (1 - 0)⟩ with hP
  have pn1 : P.pn = 1 := by simp [hP, customSign]
  have hm2 : hmin ≤ 2 := by unfold hmin; norm_num
  set S := init P x 2 0 [0.5, 1] with hS
  have eS : S.h = 2 := by simp [hS, init]
  have e0 : errOf P S.x (P.pn * max |S.h| hmin) (stages P S.x S.tc (P.pn * max |S.h| hmin) S.k1) ≤ 1 := by
    simp [errOf, stages, hP, hS, init]
  have er : (step P S).rest = [] := by
    unfold step
    simp only [if_pos e0]
    rw [pn1, eS, abs_of_pos (by norm_num : (0:ℝ) < 2), max_eq_left hm2]
    refine List.dropWhile_eq_nil_iff.2 fun t ht => ?_
    have ht' : t = 0.5 ∨ t = 1 := by simpa [hS, init] using ht
    have : S.tc = 0 := rfl
    rw [this]
    rcases ht' with rfl | rfl <;> norm_num
  refine ⟨(step P S).out, ?_⟩
  have hr : S.rest ≠ [] := by simp [hS, init]
  simp only [loop, if_neg hr, if_pos er]

example (T : Tab) (x : V 2) : ∃ rows L t' x' rs, dop853 T (fun _ _ => 0) x 0 [0.5, 1] 2 2 0 1 0.9 0 0.333 6 1 = some rows
    ∧ Chained 0 x L t' x' ∧ rows = x :: rs
    ∧ List.Forall₂ (fun t r => ∃ p ∈ L, p.has t ∧ r = p.γ t) [0.5, 1] rs := by
  obtain ⟨rows, hr⟩ := C100aux.run T x
  obtain ⟨L, t', x', rs, a, b, _, d⟩ := C100_output T _ x 0 [0.5, 1] (by norm_num) (by norm_num) (by norm_num) (by norm_num)
    (by norm_num) 1 (tl := 1) rfl (Or.inl ⟨by norm_num, by norm_num⟩) hr
  exact ⟨rows, L, t', x', rs, hr, a, b, d⟩

example (T : Tab) (f : V 2 → ℝ → V 2) (x : V 2) (fuel : ℕ) :
    dop853 T (fun x t => (-1 : ℝ) • f x (-1 * (t - 0))) x (-1 * 0 + 0) ([1, 2].map fun t => -1 * t + 0) 0 0 0 1 0.9 0 0.333 6 fuel
      = dop853 T f x 0 [1, 2] 0 0 0 1 0.9 0 0.333 6 fuel :=
  C100_time T f x 0 [1, 2] 0 1 0.9 0 0.333 6 fuel rfl rfl (tl := 2) rfl (by norm_num) (Or.inr rfl) 0

example (T : Tab) (x : V 2) (us : List ℝ) (hu : ∃ t, us.getLast? = some t ∧ 0 < t) {k : ℕ} {rows : List (V 2)}
    (h : dop853 T (fun _ _ => 0) x 0 ([0.5, 1] ++ us) 2 2 0 1 0.9 0 0.333 6 k = some rows) : ∃ r, r <+: rows ∧ r ≠ [] := by
  obtain ⟨r, hr⟩ := C100aux.run T x
  obtain ⟨t, e, t0⟩ := hu
  refine ⟨r, C100_prefix T _ x 0 [0.5, 1] us (by norm_num) 2 0 1 0.9 0 0.333 6 1 k (tl := 1) (tl' := t) rfl ?_ ?_ hr h, ?_⟩
  · rw [← List.cons_append, List.getLast?_append, e]; rfl
  · exact iff_of_true (by norm_num) t0
  · obtain ⟨_, _, _, rs, _, b, _, _⟩ := C100_output T _ x 0 [0.5, 1] (by norm_num) (by norm_num) (by norm_num)
      (by norm_num) (by norm_num) 1 (tl := 1) rfl (Or.inl ⟨by norm_num, by norm_num⟩) hr
    rw [b]
    exact List.cons_ne_nil _ _

/-- The coefficients of the file (leung_dop853.py:36-50 and 192-199) meet the hypotheses. -/
example (T : Tab) (c6 : T.c 6 = 0.333333333333333333333333333333) (c7 : T.c 7 = 0.25)
    (c8 : T.c 8 = 0.307692307692307692307692307692) (c9 : T.c 9 = 0.651282051282051282051282051282) (c10 : T.c 10 = 0.6)
    (c11 : T.c 11 = 0.857142857142857142857142857142) (e6 : T.er 6 = -0.1225156446376204440720569753e1)
    (e7 : T.er 7 = -0.4957589496572501915214079952) (e8 : T.er 8 = 0.1664377182454986536961530415e1)
    (e9 : T.er 9 = -0.3503288487499736816886487290) (e10 : T.er 10 = 0.3341791187130174790297318841)
    (e11 : T.er 11 = 0.8192320648511571246570742613e-1) (e12 : T.er 12 = -0.2235530786388629525884427845e-1) :
    ∃ f : V 1 → ℝ → V 1, (∃ M, ∀ x t i, |f x t i| ≤ M) ∧ ∀ fuel, dop853 T f 0 0 [1] 1 1 0 1 0.9 0 0.333 6 fuel = none := by
  refine C100_nmax_fails T (fun i a b => ?_) ?_ _ _ _ _
  · interval_cases i
    · rw [c6]; norm_num
    · rw [c7]; norm_num
    · rw [c8]; norm_num
    · rw [c9]; norm_num
    · rw [c10]; norm_num
    · rw [c11]; norm_num
  · rw [e6, e7, e8, e9, e10, e11, e12]; norm_num

end Verif
