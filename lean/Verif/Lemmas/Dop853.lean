import Verif.Model.Dop853
import Mathlib.Analysis.Calculus.Deriv.Mul
import Mathlib.Analysis.Calculus.Deriv.Add
import Mathlib.Analysis.Calculus.Deriv.Pi
import Mathlib.Analysis.Calculus.Deriv.Comp
import Mathlib.Analysis.Calculus.Deriv.Prod
import Mathlib.Tactic.IntervalCases

set_option autoImplicit false

/-! Stages, dense output and time maps of the DOP853 integrator. -/

noncomputable section
namespace Verif.Dop853
open Real

variable {n : ℕ}

/-- The stages as a sequence of equations. -/
structure Seq (P : Par n) (x : V n) (t h : ℝ) (k1 k2 k3 k4 k5 k6 k7 k8 k9 k10 k11 k12 kb : V n) : Prop where
  e2 : k2 = P.f (x + (h * P.tab.a 2 1) • k1) (t + P.tab.c 2 * h)
  e3 : k3 = P.f (x + h • (P.tab.a 3 1 • k1 + P.tab.a 3 2 • k2)) (t + P.tab.c 3 * h)
  e4 : k4 = P.f (x + h • (P.tab.a 4 1 • k1 + P.tab.a 4 3 • k3)) (t + P.tab.c 4 * h)
  e5 : k5 = P.f (x + h • (P.tab.a 5 1 • k1 + P.tab.a 5 3 • k3 + P.tab.a 5 4 • k4)) (t + P.tab.c 5 * h)
  e6 : k6 = P.f (x + h • (P.tab.a 6 1 • k1 + P.tab.a 6 4 • k4 + P.tab.a 6 5 • k5)) (t + P.tab.c 6 * h)
  e7 : k7 = P.f (x + h • (P.tab.a 7 1 • k1 + P.tab.a 7 4 • k4 + P.tab.a 7 5 • k5 + P.tab.a 7 6 • k6)) (t + P.tab.c 7 * h)
  e8 : k8 = P.f (x + h • (P.tab.a 8 1 • k1 + P.tab.a 8 4 • k4 + P.tab.a 8 5 • k5 + P.tab.a 8 6 • k6 + P.tab.a 8 7 • k7))
    (t + P.tab.c 8 * h)
  e9 : k9 = P.f (x + h • (P.tab.a 9 1 • k1 + P.tab.a 9 4 • k4 + P.tab.a 9 5 • k5 + P.tab.a 9 6 • k6 + P.tab.a 9 7 • k7
    + P.tab.a 9 8 • k8)) (t + P.tab.c 9 * h)
  e10 : k10 = P.f (x + h • (P.tab.a 10 1 • k1 + P.tab.a 10 4 • k4 + P.tab.a 10 5 • k5 + P.tab.a 10 6 • k6
    + P.tab.a 10 7 • k7 + P.tab.a 10 8 • k8 + P.tab.a 10 9 • k9)) (t + P.tab.c 10 * h)
  e11 : k11 = P.f (x + h • (P.tab.a 11 1 • k1 + P.tab.a 11 4 • k4 + P.tab.a 11 5 • k5 + P.tab.a 11 6 • k6
    + P.tab.a 11 7 • k7 + P.tab.a 11 8 • k8 + P.tab.a 11 9 • k9 + P.tab.a 11 10 • k10)) (t + P.tab.c 11 * h)
  e12 : k12 = P.f (x + h • (P.tab.a 12 1 • k1 + P.tab.a 12 4 • k4 + P.tab.a 12 5 • k5 + P.tab.a 12 6 • k6
    + P.tab.a 12 7 • k7 + P.tab.a 12 8 • k8 + P.tab.a 12 9 • k9 + P.tab.a 12 10 • k10 + P.tab.a 12 11 • k11)) (t + h)
  eb : kb = P.tab.b 1 • k1 + P.tab.b 6 • k6 + P.tab.b 7 • k7 + P.tab.b 8 • k8 + P.tab.b 9 • k9 + P.tab.b 10 • k10
    + P.tab.b 11 • k11 + P.tab.b 12 • k12

theorem stages_seq (P : Par n) (x : V n) (t h : ℝ) (k1 : V n) : ∃ k2 k3 k4 k5 k6 k7 k8 k9 k10 k11 k12 kb,
    Seq P x t h k1 k2 k3 k4 k5 k6 k7 k8 k9 k10 k11 k12 kb ∧
    stages P x t h k1 = ⟨k1, k6, k7, k8, k9, k10, k11, k12, kb, x + h • kb⟩ :=
  ⟨_, _, _, _, _, _, _, _, _, _, _, _, ⟨rfl, rfl, rfl, rfl, rfl, rfl, rfl, rfl, rfl, rfl, rfl, rfl⟩, rfl⟩

theorem Seq.stages {P : Par n} {x : V n} {t h : ℝ} {k1 k2 k3 k4 k5 k6 k7 k8 k9 k10 k11 k12 kb : V n}
    (s : Seq P x t h k1 k2 k3 k4 k5 k6 k7 k8 k9 k10 k11 k12 kb) :
    stages P x t h k1 = ⟨k1, k6, k7, k8, k9, k10, k11, k12, kb, x + h • kb⟩ := by
  obtain ⟨rfl, rfl, rfl, rfl, rfl, rfl, rfl, rfl, rfl, rfl, rfl, rfl⟩ := s
  rfl

/-- The parameters in the time `σ t + s`, `σ = ±1`. -/
def Par.map (P : Par n) (σ s hm : ℝ) : Par n :=
  { P with hmax := hm, f := fun x t => σ • P.f x (σ * (t - s)), pn := σ * P.pn }
def Ks.map (σ : ℝ) (K : Ks n) : Ks n :=
  ⟨σ • K.k1, σ • K.k6, σ • K.k7, σ • K.k8, σ • K.k9, σ • K.k10, σ • K.k2, σ • K.k3, σ • K.k4, K.k5⟩

section
variable {σ : ℝ} (hσ : σ * σ = 1) (s : ℝ) (hm : ℝ)
include hσ

theorem sm (h : ℝ) (u : V n) : (σ * h) • (σ • u) = h • u := by
  rw [smul_smul, mul_right_comm, hσ, one_mul]
theorem sm' (h : ℝ) (u : V n) : σ • (σ * h) • u = h • u := by
  rw [smul_smul, ← mul_assoc, hσ, one_mul]
theorem tm (t c h : ℝ) : σ * (σ * t + s + c * (σ * h) - s) = t + c * h := by
  linear_combination (t + c * h) * hσ
theorem tm1 (t h : ℝ) : σ * (σ * t + s + σ * h - s) = t + h := by
  linear_combination (t + h) * hσ
theorem tm0 (t : ℝ) : σ * (σ * t + s - s) = t := by linear_combination t * hσ

theorem stages_map (P : Par n) (x : V n) (t h : ℝ) (k1 : V n) :
    stages (P.map σ s hm) x (σ * t + s) (σ * h) (σ • k1) = (stages P x t h k1).map σ := by
  obtain ⟨k2, k3, k4, k5, k6, k7, k8, k9, k10, k11, k12, kb, q, e⟩ := stages_seq P x t h k1
  have q' : Seq (P.map σ s hm) x (σ * t + s) (σ * h) (σ • k1) (σ • k2) (σ • k3) (σ • k4) (σ • k5) (σ • k6) (σ • k7) (σ • k8)
      (σ • k9) (σ • k10) (σ • k11) (σ • k12) (σ • kb) := by
    constructor
    case e2 =>
      simp only [Par.map, tm hσ]
      rw [q.e2, mul_assoc, sm hσ]
    case e12 =>
      simp only [Par.map, tm1 hσ, smul_comm _ σ, ← smul_add, sm' hσ]
      rw [q.e12]
    case eb =>
      simp only [Par.map, smul_comm _ σ, ← smul_add]
      rw [q.eb]
    all_goals simp only [Par.map, tm hσ, smul_comm _ σ, ← smul_add, sm' hσ]
    · rw [q.e3]
    · rw [q.e4]
    · rw [q.e5]
    · rw [q.e6]
    · rw [q.e7]
    · rw [q.e8]
    · rw [q.e9]
    · rw [q.e10]
    · rw [q.e11]
  rw [q'.stages, e, Ks.map, sm hσ]

theorem abs_sig : |σ| = 1 := by
  have : |σ| * |σ| = 1 := by rw [← abs_mul, hσ, abs_one]
  nlinarith [abs_nonneg σ]
theorem sq_smul (v : V n) (sk : V n) : ∑ i, ((σ • v) i / sk i) ^ 2 = ∑ i, (v i / sk i) ^ 2 := by
  refine Finset.sum_congr rfl fun i _ => ?_
  simp only [Pi.smul_apply, smul_eq_mul]
  rw [mul_div_assoc, mul_pow, sq σ, hσ, one_mul]

theorem err_map (P : Par n) (x : V n) (h : ℝ) (K : Ks n) : errOf (P.map σ s hm) x (σ * h) (K.map σ) = errOf P x h K := by
  have e1 : σ • K.k4 - P.tab.bhh 1 • σ • K.k1 - P.tab.bhh 2 • σ • K.k9 - P.tab.bhh 3 • σ • K.k3
      = σ • (K.k4 - P.tab.bhh 1 • K.k1 - P.tab.bhh 2 • K.k9 - P.tab.bhh 3 • K.k3) := by
    simp only [smul_comm _ σ, ← smul_sub]
  have a1 : |σ * h| = |h| := by rw [abs_mul, abs_sig hσ, one_mul]
  simp only [errOf, Par.map, Ks.map, e1]
  simp only [smul_comm _ σ, ← smul_add, sq_smul hσ, a1]

theorem rcont_map (P : Par n) (x : V n) (t h : ℝ) (K : Ks n) (kn : V n) :
    rcont (P.map σ s hm) x (σ * t + s) (σ * h) (K.map σ) (σ • kn) = rcont P x t h K kn := by
  simp only [rcont, Par.map, Ks.map, tm hσ, smul_comm _ σ, ← smul_add, sm' hσ]

theorem dense_map (t told h : ℝ) (r : Rc n) : dense (σ * t + s) (σ * told + s) (σ * h) r = dense t told h r := by
  have h0 : σ ≠ 0 := fun e => by rw [e, zero_mul] at hσ; exact zero_ne_one hσ
  have : (σ * t + s - (σ * told + s)) / (σ * h) = (t - told) / h := by
    rw [show σ * t + s - (σ * told + s) = σ * (t - told) by ring, mul_div_mul_left _ _ h0]
  simp only [dense, this]

/-- Two states of the loop that differ by the change of time. -/
structure Rel (σ s : ℝ) (S S' : St n) : Prop where
  h : |S'.h| = |S.h|
  x : S'.x = S.x
  k1 : S'.k1 = σ • S.k1
  tc : S'.tc = σ * S.tc + s
  facold : S'.facold = S.facold
  reject : S'.reject = S.reject
  rest : S'.rest = S.rest.map fun t => σ * t + s
  out : S'.out = S.out

theorem step_rel {P : Par n} (hh : |hm| = |P.hmax|) {S S' : St n} (r : Rel σ s S S') :
    Rel σ s (step P S) (step (P.map σ s hm) S') := by
  have ab : ∀ u : ℝ, |σ * u| = |u| := fun u => by rw [abs_mul, abs_sig hσ, one_mul]
  have eh : (P.map σ s hm).pn * max |S'.h| hmin = σ * (P.pn * max |S.h| hmin) := by
    rw [r.h]; simp only [Par.map]; ring
  unfold step
  simp only []
  rw [eh, r.x, r.k1, r.tc, r.facold, r.reject, r.rest, r.out, stages_map hσ s hm, err_map hσ s hm]
  set h := P.pn * max |S.h| hmin
  set K := stages P S.x S.tc h S.k1
  set e := errOf P S.x h K
  have ef : (P.map σ s hm).f (K.map σ).k5 (σ * S.tc + s + σ * h) = σ • P.f K.k5 (S.tc + h) := by
    simp only [Par.map, Ks.map, tm1 hσ]
  have et : σ * S.tc + s + σ * h = σ * (S.tc + h) + s := by ring
  have ep : ∀ t, ((P.map σ s hm).pn * (σ * t + s) < (P.map σ s hm).pn * (σ * (S.tc + h) + s))
      ↔ (P.pn * t < P.pn * (S.tc + h)) := fun t => by
    have a1 : (P.map σ s hm).pn * (σ * t + s) = P.pn * t + σ * P.pn * s := by
      simp only [Par.map]; linear_combination P.pn * t * hσ
    have a2 : (P.map σ s hm).pn * (σ * (S.tc + h) + s) = P.pn * (S.tc + h) + σ * P.pn * s := by
      simp only [Par.map]; linear_combination P.pn * (S.tc + h) * hσ
    rw [a1, a2]
    exact add_lt_add_iff_right _
  by_cases he : e ≤ 1
  · rw [if_pos he, if_pos he]
    refine ⟨?_, rfl, ef, et, rfl, rfl, ?_, ?_⟩
    · simp only [Par.map, hh, mul_div_assoc σ h, ab, mul_assoc σ P.pn]
      have e2 : ∀ (c : Prop) [Decidable c] (u v : ℝ), (if c then σ * u else σ * v) = σ * (if c then u else v) := by
        intro c _ u v; split_ifs <;> rfl
      simp only [e2, ab]
    · simp only
      rw [List.dropWhile_map, et]
      congr 1
      congr 1
      funext t
      simp only [Function.comp_apply, ep]
    · simp only
      rw [List.takeWhile_map, ef, et, rcont_map hσ s hm, List.map_map]
      congr 1
      have : ((fun t => decide ((P.map σ s hm).pn * t < (P.map σ s hm).pn * (σ * (S.tc + h) + s))) ∘ fun t => σ * t + s)
          = fun t => decide (P.pn * t < P.pn * (S.tc + h)) := by
        funext t
        simp only [Function.comp_apply, ep]
      rw [this]
      refine List.map_congr_left fun t _ => ?_
      simp only [Function.comp_apply, dense_map hσ]
  · rw [if_neg he, if_neg he]
    refine ⟨?_, rfl, rfl, rfl, rfl, rfl, rfl, rfl⟩
    simp only [Par.map, mul_div_assoc σ h, ab]

theorem loop_rel {P : Par n} (hh : |hm| = |P.hmax|) (k : ℕ) {S S' : St n} (r : Rel σ s S S') :
    loop (P.map σ s hm) k S' = loop P k S := by
  induction k generalizing S S' with
  | zero => simp only [loop, r.rest, r.out, List.map_eq_nil_iff]
  | succ k ih =>
    simp only [loop, r.rest, r.out, List.map_eq_nil_iff]
    rw [ih (step_rel hσ s hm hh r)]

theorem sign_map {d : ℝ} (hd : d ≠ 0) (a : ℝ) : customSign a (σ * d) = σ * customSign a d := by
  have : σ = 1 ∨ σ = -1 := by
    have : (σ - 1) * (σ + 1) = 0 := by linear_combination hσ
    rcases mul_eq_zero.1 this with h | h
    · left; linarith
    · right; linarith
  unfold customSign
  rcases this with rfl | rfl
  · simp only [one_mul]
  · rcases lt_or_gt_of_ne hd with h | h
    · rw [if_pos (by linarith), if_neg (by linarith)]; ring
    · rw [if_neg (by linarith), if_pos h]; ring

theorem hinit_map {P : Par n} (hp : P.pn ≠ 0) (hh : |hm| = |P.hmax|) (x : V n) (t0 : ℝ) (f0 : V n) :
    hinit (P.map σ s hm) x (σ * t0 + s) (σ • f0) = σ * hinit P x t0 f0 := by
  have ab : ∀ u : ℝ, |σ * u| = |u| := fun u => by rw [abs_mul, abs_sig hσ, one_mul]
  have es : ∀ u, customSign u (P.map σ s hm).pn = σ * customSign u P.pn := fun u => sign_map hσ hp u
  have eab : ∀ u v : ℝ, |u / (σ * v)| = |u / v| := fun u v => by rw [abs_div, abs_div, ab]
  unfold hinit
  simp only [es, ab]
  simp only [Par.map, hh, sq_smul hσ, sm hσ, tm1 hσ, eab]
  have e2 : ∀ (v : V n) (i : Fin n), (σ • v) i - (σ • f0) i = (σ • (v - f0)) i := fun v i => by
    simp only [Pi.smul_apply, Pi.sub_apply, smul_eq_mul]; ring
  simp only [e2, sq_smul hσ, Pi.sub_apply]

theorem init_rel {P : Par n} (hp : P.pn ≠ 0) (hh : |hm| = |P.hmax|) (x : V n) {h h' : ℝ} (e : |h'| = |h|) (t0 : ℝ)
    (ts : List ℝ) : Rel σ s (init P x h t0 ts) (init (P.map σ s hm) x h' (σ * t0 + s) (ts.map fun t => σ * t + s)) := by
  have ef : (P.map σ s hm).f x (σ * t0 + s) = σ • P.f x t0 := by simp only [Par.map, tm0 hσ]
  have ez : h' = 0 ↔ h = 0 := by rw [← abs_eq_zero, e, abs_eq_zero]
  refine ⟨?_, rfl, ef, rfl, rfl, rfl, rfl, rfl⟩
  unfold init
  simp only [ef, hinit_map hσ s hm hp hh, ez]
  split_ifs
  · rw [abs_mul, abs_sig hσ, one_mul]
  · exact e
end

end Verif.Dop853
