import Verif.Model.Pot.NumDeriv
import Verif.Props.C01
import Mathlib.Analysis.Calculus.MeanValue
import Mathlib.Analysis.Calculus.Deriv.Pow
import Mathlib.Analysis.Calculus.Deriv.Slope
import Mathlib.Analysis.SpecialFunctions.Trigonometric.Deriv
import Mathlib.Analysis.SpecialFunctions.ExpDeriv

set_option autoImplicit false

/-!
# C93: potentials with numerical derivatives
-/

noncomputable section
namespace Verif
open Real Set Filter
open scoped Topology

namespace C93Spec

/-- The functions are the successive derivatives of the first one, up to order `N`, on a set. -/
def Derivs (N : ℕ) (f : ℕ → ℝ → ℝ) (s : Set ℝ) : Prop := ∀ n < N, ∀ x ∈ s, HasDerivAt (f n) (f (n + 1) x) x

end C93Spec
open C93Spec

namespace C93aux

theorem grow {g g' : ℝ → ℝ} {S c : ℝ} {n : ℕ} (hg : ∀ u ∈ Icc 0 S, HasDerivAt g (g' u) u) (h0 : g 0 = 0) (hb : ∀ u ∈ Icc 0 S, |g' u| ≤ c * u ^ n) :
    ∀ u ∈ Icc 0 S, |g u| ≤ c * u ^ (n + 1) / (n + 1) := by
  intro u hu
  have hB : ∀ x : ℝ, HasDerivAt (fun x : ℝ => c * x ^ (n + 1) / (n + 1)) (c * x ^ n) x := fun x => by
    refine (((hasDerivAt_pow (n + 1) x).const_mul c).div_const ((n : ℝ) + 1)).congr_deriv ?_
    have : (n : ℝ) + 1 ≠ 0 := by positivity
    push_cast
    field_simp
  have := image_norm_le_of_norm_deriv_right_le_deriv_boundary (f := g) (f' := g') (a := 0) (b := S) (B := fun x => c * x ^ (n + 1) / (n + 1)) (B' := fun x => c * x ^ n)
    (fun x hx => (hg x hx).continuousAt.continuousWithinAt) (fun x hx => (hg x (Ico_subset_Icc_self hx)).hasDerivWithinAt) (by simp [h0]) hB
    (fun x hx => by rw [norm_eq_abs]; exact hb x (Ico_subset_Icc_self hx)) hu
  simpa [norm_eq_abs] using this

/-- Taylor's theorem with a bound of the remainder. -/
theorem taylor (N : ℕ) : ∀ {f : ℕ → ℝ → ℝ} {x S M : ℝ}, Derivs N f (Icc x (x + S)) → (∀ y ∈ Icc x (x + S), |f N y| ≤ M) → ∀ u ∈ Icc 0 S,
    |f 0 (x + u) - ∑ i ∈ Finset.range N, u ^ i / (Nat.factorial i : ℝ) * f i x| ≤ M * u ^ N / (Nat.factorial N : ℝ) := by
  induction N with
  | zero =>
    intro f x S M _ hM u hu
    simpa using hM (x + u) ⟨by linarith [hu.1], by linarith [hu.2]⟩
  | succ N ih =>
    intro f x S M hf hM u hu
    have ih' := ih (f := fun n => f (n + 1)) (x := x) (S := S) (M := M) (fun n hn y hy => hf (n + 1) (by omega) y hy) hM
    have d : ∀ u ∈ Icc 0 S, HasDerivAt (fun u => f 0 (x + u) - ∑ i ∈ Finset.range (N + 1), u ^ i / (Nat.factorial i : ℝ) * f i x)
        (f 1 (x + u) - ∑ i ∈ Finset.range N, u ^ i / (Nat.factorial i : ℝ) * f (i + 1) x) u := fun u hu => by
      have h1 : HasDerivAt (fun u => f 0 (x + u)) (f 1 (x + u)) u := by
        have := HasDerivAt.comp (h₂ := f 0) (h := fun u => x + u) u (hf 0 (by omega) (x + u) ⟨by linarith [hu.1], by linarith [hu.2]⟩) ((hasDerivAt_id u).const_add x)
        rw [mul_one] at this
        exact this
      refine h1.sub ?_
      have e : (fun u : ℝ => ∑ i ∈ Finset.range (N + 1), u ^ i / (Nat.factorial i : ℝ) * f i x)
          = fun u => ∑ i ∈ Finset.range N, u ^ (i + 1) / (Nat.factorial (i + 1) : ℝ) * f (i + 1) x + f 0 x := by
        funext u; rw [Finset.sum_range_succ']; simp
      rw [e]
      refine HasDerivAt.add_const _ ?_
      refine HasDerivAt.fun_sum fun i _ => ?_
      refine (((hasDerivAt_pow (i + 1) u).div_const _).mul_const _).congr_deriv ?_
      have : (Nat.factorial (i + 1) : ℝ) = (i + 1) * Nat.factorial i := by rw [Nat.factorial_succ]; push_cast; ring
      have p : (Nat.factorial i : ℝ) ≠ 0 := by exact_mod_cast (Nat.factorial_pos i).ne'
      have q : (i : ℝ) + 1 ≠ 0 := by positivity
      rw [this, Nat.add_sub_cancel]
      push_cast
      field_simp
    have k := grow (c := M / (Nat.factorial N : ℝ)) (n := N) d (by
      rw [Finset.sum_range_succ']; simp) (fun u hu => (ih' u hu).trans_eq (by ring)) u hu
    refine k.trans_eq ?_
    have p : (Nat.factorial N : ℝ) ≠ 0 := by exact_mod_cast (Nat.factorial_pos N).ne'
    have q : (N : ℝ) + 1 ≠ 0 := by positivity
    rw [Nat.factorial_succ]; push_cast; field_simp

/-- The reflected functions. -/
theorem reflect {N : ℕ} {f : ℕ → ℝ → ℝ} {x S : ℝ} (h : Derivs N f (Icc (x - S) x)) : Derivs N (fun n y => (-1) ^ n * f n (2 * x - y)) (Icc x (x + S)) := by
  intro n hn y hy
  have g := HasDerivAt.comp (h₂ := f n) (h := fun y => 2 * x - y) y (h n hn (2 * x - y) ⟨by linarith [hy.2], by linarith [hy.1]⟩) ((hasDerivAt_id y).const_sub (2 * x))
  refine (g.const_mul ((-1 : ℝ) ^ n)).congr_deriv ?_
  show (-1 : ℝ) ^ n * (f (n + 1) (2 * x - y) * -1) = (-1) ^ (n + 1) * f (n + 1) (2 * x - y)
  rw [pow_succ]; ring

theorem taylor_back {N : ℕ} {f : ℕ → ℝ → ℝ} {x S M : ℝ} (h : Derivs N f (Icc (x - S) x)) (hM : ∀ y ∈ Icc (x - S) x, |f N y| ≤ M) {u : ℝ} (hu : u ∈ Icc 0 S) :
    |f 0 (x - u) - ∑ i ∈ Finset.range N, u ^ i / (Nat.factorial i : ℝ) * ((-1) ^ i * f i x)| ≤ M * u ^ N / (Nat.factorial N : ℝ) := by
  have := taylor N (reflect h) (M := M) (fun y hy => by
    rw [abs_mul, abs_pow, abs_neg, abs_one, one_pow, one_mul]
    exact hM _ ⟨by linarith [hy.2], by linarith [hy.1]⟩) u hu
  simpa only [pow_zero, one_mul, show 2 * x - x = x by ring, show 2 * x - (x + u) = x - u by ring] using this

theorem forward1 {f : ℕ → ℝ → ℝ} {x h M : ℝ} (hh : 0 < h) (hf : Derivs 3 f (Icc x (x + 2 * h))) (hM : ∀ y ∈ Icc x (x + 2 * h), |f 3 y| ≤ M) :
    |(-1.5 * f 0 x + 2 * f 0 (x + h) - 0.5 * f 0 (x + 2 * h)) / h - f 1 x| ≤ M * h ^ 2 := by
  have a1 := taylor 3 hf hM h ⟨hh.le, by linarith⟩
  have a2 := taylor 3 hf hM (2 * h) ⟨by linarith, le_rfl⟩
  simp only [Finset.sum_range_succ, Finset.sum_range_zero, Nat.factorial, pow_zero, pow_one] at a1 a2
  norm_num at a1 a2
  have e : (-1.5 * f 0 x + 2 * f 0 (x + h) - 0.5 * f 0 (x + 2 * h)) / h - f 1 x = (-1.5 * f 0 x + 2 * f 0 (x + h) - 0.5 * f 0 (x + 2 * h) - h * f 1 x) / h := by
    field_simp
  rw [e, abs_div, abs_of_pos hh, div_le_iff₀ hh]
  rw [abs_le] at a1 a2 ⊢
  constructor <;> nlinarith [a1.1, a1.2, a2.1, a2.2]

theorem forward2 {f : ℕ → ℝ → ℝ} {x h M : ℝ} (hh : 0 < h) (hf : Derivs 4 f (Icc x (x + 3 * h))) (hM : ∀ y ∈ Icc x (x + 3 * h), |f 4 y| ≤ M) :
    |(2 * f 0 x - 5 * f 0 (x + h) + 4 * f 0 (x + 2 * h) - f 0 (x + 3 * h)) / h ^ 2 - f 2 x| ≤ 6.25 * M * h ^ 2 := by
  have a1 := taylor 4 hf hM h ⟨hh.le, by linarith⟩
  have a2 := taylor 4 hf hM (2 * h) ⟨by linarith, by linarith⟩
  have a3 := taylor 4 hf hM (3 * h) ⟨by linarith, le_rfl⟩
  simp only [Finset.sum_range_succ, Finset.sum_range_zero, Nat.factorial, pow_zero, pow_one] at a1 a2 a3
  norm_num at a1 a2 a3
  have h2 : 0 < h ^ 2 := by positivity
  have e : (2 * f 0 x - 5 * f 0 (x + h) + 4 * f 0 (x + 2 * h) - f 0 (x + 3 * h)) / h ^ 2 - f 2 x
      = (2 * f 0 x - 5 * f 0 (x + h) + 4 * f 0 (x + 2 * h) - f 0 (x + 3 * h) - h ^ 2 * f 2 x) / h ^ 2 := by field_simp
  rw [e, abs_div, abs_of_pos h2, div_le_iff₀ h2]
  rw [abs_le] at a1 a2 a3 ⊢
  constructor <;> nlinarith [a1.1, a1.2, a2.1, a2.2, a3.1, a3.2]

theorem central1 {f : ℕ → ℝ → ℝ} {x h M : ℝ} (hh : 0 < h) (hf : Derivs 3 f (Icc (x - h) (x + h))) (hM : ∀ y ∈ Icc (x - h) (x + h), |f 3 y| ≤ M) :
    |(f 0 (x + h) - f 0 (x - h)) / (2 * h) - f 1 x| ≤ M * h ^ 2 / 6 := by
  have a1 := taylor 3 (fun n hn y hy => hf n hn y ⟨by linarith [hy.1], hy.2⟩) (fun y hy => hM y ⟨by linarith [hy.1], hy.2⟩) h ⟨hh.le, le_rfl⟩
  have a2 := taylor_back (N := 3) (fun n hn y hy => hf n hn y ⟨hy.1, by linarith [hy.2]⟩) (fun y hy => hM y ⟨hy.1, by linarith [hy.2]⟩) (u := h) ⟨hh.le, le_rfl⟩
  simp only [Finset.sum_range_succ, Finset.sum_range_zero, Nat.factorial, pow_zero, pow_one] at a1 a2
  norm_num at a1 a2
  have e : (f 0 (x + h) - f 0 (x - h)) / (2 * h) - f 1 x = (f 0 (x + h) - f 0 (x - h) - 2 * h * f 1 x) / (2 * h) := by field_simp
  rw [e, abs_div, abs_of_pos (show 0 < 2 * h by positivity), div_le_iff₀ (by positivity)]
  rw [abs_le] at a1 a2 ⊢
  constructor <;> nlinarith [a1.1, a1.2, a2.1, a2.2]

theorem central2 {f : ℕ → ℝ → ℝ} {x h M : ℝ} (hh : 0 < h) (hf : Derivs 4 f (Icc (x - h) (x + h))) (hM : ∀ y ∈ Icc (x - h) (x + h), |f 4 y| ≤ M) :
    |(f 0 (x + h) + f 0 (x - h) - 2 * f 0 x) / h ^ 2 - f 2 x| ≤ M * h ^ 2 / 12 := by
  have a1 := taylor 4 (fun n hn y hy => hf n hn y ⟨by linarith [hy.1], hy.2⟩) (fun y hy => hM y ⟨by linarith [hy.1], hy.2⟩) h ⟨hh.le, le_rfl⟩
  have a2 := taylor_back (N := 4) (fun n hn y hy => hf n hn y ⟨hy.1, by linarith [hy.2]⟩) (fun y hy => hM y ⟨hy.1, by linarith [hy.2]⟩) (u := h) ⟨hh.le, le_rfl⟩
  simp only [Finset.sum_range_succ, Finset.sum_range_zero, Nat.factorial, pow_zero, pow_one] at a1 a2
  norm_num at a1 a2
  have h2 : 0 < h ^ 2 := by positivity
  have e : (f 0 (x + h) + f 0 (x - h) - 2 * f 0 x) / h ^ 2 - f 2 x = (f 0 (x + h) + f 0 (x - h) - 2 * f 0 x - h ^ 2 * f 2 x) / h ^ 2 := by field_simp
  rw [e, abs_div, abs_of_pos h2, div_le_iff₀ h2]
  rw [abs_le] at a1 a2 ⊢
  constructor <;> nlinarith [a1.1, a1.2, a2.1, a2.2]


theorem diff_bound {a d : ℝ → ℝ} {x k M : ℝ} (hk : 0 < k) (h : ∀ y ∈ Icc (x - k) (x + k), HasDerivAt a (d y) y ∧ |d y| ≤ M) : |(a (x + k) - a (x - k)) / (2 * k)| ≤ M := by
  have := Convex.norm_image_sub_le_of_norm_hasDerivWithin_le (f := a) (f' := d) (C := M) (s := Icc (x - k) (x + k)) (fun y hy => (h y hy).1.hasDerivWithinAt) (fun y hy => (h y hy).2)
    (convex_Icc _ _) (show x - k ∈ Icc (x - k) (x + k) from ⟨le_rfl, by linarith⟩) (show x + k ∈ Icc (x - k) (x + k) from ⟨by linarith, le_rfl⟩)
  rw [norm_eq_abs, norm_eq_abs, show x + k - (x - k) = 2 * k by ring, abs_of_pos (show 0 < 2 * k by positivity)] at this
  rw [abs_div, abs_of_pos (show 0 < 2 * k by positivity), div_le_iff₀ (by positivity)]
  exact this

section
variable {f : ℕ → ℝ → ℝ → ℝ} {d : ℝ → ℝ → ℝ} {g : ℕ → ℝ → ℝ} {x y h k M M' : ℝ}

theorem mixF (hh : 0 < h) (hk : 0 < k) (hf : ∀ v ∈ Icc (y - k) (y + k), Derivs 3 (fun n u => f n u v) (Icc x (x + 2 * h)))
    (hd : ∀ u ∈ Icc x (x + 2 * h), ∀ v ∈ Icc (y - k) (y + k), HasDerivAt (f 3 u) (d u v) v ∧ |d u v| ≤ M)
    (hg : Derivs 3 g (Icc (y - k) (y + k))) (g0 : ∀ v, g 0 v = f 1 x v) (hM : ∀ v ∈ Icc (y - k) (y + k), |g 3 v| ≤ M') :
    |(-1.5 * f 0 x (y + k) + 2 * f 0 (x + h) (y + k) - 0.5 * f 0 (x + 2 * h) (y + k) + 1.5 * f 0 x (y - k) - 2 * f 0 (x + h) (y - k) + 0.5 * f 0 (x + 2 * h) (y - k)) / h / (2 * k)
      - g 1 y| ≤ M * h ^ 2 + M' * k ^ 2 / 6 := by
  have p : y + k ∈ Icc (y - k) (y + k) := ⟨by linarith, le_rfl⟩
  have q : y - k ∈ Icc (y - k) (y + k) := ⟨le_rfl, by linarith⟩
  have a := forward1 (f := fun n u => (f n u (y + k) - f n u (y - k)) / (2 * k)) (M := M) hh
    (fun n hn u hu => ((hf _ p n hn u hu).sub (hf _ q n hn u hu)).div_const _) (fun u hu => diff_bound hk (hd u hu))
  have b := central1 hk hg hM
  rw [g0, g0] at b
  have := abs_add_le ((-1.5 * ((f 0 x (y + k) - f 0 x (y - k)) / (2 * k)) + 2 * ((f 0 (x + h) (y + k) - f 0 (x + h) (y - k)) / (2 * k))
    - 0.5 * ((f 0 (x + 2 * h) (y + k) - f 0 (x + 2 * h) (y - k)) / (2 * k))) / h - (f 1 x (y + k) - f 1 x (y - k)) / (2 * k)) ((f 1 x (y + k) - f 1 x (y - k)) / (2 * k) - g 1 y)
  refine le_trans (le_of_eq ?_) (this.trans (add_le_add a b))
  congr 1
  have := hh.ne'
  have := hk.ne'
  field_simp
  ring

theorem mixC (hh : 0 < h) (hk : 0 < k) (hf : ∀ v ∈ Icc (y - k) (y + k), Derivs 3 (fun n u => f n u v) (Icc (x - h) (x + h)))
    (hd : ∀ u ∈ Icc (x - h) (x + h), ∀ v ∈ Icc (y - k) (y + k), HasDerivAt (f 3 u) (d u v) v ∧ |d u v| ≤ M)
    (hg : Derivs 3 g (Icc (y - k) (y + k))) (g0 : ∀ v, g 0 v = f 1 x v) (hM : ∀ v ∈ Icc (y - k) (y + k), |g 3 v| ≤ M') :
    |(f 0 (x + h) (y + k) - f 0 (x - h) (y + k) - f 0 (x + h) (y - k) + f 0 (x - h) (y - k)) / (2 * k) / h / 2 - g 1 y| ≤ M * h ^ 2 / 6 + M' * k ^ 2 / 6 := by
  have p : y + k ∈ Icc (y - k) (y + k) := ⟨by linarith, le_rfl⟩
  have q : y - k ∈ Icc (y - k) (y + k) := ⟨le_rfl, by linarith⟩
  have a := central1 (f := fun n u => (f n u (y + k) - f n u (y - k)) / (2 * k)) (M := M) hh
    (fun n hn u hu => ((hf _ p n hn u hu).sub (hf _ q n hn u hu)).div_const _) (fun u hu => diff_bound hk (hd u hu))
  have b := central1 hk hg hM
  rw [g0, g0] at b
  have := abs_add_le (((f 0 (x + h) (y + k) - f 0 (x + h) (y - k)) / (2 * k) - (f 0 (x - h) (y + k) - f 0 (x - h) (y - k)) / (2 * k)) / (2 * h)
    - (f 1 x (y + k) - f 1 x (y - k)) / (2 * k)) ((f 1 x (y + k) - f 1 x (y - k)) / (2 * k) - g 1 y)
  refine le_trans (le_of_eq ?_) (this.trans (add_le_add a b))
  congr 1
  have := hh.ne'
  have := hk.ne'
  field_simp
  ring

end

end C93aux
open C93aux

/-- The numerical forces are minus the derivatives of the potential up to a multiple of the square of the step, for every potential with three bounded derivatives on
the points used. -/
theorem C93_forces (s : NumDeriv.Steps) (ev : ℝ → ℝ → ℝ → ℝ → ℝ) (R z φ t M : ℝ) (f : ℕ → ℝ → ℝ) :
    ((∀ x, f 0 x = ev x z φ t) → 0 < s.dR → Derivs 3 f (Icc R (R + 2 * s.dR)) → (∀ x ∈ Icc R (R + 2 * s.dR), |f 3 x| ≤ M) →
      |NumDeriv.Rforce s ev R z φ t - -f 1 R| ≤ M * s.dR ^ 2) ∧
    ((∀ x, f 0 x = ev R x φ t) → 0 < s.dz → Derivs 3 f (Icc (z - s.dz) (z + s.dz)) → (∀ x ∈ Icc (z - s.dz) (z + s.dz), |f 3 x| ≤ M) →
      |NumDeriv.zforce s ev R z φ t - -f 1 z| ≤ M * s.dz ^ 2 / 6) ∧
    ((∀ x, f 0 x = ev R z x t) → 0 < s.dphi → Derivs 3 f (Icc (φ - s.dphi) (φ + s.dphi)) → (∀ x ∈ Icc (φ - s.dphi) (φ + s.dphi), |f 3 x| ≤ M) →
      |NumDeriv.phitorque s true ev R z φ t - -f 1 φ| ≤ M * s.dphi ^ 2 / 6) := by
  refine ⟨fun e h d b => ?_, fun e h d b => ?_, fun e h d b => ?_⟩
  · have := forward1 h d b
    rw [e, e, e, ← abs_neg] at this
    refine le_trans (le_of_eq ?_) this
    rw [NumDeriv.Rforce]
    congr 1
    have := h.ne'
    simp only [show (R + 2 * s.dR - R) / 2 = s.dR by ring]
    ring
  · have := central1 h d b
    rw [e, e, ← abs_neg] at this
    refine le_trans (le_of_eq ?_) this
    rw [NumDeriv.zforce]
    congr 1
    simp only [show z + s.dz - (z - s.dz) = 2 * s.dz by ring]
    ring
  · have := central1 h d b
    rw [e, e, ← abs_neg] at this
    refine le_trans (le_of_eq ?_) this
    rw [NumDeriv.phitorque]
    congr 1
    simp only [show φ + s.dphi - (φ - s.dphi) = 2 * s.dphi by ring, Bool.not_true, Bool.false_eq_true, if_false]
    ring

/-- The numerical second derivatives, likewise with four bounded derivatives. -/
theorem C93_second (s : NumDeriv.Steps) (ev : ℝ → ℝ → ℝ → ℝ → ℝ) (R z φ t M : ℝ) (f : ℕ → ℝ → ℝ) :
    ((∀ x, f 0 x = ev x z φ t) → 0 < s.dR2 → Derivs 4 f (Icc R (R + 3 * s.dR2)) → (∀ x ∈ Icc R (R + 3 * s.dR2), |f 4 x| ≤ M) →
      |NumDeriv.R2deriv s ev R z φ t - f 2 R| ≤ 6.25 * M * s.dR2 ^ 2) ∧
    ((∀ x, f 0 x = ev R x φ t) → 0 < s.dz2 → Derivs 4 f (Icc (z - s.dz2) (z + s.dz2)) → (∀ x ∈ Icc (z - s.dz2) (z + s.dz2), |f 4 x| ≤ M) →
      |NumDeriv.z2deriv s ev R z φ t - f 2 z| ≤ M * s.dz2 ^ 2 / 12) ∧
    ((∀ x, f 0 x = ev R z x t) → 0 < s.dphi2 → Derivs 4 f (Icc (φ - s.dphi2) (φ + s.dphi2)) → (∀ x ∈ Icc (φ - s.dphi2) (φ + s.dphi2), |f 4 x| ≤ M) →
      |NumDeriv.phi2deriv s true ev R z φ t - f 2 φ| ≤ M * s.dphi2 ^ 2 / 12) := by
  refine ⟨fun e h d b => ?_, fun e h d b => ?_, fun e h d b => ?_⟩
  · have := forward2 h d b
    rw [e, e, e, e] at this
    refine le_trans (le_of_eq ?_) this
    rw [NumDeriv.R2deriv]
    simp only [show (R + 3 * s.dR2 - R) / 3 = s.dR2 by ring, one_mul]
  · have := central2 h d b
    rw [e, e, e] at this
    refine le_trans (le_of_eq ?_) this
    rw [NumDeriv.z2deriv]
    simp only [show (z + s.dz2 - (z - s.dz2)) / 2 = s.dz2 by ring]
  · have := central2 h d b
    rw [e, e, e] at this
    refine le_trans (le_of_eq ?_) this
    rw [NumDeriv.phi2deriv]
    simp only [show (φ + s.dphi2 - (φ - s.dphi2)) / 2 = s.dphi2 by ring, Bool.not_true, Bool.false_eq_true, if_false]

/-- The numerical mixed derivatives. -/
theorem C93_mixed (s : NumDeriv.Steps) (ev : ℝ → ℝ → ℝ → ℝ → ℝ) (R z φ t M M' : ℝ) (f : ℕ → ℝ → ℝ → ℝ) (d : ℝ → ℝ → ℝ) (g : ℕ → ℝ → ℝ) (hR : 0 < s.dR2) (hz : 0 < s.dz2) (hp : 0 < s.dphi2) :
    ((∀ x y, f 0 x y = ev x y φ t) → (∀ v ∈ Icc (z - s.dz2) (z + s.dz2), Derivs 3 (fun n u => f n u v) (Icc R (R + 2 * s.dR2))) →
      (∀ u ∈ Icc R (R + 2 * s.dR2), ∀ v ∈ Icc (z - s.dz2) (z + s.dz2), HasDerivAt (f 3 u) (d u v) v ∧ |d u v| ≤ M) →
      Derivs 3 g (Icc (z - s.dz2) (z + s.dz2)) → (∀ v, g 0 v = f 1 R v) → (∀ v ∈ Icc (z - s.dz2) (z + s.dz2), |g 3 v| ≤ M') →
      |NumDeriv.Rzderiv s ev R z φ t - g 1 z| ≤ M * s.dR2 ^ 2 + M' * s.dz2 ^ 2 / 6) ∧
    ((∀ x y, f 0 x y = ev x z y t) → (∀ v ∈ Icc (φ - s.dphi2) (φ + s.dphi2), Derivs 3 (fun n u => f n u v) (Icc R (R + 2 * s.dR2))) →
      (∀ u ∈ Icc R (R + 2 * s.dR2), ∀ v ∈ Icc (φ - s.dphi2) (φ + s.dphi2), HasDerivAt (f 3 u) (d u v) v ∧ |d u v| ≤ M) →
      Derivs 3 g (Icc (φ - s.dphi2) (φ + s.dphi2)) → (∀ v, g 0 v = f 1 R v) → (∀ v ∈ Icc (φ - s.dphi2) (φ + s.dphi2), |g 3 v| ≤ M') →
      |NumDeriv.Rphideriv s true ev R z φ t - g 1 φ| ≤ M * s.dR2 ^ 2 + M' * s.dphi2 ^ 2 / 6) ∧
    ((∀ x y, f 0 x y = ev R y x t) → (∀ v ∈ Icc (z - s.dz2) (z + s.dz2), Derivs 3 (fun n u => f n u v) (Icc (φ - s.dphi2) (φ + s.dphi2))) →
      (∀ u ∈ Icc (φ - s.dphi2) (φ + s.dphi2), ∀ v ∈ Icc (z - s.dz2) (z + s.dz2), HasDerivAt (f 3 u) (d u v) v ∧ |d u v| ≤ M) →
      Derivs 3 g (Icc (z - s.dz2) (z + s.dz2)) → (∀ v, g 0 v = f 1 φ v) → (∀ v ∈ Icc (z - s.dz2) (z + s.dz2), |g 3 v| ≤ M') →
      |NumDeriv.phizderiv s true ev R z φ t - g 1 z| ≤ M * s.dphi2 ^ 2 / 6 + M' * s.dz2 ^ 2 / 6) := by
  refine ⟨fun e h1 h2 h3 h4 h5 => ?_, fun e h1 h2 h3 h4 h5 => ?_, fun e h1 h2 h3 h4 h5 => ?_⟩
  · have := mixF hR hz h1 h2 h3 h4 h5
    simp only [e] at this
    refine le_trans (le_of_eq ?_) this
    rw [NumDeriv.Rzderiv]
    simp only [show (R + 2 * s.dR2 - R) / 2 = s.dR2 by ring, show z + s.dz2 - (z - s.dz2) = 2 * s.dz2 by ring]
  · have := mixF hR hp h1 h2 h3 h4 h5
    simp only [e] at this
    refine le_trans (le_of_eq ?_) this
    rw [NumDeriv.Rphideriv]
    simp only [show (R + 2 * s.dR2 - R) / 2 = s.dR2 by ring, show φ + s.dphi2 - (φ - s.dphi2) = 2 * s.dphi2 by ring, Bool.not_true, Bool.false_eq_true, if_false]
  · have := mixC hp hz h1 h2 h3 h4 h5
    simp only [e] at this
    refine le_trans (le_of_eq ?_) this
    rw [NumDeriv.phizderiv]
    simp only [show (φ + s.dphi2 - (φ - s.dphi2)) / 2 = s.dphi2 by ring, show z + s.dz2 - (z - s.dz2) = 2 * s.dz2 by ring, Bool.not_true, Bool.false_eq_true, if_false]

/-- For every potential that has derivatives at a point the numerical forces tend to its forces when the steps tend to zero. -/
theorem C93_limit {P : Pot} {R z φ t : ℝ} (h : GradAt P R z φ t) (s : NumDeriv.Steps) :
    Tendsto (fun x => NumDeriv.Rforce { s with dR := x } P.val R z φ t) (𝓝[>] 0) (𝓝 (P.Rforce R z φ t)) ∧
    Tendsto (fun x => NumDeriv.zforce { s with dz := x } P.val R z φ t) (𝓝[>] 0) (𝓝 (P.zforce R z φ t)) ∧
    Tendsto (fun x => NumDeriv.phitorque { s with dphi := x } true P.val R z φ t) (𝓝[>] 0) (𝓝 (P.phitorque R z φ t)) := by
  have key : ∀ {g : ℝ → ℝ} {g' x : ℝ}, HasDerivAt g g' x → ∀ c : ℝ, c ≠ 0 → Tendsto (fun u => (g (x + c * u) - g x) / u) (𝓝[>] 0) (𝓝 (c * g')) := by
    intro g g' x hg c hc
    have h1 : HasDerivAt (fun u => g (x + c * u)) (g' * (c * 1)) 0 := by
      refine HasDerivAt.comp (h₂ := g) (h := fun u => x + c * u) 0 (by simpa using hg) (((hasDerivAt_id (0 : ℝ)).const_mul c).const_add x)
    have := (hasDerivAt_iff_tendsto_slope_zero.1 h1).mono_left (nhdsWithin_mono 0 (fun u (hu : 0 < u) => hu.ne'))
    simp only [zero_add, mul_zero, add_zero, mul_one, smul_eq_mul] at this
    rw [mul_comm c]
    refine this.congr fun u => ?_
    rw [div_eq_inv_mul]
  refine ⟨?_, ?_, ?_⟩
  · have a := ((key h.dR 1 one_ne_zero).const_mul (-2)).add ((key h.dR 2 two_ne_zero).const_mul (1 / 2))
    rw [show -2 * (1 * -P.Rforce R z φ t) + 1 / 2 * (2 * -P.Rforce R z φ t) = P.Rforce R z φ t by ring] at a
    refine a.congr fun u => ?_
    simp only [NumDeriv.Rforce, show (R + 2 * u - R) / 2 = u by ring, one_mul]
    ring
  · have a := ((key h.dz 1 one_ne_zero).const_mul (-1 / 2)).add ((key h.dz (-1) (by norm_num)).const_mul (1 / 2))
    rw [show -1 / 2 * (1 * -P.zforce R z φ t) + 1 / 2 * (-1 * -P.zforce R z φ t) = P.zforce R z φ t by ring] at a
    refine a.congr fun u => ?_
    simp only [NumDeriv.zforce, show z + u - (z - u) = 2 * u by ring, one_mul, show z + -1 * u = z - u by ring]
    rw [mul_comm 2 u, ← div_div]
    ring
  · have a := ((key h.dphi 1 one_ne_zero).const_mul (-1 / 2)).add ((key h.dphi (-1) (by norm_num)).const_mul (1 / 2))
    rw [show -1 / 2 * (1 * -P.phitorque R z φ t) + 1 / 2 * (-1 * -P.phitorque R z φ t) = P.phitorque R z φ t by ring] at a
    refine a.congr fun u => ?_
    simp only [NumDeriv.phitorque, show φ + u - (φ - u) = 2 * u by ring, one_mul, show φ + -1 * u = φ - u by ring, Bool.not_true, Bool.false_eq_true, if_false]
    rw [mul_comm 2 u, ← div_div]
    ring

example (s : NumDeriv.Steps) : Tendsto (fun x => NumDeriv.Rforce { s with dR := x } ((Plummer.pot 1).scale 3).val 1 1 0 0) (𝓝[>] 0) (𝓝 (((Plummer.pot 1).scale 3).Rforce 1 1 0 0)) :=
  (C93_limit (C01_Plummer 3 1 1 1 0 0 (by norm_num)) s).1

/-- Axisymmetric potentials have no azimuthal derivatives; the vertical force vanishes in the plane of a potential symmetric about it; no value at a smaller
radius is used; without keywords the steps are `1e-8` and `1e-4`. -/
theorem C93_structure (s : NumDeriv.Steps) (ev : ℝ → ℝ → ℝ → ℝ → ℝ) (R z φ t : ℝ) :
    (NumDeriv.phitorque s false ev R z φ t = 0 ∧ NumDeriv.phi2deriv s false ev R z φ t = 0 ∧ NumDeriv.Rphideriv s false ev R z φ t = 0 ∧ NumDeriv.phizderiv s false ev R z φ t = 0) ∧
    ((∀ x y, ev R (-x) y t = ev R x y t) → NumDeriv.zforce s ev R 0 φ t = 0) ∧
    (∀ (b : Bool) (ev' : ℝ → ℝ → ℝ → ℝ → ℝ), 0 ≤ s.dR → 0 ≤ s.dR2 → (∀ x, R ≤ x → ev x = ev' x) →
      NumDeriv.Rforce s ev R z φ t = NumDeriv.Rforce s ev' R z φ t ∧ NumDeriv.zforce s ev R z φ t = NumDeriv.zforce s ev' R z φ t ∧
      NumDeriv.phitorque s b ev R z φ t = NumDeriv.phitorque s b ev' R z φ t ∧ NumDeriv.R2deriv s ev R z φ t = NumDeriv.R2deriv s ev' R z φ t ∧
      NumDeriv.z2deriv s ev R z φ t = NumDeriv.z2deriv s ev' R z φ t ∧ NumDeriv.phi2deriv s b ev R z φ t = NumDeriv.phi2deriv s b ev' R z φ t ∧
      NumDeriv.Rzderiv s ev R z φ t = NumDeriv.Rzderiv s ev' R z φ t ∧ NumDeriv.Rphideriv s b ev R z φ t = NumDeriv.Rphideriv s b ev' R z φ t ∧
      NumDeriv.phizderiv s b ev R z φ t = NumDeriv.phizderiv s b ev' R z φ t) ∧
    NumDeriv.init none none none none none none = ⟨1e-8, 1e-8, 1e-8, 1e-4, 1e-4, 1e-4⟩ ∧
    ∀ a b c d e f, NumDeriv.init (some a) (some b) (some c) (some d) (some e) (some f) = ⟨a, b, c, d, e, f⟩ := by
  refine ⟨⟨rfl, rfl, rfl, rfl⟩, fun h => ?_, fun b ev' h1 h2 e => ?_, rfl, fun _ _ _ _ _ _ => rfl⟩
  · simp only [NumDeriv.zforce, zero_sub, zero_add, h, sub_self, zero_div]
  · have e0 := e R le_rfl
    have e1 := e (R + s.dR) (by linarith)
    have e2 := e (R + 2 * s.dR) (by linarith)
    have e3 := e (R + s.dR2) (by linarith)
    have e4 := e (R + 2 * s.dR2) (by linarith)
    have e5 := e (R + 3 * s.dR2) (by linarith)
    refine ⟨?_, ?_, ?_, ?_, ?_, ?_, ?_, ?_, ?_⟩
    · simp only [NumDeriv.Rforce, e0, e1, e2]
    · simp only [NumDeriv.zforce, e0]
    · simp only [NumDeriv.phitorque, e0]
    · simp only [NumDeriv.R2deriv, e0, e3, e4, e5]
    · simp only [NumDeriv.z2deriv, e0]
    · simp only [NumDeriv.phi2deriv, e0]
    · simp only [NumDeriv.Rzderiv, e0, e3, e4]
    · simp only [NumDeriv.Rphideriv, e0, e3, e4]
    · simp only [NumDeriv.phizderiv, e0]

/-! ### Cases -/

/-- The successive derivatives of the exponential with alternating signs. -/
example (s : NumDeriv.Steps) (h : 0 < s.dR) (z : ℝ) : |NumDeriv.Rforce s (fun R z _ _ => exp R * z) 0 z 0 0 - -z| ≤ |z| * exp (2 * s.dR) * s.dR ^ 2 := by
  have := (C93_forces s (fun R z _ _ => exp R * z) 0 z 0 0 (|z| * exp (2 * s.dR)) (fun _ x => exp x * z)).1 (fun _ => rfl) h
    (fun n _ x _ => (hasDerivAt_exp x).mul_const z) (fun x hx => by
      rw [abs_mul, abs_of_pos (exp_pos x), mul_comm]
      refine mul_le_mul_of_nonneg_left (exp_le_exp.2 (by linarith [hx.2])) (abs_nonneg _))
  simpa using this

example (s : NumDeriv.Steps) (h : 0 < s.dR2) : |NumDeriv.R2deriv s (fun R _ _ _ => exp R) 0 0 0 0 - 1| ≤ 6.25 * exp (3 * s.dR2) * s.dR2 ^ 2 := by
  have := (C93_second s (fun R _ _ _ => exp R) 0 0 0 0 (exp (3 * s.dR2)) (fun _ x => exp x)).1 (fun _ => rfl) h
    (fun n _ x _ => hasDerivAt_exp x) (fun x hx => by
      rw [abs_of_pos (exp_pos x)]
      exact exp_le_exp.2 (by linarith [hx.2]))
  simpa using this

example (s : NumDeriv.Steps) (h : 0 < s.dR2) (hz : 0 < s.dz2) (hp : 0 < s.dphi2) :
    |NumDeriv.Rzderiv s (fun R z _ _ => exp (R + z)) 0 0 0 0 - 1| ≤ exp (2 * s.dR2 + s.dz2) * s.dR2 ^ 2 + exp s.dz2 * s.dz2 ^ 2 / 6 := by
  have hd : ∀ c x : ℝ, HasDerivAt (fun x => exp (x + c)) (exp (x + c)) x := fun c x => by
    simpa using ((hasDerivAt_id x).add_const c).exp
  have hd' : ∀ c x : ℝ, HasDerivAt (fun x => exp (c + x)) (exp (c + x)) x := fun c x => by
    simpa using ((hasDerivAt_id x).const_add c).exp
  have := (C93_mixed s (fun R z _ _ => exp (R + z)) 0 0 0 0 (exp (2 * s.dR2 + s.dz2)) (exp s.dz2) (fun _ x y => exp (x + y)) (fun x y => exp (x + y)) (fun _ y => exp (0 + y)) h hz hp).1
    (fun _ _ => rfl) (fun v _ n _ u _ => hd v u) (fun u hu v hv => ⟨hd' u v, by
      rw [abs_of_pos (exp_pos _)]
      exact exp_le_exp.2 (by linarith [hu.2, hv.2])⟩) (fun n _ v _ => hd' 0 v) (fun _ => rfl) (fun v hv => by
      rw [abs_of_pos (exp_pos _)]
      exact exp_le_exp.2 (by linarith [hv.2]))
  simpa using this

end Verif
